import Verif.Libm.TrigS
import Verif.Libm.RemPio2All
/-! # `sin`, `cos` and `sincos` are faithfully rounded -/
namespace Verif
open Fmt

/-- `f64` value as a real -/
local notation "V" => Fmt.valK f64 ℝ

namespace Trig
open Pio2 Hypot

theorem low2_eq (n : ℤ) : (low2 n : ℤ) = n % 4 := by
  unfold low2
  rw [BitVec.toNat_and, BitVec.toNat_ofInt, show (3#32).toNat = 2 ^ 2 - 1 from rfl, Nat.and_two_pow_sub_one_eq_mod]
  omega

theorem low2_lt (n : ℤ) : low2 n < 4 := by have := low2_eq n; omega

/-- quadrants -/
theorem sin_quad (T : ℝ) (k : ℤ) : (k % 4 = 0 → Real.sin (T + k * (Real.pi / 2)) = Real.sin T) ∧ (k % 4 = 1 → Real.sin (T + k * (Real.pi / 2)) = Real.cos T) ∧
    (k % 4 = 2 → Real.sin (T + k * (Real.pi / 2)) = -Real.sin T) ∧ (k % 4 = 3 → Real.sin (T + k * (Real.pi / 2)) = -Real.cos T) := by
  have key : ∀ r : ℤ, k % 4 = r → Real.sin (T + k * (Real.pi / 2)) = Real.sin (T + r * (Real.pi / 2)) := by
    intro r hr
    have hk : k = 4 * (k / 4) + r := by omega
    have hkR : (k : ℝ) = 4 * ((k / 4 : ℤ) : ℝ) + r := by exact_mod_cast hk
    rw [hkR, show T + (4 * ((k / 4 : ℤ) : ℝ) + r) * (Real.pi / 2) = T + r * (Real.pi / 2) + ((k / 4 : ℤ) : ℝ) * (2 * Real.pi) by ring,
      Real.sin_add_int_mul_two_pi]
  refine ⟨fun h => ?_, fun h => ?_, fun h => ?_, fun h => ?_⟩ <;> rw [key _ h]
  · simp
  · rw [Int.cast_one, one_mul, Real.sin_add_pi_div_two]
  · rw [show T + ((2 : ℤ) : ℝ) * (Real.pi / 2) = T + Real.pi by push_cast; ring, Real.sin_add_pi]
  · rw [show T + ((3 : ℤ) : ℝ) * (Real.pi / 2) = T + Real.pi / 2 + Real.pi by push_cast; ring, Real.sin_add_pi, Real.sin_add_pi_div_two]

theorem cos_quad (T : ℝ) (k : ℤ) : (k % 4 = 0 → Real.cos (T + k * (Real.pi / 2)) = Real.cos T) ∧ (k % 4 = 1 → Real.cos (T + k * (Real.pi / 2)) = -Real.sin T) ∧
    (k % 4 = 2 → Real.cos (T + k * (Real.pi / 2)) = -Real.cos T) ∧ (k % 4 = 3 → Real.cos (T + k * (Real.pi / 2)) = Real.sin T) := by
  have h := sin_quad T (k + 1)
  have e : Real.sin (T + ((k + 1 : ℤ) : ℝ) * (Real.pi / 2)) = Real.cos (T + k * (Real.pi / 2)) := by
    rw [show T + ((k + 1 : ℤ) : ℝ) * (Real.pi / 2) = T + k * (Real.pi / 2) + Real.pi / 2 by push_cast; ring, Real.sin_add_pi_div_two]
  rw [e] at h
  exact ⟨fun h' => h.2.1 (by omega), fun h' => h.2.2.1 (by omega), fun h' => h.2.2.2 (by omega), fun h' => h.1 (by omega)⟩

theorem fv_phalf : Fv chalf (2 ^ (-1 : ℤ)) := by have := fv_chalf; norm_num at this ⊢; exact this

theorem sin_low {X : ℝ} (h1 : |X| ≤ 0.78541) : (1 - 0.168 * (X * X)) * |X| ≤ |Real.sin X| := by
  have h := sin_cubic (h1.trans (by norm_num))
  have h2 := abs_sub_abs_le_abs_sub X (Real.sin X)
  have hXX : X * X = |X| * |X| := (abs_mul_abs_self X).symm
  have h0 := abs_nonneg X
  have h6 : |X| ^ 6 / 500 ≤ 0.0013 * |X| ^ 3 := by
    have : |X| ^ 3 ≤ 0.5 := (pow_le_pow_left₀ h0 h1 3).trans (by norm_num)
    have h3 : (0 : ℝ) ≤ |X| ^ 3 := by positivity
    have e : |X| ^ 6 = |X| ^ 3 * |X| ^ 3 := by ring
    rw [e]
    nlinarith
  have e : (1 - 0.168 * (X * X)) * |X| = |X| - 0.168 * |X| ^ 3 := by rw [hXX]; ring
  rw [e]
  norm_num at *
  have h3 : (0 : ℝ) ≤ |X| ^ 3 := by positivity
  linarith

theorem kSin_faithful {N : FPU f64} {x y : D} {X Y T : ℝ} (hx : Fv x X) (hy : Fv y Y) (h0 : 2 ^ (-70 : ℤ) ≤ |X|) (h1 : |X| ≤ 0.78541)
    (hY : |Y| ≤ 1.502 / 2 ^ 53 * |X|) {iy : Int} (hiy : iy = 0 → Y = 0) (hT : |T - (X + Y)| ≤ 1 / 2 ^ 64 * |X|) :
    f64.FaithfulTo (Real.sin T) (kSin N x y iy) := by
  obtain ⟨v, hn, hv, hv'⟩ := kSin_spec (N := N) hx hy h0 h1 hY hiy
  have hX0 : 0 < |X| := lt_of_lt_of_le (by positivity) h0
  have hXX : X * X = |X| * |X| := (abs_mul_abs_self X).symm
  have hlow := sin_low h1
  have hd := Real.abs_sin_sub_sin_le T (X + Y)
  have hd2 := Real.abs_sin_sub_sin_le T X
  have hTX : |T - X| ≤ 1 / 2 ^ 52 * |X| := by
    have := abs_add_le (T - (X + Y)) Y
    rw [show T - (X + Y) + Y = T - X by ring] at this
    norm_num at *
    linarith
  have hsT : |Real.sin X| - 1 / 2 ^ 52 * |X| ≤ |Real.sin T| := by
    have := abs_sub_abs_le_abs_sub (Real.sin X) (Real.sin T)
    rw [abs_sub_comm] at this
    linarith
  have htri := abs_add_le (v - Real.sin (X + Y)) (Real.sin (X + Y) - Real.sin T)
  rw [sub_add_sub_cancel, abs_sub_comm (Real.sin (X + Y))] at htri
  rcases le_or_gt (X * X) 0.339 with hc | hc
  · have hv := hv' hc
    have hlow2 : 0.94 * |X| ≤ |Real.sin T| := by
      have : 0.943 * |X| ≤ (1 - 0.168 * (X * X)) * |X| := mul_le_mul_of_nonneg_right (by norm_num at *; linarith) hX0.le
      norm_num at *
      linarith
    refine hn.faithful_rel f64 ?_ (by rw [s64]; norm_num) ?_
    · intro h; rw [h, abs_zero] at hlow2; norm_num at hlow2; linarith
    · rw [s64]
      norm_num at *
      linarith
  · have hX5 : 0.582 ≤ |X| := by
      rw [hXX] at hc
      by_contra hcon
      rw [not_le] at hcon
      nlinarith
    have hXX1 : X * X ≤ 0.616869 := by rw [hXX]; norm_num at h1 ⊢; nlinarith
    have hlow2 : 0.52 ≤ |Real.sin T| := by
      have : 0.896 * |X| ≤ (1 - 0.168 * (X * X)) * |X| := mul_le_mul_of_nonneg_right (by norm_num at *; linarith) hX0.le
      norm_num at *
      linarith
    refine hn.faithful_absS f64 (δ := 0.45 / 2 ^ 53) fv_phalf.fin fv_phalf.val ?_ ?_ ?_
    · norm_num at *; linarith
    · norm_num at *; linarith
    · rw [s64]; norm_num

theorem kCos_faithful {N : FPU f64} {x y : D} {X Y T : ℝ} (hx : Fv x X) (hy : Fv y Y) (h0 : 2 ^ (-70 : ℤ) ≤ |X|) (h1 : |X| ≤ 0.78541)
    (hY : |Y| ≤ 1.502 / 2 ^ 53 * |X|) (hT : |T - (X + Y)| ≤ 1 / 2 ^ 64 * |X|) : f64.FaithfulTo (Real.cos T) (kCos N x y) := by
  obtain ⟨v, hn, hv⟩ := kCos_spec (N := N) hx hy h0 h1 hY
  have hX0 : 0 < |X| := lt_of_lt_of_le (by positivity) h0
  have hd := Real.abs_cos_sub_cos_le T (X + Y)
  have htri := abs_add_le (v - Real.cos (X + Y)) (Real.cos (X + Y) - Real.cos T)
  rw [sub_add_sub_cancel, abs_sub_comm (Real.cos (X + Y))] at htri
  have hTX : |T| ≤ 0.786 := by
    have a1 := abs_add_le (T - (X + Y)) (X + Y)
    have a2 := abs_add_le X Y
    rw [sub_add_cancel] at a1
    norm_num at *
    linarith
  have hcos : 0.69 ≤ |Real.cos T| := by
    refine le_trans ?_ (le_abs_self _)
    refine le_trans ?_ (Real.one_sub_sq_div_two_le_cos (x := T))
    have : T ^ 2 ≤ 0.786 ^ 2 := by rw [← sq_abs]; exact pow_le_pow_left₀ (abs_nonneg _) hTX 2
    norm_num at *
    linarith
  refine hn.faithful_absS f64 (δ := 0.46 / 2 ^ 53) fv_phalf.fin fv_phalf.val ?_ ?_ ?_
  · norm_num at *; linarith
  · norm_num at *; linarith
  · rw [s64]; norm_num

/-- what the argument reduction gives the kernels -/
theorem red_kernel {x : D} {X : ℝ} (hx : Fv x X) (hX : 1 / 2 ≤ |X|) {r : Int × D × D} (h : Red2 X r) :
    ∃ (k : ℤ) (r0 r1 : ℝ), (low2 r.1 : ℤ) = k % 4 ∧ Fv r.2.1 r0 ∧ Fv r.2.2 r1 ∧ 2 ^ (-70 : ℤ) ≤ |r0| ∧ |r0| ≤ 0.78541 ∧ |r1| ≤ 1.502 / 2 ^ 53 * |r0| ∧
      |X - k * (Real.pi / 2) - (r0 + r1)| ≤ 1 / 2 ^ 64 * |r0| := by
  obtain ⟨k, r0, r1, h1, f0, f1, h2, h3, h4⟩ := h
  have hd := dist_fv hx hX k
  have hpi := Real.pi_pos
  have p1 := pi_gt20
  have p2 := pi_lt20
  have hd2 : (2 : ℝ) ^ (-62 : ℤ) ≤ |X - k * (Real.pi / 2)| := by
    have e : X - k * (Real.pi / 2) = (X * (2 / Real.pi) - k) * (Real.pi / 2) := by field_simp
    rw [e, abs_mul, abs_of_pos (show 0 < Real.pi / 2 by linarith)]
    calc (2 : ℝ) ^ (-62 : ℤ) = 2 ^ (-62 : ℤ) * 1 := (mul_one _).symm
      _ ≤ _ := mul_le_mul hd (by linarith) (by norm_num) (abs_nonneg _)
  obtain ⟨S, hS⟩ : ∃ S, S = X - k * (Real.pi / 2) := ⟨_, rfl⟩
  rw [← hS] at h2 h4 hd2
  have t1 := abs_add_le (S - (r0 + r1)) (r0 + r1)
  have t2 := abs_add_le r0 r1
  rw [sub_add_cancel] at t1
  have t3 := abs_sub_abs_le_abs_sub (r0 + r1) S
  rw [abs_sub_comm] at t3
  have t4 := abs_sub_abs_le_abs_sub r0 (-r1)
  rw [abs_neg, sub_neg_eq_add] at t4
  refine ⟨k, r0, r1, by rw [low2_eq]; omega, f0, f1, ?_, ?_, h3, by rw [← hS]; exact h2⟩
  · have : 2 ^ (-62 : ℤ) ≤ 2 * |r0| := by norm_num at *; linarith
    norm_num at *
    linarith
  · norm_num at *
    linarith

section
variable (N : FPU f64) (p64 : Bool)

theorem hi_le {x : D} {X : ℝ} (hx : Fv x X) (h : Pio2.hi x ≤ 0x3fe921fb) : |X| ≤ 0.78541 := by
  have := (hi_lt hx (c := 0x3fe921fc) (q := 0x1921fc / 2 ^ 21) (by decide +kernel)).mp (by omega)
  push_cast at this
  norm_num at *
  linarith

theorem hi_gt {x : D} {X : ℝ} (hx : Fv x X) (h : 0x3fe921fb < Pio2.hi x) : 1 / 2 ≤ |X| := by
  by_contra hc
  rw [not_le] at hc
  have := (hi_lt hx (c := 0x3fe00000) (q := 1 / 2) (by decide +kernel)).mpr (by push_cast; exact hc)
  omega

theorem hi_ge27 {x : D} {X : ℝ} (hx : Fv x X) (h : 0x3e400000 ≤ Pio2.hi x) : 2 ^ (-70 : ℤ) ≤ |X| := by
  by_contra hc
  rw [not_le] at hc
  have := (hi_lt hx (c := 0x3e400000) (q := 1 / 2 ^ 27) (by decide +kernel)).mpr (by
    push_cast; refine hc.trans ?_; norm_num)
  omega

theorem sin_small {x : D} {X : ℝ} (hx : Fv x X) (h : Pio2.hi x < 0x3e500000) : f64.FaithfulTo (Real.sin X) x := by
  have := (hi_lt hx (c := 0x3e500000) (q := 1 / 2 ^ 26) (by decide +kernel)).mp h
  push_cast at this
  have hf := f64.faithful_sin hx.fin (by
    rw [hx.val, s64, ← sq_abs]
    have : |X| ^ 2 ≤ (1 / 2 ^ 26) ^ 2 := pow_le_pow_left₀ (abs_nonneg _) this.le 2
    norm_num at *
    linarith)
  rwa [hx.val] at hf

theorem cos_small {x : D} {X : ℝ} (hx : Fv x X) (h : Pio2.hi x < 0x3e46a09e) : f64.FaithfulTo (Real.cos X) cone := by
  have h1 := (hi_lt hx (c := 0x3e46a09e) (q := 0x16a09e / 2 ^ 47) (by decide +kernel)).mp h
  push_cast at h1
  refine f64.faithful_one fv_cone.fin fv_cone.val (Real.cos_le_one X) ?_
  have := Real.one_sub_sq_div_two_le_cos (x := X)
  have h2 : X ^ 2 ≤ (0x16a09e / 2 ^ 47) ^ 2 := by rw [← sq_abs]; exact pow_le_pow_left₀ (abs_nonneg _) h1.le 2
  rw [s64]
  norm_num at *
  linarith

/-- `x as i32` of a small number -/
theorem toI32_small {x : D} {X : ℝ} (hx : Fv x X) (h : |X| < 1) : toI32 x = .ok 0 := by
  obtain ⟨r, h2, h3⟩ := Props.C32_signed_finite (F := f64) (N := 32) ⟨by simp, by simp⟩ hx.fin
  have hq := val_of_fv hx
  have hq' : |f64.val x| < 1 := by
    have : ((|f64.val x| : ℚ) : ℝ) < ((1 : ℚ) : ℝ) := by push_cast; rw [hq]; exact h
    exact_mod_cast this
  rw [abs_lt] at hq'
  have : truncZ (f64.val x) = 0 := by
    unfold truncZ
    split
    · rw [neg_eq_zero, Int.floor_eq_zero_iff]; exact ⟨by linarith, by linarith⟩
    · rw [Int.floor_eq_zero_iff]; exact ⟨by linarith, by linarith⟩
  unfold toI32
  rw [h2]
  show Except.ok r.toInt = _
  rw [h3, satTrunc, this]
  rfl

theorem sincos_main {x : D} {X : ℝ} (hx : Fv x X) (hb : 0x3fe921fb < Pio2.hi x) : ∃ n y0 y1, remPio2 N p64 x = .ok (n, y0, y1) ∧ low2 n < 4 ∧
    (low2 n = 0 → f64.FaithfulTo (Real.sin X) (kSin N y0 y1 1) ∧ f64.FaithfulTo (Real.cos X) (kCos N y0 y1)) ∧
    (low2 n = 1 → f64.FaithfulTo (Real.sin X) (kCos N y0 y1) ∧ f64.FaithfulTo (Real.cos X) (f64.neg (kSin N y0 y1 1))) ∧
    (low2 n = 2 → f64.FaithfulTo (Real.sin X) (f64.neg (kSin N y0 y1 1)) ∧ f64.FaithfulTo (Real.cos X) (f64.neg (kCos N y0 y1))) ∧
    (low2 n = 3 → f64.FaithfulTo (Real.sin X) (f64.neg (kCos N y0 y1)) ∧ f64.FaithfulTo (Real.cos X) (kSin N y0 y1 1)) := by
  obtain ⟨⟨n, y0, y1⟩, h1, h2⟩ := remPio2_spec (N := N) (p64 := p64) hx hb
  obtain ⟨k, r0, r1, hk, f0, f1, g0, g1, g2, g3⟩ := red_kernel hx (hi_gt hx hb) h2
  have hs := kSin_faithful (N := N) (iy := 1) f0 f1 g0 g1 g2 (by simp) g3
  have hc := kCos_faithful (N := N) f0 f1 g0 g1 g2 g3
  have q1 := sin_quad (X - k * (Real.pi / 2)) k
  have q2 := cos_quad (X - k * (Real.pi / 2)) k
  rw [sub_add_cancel] at q1 q2
  refine ⟨n, y0, y1, h1, low2_lt n, fun h => ?_, fun h => ?_, fun h => ?_, fun h => ?_⟩ <;> rw [show low2 (n, y0, y1).1 = low2 n from rfl, h] at hk
  · rw [q1.1 hk.symm, q2.1 hk.symm]; exact ⟨hs, hc⟩
  · rw [q1.2.1 hk.symm, q2.2.1 hk.symm]; exact ⟨hc, hs.neg f64⟩
  · rw [q1.2.2.1 hk.symm, q2.2.2.1 hk.symm]; exact ⟨hs.neg f64, hc.neg f64⟩
  · rw [q1.2.2.2 hk.symm, q2.2.2.2 hk.symm]; exact ⟨hc.neg f64, hs⟩

theorem sin_spec {x : D} {X : ℝ} (hx : Fv x X) : Ok (sin N p64 x) (f64.FaithfulTo (Real.sin X)) := by
  have hdef : (x.toNat >>> 32) &&& 0x7fffffff = Pio2.hi x := rfl
  have hinf := hi_inf hx
  unfold sin
  simp only [hdef]
  by_cases h1 : Pio2.hi x ≤ 0x3fe921fb
  · rw [if_pos h1]
    by_cases h2 : Pio2.hi x < 0x3e500000
    · rw [if_pos h2]; exact ⟨x, rfl, sin_small hx h2⟩
    · rw [if_neg h2]
      refine ⟨_, rfl, kSin_faithful hx fv_zero (hi_ge27 hx (by omega)) (hi_le hx h1) (by rw [abs_zero]; positivity) (fun _ => rfl) ?_⟩
      rw [add_zero, sub_self, abs_zero]; positivity
  · rw [if_neg h1, if_neg (by omega)]
    obtain ⟨n, y0, y1, e, hl, c0, c1, c2, c3⟩ := sincos_main N p64 hx (by omega)
    rw [e, ok_bind]
    have : low2 n = 0 ∨ low2 n = 1 ∨ low2 n = 2 ∨ low2 n = 3 := by omega
    rcases this with h | h | h | h
    · simp only [h]; exact ⟨_, rfl, (c0 h).1⟩
    · simp only [h]; exact ⟨_, rfl, (c1 h).1⟩
    · simp only [h]; exact ⟨_, rfl, (c2 h).1⟩
    · simp only [h]; exact ⟨_, rfl, (c3 h).1⟩

theorem cos_spec {x : D} {X : ℝ} (hx : Fv x X) : Ok (cos N p64 x) (f64.FaithfulTo (Real.cos X)) := by
  have hdef : (x.toNat >>> 32) &&& 0x7fffffff = Pio2.hi x := rfl
  have hinf := hi_inf hx
  unfold cos
  simp only [hdef]
  by_cases h1 : Pio2.hi x ≤ 0x3fe921fb
  · rw [if_pos h1]
    by_cases h2 : Pio2.hi x < 0x3e46a09e
    · rw [if_pos h2, toI32_small hx (lt_of_le_of_lt (hi_le hx h1) (by norm_num)), ok_bind, if_pos rfl]
      exact ⟨_, rfl, cos_small hx h2⟩
    · rw [if_neg h2]
      refine ⟨_, rfl, kCos_faithful hx fv_zero (hi_ge27 hx (by omega)) (hi_le hx h1) (by rw [abs_zero]; positivity) ?_⟩
      rw [add_zero, sub_self, abs_zero]; positivity
  · rw [if_neg h1, if_neg (by omega)]
    obtain ⟨n, y0, y1, e, hl, c0, c1, c2, c3⟩ := sincos_main N p64 hx (by omega)
    rw [e, ok_bind]
    have : low2 n = 0 ∨ low2 n = 1 ∨ low2 n = 2 ∨ low2 n = 3 := by omega
    rcases this with h | h | h | h
    · simp only [h]; exact ⟨_, rfl, (c0 h).2⟩
    · simp only [h]; exact ⟨_, rfl, (c1 h).2⟩
    · simp only [h]; exact ⟨_, rfl, (c2 h).2⟩
    · simp only [h]; exact ⟨_, rfl, (c3 h).2⟩

theorem sincos_spec {x : D} {X : ℝ} (hx : Fv x X) :
    Ok (sincos N p64 x) fun r => f64.FaithfulTo (Real.sin X) r.1 ∧ f64.FaithfulTo (Real.cos X) r.2 := by
  have hdef : (x.toNat >>> 32) &&& 0x7fffffff = Pio2.hi x := rfl
  have hinf := hi_inf hx
  unfold sincos
  simp only [hdef]
  by_cases h1 : Pio2.hi x ≤ 0x3fe921fb
  · rw [if_pos h1]
    by_cases h2 : Pio2.hi x < 0x3e46a09e
    · rw [if_pos h2]
      exact ⟨_, rfl, sin_small hx (h2.trans (by norm_num)), cos_small hx h2⟩
    · rw [if_neg h2]
      refine ⟨_, rfl, kSin_faithful hx fv_zero (hi_ge27 hx (by omega)) (hi_le hx h1) (by rw [abs_zero]; positivity) (fun _ => rfl) ?_,
        kCos_faithful hx fv_zero (hi_ge27 hx (by omega)) (hi_le hx h1) (by rw [abs_zero]; positivity) ?_⟩ <;>
      · rw [add_zero, sub_self, abs_zero]; positivity
  · rw [if_neg h1, if_neg (by omega)]
    obtain ⟨n, y0, y1, e, hl, c0, c1, c2, c3⟩ := sincos_main N p64 hx (by omega)
    rw [e, ok_bind]
    have : low2 n = 0 ∨ low2 n = 1 ∨ low2 n = 2 ∨ low2 n = 3 := by omega
    rcases this with h | h | h | h
    · simp only [h]; exact ⟨_, rfl, c0 h⟩
    · simp only [h]; exact ⟨_, rfl, c1 h⟩
    · simp only [h]; exact ⟨_, rfl, c2 h⟩
    · simp only [h]; exact ⟨_, rfl, c3 h⟩

end
end Trig
end Verif
