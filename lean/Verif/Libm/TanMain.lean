import Verif.Libm.TanC
import Verif.Libm.TrigMain
/-! # `tan` of every finite argument -/
namespace Verif
open Fmt

/-- `f64` value as a real -/
local notation "V" => Fmt.valK f64 ℝ

namespace Trig
open Pio2 Hypot

theorem _root_.Verif.Fmt.Rounds.negR {F : Fmt} {x : ℝ} {r : BitVec F.w} (h : F.Rounds x r) : F.Rounds (-x) (F.neg r) := by
  refine ⟨by rw [abs_neg, F.mag_neg]; exact h.1, fun h0 => ?_⟩
  have h0' : x ≠ 0 := fun h => h0 (by rw [h, neg_zero])
  have := h.2 h0'
  rw [F.sign_neg, Bool.not_eq_true', ← Bool.not_eq_true, this, not_lt, neg_lt_zero]
  exact ⟨fun h => lt_of_le_of_ne h h0'.symm, le_of_lt⟩

theorem _root_.Verif.Trig.Close.neg {s : ℝ} {r : D} (h : Close s r) : Close (-s) (f64.neg r) := by
  obtain ⟨⟨v, h1, h2, h3⟩, h4⟩ := h
  refine ⟨⟨-v, h1.negR, by rwa [abs_neg], ?_⟩, neg_ne_zero.mpr h4⟩
  rw [neg_sub_neg, abs_sub_comm, abs_neg]; exact h3

/-- the error of the result -/
theorem Close.err {s : ℝ} {r : D} (h : Close s r) (hs : 1 / 2 ^ 80 ≤ |s|) : f64.IsFin r ∧ |V r - s| ≤ 1 / 2 ^ 52 * |s| := by
  obtain ⟨⟨v, h1, h2, h3⟩, h4⟩ := h
  obtain ⟨u, fu, hu⟩ := rnd_abs h1 h2
  refine ⟨fu.fin, ?_⟩
  rw [fu.val]
  have := abs_sub_le u v s
  have h5 := abs_sub_abs_le_abs_sub v s
  norm_num at *
  linarith

theorem sign64 (x : D) : decide ((x.toNat >>> 32) >>> 31 ≠ 0) = f64.sign x := by
  have hxlt : x.toNat < 2 ^ 64 := x.isLt
  rw [Bool.eq_iff_iff, decide_eq_true_iff]
  show _ ↔ x.msb = true
  rw [BitVec.msb_eq_true_iff_two_mul_ge, Nat.shiftRight_eq_div_pow, Nat.shiftRight_eq_div_pow]
  show ¬ x.toNat / 2 ^ 32 / 2 ^ 31 = 0 ↔ 2 ^ 64 ≤ 2 * x.toNat
  omega

theorem fv_sign {x : D} {X : ℝ} (h : Fv x X) (h0 : X ≠ 0) : (f64.sign x = true → X < 0) ∧ (f64.sign x = false → 0 < X) := by
  have hv : V x = X := h.val
  rw [← f64.valK_cast, f64.val_sign] at hv
  have hm : (0 : ℚ) ≤ f64.magVal ℚ (f64.mag x) := f64.magVal_nonneg ℚ _
  have hmR : (0 : ℝ) ≤ ((f64.magVal ℚ (f64.mag x) : ℚ) : ℝ) := by exact_mod_cast hm
  constructor <;> intro hs <;> rw [hs] at hv
  · simp only [if_true] at hv
    push_cast at hv
    exact lt_of_le_of_ne (by rw [← hv]; simpa using hmR) h0
  · simp only [Bool.false_eq_true, if_false] at hv
    push_cast at hv
    exact lt_of_le_of_ne (by rw [← hv]; simpa using hmR) (Ne.symm h0)

section
variable (N : FPU f64) (p64 : Bool)

theorem kTan_spec {x y : D} {X Y T : ℝ} (odd : Bool) (hx : Fv x X) (hy : Fv y Y) (h0 : 2 ^ (-70 : ℤ) ≤ |X|) (h1 : |X| ≤ 0.78541)
    (hY : |Y| ≤ 1.502 / 2 ^ 53 * |X|) (hT : |T - (X + Y)| ≤ 1 / 2 ^ 64 * |X|) :
    Close (tgt odd T) (kTan N x y odd) ∧ (|X| ≤ 0.48 ∨ 0.67434 ≤ |X| ∨ (odd = false ∧ Y = 0 ∧ T = X) → f64.FaithfulTo (tgt odd T) (kTan N x y odd)) := by
  have hX0 : 0 < |X| := lt_of_lt_of_le (by positivity) h0
  have hdef : (x.toNat >>> 32) &&& 0x7fffffff = Pio2.hi x := rfl
  have hlt := hi_lt hx (c := 0x3FE59428) (q := 1414184 / 2 ^ 21) (by decide +kernel)
  push_cast at hlt
  unfold kTan
  simp only [hdef, sign64]
  by_cases hb : Pio2.hi x ≥ 0x3FE59428
  · rw [if_pos hb]
    have hX1 : 1414184 / 2 ^ 21 ≤ |X| := by
      by_contra hc
      have := hlt.mpr (not_le.mp hc)
      omega
    obtain ⟨sp, sn⟩ := fv_sign hx (abs_pos.mp hX0)
    cases hs : f64.sign x
    · have hp := sn hs
      rw [abs_of_pos hp] at hX1 h1 hY hT
      have := kTan_big (N := N) odd hx hy hX1 h1 hY hT
      exact ⟨this.1, fun _ => this.2⟩
    · have hp := sp hs
      rw [abs_of_neg hp] at hX1 h1 hY hT
      have := kTan_big (N := N) (T := -T) odd hx.neg hy.neg hX1 h1 (by rwa [abs_neg]) (by
        rw [show -T - (-X + -Y) = -(T - (X + Y)) by ring, abs_neg]; exact hT)
      rw [tgt_neg] at this
      have c1 := this.1.neg
      have c2 := this.2.neg f64
      rw [_root_.neg_neg] at c1 c2
      exact ⟨c1, fun _ => c2⟩
  · rw [if_neg hb]
    have hX1 : |X| ≤ 1414184 / 2 ^ 21 := (hlt.mp (by omega)).le
    have hX2 : |X| ≤ 0.67434 := hX1.trans (by norm_num)
    obtain ⟨R, tl, hd⟩ := tan_tail (N := N) hx hy h0 hX1 hY hT
    have hX3 : ¬ 0.67434 ≤ |X| := by rw [not_le]; exact lt_of_le_of_lt hX1 (by norm_num)
    have hXR : |X + R| ≤ 1 := by
      have := abs_add_le X R
      have := tl.small
      norm_num at *; linarith
    cases odd
    · -- the tangent
      show Close (Real.tan T) (N.add x (tanR N x y)) ∧ (_ → f64.FaithfulTo (Real.tan T) (N.add x (tanR N x y)))
      have hR := hx.addR (N := N) tl.fv
      have hfin : f64.IsFin _ := hR.fin100 big64 (hXR.trans (by norm_num))
      obtain ⟨n1, n2⟩ := tl.near.tan
      refine ⟨⟨⟨X + R, hR, hXR.trans (by norm_num), n1.trans (mul_le_mul_of_nonneg_right (by norm_num) (abs_nonneg _))⟩, n2⟩, ?_⟩
      have small : |X| ≤ 0.48 → f64.FaithfulTo (Real.tan T) (N.add x (tanR N x y)) := by
        intro hc
        obtain ⟨m1, m2⟩ := (tl.near' hc).tan
        refine (hR.nearF f64 hfin).faithful_rel f64 m2 (by rw [s64]; norm_num) (m1.trans (mul_le_mul_of_nonneg_right ?_ (abs_nonneg _)))
        rw [s64]; norm_num
      rintro (hc | hc | ⟨-, hc1, hc2⟩)
      · exact small hc
      · exact absurd hc hX3
      · rcases le_or_gt |X| 0.48 with hc | hc
        · exact small hc
        have hd := hd hc.le
        subst hc2
        rw [hc1, zero_mul, add_zero] at hd
        have hdef := tanP_def hX2
        have hcT := cos_low' hX2
        have hcpos : 0 < Real.cos T := lt_of_lt_of_le (by norm_num) hcT
        have htl0 : 0.51 ≤ |T * Poly.ev tanP (T * T)| := by
          have hz0 : 0.2304 ≤ T * T := by
            rw [← abs_mul_abs_self]
            have := mul_le_mul hc.le hc.le (by norm_num) hX0.le
            norm_num at this ⊢
            linarith
          have hz1 : T * T ≤ 0.4548 := by
            rw [← abs_mul_abs_self]
            have := mul_le_mul hX2 hX2 hX0.le (by norm_num)
            norm_num at this ⊢
            linarith
          have hP := tanP_third (z := T * T) (by norm_num at *; linarith) hz1
          rw [abs_mul]
          have : 0.48 * 1.07 ≤ |T| * |Poly.ev tanP (T * T)| :=
            mul_le_mul hc.le (by rw [abs_of_nonneg (by norm_num at *; linarith)]; norm_num at *; linarith) (by norm_num) hX0.le
          norm_num at *; linarith
        generalize T * Poly.ev tanP (T * T) = t at *
        have htan : |t - Real.tan T| ≤ 0.025 / 2 ^ 53 := by
          rw [Real.tan_eq_sin_div_cos, show t - Real.sin T / Real.cos T = (t * Real.cos T - Real.sin T) / Real.cos T by field_simp, abs_div, abs_of_pos hcpos, div_le_iff₀ hcpos]
          refine hdef.trans ?_
          norm_num at *
          linarith
        have hv : |T + R - Real.tan T| ≤ 0.45 / 2 ^ 53 := by
          have := abs_sub_le (T + R) t (Real.tan T)
          norm_num at *; linarith
        have htl : 0.505 ≤ |Real.tan T| := by
          have := abs_sub_abs_le_abs_sub t (Real.tan T)
          norm_num at *; linarith
        refine (hR.nearF f64 hfin).faithful_absS f64 fv_powm1.1 fv_powm1.2 (δ := 0.45 / 2 ^ 53) ?_ hv (by rw [s64]; norm_num)
        norm_num at *; linarith
    · show Close (-(Real.cos T / Real.sin T)) (recip N x (tanR N x y)) ∧ (_ → f64.FaithfulTo (-(Real.cos T / Real.sin T)) (recip N x (tanR N x y)))
      obtain ⟨v, hv1, hv2, hv3⟩ := recip_spec (N := N) hx tl.fv h0 hX2 tl.small
      have hfin : f64.IsFin _ := hv1.fin100 big64 hv2
      have key : ∀ η : ℝ, 0 ≤ η → η ≤ 1 / 2 ^ 52 → TanNear T η (X + R) → |v - -(Real.cos T / Real.sin T)| ≤ (η + 0.001 / 2 ^ 53) * |-(Real.cos T / Real.sin T)| ∧ -(Real.cos T / Real.sin T) ≠ 0 := by
        intro η e0 e1 hn
        obtain ⟨m1, m2, m3⟩ := hn.cot e0 (lt_of_le_of_lt e1 (by norm_num))
        refine ⟨?_, m3⟩
        have a := abs_sub_le v (-1 / (X + R)) (-(Real.cos T / Real.sin T))
        have hη : η / (1 - η) ≤ η + 1 / 2 ^ 100 := by
          rw [div_le_iff₀ (by norm_num at *; linarith)]
          nlinarith
        have b := mul_le_mul_of_nonneg_right hη (abs_nonneg (Real.cos T / Real.sin T))
        rw [abs_neg]
        have c : |1 / (X + R)| = |-1 / (X + R)| := by rw [neg_div, abs_neg]
        rw [c] at hv3
        have d := abs_sub_abs_le_abs_sub (-1 / (X + R)) (-(Real.cos T / Real.sin T))
        rw [abs_neg (Real.cos T / Real.sin T)] at d
        have e : (η + 1 / 2 ^ 100) * |Real.cos T / Real.sin T| ≤ 1 / 2 ^ 51 * |Real.cos T / Real.sin T| :=
          mul_le_mul_of_nonneg_right (by norm_num at *; linarith) (abs_nonneg _)
        have hc00 := abs_nonneg (Real.cos T / Real.sin T)
        generalize |Real.cos T / Real.sin T| = c0 at *
        generalize |-1 / (X + R)| = c1 at *
        have hc0 : 0 ≤ η * c0 := mul_nonneg e0 hc00
        rw [add_mul] at *
        norm_num at *
        linarith
      obtain ⟨k1, k2⟩ := key _ (by norm_num) (by norm_num) tl.near
      refine ⟨⟨⟨v, hv1, hv2, k1.trans (mul_le_mul_of_nonneg_right (by norm_num) (abs_nonneg _))⟩, k2⟩, ?_⟩
      rintro (hc | hc | ⟨hc, -⟩)
      · obtain ⟨k1, k2⟩ := key _ (by norm_num) (by norm_num) (tl.near' hc)
        refine (hv1.nearF f64 hfin).faithful_rel f64 k2 (by rw [s64]; norm_num) (k1.trans (mul_le_mul_of_nonneg_right ?_ (abs_nonneg _)))
        rw [s64]; norm_num
      · exact absurd hc hX3
      · cases hc

theorem tgt_low (odd : Bool) {T : ℝ} (h0 : 1 / 2 ^ 72 ≤ |T|) (h1 : |T| ≤ 0.786) : 1 / 2 ^ 80 ≤ |tgt odd T| := by
  have hc := cos_low h1
  have hcp : 0 < Real.cos T := lt_of_lt_of_le (by norm_num) hc
  have hs2 : 0.6 * |T| ≤ |Real.sin T| := by
    have h := sin_cubic (x := T) (h1.trans (by norm_num))
    have h2 := abs_sub_abs_le_abs_sub T (Real.sin T)
    have hT0 := abs_nonneg T
    have h3 : |T| ^ 3 ≤ 0.7 * |T| := by
      rw [show |T| ^ 3 = |T| ^ 2 * |T| by ring]
      exact mul_le_mul_of_nonneg_right ((pow_le_pow_left₀ hT0 h1 2).trans (by norm_num)) hT0
    have h6 : |T| ^ 6 ≤ 1 * |T| := by
      rw [show |T| ^ 6 = |T| ^ 5 * |T| by ring]
      exact mul_le_mul_of_nonneg_right ((pow_le_pow_left₀ hT0 h1 5).trans (by norm_num)) hT0
    norm_num at *
    linarith
  have hsp : 0 < |Real.sin T| := lt_of_lt_of_le (mul_pos (by norm_num) (lt_of_lt_of_le (by norm_num) h0)) hs2
  cases odd
  · show _ ≤ |Real.tan T|
    rw [Real.tan_eq_sin_div_cos, abs_div, abs_of_pos hcp, le_div_iff₀ hcp]
    have := Real.cos_le_one T
    have h2 : 1 / 2 ^ 80 * Real.cos T ≤ 1 / 2 ^ 80 * 1 := mul_le_mul_of_nonneg_left this (by norm_num)
    norm_num at *; linarith
  · show _ ≤ |-(Real.cos T / Real.sin T)|
    rw [abs_neg, abs_div, abs_of_pos hcp, le_div_iff₀ hsp]
    have := Real.abs_sin_le_one T
    have h2 : 1 / 2 ^ 80 * |Real.sin T| ≤ 1 / 2 ^ 80 * 1 := mul_le_mul_of_nonneg_left this (by norm_num)
    norm_num at *; linarith

/-- the two cases of the argument -/
theorem tan_main {x : D} {X : ℝ} (hx : Fv x X) (hb : 0x3fe921fb < Pio2.hi x) : ∃ n y0 y1, remPio2 N p64 x = .ok (n, y0, y1) ∧
    Close (Real.tan X) (kTan N y0 y1 (low1 n)) ∧ 1 / 2 ^ 80 ≤ |Real.tan X| ∧
    ((∃ k : ℤ, |X - k * (Real.pi / 2)| ≤ 0.47) ∨ (∀ k : ℤ, 0.675 ≤ |X - k * (Real.pi / 2)|) → f64.FaithfulTo (Real.tan X) (kTan N y0 y1 (low1 n))) := by
  obtain ⟨⟨n, y0, y1⟩, h1, h2⟩ := remPio2_spec (N := N) (p64 := p64) hx hb
  obtain ⟨k, r0, r1, hk, f0, f1, g0, g1, g2, g3⟩ := red_kernel hx (hi_gt hx hb) h2
  obtain ⟨c1, c2⟩ := kTan_spec N (low1 n) f0 f1 g0 g1 g2 g3
  have htg : tgt (low1 n) (X - k * (Real.pi / 2)) = Real.tan X := by
    have hk' : (low2 n : ℤ) = k % 4 := hk
    rw [low1_eq, show decide (n % 2 = 1) = decide (k % 2 = 1) by rw [decide_eq_decide]; rw [low2_eq] at hk'; omega]
    rcases Int.emod_two_eq_zero_or_one k with hk | hk
    · rw [hk]
      obtain ⟨j, rfl⟩ : ∃ j, k = 2 * j := ⟨k / 2, by omega⟩
      exact (tan_even X j).symm
    · rw [hk]
      obtain ⟨j, rfl⟩ : ∃ j, k = 2 * j + 1 := ⟨k / 2, by omega⟩
      exact (tan_odd X j).symm
  have hT : |X - k * (Real.pi / 2) - r0| ≤ 2 / 2 ^ 53 := by
    have := abs_add_le (X - k * (Real.pi / 2) - (r0 + r1)) r1
    rw [show X - k * (Real.pi / 2) - (r0 + r1) + r1 = X - k * (Real.pi / 2) - r0 by ring] at this
    norm_num at *; linarith
  rw [htg] at c1 c2
  refine ⟨n, y0, y1, h1, c1, ?_, fun hc => c2 ?_⟩
  · rw [← htg]
    have a := abs_sub_abs_le_abs_sub r0 (X - k * (Real.pi / 2))
    rw [abs_sub_comm r0] at a
    have b := abs_sub_abs_le_abs_sub (X - k * (Real.pi / 2)) r0
    have c : |X - k * (Real.pi / 2) - r0| ≤ 2 / 2 ^ 53 * |r0| := by
      have := abs_add_le (X - k * (Real.pi / 2) - (r0 + r1)) r1
      rw [show X - k * (Real.pi / 2) - (r0 + r1) + r1 = X - k * (Real.pi / 2) - r0 by ring] at this
      norm_num at *; linarith [abs_nonneg r0]
    refine tgt_low _ ?_ ?_
    · norm_num at *; linarith
    · norm_num at *; linarith
  · have a := abs_sub_abs_le_abs_sub (X - k * (Real.pi / 2)) r0
    have b := abs_sub_abs_le_abs_sub r0 (X - k * (Real.pi / 2))
    rw [abs_sub_comm r0] at b
    rcases hc with ⟨k', hk'⟩ | hc
    · left
      by_cases hkk : k' = k
      · rw [hkk] at hk'; norm_num at *; linarith
      · exfalso
        have h3 : (1 : ℝ) ≤ |((k' : ℝ) - k)| := by
          have := Int.one_le_abs (sub_ne_zero.mpr hkk)
          exact_mod_cast this
        have h4 := abs_sub_le (k' * (Real.pi / 2)) X (k * (Real.pi / 2))
        rw [show (k' : ℝ) * (Real.pi / 2) - k * (Real.pi / 2) = (k' - k) * (Real.pi / 2) by ring, abs_mul, abs_of_pos (by have := Real.pi_pos; linarith : (0 : ℝ) < Real.pi / 2), abs_sub_comm _ X] at h4
        have h5 : 1 * (Real.pi / 2) ≤ |((k' : ℝ) - k)| * (Real.pi / 2) := mul_le_mul_of_nonneg_right h3 (by have := Real.pi_pos; linarith)
        have := pi_gt20
        generalize |((k' : ℝ) - k)| * (Real.pi / 2) = w at *
        norm_num at *; linarith
    · right; left
      have := hc k
      norm_num at *; linarith

/-- the direct case -/
theorem tan_direct {x : D} {X : ℝ} (hx : Fv x X) (h1 : Pio2.hi x ≤ 0x3fe921fb) (h2 : 0x3e400000 ≤ Pio2.hi x) :
    Close (Real.tan X) (kTan N x 0#f64.w false) ∧ 1 / 2 ^ 80 ≤ |Real.tan X| ∧ f64.FaithfulTo (Real.tan X) (kTan N x 0#f64.w false) := by
  have h0 := hi_ge27 hx h2
  have hs := kTan_spec N false hx fv_zero h0 (hi_le hx h1) (T := X) (by rw [abs_zero]; positivity) (by rw [add_zero, sub_self, abs_zero]; positivity)
  exact ⟨hs.1, tgt_low false (by norm_num at *; linarith) ((hi_le hx h1).trans (by norm_num)), hs.2 (Or.inr (Or.inr ⟨rfl, rfl, rfl⟩))⟩

theorem tan_tiny {x : D} {X : ℝ} (hx : Fv x X) (h : Pio2.hi x < 0x3e400000) : f64.FaithfulTo (Real.tan X) x ∧ |X - Real.tan X| ≤ 1 / 2 ^ 52 * |Real.tan X| := by
  have hX := (hi_lt hx (c := 0x3e400000) (q := 1 / 2 ^ 27) (by decide +kernel)).mp h
  push_cast at hX
  have hX2 : X ^ 2 ≤ 1 / 2 ^ 54 := by
    rw [← sq_abs]
    have := pow_le_pow_left₀ (abs_nonneg X) hX.le 2
    norm_num at this ⊢; linarith
  constructor
  · rw [← hx.val]
    exact f64.faithful_tan hx.fin (by rw [hx.val]; norm_num at *; linarith) (by rw [hx.val, s64]; norm_num at *; linarith)
  · have key : ∀ u : ℝ, 0 < u → u ≤ 1 / 2 ^ 27 → |u - Real.tan u| ≤ 1 / 2 ^ 52 * |Real.tan u| := by
      intro u h0 h1
      obtain ⟨a, b⟩ := lt_tan_pos h0 (h1.trans (by norm_num))
      rw [abs_of_nonpos (by linarith), abs_of_nonneg (by linarith)]
      have h2 : u ^ 3 ≤ 1 / 2 ^ 54 * u := by
        rw [show u ^ 3 = u ^ 2 * u by ring]
        refine mul_le_mul_of_nonneg_right ?_ h0.le
        have := pow_le_pow_left₀ h0.le h1 2
        norm_num at this ⊢; linarith
      norm_num at *; linarith
    rcases lt_trichotomy X 0 with h | h | h
    · have := key (-X) (by linarith) (by rw [abs_of_neg h] at hX; exact hX.le)
      rw [Real.tan_neg, abs_neg, neg_sub_neg, abs_sub_comm] at this
      exact this
    · rw [h, Real.tan_zero]; simp
    · exact key X h (by rw [abs_of_pos h] at hX; exact hX.le)

/-- accuracy of `tan` -/
theorem tan_spec {x : D} {X : ℝ} (hx : Fv x X) : Ok (tan N p64 x) fun r =>
    f64.IsFin r ∧ |V r - Real.tan X| ≤ 1 / 2 ^ 52 * |Real.tan X| ∧
    (Pio2.hi x ≤ 0x3fe921fb ∨ (∃ k : ℤ, |X - k * (Real.pi / 2)| ≤ 0.47) ∨ (∀ k : ℤ, 0.675 ≤ |X - k * (Real.pi / 2)|) → f64.FaithfulTo (Real.tan X) r) := by
  have hdef : (x.toNat >>> 32) &&& 0x7fffffff = Pio2.hi x := rfl
  have hinf := hi_inf hx
  unfold tan
  simp only [hdef]
  by_cases h1 : Pio2.hi x ≤ 0x3fe921fb
  · rw [if_pos h1]
    by_cases h2 : Pio2.hi x < 0x3e400000
    · rw [if_pos h2]
      obtain ⟨a, b⟩ := tan_tiny hx h2
      exact ⟨x, rfl, hx.fin, by rw [hx.val]; exact b, fun _ => a⟩
    · rw [if_neg h2]
      obtain ⟨a, b, c⟩ := tan_direct N hx h1 (by omega)
      obtain ⟨d, e⟩ := a.err b
      exact ⟨_, rfl, d, e, fun _ => c⟩
  · rw [if_neg h1, if_neg (by omega)]
    obtain ⟨n, y0, y1, e, a, b, c⟩ := tan_main N p64 hx (by omega)
    rw [e, ok_bind]
    obtain ⟨d, e⟩ := a.err b
    exact ⟨_, rfl, d, e, fun h => c (h.resolve_left h1)⟩

end
end Trig
end Verif
