import Verif.Libm.RemPio2All
/-! # `rem_pio2f` -/
namespace Verif
open Fmt

namespace Pio2
open Hypot

/-! ### Single precision numbers are no near multiples of `π/2` -/

theorem chk_med : ∀ j < 59, 32 ≤ j → 2 ^ (j + 109) + 2 ^ 24 ≤ euc 24 64 (2 ^ 192) (alpha j % 2 ^ 192) 0 1 := by decide +kernel

theorem dist_med {m : ℤ} {j : ℕ} (h1 : 32 ≤ j) (h2 : j < 59) (hm : 0 < m) (hm' : m < 2 ^ 24) (P : ℤ) :
    (2 : ℝ) ^ ((j : ℤ) - 83) ≤ |m * 2 ^ ((j : ℤ) - 53) * (2 / Real.pi) - P| := by
  have := dist_core (T := j + 109) (by omega) hm hm' P (chk_med j h2 h1)
  rwa [show ((j + 109 : ℕ) : ℤ) - 192 = (j : ℤ) - 83 by push_cast; ring] at this

/-- value of an `f32` -/
noncomputable def Vf (x : BitVec f32.w) : ℝ := (f32.val x : ℚ)

theorem norm32 {x : BitVec f32.w} (h1 : 2 ^ 23 ≤ f32.mag x) :
    |Vf x| = ((2 ^ 23 + f32.mag x % 2 ^ 23 : ℕ) : ℝ) * 2 ^ (((f32.mag x / 2 ^ 23 : ℕ) : ℤ) - 150) := by
  have hs : f32.s = 23 := rfl
  have hb : f32.bias = 127 := by decide +kernel
  have h := f32.magVal_at (E := f32.mag x / 2 ^ 23) (m := 2 ^ 23 + f32.mag x % 2 ^ 23) (by omega) (by rw [hs]; omega) (Or.inl (by rw [hs]; omega))
  rw [hs, hb] at h
  rw [show (f32.mag x / 2 ^ 23 - 1) * 2 ^ 23 + (2 ^ 23 + f32.mag x % 2 ^ 23) = f32.mag x by omega] at h
  have h2 : |f32.val x| = f32.magVal ℚ (f32.mag x) := f32.absv x
  unfold Vf
  rw [← Rat.cast_abs, h2, h]
  push_cast
  congr 2
  omega

theorem abs32 (x : BitVec f32.w) : |Vf x| = f32.magVal ℝ (f32.mag x) := by
  unfold Vf
  rw [← Rat.cast_abs, ← f32.magVal_cast]
  exact congrArg _ (f32.absv x)

theorem ext_fv {x : BitVec f32.w} (h : f32.IsFin x) : ∃ r, Fmt.extend f32 f64 x = .ok r ∧ Fv r (Vf x) := by
  obtain ⟨r, h1, h2, _, h4⟩ := extend_fin wider_32_64 h
  refine ⟨r, h1, h2, ?_⟩
  rw [← f64.valK_cast, h4]
  rfl

noncomputable def P1F : ℝ := 26353589 / 2 ^ 24
noncomputable def P1TF : ℝ := 4803441513357923 / 2 ^ 78
theorem fv_P1F : Fv PIO2_1F P1F := by
  have := fv_const (b := PIO2_1F) (q := 26353589 / 2 ^ 24) (by decide +kernel) (by decide +kernel); push_cast at this; exact this
theorem fv_P1TF : Fv PIO2_1TF P1TF := by
  have := fv_const (b := PIO2_1TF) (q := 4803441513357923 / 2 ^ 78) (by decide +kernel) (by decide +kernel); push_cast at this; exact this
theorem g_P1F : Mul2 (-24) P1F := by have := mul2_div 26353589 24; push_cast at this; exact this
theorem g_P1TF : Mul2 (-78) P1TF := by have := mul2_div 4803441513357923 78; push_cast at this; exact this
theorem c_P1F : |Real.pi / 2 - P1F - P1TF| ≤ 1 / 2 ^ 80 := by
  have := pi_tight
  unfold P1F P1TF
  norm_num at this ⊢
  rw [abs_le]
  constructor <;> linarith

/-- Specification: the result of `rem_pio2f` -/
def Red1 (X : ℝ) (r : Int × D) : Prop := ∃ (k : ℤ) (r0 : ℝ), r.1 % 8 = k % 8 ∧ Fv r.2 r0 ∧
  |X - k * (Real.pi / 2) - r0| ≤ 0.75 / 2 ^ 25 * |r0| ∧ |X - k * (Real.pi / 2)| ≤ Real.pi / 4 + 1 / 2 ^ 17 ∧ |X - k * (Real.pi / 2) - r0| ≤ 1 / 2 ^ 46

section
variable {N : FPU f64} {p64 : Bool}

theorem mediumF_spec {x : D} {X : ℝ} (hx : Fv x X) (gX : Mul2 (-24) X) (h1 : 7 ≤ |X|) (h2 : |X| ≤ 421657408) (hd : ∀ P : ℤ, 1 / 2 ^ 54 * |X| ≤ |X * (2 / Real.pi) - P|) :
    Ok (mediumF N x) (Red1 X) := by
  obtain ⟨K, fK, hK⟩ := fn_spec (N := N) hx (by linarith) (by norm_num; linarith)
  have hpl := pi_gt20
  have hpu := pi_lt20
  have hpi := Real.pi_pos
  obtain ⟨R, hRd⟩ : ∃ R, R = X - K * (Real.pi / 2) := ⟨_, rfl⟩
  have hR1 : R = (X * (2 / Real.pi) - K) * (Real.pi / 2) := by rw [hRd]; field_simp
  have hR2 : |R| = |X * (2 / Real.pi) - K| * (Real.pi / 2) := by rw [hR1, abs_mul, abs_of_pos (show 0 < Real.pi / 2 by positivity)]
  have hRl : 1.57 / 2 ^ 54 * |X| ≤ |R| := by
    rw [hR2]
    have := mul_le_mul (hd K) (show 1.57 ≤ Real.pi / 2 by linarith) (by norm_num) (abs_nonneg _)
    linarith
  have hRu : |R| ≤ Real.pi / 4 + 1 / 2 ^ 17 := by
    rw [hR2]
    have h3 : |X * (2 / Real.pi) - K| ≤ 1 / 2 + 1 / 2 ^ 20 := hK.trans (by norm_num; linarith)
    have := mul_le_mul h3 (le_refl (Real.pi / 2)) (by positivity) (by norm_num)
    norm_num at this ⊢
    linarith
  have hKX : |(K : ℝ)| ≤ 0.75 * |X| := by
    have e : (K : ℝ) = (X - R) / (Real.pi / 2) := by rw [hRd]; field_simp; ring
    have h3 : |X - R| ≤ |X| + |R| := abs_sub _ _
    rw [e, abs_div, abs_of_pos (show 0 < Real.pi / 2 by positivity), div_le_iff₀ (by positivity)]
    have h4 : 1.57 * |X| ≤ Real.pi / 2 * |X| := mul_le_mul_of_nonneg_right (by linarith) (abs_nonneg _)
    norm_num at *
    linarith
  have gK : Mul2 0 (K : ℝ) := ⟨K, by simp⟩
  have hKn : -2 ^ 31 < K ∧ K < 2 ^ 31 := by
    have : |(K : ℝ)| < 2 ^ 31 := by norm_num; linarith
    rw [abs_lt] at this
    exact_mod_cast this
  have c1 : 0 < P1F := by unfold P1F; norm_num
  have c2 : P1F < 1.5708 := by unfold P1F; norm_num
  have c3 : 0 < P1TF := by unfold P1TF; norm_num
  have c4 : P1TF < 1.067 / 2 ^ 26 := by unfold P1TF; norm_num
  have fw := fK.mul N fv_P1F (j := -24) (by have := gK.mul g_P1F; norm_num at this; exact this) (by
    rw [abs_mul, abs_of_pos c1]
    have := mul_le_mul hKX c2.le c1.le (by positivity)
    norm_num at this ⊢; linarith) (by norm_num) (by norm_num)
  have gw : Mul2 (-24) ((K : ℝ) * P1F) := by have := gK.mul g_P1F; norm_num at this; exact this
  have hKT : |(K : ℝ) * P1TF| ≤ 0.75 * |X| * (1.067 / 2 ^ 26) := by
    rw [abs_mul, abs_of_pos c3]
    exact mul_le_mul hKX c4.le c3.le (by positivity)
  have hKc : |(K : ℝ) * (Real.pi / 2 - P1F - P1TF)| ≤ 0.75 * |X| * (1 / 2 ^ 80) := by
    rw [abs_mul]
    exact mul_le_mul hKX c_P1F (abs_nonneg _) (by positivity)
  have hρ : X - K * P1F = R + (K * (Real.pi / 2 - P1F - P1TF) + K * P1TF) := by rw [hRd]; ring
  have hρ1 : |X - K * P1F| ≤ 16 := by
    rw [hρ]
    have := abs_add_le R (K * (Real.pi / 2 - P1F - P1TF) + K * P1TF)
    have := abs_add_le (K * (Real.pi / 2 - P1F - P1TF)) (K * P1TF)
    norm_num at *
    linarith
  have gρ := gX.sub gw
  have fρ := hx.sub N fw (j := -24) gρ (by norm_num; linarith) (by norm_num) (by norm_num)
  obtain ⟨ω, fω, hω, gω⟩ := rnd (fK.mulR fv_P1TF (N := N)) (gK.mul g_P1TF) (by norm_num) (by norm_num at *; linarith)
  obtain ⟨y, fy, hy, _⟩ := rnd (fρ.subR fω (N := N)) ((gρ.mono (by norm_num)).sub gω) (by norm_num) (by
    refine (abs_sub _ _).trans ?_
    have : |ω| ≤ |ω - K * P1TF| + |K * P1TF| := by
      have := abs_add_le (ω - K * P1TF) (K * P1TF)
      rwa [sub_add_cancel] at this
    have hU : U = 1 / 2 ^ 53 := rfl
    rw [hU] at hω
    norm_num at *; linarith)
  unfold mediumF
  simp only
  rw [toI32_int fK (by omega) (by omega), ok_bind]
  refine ⟨_, rfl, K, y, rfl, fy, ?_⟩
  rw [← hRd]
  rw [and_left_comm]
  refine ⟨hRu, ?_⟩
  have hU : U = 1 / 2 ^ 53 := rfl
  have hUω : U * |(K : ℝ) * P1TF| ≤ U * (0.75 * |X| * (1.067 / 2 ^ 26)) := mul_le_mul_of_nonneg_left hKT (by rw [hU]; norm_num)
  have t1 : |R - (X - K * P1F - ω)| ≤ |(K : ℝ) * (Real.pi / 2 - P1F - P1TF)| + |ω - K * P1TF| := by
    rw [hρ, show R - (R + (K * (Real.pi / 2 - P1F - P1TF) + K * P1TF) - ω) = (ω - K * P1TF) - K * (Real.pi / 2 - P1F - P1TF) by ring]
    exact (abs_sub _ _).trans (by linarith)
  have t2 : |X - K * P1F - ω| ≤ |R| + |R - (X - K * P1F - ω)| := by
    have := abs_sub R (R - (X - K * P1F - ω))
    rwa [sub_sub_cancel] at this
  have t3 : |R - y| ≤ |R - (X - K * P1F - ω)| + |y - (X - K * P1F - ω)| := by
    rw [show R - y = (R - (X - K * P1F - ω)) - (y - (X - K * P1F - ω)) by ring]
    exact abs_sub _ _
  have t4 : |R| ≤ |y| + |R - y| := by
    have := abs_add_le y (R - y)
    rwa [add_sub_cancel] at this
  rw [hU] at hUω hω hy
  have hRu4 : |R| ≤ 1 := by norm_num at *; linarith
  clear hK hd hρ1 hRu hKX hKT
  constructor
  · clear h2
    norm_num at *
    linarith
  · norm_num at *
    linarith

/-- the large arguments -/
theorem bits32 (x : BitVec f32.w) : (x &&& 0x7fffffff#f32.w).toNat = f32.mag x := by
  rw [BitVec.toNat_and, show (0x7fffffff#f32.w).toNat = 2 ^ 31 - 1 from by decide +kernel, Nat.and_two_pow_sub_one_eq_mod]
  rfl

theorem remPio2f_spec {x : BitVec f32.w} (hx : f32.IsFin x) (hlo : 0x40e231d5 < f32.mag x) : Ok (remPio2f N p64 x) (Red1 (Vf x)) := by
  obtain ⟨x64, he, fx⟩ := ext_fv hx
  have hX := norm32 (x := x) (by omega)
  have hinf : f32.mag x < 0x7f800000 := hx
  obtain ⟨E, hE⟩ : ∃ E, E = f32.mag x / 2 ^ 23 := ⟨_, rfl⟩
  obtain ⟨M, hM⟩ : ∃ M, M = f32.mag x % 2 ^ 23 := ⟨_, rfl⟩
  have hmd : f32.mag x = E * 2 ^ 23 + M := by omega
  have hM1 : M < 2 ^ 23 := by omega
  rw [← hE, ← hM] at hX
  have hE1 : 129 ≤ E := by omega
  have hE2 : E ≤ 254 := by omega
  have hm0 : (0 : ℤ) < ((2 ^ 23 + M : ℕ) : ℤ) := by omega
  have hm1 : ((2 ^ 23 + M : ℕ) : ℤ) < 2 ^ 24 := by push_cast; omega
  have hneg : ∀ {c : ℝ}, (∀ P : ℤ, c ≤ abs (|Vf x| * (2 / Real.pi) - P)) → ∀ P : ℤ, c ≤ |Vf x * (2 / Real.pi) - P| := by
    intro c h P
    rcases abs_choice (Vf x) with h' | h'
    · have := h P; rwa [h'] at this
    · have := h (-P)
      rw [h', ← abs_neg] at this
      convert this using 2
      push_cast; ring
  unfold remPio2f
  rw [he, ok_bind]
  simp only [bits32]
  by_cases hmed : f32.mag x < 0x4dc90fdb
  · rw [if_pos hmed]
    have hE3 : E ≤ 155 := by omega
    have hj : (E : ℤ) - 150 = ((E - 97 : ℕ) : ℤ) - 53 := by omega
    refine mediumF_spec fx ?_ ?_ ?_ (hneg fun P => ?_)
    · have g : Mul2 (-24) |Vf x| := by
        rw [hX]
        exact Mul2.mono ⟨((2 ^ 23 + M : ℕ) : ℤ), by push_cast; rfl⟩ (show (-24 : ℤ) ≤ (E : ℤ) - 150 by omega)
      rcases abs_choice (Vf x) with h | h <;> rw [h] at g
      · exact g
      · have := g.neg; rwa [_root_.neg_neg] at this
    · rw [abs32, show (7 : ℝ) = ((7 : ℚ) : ℝ) by norm_num, ← show f32.magVal ℚ 0x40e00000 = 7 by decide +kernel, f32.magVal_cast, f32.magValR_le_iff]
      omega
    · rw [abs32, show (421657408 : ℝ) = ((421657408 : ℚ) : ℝ) by norm_num, ← show f32.magVal ℚ 0x4dc90fda = 421657408 by decide +kernel, f32.magVal_cast, f32.magValR_le_iff]
      omega
    · have h := dist_med (j := E - 97) (by omega) (by omega) hm0 hm1 P
      rw [hX, hj]
      rw [Int.cast_natCast] at h
      refine le_trans ?_ h
      generalize ((E - 97 : ℕ) : ℤ) = j
      have hmR : ((2 ^ 23 + M : ℕ) : ℝ) ≤ 2 ^ 24 := by exact_mod_cast hm1.le
      rw [show j - 83 = (j - 53) + -30 by ring, zpow_add₀ (by norm_num)]
      have hp : (0 : ℝ) < 2 ^ (j - 53) := by positivity
      generalize (2 : ℝ) ^ (j - 53) = G at hp
      have := mul_le_mul_of_nonneg_right hmR hp.le
      norm_num at this ⊢
      linarith
  · rw [if_neg hmed, if_neg (by omega)]
    have hsr : ((x &&& 0x7fffffff#f32.w) >>> 23).toNat = E := by
      rw [BitVec.toNat_ushiftRight, bits32, Nat.shiftRight_eq_div_pow, hE]
    obtain ⟨eb, h1, h2⟩ := subC_spec (a := (x &&& 0x7fffffff#f32.w) >>> 23) (b := (0x7f + 23 : BitVec f32.w)) (by
      rw [hsr, show (0x7f + 23 : BitVec f32.w).toNat = 150 by decide +kernel]; omega)
    rw [hsr, show (0x7f + 23 : BitVec f32.w).toNat = 150 by decide +kernel] at h2
    have h3 : eb.toInt = (E : ℤ) - 150 := by
      rw [BitVec.toInt_eq_toNat_of_lt (by rw [h2]; show 2 * (E - 150) < 2 ^ 32; omega), h2]
      omega
    obtain ⟨e0, he0⟩ : ∃ e0 : ℤ, e0 = (E : ℤ) - 150 := ⟨_, rfl⟩
    rw [h1, ok_bind, h3, ← he0]
    have hsal : salI e0 23 = .ok (e0 * 2 ^ 23) := by
      unfold salI
      rw [if_pos (by norm_num)]
      congr 1
      show i32W (e0 * 2 ^ 23) = e0 * 2 ^ 23
      unfold i32W
      rw [Int.bmod_eq_of_le (by push_cast; omega) (by push_cast; omega)]
    have hof : (BitVec.ofInt f32.w (e0 * 2 ^ 23)).toNat = (E - 150) * 2 ^ 23 := by
      rw [BitVec.toNat_ofInt]
      show ((e0 * 2 ^ 23) % ((2 ^ 32 : ℕ) : ℤ)).toNat = _
      push_cast
      omega
    obtain ⟨b, h4, h5⟩ := subC_spec (a := x &&& 0x7fffffff#f32.w) (b := BitVec.ofInt f32.w (e0 * 2 ^ 23)) (by rw [bits32, hof]; omega)
    rw [bits32, hof] at h5
    have h6 : b.toNat = 150 * 2 ^ 23 + M := by omega
    have h7 : f32.mag b = 150 * 2 ^ 23 + M := by
      show b.toNat % 2 ^ (8 + 23) = _
      rw [h6]; omega
    have h8 : f32.sign b = false := by
      show b.msb = false
      rw [BitVec.msb_eq_false_iff_two_mul_lt, h6]
      show _ < 2 ^ 32
      omega
    have h9 : Vf b = ((2 ^ 23 + M : ℕ) : ℝ) := by
      have h := norm32 (x := b) (by omega)
      rw [show f32.mag b % 2 ^ 23 = M by omega, show f32.mag b / 2 ^ 23 = 150 by omega] at h
      have h0 : 0 ≤ Vf b := by
        unfold Vf
        rw [f32.val_sign, h8]
        have := f32.magVal_nonneg ℚ (f32.mag b)
        push_cast
        simp only [one_mul]
        exact_mod_cast this
      rw [abs_of_nonneg h0] at h
      rw [h]; norm_num
    obtain ⟨v, h10, h11⟩ := ext_fv (x := b) (by show f32.mag b < 0x7f800000; omega)
    rw [h9] at h11
    rw [hsal, ok_bind, h4, ok_bind, h10, ok_bind, wr_ok (by norm_num), ok_bind]
    have hXv : Xv (fun _ => 2 ^ 23 + M) e0 1 = |Vf x| := by
      rw [hX, ← he0]
      unfold Xv
      simp
    obtain ⟨k, y, r0, hL, f0, hA, hC⟩ := large_zero (N := N) (p64 := p64) (xd := fun _ => 2 ^ 23 + M) (e0 := e0) (x := Function.update (fun _ => 0#f64.w) 0 v)
      (fun j => by show 2 ^ 23 + M < 2 ^ 24; omega) (fun j hj => by
        obtain rfl : j = 0 := by omega
        rw [Function.update_self]; exact h11) (by omega) (by omega) (fun P => by
        rw [hXv, hX]
        have := dist_pio2_32 (j := E - 97) (by omega) (by omega) hm0 hm1 P
        rw [Int.cast_natCast, show ((E - 97 : ℕ) : ℤ) - 53 = (E : ℤ) - 150 by omega] at this
        exact this)
    rw [hXv] at hA
    have hpi4 := pi_lt4
    have hA' : abs (|Vf x| - k * (Real.pi / 2) - r0) ≤ 0.75 / 2 ^ 25 * |r0| := hA.trans (mul_le_mul_of_nonneg_right (by norm_num) (abs_nonneg _))
    have hA2 : abs (|Vf x| - k * (Real.pi / 2) - r0) ≤ 1 / 2 ^ 46 := hA.trans (by norm_num at *; linarith)
    have hD : abs (|Vf x| - k * (Real.pi / 2)) ≤ Real.pi / 4 + 1 / 2 ^ 17 := by
      have := abs_add_le (|Vf x| - k * (Real.pi / 2) - r0) r0
      rw [sub_add_cancel] at this
      norm_num at *; linarith
    rw [hL, ok_bind]
    simp only
    rw [rd_ok (by norm_num), ok_bind]
    have hsg : (x >>> 31 ≠ 0#f32.w) ↔ f32.sign x = true := by
      have hxlt : x.toNat < 2 ^ 32 := x.isLt
      show _ ↔ x.msb = true
      rw [BitVec.msb_eq_true_iff_two_mul_ge, ne_eq, ← BitVec.toNat_inj, BitVec.toNat_ushiftRight, Nat.shiftRight_eq_div_pow]
      show ¬ x.toNat / 2 ^ 31 = 0 ↔ 2 ^ 32 ≤ 2 * x.toNat
      omega
    by_cases hs : f32.sign x = true
    · have hV : Vf x ≤ 0 := by
        unfold Vf
        rw [f32.val_sign, hs]
        have := f32.magVal_nonneg ℚ (f32.mag x)
        simp only [if_true]
        exact_mod_cast (by linarith : -1 * f32.magVal ℚ (f32.mag x) ≤ 0)
      rw [if_pos (decide_eq_true (hsg.2 hs)), i32_ok (by omega) (by omega), ok_bind]
      rw [abs_of_nonpos hV] at hA' hD hA2
      refine ⟨_, rfl, -k, -r0, by show -(k % 8) % 8 = -k % 8; omega, f0.neg, ?_, ?_, ?_⟩
      · rw [abs_neg, ← abs_neg]
        convert hA' using 2
        push_cast; ring
      · rw [← abs_neg]
        convert hD using 2
        push_cast; ring
      · rw [← abs_neg]
        convert hA2 using 2
        push_cast; ring
    · have hV : 0 ≤ Vf x := by
        unfold Vf
        rw [f32.val_sign, if_neg hs, one_mul]
        exact_mod_cast f32.magVal_nonneg ℚ (f32.mag x)
      rw [if_neg (by rw [decide_eq_true_iff]; exact fun h => hs (hsg.1 h))]
      rw [abs_of_nonneg hV] at hA' hD hA2
      exact ⟨_, rfl, k, r0, by simp, f0, hA', hD, hA2⟩

end
end Pio2
end Verif
