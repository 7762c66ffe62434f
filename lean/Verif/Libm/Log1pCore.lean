import Verif.Libm.LogRed
/-! # The result of `log1p`, `log1pf` from the reduced argument, and the correction term, in any format -/
namespace Verif
open Fmt
namespace Log1p
open Log
variable {F : Fmt}

theorem log_lin {y : ℝ} (hy : |y| ≤ 1 / 1000) : |Real.log (1 + y) - y| ≤ 101 / 100 * y ^ 2 := by
  rw [abs_le] at hy
  have h0 : 0 < 1 + y := by linarith [hy.1]
  have h1 := Real.log_le_sub_one_of_pos h0
  have h2 := Real.log_le_sub_one_of_pos (inv_pos.mpr h0)
  rw [Real.log_inv] at h2
  have h3 : (1 + y)⁻¹ - 1 ≤ 101 / 100 * y ^ 2 - y := by
    rw [sub_le_iff_le_add, inv_le_iff_one_le_mul₀ h0]
    nlinarith [mul_nonneg (sq_nonneg y) (show 0 ≤ 1 / 100 + 101 / 100 * y by linarith [hy.1])]
  have h4 : 0 ≤ 101 / 100 * y ^ 2 := by positivity
  rw [abs_le]
  constructor <;> linarith

/-- half of a number that is not small is exact -/
theorem half_any (hF : F.Big) (hs : F.s = 23 ∨ F.s = 52) (N : FPU F) {f half : BitVec F.w} {X : ℝ} (hh : GFv F half (1 / 2)) (hf : GFv F f X) (hmin : (2 : ℝ) ^ (-1 - (F.s : ℤ)) ≤ |X|) (hX : |X| ≤ 1) : GFv F (N.mul half f) (X / 2) := by
  have h127 := hF.bias
  have h := hh.mulR N hf
  have e : (1 / 2 : ℝ) * X = X / 2 := by ring
  rw [e] at h
  have h9 : |X / 2| ≤ 2 ^ (100 : ℤ) := by rw [abs_div]; norm_num; linarith
  obtain ⟨m, j, e1, e2, e3, e4⟩ := F.val_dec f
  rw [hf.val] at e1
  have hj : -2 - 2 * (F.s : ℤ) ≤ j := by
    by_contra hc
    have h1 : (2 : ℝ) ^ j ≤ 2 ^ (-3 - 2 * (F.s : ℤ)) := zpow_le_zpow_right₀ (by norm_num) (by omega)
    have h2 : |(m : ℝ)| ≤ 2 ^ (F.s + 1) := by exact_mod_cast e2.le
    have h3 : |X| ≤ 2 ^ (F.s + 1) * 2 ^ (-3 - 2 * (F.s : ℤ)) := by
      rw [e1, abs_mul, abs_of_pos (show (0 : ℝ) < 2 ^ j by positivity)]
      exact mul_le_mul h2 h1 (by positivity) (by positivity)
    rw [← zpow_natCast, ← zpow_add₀ (by norm_num)] at h3
    have h4 := (zpow_le_zpow_iff_right₀ (show (1 : ℝ) < 2 by norm_num)).mp (hmin.trans h3)
    push_cast at h4
    omega
  have hrp := F.rp_of (v := X / 2) (m := m) (j := j - 1) (by rw [e1, zpow_sub_one₀ (by norm_num)]; ring) e2.le (by rcases hs with h | h <;> rw [h] at hj ⊢ <;> omega)
  refine ⟨h.fin100 hF h9, h.exactR F hrp (h9.trans (zpow_le_zpow_right₀ (by norm_num) (by omega)))⟩

section
variable (hF : F.Big) (hs : F.s = 23 ∨ F.s = 52) (N : FPU F) {f one half two dk hi lo c : BitVec F.w} {r : BitVec F.w → BitVec F.w} {X h l C : ℝ}
  (h2 : GFv F two 2) (hh : GFv F half (1 / 2)) {P : List ℚ}
  (hr : ∀ s S, Ex.Holds F 1 s S ⟨1716 / 10000, 33 / 100 / 2 ^ (F.s + 1), false⟩ →
    Ex.Holds F 1 (r s) (S * S * Poly.ev P (S * S)) ⟨2 / 100, 14 / 100 / 2 ^ (F.s + 1), false⟩)
  (hP0 : (P.all fun c => decide (0 ≤ c)) = true) {B : ℚ} {n : ℕ} (hP : Poly.chk (0 :: Poly.sub P Poly.logL) B n 0 (2945 / 100000) = true)
  (hB : (B : ℝ) + 1 / 2 ^ 68 ≤ 4 / 100 * (1 / 2 ^ (F.s + 1))) (hc : GFv F c C)
include hF hs h2 hh hr hP0 hP hB hc

/-- no multiple of `ln 2` -/
theorem whole0 (hf : GFv F f X) (hX0 : -0.2929 ≤ X) (hX1 : X ≤ 0.41422) (hmin : (2 : ℝ) ^ (-1 - (F.s : ℤ)) ≤ |X|) (hdk : GFv F dk 0) (hhi : GFv F hi h)
    (hlo : GFv F lo l) (hC : C = 0) :
    ∃ W, GFv F (N.add (N.add (N.sub (N.add (N.mul (N.div f (N.add two f)) (N.add (N.mul (N.mul half f) f) (r (N.div f (N.add two f)))))
        (N.add (N.mul dk lo) c)) (N.mul (N.mul half f) f)) f) (N.mul dk hi)) W ∧
      |W - Real.log (1 + X)| ≤ 2 * (1 / 2 ^ (F.s + 1)) * |Real.log (1 + X)| := by
  have h127 := hF.bias
  have hne : X ≠ 0 := by
    rintro rfl
    rw [abs_zero] at hmin
    exact absurd hmin (not_le.mpr (by positivity))
  have hX9 : |X| ≤ 1 := by rw [abs_le]; norm_num at hX0 hX1; constructor <;> linarith
  have hs1 := s_spec hF hs N hf h2 hX0 hX1
  have hsl := s_le rfl hX0 hX1
  have hr1 := hr _ _ ⟨hs1.1, by simp only [Ex.sv, Bool.false_eq_true, if_false, mul_one]; push_cast; norm_num at hsl ⊢; exact hsl, hs1.2.2⟩
  have hhf := half_any hF hs N hh hf hmin hX9
  have hR := mul_nonneg (mul_self_nonneg (X / (2 + X))) (ev_nonneg hP0 (mul_self_nonneg (X / (2 + X))))
  have hap := Poly.log_rat hP rfl (by norm_num at hX0; linarith) hsl
  have hap' := hap.trans (mul_le_mul_of_nonneg_right (hB.trans (le_of_eq (show (4 : ℝ) / 100 * (1 / 2 ^ (F.s + 1)) = 0.04 * (1 / 2 ^ (F.s + 1)) by norm_num)))
    (abs_nonneg _))
  have hz0 : ∀ {c : BitVec F.w} {v : ℝ}, GFv F c v → GFv F (N.mul dk c) 0 := fun hc =>
    GFv.of_rounds hF (j := 0) (by have := hdk.mulR N hc; rwa [zero_mul] at this) ⟨0, by simp⟩ (by simp; positivity) (by omega) (by simp)
  have hz1 : GFv F (N.add (N.mul dk lo) c) 0 :=
    GFv.of_rounds hF (j := 0) (by have := (hz0 hlo).addR N hc; rwa [hC, add_zero] at this) ⟨0, by simp⟩ (by simp; positivity) (by omega) (by simp)
  exact core0 hF hs N hf h2 hhf hr1 hR hap' hX0 hX1 hmin hne hz1 (hz0 hhi)

/-- with a multiple of `ln 2` -/
theorem whole1p {x : BitVec F.w} {k : ℤ} (h1 : GFv F one 1) (hx : GFv F x X) (hdk : GFv F dk k) (hhi : GFv F hi h) (hlo : GFv F lo l)
    (hX0 : 7071 / 10000 ≤ X) (hX1 : X ≤ 141422 / 100000) {jh : ℤ} (hg : Mul2 jh h) (hj : -2 - (F.s : ℤ) ≤ jh) (hj2 : jh ≤ 0)
    (hkh : |k * h| ≤ 2 ^ (jh + F.s + 1)) (hk9 : |(k : ℝ)| ≤ 2000) (hkl : |k * l| ≤ 13 / 10000)
    (hd : |(k : ℝ)| * |h + l - Real.log 2| ≤ 1 / 200 * (1 / 2 ^ (F.s + 1))) (hk0 : k ≠ 0) {η δ : ℝ} (hη : |η| ≤ 15 / 10 * (1 / 2 ^ (F.s + 1)))
    (hC : |C - η| ≤ δ * (1 / 2 ^ (F.s + 1))) (hδ : δ ≤ 1 / 1000 ∨ δ ≤ 15 / 10 ∧ 24 ≤ k) :
    ∃ W, GFv F (N.add (N.add (N.sub (N.add (N.mul (N.div (N.sub x one) (N.add two (N.sub x one)))
        (N.add (N.mul (N.mul half (N.sub x one)) (N.sub x one)) (r (N.div (N.sub x one) (N.add two (N.sub x one)))))) (N.add (N.mul dk lo) c))
        (N.mul (N.mul half (N.sub x one)) (N.sub x one))) (N.sub x one)) (N.mul dk hi)) W ∧
      |W - (Real.log X + η + k * Real.log 2)| ≤ 2 * (1 / 2 ^ (F.s + 1)) * |Real.log X + η + k * Real.log 2| := by
  have h127 := hF.bias
  have hu0 : (0 : ℝ) < 1 / 2 ^ (F.s + 1) := by positivity
  have hu2 : (1 : ℝ) / 2 ^ 53 ≤ 1 / 2 ^ (F.s + 1) :=
    one_div_le_one_div_of_le (by positivity) (pow_le_pow_right₀ (by norm_num) (by rcases hs with h | h <;> omega))
  have hu3 : (1 : ℝ) / 2 ^ (F.s + 1) ≤ 1 / 2 ^ 20 :=
    one_div_le_one_div_of_le (by norm_num) (pow_le_pow_right₀ (by norm_num) (by rcases hs with h | h <;> omega))
  have hu4 : (1 : ℝ) / 2 ^ 20 ≤ 1 / 1000000 := by norm_num
  have hgX : Mul2 (-1 - (F.s : ℤ)) X := by
    have := F.mul2_ge (b := x) (k := -1) (by
      rw [hx.val, abs_of_pos (by linarith), show (2 : ℝ) ^ (-1 : ℤ) = 1 / 2 by norm_num]; linarith)
    rwa [hx.val] at this
  have hg1 : Mul2 (-1 - (F.s : ℤ)) (X - 1) := hgX.sub ((show Mul2 0 (1 : ℝ) from ⟨1, by simp⟩).mono (by omega))
  have hf9 : |X - 1| ≤ 1 := by rw [abs_le]; constructor <;> linarith
  have hf : GFv F (N.sub x one) (X - 1) := GFv.of_rounds hF (hx.subR N h1) hg1
    (by rw [show -1 - (F.s : ℤ) + F.s + 1 = 0 by ring, zpow_zero]; exact hf9) (by omega) (hf9.trans (by norm_num))
  have a0 : (-0.2929 : ℝ) ≤ X - 1 := by norm_num; linarith
  have a1 : X - 1 ≤ 0.41422 := by norm_num; linarith
  have hs1 := s_spec hF hs N hf h2 a0 a1
  have hsl := s_le rfl a0 a1
  have hr1 := hr _ _ ⟨hs1.1, by simp only [Ex.sv, Bool.false_eq_true, if_false, mul_one]; push_cast; norm_num at hsl ⊢; exact hsl, hs1.2.2⟩
  have hhf := half_spec hF N hf hh hg1 hf9
  have hR := mul_nonneg (mul_self_nonneg ((X - 1) / (2 + (X - 1)))) (ev_nonneg hP0 (mul_self_nonneg ((X - 1) / (2 + (X - 1)))))
  have hap := Poly.log_rat hP rfl (by linarith) hsl
  have hap' := hap.trans (mul_le_mul_of_nonneg_right (hB.trans (le_of_eq (show (4 : ℝ) / 100 * (1 / 2 ^ (F.s + 1)) = 0.04 * (1 / 2 ^ (F.s + 1)) by norm_num)))
    (abs_nonneg _))
  have eX : 1 + (X - 1) = X := by ring
  have hKg : Mul2 jh (k * h) := by
    have := (show Mul2 0 (k : ℝ) from ⟨k, by simp⟩).mul hg
    rwa [zero_add] at this
  have hK : GFv F (N.mul dk hi) (k * h) := GFv.of_rounds hF (hdk.mulR N hhi) hKg hkh (by omega)
    (hkh.trans (zpow_le_zpow_right₀ (by norm_num) (by rcases hs with h | h <;> rw [h] <;> omega)))
  have hδ2 : δ * (1 / 2 ^ (F.s + 1)) ≤ 15 / 10 * (1 / 2 ^ (F.s + 1)) := by
    refine mul_le_mul_of_nonneg_right ?_ hu0.le
    rcases hδ with h | h
    · linarith
    · exact h.1
  have hCa : |C| ≤ 3 * (1 / 2 ^ (F.s + 1)) := by
    have := abs_sub_abs_le_abs_sub C η
    linarith
  obtain ⟨L, l1, l2⟩ := GFv.rnd hF (hdk.mulR N hlo) (hkl.trans (by norm_num))
  have hT : (1 : ℝ) / 2 ^ 150 ≤ 1 / 10000 * (1 / 2 ^ 53) := by norm_num
  have l3 : |L - k * l| ≤ 2 / 1000 * (1 / 2 ^ (F.s + 1)) := by
    have := mul_le_mul_of_nonneg_left hkl hu0.le
    linarith
  have hLC : |L + C| ≤ 135 / 100000 := by
    have e : L + C = (L - k * l) + C + k * l := by ring
    rw [e]
    refine (abs_add_le _ _).trans ?_
    have := abs_add_le (L - k * l) C
    linarith
  obtain ⟨M, m1, m2⟩ := GFv.rnd hF (l1.addR N hc) (hLC.trans (by norm_num))
  have m3 : |M - (k * l + C)| ≤ 5 / 1000 * (1 / 2 ^ (F.s + 1)) := by
    have := mul_le_mul_of_nonneg_left hLC hu0.le
    have e : M - (k * l + C) = (M - (L + C)) + (L - k * l) := by ring
    rw [e]
    refine (abs_add_le _ _).trans ?_
    linarith
  have hl : Ex.Holds F 1 (N.add (N.mul dk lo) c) (k * l + C) ⟨14 / 10000, 1 / 100 / 2 ^ (F.s + 1), false⟩ := by
    refine ⟨m1.fin, ?_, ?_⟩
    · simp only [Ex.sv, Bool.false_eq_true, if_false, mul_one]; push_cast
      refine (abs_add_le _ _).trans ?_
      linarith
    · simp only [Ex.sv, Bool.false_eq_true, if_false, mul_one]; rw [m1.val]; push_cast
      have : (1 : ℝ) / 100 / 2 ^ (F.s + 1) = 1 / 100 * (1 / 2 ^ (F.s + 1)) := by ring
      rw [this]; linarith
  obtain ⟨W, w1, w2⟩ := coreE hF hs N hf h2 hhf hr1 hR hap' a0 a1 hl hK (hKg.mono hj) hk0 hk9 (η := η) (by linarith) (δ := 1 / 200 + δ) (by
    have e : (k : ℝ) * h + (k * l + C) - (k * Real.log 2 + η) = k * (h + l - Real.log 2) + (C - η) := by ring
    rw [e, add_mul]
    refine (abs_add_le _ _).trans ?_
    rw [abs_mul]
    linarith) (by
    rcases hδ with h | h
    · left; linarith
    · right; exact ⟨by linarith, h.2⟩)
  rw [eX] at w2
  exact ⟨W, w1, w2⟩
end
end Log1p
end Verif
