import Verif.Libm.Log2
import Verif.Libm.LogRed
import Verif.Libm.AsinCore
import Verif.Libm.GFvSign
import Verif.Libm.FmaWideProofs
/-! # The common part of `log2`, `log10`, `log2f` and `log10f`, in any format -/
namespace Verif
open Fmt
namespace Log2
open Log

/-- the numbers behind `hi` and `lo`; `p` is `u |X|` -/
theorem hilo_real {u t a p X q V H D m M L T : ℝ} (ha : a = |X|) (hp : p = u * a) (hu0 : 0 < u) (hu : u ≤ 1 / 1000000) (ha1 : a ≤ 0.41422) (ht : t ≤ 1 / 1000000 * p)
    (hq : |q - X / 2 * X| ≤ u * |X / 2 * X| + t) (hV : |V - (X - q)| ≤ u * |X - q| + t) (hH : |V - H| ≤ 1 / 1024 * |V|)
    (hD : |D - (X - H - q)| ≤ u * |X - H - q| + t) (hm : |m - M| ≤ 0.295 * p) (hM : |M| ≤ 0.054 * a) (hL : |L - (D + m)| ≤ u * |D + m| + t)
    (hT : |T - (M - X / 2 * X + X)| ≤ 0.024 * p) : |H + L - T| ≤ 0.6 * p ∧ |L| ≤ 0.06 * a ∧ |H| ≤ 1.25 * a := by
  have ha0 : 0 ≤ a := by rw [ha]; exact abs_nonneg X
  have hpa : p ≤ 1 / 1000000 * a := by rw [hp]; exact mul_le_mul_of_nonneg_right hu ha0
  have hp0 : 0 ≤ p := by rw [hp]; positivity
  have hX : |X| = a := ha.symm
  have hXX : |X / 2 * X| ≤ 0.20712 * a := by
    rw [abs_mul, abs_div, hX, abs_of_pos (show (0 : ℝ) < 2 by norm_num)]
    nlinarith
  have k1 : u * |X / 2 * X| ≤ 0.20712 * p := by rw [hp]; nlinarith
  have q1 : |q| ≤ 0.20713 * a := by
    have := abs_sub_abs_le_abs_sub q (X / 2 * X); linarith
  have xq : |X - q| ≤ 1.20713 * a := by
    have := abs_sub X q; linarith
  have k2 : u * |X - q| ≤ 1.20713 * p := by rw [hp]; nlinarith
  have v1 : |V| ≤ 1.20714 * a := by
    have := abs_sub_abs_le_abs_sub V (X - q); linarith
  have e1 : |X - H - q| ≤ 0.0012 * a := by
    have h1 : X - H - q = -(V - (X - q)) + (V - H) := by ring
    have h2 := abs_add_le (-(V - (X - q))) (V - H)
    rw [abs_neg] at h2
    rw [h1]
    linarith
  have k3 : u * |X - H - q| ≤ 0.0012 * p := by rw [hp]; nlinarith
  have d1 : |D| ≤ 0.00121 * a := by
    have := abs_sub_abs_le_abs_sub D (X - H - q); linarith
  have m1 : |m| ≤ 0.0541 * a := by
    have := abs_sub_abs_le_abs_sub m M; linarith
  have dm : |D + m| ≤ 0.05531 * a := by
    have := abs_add_le D m; linarith
  have k4 : u * |D + m| ≤ 0.05531 * p := by rw [hp]; nlinarith
  have h1 : |V| - |H| ≤ |V - H| := abs_sub_abs_le_abs_sub V H
  have h2 := abs_sub_abs_le_abs_sub H V
  rw [abs_sub_comm H V] at h2
  refine ⟨?_, ?_, by linarith⟩
  · rw [abs_le] at *
    constructor <;> linarith [hq.1, hq.2, hD.1, hD.2, hm.1, hm.2, hL.1, hL.2, hT.1, hT.2]
  · have := abs_sub_abs_le_abs_sub L (D + m); linarith

variable {F : Fmt}

/-- low bits cleared, either sign -/
theorem clear_any {b b' : BitVec F.w} {v : ℝ} (h : GFv F b v) {c : ℕ} (hc : c ≤ F.s) (hm : F.mag b' = F.mag b / 2 ^ c * 2 ^ c)
    (hs : F.sign b' = F.sign b) {k : ℤ} (hk : 2 ^ k ≤ |v|) (hk' : 1 - (F.bias : ℤ) ≤ k) :
    ∃ v0 : ℝ, ∃ j : ℤ, GFv F b' v0 ∧ |v - v0| ≤ 1 / 2 ^ (F.s - c) * |v| ∧ |v0| ≤ |v| ∧ Mul2 j v0 ∧ k + c - F.s ≤ j ∧ |v0| ≤ 2 ^ (j + F.s + 1 - c) := by
  have hkp : (0 : ℝ) < 2 ^ k := by positivity
  rcases le_total 0 v with hv | hv
  · rw [abs_of_nonneg hv] at hk ⊢
    obtain ⟨v0, j, g, p, l, e, m, hj, hb⟩ := Asin.clear_fv h hc hm hs hk hk'
    exact ⟨v0, j, g, by rw [abs_of_nonneg (by linarith)]; exact e, by rw [abs_of_pos p]; exact l, m, hj, by rw [abs_of_pos p]; exact hb⟩
  · rw [abs_of_nonpos hv] at hk ⊢
    obtain ⟨v0, j, g, p, l, e, m, hj, hb⟩ := Asin.clear_fv (b' := F.neg b') h.neg hc (by rw [F.mag_neg, F.mag_neg]; exact hm) (by rw [F.sign_neg, F.sign_neg, hs]) hk hk'
    have g' := g.neg
    have e0 : F.neg (F.neg b') = b' := F.ext_sign_mag (by rw [F.sign_neg, F.sign_neg, Bool.not_not]) (by rw [F.mag_neg, F.mag_neg])
    rw [e0] at g'
    refine ⟨-v0, j, g', ?_, by rw [abs_neg, abs_of_pos p]; exact l, m.neg, hj, by rw [abs_neg, abs_of_pos p]; exact hb⟩
    rw [show v - -v0 = -(-v - v0) by ring, abs_neg, abs_of_nonneg (by linarith)]; exact e

/-- what is shown of `hi` and `lo` -/
def HL (F : Fmt) (c : ℕ) (hi lo : BitVec F.w) (a T : ℝ) : Prop :=
  ∃ H L : ℝ, ∃ j : ℤ, GFv F hi H ∧ GFv F lo L ∧ Mul2 j H ∧ |H| ≤ 2 ^ (j + F.s + 1 - c) ∧ -3 - 2 * (F.s : ℤ) + c ≤ j ∧
    |H + L - T| ≤ 0.6 * (1 / 2 ^ (F.s + 1) * a) ∧ |L| ≤ 0.06 * a ∧ |H| ≤ 1.25 * a

section
variable (hF : F.Big) (N : FPU F) {cl : BitVec F.w → BitVec F.w} {c : ℕ} (hc : c + 10 ≤ F.s) (hc2 : 2 ≤ c) (hcl : ∀ b, F.mag (cl b) = F.mag b / 2 ^ c * 2 ^ c ∧ F.sign (cl b) = F.sign b)
include hF hc hcl

theorem zero_ops {f half two r : BitVec F.w} (hf : GFv F f 0) (h2 : GFv F two 2) (hh : GFv F (N.mul half f) 0) {R : ℝ} (hr : GFv F r R) (hR : |R| ≤ 1) :
    HL F c (cl (N.sub f (N.mul (N.mul half f) f))) (N.add (N.sub (N.sub f (cl (N.sub f (N.mul (N.mul half f) f)))) (N.mul (N.mul half f) f)) (N.mul (N.div f (N.add two f)) (N.add (N.mul (N.mul half f) f) r))) 0 0 := by
  have h127 := hF.bias
  have z : ∀ {b : BitVec F.w}, F.Rounds (0 : ℝ) b → GFv F b 0 := fun h =>
    GFv.of_rounds hF h (j := 0) ⟨0, by simp⟩ (by simp; positivity) (by omega) (by simp)
  have hq : GFv F (N.mul (N.mul half f) f) 0 := z (by have := hh.mulR N hf; rwa [mul_zero] at this)
  have hv : GFv F (N.sub f (N.mul (N.mul half f) f)) 0 := z (by have := hf.subR N hq; rwa [sub_zero] at this)
  have hH : GFv F (cl (N.sub f (N.mul (N.mul half f) f))) 0 := by
    obtain ⟨m1, m2⟩ := hcl (N.sub f (N.mul (N.mul half f) f))
    have h0 : F.mag (N.sub f (N.mul (N.mul half f) f)) = 0 := by
      have := hv.abs_eq
      rw [abs_zero, ← F.magVal_cast] at this
      have h3 : F.magVal ℚ (F.mag (N.sub f (N.mul (N.mul half f) f))) = 0 := by exact_mod_cast this.symm
      rw [← F.magVal_zero, F.magVal_inj] at h3
      exact h3
    have : cl (N.sub f (N.mul (N.mul half f) f)) = N.sub f (N.mul (N.mul half f) f) := F.ext_sign_mag m2 (by rw [m1, h0]; simp)
    rw [this]; exact hv
  have h2f := h2.addR N hf
  have hd : GFv F (N.add two f) 2 := by
    rw [add_zero] at h2f
    exact GFv.of_rounds hF h2f (j := 0) ⟨2, by norm_num⟩ (by rw [abs_of_pos (by norm_num)]; exact le_trans (by norm_num) (zpow_le_zpow_right₀ (by norm_num) (show (1 : ℤ) ≤ 0 + F.s + 1 by omega))) (by omega) (by norm_num)
  have hsv : GFv F (N.div f (N.add two f)) 0 := z (by have := hf.divR N hd (by norm_num); rwa [zero_div] at this)
  obtain ⟨Q, hQ, -⟩ := GFv.rnd hF (hq.addR N hr) (by rw [zero_add]; exact hR.trans (by norm_num))
  have hm : GFv F (N.mul (N.div f (N.add two f)) (N.add (N.mul (N.mul half f) f) r)) 0 := z (by have := hsv.mulR N hQ; rwa [zero_mul] at this)
  have d1 := z (by have := hf.subR N hH; rwa [sub_zero] at this)
  have d2 := z (by have := d1.subR N hq; rwa [sub_zero] at this)
  have d3 := z (by have := d2.addR N hm; rwa [add_zero] at this)
  exact ⟨0, 0, 0, hH, d3, ⟨0, by simp⟩, by simp; positivity, by omega, by simp, by simp, by simp⟩

include hc2 in
theorem hilo_fv (hs : F.s = 23 ∨ F.s = 52) {f half two r : BitVec F.w} {X R : ℝ} (hf : GFv F f X) (h2 : GFv F two 2) (hh : GFv F (N.mul half f) (X / 2))
    (hr : Ex.Holds F 1 r R ⟨2 / 100, 14 / 100 / 2 ^ (F.s + 1), false⟩) (hap : |Real.log (1 + X) - X / (2 + X) * (2 + R)| ≤ 0.04 * (1 / 2 ^ (F.s + 1)) * |X / (2 + X)|)
    (hX0 : -0.2929 ≤ X) (hX1 : X ≤ 0.41422) (hg : Mul2 (-1 - (F.s : ℤ)) X) :
    HL F c (cl (N.sub f (N.mul (N.mul half f) f))) (N.add (N.sub (N.sub f (cl (N.sub f (N.mul (N.mul half f) f)))) (N.mul (N.mul half f) f)) (N.mul (N.div f (N.add two f)) (N.add (N.mul (N.mul half f) f) r))) |X| (Real.log (1 + X)) := by
  have h127 := hF.bias
  by_cases hne : X = 0
  · rw [hne] at hf hh
    rw [zero_div] at hh
    have r1 : |F.valK ℝ r| ≤ 1 := by
      have h5 := hr.2.1
      have h6 := hr.2.2
      simp only [Ex.sv, Bool.false_eq_true, if_false, mul_one] at h5 h6
      push_cast at h5 h6
      have h7 := abs_sub_abs_le_abs_sub (F.valK ℝ r) R
      have h8 : (14 : ℝ) / 100 / 2 ^ (F.s + 1) ≤ 14 / 100 := div_le_self (by norm_num) (one_le_pow₀ (by norm_num))
      linarith
    have := zero_ops hF N hc hcl hf h2 hh (GFv.self hr.1) r1
    rw [hne, abs_zero, add_zero, Real.log_one]
    exact this
  have hXa : 0 < |X| := abs_pos.mpr hne
  have hX9 : |X| ≤ 0.41422 := by rw [abs_le]; norm_num1 at *; constructor <;> linarith
  have hmin := mul2_min hg hne
  have hmin2 : (2 : ℝ) ^ (-53 : ℤ) ≤ |X| := le_trans (zpow_le_zpow_right₀ (by norm_num) (by rcases hs with h | h <;> omega)) hmin
  have ht : (1 : ℝ) / 2 ^ 150 ≤ ((1 / 2 ^ 90 : ℚ) : ℝ) * |X| := by
    push_cast
    norm_num at hmin2 ⊢
    linarith
  have hm := m_spec hF hs N hf h2 hh hr hX0 hX1 hne ht
  have hu2 : (1 : ℝ) / 2 ^ (F.s + 1) ≤ 1 / 1000000 := le_trans (one_div_le_one_div_of_le (by positivity) (pow_le_pow_right₀ (by norm_num) (show 20 ≤ F.s + 1 by rcases hs with h | h <;> omega))) (by norm_num)
  have hu1 : (1 : ℝ) / 2 ^ 53 ≤ 1 / 2 ^ (F.s + 1) := one_div_le_one_div_of_le (by positivity) (pow_le_pow_right₀ (by norm_num) (by rcases hs with h | h <;> omega))
  have hcs : (1 : ℝ) / 2 ^ (F.s - c) ≤ 1 / 1024 := le_trans (one_div_le_one_div_of_le (by positivity) (pow_le_pow_right₀ (by norm_num) (show 10 ≤ F.s - c by omega))) (by norm_num)
  have hu0 : (0 : ℝ) < 1 / 2 ^ (F.s + 1) := by positivity
  obtain ⟨fm, Am, Em⟩ := hm
  have gm := GFv.self fm
  simp only [Ex.sv, if_true] at Am Em
  push_cast at Am Em
  rw [show (295 : ℝ) / 1000 / 2 ^ (F.s + 1) = 0.295 * (1 / 2 ^ (F.s + 1)) by ring] at Em
  have idl := ideal_eq (X := X) (R := R) (by linarith)
  rw [← idl] at hap
  have hsd : |X / (2 + X)| ≤ 0.59 * |X| := by
    rw [abs_div, abs_of_pos (show 0 < 2 + X by linarith), div_le_iff₀ (by linarith)]
    have h1 : 0.59 * (2 + X) ≥ 1 := by linarith
    nlinarith
  generalize F.valK ℝ (N.mul (N.div f (N.add two f)) (N.add (N.mul (N.mul half f) f) r)) = m at *
  generalize X / (2 + X) * (X / 2 * X + R) = M at *
  have hpt : (1 : ℝ) / 2 ^ 150 ≤ 1 / 1000000 * (1 / 2 ^ (F.s + 1) * |X|) := by
    have h1 : (1 : ℝ) / 2 ^ 53 * (2 : ℝ) ^ (-53 : ℤ) ≤ 1 / 2 ^ (F.s + 1) * |X| := mul_le_mul hu1 hmin2 (by positivity) hu0.le
    refine le_trans ?_ (mul_le_mul_of_nonneg_left h1 (by norm_num))
    norm_num
  have hT : |Real.log (1 + X) - (M - X / 2 * X + X)| ≤ 0.024 * (1 / 2 ^ (F.s + 1) * |X|) := by
    refine hap.trans ?_
    have := mul_le_mul_of_nonneg_left hsd (show 0 ≤ 0.04 * (1 / (2 : ℝ) ^ (F.s + 1)) by positivity)
    have h3 : 0 ≤ 1 / (2 : ℝ) ^ (F.s + 1) * |X| := by positivity
    nlinarith
  generalize Real.log (1 + X) = T at *
  have n1 : |X / 2 * X| ≤ 1 / 4 * |X| := by
    rw [abs_mul, abs_div, abs_of_pos (show (0 : ℝ) < 2 by norm_num)]
    nlinarith
  obtain ⟨q, gq, eq⟩ := GFv.rnd hF (hh.mulR N hf) (n1.trans (le_trans (show _ ≤ (1 : ℝ) by linarith) (by norm_num)))
  have hua : 1 / (2 : ℝ) ^ (F.s + 1) * |X| ≤ 1 / 1000000 * |X| := mul_le_mul_of_nonneg_right hu2 hXa.le
  have q0 : |q| ≤ 1 / 3 * |X| := by
    have := abs_sub_abs_le_abs_sub q (X / 2 * X)
    have h3 := mul_le_mul_of_nonneg_left n1 hu0.le
    linarith
  have xq9 : |X - q| ≤ 4 / 3 * |X| := by have := abs_sub X q; linarith
  have xq1 : 2 / 3 * |X| ≤ |X - q| := by have := abs_sub_abs_le_abs_sub X q; linarith
  obtain ⟨V, gV, eV⟩ := GFv.rnd hF (hf.subR N gq) (xq9.trans (le_trans (show _ ≤ (1 : ℝ) by linarith) (by norm_num)))
  have hV9 : |V| ≤ 1.4 * |X| ∧ 1 / 2 * |X| ≤ |V| := by
    have h1 := abs_sub_abs_le_abs_sub V (X - q)
    have h2 := abs_sub_abs_le_abs_sub (X - q) V
    rw [abs_sub_comm (X - q) V] at h2
    have h3 := mul_le_mul_of_nonneg_left xq9 hu0.le
    constructor <;> linarith
  have hkV : (2 : ℝ) ^ (-2 - (F.s : ℤ)) ≤ |V| := by
    rw [show -2 - (F.s : ℤ) = -1 + (-1 - (F.s : ℤ)) by ring, zpow_add₀ (by norm_num)]
    refine le_trans ?_ hV9.2
    norm_num1
    linarith
  obtain ⟨H, j, gH, eH, lH, mH, hj, bH⟩ := clear_any (b' := cl (N.sub f (N.mul (N.mul half f) f))) gV (by omega) (hcl _).1 (hcl _).2 hkV (by rcases hs with h | h <;> omega)
  have eH' : |V - H| ≤ 1 / 1024 * |V| := eH.trans (mul_le_mul_of_nonneg_right hcs (abs_nonneg _))
  have xh9 : |X - H| ≤ 1 := by
    have := abs_sub X H
    linarith [hV9.1]
  have hXH : |X| ≤ 2.2 * |H| := by
    have := abs_sub_abs_le_abs_sub V H
    linarith [hV9.2]
  have gd : GFv F (N.sub f (cl (N.sub f (N.mul (N.mul half f) f)))) (X - H) := by
    by_cases hjj : -1 - (F.s : ℤ) ≤ j
    · exact GFv.of_rounds hF (hf.subR N gH) (hg.sub (mH.mono hjj)) (by rw [show -1 - (F.s : ℤ) + F.s + 1 = 0 by ring, zpow_zero]; exact xh9) (by omega) (xh9.trans (by norm_num))
    · refine GFv.of_rounds hF (hf.subR N gH) ((hg.mono (by omega)).sub mH) ?_ (by omega) (xh9.trans (by norm_num))
      have h1 := abs_sub X H
      have h2 : (2 : ℝ) ^ (j + F.s + 1) = 2 ^ (c : ℤ) * 2 ^ (j + F.s + 1 - c) := by rw [← zpow_add₀ (by norm_num)]; congr 1; ring
      rw [h2]
      have h3 : (4 : ℝ) ≤ 2 ^ (c : ℤ) := by
        have : (2 : ℝ) ^ (2 : ℤ) ≤ 2 ^ (c : ℤ) := zpow_le_zpow_right₀ (by norm_num) (by omega)
        norm_num at this ⊢
        exact this
      have h4 : (4 : ℝ) * 2 ^ (j + F.s + 1 - c) ≤ 2 ^ (c : ℤ) * 2 ^ (j + F.s + 1 - c) := mul_le_mul_of_nonneg_right h3 (by positivity)
      have h5 : |X - H| ≤ 4 * |H| := by linarith [abs_nonneg H]
      linarith
  obtain ⟨D, gD, eD⟩ := GFv.rnd hF (gd.subR N gq) (by
    have := abs_sub (X - H) q
    refine le_trans (show _ ≤ (2 : ℝ) by linarith) (by norm_num))
  have D9 : |D| ≤ 3 := by
    have h1 := abs_sub_abs_le_abs_sub D (X - H - q)
    have h2 := abs_sub (X - H) q
    have h4 : |X - H - q| ≤ 2 := by linarith
    have h3 := mul_le_mul hu2 h4 (abs_nonneg _) (by norm_num)
    linarith
  have m9 : |m| ≤ 1 := by
    have h1 := abs_sub_abs_le_abs_sub m M
    have h2 := mul_le_mul_of_nonneg_right hu2 hXa.le
    rw [mul_assoc] at Em
    linarith
  obtain ⟨L, gL, eL⟩ := GFv.rnd hF (gD.addR N gm) (by
    have := abs_add_le D m
    refine le_trans (show _ ≤ (4 : ℝ) by linarith) (by norm_num))
  obtain ⟨c1, c2, c3⟩ := hilo_real (X := X) (t := 1 / 2 ^ 150) rfl rfl hu0 hu2 hX9 hpt eq eV eH' eD (by rw [← mul_assoc]; exact Em) (by linarith) eL hT
  exact ⟨H, L, j, gH, gL, mH, bH, by omega, c1, c2, c3⟩
end
end Log2
end Verif
