import Verif.Libm.ExpCore
/-! # Scaling the result of `exp`, `expf` by a power of two -/
namespace Verif
open Fmt
namespace Exp
variable {F : Fmt}

theorem exp_add_log (r : ℝ) (k : ℤ) : Real.exp (r + k * Real.log 2) = Real.exp r * 2 ^ k := by
  rw [Real.exp_add, ← Real.rpow_intCast, Real.rpow_def_of_pos (by norm_num), mul_comm (k : ℝ)]

/-- `y * 2^k` rounded once -/
theorem scale_round (hF : F.Big) {y z : BitVec F.w} {k : ℤ} (h : F.Rounds (F.valK ℝ y * 2 ^ k) z)
    (hm : |F.valK ℝ y * 2 ^ k| < 2 ^ ((F.bias : ℤ) + 1)) : F.IsFin z ∧ |F.valK ℝ z - F.valK ℝ y * 2 ^ k| ≤ 2 ^ (-(F.bias : ℤ) - F.s) := by
  have h127 := hF.bias
  have hs := hF.s
  rcases le_or_gt |F.valK ℝ y * 2 ^ k| (2 ^ (2 - (F.bias : ℤ))) with hsm | hlg
  · refine ⟨h.fin100 hF (hsm.trans (zpow_le_zpow_right₀ (by norm_num) (by omega))), ?_⟩
    refine (h.err F hsm (le_refl _) (by omega)).trans (le_of_eq ?_)
    congr 1; ring
  · obtain ⟨m, j, e, hm1, hj1, _⟩ := F.val_dec y
    have hrp : F.Rp (F.valK ℝ y * 2 ^ k) := by
      refine F.rp_of (m := m) (j := j + k) ?_ hm1.le ?_
      · rw [e, mul_assoc, ← zpow_add₀ (by norm_num)]
      · by_contra hc
        rw [not_le] at hc
        rw [e, mul_assoc, ← zpow_add₀ (by norm_num), abs_mul, abs_of_pos (show (0 : ℝ) < 2 ^ (j + k) by positivity)] at hlg
        have h1 : |(m : ℝ)| ≤ 2 ^ (F.s + 1) := by exact_mod_cast hm1.le
        have h2 : |(m : ℝ)| * 2 ^ (j + k) ≤ 2 ^ (F.s + 1) * 2 ^ (j + k) := mul_le_mul_of_nonneg_right h1 (by positivity)
        have h3 : (2 : ℝ) ^ (F.s + 1) * 2 ^ (j + k) ≤ 2 ^ (2 - (F.bias : ℤ)) := by
          rw [← zpow_natCast, ← zpow_add₀ (by norm_num)]
          exact zpow_le_zpow_right₀ (by norm_num) (by push_cast; omega)
        linarith
    have hex := h.exactR F hrp hm.le
    refine ⟨?_, by rw [hex, sub_self, abs_zero]; positivity⟩
    unfold Fmt.IsFin
    rw [← F.magValR_lt_iff, F.magValR_infRep, ← F.absvR, hex]
    exact hm

/-- `scalbn(y, k)` near the exponential -/
theorem scaled (hF : F.Big) (hstd : Props.Std F) (N : FPU F) {y : BitVec F.w} {Y r c : ℝ} {k : ℤ} (hy : GFv F y Y) (hY : 0 ≤ Y) (hk0 : -2 ^ 31 ≤ k) (hk1 : k < 2 ^ 31)
    (hrel : |Y - Real.exp r| ≤ c * Real.exp r) (hmax : Real.exp (r + k * Real.log 2) * (1 + c) < 2 ^ ((F.bias : ℤ) + 1)) :
    ∃ z, F.scalbn N y k = .ok z ∧ F.IsFin z ∧ F.sign z = F.sign y ∧
      |F.valK ℝ z - Real.exp (r + k * Real.log 2)| ≤ c * Real.exp (r + k * Real.log 2) + 2 ^ (-(F.bias : ℤ) - F.s) := by
  obtain ⟨z, h1, h2, h3⟩ := Props.C42_scalbn_finite hstd N hy.fin k hk0 hk1
  have h4 := h2.cast F
  push_cast at h4
  rw [F.valK_cast] at h4
  rw [exp_add_log] at hmax ⊢
  have hp : (0 : ℝ) < 2 ^ k := by positivity
  have hb : |Y * 2 ^ k - Real.exp r * 2 ^ k| ≤ c * (Real.exp r * 2 ^ k) := by
    rw [← sub_mul, abs_mul, abs_of_pos hp, ← mul_assoc]
    exact mul_le_mul_of_nonneg_right hrel hp.le
  have hm : |F.valK ℝ y * 2 ^ k| < 2 ^ ((F.bias : ℤ) + 1) := by
    rw [hy.val, abs_of_nonneg (by positivity)]
    rw [abs_le] at hb
    linarith [hb.2]
  obtain ⟨f, e⟩ := scale_round hF h4 hm
  refine ⟨z, h1, f, h3, ?_⟩
  rw [hy.val] at e
  have := abs_add_le (F.valK ℝ z - Y * 2 ^ k) (Y * 2 ^ k - Real.exp r * 2 ^ k)
  rw [sub_add_sub_cancel] at this
  linarith
end Exp
end Verif
