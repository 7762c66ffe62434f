import Verif.Libm.ExpR
/-! # The logarithm of `1 + f` as a series in `f / (2 + f)` -/
namespace Verif
namespace Poly

/-- coefficients of `(log (1 + f) - 2 s) / s³` as a series in `s²`, where `s = f / (2 + f)` -/
def logL : List ℚ := [2 / 3, 2 / 5, 2 / 7, 2 / 9, 2 / 11, 2 / 13, 2 / 15, 2 / 17, 2 / 19, 2 / 21, 2 / 23, 2 / 25, 2 / 27]

theorem ev_logL (s : ℝ) : s * (2 + s * s * ev logL (s * s)) = 2 * ∑ i ∈ Finset.range 14, s ^ (2 * i + 1) / (2 * i + 1) := by
  simp only [Finset.sum_range_succ, Finset.sum_range_zero, logL, ev]
  push_cast
  ring

theorem log_near {f s : ℝ} (hs : s = f / (2 + f)) (hf : -1 < f) (h : |s| ≤ 0.1716) :
    |Real.log (1 + f) - s * (2 + s * s * ev logL (s * s))| ≤ 1 / 2 ^ 68 * |s| := by
  have h1 : |s| < 1 := by norm_num at h; linarith
  have h2 := Real.sum_range_sub_log_div_le h1 14
  have h3 : (1 + s) / (1 - s) = 1 + f := by
    have h4 : (2 + f) ≠ 0 := by linarith
    have e1 : 1 + s = 2 * (1 + f) / (2 + f) := by rw [hs]; field_simp; ring
    have e2 : 1 - s = 2 / (2 + f) := by rw [hs]; field_simp; ring
    rw [e1, e2]
    field_simp
  rw [h3] at h2
  rw [ev_logL]
  have e : Real.log (1 + f) - 2 * ∑ i ∈ Finset.range 14, s ^ (2 * i + 1) / (2 * i + 1) =
      2 * (1 / 2 * Real.log (1 + f) - ∑ i ∈ Finset.range 14, s ^ (2 * i + 1) / (2 * i + 1)) := by ring
  rw [e, abs_mul, abs_of_pos (show (0 : ℝ) < 2 by norm_num)]
  have hz : s ^ 2 ≤ 0.1716 ^ 2 := by rw [← sq_abs]; exact pow_le_pow_left₀ (abs_nonneg _) h 2
  have h4 : |s| ^ (2 * 14 + 1) / (1 - s ^ 2) ≤ 1 / 2 ^ 69 * |s| := by
    rw [div_le_iff₀ (by norm_num at *; linarith), pow_succ]
    have : |s| ^ (2 * 14) ≤ 0.1716 ^ (2 * 14) := pow_le_pow_left₀ (abs_nonneg _) h _
    have h5 : |s| ^ (2 * 14) ≤ 1 / 2 ^ 69 * (1 - s ^ 2) := by
      refine this.trans ?_
      norm_num at *
      linarith
    calc |s| ^ (2 * 14) * |s| ≤ 1 / 2 ^ 69 * (1 - s ^ 2) * |s| := mul_le_mul_of_nonneg_right h5 (abs_nonneg _)
      _ = _ := by ring
  calc 2 * _ ≤ 2 * (1 / 2 ^ 69 * |s|) := by linarith
    _ = _ := by ring

/-- an approximation of the series -/
theorem log_rat {P : List ℚ} {B : ℚ} {n : ℕ} (hP : chk (0 :: sub P logL) B n 0 (2945 / 100000) = true) {f s : ℝ} (hs : s = f / (2 + f)) (hf : -1 < f)
    (h : |s| ≤ 0.1716) : |Real.log (1 + f) - s * (2 + s * s * ev P (s * s))| ≤ (B + 1 / 2 ^ 68) * |s| := by
  have h1 := log_near hs hf h
  have hz : s * s ≤ 0.02945 := by
    have : |s| * |s| ≤ 0.1716 * 0.1716 := mul_le_mul h h (abs_nonneg _) (by norm_num)
    rw [abs_mul_abs_self] at this
    norm_num at *; linarith
  have h2 := chk_sound hP (t := s * s) (by push_cast; exact mul_self_nonneg s) (by push_cast; norm_num at hz ⊢; exact hz)
  rw [ev, ev_sub] at h2
  have e : Real.log (1 + f) - s * (2 + s * s * ev P (s * s)) =
    (Real.log (1 + f) - s * (2 + s * s * ev logL (s * s))) - s * ((0 : ℚ) + s * s * (ev P (s * s) - ev logL (s * s))) := by push_cast; ring
  rw [e]
  refine (abs_sub _ _).trans ?_
  have : |s * ((0 : ℚ) + s * s * (ev P (s * s) - ev logL (s * s)))| ≤ |s| * B := by
    rw [abs_mul]; exact mul_le_mul_of_nonneg_left h2 (abs_nonneg _)
  have e2 : (B + 1 / 2 ^ 68 : ℝ) * |s| = 1 / 2 ^ 68 * |s| + |s| * B := by ring
  rw [e2]
  exact add_le_add h1 this
end Poly
end Verif
