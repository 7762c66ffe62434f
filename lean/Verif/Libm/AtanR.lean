import Verif.Libm.PolyMul
import Mathlib.Analysis.SpecialFunctions.Complex.Arctan
import Mathlib.Analysis.SpecialFunctions.Trigonometric.Arctan
import Mathlib.Analysis.SpecialFunctions.Trigonometric.ArctanDeriv
import Mathlib.Analysis.Real.Pi.Bounds
/-! # The arc tangent: its series, addition formulas, `arctan (1/2)` and `arctan (3/2)` -/
namespace Verif
namespace Poly

/-- coefficients of `(t - arctan t) / t³` as a series in `t²` -/
def atL : List ℚ := [1/3, -1/5, 1/7, -1/9, 1/11, -1/13, 1/15, -1/17, 1/19, -1/21, 1/23, -1/25, 1/27, -1/29, 1/31, -1/33, 1/35, -1/37, 1/39, -1/41,
  1/43, -1/45, 1/47, -1/49, 1/51, -1/53, 1/55, -1/57, 1/59]

theorem ev_atL (t : ℝ) : t * (1 - t * t * ev atL (t * t)) = ∑ i ∈ Finset.range (2 * 15), (-1) ^ i * (t ^ (2 * i + 1) / (2 * i + 1)) := by
  simp only [Finset.sum_range_succ, Finset.sum_range_zero, atL, ev]
  push_cast
  ring

theorem atan_near0 {t : ℝ} (h0 : 0 ≤ t) (h : t ≤ 7 / 16) : |Real.arctan t - t * (1 - t * t * ev atL (t * t))| ≤ 1 / 2 ^ 68 * |t| := by
  set a : ℕ → ℝ := fun k => t ^ (2 * k + 1) / (2 * k + 1) with ha
  have hs := Real.hasSum_arctan (x := t) (by rw [Real.norm_eq_abs, abs_of_nonneg h0]; linarith)
  have hs' : HasSum (fun k => (-1) ^ k * a k) (Real.arctan t) := by
    refine hs.congr_fun ?_ |> fun h => h
    intro k; simp only [ha]; push_cast; ring
  have hanti : Antitone a := by
    refine antitone_nat_of_succ_le fun k => ?_
    simp only [ha]
    have e1 : t ^ (2 * (k + 1) + 1) ≤ t ^ (2 * k + 1) := pow_le_pow_of_le_one h0 (by linarith) (by omega)
    have e2 : (0 : ℝ) < 2 * k + 1 := by positivity
    refine div_le_div₀ (by positivity) e1 e2 (by push_cast; linarith)
  have hlo := hanti.alternating_series_le_tendsto hs'.tendsto_sum_nat 15
  have hhi := hanti.tendsto_le_alternating_series hs'.tendsto_sum_nat 15
  rw [Finset.sum_range_succ] at hhi
  rw [ev_atL]
  have h3 : a (2 * 15) ≤ 1 / 2 ^ 68 * |t| := by
    simp only [ha]
    rw [abs_of_nonneg h0, pow_succ]
    have : t ^ (2 * (2 * 15)) ≤ (7 / 16) ^ (2 * (2 * 15)) := pow_le_pow_left₀ h0 h _
    have h5 : t ^ (2 * (2 * 15)) / (2 * ((2 * 15 : ℕ) : ℝ) + 1) ≤ 1 / 2 ^ 68 := by
      rw [div_le_iff₀ (by positivity)]
      refine this.trans ?_
      norm_num
    rw [mul_div_right_comm]
    exact mul_le_mul_of_nonneg_right h5 h0
  have h4 : (-1 : ℝ) ^ (2 * 15) = 1 := by norm_num
  rw [h4, one_mul] at hhi
  simp only [ha] at hlo hhi h3
  rw [abs_le]
  constructor
  · have : 0 ≤ 1 / 2 ^ 68 * |t| := by positivity
    linarith
  · linarith

theorem atan_near {t : ℝ} (h : |t| ≤ 7 / 16) : |Real.arctan t - t * (1 - t * t * ev atL (t * t))| ≤ 1 / 2 ^ 68 * |t| := by
  rcases le_total 0 t with h0 | h0
  · exact atan_near0 h0 (by rwa [abs_of_nonneg h0] at h)
  · have := atan_near0 (t := -t) (by linarith) (by rwa [abs_of_nonpos h0] at h)
    rw [Real.arctan_neg, abs_neg, neg_mul_neg] at this
    rw [← abs_neg]
    convert this using 2
    ring

/-- an approximation of the series -/
theorem atan_rat {P : List ℚ} {B b : ℚ} {n : ℕ} (hP : chk (0 :: sub P atL) B n 0 b = true) {t : ℝ} (h : |t| ≤ 7 / 16) (hb : t * t ≤ b) :
    |Real.arctan t - (t - t * (t * t * ev P (t * t)))| ≤ (B + 1 / 2 ^ 68) * |t| := by
  have h1 := atan_near h
  have h2 := chk_sound hP (t := t * t) (by push_cast; exact mul_self_nonneg t) hb
  rw [ev, ev_sub] at h2
  have e : Real.arctan t - (t - t * (t * t * ev P (t * t))) =
    (Real.arctan t - t * (1 - t * t * ev atL (t * t))) + t * ((0 : ℚ) + t * t * (ev P (t * t) - ev atL (t * t))) := by push_cast; ring
  rw [e]
  refine (abs_add_le _ _).trans ?_
  have : |t * ((0 : ℚ) + t * t * (ev P (t * t) - ev atL (t * t)))| ≤ |t| * B := by
    rw [abs_mul]; exact mul_le_mul_of_nonneg_left h2 (abs_nonneg _)
  have e2 : (B + 1 / 2 ^ 68 : ℝ) * |t| = 1 / 2 ^ 68 * |t| + |t| * B := by ring
  rw [e2]
  exact add_le_add h1 this

/-- the arc tangent is a contraction -/
theorem atan_lip (x y : ℝ) : |Real.arctan x - Real.arctan y| ≤ |x - y| := by
  have := Convex.norm_image_sub_le_of_norm_deriv_le (f := Real.arctan) (C := 1) (s := Set.univ) (x := y) (y := x)
    (fun x _ => Real.differentiable_arctan x) (fun x _ => by
      rw [Real.deriv_arctan, Real.norm_eq_abs, abs_of_pos (by positivity), div_le_iff₀ (by positivity)]
      nlinarith [sq_nonneg x]) convex_univ (Set.mem_univ _) (Set.mem_univ _)
  simpa using this

theorem atan_half_red {x : ℝ} (h : 0 < x) : Real.arctan x = Real.arctan (1 / 2) + Real.arctan ((2 * x - 1) / (2 + x)) := by
  have h2 : (2 + x) ≠ 0 := by linarith
  have h1 : (1 / 2 : ℝ) * ((2 * x - 1) / (2 + x)) < 1 := by
    rw [mul_div_assoc', div_lt_one (by linarith)]; linarith
  rw [Real.arctan_add h1]
  congr 1
  have e : 1 - 1 / 2 * ((2 * x - 1) / (2 + x)) = 5 / 2 / (2 + x) := by field_simp; ring
  rw [e]
  field_simp
  ring
theorem atan_one_red {x : ℝ} (h : 0 < x) : Real.arctan x = Real.pi / 4 + Real.arctan ((x - 1) / (x + 1)) := by
  have h2 : (x + 1) ≠ 0 := by linarith
  have h1 : (1 : ℝ) * ((x - 1) / (x + 1)) < 1 := by
    rw [one_mul, div_lt_one (by linarith)]; linarith
  rw [← Real.arctan_one, Real.arctan_add h1]
  congr 1
  have e : 1 - 1 * ((x - 1) / (x + 1)) = 2 / (x + 1) := by field_simp; ring
  rw [e]
  field_simp
  ring
theorem atan_oneh_red {x : ℝ} (h : 0 < x) : Real.arctan x = Real.arctan (3 / 2) + Real.arctan ((x - 3 / 2) / (1 + 3 / 2 * x)) := by
  have h2 : (1 + 3 / 2 * x) ≠ 0 := by linarith
  have h1 : (3 / 2 : ℝ) * ((x - 3 / 2) / (1 + 3 / 2 * x)) < 1 := by
    rw [mul_div_assoc', div_lt_one (by linarith)]; linarith
  rw [Real.arctan_add h1]
  congr 1
  have e : 1 - 3 / 2 * ((x - 3 / 2) / (1 + 3 / 2 * x)) = 13 / 4 / (1 + 3 / 2 * x) := by field_simp; ring
  rw [e]
  field_simp
  ring
theorem atan_inf_red {x : ℝ} (h : 0 < x) : Real.arctan x = Real.pi / 2 + Real.arctan (-1 / x) := by
  have := Real.arctan_inv_of_pos h
  rw [neg_div, Real.arctan_neg, one_div, this]
  ring

/-- `arctan` of a small rational number, to 20 digits -/
def atQ (t : ℚ) : ℚ := t * (1 - t * t * (atL.foldr (fun a r => a + t * t * r) 0))

theorem ev_fold (p : List ℚ) (t : ℚ) : ((p.foldr (fun a r => a + t * r) 0 : ℚ) : ℝ) = ev p t := by
  induction p with
  | nil => simp [ev]
  | cons a p ih => simp only [List.foldr_cons, ev]; push_cast; rw [ih]

theorem atQ_near {t : ℚ} (h : |t| ≤ 7 / 16) : |Real.arctan t - (atQ t : ℚ)| ≤ 1 / 2 ^ 68 * |(t : ℝ)| := by
  have h' : |(t : ℝ)| ≤ 7 / 16 := by
    have := (Rat.cast_le (K := ℝ)).mpr h; push_cast at this; exact this
  have := atan_near h'
  unfold atQ
  push_cast
  rw [ev_fold]
  push_cast
  exact this

theorem pi_near : |Real.pi - ((314159265358979323846 / 10 ^ 20 : ℚ) : ℝ)| ≤ 1 / 10 ^ 20 := by
  have h1 := Real.pi_gt_d20
  have h2 := Real.pi_lt_d20
  push_cast
  rw [abs_le]
  norm_num at *
  constructor <;> linarith

theorem atan_half_near : |Real.arctan (1 / 2) - ((314159265358979323846 / 10 ^ 20 / 4 - atQ (1 / 3) : ℚ) : ℝ)| ≤ 2 / 10 ^ 20 := by
  have h1 := Real.arctan_inv_2_add_arctan_inv_3
  have h2 := atQ_near (t := 1 / 3) (by norm_num [abs_of_pos])
  have h3 := pi_near
  have e : ((1 / 3 : ℚ) : ℝ) = (3 : ℝ)⁻¹ := by push_cast; norm_num
  rw [e, abs_of_pos (show (0 : ℝ) < (3 : ℝ)⁻¹ by norm_num)] at h2
  rw [show (1 / 2 : ℝ) = 2⁻¹ by norm_num]
  rw [abs_le] at *
  push_cast at *
  norm_num at h2 h3 ⊢
  constructor <;> linarith [h2.1, h2.2, h3.1, h3.2]

theorem atan_oneh_near : |Real.arctan (3 / 2) - ((314159265358979323846 / 10 ^ 20 / 4 + atQ (1 / 5) : ℚ) : ℝ)| ≤ 2 / 10 ^ 20 := by
  have h1 := atan_one_red (x := 3 / 2) (by norm_num)
  have h2 := atQ_near (t := 1 / 5) (by norm_num [abs_of_pos])
  have h3 := pi_near
  rw [show ((3 / 2 - 1) / (3 / 2 + 1) : ℝ) = 1 / 5 by norm_num] at h1
  have e : ((1 / 5 : ℚ) : ℝ) = (1 / 5 : ℝ) := by push_cast; norm_num
  rw [e, abs_of_pos (show (0 : ℝ) < 1 / 5 by norm_num)] at h2
  rw [abs_le] at *
  push_cast at *
  norm_num at h2 h3 ⊢
  constructor <;> linarith [h2.1, h2.2, h3.1, h3.2]
end Poly
end Verif
