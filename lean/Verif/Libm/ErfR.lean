import Mathlib.Analysis.SpecialFunctions.Integrals.Basic
import Mathlib.Analysis.Real.Pi.Bounds
import Verif.Libm.AsinR
/-! # The real error function and its series -/
namespace Verif
open Poly
namespace Erf

/-- specification: the error function -/
noncomputable def erfR (x : ℝ) : ℝ := 2 / √Real.pi * ∫ t in (0 : ℝ)..x, Real.exp (-t ^ 2)

/-- the first 18 coefficients of `(√π / 2) erf x / x` as a series in `x²` -/
def eL : List ℚ := [1 / 1, -1 / 3, 1 / 10, -1 / 42, 1 / 216, -1 / 1320, 1 / 9360, -1 / 75600, 1 / 685440, -1 / 6894720, 1 / 76204800, -1 / 918086400, 1 / 11975040000, -1 / 168129561600, 1 / 2528170444800, -1 / 40537905408000, 1 / 690452066304000, -1 / 12449059983360000]

theorem int_near {x : ℝ} (hx : |x| ≤ 27 / 32) : |(∫ t in (0 : ℝ)..x, Real.exp (-t ^ 2)) - x * ev eL (x ^ 2)| ≤ 1 / 10 ^ 18 * |x| := by
  have hp : (∫ t in (0 : ℝ)..x, ∑ m ∈ Finset.range 18, (-t ^ 2) ^ m / (m.factorial : ℝ)) = x * ev eL (x ^ 2) := by
    have e : ∀ m : ℕ, (fun t : ℝ => (-t ^ 2) ^ m / (m.factorial : ℝ)) = fun t => ((-1) ^ m / (m.factorial : ℝ)) * t ^ (2 * m) := fun m => by
      funext t
      rw [show (-t ^ 2) = (-1) * t ^ 2 by ring, mul_pow, ← pow_mul]; ring
    rw [intervalIntegral.integral_finsetSum]
    · simp_rw [fun m => congrFun (e m)]
      simp only [intervalIntegral.integral_const_mul, integral_pow]
      simp only [Finset.sum_range_succ, Finset.sum_range_zero, eL, ev, Nat.factorial]
      push_cast
      ring
    · intro m _
      exact (by fun_prop : Continuous fun t : ℝ => (-t ^ 2) ^ m / (m.factorial : ℝ)).intervalIntegrable _ _
  rw [← hp, ← intervalIntegral.integral_sub]
  · have := intervalIntegral.norm_integral_le_of_norm_le_const (a := (0 : ℝ)) (b := x) (C := 1 / 10 ^ 18)
      (f := fun t => Real.exp (-t ^ 2) - ∑ m ∈ Finset.range 18, (-t ^ 2) ^ m / (m.factorial : ℝ)) (by
        intro t ht
        have ht' : |t| ≤ 27 / 32 := by
          rw [Set.mem_uIoc] at ht
          rw [abs_le] at *
          rcases ht with ⟨a, b⟩ | ⟨a, b⟩ <;> constructor <;> linarith
        have h2 : t ^ 2 ≤ 729 / 1024 := by rw [← sq_abs]; nlinarith [abs_nonneg t]
        have h3 : |-t ^ 2| ≤ 729 / 1024 := by rw [abs_neg, abs_of_nonneg (sq_nonneg t)]; exact h2
        have := Real.exp_bound (x := -t ^ 2) (h3.trans (by norm_num)) (n := 18) (by norm_num)
        rw [Real.norm_eq_abs]
        refine this.trans ?_
        have h4 : |-t ^ 2| ^ 18 ≤ (729 / 1024) ^ 18 := pow_le_pow_left₀ (abs_nonneg _) h3 18
        have h5 : ((Nat.succ 18 : ℕ) : ℝ) / ((Nat.factorial 18 : ℕ) * (18 : ℕ)) ≤ 2 / 10 ^ 16 := by norm_num [Nat.factorial]
        calc |-t ^ 2| ^ 18 * (((Nat.succ 18 : ℕ) : ℝ) / ((Nat.factorial 18 : ℕ) * (18 : ℕ))) ≤ (729 / 1024) ^ 18 * (2 / 10 ^ 16) :=
              mul_le_mul h4 h5 (by positivity) (by positivity)
          _ ≤ 1 / 10 ^ 18 := by norm_num)
    rw [sub_zero] at this
    exact this
  · exact (by fun_prop : Continuous fun t : ℝ => Real.exp (-t ^ 2)).intervalIntegrable _ _
  · exact (by fun_prop : Continuous fun t : ℝ => ∑ m ∈ Finset.range 18, (-t ^ 2) ^ m / (m.factorial : ℝ)).intervalIntegrable _ _

/-- `2 / √π` -/
def c0 : ℚ := 11283791670955125739 / 10 ^ 19

theorem c0_near : |2 / √Real.pi - (c0 : ℝ)| ≤ 1 / 10 ^ 19 := by
  have hp := Real.pi_pos
  have hs : (2 / √Real.pi) ^ 2 = 4 / Real.pi := by rw [div_pow, Real.sq_sqrt hp.le]; norm_num
  have h0 : 0 ≤ 2 / √Real.pi := by positivity
  have l : ((c0 : ℚ) : ℝ) - 1 / 10 ^ 19 ≤ 2 / √Real.pi := by
    refine le_of_sq_le_sq ?_ h0
    rw [hs, le_div_iff₀ hp]
    have := Real.pi_lt_d20
    unfold c0
    push_cast
    nlinarith
  have u : 2 / √Real.pi ≤ ((c0 : ℚ) : ℝ) + 1 / 10 ^ 19 := by
    refine le_of_sq_le_sq ?_ (by unfold c0; push_cast; norm_num)
    rw [hs, div_le_iff₀ hp]
    have := Real.pi_gt_d20
    unfold c0
    push_cast
    nlinarith
  rw [abs_le]
  constructor <;> linarith

/-- the error function near 0 -/
theorem erfR_near {x : ℝ} (hx : |x| ≤ 27 / 32) : |erfR x - x * (c0 * ev eL (x ^ 2))| ≤ 3 / 10 ^ 18 * |x| := by
  have a := int_near hx
  have b := c0_near
  have h2 : x ^ 2 ≤ 729 / 1024 := by rw [← sq_abs]; nlinarith [abs_nonneg x]
  have hE : |ev eL (x ^ 2)| ≤ 2 := by
    have := chk_sound (p := eL) (B := 2) (n := 3) (lo := 0) (hi := 729 / 1024) (by decide +kernel) (t := x ^ 2) (by push_cast; positivity) (by push_cast; exact h2)
    exact_mod_cast this
  unfold erfR
  set I := ∫ t in (0 : ℝ)..x, Real.exp (-t ^ 2)
  set c := 2 / √Real.pi
  have e : c * I - x * (c0 * ev eL (x ^ 2)) = c * (I - x * ev eL (x ^ 2)) + (c - c0) * (x * ev eL (x ^ 2)) := by ring
  have hc : |c| ≤ 2 := by
    rw [abs_le] at *
    have : ((c0 : ℚ) : ℝ) = 11283791670955125739 / 10 ^ 19 := by unfold c0; push_cast; norm_num
    rw [this] at b
    norm_num at b
    constructor <;> linarith [b.1, b.2]
  rw [e]
  refine (abs_add_le _ _).trans ?_
  rw [abs_mul, abs_mul, abs_mul x]
  have q1 : |c| * |I - x * ev eL (x ^ 2)| ≤ 2 * (1 / 10 ^ 18 * |x|) := mul_le_mul hc a (abs_nonneg _) (by norm_num)
  have q2 : |c - c0| * (|x| * |ev eL (x ^ 2)|) ≤ 1 / 10 ^ 19 * (|x| * 2) :=
    mul_le_mul b (mul_le_mul_of_nonneg_left hE (abs_nonneg _)) (by positivity) (by norm_num)
  have := abs_nonneg x
  norm_num at q1 q2 ⊢
  linarith

end Erf
end Verif
