import Verif.Libm.PolyMul
import Mathlib.Analysis.SpecialFunctions.Log.Deriv
import Mathlib.Analysis.SpecialFunctions.Pow.Real
/-! # `ln 2` to 110 binary digits; Taylor polynomial of the exponential -/
namespace Verif
namespace Poly

/-- the partial sum `1/2 + 1/(2·2²) + ... + 1/(n 2ⁿ)` -/
def ln2S : ℕ → ℚ
  | 0 => 0
  | n + 1 => ln2S n + 1 / 2 ^ (n + 1) / (n + 1)

theorem ln2S_eq (n : ℕ) : ((ln2S n : ℚ) : ℝ) = ∑ i ∈ Finset.range n, (1 / 2 : ℝ) ^ (i + 1) / (i + 1) := by
  induction n with
  | zero => simp [ln2S]
  | succ n ih => rw [ln2S, Finset.sum_range_succ, ← ih]; push_cast; simp

theorem ln2_near (n : ℕ) : |Real.log 2 - ln2S n| ≤ 1 / 2 ^ n := by
  have := Real.abs_log_sub_add_sum_range_le (x := 1 / 2) (by rw [abs_of_pos] <;> norm_num) n
  rw [← ln2S_eq, show (1 : ℝ) - 1 / 2 = 2⁻¹ by norm_num, Real.log_inv, abs_of_pos (show (0 : ℝ) < 1 / 2 by norm_num)] at this
  rw [abs_sub_comm]
  refine this.trans (le_of_eq ?_)
  rw [pow_succ, div_pow, one_pow]
  field_simp
  norm_num

/-- 33 decimal digits of `ln 2` -/
def ln2L : ℚ := 693147180559945309417232121458176 / 10 ^ 33
def ln2H : ℚ := 693147180559945309417232121458177 / 10 ^ 33

theorem ln2_gt : (ln2L : ℝ) < Real.log 2 := by
  have h := ln2_near 120
  rw [abs_le] at h
  have : ln2L < ln2S 120 - 1 / 2 ^ 120 := by decide +kernel
  have : ((ln2L : ℚ) : ℝ) < ((ln2S 120 - 1 / 2 ^ 120 : ℚ) : ℝ) := by exact_mod_cast this
  push_cast at this
  linarith [h.1]
theorem ln2_lt : Real.log 2 < (ln2H : ℝ) := by
  have h := ln2_near 120
  rw [abs_le] at h
  have : ln2S 120 + 1 / 2 ^ 120 < ln2H := by decide +kernel
  have : ((ln2S 120 + 1 / 2 ^ 120 : ℚ) : ℝ) < ((ln2H : ℚ) : ℝ) := by exact_mod_cast this
  push_cast at this
  linarith [h.2]

/-- Taylor polynomial of `(eʳ - 1) / r` -/
def expL : List ℚ := [1, 1 / 2, 1 / 6, 1 / 24, 1 / 120, 1 / 720, 1 / 5040, 1 / 40320, 1 / 362880, 1 / 3628800, 1 / 39916800, 1 / 479001600, 1 / 6227020800,
  1 / 87178291200, 1 / 1307674368000]

theorem ev_expL (x : ℝ) : 1 + x * ev expL x = ∑ m ∈ Finset.range 16, x ^ m / m.factorial := by
  simp only [Finset.sum_range_succ, Finset.sum_range_zero, expL, ev, Nat.factorial]
  push_cast
  ring

theorem exp_near {x : ℝ} (hx : |x| ≤ 1 / 2) : |Real.exp x - (1 + x * ev expL x)| ≤ 1 / 2 ^ 60 := by
  rw [ev_expL]
  refine (Real.exp_bound (by linarith) (n := 16) (by norm_num)).trans ?_
  have : |x| ^ 16 ≤ (1 / 2) ^ 16 := pow_le_pow_left₀ (abs_nonneg _) hx _
  refine (mul_le_mul_of_nonneg_right this (by positivity)).trans ?_
  simp only [Nat.factorial]
  norm_num

theorem exp_near' {x : ℝ} (hx : |x| ≤ 0.3468) : |Real.exp x - (1 + x * ev expL x)| ≤ 1 / 2 ^ 68 := by
  rw [ev_expL]
  refine (Real.exp_bound (by norm_num at hx ⊢; linarith) (n := 16) (by norm_num)).trans ?_
  have : |x| ^ 16 ≤ 0.3468 ^ 16 := pow_le_pow_left₀ (abs_nonneg _) hx _
  refine (mul_le_mul_of_nonneg_right this (by positivity)).trans ?_
  simp only [Nat.factorial]
  norm_num

theorem exp_range {r : ℝ} (hr : |r| ≤ 0.3468) : 0.7069 ≤ Real.exp r ∧ Real.exp r ≤ 1.4146 := by
  have h : chk (sub (1 :: expL) [106075 / 100000]) (35384 / 100000) 12 (-3468 / 10000) (3468 / 10000) = true := by decide +kernel
  have hr' := hr
  rw [abs_le] at hr'
  have h1 := chk_sound h (t := r) (by push_cast; linarith [hr'.1]) (by push_cast; linarith [hr'.2])
  have h2 := exp_near' hr
  rw [ev_sub] at h1
  simp only [ev] at h1
  rw [abs_le] at h1 h2
  push_cast at h1
  norm_num at h1 h2 ⊢
  constructor <;> linarith [h1.1, h1.2, h2.1, h2.2]

/-- the coefficients of `p(t²)` -/
def spread : List ℚ → List ℚ
  | [] => []
  | a :: p => a :: 0 :: spread p
theorem ev_spread (p : List ℚ) (t : ℝ) : ev (spread p) t = ev p (t * t) := by
  induction p with
  | nil => rfl
  | cons a p ih => simp only [spread, ev, ih]; push_cast; ring

/-- `((eʳ - 1)(2 - c) - 2r) / r` with `c = r - r² P(r²)`, up to the Taylor remainder -/
def expD (P : List ℚ) : List ℚ := sub (mul (add [2, -1] (0 :: 0 :: spread P)) expL) [2]

theorem exp_rat {P : List ℚ} {B : ℚ} {n : ℕ} (hP : chk (expD P) B n (-3467 / 10000) (3467 / 10000) = true) {X : ℝ} (hX : |X| ≤ 0.3467) {C : ℝ}
    (hC : C = X - X * X * ev P (X * X)) (hC2 : |C| ≤ 1) : |(Real.exp X - 1) * (2 - C) - 2 * X| ≤ |X| * B + 3 / 2 ^ 68 := by
  have hX' := hX
  rw [abs_le] at hX'
  have h1 := chk_sound hP (t := X) (by push_cast; linarith [hX'.1]) (by push_cast; linarith [hX'.2])
  have h2 := exp_near' (x := X) (by norm_num at hX ⊢; linarith)
  have e1 : ev (expD P) X = (2 - C) * ev expL X - 2 := by
    rw [expD, ev_sub, ev_mul, ev_add, hC]
    simp only [ev, ev_spread]
    push_cast; ring
  rw [e1] at h1
  have e2 : (Real.exp X - 1) * (2 - C) - 2 * X = X * ((2 - C) * ev expL X - 2) + (Real.exp X - (1 + X * ev expL X)) * (2 - C) := by ring
  rw [e2]
  have h3 : |X * ((2 - C) * ev expL X - 2)| ≤ |X| * B := by rw [abs_mul]; exact mul_le_mul_of_nonneg_left h1 (abs_nonneg _)
  have h4 : |(Real.exp X - (1 + X * ev expL X)) * (2 - C)| ≤ 1 / 2 ^ 68 * 3 := by
    rw [abs_mul]
    refine mul_le_mul h2 ?_ (abs_nonneg _) (by positivity)
    rw [abs_le] at hC2 ⊢
    constructor <;> linarith [hC2.1, hC2.2]
  refine (abs_add_le _ _).trans ?_
  linarith
end Poly
end Verif
