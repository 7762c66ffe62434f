import Verif.Libm.ExpR
/-! # The rational function of `expm1`, against the exponential -/
namespace Verif
namespace Poly

/-- the Taylor remainder, relative to the cube of the argument -/
theorem exp_near3 {x : ℝ} (hx : |x| ≤ 0.3468) : |Real.exp x - (1 + x * ev expL x)| ≤ |x| ^ 3 / 2 ^ 63 := by
  rw [ev_expL]
  refine (Real.exp_bound (by norm_num at hx ⊢; linarith) (n := 16) (by norm_num)).trans ?_
  have : |x| ^ 13 ≤ 0.3468 ^ 13 := pow_le_pow_left₀ (abs_nonneg _) hx _
  rw [show |x| ^ 16 = |x| ^ 3 * |x| ^ 13 by ring, mul_assoc, div_eq_mul_inv]
  refine mul_le_mul_of_nonneg_left ?_ (by positivity)
  refine (mul_le_mul_of_nonneg_right this (by positivity)).trans ?_
  simp only [Nat.factorial]
  norm_num

/-- Taylor polynomial of `(eʳ - 1 - r - r²/2) / r³` -/
def expT : List ℚ := expL.drop 2

theorem ev_expT (x : ℝ) : ev expL x = 1 + x / 2 + x * x * ev expT x := by
  simp only [expT, expL, List.drop, ev]; push_cast; ring

/-- the denominator `6 - 3r + R(r²) r²/2` -/
def m1D (R : List ℚ) : List ℚ := add [6, -3] (0 :: 0 :: mul [1 / 2] (spread R))
/-- `((eʳ - 1 - r - r²/2) D + r³/2 (R (1 + r/2) - 3)) / r³`, up to the Taylor remainder -/
def m1P (R : List ℚ) : List ℚ := add (mul expT (m1D R)) (sub (mul [1 / 2, 1 / 4] (spread R)) [3 / 2])

/-- the quotient in `expm1` in exact arithmetic -/
noncomputable def m1q (R : List ℚ) (X : ℝ) : ℝ := (ev R (X * X) * (1 + X / 2) - 3) / (6 - 3 * X + ev R (X * X) * (X * X / 2))

theorem m1_rat {R : List ℚ} {B : ℚ} {n m : ℕ} (hP : chk (m1P R) B n (-3467 / 10000) (3467 / 10000) = true)
    (hD : chk (sub (m1D R) [61 / 10]) (11 / 10) m (-3467 / 10000) (3467 / 10000) = true) {X : ℝ} (hX : |X| ≤ 0.3467) :
    |X + X * X / 2 - X * X * X / 2 * m1q R X - (Real.exp X - 1)| ≤ |X| ^ 3 * (B / 5 + 1 / 2 ^ 63) := by
  have hX' := hX
  rw [abs_le] at hX'
  have h1 := chk_sound hP (t := X) (by push_cast; linarith [hX'.1]) (by push_cast; linarith [hX'.2])
  have h2 := exp_near3 (x := X) (by norm_num at hX ⊢; linarith)
  have h3 := chk_sound hD (t := X) (by push_cast; linarith [hX'.1]) (by push_cast; linarith [hX'.2])
  obtain ⟨D, hDd⟩ : ∃ D, D = 6 - 3 * X + ev R (X * X) * (X * X / 2) := ⟨_, rfl⟩
  obtain ⟨P, hPd⟩ : ∃ P, P = ev R (X * X) * (1 + X / 2) - 3 := ⟨_, rfl⟩
  have eD : ev (m1D R) X = D := by
    rw [hDd, m1D, ev_add]
    simp only [ev, ev_mul, ev_spread]
    push_cast; ring
  have eP : ev (m1P R) X = ev expT X * D + P / 2 := by
    rw [m1P, ev_add, ev_mul, ev_sub, ev_mul, eD, hPd]
    simp only [ev, ev_spread]
    push_cast; ring
  rw [eP] at h1
  rw [ev_sub, eD] at h3
  simp only [ev] at h3
  push_cast at h3
  have hD5 : 5 ≤ D := by have := (abs_le.mp h3).1; linarith
  have hq : m1q R X = P / D := by unfold m1q; rw [hPd, hDd]
  have hD0 : D ≠ 0 := by intro h; rw [h] at hD5; norm_num at hD5
  have e2 : X + X * X / 2 - X * X * X / 2 * m1q R X - (Real.exp X - 1) =
      -(X ^ 3 * ((ev expT X * D + P / 2) / D)) - (Real.exp X - (1 + X * ev expL X)) := by
    rw [hq, ev_expT]; field_simp; ring
  rw [e2]
  refine (abs_sub _ _).trans ?_
  rw [abs_neg, abs_mul, abs_pow, mul_add]
  refine add_le_add (mul_le_mul_of_nonneg_left ?_ (by positivity)) (by rw [mul_one_div]; exact h2)
  rw [abs_div, abs_of_pos (by linarith : 0 < D)]
  have hB : (0 : ℝ) ≤ B := (abs_nonneg _).trans h1
  rw [div_le_div_iff₀ (by linarith) (by norm_num)]
  nlinarith
end Poly
end Verif
