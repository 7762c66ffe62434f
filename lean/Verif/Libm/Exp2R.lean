import Verif.Libm.ExpR
/-! # Powers of two: a checked table entry, a checked polynomial -/
namespace Verif
namespace Poly

/-- `ln 2` is near its 33 digits -/
theorem ln2_close : |Real.log 2 - (ln2L : ℚ)| ≤ 1 / 10 ^ 33 := by
  have h1 := ln2_gt
  have h2 := ln2_lt
  have h3 : ((ln2H : ℚ) : ℝ) = (ln2L : ℚ) + 1 / 10 ^ 33 := by unfold ln2H ln2L; push_cast; norm_num
  rw [abs_le]
  constructor <;> linarith

theorem log2_pos : (0 : ℝ) < Real.log 2 := Real.log_pos (by norm_num)
theorem log2_lt : Real.log 2 < 0.7 := by
  have h2 := ln2_lt
  have : ((ln2H : ℚ) : ℝ) < 0.7 := by unfold ln2H; push_cast; norm_num
  linarith

/-- the entry `T` of a table is `2^(j/m + e)` up to `ε` -/
def tabChk (T e ε : ℚ) (m : ℕ) (j : ℤ) : Bool :=
  decide (0 < T ∧ 0 ≤ ε ∧ ε < 1 ∧ |m * e| ≤ 1 / 10 ^ 9 ∧ (T * (1 - ε)) ^ m ≤ 2 ^ j * (1 + m * e * ln2L - 2 / 10 ^ 18) ∧
    2 ^ j * (1 + m * e * ln2L + 2 / 10 ^ 18) ≤ (T * (1 + ε)) ^ m)

theorem tab_sound {T e ε : ℚ} {m : ℕ} {j : ℤ} (hm : m ≠ 0) (h : tabChk T e ε m j = true) :
    0 < (T : ℝ) ∧ |(T : ℝ) - Real.exp ((j / m + e) * Real.log 2)| ≤ ε * T := by
  unfold tabChk at h
  rw [decide_eq_true_iff] at h
  obtain ⟨h0, h1, h2, h3, h4, h5⟩ := h
  have c0 : (0 : ℝ) < T := by exact_mod_cast h0
  have c1 : (0 : ℝ) ≤ ε := by exact_mod_cast h1
  have c2 : (ε : ℝ) < 1 := by exact_mod_cast h2
  have c3 : |(m : ℝ) * e| ≤ 1 / 10 ^ 9 := by
    have := Rat.cast_le (K := ℝ).mpr h3
    push_cast at this; exact this
  have c4 : ((T : ℝ) * (1 - ε)) ^ m ≤ 2 ^ j * (1 + m * e * (ln2L : ℚ) - 2 / 10 ^ 18) := by
    have := Rat.cast_le (K := ℝ).mpr h4
    push_cast at this; exact this
  have c5 : (2 : ℝ) ^ j * (1 + m * e * (ln2L : ℚ) + 2 / 10 ^ 18) ≤ (T * (1 + ε)) ^ m := by
    have := Rat.cast_le (K := ℝ).mpr h5
    push_cast at this; exact this
  have hl := log2_pos
  have hl7 := log2_lt
  have hlc := ln2_close
  obtain ⟨E, hE⟩ : ∃ E, E = Real.exp ((j / m + e) * Real.log 2) := ⟨_, rfl⟩
  have hE0 : 0 < E := hE ▸ Real.exp_pos _
  have hmR : (m : ℝ) ≠ 0 := by exact_mod_cast hm
  have hp : E ^ m = 2 ^ j * Real.exp (m * e * Real.log 2) := by
    rw [hE, ← Real.exp_nat_mul, ← Real.rpow_intCast, Real.rpow_def_of_pos (by norm_num), ← Real.exp_add]
    congr 1
    field_simp
  obtain ⟨y, hy⟩ : ∃ y, y = m * e * Real.log 2 := ⟨_, rfl⟩
  have hy1 : |y| ≤ 1 / 10 ^ 9 := by
    rw [hy, abs_mul, abs_of_pos hl]
    nlinarith [abs_nonneg ((m : ℝ) * e)]
  have hy2 : |y - m * e * (ln2L : ℚ)| ≤ 1 / 10 ^ 33 := by
    rw [hy, ← mul_sub, abs_mul]
    calc |(m : ℝ) * e| * |Real.log 2 - (ln2L : ℚ)| ≤ 1 * (1 / 10 ^ 33) := mul_le_mul (c3.trans (by norm_num)) hlc (abs_nonneg _) (by norm_num)
      _ = _ := by ring
  have hy3 := Real.abs_exp_sub_one_sub_id_le (x := y) (hy1.trans (by norm_num))
  have hy4 : y ^ 2 ≤ 1 / 10 ^ 18 := by
    rw [← sq_abs]
    calc |y| ^ 2 ≤ (1 / 10 ^ 9) ^ 2 := pow_le_pow_left₀ (abs_nonneg _) hy1 2
      _ = _ := by norm_num
  rw [← hy] at hp
  rw [abs_le] at hy2 hy3
  have hj : (0 : ℝ) < 2 ^ j := by positivity
  have g1 : (T * (1 - ε)) ^ m ≤ E ^ m := by
    rw [hp]
    refine c4.trans (mul_le_mul_of_nonneg_left ?_ hj.le)
    linarith [hy2.1, hy3.1]
  have g2 : E ^ m ≤ (T * (1 + ε)) ^ m := by
    rw [hp]
    refine le_trans (mul_le_mul_of_nonneg_left ?_ hj.le) c5
    linarith [hy2.2, hy3.2]
  have i1 : T * (1 - ε) ≤ E := (pow_le_pow_iff_left₀ (mul_nonneg c0.le (by linarith)) hE0.le hm).mp g1
  have i2 : E ≤ T * (1 + ε) := (pow_le_pow_iff_left₀ hE0.le (mul_nonneg c0.le (by linarith)) hm).mp g2
  refine ⟨c0, ?_⟩
  rw [← hE, abs_le]
  constructor <;> linarith

/-- the coefficients of `c p(c x)` -/
def scaleX (c : ℚ) : ℚ → List ℚ → List ℚ
  | _, [] => []
  | d, a :: p => (d * c * a) :: scaleX c (d * c) p
theorem ev_scaleX (c d : ℚ) (p : List ℚ) (t : ℝ) : ev (scaleX c d p) t = d * c * ev p (c * t) := by
  induction p generalizing d with
  | nil => simp [scaleX, ev]
  | cons a p ih => simp only [scaleX, ev, ih]; push_cast; ring

/-- the coefficients of `(2^z - 1) / z`, up to the Taylor remainder -/
def exp2L : List ℚ := scaleX ln2L 1 expL

/-- the polynomial `1 + z P(z)` is near `2^z` -/
theorem exp2_near {P : List ℚ} {B h : ℚ} {n : ℕ} (hP : chk (sub exp2L P) B n (-h) h = true) (h2 : h ≤ 1 / 4) {Z : ℝ} (hZ : |Z| ≤ h) :
    |Real.exp (Z * Real.log 2) - (1 + Z * ev P Z)| ≤ |Z| * B + 1 / 2 ^ 67 := by
  have hh : (h : ℝ) ≤ 1 / 4 := by
    have := Rat.cast_le (K := ℝ).mpr h2
    push_cast at this; exact this
  have hZ4 := hZ.trans hh
  have hZ' := hZ
  rw [abs_le] at hZ'
  have a1 := chk_sound hP (t := Z) (by push_cast; exact hZ'.1) hZ'.2
  rw [ev_sub, exp2L, ev_scaleX] at a1
  have hlc := ln2_close
  have hl7 := log2_lt
  have hl0 := log2_pos
  obtain ⟨c, hc⟩ : ∃ c : ℝ, c = (ln2L : ℚ) := ⟨_, rfl⟩
  rw [← hc] at a1 hlc
  have hc1 : |c * Z| ≤ 0.3 := by
    rw [abs_mul]
    have : |c| ≤ 0.8 := by
      rw [abs_le] at hlc ⊢
      constructor <;> linarith [hlc.1, hlc.2]
    calc |c| * |Z| ≤ 0.8 * (1 / 4) := mul_le_mul this hZ4 (abs_nonneg _) (by norm_num)
      _ ≤ _ := by norm_num
  have a2 := exp_near' (x := c * Z) (hc1.trans (by norm_num))
  have a3 : |Real.exp (Z * Real.log 2) - Real.exp (c * Z)| ≤ 1 / 2 ^ 80 := by
    have e : Z * Real.log 2 = c * Z + Z * (Real.log 2 - c) := by ring
    obtain ⟨d, hd⟩ : ∃ d, d = Z * (Real.log 2 - c) := ⟨_, rfl⟩
    have hd1 : |d| ≤ 1 / 10 ^ 33 := by
      rw [hd, abs_mul]
      calc |Z| * |Real.log 2 - c| ≤ 1 * (1 / 10 ^ 33) := mul_le_mul (hZ4.trans (by norm_num)) hlc (abs_nonneg _) (by norm_num)
        _ = _ := by ring
    have h3 := Real.abs_exp_sub_one_le (x := d) (hd1.trans (by norm_num))
    have h4 := (exp_range (r := c * Z) (hc1.trans (by norm_num))).2
    rw [e, ← hd, Real.exp_add, ← mul_sub_one, abs_mul, abs_of_pos (Real.exp_pos _)]
    calc Real.exp (c * Z) * |Real.exp d - 1| ≤ 2 * (2 * (1 / 10 ^ 33)) :=
          mul_le_mul (by linarith) (h3.trans (by linarith)) (abs_nonneg _) (by norm_num)
      _ ≤ _ := by norm_num
  have a4 : |Z * ((1 : ℚ) * c * ev expL (c * Z) - ev P Z)| ≤ |Z| * B := by rw [abs_mul]; exact mul_le_mul_of_nonneg_left a1 (abs_nonneg _)
  rw [show Real.exp (Z * Real.log 2) - (1 + Z * ev P Z) = (Real.exp (Z * Real.log 2) - Real.exp (c * Z)) +
    (Real.exp (c * Z) - (1 + c * Z * ev expL (c * Z))) + Z * ((1 : ℚ) * c * ev expL (c * Z) - ev P Z) by push_cast; ring]
  refine (abs_add_le _ _).trans ?_
  have := abs_add_le (Real.exp (Z * Real.log 2) - Real.exp (c * Z)) (Real.exp (c * Z) - (1 + c * Z * ev expL (c * Z)))
  have h9 : (1 : ℝ) / 2 ^ 68 + 1 / 2 ^ 80 ≤ 1 / 2 ^ 67 := by norm_num
  have h8 := add_le_add (this.trans (add_le_add a3 a2)) a4
  refine h8.trans ?_
  generalize |Z| * (B : ℝ) = b
  linarith
end Poly
end Verif
