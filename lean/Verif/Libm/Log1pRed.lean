import Verif.Libm.Log1pCore
import Verif.Libm.Expm1Sum
/-! # The sum `1 + x` of `log1p`, `log1pf` and the correction for its error, in any format -/
namespace Verif
open Fmt
namespace Log1p
open Log
variable {F : Fmt}

section
variable (hF : F.Big) (hs : F.s = 23 ∨ F.s = 52) (N : FPU F) {x one : BitVec F.w} {X U : ℝ} (hx : GFv F x X) (h1 : GFv F one 1)
include hF hs hx h1

omit hs h1 in
theorem near_one (h0 : -1 < X) (hX : X ≤ -1 / 2) : Mul2 (-1 - (F.s : ℤ)) X ∧ (2 : ℝ) ^ (-1 - (F.s : ℤ)) ≤ 1 + X := by
  have h127 := hF.bias
  have hg : Mul2 (-1 - (F.s : ℤ)) X := by
    have := F.mul2_ge (b := x) (k := -1) (by rw [hx.val, abs_of_neg (by linarith), show (2 : ℝ) ^ (-1 : ℤ) = 1 / 2 by norm_num]; linarith)
    rwa [hx.val] at this
  refine ⟨hg, ?_⟩
  have := mul2_min (((show Mul2 0 (1 : ℝ) from ⟨1, by simp⟩).mono (by omega)).add hg) (by linarith : 1 + X ≠ 0)
  rwa [abs_of_pos (by linarith)] at this

/-- the rounded sum -/
theorem one_add (h0 : -1 < X) : ∃ U, GFv F (N.add one x) U ∧ |1 + X - U| ≤ 1 / 2 ^ (F.s + 1) * (1 + X) ∧ F.Rounds (1 + X) (N.add one x) := by
  have h127 := hF.bias
  have hR := h1.addR N hx
  have hu0 : (0 : ℝ) < 1 / 2 ^ (F.s + 1) := by positivity
  rcases le_total X (2 ^ (60 : ℤ)) with hX | hX
  · have hv : |1 + X| ≤ 2 ^ (61 : ℤ) := by
      rw [abs_of_pos (by linarith)]; norm_num at hX ⊢; linarith
    refine ⟨_, GFv.self (hR.fin100 hF (hv.trans (zpow_le_zpow_right₀ (by norm_num) (by norm_num)))), ?_, hR⟩
    have hlo : (2 : ℝ) ^ (1 - (F.bias : ℤ)) ≤ |1 + X| := by
      rw [abs_of_pos (by linarith)]
      rcases le_total X (-1 / 2) with h | h
      · exact (zpow_le_zpow_right₀ (by norm_num) (by rcases hs with h | h <;> rw [h] <;> omega)).trans (near_one hF hx h0 h).2
      · refine (zpow_le_zpow_right₀ (n := -1) (by norm_num) (by omega)).trans ?_
        norm_num; linarith
    have := hR.rel F hlo (hv.trans (zpow_le_zpow_right₀ (by norm_num) (by omega)))
    rw [abs_sub_comm] at this
    rw [abs_of_pos (show 0 < 1 + X by linarith)] at this
    refine this.trans (le_of_eq ?_)
    rw [show -(F.s : ℤ) - 1 = -((F.s + 1 : ℕ) : ℤ) by push_cast; ring, zpow_neg, zpow_natCast, one_div]
  · have hXp : 0 < X := lt_of_lt_of_le (by positivity) hX
    have hrpx := F.rp_val x
    rw [hx.val] at hrpx
    have hXb : X < 2 ^ ((F.bias : ℤ) + 1) := by
      have : F.mag x < F.infRep := hx.fin
      have := F.magValR_lt_iff.mpr this
      rwa [F.magValR_infRep, ← F.absvR, hx.val, abs_of_pos hXp] at this
    have hnear := hR.near F hrpx (by rw [abs_of_pos hXp]; exact hXb.le)
    rw [show 1 + X - X = 1 by ring, abs_one] at hnear
    have hg : Mul2 (60 - (F.s : ℤ)) X := by
      have := F.mul2_ge (b := x) (k := 60) (by rw [hx.val, abs_of_pos hXp]; exact hX)
      rwa [hx.val] at this
    have hgap := mul2_min (((show Mul2 ((F.bias : ℤ) + 1) ((2 : ℝ) ^ ((F.bias : ℤ) + 1)) from ⟨1, by simp⟩).mono
      (by rcases hs with h | h <;> rw [h] <;> omega)).sub hg) (by linarith : (2 : ℝ) ^ ((F.bias : ℤ) + 1) - X ≠ 0)
    rw [abs_of_pos (by linarith)] at hgap
    have h8 : (8 : ℝ) ≤ 2 ^ (60 - (F.s : ℤ)) := by
      refine le_trans ?_ (zpow_le_zpow_right₀ (m := 3) (by norm_num) (by rcases hs with h | h <;> rw [h] <;> norm_num))
      norm_num
    rw [abs_le] at hnear
    have hfin : F.IsFin (N.add one x) := Expm1.fin_of_le (g := X + 2) (by rw [abs_le]; constructor <;> linarith) (by linarith)
    refine ⟨_, GFv.self hfin, ?_, hR⟩
    have h9 : 1 ≤ 1 / 2 ^ (F.s + 1) * (1 + X) := by
      have e : (1 : ℝ) ≤ 1 / 2 ^ (F.s + 1) * 2 ^ (60 : ℤ) := by
        rw [one_div_mul_eq_div, le_div_iff₀ (by positivity), one_mul, ← zpow_natCast]
        exact zpow_le_zpow_right₀ (by norm_num) (by rcases hs with h | h <;> rw [h] <;> norm_num)
      refine e.trans (mul_le_mul_of_nonneg_left (by linarith) hu0.le)
    refine le_trans ?_ h9
    rw [abs_le]; exact hnear

variable {u : BitVec F.w} (hu : GFv F u U) (hR : F.Rounds (1 + X) u) (he : |1 + X - U| ≤ 1 / 2 ^ (F.s + 1) * (1 + X))
include hu hR he

/-- the error of the sum, small arguments -/
theorem diff1 (h0 : -1 < X) (hX : X ≤ -1 / 4 ∨ 1 / 4 ≤ X) (hX2 : X ≤ 2) :
    F.Rounds (1 + X - U) (N.sub x (N.sub u one)) := by
  have h127 := hF.bias
  have hu2 : (1 : ℝ) / 2 ^ (F.s + 1) ≤ 1 / 2 ^ 20 :=
    one_div_le_one_div_of_le (by norm_num) (pow_le_pow_right₀ (by norm_num) (by rcases hs with h | h <;> omega))
  have he2 : |1 + X - U| ≤ 1 / 2 ^ 18 := by
    refine he.trans ?_
    calc (1 : ℝ) / 2 ^ (F.s + 1) * (1 + X) ≤ 1 / 2 ^ 20 * 3 := mul_le_mul hu2 (by linarith) (by linarith) (by norm_num)
      _ ≤ _ := by norm_num
  rw [abs_le] at he2
  have m1 : ∀ j : ℤ, j ≤ 0 → Mul2 j (1 : ℝ) := fun j hj => (show Mul2 0 (1 : ℝ) from ⟨1, by simp⟩).mono hj
  have hsub : GFv F (N.sub u one) (U - 1) := by
    rcases hX with h | h
    · rcases le_total X (-1 / 2) with h' | h'
      · have hg := (near_one hF hx h0 h').1
        have hgU : Mul2 (-1 - (F.s : ℤ)) U := by
          have := hR.grid F ((m1 _ (by omega)).add hg) (by omega) (by
            rw [abs_of_pos (by linarith)]
            refine le_trans (by linarith : 1 + X ≤ 2 ^ (1 : ℤ)) (zpow_le_zpow_right₀ (by norm_num) (by omega)))
          rwa [hu.val] at this
        have hl : |U - 1| ≤ 1 := by
          have hU0 : 0 ≤ U := by
            have := hR.ge_of F F.rp_zero (by rw [abs_zero]; positivity) (by linarith : 0 ≤ 1 + X)
            rwa [hu.val] at this
          rw [abs_le]; constructor <;> linarith
        exact GFv.of_rounds hF (hu.subR N h1) (hgU.sub (m1 _ (by omega)))
          (by rw [show -1 - (F.s : ℤ) + F.s + 1 = 0 by ring, zpow_zero]; exact hl) (by omega) (hl.trans (by norm_num))
      · have hgU : Mul2 (-2 - (F.s : ℤ)) U := by
          have := F.mul2_ge (b := u) (k := -2) (by
            rw [hu.val, abs_of_pos (by linarith), show (2 : ℝ) ^ (-2 : ℤ) = 1 / 4 by norm_num]; linarith)
          rwa [hu.val] at this
        have hge : (2 : ℝ) ^ (-1 : ℤ) ≤ U := by
          have := hR.ge_of F (F.rp_pow (j := -1) (by omega)) (by rw [abs_of_pos (by positivity)]; exact zpow_le_zpow_right₀ (by norm_num) (by omega))
            (by rw [show (2 : ℝ) ^ (-1 : ℤ) = 1 / 2 by norm_num]; linarith : (2 : ℝ) ^ (-1 : ℤ) ≤ 1 + X)
          rwa [hu.val] at this
        have hl : |U - 1| ≤ 2 ^ (-1 : ℤ) := by
          rw [show (2 : ℝ) ^ (-1 : ℤ) = 1 / 2 by norm_num] at hge ⊢
          rw [abs_le]; constructor <;> linarith
        exact GFv.of_rounds hF (hu.subR N h1) (hgU.sub (m1 _ (by omega)))
          (by rw [show -2 - (F.s : ℤ) + F.s + 1 = -1 by ring]; exact hl) (by omega) (hl.trans (by norm_num))
    · have hgU : Mul2 (0 - (F.s : ℤ)) U := by
        have := F.mul2_ge (b := u) (k := 0) (by rw [hu.val, abs_of_pos (by linarith), zpow_zero]; linarith)
        rwa [hu.val] at this
      have hle : U ≤ 3 := by
        have hrp : F.Rp (3 : ℝ) := F.rp_of (m := 3) (j := 0) (by norm_num) (by
          have : (2 : ℤ) ^ 2 ≤ 2 ^ (F.s + 1) := pow_le_pow_right₀ (by norm_num) (by rcases hs with h | h <;> omega)
          rw [abs_of_pos (by norm_num)]; linarith) (by omega)
        have := hR.le_of F hrp (by
          rw [abs_of_pos (by norm_num)]
          exact le_trans (by norm_num : (3 : ℝ) ≤ 2 ^ (2 : ℤ)) (zpow_le_zpow_right₀ (by norm_num) (by omega))) (by linarith : 1 + X ≤ 3)
        rwa [hu.val] at this
      have hl : |U - 1| ≤ 2 := by rw [abs_le]; constructor <;> linarith
      exact GFv.of_rounds hF (hu.subR N h1) (hgU.sub (m1 _ (by omega)))
        (by rw [show 0 - (F.s : ℤ) + F.s + 1 = 1 by ring, zpow_one]; exact hl) (by omega) (hl.trans (by norm_num))
  have := hx.subR N hsub
  rwa [show X - (U - 1) = 1 + X - U by ring] at this

/-- the error of the sum, large arguments -/
theorem diff2 (hX : 1 ≤ X) (hX2 : X ≤ 2 ^ (60 : ℤ)) : F.Rounds (1 + X - U) (N.sub one (N.sub u x)) := by
  have h127 := hF.bias
  have hu2 : (1 : ℝ) / 2 ^ (F.s + 1) ≤ 1 / 2 ^ 20 :=
    one_div_le_one_div_of_le (by norm_num) (pow_le_pow_right₀ (by norm_num) (by rcases hs with h | h <;> omega))
  obtain ⟨E, E1, E2⟩ := exists_mem_Ico_zpow (show 0 < X by linarith) (show (1 : ℝ) < 2 by norm_num)
  have hE0 : 0 ≤ E := by
    by_contra hc
    have := zpow_le_zpow_right₀ (show (1 : ℝ) ≤ 2 by norm_num) (show E + 1 ≤ 0 by omega)
    rw [zpow_zero] at this
    linarith
  have hE1 : (1 : ℝ) ≤ 2 ^ E := one_le_zpow₀ (by norm_num) hE0
  have hE9 : E ≤ 60 := by
    by_contra hc
    have := zpow_lt_zpow_right₀ (show (1 : ℝ) < 2 by norm_num) (show 60 < E by omega)
    linarith
  rw [zpow_add_one₀ (by norm_num)] at E2
  have hgX : Mul2 (E - (F.s : ℤ)) X := by
    have := F.mul2_ge (b := x) (k := E) (by rw [hx.val, abs_of_pos (by linarith)]; exact E1)
    rwa [hx.val] at this
  have hUX : X ≤ U := by
    have hrp := F.rp_val x
    rw [hx.val] at hrp
    have := hR.ge_of F hrp (by
      rw [abs_of_pos (by linarith)]; exact hX2.trans (zpow_le_zpow_right₀ (by norm_num) (by omega))) (by linarith : X ≤ 1 + X)
    rwa [hu.val] at this
  have hgU : Mul2 (E - (F.s : ℤ)) U := by
    have := F.mul2_ge (b := u) (k := E) (by rw [hu.val, abs_of_pos (by linarith)]; linarith)
    rwa [hu.val] at this
  have he3 : 1 / 2 ^ (F.s + 1) * (1 + X) ≤ 1 / 2 ^ 20 * (3 * 2 ^ E) := mul_le_mul hu2 (by linarith) (by linarith) (by norm_num)
  have hl : |U - X| ≤ 2 ^ E * 2 := by
    rw [abs_le] at he ⊢
    constructor <;> linarith [he.1, he.2]
  have hsub : GFv F (N.sub u x) (U - X) := GFv.of_rounds hF (hu.subR N hx) (hgU.sub hgX)
    (by rw [show E - (F.s : ℤ) + F.s + 1 = E + 1 by ring, zpow_add_one₀ (by norm_num)]; exact hl) (by rcases hs with h | h <;> rw [h] <;> omega)
    (hl.trans (by rw [← zpow_add_one₀ (by norm_num)]; exact zpow_le_zpow_right₀ (by norm_num) (by omega)))
  have := h1.subR N hsub
  rwa [show 1 - (U - X) = 1 + X - U by ring] at this

omit h1 hR in
theorem eta_le (h0 : -1 < X) : 0 < U ∧ |(1 + X - U) / U| ≤ 1001 / 1000 * (1 / 2 ^ (F.s + 1)) ∧
    Real.log (1 + X) = Real.log U + Real.log (1 + (1 + X - U) / U) := by
  have hu0 : (0 : ℝ) < 1 / 2 ^ (F.s + 1) := by positivity
  have hu2 : (1 : ℝ) / 2 ^ (F.s + 1) ≤ 1 / 2 ^ 20 :=
    one_div_le_one_div_of_le (by norm_num) (pow_le_pow_right₀ (by norm_num) (by rcases hs with h | h <;> omega))
  have h3 : 1 / 2 ^ (F.s + 1) * (1 + X) ≤ 1 / 2 ^ 20 * (1 + X) := mul_le_mul_of_nonneg_right hu2 (by linarith)
  have hUl : (1000 / 1001) * (1 + X) ≤ U := by
    rw [abs_le] at he
    linarith [he.2]
  have hU : 0 < U := by linarith
  refine ⟨hU, ?_, ?_⟩
  · rw [abs_div, abs_of_pos hU, div_le_iff₀ hU]
    refine he.trans ?_
    have := mul_le_mul_of_nonneg_left hUl hu0.le
    linarith
  · rw [← Real.log_mul hU.ne' (by
      have e : 1 + (1 + X - U) / U = (1 + X) / U := by field_simp; ring
      rw [e]
      exact (div_pos (by linarith) hU).ne')]
    congr 1
    field_simp
    ring

omit h1 hR in
theorem eta_log (h0 : -1 < X) : |Real.log (1 + (1 + X - U) / U)| ≤ 11 / 10 * (1 / 2 ^ (F.s + 1)) ∧
    |Real.log (1 + (1 + X - U) / U) - (1 + X - U) / U| ≤ 2 * (1 / 2 ^ (F.s + 1)) ^ 2 := by
  have hu0 : (0 : ℝ) < 1 / 2 ^ (F.s + 1) := by positivity
  have hu2 : (1 : ℝ) / 2 ^ (F.s + 1) ≤ 1 / 2 ^ 20 :=
    one_div_le_one_div_of_le (by norm_num) (pow_le_pow_right₀ (by norm_num) (by rcases hs with h | h <;> omega))
  obtain ⟨-, e2, -⟩ := eta_le hF hs hx hu he h0
  generalize (1 + X - U) / U = y at *
  have h4 := log_lin (y := y) (e2.trans (by norm_num at hu2 ⊢; linarith))
  have h5 : y ^ 2 ≤ (1001 / 1000 * (1 / 2 ^ (F.s + 1))) ^ 2 := sq_le_sq' (by linarith [neg_abs_le y]) (by linarith [le_abs_self y])
  rw [mul_pow] at h5
  have h6 : |Real.log (1 + y) - y| ≤ 2 * (1 / 2 ^ (F.s + 1)) ^ 2 := by
    have : (0 : ℝ) ≤ (1 / 2 ^ (F.s + 1)) ^ 2 := by positivity
    linarith
  refine ⟨?_, h6⟩
  have h7 := abs_sub_abs_le_abs_sub (Real.log (1 + y)) y
  have h8 : (1 / 2 ^ (F.s + 1) : ℝ) ^ 2 ≤ 1 / 2 ^ 20 * (1 / 2 ^ (F.s + 1)) := by
    rw [sq]; exact mul_le_mul_of_nonneg_right hu2 hu0.le
  linarith

omit h1 hR in
/-- the correction -/
theorem corr_gen (h0 : -1 < X) (hX2 : X ≤ 2 ^ (60 : ℤ)) {d : BitVec F.w} (hd : F.Rounds (1 + X - U) d) :
    ∃ C, GFv F (N.div d u) C ∧ |C - Real.log (1 + (1 + X - U) / U)| ≤ 1 / 1000 * (1 / 2 ^ (F.s + 1)) ∧ (1 + X = U → C = 0) := by
  have h127 := hF.bias
  have hu0 : (0 : ℝ) < 1 / 2 ^ (F.s + 1) := by positivity
  have hu1 : (1 : ℝ) / 2 ^ 53 ≤ 1 / 2 ^ (F.s + 1) :=
    one_div_le_one_div_of_le (by positivity) (pow_le_pow_right₀ (by norm_num) (by rcases hs with h | h <;> omega))
  have hu2 : (1 : ℝ) / 2 ^ (F.s + 1) ≤ 1 / 2 ^ 20 :=
    one_div_le_one_div_of_le (by norm_num) (pow_le_pow_right₀ (by norm_num) (by rcases hs with h | h <;> omega))
  obtain ⟨hU, e2, -⟩ := eta_le hF hs hx hu he h0
  obtain ⟨-, e4⟩ := eta_log hF hs hx hu he h0
  have hUm : (1 : ℝ) / 2 ^ 60 ≤ U := by
    have hm : (1 : ℝ) / 2 ^ 59 ≤ 1 + X := by
      rcases le_total X (-1 / 2) with h | h
      · refine le_trans ?_ (near_one hF hx h0 h).2
        rw [one_div, ← zpow_natCast, ← zpow_neg]
        exact zpow_le_zpow_right₀ (by norm_num) (by rcases hs with h | h <;> rw [h] <;> norm_num)
      · norm_num; linarith
    have h3 : 1 / 2 ^ (F.s + 1) * (1 + X) ≤ 1 / 2 ^ 20 * (1 + X) := mul_le_mul_of_nonneg_right hu2 (by linarith)
    rw [abs_le] at he
    norm_num at hm ⊢
    linarith [he.2]
  have hE9 : |1 + X - U| ≤ 2 ^ (100 : ℤ) := by
    refine he.trans ?_
    have h3 : 1 / 2 ^ (F.s + 1) * (1 + X) ≤ 1 / 2 ^ 20 * (1 + X) := mul_le_mul_of_nonneg_right hu2 (by linarith)
    norm_num at h3 hX2 ⊢
    linarith
  obtain ⟨D, d1, d2⟩ := GFv.rnd hF hd hE9
  generalize hε : 1 + X - U = ε at *
  have hq : D / U - ε / U = (D - ε) / U := by ring
  have hq2 : |D / U - ε / U| ≤ 2 * (1 / 2 ^ (F.s + 1)) ^ 2 + 1 / 2 ^ 90 := by
    rw [hq, abs_div, abs_of_pos hU]
    calc |D - ε| / U ≤ (1 / 2 ^ (F.s + 1) * |ε| + 1 / 2 ^ 150) / U := div_le_div_of_nonneg_right d2 hU.le
      _ = 1 / 2 ^ (F.s + 1) * |ε / U| + 1 / 2 ^ 150 / U := by rw [abs_div, abs_of_pos hU]; ring
      _ ≤ 1 / 2 ^ (F.s + 1) * (1001 / 1000 * (1 / 2 ^ (F.s + 1))) + 1 / 2 ^ 90 := by
          refine add_le_add (mul_le_mul_of_nonneg_left e2 hu0.le) ?_
          rw [div_le_iff₀ hU]
          have : (1 : ℝ) / 2 ^ 90 * (1 / 2 ^ 60) ≤ 1 / 2 ^ 90 * U := mul_le_mul_of_nonneg_left hUm (by positivity)
          refine le_trans (le_of_eq ?_) this
          norm_num
      _ ≤ _ := by
          have : (0 : ℝ) ≤ (1 / 2 ^ (F.s + 1)) ^ 2 := by positivity
          linarith
  have hsq : (1 / 2 ^ (F.s + 1) : ℝ) ^ 2 ≤ 1 / 2 ^ 20 * (1 / 2 ^ (F.s + 1)) := by
    rw [sq]; exact mul_le_mul_of_nonneg_right hu2 hu0.le
  have ht1 : (1 : ℝ) / 2 ^ 90 ≤ 1 / 2 ^ 30 * (1 / 2 ^ 53) := by norm_num
  have ht2 : (1 : ℝ) / 2 ^ 150 ≤ 1 / 2 ^ 30 * (1 / 2 ^ 53) := by norm_num
  have hDU : |D / U| ≤ 11 / 10 * (1 / 2 ^ (F.s + 1)) := by
    have := abs_sub_abs_le_abs_sub (D / U) (ε / U)
    norm_num1 at *
    linarith
  have hdR := d1.divR N hu hU.ne'
  obtain ⟨C, c1, c2⟩ := GFv.rnd hF hdR (hDU.trans (by norm_num at hu2 ⊢; linarith))
  refine ⟨C, c1, ?_, ?_⟩
  · have e : C - Real.log (1 + ε / U) = (C - D / U) + (D / U - ε / U) - (Real.log (1 + ε / U) - ε / U) := by ring
    rw [e]
    refine (abs_sub _ _).trans ?_
    have a1 := abs_add_le (C - D / U) (D / U - ε / U)
    have a2 := mul_le_mul_of_nonneg_left hDU hu0.le
    rw [show 1 / 2 ^ (F.s + 1) * (11 / 10 * (1 / 2 ^ (F.s + 1))) = 11 / 10 * (1 / 2 ^ (F.s + 1) : ℝ) ^ 2 by ring] at a2
    linarith
  · intro h
    have hε0 : ε = 0 := by rw [← hε, h, sub_self]
    have hz : ∀ {b : BitVec F.w} {v w : ℝ}, F.Rounds v b → v = 0 → GFv F b w → w = 0 := by
      intro b v w h1 h2 h3
      rw [← h3.val, h1.exactR F (by rw [h2]; exact F.rp_zero) (by rw [h2, abs_zero]; positivity), h2]
    have hD0 := hz hd hε0 d1
    exact hz hdR (by rw [hD0, zero_div]) c1
end
end Log1p
end Verif
