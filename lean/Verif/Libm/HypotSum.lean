import Verif.Libm.HypotFast
/-! # The double-double part of `hypot`: the sum of squares -/
namespace Verif
/-- `f64` value as a real -/
local notation "V" => Fmt.valK f64 ℝ

theorem Fmt.Rounds.monoR (F : Fmt) {v w : ℝ} {r t : BitVec F.w} (h : F.Rounds v r) (h' : F.Rounds w t) (h0 : 0 < v) (hvw : v ≤ w) :
    F.valK ℝ r ≤ F.valK ℝ t := by
  have hu := F.ulp0_pos ℝ
  have h1 := h.1
  have h2 := h'.1
  rw [abs_of_pos h0, show v = v / F.ulp0 ℝ * F.ulp0 ℝ by field_simp, F.isRNE_iff] at h1
  rw [abs_of_pos (lt_of_lt_of_le h0 hvw), show w = w / F.ulp0 ℝ * F.ulp0 ℝ by field_simp, F.isRNE_iff] at h2
  have hm := Fmt.IsRNEu.mono F h1 h2 (div_le_div_of_nonneg_right hvw hu.le)
  have s1 : F.sign r = false := by
    have := h.2 h0.ne'
    rw [Bool.eq_false_iff]; intro hc; linarith [this.mp hc]
  have s2 : F.sign t = false := by
    have := h'.2 (lt_of_lt_of_le h0 hvw).ne'
    rw [Bool.eq_false_iff]; intro hc; linarith [this.mp hc]
  unfold Fmt.valK
  rw [s1, s2]
  simpa using F.magValR_le_iff.mpr hm

namespace Hypot

theorem z54 (i : ℤ) (c : ℝ) (h : (2 : ℝ) ^ i = c * U) : (2 : ℝ) ^ i = c * U := h
theorem zp1 : (2 : ℝ) ^ (1 : ℤ) = 2 := by norm_num
theorem zm53 : (2 : ℝ) ^ (-53 : ℤ) = U := by unfold U; norm_num
theorem zm54 : (2 : ℝ) ^ (-54 : ℤ) = U / 2 := by unfold U; norm_num
theorem zm52 : (2 : ℝ) ^ (-52 : ℤ) = 2 * U := by unfold U; norm_num
theorem zm51 : (2 : ℝ) ^ (-51 : ℤ) = 4 * U := by unfold U; norm_num
theorem zm50 : (2 : ℝ) ^ (-50 : ℤ) = 8 * U := by unfold U; norm_num
theorem zm49 : (2 : ℝ) ^ (-49 : ℤ) = 16 * U := by unfold U; norm_num
theorem zm48 : (2 : ℝ) ^ (-48 : ℤ) = 32 * U := by unfold U; norm_num
theorem zm106 : (2 : ℝ) ^ (-106 : ℤ) = U ^ 2 := by unfold U; norm_num
theorem zm105 : (2 : ℝ) ^ (-105 : ℤ) = 2 * U ^ 2 := by unfold U; norm_num
theorem zm104 : (2 : ℝ) ^ (-104 : ℤ) = 4 * U ^ 2 := by unfold U; norm_num
theorem zm103 : (2 : ℝ) ^ (-103 : ℤ) = 8 * U ^ 2 := by unfold U; norm_num
theorem zm102 : (2 : ℝ) ^ (-102 : ℤ) = 16 * U ^ 2 := by unfold U; norm_num

theorem big64 {v : ℝ} {k : ℤ} (hv : |v| ≤ 2 ^ k) (hk : k ≤ 1024) : |v| ≤ 2 ^ ((f64.bias : ℤ) + 1) :=
  hv.trans (zpow_le_zpow_right₀ (by norm_num) (by rw [b64]; omega))

theorem rpNat {n : ℕ} (h : n ≤ 1000) : f64.Rp (n : ℝ) :=
  f64.rp_of (m := n) (j := 0) (by simp) (by
    rw [abs_of_nonneg (by positivity)]
    have : ((n : ℕ) : ℤ) ≤ 1000 := by exact_mod_cast h
    refine this.trans ?_
    rw [s64]; norm_num) (by rw [b64, s64]; norm_num)

theorem leN {n : ℕ} (h : n ≤ 1000) {v : ℝ} {r : BitVec f64.w} (hr : f64.Rounds v r) (hv : v ≤ n) : V r ≤ n :=
  hr.le_of f64 (rpNat h) (big64 (k := 10) (by
    rw [abs_of_nonneg (by positivity)]
    have : ((n : ℕ) : ℝ) ≤ 1000 := by exact_mod_cast h
    refine this.trans (by norm_num)) (by norm_num)) hv

theorem geN {n : ℕ} (h : n ≤ 1000) {v : ℝ} {r : BitVec f64.w} (hr : f64.Rounds v r) (hv : (n : ℝ) ≤ v) : (n : ℝ) ≤ V r :=
  hr.ge_of f64 (rpNat h) (big64 (k := 10) (by
    rw [abs_of_nonneg (by positivity)]
    have : ((n : ℕ) : ℝ) ≤ 1000 := by exact_mod_cast h
    refine this.trans (by norm_num)) (by norm_num)) hv

/-- where the arguments of the double-double part lie -/
structure Scaled (x y : BitVec f64.w) (j : ℤ) : Prop where
  fx : f64.IsFin x
  fy : f64.IsFin y
  x1 : 1 ≤ V x
  x2 : V x < 2
  gx : Fmt.Mul2 (-52) (V x)
  y0 : 0 < V y
  yx : V y ≤ V x
  gy : Fmt.Mul2 j (V y)
  yj : V y < 2 ^ (j + 53)
  hj : -79 ≤ j
  hj' : j ≤ -52

/-- the four cases for the rounded sum of squares `c`, its error `P` and the errors `e` of the squares -/
inductive SumCase (c e P : ℝ) : Prop where
  | low (h1 : 1 ≤ c) (h2 : c ≤ 2) (he : |e| ≤ 2 * U) (hP : |P| + |e| ≤ 2.5 * U)
  | mid (h1 : 2 ≤ c) (h2 : c ≤ 4) (he : |e| ≤ 4 * U) (hP : |P| + |e| ≤ 5 * U)
  | four (h1 : c = 4) (he : |e| ≤ 4 * U) (hP : |P| + |e| ≤ 8 * U)
  | high (h1 : 4 < c) (h2 : c ≤ 8) (he : |e| ≤ 4 * U) (hP : |P| + |e| ≤ 8 * U)

theorem mul2_gap {v : ℝ} (h : Fmt.Mul2 (-52) v) (hv : 1 < v) : 1 + 2 * U ≤ v := by
  obtain ⟨m, rfl⟩ := h
  have e : (2 : ℝ) ^ (-52 : ℤ) = 1 / 2 ^ 52 := by norm_num
  rw [e] at hv ⊢
  have h1 : ((2 ^ 52 : ℤ) : ℝ) < m := by
    rw [mul_one_div, lt_div_iff₀ (by positivity)] at hv
    push_cast; linarith
  have h2 : (2 ^ 52 : ℤ) + 1 ≤ m := by exact_mod_cast h1
  have h3 : ((2 ^ 52 : ℤ) : ℝ) + 1 ≤ m := by exact_mod_cast h2
  push_cast at h3
  rw [mul_one_div, le_div_iff₀ (by positivity)]
  unfold U
  calc (1 + 2 * (1 / 2 ^ 53)) * 2 ^ 52 = (2 : ℝ) ^ 52 + 1 := by norm_num
    _ ≤ _ := by norm_num; linarith

theorem mul2_ge {v : ℝ} {j : ℤ} (h : Fmt.Mul2 j v) (hv : 0 < v) : 2 ^ j ≤ v := by
  obtain ⟨m, rfl⟩ := h
  have hp : (0 : ℝ) < 2 ^ j := by positivity
  have h1 : (0 : ℝ) < m := by
    by_contra hc
    rw [not_lt] at hc
    linarith [mul_nonpos_of_nonpos_of_nonneg hc hp.le]
  have h2 : (1 : ℤ) ≤ m := by exact_mod_cast h1
  have h3 : (1 : ℝ) ≤ m := by exact_mod_cast h2
  exact le_mul_of_one_le_left hp.le h3

theorem sums {H : HypotOps} (hH : H.Lawful) {x y : BitVec f64.w} {j : ℤ} (hs : Scaled x y j) :
    ∃ dx2 dy2, H.fma x x (f64.neg (H.N.mul x x)) = .ok dx2 ∧ H.fma y y (f64.neg (H.N.mul y y)) = .ok dy2 ∧
      f64.IsFin dx2 ∧ f64.IsFin dy2 ∧ f64.IsFin (H.N.add (H.N.mul x x) (H.N.mul y y)) ∧
      f64.IsFin (H.N.add (H.N.sub (H.N.mul x x) (H.N.add (H.N.mul x x) (H.N.mul y y))) (H.N.mul y y)) ∧
      V x * V x + V y * V y = V (H.N.add (H.N.mul x x) (H.N.mul y y)) +
        V (H.N.add (H.N.sub (H.N.mul x x) (H.N.add (H.N.mul x x) (H.N.mul y y))) (H.N.mul y y)) + (V dx2 + V dy2) ∧
      SumCase (V (H.N.add (H.N.mul x x) (H.N.mul y y))) (V dx2 + V dy2)
        (V (H.N.add (H.N.sub (H.N.mul x x) (H.N.add (H.N.mul x x) (H.N.mul y y))) (H.N.mul y y))) := by
  obtain ⟨fx, fy, x1, x2, gx, y0, yx, gy, yj, hj, hj'⟩ := hs
  have hU := U_pos
  have hUs : U ≤ 1 / 2 ^ 40 := U_le
  have hUs' : U ≤ 1 / 1000 := hUs.trans (by norm_num)
  obtain ⟨fa, ra, dx2, ex1, ex2, ex3⟩ := sq_err hH fx gx (by rw [abs_of_pos (by linarith)]; norm_num; linarith) (by omega) (by omega)
  obtain ⟨fb, rb, dy2, ey1, ey2, ey3⟩ := sq_err hH fy gy (by rw [abs_of_pos y0]; exact yj.le) (by omega) (by omega)
  generalize ha : H.N.mul x x = a at *
  generalize hb : H.N.mul y y = b at *
  have hX1 : 1 ≤ V x * V x := by nlinarith
  have hX4 : V x * V x ≤ 4 := by nlinarith
  have hYX : V y * V y ≤ V x * V x := by nlinarith
  have hY0 : 0 < V y * V y := by positivity
  have a1 : ((1 : ℕ) : ℝ) ≤ V a := geN (by norm_num) ra (by push_cast; exact hX1)
  have a4 : V a ≤ ((4 : ℕ) : ℝ) := leN (by norm_num) ra (by push_cast; exact hX4)
  push_cast at a1 a4
  have hba : V b ≤ V a := rb.monoR f64 ra hY0 hYX
  have hb0 : 0 < V b := by
    have h1 := mul2_ge (gy.mul gy) hY0
    have h2 := rb.ge_of f64 (f64.rp_pow (j := j + j) (by rw [b64, s64]; omega)) (big64 (k := 0) (by
      rw [abs_of_pos (by positivity)]; exact zpow_le_zpow_right₀ (by norm_num) (by omega)) (by norm_num)) h1
    exact lt_of_lt_of_le (by positivity) h2
  have rc := addR H.N fa fb
  generalize hc : H.N.add a b = c at *
  have hS8 : |V a + V b| ≤ 2 ^ (3 : ℤ) := by rw [abs_of_pos (by linarith)]; norm_num; linarith
  have fc : f64.IsFin c := fin64 rc (hS8.trans (zpow_le_zpow_right₀ (by norm_num) (by norm_num)))
  have c1 : ((1 : ℕ) : ℝ) ≤ V c := geN (by norm_num) rc (by push_cast; linarith)
  have c8 : V c ≤ ((8 : ℕ) : ℝ) := leN (by norm_num) rc (by push_cast; linarith)
  push_cast at c1 c8
  -- the error of the sum
  have rd := subR H.N fa fc
  generalize hd : H.N.sub a c = t at *
  have habs : |V b| ≤ |V a| := by rw [abs_of_pos hb0, abs_of_pos (by linarith)]; exact hba
  have hrp1 : f64.Rp (V a - V c) := by
    have hq : |f64.val b| ≤ |f64.val a| := by
      rw [← f64.valK_cast, ← f64.valK_cast, ← Rat.cast_abs, ← Rat.cast_abs, Rat.cast_le] at habs; exact habs
    have rcq := ((H.N.add_spec a b).1 fa fb).1
    rw [hc] at rcq
    obtain ⟨n, _, hn⟩ := f64.fast2 fa fc hq rcq
    refine ⟨n, ?_⟩
    rw [← f64.valK_cast, ← f64.valK_cast, ← Rat.cast_sub, ← Rat.cast_abs, hn, f64.magVal_cast]
  have hdb : |V a - V c| ≤ 2 ^ (4 : ℤ) := by rw [abs_le]; constructor <;> norm_num <;> linarith
  have ht := rd.exactR f64 hrp1 (big64 hdb (by norm_num))
  have ft : f64.IsFin t := fin64 rd (hdb.trans (zpow_le_zpow_right₀ (by norm_num) (by norm_num)))
  have rP := addR H.N ft fb
  generalize hP : H.N.add t b = p at *
  rw [ht, show V a - V c + V b = V a + V b - V c by ring] at rP
  have hrp2 := f64.rp_sum_err habs rc (by rw [abs_of_pos (by linarith), b64]; exact a4.trans ((by norm_num : (4:ℝ) ≤ 2 ^ (2:ℤ)).trans (zpow_le_zpow_right₀ (by norm_num) (by norm_num))))
  have hpb : |V a + V b - V c| ≤ 2 ^ (4 : ℤ) := by rw [abs_le]; constructor <;> norm_num <;> linarith
  have hp := rP.exactR f64 hrp2 (big64 hpb (by norm_num))
  have fp : f64.IsFin p := fin64 rP (hpb.trans (zpow_le_zpow_right₀ (by norm_num) (by norm_num)))
  refine ⟨dx2, dy2, ex1, ey1, ex2, ey2, fc, fp, by rw [hp, ex3, ey3]; ring, ?_⟩
  -- bounds
  have eX : |V dx2| ≤ 2 * U := by
    rw [ex3, abs_sub_comm]
    have := err64 ra (k := 2) (by rw [abs_of_pos (by linarith)]; norm_num; linarith) (by norm_num) (by norm_num)
    rw [show (2 : ℤ) - 54 = -52 by norm_num, zm52] at this
    exact this
  have eX1 : V x * V x ≤ 2 → |V dx2| ≤ U := by
    intro h
    rw [ex3, abs_sub_comm]
    have := err64 ra (k := 1) (by rw [abs_of_pos (by linarith)]; norm_num; linarith) (by norm_num) (by norm_num)
    rw [show (1 : ℤ) - 54 = -53 by norm_num, zm53] at this
    exact this
  have eY : |V dy2| ≤ 2 * U := by
    rw [ey3, abs_sub_comm]
    have := err64 rb (k := 2) (by rw [abs_of_pos (by linarith)]; norm_num; linarith) (by norm_num) (by norm_num)
    rw [show (2 : ℤ) - 54 = -52 by norm_num, zm52] at this
    exact this
  have eY1 : V y * V y ≤ 2 → |V dy2| ≤ U := by
    intro h
    rw [ey3, abs_sub_comm]
    have := err64 rb (k := 1) (by rw [abs_of_pos (by linarith)]; norm_num; linarith) (by norm_num) (by norm_num)
    rw [show (1 : ℤ) - 54 = -53 by norm_num, zm53] at this
    exact this
  have eY0 : V y * V y ≤ 1 → |V dy2| ≤ U / 2 := by
    intro h
    rw [ey3, abs_sub_comm]
    have := err64 rb (k := 0) (by rw [abs_of_pos (by linarith)]; norm_num; linarith) (by norm_num) (by norm_num)
    rw [show (0 : ℤ) - 54 = -54 by norm_num, zm54] at this
    exact this
  have eP : |V p| ≤ 4 * U := by
    rw [hp, abs_sub_comm]
    have := err64 rc (k := 3) hS8 (by norm_num) (by norm_num)
    rw [show (3 : ℤ) - 54 = -51 by norm_num, zm51] at this
    exact this
  have eP2 : V a + V b ≤ 4 → |V p| ≤ 2 * U := by
    intro h
    rw [hp, abs_sub_comm]
    have := err64 rc (k := 2) (by rw [abs_of_pos (by linarith)]; norm_num; linarith) (by norm_num) (by norm_num)
    rw [show (2 : ℤ) - 54 = -52 by norm_num, zm52] at this
    exact this
  have eP1 : V a + V b ≤ 2 → |V p| ≤ U := by
    intro h
    rw [hp, abs_sub_comm]
    have := err64 rc (k := 1) (by rw [abs_of_pos (by linarith)]; norm_num; linarith) (by norm_num) (by norm_num)
    rw [show (1 : ℤ) - 54 = -53 by norm_num, zm53] at this
    exact this
  have eadd := abs_add_le (V dx2) (V dy2)
  rcases le_or_gt (V a + V b) 2 with hA | hA
  · -- low
    have hx2 : V x * V x ≤ 2 := by
      by_contra hcon
      rw [not_le] at hcon
      have : ((2 : ℕ) : ℝ) ≤ V a := geN (by norm_num) ra (by push_cast; exact hcon.le)
      push_cast at this
      linarith
    have e1 := eX1 hx2
    have hy1 : V y * V y ≤ 1 := by
      by_contra hcon
      rw [not_le] at hcon
      have h1 : ((1 : ℕ) : ℝ) ≤ V b := geN (by norm_num) rb (by push_cast; exact hcon.le)
      push_cast at h1
      have hxg : 1 < V x := by nlinarith
      have h2 := mul2_gap gx hxg
      have h3 : V x * V x ≤ 1 + U := by
        have := (abs_le.mp e1).2
        rw [ex3] at this
        linarith
      nlinarith
    have e2 := eY0 hy1
    have e3 := eP1 hA
    have c2 : V c ≤ ((2 : ℕ) : ℝ) := leN (by norm_num) rc (by push_cast; exact hA)
    push_cast at c2
    exact .low c1 c2 (by linarith) (by linarith)
  rcases le_or_gt (V a + V b) 4 with hB | hB
  · have c4 : V c ≤ ((4 : ℕ) : ℝ) := leN (by norm_num) rc (by push_cast; exact hB)
    have c2 : ((2 : ℕ) : ℝ) ≤ V c := geN (by norm_num) rc (by push_cast; exact hA.le)
    push_cast at c4 c2
    have e3 := eP2 hB
    refine .mid c2 c4 (by linarith) ?_
    rcases le_or_gt (V y * V y) 2 with hy | hy
    · have := eY1 hy
      linarith
    · have h1 : ((2 : ℕ) : ℝ) ≤ V b := geN (by norm_num) rb (by push_cast; exact hy.le)
      push_cast at h1
      have h4 : V a + V b = 4 := by linarith
      have h5 : ((4 : ℕ) : ℝ) ≤ V c := geN (by norm_num) rc (by push_cast; exact h4.ge)
      push_cast at h5
      have : V p = 0 := by rw [hp]; linarith
      rw [this, abs_zero]
      linarith
  · have h5 : ((4 : ℕ) : ℝ) ≤ V c := geN (by norm_num) rc (by push_cast; exact hB.le)
    push_cast at h5
    rcases h5.lt_or_eq with h6 | h6
    · exact .high h6 c8 (by linarith) (by linarith)
    · exact .four h6.symm (by linarith) (by linarith)

end Hypot
end Verif
