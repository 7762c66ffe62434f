import Verif.Libm.CbrtStep
/-! # `cbrt`: what the linear step computes -/
namespace Verif
open Fmt
namespace CbrtD
variable (N : FPU f64) {fma : D → D → D → M D}

theorem neg_fv {b : D} {B : ℝ} (h : GFv f64 b B) : GFv f64 (f64.neg b) (-B) := ⟨f64.isFin_neg.mpr h.fin, by rw [f64.valK_neg, h.val]⟩

/-- a difference of two numbers of at least 1/2 that are near is exact -/
theorem sub_exact {a b : D} {A B : ℝ} (ha : GFv f64 a A) (hb : GFv f64 b B) (a0 : 1 / 2 ≤ |A|) (b0 : 1 / 2 ≤ |B|) (h : |A - B| ≤ 1) : GFv f64 (N.sub a b) (A - B) := by
  have g1 : Mul2 (-53) A := by
    have := f64.mul2_ge (b := a) (k := -1) (by rw [ha.val]; refine le_trans (by norm_num) a0)
    rwa [ha.val, s64] at this
  have g2 : Mul2 (-53) B := by
    have := f64.mul2_ge (b := b) (k := -1) (by rw [hb.val]; refine le_trans (by norm_num) b0)
    rwa [hb.val, s64] at this
  exact GFv.of_rounds big64 (ha.subR N hb) (g1.sub g2) (h.trans (by rw [s64]; norm_num)) (by decide) (h.trans (by norm_num))

theorem rnd53 {v : ℝ} {r : D} (h : f64.Rounds v r) (h9 : |v| ≤ 100) : ∃ u, GFv f64 r u ∧ |u - v| ≤ 1 / 2 ^ 53 * |v| + 1 / 2 ^ 150 ∧ |u| ≤ |v| + 1 := by
  obtain ⟨u, g, e⟩ := GFv.rnd big64 h (h9.trans (by norm_num))
  have e : |u - v| ≤ 1 / 2 ^ 53 * |v| + 1 / 2 ^ 150 := e
  refine ⟨u, g, e, ?_⟩
  have := abs_sub_abs_le_abs_sub u v
  norm_num at e
  linarith

set_option maxHeartbeats 1000000 in
theorem newton_spec (hH : FmaOk fma) {zz rr y : D} {c R Y E : ℝ} (gz : GFv f64 zz (c ^ 3)) (gr : GFv f64 rr R) (gy : GFv f64 y Y) (c1 : 1 ≤ |c|) (c2 : |c| ≤ 2)
    (hR : |R * c ^ 3 - 1| ≤ 1 / 2 ^ 52) (hE : E ≤ 1 / 2 ^ 38) (hY : |Y - c| ≤ E * |c|) :
    ∃ y1 dy v Y1, newton N fma zz rr y = .ok (y1, dy) ∧ f64.Rounds v y1 ∧ GFv f64 y1 Y1 ∧ GFv f64 dy (v - Y1) ∧
      |v - c| ≤ (2.001 * E ^ 2 + E / 2 ^ 50 + 1 / 2 ^ 102) * |c| := by
  have hc : c ≠ 0 := by intro h; rw [h, abs_zero] at c1; linarith
  obtain ⟨hq, hlin⟩ := linear hc hY hE
  have hE0 : 0 ≤ E := by have := (abs_nonneg _).trans hY; by_contra hh; rw [not_le] at hh; nlinarith
  have hEc : E * |c| ≤ 1 / 2 ^ 38 * |c| := mul_le_mul_of_nonneg_right hE (abs_nonneg _)
  have y_hi : |Y| ≤ 1.001 * |c| := by
    have := abs_sub_abs_le_abs_sub Y c
    norm_num at hEc ⊢; linarith
  have y_lo : 0.999 * |c| ≤ |Y| := by
    have := abs_sub_abs_le_abs_sub c Y
    rw [abs_sub_comm] at this
    norm_num at hEc ⊢; linarith
  norm_num at y_hi y_lo
  have y2b : |Y| ≤ 2.002 := by norm_num; linarith
  have yb : 0.999 ≤ |Y| := by norm_num; linarith
  norm_num at y2b yb
  -- the square
  have sq := gy.mulR N gy
  have sqb : |Y * Y| ≤ 401 / 100 := by rw [abs_mul]; nlinarith
  have sqb0 : 99 / 100 ≤ |Y * Y| := by rw [abs_mul]; nlinarith
  obtain ⟨A, gA, y2l, f1, gB⟩ := prod_err hH gy gy (by linarith) (by linarith) (by linarith) (by linarith) sq
  have eA := err64 sq gA (k := 3) (sqb.trans (by norm_num)) (by norm_num) (by norm_num)
  have eA : |A - Y * Y| ≤ 1 / 2 ^ 51 := eA.trans (by norm_num)
  have A_hi : |A| ≤ 402 / 100 := by have := abs_sub_abs_le_abs_sub A (Y * Y); linarith
  have A_lo : 98 / 100 ≤ |A| := by have := abs_sub_abs_le_abs_sub (Y * Y) A; rw [abs_sub_comm] at this; linarith
  -- the cube
  have cu := gA.mulR N gy
  have cub : |A * Y| ≤ 81 / 10 := by rw [abs_mul]; nlinarith [abs_nonneg A, abs_nonneg Y]
  obtain ⟨C, gC, t, f2, gT⟩ := prod_err hH gy gA (by linarith) (by linarith) (by linarith) (by linarith) (by rw [mul_comm]; exact cu)
  have eC := err64 cu gC (k := 4) (cub.trans (by norm_num)) (by norm_num) (by norm_num)
  have eC : |C - A * Y| ≤ 1 / 2 ^ 50 := eC.trans (by norm_num)
  -- the low part
  have mr := gy.mulR N gB
  have mb : |Y * (Y * Y - A)| ≤ 1 / 2 ^ 49 := by
    rw [abs_mul, abs_sub_comm]
    calc |Y| * |A - Y * Y| ≤ 2.01 * (1 / 2 ^ 51) := mul_le_mul (by norm_num; linarith) eA (abs_nonneg _) (by norm_num)
      _ ≤ _ := by norm_num
  obtain ⟨m, gm, -⟩ := GFv.rnd big64 mr (mb.trans (by norm_num))
  have em := err64 mr gm (k := -49) (mb.trans (by rw [zpow_neg]; norm_num)) (by norm_num) (by norm_num)
  have em : |m - Y * (Y * Y - A)| ≤ 1 / 2 ^ 103 := em.trans (by rw [show (-49 : ℤ) - 54 = -103 by norm_num, zpow_neg]; norm_num)
  have lr := gT.addR N gm
  have hTb : |Y * A - C| ≤ 1 / 2 ^ 50 := by rw [abs_sub_comm, mul_comm]; exact eC
  have lb : |Y * A - C + m| ≤ 1 / 2 ^ 48 := by
    have h1 := abs_add_le (Y * A - C) m
    have h2 := abs_sub_abs_le_abs_sub m (Y * (Y * Y - A))
    linarith
  obtain ⟨L, gL, -⟩ := GFv.rnd big64 lr (lb.trans (by norm_num))
  have eL := err64 lr gL (k := -48) (lb.trans (by rw [zpow_neg]; norm_num)) (by norm_num) (by norm_num)
  have eL : |L - (Y * A - C + m)| ≤ 1 / 2 ^ 102 := eL.trans (by rw [show (-48 : ℤ) - 54 = -102 by norm_num, zpow_neg]; norm_num)
  -- the difference to `zz`
  obtain ⟨q, hqd⟩ : ∃ q, q = (Y ^ 3 - c ^ 3) / c ^ 3 := ⟨_, rfl⟩
  rw [← hqd] at hq hlin
  have hc3 : c ^ 3 ≠ 0 := pow_ne_zero 3 hc
  have hqc : q * c ^ 3 = Y ^ 3 - c ^ 3 := by rw [hqd, div_mul_cancel₀ _ hc3]
  have c3a : 1 ≤ |c ^ 3| := by rw [abs_pow]; exact one_le_pow₀ c1
  have c3b : |c ^ 3| ≤ 8 := by
    rw [abs_pow]; calc |c| ^ 3 ≤ 2 ^ 3 := pow_le_pow_left₀ (abs_nonneg _) c2 3
      _ = 8 := by norm_num
  have hqb : |q * c ^ 3| ≤ 1 / 2 ^ 32 := by
    rw [abs_mul]
    calc |q| * |c ^ 3| ≤ (3.001 * (1 / 2 ^ 38)) * 8 := mul_le_mul (hq.trans (mul_le_mul_of_nonneg_left hE (by norm_num))) c3b (abs_nonneg _) (by norm_num)
      _ ≤ _ := by norm_num
  have hYA : Y ^ 3 = Y * A + Y * (Y * Y - A) := by ring
  have hCz : |C - c ^ 3| ≤ 1 / 2 ^ 31 := by
    have e : C - c ^ 3 = q * c ^ 3 - (Y * A - C) - Y * (Y * Y - A) := by rw [hqc, hYA]; ring
    rw [e]
    have h1 := abs_sub (q * c ^ 3 - (Y * A - C)) (Y * (Y * Y - A))
    have h2 := abs_sub (q * c ^ 3) (Y * A - C)
    linarith
  have C_lo : 1 / 2 ≤ |C| := by
    have := abs_sub_abs_le_abs_sub (c ^ 3) C; rw [abs_sub_comm] at this; linarith
  have gD := sub_exact N gC gz C_lo (by linarith) (hCz.trans (by norm_num))
  have xr := gD.addR N gL
  obtain ⟨X, hX⟩ : ∃ X, X = C - c ^ 3 + L := ⟨_, rfl⟩
  rw [← hX] at xr
  have eX : |X - q * c ^ 3| ≤ 1.5 / 2 ^ 102 := by
    have e : X - q * c ^ 3 = (L - (Y * A - C + m)) + (m - Y * (Y * Y - A)) := by rw [hX, hqc, hYA]; ring
    rw [e]
    have := abs_add_le (L - (Y * A - C + m)) (m - Y * (Y * Y - A))
    linarith
  have Xb : |X| ≤ 1 := by have := abs_sub_abs_le_abs_sub X (q * c ^ 3); linarith
  obtain ⟨S, gS, eS, Sb⟩ := rnd53 xr (by linarith)
  have Sb : |S| ≤ 2 := by linarith
  have Rb : |R| ≤ 2 := by
    have h1 := abs_sub_abs_le_abs_sub (R * c ^ 3) 1
    rw [abs_one, abs_mul] at h1
    have h2 : |R| * 1 ≤ |R| * |c ^ 3| := mul_le_mul_of_nonneg_left c3a (abs_nonneg _)
    norm_num at hR
    linarith
  have SRb : |S * R| ≤ 4 := by rw [abs_mul]; nlinarith [abs_nonneg S, abs_nonneg R]
  obtain ⟨h, gh, eh, hb⟩ := rnd53 (gS.mulR N gr) (by linarith)
  have hb : |h| ≤ 5 := by linarith
  have YUb : |Y * (6004799503160661 / 2 ^ 54)| ≤ 3 := by
    rw [abs_mul]; norm_num [abs_of_pos]; linarith
  obtain ⟨W, gW, eW, Wb⟩ := rnd53 (gy.mulR N u0_fv) (by linarith)
  have Wb : |W| ≤ 4 := by linarith
  have hWb : |h * W| ≤ 20 := by rw [abs_mul]; nlinarith [abs_nonneg h, abs_nonneg W]
  obtain ⟨dy, gdy, edy, -⟩ := rnd53 (gh.mulR N gW) (by linarith)
  have hdy := dy_near c1 hR (by norm_num; linarith) hE hq eX eS eh eW edy
  -- the result
  have hqY : |q * (Y / 3)| ≤ 1 / 2 ^ 30 := by
    rw [abs_mul, abs_div, abs_of_pos (by norm_num : (0 : ℝ) < 3)]
    calc |q| * (|Y| / 3) ≤ (3.001 * (1 / 2 ^ 38)) * 1 := mul_le_mul (hq.trans (mul_le_mul_of_nonneg_left hE (by norm_num))) (by linarith) (by positivity) (by norm_num)
      _ ≤ _ := by norm_num
  have hdyb : |dy| ≤ 1 / 2 ^ 29 := by
    have := abs_sub_abs_le_abs_sub dy (q * (Y / 3))
    have h2 : (E / 2 ^ 50 + 1 / 2 ^ 102) * |c| ≤ (1 / 2 ^ 38 / 2 ^ 50 + 1 / 2 ^ 102) * 2 := mul_le_mul (by linarith) c2 (abs_nonneg _) (by positivity)
    linarith
  have vr := gy.subR N gdy
  have vb : |Y - dy| ≤ 3 := by have := abs_sub Y dy; norm_num at hdyb; linarith
  obtain ⟨Y1, gY1, -⟩ := GFv.rnd big64 vr (vb.trans (by norm_num))
  have e1 := err64 vr gY1 (k := 2) (by norm_num; linarith) (by norm_num) (by norm_num)
  have e1 : |Y1 - (Y - dy)| ≤ 1 / 2 ^ 52 := e1.trans (by norm_num)
  have eYY : |Y - Y1| ≤ 1 / 2 ^ 28 := by
    have e : Y - Y1 = -(Y1 - (Y - dy)) + dy := by ring
    rw [e]
    have := abs_add_le (-(Y1 - (Y - dy))) dy
    rw [abs_neg] at this
    linarith
  have Y1lo : 1 / 2 ≤ |Y1| := by have := abs_sub_abs_le_abs_sub Y Y1; norm_num at eYY ⊢; linarith
  have gs := sub_exact N gy gY1 (by linarith) Y1lo (eYY.trans (by norm_num))
  have fr := gs.subR N gdy
  have hrp : f64.Rp (Y - dy - Y1) := by
    have gn := neg_fv gdy
    have := f64.rp_sum_err (a := y) (b := f64.neg _) (w := _) (by rw [gy.val, gn.val, abs_neg]; norm_num at hdyb; linarith)
      (by rw [gy.val, gn.val, ← sub_eq_add_neg]; exact vr) (by rw [gy.val]; exact y2b.trans (by rw [b64]; exact le_trans (by norm_num) (zpow_le_zpow_right₀ (by norm_num : (1 : ℝ) ≤ 2) (show (2 : ℤ) ≤ 1023 by norm_num))))
    rwa [gy.val, gn.val, gY1.val, ← sub_eq_add_neg] at this
  have hfb : |Y - dy - Y1| ≤ 1 := by rw [abs_sub_comm]; exact e1.trans (by norm_num)
  have ef : Y - Y1 - dy = Y - dy - Y1 := by ring
  rw [ef] at fr
  have gfin : GFv f64 (N.sub (N.sub y (N.sub y (N.mul (N.mul (N.add (N.sub (N.mul (N.mul y y) y) zz) (N.add t (N.mul y y2l))) rr) (N.mul y u0))))
      (N.mul (N.mul (N.add (N.sub (N.mul (N.mul y y) y) zz) (N.add t (N.mul y y2l))) rr) (N.mul y u0))) (Y - dy - Y1) :=
    ⟨fr.fin100 big64 (hfb.trans (by norm_num)), fr.exactR f64 hrp (hfb.trans (by rw [b64]; exact le_trans (by norm_num) (zpow_le_zpow_right₀ (by norm_num : (1 : ℝ) ≤ 2) (show (0 : ℤ) ≤ 1023 + 1 by norm_num))))⟩
  refine ⟨_, _, Y - dy, Y1, ?_, vr, gY1, gfin, ?_⟩
  · unfold newton
    simp only [f1, f2]
    rfl
  · have e : Y - dy - c = (Y - q * (Y / 3) - c) - (dy - q * (Y / 3)) := by ring
    rw [e]
    have := abs_sub (Y - q * (Y / 3) - c) (dy - q * (Y / 3))
    linarith
end CbrtD
end Verif
