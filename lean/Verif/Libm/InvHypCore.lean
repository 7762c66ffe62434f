import Verif.Libm.InvHyp
import Verif.Libm.RelCalc
import Verif.Libm.AsinCore
import Verif.Libm.LogCore
import Mathlib.Analysis.SpecialFunctions.Arsinh
import Mathlib.Analysis.SpecialFunctions.Arcosh
import Mathlib.Analysis.SpecialFunctions.Artanh
import Mathlib.Analysis.Complex.ExponentialBounds
/-! # The formulas for the inverse hyperbolic functions in floating-point arithmetic -/
namespace Verif
open Fmt
namespace InvHyp
open Expm1

/-- what is needed of the constants and of the functions called -/
structure Fn (F : Fmt) (K : Cn F) (sq lg l1p : BitVec F.w → M (BitVec F.w)) (ln2 : BitVec F.w) : Prop where
  big : F.Big
  one : GFv F K.one 1
  two : GFv F K.two 2
  half : GFv F K.half (1 / 2)
  sq : ∀ z Z, GFv F z Z → 0 ≤ Z → ∃ s, sq z = .ok s ∧ F.Rounds (Real.sqrt Z) s
  lg : ∀ x X, GFv F x X → 0 < X → X ≠ 1 → Ok (lg x) fun z => ∃ W, GFv F z W ∧ Rl (2 * (1 / 2 ^ (F.s + 1))) W (Real.log X)
  l1p : ∀ x X, GFv F x X → -1 < X → Ok (l1p x) fun z => ∃ W, GFv F z W ∧ Rl (2 * (1 / 2 ^ (F.s + 1))) W (Real.log (1 + X))
  ln2 : Ap F ln2 1 (Real.log 2)

variable {F : Fmt} {K : Cn F} {sq lg l1p : BitVec F.w → M (BitVec F.w)} {ln2 x : BitVec F.w} {X : ℝ}

/-- the square root of an approximation -/
theorem Fn.sqAp (H : Fn F K sq lg l1p ln2) {z : BitVec F.w} {d D V : ℝ} (hz : Ap F z d V) (d1 : d ≤ 20) (hV : 0 < V) (hM : Mid (Real.sqrt V)) (hD : 0.51 * d + 1.001 ≤ D) :
    Ok (sq z) fun s => Ap F s D (Real.sqrt V) := by
  obtain ⟨v, a1, a2⟩ := id hz
  have hu0 := Expm1.u_pos F
  have hu' : (1 : ℝ) / 2 ^ (F.s + 1) ≤ 1 / 1000000 := (Expm1.u_le H.big).trans (by norm_num)
  have hv : 0 < v := a2.pos (by nlinarith) hV
  obtain ⟨s, e, hs⟩ := H.sq z v a1 hv.le
  refine ⟨s, e, hz.sqrt H.big (fun Z hZ _ => ?_) d1 hV hM hD⟩
  rwa [show Z = v by rw [← hZ.val, a1.val]]

theorem Fn.l1pAp (H : Fn F K sq lg l1p ln2) {y : BitVec F.w} {d D Y : ℝ} (hy : Ap F y d Y) (d1 : d ≤ 20) (hY : 0 < Y) (hD : 1.002 * d + 2.001 ≤ D) :
    Ok (l1p y) fun z => Ap F z D (Real.log (1 + Y)) := by
  obtain ⟨v, a1, a2⟩ := hy
  have hu0 := Expm1.u_pos F
  have hu' : (1 : ℝ) / 2 ^ (F.s + 1) ≤ 1 / 1000000 := (Expm1.u_le H.big).trans (by norm_num)
  have hv : 0 < v := a2.pos (by nlinarith) hY
  obtain ⟨z, e, W, w1, w2⟩ := H.l1p y v a1 (by linarith)
  refine ⟨z, e, W, w1, ?_⟩
  have hl : 0 < Real.log (1 + Y) := Real.log_pos (by linarith)
  have h1 := log1p_rel a2 (by nlinarith) hY
  have h2 : Rl (1.002 * (d * (1 / 2 ^ (F.s + 1)))) (Real.log (1 + v)) (Real.log (1 + Y)) := by
    unfold Rl; rw [abs_of_pos hl]; exact h1
  refine (h2.trans w2 (by positivity)).mono ?_
  generalize (1 : ℝ) / 2 ^ (F.s + 1) = u at *
  have h3 : d * u ≤ 0.0004 := by nlinarith
  have h4 := mul_le_mul_of_nonneg_right h3 hu0.le
  have h5 := mul_le_mul_of_nonneg_right hD hu0.le
  nlinarith

theorem Fn.lgAp (H : Fn F K sq lg l1p ln2) {y : BitVec F.w} {d D Y : ℝ} (hy : Ap F y d Y) (d0 : 0 ≤ d) (d1 : d ≤ 20) (hY : 2.8 ≤ Y) (hD : 1.002 * d + 2.001 ≤ D) :
    Ok (lg y) fun z => Ap F z D (Real.log Y) := by
  obtain ⟨v, a1, a2⟩ := hy
  have hu0 := Expm1.u_pos F
  have hu' : (1 : ℝ) / 2 ^ (F.s + 1) ≤ 1 / 1000000 := (Expm1.u_le H.big).trans (by norm_num)
  have hb := a2.bnd (by linarith)
  have hdu : d * (1 / 2 ^ (F.s + 1)) ≤ 0.0004 := by nlinarith
  have hv : 2 ≤ v := by nlinarith [hb.1]
  obtain ⟨z, e, W, w1, w2⟩ := H.lg y v a1 (by linarith) (by linarith)
  refine ⟨z, e, W, w1, ?_⟩
  have hl : 1 ≤ Real.log Y := by
    rw [Real.le_log_iff_exp_le (by linarith)]
    linarith [Real.exp_one_lt_d9]
  have h1 := log_rel a2 (by linarith) (by linarith)
  have h2 : Rl (1.002 * (d * (1 / 2 ^ (F.s + 1)))) (Real.log v) (Real.log Y) := by
    unfold Rl; rw [abs_of_pos (show 0 < Real.log Y by linarith)]
    refine h1.trans ?_
    have : 0 ≤ 1.002 * (d * (1 / 2 ^ (F.s + 1) : ℝ)) := by positivity
    nlinarith
  refine (h2.trans w2 (by positivity)).mono ?_
  generalize (1 : ℝ) / 2 ^ (F.s + 1) = u at *
  have h4 := mul_le_mul_of_nonneg_right hdu hu0.le
  have h5 := mul_le_mul_of_nonneg_right hD hu0.le
  nlinarith

theorem mid_of {V : ℝ} (h1 : 1 / 2 ^ 80 ≤ V) (h2 : V ≤ 2 ^ 80) : Mid V := ⟨le_trans (by norm_num) h1, h2.trans (by norm_num)⟩

theorem arsinh_log (X : ℝ) : Real.arsinh X = Real.log (X + Real.sqrt (X * X + 1)) := by
  unfold Real.arsinh; rw [show 1 + X ^ 2 = X * X + 1 by ring]

theorem asMid_spec (H : Fn F K sq lg l1p ln2) (N : FPU F) (hx : GFv F x X) (h0 : 2 ≤ X) (h1 : X ≤ 2 ^ 26) : Ok (asMid N K sq lg x) fun z => Ap F z 6 (Real.arsinh X) := by
  have hF := H.big
  have hx' := Ap.exact hx
  have hp : X * X ≤ 2 ^ 26 * 2 ^ 26 := mul_le_mul h1 h1 (by linarith) (by positivity)
  have hp0 : 4 ≤ X * X := by nlinarith
  norm_num at hp h1
  obtain ⟨s, hs⟩ : ∃ s, s = Real.sqrt (X * X + 1) := ⟨_, rfl⟩
  have ss : s * s = X * X + 1 := by rw [hs]; exact Real.mul_self_sqrt (by linarith)
  have s0 : 0 ≤ s := by rw [hs]; exact Real.sqrt_nonneg _
  have s1 : X ≤ s := by by_contra hc; rw [not_le] at hc; nlinarith
  have s2 : s ≤ X + 1 := by by_contra hc; rw [not_le] at hc; nlinarith
  have A1 := hx'.mul hF N hx' le_rfl le_rfl (by norm_num) (mid_of (le_trans (by norm_num) hp0) (hp.trans (by norm_num))) (D := 1.01) (by norm_num)
  have A2 := A1.add hF N (Ap.exact H.one) (by linarith) one_pos (c := 1.01) (by linarith) (by norm_num) (mid_of (le_trans (by norm_num) (show 4 ≤ X * X + 1 by linarith)) (le_trans (show X * X + 1 ≤ 2 ^ 60 by norm_num; linarith) (by norm_num))) (D := 2.02) (by norm_num)
  obtain ⟨q, e1, A3⟩ := H.sqAp A2 (by norm_num) (by linarith) (by
    rw [← hs]; exact mid_of (le_trans (by norm_num) (show 2 ≤ s by linarith)) (le_trans (show s ≤ 2 ^ 60 by norm_num; linarith) (by norm_num))) (D := 2.1) (by norm_num)
  rw [← hs] at A3
  have A4 := A3.add hF N hx' (by linarith) (by linarith) (c := 2.1) (by linarith) (by norm_num) (mid_of (le_trans (by norm_num) (show 2 ≤ s + X by linarith)) (le_trans (show s + X ≤ 2 ^ 60 by norm_num; linarith) (by norm_num))) (D := 3.2) (by norm_num)
  have hi : 1 / (s + X) = s - X := by rw [div_eq_iff (by linarith)]; nlinarith
  have hi0 : 1 / 2 ^ 60 ≤ 1 / (s + X) := one_div_le_one_div_of_le (by linarith) (by norm_num; linarith)
  have hi1 : 1 / (s + X) ≤ 1 / 4 := one_div_le_one_div_of_le (by norm_num) (by linarith)
  have A5 := (Ap.exact H.one).div hF N A4 le_rfl (by norm_num) (by norm_num) (by linarith) (mid_of (le_trans (by norm_num) hi0) (hi1.trans (by norm_num))) (D := 4.3) (by norm_num)
  have A6 := hx'.two hF N H.two (by norm_num) (le_trans (by norm_num) h0) (h1.trans (by norm_num))
  have A7 := A6.add hF N A5 (by linarith) (lt_of_lt_of_le (by positivity) hi0) (c := 1) (by linarith) (by norm_num) (mid_of (le_trans (by norm_num) (show 2 ≤ 2 * X + 1 / (s + X) by linarith [show 0 ≤ 1 / (s + X) by positivity]))
    (le_trans (show 2 * X + 1 / (s + X) ≤ 2 ^ 60 by norm_num at hi1 ⊢; linarith) (by norm_num))) (D := 2.1) (by norm_num)
  have e : 2 * X + 1 / (s + X) = X + s := by rw [hi]; ring
  rw [e] at A7
  obtain ⟨z, e2, A8⟩ := H.lgAp A7 (by norm_num) (by norm_num) (by linarith) (D := 6) (by norm_num)
  refine ⟨z, ?_, ?_⟩
  · unfold asMid
    rw [e1]; exact e2
  · rwa [arsinh_log, ← hs]

theorem asSmall_spec (H : Fn F K sq lg l1p ln2) (N : FPU F) (hx : GFv F x X) (h0 : 1 / 2 ^ 30 ≤ X) (h1 : X ≤ 2) : Ok (asSmall N K sq l1p x) fun z => Ap F z 6 (Real.arsinh X) := by
  have hF := H.big
  have hx' := Ap.exact hx
  have hX : 0 < X := lt_of_lt_of_le (by positivity) h0
  have hp : X * X ≤ 4 := by nlinarith
  have hp0 : 1 / 2 ^ 60 ≤ X * X := by
    rw [show (1 : ℝ) / 2 ^ 60 = 1 / 2 ^ 30 * (1 / 2 ^ 30) by norm_num]
    exact mul_le_mul h0 h0 (by positivity) hX.le
  obtain ⟨s, hs⟩ : ∃ s, s = Real.sqrt (X * X + 1) := ⟨_, rfl⟩
  have ss : s * s = X * X + 1 := by rw [hs]; exact Real.mul_self_sqrt (by positivity)
  have s0 : 0 ≤ s := by rw [hs]; exact Real.sqrt_nonneg _
  have s1 : 1 ≤ s := by by_contra hc; rw [not_le] at hc; nlinarith
  have s2 : s ≤ 3 := by by_contra hc; rw [not_le] at hc; nlinarith
  have hpp : 0 < X * X := by positivity
  have A1 := hx'.mul hF N hx' le_rfl le_rfl (by norm_num) (mid_of (le_trans (by norm_num) hp0) (hp.trans (by norm_num))) (D := 1.01) (by norm_num)
  have A2 := A1.add hF N (Ap.exact H.one) hpp one_pos (c := 1.01) (by linarith) (by norm_num) (mid_of (le_trans (by norm_num) (show 1 ≤ X * X + 1 by linarith)) (le_trans (show X * X + 1 ≤ 5 by linarith) (by norm_num))) (D := 2.02) (by norm_num)
  obtain ⟨q, e1, A3⟩ := H.sqAp A2 (by norm_num) (by linarith) (by
    rw [← hs]; exact mid_of (le_trans (by norm_num) s1) (s2.trans (by norm_num))) (D := 2.1) (by norm_num)
  rw [← hs] at A3
  have A4 := A3.add hF N (Ap.exact H.one) (by linarith) (by linarith) (c := 2.1) (by linarith) (by norm_num) (mid_of (le_trans (by norm_num) (show 1 ≤ s + 1 by linarith)) (le_trans (show s + 1 ≤ 4 by linarith) (by norm_num))) (D := 3.2) (by norm_num)
  have hi : X * X / (s + 1) = s - 1 := by rw [div_eq_iff (by linarith)]; nlinarith
  have hi0 : 1 / 2 ^ 62 ≤ X * X / (s + 1) := by
    rw [le_div_iff₀ (by linarith)]
    refine le_trans ?_ hp0
    rw [show (1 : ℝ) / 2 ^ 60 = 1 / 2 ^ 62 * 4 by norm_num]
    exact mul_le_mul_of_nonneg_left (by linarith) (by positivity)
  have hi1 : X * X / (s + 1) ≤ 2 := by rw [hi]; linarith
  have hfr : s - 1 ≤ 2 / 3 * X := by
    by_contra hc
    rw [not_le] at hc
    nlinarith
  have A5 := A1.div hF N A4 (by norm_num) (by norm_num) (by norm_num) (by linarith) (mid_of (le_trans (by norm_num) hi0) (hi1.trans (by norm_num))) (D := 5.3) (by norm_num)
  have A7 := hx'.add hF N A5 hX (lt_of_lt_of_le (by positivity) hi0) (c := 2.2) (by rw [hi]; linarith) (by norm_num) (mid_of (le_trans (by norm_num) (show 1 / 2 ^ 30 ≤ X + X * X / (s + 1) by rw [hi]; linarith))
    (le_trans (show X + X * X / (s + 1) ≤ 4 by linarith) (by norm_num))) (D := 3.3) (by norm_num)
  obtain ⟨z, e2, A8⟩ := H.l1pAp A7 (by norm_num) (by rw [hi]; linarith) (D := 6) (by norm_num)
  refine ⟨z, ?_, ?_⟩
  · unfold asSmall
    rw [e1]; exact e2
  · rw [hi] at A8
    rwa [arsinh_log, ← hs, show X + s = 1 + (X + (s - 1)) by ring]

/-- the largest arguments -/
theorem big_spec (H : Fn F K sq lg l1p ln2) (N : FPU F) (hx : GFv F x X) (h0 : 2 ^ 12 ≤ X) (h2 : Real.log (2 * X) ≤ 2 ^ 20) {T : ℝ} (hT : |T - Real.log (2 * X)| ≤ 1 / 2 ^ 22 ∧ |T - Real.log (2 * X)| ≤ 2 * (1 / 2 ^ (F.s + 1))) :
    Ok (big N lg ln2 x) fun z => Ap F z 6 T := by
  have hF := H.big
  have hu0 := Expm1.u_pos F
  have hu' : (1 : ℝ) / 2 ^ (F.s + 1) ≤ 1 / 1000000 := (Expm1.u_le hF).trans (by norm_num)
  have hX : 0 < X := lt_of_lt_of_le (by positivity) h0
  norm_num at h0
  obtain ⟨z, e, W, w1, w2⟩ := H.lg x X hx hX (by linarith)
  have e2 : Real.log (2 * X) = Real.log X + Real.log 2 := by rw [mul_comm, Real.log_mul hX.ne' (by norm_num)]
  have l2 := Real.log_two_gt_d9
  have l3 := Real.log_two_lt_d9
  have hl : 1 ≤ Real.log X := by
    rw [Real.le_log_iff_exp_le hX]
    linarith [Real.exp_one_lt_d9]
  have A1 : Ap F z 2 (Real.log X) := ⟨W, w1, w2⟩
  have A2 := A1.add hF N H.ln2 (by linarith) (by linarith) (c := 2) (by linarith) (by norm_num) (by rw [← e2]; exact mid_of (le_trans (by norm_num) (show 1 ≤ Real.log (2 * X) by linarith)) (h2.trans (by norm_num))) (D := 3.1) (by norm_num)
  rw [← e2] at A2
  refine ⟨N.add z ln2, by unfold big; rw [e]; rfl, ?_⟩
  obtain ⟨v, a1, a2⟩ := A2
  refine ⟨v, a1, ?_⟩
  have hL : 1 ≤ Real.log (2 * X) := by linarith
  unfold Rl at *
  rw [abs_of_pos (show 0 < Real.log (2 * X) by linarith)] at a2
  have hT1 : Real.log (2 * X) - 1 / 2 ^ 22 ≤ T := by linarith [neg_abs_le (T - Real.log (2 * X)), hT.1]
  have h3 : Real.log (2 * X) ≤ 1.01 * T := by
    norm_num at hT1
    linarith
  rw [abs_of_pos (show 0 < T by linarith)]
  have h4 := abs_sub_le v (Real.log (2 * X)) T
  rw [abs_sub_comm (Real.log (2 * X)) T] at h4
  generalize (1 : ℝ) / 2 ^ (F.s + 1) = u at *
  have h5 : 3.1 * u * Real.log (2 * X) ≤ 3.1 * u * (1.01 * T) := mul_le_mul_of_nonneg_left h3 (by positivity)
  have h6 : 2 * u ≤ 2 * u * (1.01 * T) := le_mul_of_one_le_right (by positivity) (by linarith)
  have h7 : 0 ≤ u * T := mul_nonneg hu0.le (by linarith)
  linarith [hT.2]

theorem acSmall_spec (H : Fn F K sq lg l1p ln2) (N : FPU F) (hx : GFv F x X) (h0 : 1 < X) (h1 : X < 2) (hs52 : F.s ≤ 52) : Ok (acSmall N K sq l1p x) fun z => Ap F z 6 (Real.arcosh X) := by
  have hF := H.big
  have h127 := hF.bias
  have hg : Mul2 (-(F.s : ℤ)) X := by
    have := F.mul2_ge (b := x) (k := 0) (by rw [hx.val, abs_of_pos (by linarith)]; norm_num; linarith)
    rw [hx.val] at this
    simpa using this
  have hg1 : Mul2 (-(F.s : ℤ)) (X - 1) := hg.sub ((show Mul2 0 (1 : ℝ) from ⟨1, by simp⟩).mono (by omega))
  obtain ⟨Y, hY⟩ : ∃ Y, Y = X - 1 := ⟨_, rfl⟩
  have hx1 : GFv F (N.sub x K.one) Y := by
    rw [hY]
    refine GFv.of_rounds hF (hx.subR N H.one) hg1 ?_ (by omega) (by rw [abs_of_pos (by linarith)]; norm_num; linarith)
    rw [abs_of_pos (by linarith), show -(F.s : ℤ) + F.s + 1 = 1 by ring]
    norm_num; linarith
  have hY0 : (1 : ℝ) / 2 ^ 52 ≤ Y := by
    have := Log.mul2_min hg1 (by linarith)
    rw [abs_of_pos (by linarith), ← hY] at this
    refine le_trans ?_ this
    rw [show (1 : ℝ) / 2 ^ 52 = 2 ^ (-52 : ℤ) by rw [zpow_neg, one_div]; norm_cast]
    exact zpow_le_zpow_right₀ (by norm_num) (by omega)
  have hYp : 0 < Y := lt_of_lt_of_le (by positivity) hY0
  have hY1 : Y ≤ 1 := by linarith
  have hx' := Ap.exact hx1
  have hp : Y * Y ≤ 1 := by nlinarith
  have hp0 : 1 / 2 ^ 104 ≤ Y * Y := by
    rw [show (1 : ℝ) / 2 ^ 104 = 1 / 2 ^ 52 * (1 / 2 ^ 52) by norm_num]
    exact mul_le_mul hY0 hY0 (by positivity) hYp.le
  have hpp : 0 < Y * Y := by positivity
  obtain ⟨s, hs⟩ : ∃ s, s = Real.sqrt (Y * Y + 2 * Y) := ⟨_, rfl⟩
  have ss : s * s = Y * Y + 2 * Y := by rw [hs]; exact Real.mul_self_sqrt (by positivity)
  have s0 : 0 ≤ s := by rw [hs]; exact Real.sqrt_nonneg _
  have s1 : Y ≤ s := by by_contra hc; rw [not_le] at hc; nlinarith
  have s2 : s ≤ 2 := by by_contra hc; rw [not_le] at hc; nlinarith
  have A1 := hx'.mul hF N hx' le_rfl le_rfl (by norm_num) ⟨le_trans (by norm_num) hp0, hp.trans (by norm_num)⟩ (D := 1.01) (by norm_num)
  have A0 : Ap F (N.mul K.two (N.sub x K.one)) 0 (2 * Y) := by
    refine ⟨2 * Y, ?_, by rw [zero_mul]; exact Rl.refl _⟩
    have := Expm1.dblX hF hx1 (k := 1) (z := N.mul K.two (N.sub x K.one)) (by rw [abs_of_pos hYp]; exact le_trans (by norm_num) hY0) (by norm_num) (by rw [zpow_one, mul_comm]; exact H.two.mulR N hx1)
      (Expm1.big_of hF (by rw [zpow_one, abs_of_pos (by linarith)]; linarith))
    rwa [zpow_one, mul_comm] at this
  have A2 := A1.add hF N A0 hpp (by linarith) (c := 1.01) (by linarith) (by norm_num) ⟨le_trans (by norm_num) (show 1 / 2 ^ 52 ≤ Y * Y + 2 * Y by linarith), le_trans (show Y * Y + 2 * Y ≤ 5 by linarith) (by norm_num)⟩ (D := 2.02) (by norm_num)
  obtain ⟨q, e1, A3⟩ := H.sqAp A2 (by norm_num) (by linarith) (by
    rw [← hs]; exact mid_of (le_trans (by norm_num) (hY0.trans s1)) (s2.trans (by norm_num))) (D := 2.1) (by norm_num)
  rw [← hs] at A3
  have A4 := hx'.add hF N A3 hYp (by linarith) (c := 2.1) (by linarith) (by norm_num) (mid_of (le_trans (by norm_num) (show 1 / 2 ^ 52 ≤ Y + s by linarith)) (le_trans (show Y + s ≤ 4 by linarith) (by norm_num))) (D := 3.2) (by norm_num)
  obtain ⟨z, e2, A8⟩ := H.l1pAp A4 (by norm_num) (by linarith) (D := 6) (by norm_num)
  refine ⟨z, ?_, ?_⟩
  · unfold acSmall
    dsimp only
    rw [e1]; exact e2
  · unfold Real.arcosh
    rwa [show X ^ 2 - 1 = Y * Y + 2 * Y by rw [hY]; ring, ← hs, show X + s = 1 + (Y + s) by rw [hY]; ring]

theorem acMid_spec (H : Fn F K sq lg l1p ln2) (N : FPU F) (hx : GFv F x X) (h0 : 2 ≤ X) (h1 : X ≤ 2 ^ 26) : Ok (acMid N K sq lg x) fun z => Ap F z 6 (Real.arcosh X) := by
  have hF := H.big
  have hx' := Ap.exact hx
  have hp : X * X ≤ 2 ^ 26 * 2 ^ 26 := mul_le_mul h1 h1 (by linarith) (by positivity)
  have hp0 : 4 ≤ X * X := by nlinarith
  norm_num at hp h1
  obtain ⟨s, hs⟩ : ∃ s, s = Real.sqrt (X * X - 1) := ⟨_, rfl⟩
  have ss : s * s = X * X - 1 := by rw [hs]; exact Real.mul_self_sqrt (by linarith)
  have s0 : 0 ≤ s := by rw [hs]; exact Real.sqrt_nonneg _
  have s1 : 1 ≤ s := by by_contra hc; rw [not_le] at hc; nlinarith
  have s2 : s ≤ X := by by_contra hc; rw [not_le] at hc; nlinarith
  have A1 := hx'.mul hF N hx' le_rfl le_rfl (by norm_num) (mid_of (le_trans (by norm_num) hp0) (hp.trans (by norm_num))) (D := 1.01) (by norm_num)
  have A2 := A1.sub hF N (Ap.exact H.one) (by linarith) one_pos (by linarith) (c := 1.35) (by linarith) (by norm_num) (mid_of (le_trans (by norm_num) (show 3 ≤ X * X - 1 by linarith)) (le_trans (show X * X - 1 ≤ 2 ^ 60 by norm_num; linarith) (by norm_num))) (D := 2.4) (by norm_num)
  obtain ⟨q, e1, A3⟩ := H.sqAp A2 (by norm_num) (by linarith) (by
    rw [← hs]; exact mid_of (le_trans (by norm_num) s1) (le_trans (show s ≤ 2 ^ 60 by norm_num; linarith) (by norm_num))) (D := 2.3) (by norm_num)
  rw [← hs] at A3
  have A4 := hx'.add hF N A3 (by linarith) (by linarith) (c := 2.3) (by linarith) (by norm_num) (mid_of (le_trans (by norm_num) (show 2 ≤ X + s by linarith)) (le_trans (show X + s ≤ 2 ^ 60 by norm_num; linarith) (by norm_num))) (D := 3.4) (by norm_num)
  have hi : 1 / (X + s) = X - s := by rw [div_eq_iff (by linarith)]; nlinarith
  have hi0 : 1 / 2 ^ 60 ≤ 1 / (X + s) := one_div_le_one_div_of_le (by linarith) (by norm_num; linarith)
  have hi1 : 1 / (X + s) ≤ 1 / 3 := one_div_le_one_div_of_le (by norm_num) (by linarith)
  have A5 := (Ap.exact H.one).div hF N A4 le_rfl (by norm_num) (by norm_num) (by linarith) (mid_of (le_trans (by norm_num) hi0) (hi1.trans (by norm_num))) (D := 4.5) (by norm_num)
  have A6 := hx'.two hF N H.two (by norm_num) (le_trans (by norm_num) h0) (h1.trans (by norm_num))
  have A7 := A6.sub hF N A5 (by linarith) (lt_of_lt_of_le (by positivity) hi0) (by linarith) (c := 1) (by linarith) (by norm_num) (mid_of (le_trans (by norm_num) (show 2 ≤ 2 * X - 1 / (X + s) by linarith))
    (le_trans (show 2 * X - 1 / (X + s) ≤ 2 ^ 60 by rw [hi]; norm_num; linarith) (by norm_num))) (D := 2.1) (by norm_num)
  have e : 2 * X - 1 / (X + s) = X + s := by rw [hi]; ring
  rw [e] at A7
  obtain ⟨z, e2, A8⟩ := H.lgAp A7 (by norm_num) (by norm_num) (by linarith) (D := 6) (by norm_num)
  refine ⟨z, ?_, ?_⟩
  · unfold acMid
    rw [e1]; exact e2
  · unfold Real.arcosh
    rwa [show X ^ 2 - 1 = X * X - 1 by ring, ← hs]

theorem artanh_log {X : ℝ} (h0 : 0 ≤ X) (h1 : X < 1) : Real.artanh X = 1 / 2 * Real.log (1 + 2 * (X / (1 - X))) := by
  rw [Real.artanh_eq_half_log ⟨by linarith, h1.le⟩]
  congr 2
  field_simp [show 1 - X ≠ 0 by linarith]
  ring

/-- half of a logarithm of a number above `1` -/
theorem Fn.halfAp (H : Fn F K sq lg l1p ln2) (N : FPU F) {l : BitVec F.w} {Y : ℝ} (h : Ap F l 6 (Real.log (1 + Y))) (h0 : 1 / 2 ^ 40 ≤ Y) (h1 : Y ≤ 2 ^ 60) : Ap F (N.mul K.half l) 6 (1 / 2 * Real.log (1 + Y)) := by
  have hY : 0 < Y := lt_of_lt_of_le (by positivity) h0
  refine h.half H.big N H.half (by norm_num) ?_ ?_
  · have hl := Real.one_sub_inv_le_log_of_pos (show 0 < 1 + Y by linarith)
    refine le_trans ?_ hl
    have e : 1 - (1 + Y)⁻¹ = Y / (1 + Y) := by field_simp; ring
    rw [e, le_div_iff₀ (by linarith)]
    norm_num at h0 ⊢
    linarith
  · have := Real.log_le_sub_one_of_pos (show 0 < 1 + Y by linarith)
    norm_num at h1 ⊢
    linarith

theorem atSmall_spec (H : Fn F K sq lg l1p ln2) (N : FPU F) (hx : GFv F x X) (h0 : 1 / 2 ^ 32 ≤ X) (h1 : X ≤ 1 / 2) : Ok (atSmall N K l1p x) fun z => Ap F z 6 (Real.artanh X) := by
  have hF := H.big
  have hx' := Ap.exact hx
  have hX : 0 < X := lt_of_lt_of_le (by positivity) h0
  have A1 := hx'.two hF N H.two (by norm_num) (le_trans (by norm_num) h0) (h1.trans (by norm_num))
  have hp0 : 1 / 2 ^ 64 ≤ X * X := by
    rw [show (1 : ℝ) / 2 ^ 64 = 1 / 2 ^ 32 * (1 / 2 ^ 32) by norm_num]
    exact mul_le_mul h0 h0 (by positivity) hX.le
  have hpp : 0 < X * X := by positivity
  have hp1 : X * X ≤ 1 / 4 := by nlinarith
  have A2 := A1.mul hF N hx' le_rfl le_rfl (by norm_num) (mid_of (le_trans (by norm_num) (show 1 / 2 ^ 64 ≤ 2 * X * X by linarith)) (le_trans (show 2 * X * X ≤ 1 by linarith) (by norm_num))) (D := 1.01) (by norm_num)
  have A3 := (Ap.exact H.one).sub hF N hx' one_pos hX (by linarith) (c := 0) (by linarith) (by norm_num) (mid_of (le_trans (by norm_num) (show 1 / 2 ≤ 1 - X by linarith)) (le_trans (show 1 - X ≤ 1 by linarith) (by norm_num))) (D := 1.01) (by norm_num)
  have h1X : 0 < 1 - X := by linarith
  have hq0 : 1 / 2 ^ 64 ≤ 2 * X * X / (1 - X) := by
    rw [le_div_iff₀ h1X]
    norm_num at hp0 ⊢
    linarith
  have hq1 : 2 * X * X / (1 - X) ≤ 1 := by rw [div_le_one h1X]; linarith
  have A4 := A2.div hF N A3 (by norm_num) (by norm_num) (by norm_num) h1X (mid_of (le_trans (by norm_num) hq0) (hq1.trans (by norm_num))) (D := 3.1) (by norm_num)
  have hq : 2 * X * X / (1 - X) ≤ 2 * X := by rw [div_le_iff₀ h1X]; nlinarith
  have A5 := A1.add hF N A4 (by linarith) (lt_of_lt_of_le (by positivity) hq0) (c := 1.55) (by linarith) (by norm_num) (mid_of (le_trans (by norm_num) (show 1 / 2 ^ 32 ≤ 2 * X + 2 * X * X / (1 - X) by linarith [lt_of_lt_of_le (by positivity) hq0]))
    (le_trans (show 2 * X + 2 * X * X / (1 - X) ≤ 4 by linarith) (by norm_num))) (D := 2.6) (by norm_num)
  have e : 2 * X + 2 * X * X / (1 - X) = 2 * (X / (1 - X)) := by field_simp; ring
  have hpos : 0 < X / (1 - X) := by positivity
  obtain ⟨l, e2, A6⟩ := H.l1pAp A5 (by norm_num) (by rw [e]; linarith) (D := 6) (by norm_num)
  refine ⟨N.mul K.half l, by unfold atSmall; rw [e2]; rfl, ?_⟩
  rw [artanh_log hX.le (by linarith), ← e]
  refine H.halfAp N A6 ?_ ?_
  · exact le_trans (by norm_num) (show 1 / 2 ^ 32 ≤ 2 * X + 2 * X * X / (1 - X) by linarith [lt_of_lt_of_le (by positivity) hq0])
  · exact le_trans (show 2 * X + 2 * X * X / (1 - X) ≤ 4 by linarith) (by norm_num)

theorem atBig_spec (H : Fn F K sq lg l1p ln2) (N : FPU F) (hx : GFv F x X) (h0 : 1 / 2 ≤ X) (h1 : X < 1) (hm : 1 / 2 ^ 53 ≤ 1 - X) : Ok (atBig N K l1p x) fun z => Ap F z 6 (Real.artanh X) := by
  have hF := H.big
  have hx' := Ap.exact hx
  have h1X : 0 < 1 - X := by linarith
  have A3 := (Ap.exact H.one).sub hF N hx' one_pos (by linarith) h1 (c := 0) (by linarith) (by norm_num) (mid_of (le_trans (by norm_num) hm) (le_trans (show 1 - X ≤ 1 by linarith) (by norm_num))) (D := 1.01) (by norm_num)
  have hq0 : 1 ≤ X / (1 - X) := by rw [le_div_iff₀ h1X]; linarith
  have hq1 : X / (1 - X) ≤ 2 ^ 53 := by
    rw [div_le_iff₀ h1X]
    have : (1 : ℝ) = 2 ^ 53 * (1 / 2 ^ 53) := by norm_num
    have := mul_le_mul_of_nonneg_left hm (show (0 : ℝ) ≤ 2 ^ 53 by positivity)
    linarith
  have A4 := hx'.div hF N A3 le_rfl (by norm_num) (by norm_num) h1X (mid_of (le_trans (by norm_num) hq0) (hq1.trans (by norm_num))) (D := 2.1) (by norm_num)
  have A5 := A4.two hF N H.two (by norm_num) (le_trans (by norm_num) hq0) (hq1.trans (by norm_num))
  obtain ⟨l, e2, A6⟩ := H.l1pAp A5 (by norm_num) (by linarith) (D := 6) (by norm_num)
  refine ⟨N.mul K.half l, by unfold atBig; rw [e2]; rfl, ?_⟩
  rw [artanh_log (by linarith) h1]
  refine H.halfAp N A6 (le_trans (by norm_num) (show 1 ≤ 2 * (X / (1 - X)) by linarith)) ?_
  norm_num at hq1 ⊢
  linarith
end InvHyp
end Verif
