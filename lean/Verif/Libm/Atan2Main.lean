import Verif.Libm.Atan2
import Verif.Libm.Atan2R
import Verif.Libm.AtanMain
/-! # Accuracy of `atan2` -/
namespace Verif
open Fmt
namespace Atan2

/-- what is claimed of a result `r` for `y`, `x` with the values `Y`, `X`; `H` is the value of `PI` -/
def Good (F : Fmt) (H : ℝ) (y r : BitVec F.w) (X Y : ℝ) : Prop :=
  ∃ R, GFv F r R ∧ |R - Complex.arg ⟨X, Y⟩| ≤ 4 * (1 / 2 ^ (F.s + 1)) * |Complex.arg ⟨X, Y⟩| + 2 * (1 / 2 ^ (F.bias + F.s)) ∧ |R| ≤ H ∧ F.sign r = F.sign y

theorem sgn_iff {F : Fmt} {y : BitVec F.w} {Y : ℝ} (hy : GFv F y Y) (hY : Y ≠ 0) : F.sign y = decide (Y < 0) := by
  have h := hy.eq_abs
  have := abs_pos.mpr hY
  split at h
  · rename_i hs; rw [hs]; symm; rw [decide_eq_true_iff]; linarith
  · rename_i hs
    rw [Bool.not_eq_true] at hs
    rw [hs]; symm; rw [decide_eq_false_iff_not]; linarith

theorem zero_iff {F : Fmt} {b : BitVec F.w} {v : ℝ} (hb : GFv F b v) : F.mag b = 0 ↔ v = 0 := by
  have h0 : F.magVal ℝ 0 = 0 := by rw [F.magVal_eq, F.valU_zero]; simp
  rw [← abs_eq_zero, hb.abs_eq]
  refine ⟨fun h => by rw [h, h0], fun h => ?_⟩
  by_contra hc
  have := (F.magValR_lt_iff (m := 0) (n := F.mag b)).mpr (Nat.pos_of_ne_zero hc)
  linarith

/-- from the absolute value of the angle -/
theorem good_of {F : Fmt} {y r : BitVec F.w} {X Y R H θ : ℝ} (hr : GFv F r R)
    (hθ : Complex.arg ⟨X, Y⟩ = (if Y < 0 then -1 else 1) * θ) (h0 : 0 ≤ θ)
    (h : |(if Y < 0 then -1 else 1) * R - θ| ≤ 4 * (1 / 2 ^ (F.s + 1)) * θ + 2 * (1 / 2 ^ (F.bias + F.s))) (hH : |R| ≤ H) (hs : F.sign r = F.sign y) : Good F H y r X Y := by
  refine ⟨R, hr, ?_, hH, hs⟩
  rw [hθ]
  split at h <;> rename_i hY0
  · rw [if_pos hY0, abs_mul, abs_neg, abs_one, one_mul, abs_of_nonneg h0]
    have e : |R - -1 * θ| = |-1 * R - θ| := by rw [← abs_neg]; congr 1; ring
    rw [e]; exact h
  · rw [if_neg hY0, one_mul, abs_of_nonneg h0]
    rw [one_mul] at h; exact h

theorem eta_le {F : Fmt} (hF : F.Big) : (1 : ℝ) / 2 ^ (F.bias + F.s) ≤ (1 / 2 ^ (F.s + 1)) / 10 ^ 6 := by
  have := hF.bias
  rw [div_div]
  refine one_div_le_one_div_of_le (by positivity) ?_
  calc (2 : ℝ) ^ (F.s + 1) * 10 ^ 6 ≤ 2 ^ (F.s + 1) * 2 ^ 20 := by gcongr; norm_num
    _ = 2 ^ (F.s + 1 + 20) := by rw [← pow_add]
    _ ≤ _ := pow_le_pow_right₀ (by norm_num) (by omega)

/-- `±PI / 2` -/
theorem halfCase {F : Fmt} (hs : F.s = 23 ∨ F.s = 52) {y r : BitVec F.w} {X Y P H : ℝ} (hy : GFv F y Y) (hY : Y ≠ 0) (hr : GFv F r ((if Y < 0 then -1 else 1) * P))
    (hP : |P - Real.pi / 2| ≤ 1 / 2 ^ (F.s + 1)) (hPH : |P| ≤ H) (hX : X = 0 ∨ 2 ^ (F.s + 1) * |X| ≤ 2 * |Y|) : Good F H y r X Y := by
  have hu0 : (0 : ℝ) < 1 / 2 ^ (F.s + 1) := by positivity
  have hu := Atan.u_le hs
  have p1 := Real.pi_gt_d4
  norm_num at p1
  have hd : ∃ θ, Complex.arg ⟨X, Y⟩ = (if Y < 0 then -1 else 1) * θ ∧ |θ - Real.pi / 2| ≤ 2 * (1 / 2 ^ (F.s + 1)) := by
    by_cases h0 : X = 0
    · rw [h0]; exact ⟨_, arg_up hY, by rw [sub_self, abs_zero]; positivity⟩
    · have hX := hX.resolve_left h0
      have hX0 := abs_pos.mpr h0
      have hT : 0 < |Y| / |X| := div_pos (abs_pos.mpr hY) hX0
      have h1 := Atan.caseB hT
      have h2 : 1 / (|Y| / |X|) ≤ 2 * (1 / 2 ^ (F.s + 1)) := by
        rw [one_div_div, mul_one_div, div_le_div_iff₀ (abs_pos.mpr hY) (by positivity), mul_comm]
        exact hX
      have h3 := h1.trans h2
      refine ⟨_, arg_abs h0 hY, ?_⟩
      split
      · have : Real.pi - Real.arctan (|Y| / |X|) - Real.pi / 2 = Real.pi / 2 - Real.arctan (|Y| / |X|) := by ring
        rw [this]; exact h3
      · rw [abs_sub_comm]; exact h3
  obtain ⟨θ, t1, t2⟩ := hd
  have hu1 : (1 : ℝ) / 2 ^ (F.s + 1) ≤ 1 / 100 := hu.trans (by norm_num)
  have hη : (0 : ℝ) < 1 / 2 ^ (F.bias + F.s) := by positivity
  have hθ : 15 / 10 ≤ θ := by rw [abs_le] at t2; linarith [t2.1]
  have hP0 : 0 < P := by rw [abs_le] at hP; linarith [hP.1]
  have e2 : (if Y < 0 then (-1 : ℝ) else 1) * ((if Y < 0 then -1 else 1) * P) = P := by split <;> ring
  refine good_of hr t1 (by linarith) ?_ ?_ ?_
  · rw [e2]
    have e3 := abs_sub_le P (Real.pi / 2) θ
    rw [abs_sub_comm (Real.pi / 2) θ] at e3
    have : 1 / 2 ^ (F.s + 1) * (15 / 10) ≤ 1 / 2 ^ (F.s + 1) * θ := mul_le_mul_of_nonneg_left hθ hu0.le
    linarith
  · rw [abs_mul]
    have : |if Y < 0 then (-1 : ℝ) else 1| = 1 := by split <;> simp
    rw [this, one_mul]; exact hPH
  · rw [sgn_iff hy hY, sgn_iff hr (by split <;> [exact mul_ne_zero (by norm_num) hP0.ne'; exact mul_ne_zero one_ne_zero hP0.ne'])]
    congr 1
    split <;> rename_i h
    · simp [h, hP0]
    · simp only [one_mul, h, eq_iff_iff, iff_false, not_lt]; exact hP0.le

/-- the constants -/
structure PiTab (F : Fmt) (pi lo : BitVec F.w) (H L : ℝ) : Prop where
  hpi : GFv F pi H
  hlo : GFv F lo L
  hpl : |H + L - Real.pi| ≤ (1 / 2 ^ (F.s + 1)) / 1000
  hL : |L| ≤ 1 / 10 ^ 6
  hLt : L < 1 / 2 * (H / 2 ^ (F.s + 1))

/-- the last step -/
def comb {F : Fmt} (N : FPU F) (pi lo : BitVec F.w) (sy sx : Bool) (z : BitVec F.w) : BitVec F.w :=
  if sx then (if sy then N.sub (N.sub z lo) pi else N.sub pi (N.sub z lo)) else (if sy then F.neg z else z)

/-- the quotient -/
theorem quot2 {F : Fmt} (hF : F.Big) (N : FPU F) {x y : BitVec F.w} {X Y : ℝ} (hx : GFv F x X) (hy : GFv F y Y) (hX : X ≠ 0)
    (h : |Y| ≤ 2 ^ 118 * |X|) : ∃ Q, GFv F (F.fabs (N.div y x)) Q ∧ 0 ≤ Q ∧ |Q - (|Y| / |X|)| ≤ 1 / 2 ^ (F.s + 1) * (|Y| / |X|) + 1 / 2 ^ (F.bias + F.s) := by
  have r := divR N hy.fin hx.fin (by rw [hx.val]; exact hX)
  rw [hy.val, hx.val] at r
  have e : |Y / X| = |Y| / |X| := abs_div _ _
  obtain ⟨Q, q1, q2⟩ := rndT hF r (by
    rw [e, div_le_iff₀ (abs_pos.mpr hX)]
    refine h.trans (mul_le_mul_of_nonneg_right ?_ (abs_nonneg _))
    norm_num)
  refine ⟨|Q|, q1.fabs, abs_nonneg _, ?_⟩
  rw [← e]
  exact (abs_abs_sub_abs_le _ _).trans q2

set_option maxHeartbeats 1000000 in
/-- the result from `z` -/
theorem combCase {F : Fmt} (hF : F.Big) (hs : F.s = 23 ∨ F.s = 52) (N : FPU F) {pi lo x y z : BitVec F.w} {H L X Y W : ℝ} (t : PiTab F pi lo H L) (hx : GFv F x X)
    (hy : GFv F y Y) (hX : X ≠ 0) (hY : Y ≠ 0) (hz : GFv F z W) (hz0 : F.sign z = false) (hWH : X < 0 ∨ |W| ≤ H)
    (hp : X < 0 ∨ |W - Real.arctan (|Y| / |X|)| ≤ 4 * (1 / 2 ^ (F.s + 1)) * Real.arctan (|Y| / |X|) + 2 * (1 / 2 ^ (F.bias + F.s)))
    (hn : 0 < X ∨ |W - Real.arctan (|Y| / |X|)| ≤ 2 * (1 / 2 ^ (F.s + 1)) * Real.arctan (|Y| / |X|) + 52 / 100 * (1 / 2 ^ (F.s + 1))) :
    Good F H y (comb N pi lo (F.sign y) (F.sign x) z) X Y := by
  have hT : 0 < |Y| / |X| := div_pos (abs_pos.mpr hY) (abs_pos.mpr hX)
  have ha := arg_abs hX hY
  have hα0 := Real.arctan_pos.mpr hT
  have hα1 := (Real.arctan_lt_pi_div_two (|Y| / |X|)).le
  generalize Real.arctan (|Y| / |X|) = α at *
  have hW0 : 0 ≤ W := hz.nonneg hz0
  have sy := sgn_iff hy hY
  have sx := sgn_iff hx hX
  unfold comb
  rcases lt_or_gt_of_ne hX with h | h
  · rw [decide_eq_true h] at sx
    rw [sx, if_pos rfl]
    rw [if_pos h] at ha
    have hn := hn.resolve_left (by linarith)
    obtain ⟨⟨R1, a1, a2, a3⟩, R2, b1, b2, b3⟩ := negCase hF hs N t.hpi t.hlo t.hpl t.hL t.hLt hz hW0 hα0.le hα1 hn
    have hη : (0 : ℝ) < 1 / 2 ^ (F.bias + F.s) := by positivity
    have hu := Atan.u_le hs
    have hpos : ∀ R, |R - (Real.pi - α)| ≤ 4 * (1 / 2 ^ (F.s + 1)) * (Real.pi - α) → 0 < R := by
      intro R hR
      have p1 := Real.pi_pos
      have : 4 * (1 / 2 ^ (F.s + 1)) * (Real.pi - α) ≤ 1 / 2 * (Real.pi - α) :=
        mul_le_mul_of_nonneg_right (by have : (1 : ℝ) / 2 ^ 24 ≤ 1 / 8 := by norm_num
                                       linarith) (by linarith)
      rw [abs_le] at hR
      linarith [hR.1]
    rcases lt_or_gt_of_ne hY with h2 | h2
    · rw [decide_eq_true h2] at sy
      have hp := hpos _ b2
      rw [sy, if_pos rfl]
      refine good_of b1 ha (by linarith [Real.pi_pos]) ?_ ?_ ?_
      · rw [if_pos h2, neg_one_mul]; linarith
      · rw [abs_of_neg (by linarith)]; exact b3
      · rw [sy, sgn_iff b1 (by linarith)]; exact decide_eq_true (by linarith)
    · rw [decide_eq_false (by linarith)] at sy
      have hp := hpos _ a2
      rw [sy, if_neg (by simp)]
      refine good_of a1 ha (by linarith [Real.pi_pos]) ?_ ?_ ?_
      · rw [if_neg (by linarith), one_mul]; linarith
      · rw [abs_of_pos hp]; exact a3
      · rw [sy]; exact a1.sign_of_pos hp
  · rw [decide_eq_false (by linarith)] at sx
    rw [sx, if_neg (by simp)]
    rw [if_neg (show ¬ X < 0 by linarith)] at ha
    have hp := hp.resolve_left (by linarith)
    have hWH := hWH.resolve_left (by linarith)
    rcases lt_or_gt_of_ne hY with h2 | h2
    · rw [decide_eq_true h2] at sy
      rw [sy, if_pos rfl]
      refine good_of hz.neg ha hα0.le ?_ (by rwa [abs_neg]) (by rw [F.sign_neg, hz0, sy]; rfl)
      rw [if_pos h2, neg_one_mul, _root_.neg_neg]; exact hp
    · rw [decide_eq_false (by linarith)] at sy
      rw [sy, if_neg (by simp)]
      refine good_of hz ha hα0.le ?_ hWH (by rw [hz0, sy])
      rw [if_neg (by linarith), one_mul]; exact hp

/-- the result from the arctangent of the quotient -/
theorem restCase {F : Fmt} (hF : F.Big) (hs : F.s = 23 ∨ F.s = 52) (N : FPU F) {pi lo x y z : BitVec F.w} {H L X Y W Q : ℝ} (t : PiTab F pi lo H L) (hx : GFv F x X)
    (hy : GFv F y Y) (hX : X ≠ 0) (hY : Y ≠ 0) (hQ0 : 0 ≤ Q) (hQ : |Q - (|Y| / |X|)| ≤ 1 / 2 ^ (F.s + 1) * (|Y| / |X|) + 1 / 2 ^ (F.bias + F.s))
    (hz : GFv F z W) (hz0 : F.sign z = false) (hW : |W - Real.arctan Q| ≤ 2 * (1 / 2 ^ (F.s + 1)) * |Real.arctan Q|) (hWH : |W| ≤ H) :
    Good F H y (comb N pi lo (F.sign y) (F.sign x) z) X Y := by
  have hT : 0 < |Y| / |X| := div_pos (abs_pos.mpr hY) (abs_pos.mpr hX)
  have hu := Atan.u_le hs
  have hu0 : (0 : ℝ) < 1 / 2 ^ (F.s + 1) := by positivity
  exact combCase hF hs N t hx hy hX hY hz hz0 (Or.inr hWH) (Or.inr (posCase hT hQ0 hu0 hu (by positivity) hQ hW)) (Or.inr (negCase' hT hQ0 hu0 hu (eta_le hF) hQ hW))

/-- the result from zero -/
theorem zeroCase {F : Fmt} (hF : F.Big) (hs : F.s = 23 ∨ F.s = 52) (N : FPU F) {pi lo x y z : BitVec F.w} {H L X Y : ℝ} (t : PiTab F pi lo H L) (hx : GFv F x X)
    (hy : GFv F y Y) (hX : X < 0) (hY : Y ≠ 0) (hz : GFv F z 0) (hz0 : F.sign z = false) (h : 2 ^ (F.s + 1) * |Y| ≤ 1 / 2 * |X|) :
    Good F H y (comb N pi lo (F.sign y) (F.sign x) z) X Y := by
  refine combCase hF hs N t hx hy hX.ne hY hz hz0 (Or.inl hX) (Or.inl hX) (Or.inr ?_)
  have hT : 0 < |Y| / |X| := div_pos (abs_pos.mpr hY) (abs_pos.mpr hX.ne)
  have hα0 := Real.arctan_pos.mpr hT
  have h1 := Poly.atan_lip (|Y| / |X|) 0
  rw [Real.arctan_zero, sub_zero, sub_zero, abs_of_pos hα0, abs_of_pos hT] at h1
  rw [zero_sub, abs_neg, abs_of_pos hα0]
  have h2 : |Y| / |X| ≤ 1 / 2 * (1 / 2 ^ (F.s + 1)) := by
    rw [div_le_iff₀ (abs_pos.mpr hX.ne), mul_one_div, div_mul_eq_mul_div, le_div_iff₀ (by positivity), mul_comm]
    exact h
  have : 0 ≤ 2 * (1 / 2 ^ (F.s + 1)) * Real.arctan (|Y| / |X|) := by positivity
  have hu0 : (0 : ℝ) < 1 / 2 ^ (F.s + 1) := by positivity
  linarith

/-- operations on given numbers do not depend on the machine -/
theorem div_eq {F : Fmt} (N N' : FPU F) {a b : BitVec F.w} (ha : F.IsFin a) (hb : F.IsFin b) (h0 : ¬ F.IsZero b) : N.div a b = N'.div a b := by
  obtain ⟨p, q⟩ := (N.div_spec a b).1 ha hb h0
  obtain ⟨p', q'⟩ := (N'.div_spec a b).1 ha hb h0
  exact F.ext_sign_mag (by rw [q, q']) (Rounds.mag_unique F p p').1
theorem mul_eq {F : Fmt} (N N' : FPU F) {a b : BitVec F.w} (ha : F.IsFin a) (hb : F.IsFin b) : N.mul a b = N'.mul a b := by
  obtain ⟨p, q⟩ := (N.mul_spec a b).1 ha hb
  obtain ⟨p', q'⟩ := (N'.mul_spec a b).1 ha hb
  exact F.ext_sign_mag (by rw [q, q']) (Rounds.mag_unique F p p').1

section f64
open Pio2 Hypot

/-- `PI / 2` -/
def HALF : D := 0x3FF921FB54442D18#f64.w

theorem half_pos (N : FPU f64) : N.div PI two = HALF := by
  rw [div_eq N FPU.softF64 (by decide +kernel) (by decide +kernel) (by decide +kernel)]; decide +kernel
theorem half_neg (N : FPU f64) : N.div (f64.neg PI) two = f64.neg HALF := by
  rw [div_eq N FPU.softF64 (by decide +kernel) (by decide +kernel) (by decide +kernel)]; decide +kernel

theorem bit30 (x : D) : ((x.toNat >>> 32) >>> 30) &&& 2 = if f64.sign x then 2 else 0 := by
  have hxlt : x.toNat < 2 ^ 64 := x.isLt
  have h := sign64 x
  rw [Nat.shiftRight_eq_div_pow, Nat.shiftRight_eq_div_pow] at h ⊢
  have h2 : x.toNat / 2 ^ 32 / 2 ^ 30 < 4 := by omega
  have h3 : x.toNat / 2 ^ 32 / 2 ^ 31 = x.toNat / 2 ^ 32 / 2 ^ 30 / 2 := by omega
  rw [h3] at h
  generalize x.toNat / 2 ^ 32 / 2 ^ 30 = k at *
  split at h <;> rename_i hs
  · rw [if_pos hs]; interval_cases k <;> first | rfl | omega
  · rw [if_neg hs]; interval_cases k <;> first | rfl | omega

/-- the signs -/
theorem signs64 (y x : D) : (((y.toNat >>> 32) >>> 31) &&& 1) ||| (((x.toNat >>> 32) >>> 30) &&& 2) = (if f64.sign y then 1 else 0) + (if f64.sign x then 2 else 0) := by
  rw [sign64, bit30]
  split <;> split <;> rfl

theorem zero64 (x : D) : f64.mag x / 2 ^ 32 ||| x.toNat % 2 ^ 32 = 0 ↔ f64.mag x = 0 := by
  rw [Nat.or_eq_zero_iff]
  have : f64.mag x = x.toNat % 2 ^ 63 := rfl
  rw [this]; omega

theorem one64 (x : D) : ((x.toNat >>> 32) + 2 ^ 32 - 0x3ff00000) % 2 ^ 32 ||| x.toNat % 2 ^ 32 = 0 ↔ x = Atan.one := by
  have hxlt : x.toNat < 2 ^ 64 := x.isLt
  rw [Nat.or_eq_zero_iff, Nat.shiftRight_eq_div_pow]
  constructor
  · intro h
    apply BitVec.eq_of_toNat_eq
    have : Atan.one.toNat = 0x3ff0000000000000 := rfl
    rw [this]; omega
  · rintro rfl; decide

theorem tab64 : PiTab f64 PI PI_LO (f64.valK ℝ PI) (f64.valK ℝ PI_LO) := by
  have h1 : |f64.val PI + f64.val PI_LO - 314159265358979323846 / 10 ^ 20| ≤ 1 / 10 ^ 20 := by decide +kernel
  have h2 : |f64.val PI_LO| ≤ 1 / 10 ^ 6 := by decide +kernel
  have h3 : f64.val PI_LO < 1 / 2 * (f64.val PI / 2 ^ (f64.s + 1)) := by decide +kernel
  have h1' := Rat.cast_le (K := ℝ).mpr h1
  have h2' := Rat.cast_le (K := ℝ).mpr h2
  have h3' := Rat.cast_lt (K := ℝ).mpr h3
  have hp := Poly.pi_near
  push_cast at h1' h2' h3' hp
  rw [f64.valK_cast] at h2' h3'
  rw [f64.valK_cast] at h1' h3'
  rw [f64.valK_cast] at h1'
  refine ⟨⟨by decide +kernel, rfl⟩, ⟨by decide +kernel, rfl⟩, ?_, h2', h3'⟩
  have : (1 : ℝ) / 10 ^ 20 + 2 / 10 ^ 20 ≤ 1 / 2 ^ (f64.s + 1) / 1000 := by rw [s64]; norm_num
  rw [abs_le] at hp h1' ⊢
  constructor <;> linarith [hp.1, hp.2, h1'.1, h1'.2]

theorem half_near : |f64.valK ℝ HALF - Real.pi / 2| ≤ 1 / 2 ^ (f64.s + 1) := by
  have h1 : |f64.val HALF - 314159265358979323846 / 10 ^ 20 / 2| ≤ 65 / 10 ^ 18 := by decide +kernel
  have h1' := Rat.cast_le (K := ℝ).mpr h1
  have hp := Atan.pi2_near
  push_cast at h1' hp
  rw [f64.valK_cast] at h1'
  have : (65 : ℝ) / 10 ^ 18 + 2 / 10 ^ 20 ≤ 1 / 2 ^ (f64.s + 1) := by rw [s64]; norm_num
  rw [abs_le] at hp h1' ⊢
  constructor <;> linarith [hp.1, hp.2, h1'.1, h1'.2]
theorem half_le : |f64.valK ℝ HALF| ≤ f64.valK ℝ PI := by
  have h : |f64.val HALF| ≤ f64.val PI := by decide +kernel
  have h := Rat.cast_le (K := ℝ).mpr h
  rwa [Rat.cast_abs, f64.valK_cast, f64.valK_cast] at h

/-- `±PI / 2` -/
theorem half64 (N : FPU f64) {y : D} {X Y : ℝ} (hy : GFv f64 y Y) (hY : Y ≠ 0) (hX : X = 0 ∨ 2 ^ (f64.s + 1) * |X| ≤ 2 * |Y|) {m : ℕ}
    (hm : (m &&& 1 ≠ 0) ↔ f64.sign y = true) : Good f64 (f64.valK ℝ PI) y (if m &&& 1 ≠ 0 then N.div (f64.neg PI) two else N.div PI two) X Y := by
  have hc : GFv f64 HALF (f64.valK ℝ HALF) := ⟨by decide +kernel, rfl⟩
  refine halfCase (Or.inr rfl) hy hY ?_ half_near half_le hX
  have hs := sgn_iff hy hY
  rw [half_pos, half_neg]
  by_cases h : Y < 0
  · rw [decide_eq_true h] at hs
    rw [if_pos (hm.mpr hs), if_pos h, neg_one_mul]; exact hc.neg
  · rw [decide_eq_false h] at hs
    rw [if_neg (fun h' => by rw [hm.mp h'] at hs; simp at hs), if_neg h, one_mul]; exact hc

/-- `atan` of a number without sign -/
theorem atan_abs (N : FPU f64) {q : D} {Q : ℝ} (hq : GFv f64 (f64.fabs q) Q) :
    Ok (Atan.atan N (f64.fabs q)) fun z => ∃ W, GFv f64 z W ∧ |W - Real.arctan Q| ≤ 2 * (1 / 2 ^ (f64.s + 1)) * |Real.arctan Q| ∧ |W| ≤ f64.valK ℝ (Atan.HI 3) ∧ f64.sign z = false := by
  obtain ⟨z, z1, W, w1, w2, w3⟩ := Atan.atan_spec N hq
  obtain ⟨h1, h2⟩ := f64.fabs_facts q
  rw [← Atan.uu] at w2
  have hQ := hq.nonneg h1
  rcases hQ.eq_or_lt with h | h
  · have : f64.fabs q = zero := by
      refine f64.ext_sign_mag (by rw [h1]; rfl) ?_
      exact (zero_iff hq).mpr h.symm
    have e : Atan.atan N (f64.fabs q) = .ok zero := by rw [this]; rfl
    rw [e] at z1
    exact ⟨z, by rw [e]; exact z1, W, w1, w2, w3, by cases z1; rfl⟩
  · refine ⟨z, z1, W, w1, w2, w3, w1.sign_of_pos ?_⟩
    have ha := Real.arctan_pos.mpr h
    rw [abs_of_pos ha, Atan.uu] at w2
    have : 1 / 2 ^ 52 * Real.arctan Q ≤ 1 / 2 * Real.arctan Q := by gcongr; norm_num
    rw [abs_le] at w2
    linarith [w2.1]

/-- the quotients by the upper halves -/
theorem ratio_up {x y : D} {X Y : ℝ} (hx : GFv f64 x X) (hy : GFv f64 y Y) (h : (f64.mag x / 2 ^ 32 + (64 <<< 20)) % 2 ^ 32 < f64.mag y / 2 ^ 32) : 2 ^ 64 * |X| ≤ |Y| := by
  rw [hx.abs_eq, hy.abs_eq]
  refine (magVal_up (F := f64) (f64.mag x) 64).trans ?_
  rw [f64.magValR_le_iff, s64]
  have : f64.mag x < 0x7ff0000000000000 := hx.fin
  omega
theorem ratio_le {x y : D} {X Y : ℝ} (hx : GFv f64 x X) (hy : GFv f64 y Y) (hX : X ≠ 0) (h : ¬ (f64.mag x / 2 ^ 32 + (64 <<< 20)) % 2 ^ 32 < f64.mag y / 2 ^ 32) : |Y| ≤ 2 ^ 118 * |X| := by
  have h0 : 0 < f64.mag x := by
    exact Nat.pos_of_ne_zero (mt (zero_iff hx).mp hX)
  have := magVal_up_le (F := f64) 65 h0
  rw [hx.abs_eq, hy.abs_eq]
  rw [s64] at this
  refine le_trans ?_ this
  rw [f64.magValR_le_iff]
  have : f64.mag x < 0x7ff0000000000000 := hx.fin
  omega

set_option maxHeartbeats 1000000 in
/-- the general case -/
theorem general_spec (N : FPU f64) {x y : D} {X Y : ℝ} (hx : GFv f64 x X) (hy : GFv f64 y Y) (hX : X ≠ 0) (hY : Y ≠ 0) :
    Ok (general N (f64.mag x / 2 ^ 32) (f64.mag y / 2 ^ 32) ((if f64.sign y then 1 else 0) + (if f64.sign x then 2 else 0)) y x) fun r => Good f64 (f64.valK ℝ PI) y r X Y := by
  have hyf : f64.mag y < 0x7ff0000000000000 := hy.fin
  have hxf : f64.mag x < 0x7ff0000000000000 := hx.fin
  have hm1 : (((if f64.sign y then 1 else 0) + (if f64.sign x then 2 else 0)) &&& 1 ≠ 0) ↔ f64.sign y = true := by
    cases f64.sign y <;> cases f64.sign x <;> decide
  have hm2 : (((if f64.sign y then 1 else 0) + (if f64.sign x then 2 else 0)) &&& 2 ≠ 0) ↔ f64.sign x = true := by
    cases f64.sign y <;> cases f64.sign x <;> decide
  have key : ∀ z : D, (match ((if f64.sign y then 1 else 0) + (if f64.sign x then 2 else 0)) with
      | 0 => (.ok z : M D)
      | 1 => .ok (f64.neg z)
      | 2 => .ok (N.sub PI (N.sub z PI_LO))
      | _ => .ok (N.sub (N.sub z PI_LO) PI)) = .ok (comb N PI PI_LO (f64.sign y) (f64.sign x) z) := by
    intro z; cases f64.sign y <;> cases f64.sign x <;> rfl
  have hh : |f64.valK ℝ (Atan.HI 3)| ≤ f64.valK ℝ PI := half_le
  unfold general
  split
  case isTrue h =>
    have h := h.resolve_right (by omega)
    have := ratio_up hx hy h
    refine ⟨_, rfl, half64 N hy hY (Or.inr ?_) hm1⟩
    rw [s64]
    have h0 := abs_nonneg X
    norm_num at this ⊢
    linarith
  case isFalse h =>
    have h := (not_or.mp h).1
    have hr := ratio_le hx hy hX h
    by_cases h2 : (((if f64.sign y then 1 else 0) + (if f64.sign x then 2 else 0)) &&& 2 ≠ 0) ∧ (f64.mag y / 2 ^ 32 + (64 <<< 20)) % 2 ^ 32 < f64.mag x / 2 ^ 32
    · rw [if_pos h2]
      rw [hm2] at h2
      have hX0 : X < 0 := by have := sgn_iff hx hX; rw [h2.1] at this; simpa using this.symm
      have := ratio_up hy hx h2.2
      rw [ok_bind]
      refine ⟨_, key _, zeroCase Atan.big64 (Or.inr rfl) N tab64 hx hy hX0 hY ⟨by decide +kernel, ?_⟩ (by decide +kernel) ?_⟩
      · rw [← f64.valK_cast, show f64.val zero = 0 by decide +kernel, Rat.cast_zero]
      · rw [s64]
        have h0 := abs_nonneg Y
        norm_num at this ⊢
        linarith
    · rw [if_neg h2]
      obtain ⟨Q, q1, q2, q3⟩ := quot2 Atan.big64 N hx hy hX hr
      obtain ⟨z, z1, W, w1, w2, w3, w4⟩ := atan_abs N q1
      rw [z1, ok_bind]
      exact ⟨_, key _, restCase Atan.big64 (Or.inr rfl) N tab64 hx hy hX hY q2 q3 w1 w4 w2 (w3.trans ((le_abs_self _).trans hh))⟩

/-- `atan2` of finite numbers -/
theorem atan2_spec (N : FPU f64) {x y : D} {X Y : ℝ} (hx : GFv f64 x X) (hy : GFv f64 y Y) (hY : Y ≠ 0) :
    Ok (atan2 N y x) fun r => Good f64 (f64.valK ℝ PI) y r X Y := by
  have hnx : f64.isNan x = false := by
    by_contra hc
    exact hx.not_nan ((f64.isNan_iff x).mp (by simpa using hc))
  have hny : f64.isNan y = false := by
    by_contra hc
    exact hy.not_nan ((f64.isNan_iff y).mp (by simpa using hc))
  have hxf : f64.mag x < 0x7ff0000000000000 := hx.fin
  unfold atan2
  rw [hnx, hny, if_neg (by simp)]
  simp only [signs64, hi64, zero64, one64]
  split
  case isTrue h =>
    obtain ⟨z, z1, W, w1, w2, w3⟩ := Atan.atan_spec N hy
    have hX : X = 1 := by rw [← hx.val, h]; exact Atan.one_fv.val
    have e : Complex.arg ⟨X, Y⟩ = Real.arctan Y := by rw [hX, arg_right one_pos, div_one]
    have ha : Real.arctan Y ≠ 0 := by rw [Ne, Real.arctan_eq_zero_iff]; exact hY
    have ha0 := abs_pos.mpr ha
    have hW0 : |W - Real.arctan Y| < |Real.arctan Y| := by
      refine w2.trans_lt ?_
      have : 1 / 2 ^ 52 * |Real.arctan Y| ≤ 1 / 2 * |Real.arctan Y| := by gcongr; norm_num
      linarith
    refine ⟨z, z1, W, w1, ?_, w3.trans ((le_abs_self _).trans half_le), ?_⟩
    · rw [e]
      rw [← Atan.uu] at w2
      have h2 : (0 : ℝ) < 1 / 2 ^ (f64.s + 1) * |Real.arctan Y| := by positivity
      have h3 : (0 : ℝ) < 1 / 2 ^ (f64.bias + f64.s) := by positivity
      linarith
    · rw [sgn_iff hy hY]
      rcases lt_or_gt_of_ne hY with h | h
      · have h1 : Real.arctan Y < 0 := Real.arctan_lt_zero.mpr h
        rw [abs_of_neg h1, abs_lt] at hW0
        have : W < 0 := by linarith [hW0.2]
        rw [sgn_iff w1 this.ne, decide_eq_true h, decide_eq_true this]
      · have h1 : 0 < Real.arctan Y := Real.arctan_pos.mpr h
        rw [abs_of_pos h1, abs_lt] at hW0
        have : 0 < W := by linarith [hW0.1]
        rw [w1.sign_of_pos this, decide_eq_false (by linarith)]
  case isFalse h =>
    rw [if_neg (mt (zero_iff hy).mp hY)]
    split
    case isTrue h2 =>
      exact ⟨_, rfl, half64 N hy hY (Or.inl ((zero_iff hx).mp h2)) (by cases f64.sign y <;> cases f64.sign x <;> decide)⟩
    case isFalse h2 =>
      rw [if_neg (by omega)]
      exact general_spec N hx hy (mt (zero_iff hx).mpr h2) hY
end f64
end Atan2
end Verif
