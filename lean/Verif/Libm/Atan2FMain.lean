import Verif.Libm.Atan2Main
import Verif.Libm.AtanFMain
/-! # Accuracy of `atan2f` -/
namespace Verif
open Fmt
namespace Atan2.F32

section f32
open Atan.F32 (b32 s32 big32)

/-- `PI / 2` -/
def HALF : S := 0x3fc90fdb#f32.w

theorem half_pos (N : FPU f32) : N.div PI two = HALF := by
  rw [div_eq N FPU.softF32 (by decide +kernel) (by decide +kernel) (by decide +kernel)]; decide +kernel
theorem half_neg (N : FPU f32) : N.div (f32.neg PI) two = f32.neg HALF := by
  rw [div_eq N FPU.softF32 (by decide +kernel) (by decide +kernel) (by decide +kernel)]; decide +kernel

theorem bit30 (x : S) : (x.toNat >>> 30) &&& 2 = if f32.sign x then 2 else 0 := by
  have hxlt : x.toNat < 2 ^ 32 := x.isLt
  have h := sign32 x
  rw [Nat.shiftRight_eq_div_pow] at h ⊢
  have h2 : x.toNat / 2 ^ 30 < 4 := by omega
  have h3 : x.toNat / 2 ^ 31 = x.toNat / 2 ^ 30 / 2 := by omega
  rw [h3] at h
  generalize x.toNat / 2 ^ 30 = k at *
  split at h <;> rename_i hs
  · rw [if_pos hs]; interval_cases k <;> first | rfl | omega
  · rw [if_neg hs]; interval_cases k <;> first | rfl | omega

/-- the signs -/
theorem signs32 (y x : S) : ((y.toNat >>> 31) &&& 1) ||| ((x.toNat >>> 30) &&& 2) = (if f32.sign y then 1 else 0) + (if f32.sign x then 2 else 0) := by
  rw [sign32, bit30]
  split <;> split <;> rfl

theorem one32 (x : S) : x.toNat = 0x3f800000 ↔ x = Atan.F32.one := by
  constructor
  · intro h
    apply BitVec.eq_of_toNat_eq
    rw [h]; rfl
  · rintro rfl; rfl

theorem tab32 : PiTab f32 PI PI_LO (f32.valK ℝ PI) (f32.valK ℝ PI_LO) := by
  have h1 : |f32.val PI + f32.val PI_LO - 314159265358979323846 / 10 ^ 20| ≤ 1 / 10 ^ 14 := by decide +kernel
  have h2 : |f32.val PI_LO| ≤ 1 / 10 ^ 6 := by decide +kernel
  have h3 : f32.val PI_LO < 1 / 2 * (f32.val PI / 2 ^ (f32.s + 1)) := by decide +kernel
  have h1' := Rat.cast_le (K := ℝ).mpr h1
  have h2' := Rat.cast_le (K := ℝ).mpr h2
  have h3' := Rat.cast_lt (K := ℝ).mpr h3
  have hp := Poly.pi_near
  push_cast at h1' h2' h3' hp
  rw [f32.valK_cast] at h2' h3'
  rw [f32.valK_cast] at h1' h3'
  rw [f32.valK_cast] at h1'
  refine ⟨⟨by decide +kernel, rfl⟩, ⟨by decide +kernel, rfl⟩, ?_, h2', h3'⟩
  have : (1 : ℝ) / 10 ^ 14 + 2 / 10 ^ 20 ≤ 1 / 2 ^ (f32.s + 1) / 1000 := by rw [s32]; norm_num
  rw [abs_le] at hp h1' ⊢
  constructor <;> linarith [hp.1, hp.2, h1'.1, h1'.2]

theorem half_near : |f32.valK ℝ HALF - Real.pi / 2| ≤ 1 / 2 ^ (f32.s + 1) := by
  have h1 : |f32.val HALF - 314159265358979323846 / 10 ^ 20 / 2| ≤ 44 / 10 ^ 9 := by decide +kernel
  have h1' := Rat.cast_le (K := ℝ).mpr h1
  have hp := Atan.pi2_near
  push_cast at h1' hp
  rw [f32.valK_cast] at h1'
  have : (44 : ℝ) / 10 ^ 9 + 2 / 10 ^ 20 ≤ 1 / 2 ^ (f32.s + 1) := by rw [s32]; norm_num
  rw [abs_le] at hp h1' ⊢
  constructor <;> linarith [hp.1, hp.2, h1'.1, h1'.2]
theorem half_le : |f32.valK ℝ HALF| ≤ f32.valK ℝ PI := by
  have h : |f32.val HALF| ≤ f32.val PI := by decide +kernel
  have h := Rat.cast_le (K := ℝ).mpr h
  rwa [Rat.cast_abs, f32.valK_cast, f32.valK_cast] at h

/-- `±PI / 2` -/
theorem half32 (N : FPU f32) {y : S} {X Y : ℝ} (hy : GFv f32 y Y) (hY : Y ≠ 0) (hX : X = 0 ∨ 2 ^ (f32.s + 1) * |X| ≤ 2 * |Y|) {m : ℕ}
    (hm : (m &&& 1 ≠ 0) ↔ f32.sign y = true) : Good f32 (f32.valK ℝ PI) y (if m &&& 1 ≠ 0 then N.div (f32.neg PI) two else N.div PI two) X Y := by
  have hc : GFv f32 HALF (f32.valK ℝ HALF) := ⟨by decide +kernel, rfl⟩
  refine halfCase (Or.inl rfl) hy hY ?_ half_near half_le hX
  have hs := sgn_iff hy hY
  rw [half_pos, half_neg]
  by_cases h : Y < 0
  · rw [decide_eq_true h] at hs
    rw [if_pos (hm.mpr hs), if_pos h, neg_one_mul]; exact hc.neg
  · rw [decide_eq_false h] at hs
    rw [if_neg (fun h' => by rw [hm.mp h'] at hs; simp at hs), if_neg h, one_mul]; exact hc

/-- `atan` of a number without sign -/
theorem atan_abs (N : FPU f32) {q : S} {Q : ℝ} (hq : GFv f32 (f32.fabs q) Q) :
    Ok (Atan.F32.atanf N (f32.fabs q)) fun z => ∃ W, GFv f32 z W ∧ |W - Real.arctan Q| ≤ 2 * (1 / 2 ^ (f32.s + 1)) * |Real.arctan Q| ∧ |W| ≤ f32.valK ℝ (Atan.F32.PI2) ∧ f32.sign z = false := by
  obtain ⟨z, z1, W, w1, w2, w3⟩ := Atan.F32.atanf_spec N hq
  obtain ⟨h1, h2⟩ := f32.fabs_facts q
  rw [← Atan.F32.uu] at w2
  have hQ := hq.nonneg h1
  rcases hQ.eq_or_lt with h | h
  · have : f32.fabs q = zero := by
      refine f32.ext_sign_mag (by rw [h1]; rfl) ?_
      exact (zero_iff hq).mpr h.symm
    have e : Atan.F32.atanf N (f32.fabs q) = .ok zero := by rw [this]; rfl
    rw [e] at z1
    exact ⟨z, by rw [e]; exact z1, W, w1, w2, w3, by cases z1; rfl⟩
  · refine ⟨z, z1, W, w1, w2, w3, w1.sign_of_pos ?_⟩
    have ha := Real.arctan_pos.mpr h
    rw [abs_of_pos ha, Atan.F32.uu] at w2
    have : 1 / 2 ^ 23 * Real.arctan Q ≤ 1 / 2 * Real.arctan Q := by gcongr; norm_num
    rw [abs_le] at w2
    linarith [w2.1]

/-- the quotients by the upper halves -/
theorem ratio_up {x y : S} {X Y : ℝ} (hx : GFv f32 x X) (hy : GFv f32 y Y) (h : f32.mag x + (26 <<< 23) < f32.mag y) : 2 ^ 26 * |X| ≤ |Y| := by
  rw [hx.abs_eq, hy.abs_eq]
  refine (magVal_up (F := f32) (f32.mag x) 26).trans ?_
  rw [f32.magValR_le_iff, s32]
  have : f32.mag x < 0x7f800000 := hx.fin
  omega
theorem ratio_le {x y : S} {X Y : ℝ} (hx : GFv f32 x X) (hy : GFv f32 y Y) (hX : X ≠ 0) (h : ¬ f32.mag x + (26 <<< 23) < f32.mag y) : |Y| ≤ 2 ^ 118 * |X| := by
  have h0 : 0 < f32.mag x := by
    exact Nat.pos_of_ne_zero (mt (zero_iff hx).mp hX)
  have := magVal_up_le (F := f32) 27 h0
  rw [hx.abs_eq, hy.abs_eq]
  rw [s32] at this
  refine le_trans ?_ (this.trans (mul_le_mul_of_nonneg_right (pow_le_pow_right₀ (by norm_num) (by norm_num)) (f32.magVal_nonneg _ _)))
  rw [f32.magValR_le_iff]
  have : f32.mag x < 0x7f800000 := hx.fin
  omega

set_option maxHeartbeats 1000000 in
/-- the general case -/
theorem general_spec (N : FPU f32) {x y : S} {X Y : ℝ} (hx : GFv f32 x X) (hy : GFv f32 y Y) (hX : X ≠ 0) (hY : Y ≠ 0) :
    Ok (general N (f32.mag x) (f32.mag y) ((if f32.sign y then 1 else 0) + (if f32.sign x then 2 else 0)) y x) fun r => Good f32 (f32.valK ℝ PI) y r X Y := by
  have hyf : f32.mag y < 0x7f800000 := hy.fin
  have hxf : f32.mag x < 0x7f800000 := hx.fin
  have hm1 : (((if f32.sign y then 1 else 0) + (if f32.sign x then 2 else 0)) &&& 1 ≠ 0) ↔ f32.sign y = true := by
    cases f32.sign y <;> cases f32.sign x <;> decide
  have hm2 : (((if f32.sign y then 1 else 0) + (if f32.sign x then 2 else 0)) &&& 2 ≠ 0) ↔ f32.sign x = true := by
    cases f32.sign y <;> cases f32.sign x <;> decide
  have key : ∀ z : S, (match ((if f32.sign y then 1 else 0) + (if f32.sign x then 2 else 0)) with
      | 0 => (.ok z : M S)
      | 1 => .ok (f32.neg z)
      | 2 => .ok (N.sub PI (N.sub z PI_LO))
      | _ => .ok (N.sub (N.sub z PI_LO) PI)) = .ok (comb N PI PI_LO (f32.sign y) (f32.sign x) z) := by
    intro z; cases f32.sign y <;> cases f32.sign x <;> rfl
  have hh : |f32.valK ℝ (Atan.F32.PI2)| ≤ f32.valK ℝ PI := half_le
  have hu : ∀ n, n < 0x7f800000 → Log.u32C (n + (26 <<< 23)) = .ok (n + (26 <<< 23)) := by
    intro n hn
    unfold Log.u32C
    rw [if_pos (by omega)]
  unfold general
  rw [hu _ hxf, ok_bind]
  by_cases h : f32.mag x + (26 <<< 23) < f32.mag y ∨ f32.mag y = 0x7f800000
  · rw [if_pos h]
    have h := h.resolve_right (by omega)
    have := ratio_up hx hy h
    refine ⟨_, rfl, half32 N hy hY (Or.inr ?_) hm1⟩
    rw [s32]
    have h0 := abs_nonneg X
    norm_num at this ⊢
    linarith
  · rw [if_neg h]
    have h := (not_or.mp h).1
    have hr := ratio_le hx hy hX h
    have hb : small (f32.mag x) (f32.mag y) ((if f32.sign y then 1 else 0) + (if f32.sign x then 2 else 0)) =
        .ok (decide ((((if f32.sign y then 1 else 0) + (if f32.sign x then 2 else 0)) &&& 2 ≠ 0) ∧ f32.mag y + (26 <<< 23) < f32.mag x)) := by
      unfold small
      generalize ((if f32.sign y then 1 else 0) + (if f32.sign x then 2 else 0)) &&& 2 = k
      rw [hu _ hyf]
      by_cases hc : k ≠ 0
      · rw [if_pos hc, ok_bind, Bool.decide_and, decide_eq_true hc, Bool.true_and]; rfl
      · rw [if_neg hc, Bool.decide_and, decide_eq_false hc, Bool.false_and]
    rw [hb, ok_bind]
    by_cases h2 : (((if f32.sign y then 1 else 0) + (if f32.sign x then 2 else 0)) &&& 2 ≠ 0) ∧ f32.mag y + (26 <<< 23) < f32.mag x
    · rw [if_pos (decide_eq_true h2)]
      rw [hm2] at h2
      have hX0 : X < 0 := by have := sgn_iff hx hX; rw [h2.1] at this; simpa using this.symm
      have := ratio_up hy hx h2.2
      rw [ok_bind]
      refine ⟨_, key _, zeroCase big32 (Or.inl rfl) N tab32 hx hy hX0 hY ⟨by decide +kernel, ?_⟩ (by decide +kernel) ?_⟩
      · rw [← f32.valK_cast, show f32.val zero = 0 by decide +kernel, Rat.cast_zero]
      · rw [s32]
        have h0 := abs_nonneg Y
        norm_num at this ⊢
        linarith
    · rw [if_neg (by simpa using h2)]
      obtain ⟨Q, q1, q2, q3⟩ := quot2 big32 N hx hy hX hr
      obtain ⟨z, z1, W, w1, w2, w3, w4⟩ := atan_abs N q1
      rw [z1, ok_bind]
      exact ⟨_, key _, restCase big32 (Or.inl rfl) N tab32 hx hy hX hY q2 q3 w1 w4 w2 (w3.trans ((le_abs_self _).trans hh))⟩

/-- `atan2` of finite numbers -/
theorem atan2f_spec (N : FPU f32) {x y : S} {X Y : ℝ} (hx : GFv f32 x X) (hy : GFv f32 y Y) (hY : Y ≠ 0) :
    Ok (atan2f N y x) fun r => Good f32 (f32.valK ℝ PI) y r X Y := by
  have hnx : f32.isNan x = false := by
    by_contra hc
    exact hx.not_nan ((f32.isNan_iff x).mp (by simpa using hc))
  have hny : f32.isNan y = false := by
    by_contra hc
    exact hy.not_nan ((f32.isNan_iff y).mp (by simpa using hc))
  have hxf : f32.mag x < 0x7f800000 := hx.fin
  unfold atan2f
  rw [hnx, hny, if_neg (by simp)]
  simp only [signs32, mag32, one32]
  split
  case isTrue h =>
    obtain ⟨z, z1, W, w1, w2, w3⟩ := Atan.F32.atanf_spec N hy
    have hX : X = 1 := by rw [← hx.val, h]; exact Atan.F32.one_fv.val
    have e : Complex.arg ⟨X, Y⟩ = Real.arctan Y := by rw [hX, arg_right one_pos, div_one]
    have ha : Real.arctan Y ≠ 0 := by rw [Ne, Real.arctan_eq_zero_iff]; exact hY
    have ha0 := abs_pos.mpr ha
    have hW0 : |W - Real.arctan Y| < |Real.arctan Y| := by
      refine w2.trans_lt ?_
      have : 1 / 2 ^ 23 * |Real.arctan Y| ≤ 1 / 2 * |Real.arctan Y| := by gcongr; norm_num
      linarith
    refine ⟨z, z1, W, w1, ?_, w3.trans ((le_abs_self _).trans half_le), ?_⟩
    · rw [e]
      rw [← Atan.F32.uu] at w2
      have h2 : (0 : ℝ) < 1 / 2 ^ (f32.s + 1) * |Real.arctan Y| := by positivity
      have h3 : (0 : ℝ) < 1 / 2 ^ (f32.bias + f32.s) := by positivity
      linarith
    · rw [sgn_iff hy hY]
      rcases lt_or_gt_of_ne hY with h | h
      · have h1 : Real.arctan Y < 0 := Real.arctan_lt_zero.mpr h
        rw [abs_of_neg h1, abs_lt] at hW0
        have : W < 0 := by linarith [hW0.2]
        rw [sgn_iff w1 this.ne, decide_eq_true h, decide_eq_true this]
      · have h1 : 0 < Real.arctan Y := Real.arctan_pos.mpr h
        rw [abs_of_pos h1, abs_lt] at hW0
        have : 0 < W := by linarith [hW0.1]
        rw [w1.sign_of_pos this, decide_eq_false (by linarith)]
  case isFalse h =>
    rw [if_neg (mt (zero_iff hy).mp hY)]
    split
    case isTrue h2 =>
      exact ⟨_, rfl, half32 N hy hY (Or.inl ((zero_iff hx).mp h2)) (by cases f32.sign y <;> cases f32.sign x <;> decide)⟩
    case isFalse h2 =>
      rw [if_neg (by omega)]
      exact general_spec N hx hy (mt (zero_iff hx).mpr h2) hY
end f32
end Atan2.F32
end Verif
