import Verif.Libm.Cbrtf
import Verif.Libm.CbrtfGuess
import Verif.Libm.GFvSign
/-! # `cbrtf` is the rounding of a number very close to the cube root -/
namespace Verif
open Fmt
namespace Cbrtf

theorem widen_fv (C : FloatCast f32 f64) {b : S} {v : ℝ} (h : GFv f32 b v) : GFv f64 (C.widen b) v := by
  obtain ⟨a, -, c⟩ := C.widen_fin b h.fin
  exact ⟨a, by rw [← f64.valK_cast, c]; exact h.valQ⟩

theorem narrow_fv (C : FloatCast f32 f64) {b : D} {v : ℝ} (h : GFv f64 b v) : f32.Rounds v (C.narrow b) := by
  have := Rounds.cast f32 (C.narrow_fin b h.fin).2
  rwa [h.valQ] at this

/-- the pattern of the first approximation -/
theorem pattern {u h : ℕ} {s : Bool} (hu : u < 2 ^ 32) (hs : u >>> 31 = if s then 1 else 0) (hh : h < 2 ^ 31) :
    f32.mag (BitVec.ofNat f32.w ((u &&& 0x80000000) ||| h)) = h ∧ f32.sign (BitVec.ofNat f32.w ((u &&& 0x80000000) ||| h)) = s := by
  have e1 : u &&& 0x80000000 = (u >>> 31) <<< 31 := by
    apply Nat.eq_of_testBit_eq
    intro i
    rw [Nat.testBit_and, Nat.testBit_shiftLeft, show 0x80000000 = 2 ^ 31 from rfl, Nat.testBit_two_pow]
    by_cases h31 : i = 31
    · subst h31; simp
    · rcases lt_or_ge i 31 with h2 | h2
      · simp [h2, show ¬ 31 = i by omega]
      · rw [Nat.testBit_shiftRight, show 31 + (i - 31) = i by omega, Nat.testBit_eq_false_of_lt (lt_of_lt_of_le hu (Nat.pow_le_pow_right (by norm_num) (by omega)))]
        simp
  rw [e1, ← Nat.shiftLeft_add_eq_or_of_lt hh, hs]
  have e3 : (BitVec.ofNat f32.w ((if s then 1 else 0) <<< 31 + h)).toNat = (if s then 2 ^ 31 else 0) + h := by
    rw [BitVec.toNat_ofNat]
    show ((if s then 1 else 0) <<< 31 + h) % 2 ^ 32 = _
    rw [Nat.shiftLeft_eq]
    cases s <;> simp <;> omega
  constructor
  · show (BitVec.ofNat f32.w ((if s then 1 else 0) <<< 31 + h)).toNat % 2 ^ 31 = h
    rw [e3]
    cases s <;> simp <;> omega
  · show BitVec.msb _ = s
    rw [BitVec.msb_eq_decide, e3]
    show decide (2 ^ 31 ≤ _) = s
    cases s <;> simp <;> omega

/-- the iteration, from the first approximation -/
theorem main_spec (N64 : FPU f64) (C : FloatCast f32 f64) {x : S} {ui hx : ℕ} {y : ℝ} (gx : GFv f32 x (y ^ 3)) (hb : Cbrt.Bd 60 y) (hu : ui < 2 ^ 32)
    (hs : ui >>> 31 = if f32.sign x then 1 else 0) (hh : hx < f32.infRep) (hg : |f32.magVal ℝ hx - (|y|)| ≤ 1 / 31 * |y|) :
    ∃ T, |T - y| ≤ 1 / 2 ^ 46 * |y| ∧ f32.Rounds T (main N64 C x ui hx) := by
  have hi : f32.infRep < 2 ^ 31 := by decide
  obtain ⟨p1, p2⟩ := pattern hu hs (hh.trans hi)
  unfold main
  generalize BitVec.ofNat f32.w ((ui &&& 0x80000000) ||| hx) = b at *
  have gb : GFv f32 b _ := GFv.self (show f32.IsFin b by unfold IsFin; rw [p1]; exact hh)
  have ev := gb.eq_sign
  rw [p1, p2] at ev
  have hyn : y ≠ 0 := by
    have : 0 < |y| := lt_of_lt_of_le (by positivity) hb.lo
    exact abs_pos.mp this
  have h0 : |f32.valK ℝ b - y| ≤ 1 / 31 * |y| := by
    rw [ev]
    cases hsx : f32.sign x with
    | false =>
      have h3 := gx.nonneg hsx
      have hy : 0 ≤ y := by
        by_contra hc
        have hc : y < 0 := not_le.mp hc
        have : y ^ 3 < 0 := Odd.pow_neg (by decide) hc
        linarith
      rw [abs_of_nonneg hy] at hg ⊢
      simpa using hg
    | true =>
      have h3 := gx.nonpos hsx
      have hy : y ≤ 0 := by
        by_contra hc
        have hc : 0 < y := not_le.mp hc
        have : 0 < y ^ 3 := by positivity
        linarith
      rw [abs_of_nonpos hy] at hg ⊢
      rw [show (if true = true then (-1 : ℝ) else 1) * f32.magVal ℝ hx - y = -(f32.magVal ℝ hx - -y) by simp; ring, abs_neg]
      exact hg
  have gxw := widen_fv C gx
  obtain ⟨T1, g1, e1⟩ := Cbrt.step_spec N64 gxw (widen_fv C gb) hb h0 (by norm_num)
  have e1' : |T1 - y| ≤ 2518 / 10 ^ 8 * |y| := e1.trans (mul_le_mul_of_nonneg_right (by norm_num) (abs_nonneg _))
  obtain ⟨T2, g2, e2⟩ := Cbrt.step_spec N64 gxw g1 hb e1' (by norm_num)
  exact ⟨T2, e2.trans (mul_le_mul_of_nonneg_right (by norm_num) (abs_nonneg _)), narrow_fv C g2⟩

theorem bd_of {X y : ℝ} (h : y ^ 3 = X) (h1 : 2 ^ (-149 : ℤ) ≤ |X|) (h2 : |X| ≤ 2 ^ (128 : ℤ)) : Cbrt.Bd 60 y := by
  have e : |y| ^ 3 = |X| := by rw [← h, abs_pow]
  constructor
  · by_contra hc
    have : |y| ^ 3 < (2 ^ (-60 : ℤ)) ^ 3 := pow_lt_pow_left₀ (not_le.mp hc) (abs_nonneg _) (by norm_num)
    have h3 : ((2 : ℝ) ^ (-60 : ℤ)) ^ 3 ≤ 2 ^ (-149 : ℤ) := by
      rw [← zpow_natCast, ← zpow_mul]; exact zpow_le_zpow_right₀ (by norm_num) (by norm_num)
    linarith
  · by_contra hc
    have : (2 ^ (60 : ℤ)) ^ 3 < |y| ^ 3 := pow_lt_pow_left₀ (not_le.mp hc) (by positivity) (by norm_num)
    have h3 : (2 : ℝ) ^ (128 : ℤ) ≤ ((2 : ℝ) ^ (60 : ℤ)) ^ 3 := by
      rw [← zpow_natCast, ← zpow_mul]; exact zpow_le_zpow_right₀ (by norm_num) (by norm_num)
    linarith

theorem cbrtf_spec (N : FPU f32) (N64 : FPU f64) (C : FloatCast f32 f64) {x : S} {y : ℝ} (gx : GFv f32 x (y ^ 3)) (hy : y ≠ 0) :
    ∃ r T, cbrtf N N64 C x = .ok r ∧ |T - y| ≤ 1 / 2 ^ 46 * |y| ∧ f32.Rounds T r := by
  have hX : y ^ 3 ≠ 0 := pow_ne_zero 3 hy
  have hi : f32.infRep = 0x7f800000 := by decide
  have hfin : f32.mag x < f32.infRep := gx.fin
  have hab := gx.abs_eq
  have hm0 : f32.mag x ≠ 0 := by
    intro h
    rw [h] at hab
    have : f32.magVal ℝ 0 = 0 := by unfold magVal; simp
    rw [this] at hab
    exact hX (abs_eq_zero.mp hab)
  have hb : Cbrt.Bd 60 y := by
    refine bd_of rfl ?_ ?_
    · rw [hab]
      have : f32.magVal ℝ 1 ≤ f32.magVal ℝ (f32.mag x) := f32.magValR_le_iff.mpr (by omega)
      refine le_trans (le_of_eq ?_) this
      have h1 : f32.magVal ℚ 1 = 2 ^ (-149 : ℤ) := by decide +kernel
      rw [← f32.magVal_cast, h1]; push_cast; rfl
    · rw [hab, show (128 : ℤ) = (f32.bias : ℤ) + 1 by decide, ← f32.magValR_infRep]
      exact f32.magValR_le_iff.mpr hfin.le
  have hya : 0 < |y| := abs_pos.mpr hy
  unfold cbrtf
  simp only [mag32]
  rw [if_neg (by omega)]
  by_cases hsub : f32.mag x < 0x00800000
  · rw [if_pos hsub, if_neg hm0]
    have g24 : GFv f32 x1p24 (2 ^ 24) := (GFv.const (q := 2 ^ 24) (by decide +kernel) (by decide +kernel)).cast (by push_cast; rfl)
    have hsm : |y ^ 3| < 2 ^ (-126 : ℤ) := by
      rw [hab]
      have : f32.magVal ℝ (f32.mag x) < f32.magVal ℝ 0x00800000 := f32.magValR_lt_iff.mpr hsub
      refine lt_of_lt_of_le this (le_of_eq ?_)
      have h1 : f32.magVal ℚ 0x00800000 = 2 ^ (-126 : ℤ) := by decide +kernel
      rw [← f32.magVal_cast, h1]; push_cast; rfl
    have hmul2 : Mul2 (-149) (y ^ 3) := by
      obtain ⟨m, j, h1, h2, h3, h4⟩ := f32.val_dec x
      rw [← gx.val]
      exact Mul2.mono ⟨m, h1⟩ (le_trans (by decide) h3)
    have gz : GFv f32 (N.mul x x1p24) (y ^ 3 * 2 ^ 24) := by
      refine GFv.of_rounds ⟨by decide, by decide⟩ (gx.mulR N g24) (j := -125) ?_ ?_ (by decide) ?_
      · obtain ⟨k, hk⟩ := hmul2
        refine ⟨k, ?_⟩
        rw [hk, mul_assoc, show (2 : ℝ) ^ 24 = 2 ^ (24 : ℤ) by norm_cast, ← zpow_add₀ (by norm_num)]
        norm_num
      · rw [abs_mul, abs_of_pos (by positivity : (0 : ℝ) < 2 ^ 24)]
        have : (2 : ℝ) ^ ((-125 : ℤ) + f32.s + 1) = 2 ^ (-125 : ℤ) * 2 ^ 24 := by
          rw [show (2 : ℝ) ^ 24 = 2 ^ (24 : ℤ) by norm_cast, ← zpow_add₀ (by norm_num)]; congr 1
        rw [this]
        refine mul_le_mul_of_nonneg_right (hsm.le.trans (zpow_le_zpow_right₀ (by norm_num) (by norm_num))) (by positivity)
      · rw [abs_mul, abs_of_pos (by positivity : (0 : ℝ) < 2 ^ 24)]
        have : |y ^ 3| ≤ 1 := hsm.le.trans (by norm_num)
        have h24 : (2 : ℝ) ^ 24 ≤ 2 ^ (100 : ℤ) := by norm_num
        nlinarith
    have hza := gz.abs_eq
    have hzs : f32.sign (N.mul x x1p24) = f32.sign x := by
      have := ((N.mul_spec x x1p24).1 gx.fin g24.fin).2
      rw [this, show f32.sign x1p24 = false by decide +kernel]
      simp
    have hzf : f32.mag (N.mul x x1p24) < f32.infRep := gz.fin
    have hz23 : 2 ^ 23 ≤ f32.mag (N.mul x x1p24) := by
      rw [← f32.magValR_le_iff, ← hza, abs_mul, abs_of_pos (by positivity : (0 : ℝ) < 2 ^ 24)]
      have h1 : f32.magVal ℚ (2 ^ 23) = 2 ^ (-126 : ℤ) := by decide +kernel
      rw [← f32.magVal_cast, h1, hab]
      have h3 : f32.magVal ℝ 1 ≤ f32.magVal ℝ (f32.mag x) := f32.magValR_le_iff.mpr (by omega)
      have h2 : f32.magVal ℚ 1 = 2 ^ (-149 : ℤ) := by decide +kernel
      rw [← f32.magVal_cast, h2] at h3
      push_cast at h3 ⊢
      have h4 : (2 : ℝ) ^ (-126 : ℤ) ≤ 2 ^ (-149 : ℤ) * 2 ^ 24 := by
        rw [show (2 : ℝ) ^ 24 = 2 ^ (24 : ℤ) by norm_cast, ← zpow_add₀ (by norm_num)]
        exact zpow_le_zpow_right₀ (by norm_num) (by norm_num)
      exact h4.trans (mul_le_mul_of_nonneg_right h3 (by positivity))
    have hlt := (N.mul x x1p24).isLt
    generalize N.mul x x1p24 = z at *
    have hB : f32.mag z / 3 + B2 < 2 ^ 32 := by unfold B2; omega
    unfold Log.u32C
    rw [if_pos hB, ok_bind]
    have hg := Cbrt.guess (n := f32.mag z) (j := 8) hz23 (by norm_num) hya (by
      rw [← hza, abs_mul, abs_pow, abs_of_pos (by positivity : (0 : ℝ) < 2 ^ 24)])
    rw [show f32.mag z / 3 + 709958130 - 8 * 2 ^ 23 = f32.mag z / 3 + B2 by unfold B2; omega, abs_abs] at hg
    obtain ⟨T, e1, e2⟩ := main_spec N64 C gx hb hlt (by rw [sign32, hzs]) (show f32.mag z / 3 + B2 < f32.infRep by unfold B2; omega) hg
    exact ⟨_, T, rfl, e1, e2⟩
  · rw [if_neg hsub]
    have hlt := x.isLt
    have hB : f32.mag x / 3 + B1 < 2 ^ 32 := by unfold B1; omega
    unfold Log.u32C
    rw [if_pos hB, ok_bind]
    have hg := Cbrt.guess (n := f32.mag x) (j := 0) (by omega) (by norm_num) hya (by
      rw [← hab, abs_pow]; norm_num)
    rw [show f32.mag x / 3 + 709958130 - 0 * 2 ^ 23 = f32.mag x / 3 + B1 by unfold B1; omega, abs_abs] at hg
    obtain ⟨T, e1, e2⟩ := main_spec N64 C gx hb hlt (sign32 x) (show f32.mag x / 3 + B1 < f32.infRep by unfold B1; omega) hg
    exact ⟨_, T, rfl, e1, e2⟩

end Cbrtf
end Verif
