import Verif.Libm.ErfAcc
/-! # Property C107: the accuracy of `erf` around zero -/
namespace Verif.Props
open Fmt

/-- C107: for `2^-28 ≤ |x| < 0.84375` `erf(x)` is within `2.1 * 2^-53` of the real error function `2/√π ∫_0^x exp(-t²) dt` relatively. -/
theorem C107_erf_accuracy (N : FPU f64) {x : BitVec f64.w} (hx : f64.IsFin x) (h0 : 1 / 2 ^ 28 ≤ |f64.val x|) (h1 : |f64.val x| < 0.84375) :
    ∃ r, Erf.erf N x = .ok r ∧ f64.IsFin r ∧
      |((f64.val r : ℚ) : ℝ) - 2 / √Real.pi * ∫ t in (0 : ℝ)..((f64.val x : ℚ) : ℝ), Real.exp (-t ^ 2)| ≤
        2.1 / 2 ^ 53 * |2 / √Real.pi * ∫ t in (0 : ℝ)..((f64.val x : ℚ) : ℝ), Real.exp (-t ^ 2)| := by
  have hv : GFv f64 x ((f64.val x : ℚ) : ℝ) := ⟨hx, (f64.valK_cast x).symm⟩
  have h0' : (1 : ℝ) / 2 ^ 28 ≤ |((f64.val x : ℚ) : ℝ)| := by
    have : ((1 / 2 ^ 28 : ℚ) : ℝ) ≤ ((|f64.val x| : ℚ) : ℝ) := Rat.cast_le.mpr h0
    push_cast at this; exact this
  have h1' : |((f64.val x : ℚ) : ℝ)| < 27 / 32 := by
    have : ((|f64.val x| : ℚ) : ℝ) < ((0.84375 : ℚ) : ℝ) := Rat.cast_lt.mpr h1
    push_cast at this; norm_num at this ⊢; exact this
  obtain ⟨r, R, e, g, a⟩ := Erf.erf_mid N hv h0' h1'
  rw [← g.valQ] at a
  exact ⟨r, e, g.fin, a⟩

-- `x = 0.5` and the smallest number of the range, `-2^-28`
example : f64.IsFin 0x3fe0000000000000#f64.w ∧ 1 / 2 ^ 28 ≤ |f64.val 0x3fe0000000000000#f64.w| ∧ |f64.val 0x3fe0000000000000#f64.w| < 0.84375 := by
  unfold Fmt.IsFin; decide +kernel
example : f64.IsFin 0xbe30000000000000#f64.w ∧ 1 / 2 ^ 28 ≤ |f64.val 0xbe30000000000000#f64.w| ∧ |f64.val 0xbe30000000000000#f64.w| < 0.84375 := by
  unfold Fmt.IsFin; decide +kernel

end Verif.Props
