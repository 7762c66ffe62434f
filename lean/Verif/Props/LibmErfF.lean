import Verif.Libm.ErfFMain
/-! # Property C106: `erff` and `erfcf` -/
namespace Verif.Props
open Fmt

/-- C106: `erff` of a finite number is finite, in `[-1, 1]`, of the sign of `x`, and exactly `±1` for `|x| ≥ 6`. -/
theorem C106_erff_range (N : FPU f32) {x : BitVec f32.w} (hx : f32.IsFin x) :
    ∃ r, ErfF.erff N x = .ok r ∧ f32.IsFin r ∧ |f32.val r| ≤ 1 ∧ (0 ≤ f32.val x → 0 ≤ f32.val r) ∧ (f32.val x ≤ 0 → f32.val r ≤ 0) ∧
      (6 ≤ f32.val x → f32.val r = 1) ∧ (f32.val x ≤ -6 → f32.val r = -1) := by
  have hv : GFv f32 x ((f32.val x : ℚ) : ℝ) := ⟨hx, (f32.valK_cast x).symm⟩
  obtain ⟨r, R, e, -, g, b1, b2, b3, b4⟩ := ErfF.erf_spec N hv
  rw [← g.valQ] at b1 b2 b3
  refine ⟨r, e, g.fin, by exact_mod_cast b1, fun h => by exact_mod_cast b2 (by exact_mod_cast h), fun h => by exact_mod_cast b3 (by exact_mod_cast h),
    fun h => ?_, fun h => ?_⟩
  · have h' : (6 : ℝ) ≤ ((f32.val x : ℚ) : ℝ) := by exact_mod_cast h
    rw [b4 (by rw [abs_of_nonneg (by linarith)]; exact h'), if_neg (by rw [hv.sign_of_pos (by linarith)]; simp)]
    decide +kernel
  · have h' : ((f32.val x : ℚ) : ℝ) ≤ -6 := by exact_mod_cast h
    have hs : f32.sign x = true := by
      by_contra hc
      have := hv.nonneg (by simpa using hc)
      linarith
    rw [b4 (by rw [abs_of_nonpos (by linarith)]; linarith), if_pos hs]
    decide +kernel

/-- C106: `erff` is odd, bit by bit, on all arguments but the NaNs: zeros, subnormals and infinities included. -/
theorem C106_erff_odd (N : FPU f32) {x : BitVec f32.w} (hx : ¬ f32.IsNaN x) :
    ∃ r, ErfF.erff N x = .ok r ∧ ¬ f32.IsNaN r ∧ ErfF.erff N (f32.neg x) = .ok (f32.neg r) := by
  by_cases hf : f32.IsFin x
  · obtain ⟨r, R, e, e', g, -⟩ := ErfF.erf_spec N (GFv.self hf)
    exact ⟨r, e, by have := g.fin; unfold IsNaN IsFin at *; omega, e'⟩
  · have hi : f32.IsInf x := by unfold IsNaN IsFin IsInf at *; omega
    refine ⟨_, ErfF.erf_inf N hi, ?_, ?_⟩
    · cases f32.sign x <;> unfold IsNaN <;> decide +kernel
    · rw [ErfF.erf_inf N (f32.isInf_neg.mpr hi), f32.sign_neg]
      cases f32.sign x
      · rfl
      · simp [f32.neg_neg]

/-- C106: `erff(NaN)` is a NaN, `erff(±∞) = ±1`, `erff(±0) = ±0`. -/
theorem C106_erff_special (N : FPU f32) (x : BitVec f32.w) :
    (f32.IsNaN x → ∃ r, ErfF.erff N x = .ok r ∧ f32.IsNaN r) ∧
    (f32.IsInf x → ErfF.erff N x = .ok (if f32.sign x then 0xbf800000#f32.w else 0x3f800000#f32.w)) ∧
    (f32.IsZero x → ErfF.erff N x = .ok x) := by
  refine ⟨ErfF.erf_nan N, fun h => ?_, fun h => ?_⟩
  · rw [ErfF.erf_inf N h]
    cases f32.sign x <;> exact congrArg Except.ok (by decide +kernel)
  · have hz : ErfF.erff N 0#f32.w = .ok 0#f32.w := by
      rw [ErfF.erf_eq, if_neg (by decide +kernel), if_pos (by decide +kernel), if_pos (by decide +kernel)]
      rw [(ErfF.mulC N (a := ErfF.eight) (b := 0#f32.w) (by unfold IsNaN; decide +kernel)).trans (show _ = 0#f32.w by decide +kernel),
        (ErfF.mulC N (a := ErfF.EFX8) (b := 0#f32.w) (by unfold IsNaN; decide +kernel)).trans (show _ = 0#f32.w by decide +kernel),
        (ErfF.addC N (a := 0#f32.w) (b := 0#f32.w) (by unfold IsNaN; decide +kernel)).trans (show _ = 0#f32.w by decide +kernel),
        (ErfF.mulC N (a := ErfF.eighth) (b := 0#f32.w) (by unfold IsNaN; decide +kernel)).trans (show _ = 0#f32.w by decide +kernel)]
    unfold IsZero at h
    cases hs : f32.sign x
    · rw [f32.ext_sign_mag (a := x) (b := 0#f32.w) (hs.trans (by decide +kernel)) (h.trans (by decide +kernel))]
      exact hz
    · rw [f32.ext_sign_mag (a := x) (b := f32.neg 0#f32.w) (hs.trans (by decide +kernel)) (h.trans (by decide +kernel))]
      obtain ⟨r, e, -, e'⟩ := C106_erff_odd N (x := 0#f32.w) (by unfold IsNaN; decide +kernel)
      rw [hz] at e
      rw [e', ← Except.ok.inj e]

/-- C106: `erfcf` of a finite number is finite, in `[0, 1]` for `x ≥ 0` and in `[1, 2]` for `x ≤ 0`, exactly `+0` for `x ≥ 28` and `2` for
`x ≤ -28`. -/
theorem C106_erfcf_range (N : FPU f32) {x : BitVec f32.w} (hx : f32.IsFin x) :
    ∃ r, ErfF.erfcf N x = .ok r ∧ f32.IsFin r ∧ 0 ≤ f32.val r ∧ f32.val r ≤ 2 ∧ (0 ≤ f32.val x → f32.val r ≤ 1) ∧ (f32.val x ≤ 0 → 1 ≤ f32.val r) ∧
      (28 ≤ f32.val x → r = 0#f32.w) ∧ (f32.val x ≤ -28 → f32.val r = 2) := by
  have hv : GFv f32 x ((f32.val x : ℚ) : ℝ) := ⟨hx, (f32.valK_cast x).symm⟩
  obtain ⟨r, R, e, g, b0, b1, b2, b3, b4⟩ := ErfF.erfc_spec N hv
  rw [← g.valQ] at b0 b1 b2 b3
  refine ⟨r, e, g.fin, by exact_mod_cast b0, by exact_mod_cast b1, fun h => by exact_mod_cast b2 (by exact_mod_cast h),
    fun h => by exact_mod_cast b3 (by exact_mod_cast h), fun h => ?_, fun h => ?_⟩
  · have h' : (28 : ℝ) ≤ ((f32.val x : ℚ) : ℝ) := by exact_mod_cast h
    rw [b4 (by rw [abs_of_nonneg (by linarith)]; exact h'), if_neg (by rw [hv.sign_of_pos (by linarith)]; simp)]
  · have h' : ((f32.val x : ℚ) : ℝ) ≤ -28 := by exact_mod_cast h
    have hs : f32.sign x = true := by
      by_contra hc
      have := hv.nonneg (by simpa using hc)
      linarith
    rw [b4 (by rw [abs_of_nonpos (by linarith)]; linarith), if_pos hs]
    decide +kernel

/-- C106: `erfcf(NaN)` is a NaN, `erfcf(+∞) = +0`, `erfcf(-∞) = 2`, `erfcf(±0) = 1`. -/
theorem C106_erfcf_special (N : FPU f32) (x : BitVec f32.w) :
    (f32.IsNaN x → ∃ r, ErfF.erfcf N x = .ok r ∧ f32.IsNaN r) ∧
    (f32.IsInf x → ErfF.erfcf N x = .ok (if f32.sign x then 0x40000000#f32.w else 0#f32.w)) ∧
    (f32.IsZero x → ∃ r, ErfF.erfcf N x = .ok r ∧ f32.val r = 1) := by
  refine ⟨ErfF.erfc_nan N, fun h => ErfF.erfc_inf N h, fun h => ?_⟩
  have hf : f32.IsFin x := by unfold IsZero at h; unfold IsFin; rw [h]; decide +kernel
  have h0 : f32.val x = 0 := by
    unfold IsZero at h
    unfold Fmt.val Fmt.valK; rw [h, show f32.magVal ℚ 0 = 0 by decide +kernel]; simp
  obtain ⟨r, e, -, -, -, a, b, -⟩ := C106_erfcf_range N hf
  exact ⟨r, e, le_antisymm (a h0.ge) (b h0.le)⟩

-- the smallest subnormal, a number of each branch, and infinity
example : f32.IsFin 1#f32.w ∧ f32.IsFin 0x3f000000#f32.w ∧ f32.IsFin 0xc0200000#f32.w ∧ f32.IsFin 0x41000000#f32.w ∧
    f32.IsInf 0xff800000#f32.w := by unfold Fmt.IsFin Fmt.IsInf; decide +kernel
-- `erff(0.5) = 0.5204999`
example : ErfF.erff FPU.softF32 0x3f000000#f32.w = .ok 0x3f053f7b#f32.w := by decide +kernel
-- `8 ≥ 6` and `erff(8) = 1`; `erfcf(32) = +0`
example : 6 ≤ f32.val 0x41000000#f32.w ∧ ErfF.erff FPU.softF32 0x41000000#f32.w = .ok 0x3f800000#f32.w := by decide +kernel
example : 28 ≤ f32.val 0x42000000#f32.w ∧ ErfF.erfcf FPU.softF32 0x42000000#f32.w = .ok 0#f32.w := by decide +kernel
-- `erfcf(-0.5) = 1.5204999`
example : ErfF.erfcf FPU.softF32 0xbf000000#f32.w = .ok 0x3fc29fbe#f32.w := by decide +kernel

end Verif.Props
