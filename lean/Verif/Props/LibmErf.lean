import Verif.Libm.ErfMain
/-! # Property C105: `erf` and `erfc` -/
namespace Verif.Props
open Fmt

/-- C105: `erf` of a finite number is finite, in `[-1, 1]`, of the sign of `x`, and exactly `±1` for `|x| ≥ 6`. -/
theorem C105_erf_range (N : FPU f64) {x : BitVec f64.w} (hx : f64.IsFin x) :
    ∃ r, Erf.erf N x = .ok r ∧ f64.IsFin r ∧ |f64.val r| ≤ 1 ∧ (0 ≤ f64.val x → 0 ≤ f64.val r) ∧ (f64.val x ≤ 0 → f64.val r ≤ 0) ∧
      (6 ≤ f64.val x → f64.val r = 1) ∧ (f64.val x ≤ -6 → f64.val r = -1) := by
  have hv : GFv f64 x ((f64.val x : ℚ) : ℝ) := ⟨hx, (f64.valK_cast x).symm⟩
  obtain ⟨r, R, e, -, g, b1, b2, b3, b4⟩ := Erf.erf_spec N hv
  rw [← g.valQ] at b1 b2 b3
  refine ⟨r, e, g.fin, by exact_mod_cast b1, fun h => by exact_mod_cast b2 (by exact_mod_cast h), fun h => by exact_mod_cast b3 (by exact_mod_cast h),
    fun h => ?_, fun h => ?_⟩
  · have h' : (6 : ℝ) ≤ ((f64.val x : ℚ) : ℝ) := by exact_mod_cast h
    rw [b4 (by rw [abs_of_nonneg (by linarith)]; exact h'), if_neg (by rw [hv.sign_of_pos (by linarith)]; simp)]
    decide +kernel
  · have h' : ((f64.val x : ℚ) : ℝ) ≤ -6 := by exact_mod_cast h
    have hs : f64.sign x = true := by
      by_contra hc
      have := hv.nonneg (by simpa using hc)
      linarith
    rw [b4 (by rw [abs_of_nonpos (by linarith)]; linarith), if_pos hs]
    decide +kernel

/-- C105: `erf` is odd, bit by bit, on all arguments but the NaNs: zeros, subnormals and infinities included. -/
theorem C105_erf_odd (N : FPU f64) {x : BitVec f64.w} (hx : ¬ f64.IsNaN x) :
    ∃ r, Erf.erf N x = .ok r ∧ ¬ f64.IsNaN r ∧ Erf.erf N (f64.neg x) = .ok (f64.neg r) := by
  by_cases hf : f64.IsFin x
  · obtain ⟨r, R, e, e', g, -⟩ := Erf.erf_spec N (GFv.self hf)
    exact ⟨r, e, by have := g.fin; unfold IsNaN IsFin at *; omega, e'⟩
  · have hi : f64.IsInf x := by unfold IsNaN IsFin IsInf at *; omega
    refine ⟨_, Erf.erf_inf N hi, ?_, ?_⟩
    · cases f64.sign x <;> unfold IsNaN <;> decide +kernel
    · rw [Erf.erf_inf N (f64.isInf_neg.mpr hi), f64.sign_neg]
      cases f64.sign x
      · rfl
      · simp [f64.neg_neg]

/-- C105: `erf(NaN)` is a NaN, `erf(±∞) = ±1`, `erf(±0) = ±0`. -/
theorem C105_erf_special (N : FPU f64) (x : BitVec f64.w) :
    (f64.IsNaN x → ∃ r, Erf.erf N x = .ok r ∧ f64.IsNaN r) ∧
    (f64.IsInf x → Erf.erf N x = .ok (if f64.sign x then 0xbff0000000000000#f64.w else 0x3ff0000000000000#f64.w)) ∧
    (f64.IsZero x → Erf.erf N x = .ok x) := by
  refine ⟨Erf.erf_nan N, fun h => ?_, fun h => ?_⟩
  · rw [Erf.erf_inf N h]
    cases f64.sign x <;> exact congrArg Except.ok (by decide +kernel)
  · have hz : Erf.erf N 0#f64.w = .ok 0#f64.w := by
      rw [Erf.erf_eq, if_neg (by decide +kernel), if_pos (by decide +kernel), if_pos (by decide +kernel)]
      rw [(Erf.mulC N (a := Erf.eight) (b := 0#f64.w) (by unfold IsNaN; decide +kernel)).trans (show _ = 0#f64.w by decide +kernel),
        (Erf.mulC N (a := Erf.EFX8) (b := 0#f64.w) (by unfold IsNaN; decide +kernel)).trans (show _ = 0#f64.w by decide +kernel),
        (Erf.addC N (a := 0#f64.w) (b := 0#f64.w) (by unfold IsNaN; decide +kernel)).trans (show _ = 0#f64.w by decide +kernel),
        (Erf.mulC N (a := Erf.eighth) (b := 0#f64.w) (by unfold IsNaN; decide +kernel)).trans (show _ = 0#f64.w by decide +kernel)]
    unfold IsZero at h
    cases hs : f64.sign x
    · rw [f64.ext_sign_mag (a := x) (b := 0#f64.w) (hs.trans (by decide +kernel)) (h.trans (by decide +kernel))]
      exact hz
    · rw [f64.ext_sign_mag (a := x) (b := f64.neg 0#f64.w) (hs.trans (by decide +kernel)) (h.trans (by decide +kernel))]
      obtain ⟨r, e, -, e'⟩ := C105_erf_odd N (x := 0#f64.w) (by unfold IsNaN; decide +kernel)
      rw [hz] at e
      rw [e', ← Except.ok.inj e]

/-- C105: `erfc` of a finite number is finite, in `[0, 1]` for `x ≥ 0` and in `[1, 2]` for `x ≤ 0`, exactly `+0` for `x ≥ 28` and `2` for
`x ≤ -28`. -/
theorem C105_erfc_range (N : FPU f64) {x : BitVec f64.w} (hx : f64.IsFin x) :
    ∃ r, Erf.erfc N x = .ok r ∧ f64.IsFin r ∧ 0 ≤ f64.val r ∧ f64.val r ≤ 2 ∧ (0 ≤ f64.val x → f64.val r ≤ 1) ∧ (f64.val x ≤ 0 → 1 ≤ f64.val r) ∧
      (28 ≤ f64.val x → r = 0#f64.w) ∧ (f64.val x ≤ -28 → f64.val r = 2) := by
  have hv : GFv f64 x ((f64.val x : ℚ) : ℝ) := ⟨hx, (f64.valK_cast x).symm⟩
  obtain ⟨r, R, e, g, b0, b1, b2, b3, b4⟩ := Erf.erfc_spec N hv
  rw [← g.valQ] at b0 b1 b2 b3
  refine ⟨r, e, g.fin, by exact_mod_cast b0, by exact_mod_cast b1, fun h => by exact_mod_cast b2 (by exact_mod_cast h),
    fun h => by exact_mod_cast b3 (by exact_mod_cast h), fun h => ?_, fun h => ?_⟩
  · have h' : (28 : ℝ) ≤ ((f64.val x : ℚ) : ℝ) := by exact_mod_cast h
    rw [b4 (by rw [abs_of_nonneg (by linarith)]; exact h'), if_neg (by rw [hv.sign_of_pos (by linarith)]; simp)]
  · have h' : ((f64.val x : ℚ) : ℝ) ≤ -28 := by exact_mod_cast h
    have hs : f64.sign x = true := by
      by_contra hc
      have := hv.nonneg (by simpa using hc)
      linarith
    rw [b4 (by rw [abs_of_nonpos (by linarith)]; linarith), if_pos hs]
    decide +kernel

/-- C105: `erfc(NaN)` is a NaN, `erfc(+∞) = +0`, `erfc(-∞) = 2`, `erfc(±0) = 1`. -/
theorem C105_erfc_special (N : FPU f64) (x : BitVec f64.w) :
    (f64.IsNaN x → ∃ r, Erf.erfc N x = .ok r ∧ f64.IsNaN r) ∧
    (f64.IsInf x → Erf.erfc N x = .ok (if f64.sign x then 0x4000000000000000#f64.w else 0#f64.w)) ∧
    (f64.IsZero x → ∃ r, Erf.erfc N x = .ok r ∧ f64.val r = 1) := by
  refine ⟨Erf.erfc_nan N, fun h => Erf.erfc_inf N h, fun h => ?_⟩
  have hf : f64.IsFin x := by unfold IsZero at h; unfold IsFin; rw [h]; decide +kernel
  have h0 : f64.val x = 0 := by
    unfold IsZero at h
    unfold Fmt.val Fmt.valK; rw [h, show f64.magVal ℚ 0 = 0 by decide +kernel]; simp
  obtain ⟨r, e, -, -, -, a, b, -⟩ := C105_erfc_range N hf
  exact ⟨r, e, le_antisymm (a h0.ge) (b h0.le)⟩

-- the smallest subnormal, a number of each branch, and infinity
example : f64.IsFin 1#f64.w ∧ f64.IsFin 0x3fe0000000000000#f64.w ∧ f64.IsFin 0xc004000000000000#f64.w ∧ f64.IsFin 0x4020000000000000#f64.w ∧
    f64.IsInf 0xfff0000000000000#f64.w := by unfold Fmt.IsFin Fmt.IsInf; decide +kernel
-- `erf(0.5) = 0.5204998778130465`
example : Erf.erf FPU.softF64 0x3fe0000000000000#f64.w = .ok 0x3fe0a7ef5c18edd2#f64.w := by decide +kernel
-- `8 ≥ 6` and `erf(8) = 1`; `erfc(32) = +0`
example : 6 ≤ f64.val 0x4020000000000000#f64.w ∧ Erf.erf FPU.softF64 0x4020000000000000#f64.w = .ok 0x3ff0000000000000#f64.w := by decide +kernel
example : 28 ≤ f64.val 0x4040000000000000#f64.w ∧ Erf.erfc FPU.softF64 0x4040000000000000#f64.w = .ok 0#f64.w := by decide +kernel
-- `erfc(-0.5) = 1.5204998778130465`
example : Erf.erfc FPU.softF64 0xbfe0000000000000#f64.w = .ok 0x3ff853f7ae0c76e9#f64.w := by decide +kernel

end Verif.Props
