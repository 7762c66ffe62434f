import Verif.Libm.Scalbn
/-! # Property C42: scalbn / ldexp -/
namespace Verif.Props
open Fmt

/-- the formats of the crate -/
def Std (F : Fmt) : Prop := F = f16 ∨ F = f32 ∨ F = f64 ∨ F = f128

theorem Std.cond {F : Fmt} (h : Std F) : F.w > 16 → 3 * F.s + 6 ≤ F.bias := by
  rcases h with rfl | rfl | rfl | rfl <;> decide +kernel

/-- C42: `scalbn x n` is `x * 2^n` rounded once, for every finite `x` and every `i32` exponent, with the sign of `x`. -/
theorem C42_scalbn_finite {F : Fmt} (hF : Std F) (N : FPU F) {x : BitVec F.w} (hx : F.IsFin x) (n : Int)
    (hn : -2 ^ 31 ≤ n) (hn' : n < 2 ^ 31) :
    ∃ r, F.scalbn N x n = .ok r ∧ F.Rounds (F.val x * 2 ^ n) r ∧ F.sign r = F.sign x := by
  obtain ⟨r, h1, h2, h3⟩ := F.scalbn_fin N hF.cond hn hn' hx
  have h0 := F.magVal_nonneg ℚ (F.mag x)
  have hp : (0 : ℚ) < 2 ^ n := by positivity
  refine ⟨r, h1, ⟨?_, fun hne => ?_⟩, h2⟩
  · have e : |F.val x * 2 ^ n| = F.magVal ℚ (F.mag x) * 2 ^ n := by
      rw [F.val_sign, abs_mul, abs_mul, abs_of_nonneg h0, abs_of_pos hp]
      split <;> simp
    rw [e]; exact h3
  · have h1 : 0 < F.magVal ℚ (F.mag x) := by
      rcases h0.lt_or_eq with h | h
      · exact h
      · exfalso; apply hne; rw [F.val_sign, ← h]; simp
    rw [h2, F.val_sign]
    have h3 := mul_pos h1 hp
    cases F.sign x
    · simp only [Bool.false_eq_true, if_false, one_mul, false_iff]; linarith
    · simp only [if_true, neg_mul, one_mul, true_iff]; linarith
-- 1.5 * 2^-149 rounds to the even 2 * 2^-149; 2^-149 * 2^276 = 2^127; overflow; f16
example : f32.scalbn FPU.softF32 0x3FC00000#f32.w (-149) = .ok 2#f32.w ∧
    f32.scalbn FPU.softF32 1#f32.w 276 = .ok 0x7F000000#f32.w ∧
    f32.scalbn FPU.softF32 0xBF800000#f32.w 2000000000 = .ok 0xFF800000#f32.w ∧
    f32.scalbn FPU.softF32 0x7F7FFFFF#f32.w (-277) = .ok 1#f32.w := by decide +kernel
example : Std f16 ∧ f16.IsFin 0x7BFF#f16.w := ⟨Or.inl rfl, by unfold IsFin; decide +kernel⟩

/-- C42: infinities are returned unchanged, NaN gives NaN. -/
theorem C42_scalbn_special {F : Fmt} (hF : Std F) (N : FPU F) (x : BitVec F.w) (n : Int) (hn : -2 ^ 31 ≤ n)
    (hn' : n < 2 ^ 31) :
    (F.IsInf x → F.scalbn N x n = .ok x) ∧ (F.IsNaN x → ∃ r, F.scalbn N x n = .ok r ∧ F.IsNaN r) := by
  refine ⟨fun h => ?_, fun h => F.scalbn_nan N hF.cond hn hn' h⟩
  obtain ⟨r, h1, rfl⟩ := F.scalbn_inf N hF.cond hn hn' h
  exact h1
example : f32.scalbn FPU.softF32 0xFF800000#f32.w (-2147483648) = .ok 0xFF800000#f32.w := by decide +kernel

end Verif.Props
