import Verif.Libm.Fmod
import Verif.Props.LibmScalbn
import Verif.Props.LibmParts
/-! # Property C39: fmod -/
namespace Verif.Props
open Fmt

/-- a ratio of multiples of the smallest subnormal, truncated toward zero -/
theorem towardZero_ratio (F : Fmt) (x y : BitVec F.w) :
    towardZero (F.val x / F.val y) =
      (if F.sign x = F.sign y then (1 : ℤ) else -1) * ((F.valU (F.mag x) / F.valU (F.mag y) : Nat) : ℤ) := by
  have hu := (F.ulp0_pos ℚ).ne'
  have hfl : ⌊(F.valU (F.mag x) : ℚ) / F.valU (F.mag y)⌋ = ((F.valU (F.mag x) / F.valU (F.mag y) : Nat) : ℤ) := by
    rw [Rat.floor_natCast_div_natCast, Int.natCast_div]
  have h0 : (0 : ℚ) ≤ (F.valU (F.mag x) : ℚ) / F.valU (F.mag y) := by positivity
  rw [F.val_sign, F.val_sign, F.magVal_eq, F.magVal_eq]
  unfold towardZero
  have key : ∀ a b : ℚ, a * ((F.valU (F.mag x) : ℚ) * F.ulp0 ℚ) / (b * ((F.valU (F.mag y) : ℚ) * F.ulp0 ℚ)) =
      a / b * ((F.valU (F.mag x) : ℚ) / F.valU (F.mag y)) := by
    intro a b
    rw [← mul_assoc, ← mul_assoc, mul_div_mul_right _ _ hu, mul_div_mul_comm]
  rw [key]
  generalize hq : (F.valU (F.mag x) : ℚ) / F.valU (F.mag y) = q at *
  cases F.sign x <;> cases F.sign y <;> simp only [Bool.false_eq_true, if_true, if_false, reduceCtorEq, div_one, one_mul,
    div_neg, neg_mul, _root_.neg_neg, not_lt.mpr h0, hfl]
  all_goals
    rw [Int.ceil_neg, Int.floor_neg, hfl]
    rcases h0.lt_or_eq with h | h
    · rw [if_pos (by linarith)]
    · rw [if_neg (by linarith), ← hfl, ← h]; simp

/-- C39: `fmod` on a finite dividend and a finite non-zero divisor is exactly `x - y * trunc(x / y)`, with the sign of
`x` and magnitude below that of `y`. -/
theorem C39_fmod_finite (F : Fmt) (N : FPU F) {O : DOps F.w} (hO : O.Lawful) {x y : BitVec F.w} (hx : F.IsFin x)
    (hy : F.IsFin y) (hz : ¬ F.IsZero y) :
    ∃ r, F.fmod N O x y = .ok r ∧ F.IsFin r ∧ F.sign r = F.sign x ∧ |F.val r| < |F.val y| ∧
      F.val r = F.val x - F.val y * towardZero (F.val x / F.val y) := by
  obtain ⟨r, h1, h2, h3, h4⟩ := F.fmod_fin N hO hx hy hz
  have hu := F.ulp0_pos ℚ
  have hY : 0 < F.valU (F.mag y) := by
    have := F.valU_lt_iff.mpr (Nat.pos_of_ne_zero hz); rwa [F.valU_zero] at this
  have habs : ∀ b : BitVec F.w, |F.val b| = F.valU (F.mag b) * F.ulp0 ℚ := by
    intro b
    have h0 := F.magVal_nonneg ℚ (F.mag b)
    rw [← F.magVal_eq, F.val_sign]
    split <;> simp [abs_of_nonneg h0]
  refine ⟨r, h1, h3, h2, ?_, ?_⟩
  · rw [habs, habs, h4]
    exact mul_lt_mul_of_pos_right (by exact_mod_cast Nat.mod_lt _ hY) hu
  · rw [towardZero_ratio, F.val_sign r, F.val_sign x, F.val_sign y, h2, F.magVal_eq, F.magVal_eq, F.magVal_eq, h4]
    have hdm := Nat.div_add_mod (F.valU (F.mag x)) (F.valU (F.mag y))
    have hdm' : (F.valU (F.mag y) : ℚ) * (F.valU (F.mag x) / F.valU (F.mag y) : Nat) +
      (F.valU (F.mag x) % F.valU (F.mag y) : Nat) = F.valU (F.mag x) := by exact_mod_cast hdm
    rw [← hdm']
    generalize (F.valU (F.mag x) / F.valU (F.mag y) : Nat) = q
    generalize (F.valU (F.mag x) % F.valU (F.mag y) : Nat) = t
    cases F.sign x <;> cases F.sign y <;> simp <;> ring
-- 2^127 mod 3 = 2; -5.5 mod 2 = -1.5
example : f32.fmod FPU.softF32 (DOps.prim f32.w) 0x7F000000#f32.w 0x40400000#f32.w = .ok 0x40000000#f32.w ∧
    f32.fmod FPU.softF32 (DOps.prim f32.w) 0xC0B00000#f32.w 0x40000000#f32.w = .ok 0xBFC00000#f32.w := by decide +kernel
example : (DOps.prim f64.w).Lawful ∧ (DOps.wide 64 : DOps f128.w).Lawful :=
  ⟨DOps.prim_lawful _, DOps.wide_lawful (g := 64) (k := 6) rfl⟩

/-- C39: `fmod` is NaN if `x` is infinite or NaN, or `y` is zero or NaN; `fmod(x, ±inf) = x` for finite `x`. -/
theorem C39_fmod_special (F : Fmt) (N : FPU F) (O : DOps F.w) (x y : BitVec F.w) :
    (F.IsInf x ∨ F.IsNaN x ∨ F.IsNaN y ∨ F.IsZero y → ∃ r, F.fmod N O x y = .ok r ∧ F.IsNaN r) ∧
    (F.IsFin x → F.IsInf y → F.fmod N O x y = .ok x) := by
  refine ⟨fun h => (F.fmod_special N x y).1 ?_, (F.fmod_special N x y).2⟩
  rcases h with h | h | h
  · left; unfold IsFin; unfold IsInf at h; omega
  · left; unfold IsFin; unfold IsNaN at h; omega
  · exact Or.inr h
example : f32.fmod FPU.softF32 (DOps.prim f32.w) 0x40400000#f32.w 0xFF800000#f32.w = .ok 0x40400000#f32.w := by
  decide +kernel

end Verif.Props
