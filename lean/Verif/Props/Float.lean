import Verif.Float.CmpProofs
/-!
# Properties C23 - C25: soft-float comparison, addition, subtraction

All theorems hold for every format `F : Fmt`; `f16`, `f32`, `f64`, `f128` are instances.
The specification (`Fmt.val`, `Fmt.extVal`, `Fmt.Rounds`) is in `Verif/Float/Spec.lean`.
-/
namespace Verif.Props
open Fmt

/-! ## C23 -/

/-- `__le*2`, `__lt*2`, `__eq*2`, `__ne*2`: for operands that are not NaN the result is `-1`, `0`, `1` as the first
operand is less than, equal to or greater than the second. -/
theorem C23_le_family (F : Fmt) {a b : BitVec F.w} (ha : ¬ F.IsNaN a) (hb : ¬ F.IsNaN b) :
    (F.le2 a b < 0 ↔ F.extVal a < F.extVal b) ∧
    (F.le2 a b = 0 ↔ F.extVal a = F.extVal b) ∧
    (F.le2 a b > 0 ↔ F.extVal b < F.extVal a) ∧
    F.lt2 a b = F.le2 a b ∧ F.eq2 a b = F.le2 a b ∧ F.ne2 a b = F.le2 a b := by
  have h := F.cmp_spec a b
  have hu : F.cmp a b ≠ .Unordered := by rw [ne_eq, h.1]; tauto
  obtain ⟨h1, h2, h3⟩ := h.2 ha hb
  unfold le2 lt2 eq2 ne2
  rw [← h1, ← h2, ← h3]
  cases hc : F.cmp a b <;> simp_all [CmpRes.toDefault]

/-- `__ge*2`, `__gt*2`, likewise. -/
theorem C23_ge_family (F : Fmt) {a b : BitVec F.w} (ha : ¬ F.IsNaN a) (hb : ¬ F.IsNaN b) :
    (F.ge2 a b < 0 ↔ F.extVal a < F.extVal b) ∧
    (F.ge2 a b = 0 ↔ F.extVal a = F.extVal b) ∧
    (F.ge2 a b > 0 ↔ F.extVal b < F.extVal a) ∧
    F.gt2 a b = F.ge2 a b := by
  have h := F.cmp_spec a b
  have hu : F.cmp a b ≠ .Unordered := by rw [ne_eq, h.1]; tauto
  obtain ⟨h1, h2, h3⟩ := h.2 ha hb
  unfold ge2 gt2
  rw [← h1, ← h2, ← h3]
  cases hc : F.cmp a b <;> simp_all [CmpRes.toGtGe]

/-- With a NaN operand every ordered predicate is false: `a <= b` is tested as `le2 <= 0`, `a < b` as `lt2 < 0`,
`a == b` as `eq2 == 0`, `a >= b` as `ge2 >= 0`, `a > b` as `gt2 > 0`; and `a != b` (`ne2 != 0`) is true. -/
theorem C23_nan_operand (F : Fmt) {a b : BitVec F.w} (h : F.IsNaN a ∨ F.IsNaN b) :
    ¬ F.le2 a b ≤ 0 ∧ ¬ F.lt2 a b < 0 ∧ ¬ F.eq2 a b = 0 ∧ F.ne2 a b ≠ 0 ∧
    ¬ F.ge2 a b ≥ 0 ∧ ¬ F.gt2 a b > 0 := by
  have h := (F.cmp_spec a b).1.mpr h
  simp [le2, lt2, eq2, ne2, ge2, gt2, h, CmpRes.toDefault, CmpRes.toGtGe]

/-- `__unord*2` is nonzero exactly when an operand is NaN. -/
theorem C23_unord (F : Fmt) (a b : BitVec F.w) :
    F.unord2 a b ≠ 0 ↔ F.IsNaN a ∨ F.IsNaN b := by
  unfold unord2 unord
  rw [← F.abs_gt_inf_iff a, ← F.abs_gt_inf_iff b, ← Bool.decide_or]
  simp only [gt_iff_lt, decide_eq_true_eq]
  split <;> simp_all

/-- The AEABI predicates return 1 exactly when the IEEE predicate holds. -/
theorem C23_aeabi (F : Fmt) (a b : BitVec F.w) :
    (F.aeabiLe a b = if ¬ F.IsNaN a ∧ ¬ F.IsNaN b ∧ F.extVal a ≤ F.extVal b then 1 else 0) ∧
    (F.aeabiGe a b = if ¬ F.IsNaN a ∧ ¬ F.IsNaN b ∧ F.extVal b ≤ F.extVal a then 1 else 0) ∧
    (F.aeabiEq a b = if ¬ F.IsNaN a ∧ ¬ F.IsNaN b ∧ F.extVal a = F.extVal b then 1 else 0) ∧
    (F.aeabiLt a b = if ¬ F.IsNaN a ∧ ¬ F.IsNaN b ∧ F.extVal a < F.extVal b then 1 else 0) ∧
    (F.aeabiGt a b = if ¬ F.IsNaN a ∧ ¬ F.IsNaN b ∧ F.extVal b < F.extVal a then 1 else 0) := by
  unfold aeabiLe aeabiGe aeabiEq aeabiLt aeabiGt
  by_cases ha : F.IsNaN a
  · obtain ⟨h1, h2, h3, h4, h5, h6⟩ := C23_nan_operand F (a := a) (b := b) (Or.inl ha)
    simp [h1, h2, h3, h5, h6, ha]
  by_cases hb : F.IsNaN b
  · obtain ⟨h1, h2, h3, h4, h5, h6⟩ := C23_nan_operand F (a := a) (b := b) (Or.inr hb)
    simp [h1, h2, h3, h5, h6, hb]
  obtain ⟨a1, a2, a3, a4, a5, a6⟩ := C23_le_family F ha hb
  obtain ⟨b1, b2, b3, b4⟩ := C23_ge_family F ha hb
  rw [a4, a5, b4]
  have e1 : F.le2 a b ≤ 0 ↔ F.extVal a ≤ F.extVal b := by rw [← not_lt, ← not_lt, not_iff_not]; exact a3
  have e2 : F.ge2 a b ≥ 0 ↔ F.extVal b ≤ F.extVal a := by
    rw [ge_iff_le, ← not_lt, ← not_lt, not_iff_not]; exact b1
  simp only [e1, e2, a1, a2, b3, ha, hb, not_false_eq_true, true_and, and_self]

-- `1.0 < 2.0`, `-0 = +0`, `-inf < 1.0`, NaN unordered (f32); hypotheses are met
example : ¬ f32.IsNaN 0x3f800000#32 ∧ ¬ f32.IsNaN 0xff800000#32 ∧ f32.IsNaN 0x7fc00000#32 := by
  unfold IsNaN; decide +kernel
example : f32.le2 0x3f800000#32 0x40000000#32 = -1 ∧ f32.le2 0x80000000#32 0#32 = 0 ∧
    f32.ge2 0xff800000#32 0x3f800000#32 = -1 ∧ f32.le2 0x7fc00000#32 0#32 = 1 ∧
    f32.unord2 0x7fc00000#32 0#32 = 1 := by decide +kernel

/-! ## C24 -/

/-- Finite operands: the result is the exact sum, correctly rounded; an exact zero sum has the sign `-`
only if both operands have it. The function does not panic. -/
theorem C24_add_finite (F : Fmt) {a b : BitVec F.w} (ha : F.IsFin a) (hb : F.IsFin b) :
    ∃ r, F.add a b = .ok r ∧ F.Rounds (F.val a + F.val b) r ∧
      (F.val a + F.val b = 0 → F.sign r = (F.sign a && F.sign b)) := F.add_fin ha hb

/-- A NaN operand gives a quiet NaN. -/
theorem C24_add_nan (F : Fmt) {a b : BitVec F.w} (h : F.IsNaN a ∨ F.IsNaN b) :
    ∃ r, F.add a b = .ok r ∧ F.IsQNaN r := F.add_nan h

/-- Infinity plus anything that is not NaN is that infinity, except `inf + -inf`, a quiet NaN. -/
theorem C24_add_inf_left (F : Fmt) {a b : BitVec F.w} (ha : F.IsInf a) (hb : ¬ F.IsNaN b) :
    ∃ r, F.add a b = .ok r ∧ if F.IsInf b ∧ F.sign a ≠ F.sign b then F.IsQNaN r else r = a :=
  F.add_inf_left ha hb

theorem C24_add_inf_right (F : Fmt) {a b : BitVec F.w} (ha : F.IsFin a) (hb : F.IsInf b) :
    F.add a b = .ok b := F.add_inf_right ha hb

-- the hypotheses are met: 1.0 + 2^-24 (a tie, rounds to even); largest + largest overflows; subnormal sum
example : f32.IsFin 0x3f800000#32 ∧ f32.IsFin 0x33800000#32 ∧ f32.IsNaN 0x7f800001#32 ∧
    f32.IsInf 0xff800000#32 := by unfold IsFin IsNaN IsInf; decide +kernel
example : f32.add 0x3f800000#32 0x33800000#32 = .ok 0x3f800000#32 ∧
    f32.add 0x3f800001#32 0x33800000#32 = .ok 0x3f800002#32 ∧
    f32.add 0x7f7fffff#32 0x7f7fffff#32 = .ok 0x7f800000#32 ∧
    f32.add 0x00400000#32 0x00400000#32 = .ok 0x00800000#32 := by decide +kernel

/-! ## C25 -/

theorem C25_sub_finite (F : Fmt) {a b : BitVec F.w} (ha : F.IsFin a) (hb : F.IsFin b) :
    ∃ r, F.sub a b = .ok r ∧ F.Rounds (F.val a - F.val b) r ∧
      (F.val a - F.val b = 0 → F.sign r = (F.sign a && !F.sign b)) := by
  obtain ⟨h1, h2⟩ := F.toNat_xor_signMask b
  have hv : F.val (b ^^^ F.signMask) = - F.val b := by
    unfold val valK
    rw [h1, h2]
    cases F.sign b <;> simp
  have hb' : F.IsFin (b ^^^ F.signMask) := by unfold IsFin; rw [h2]; exact hb
  have := F.add_fin ha hb'
  rw [hv, h1, ← sub_eq_add_neg] at this
  exact this

theorem C25_sub_nan (F : Fmt) {a b : BitVec F.w} (h : F.IsNaN a ∨ F.IsNaN b) :
    ∃ r, F.sub a b = .ok r ∧ F.IsQNaN r := by
  refine F.add_nan (h.imp id fun h => ?_)
  unfold IsNaN; rw [(F.toNat_xor_signMask b).2]; exact h

theorem C25_sub_inf_left (F : Fmt) {a b : BitVec F.w} (ha : F.IsInf a) (hb : ¬ F.IsNaN b) :
    ∃ r, F.sub a b = .ok r ∧ if F.IsInf b ∧ F.sign a = F.sign b then F.IsQNaN r else r = a := by
  obtain ⟨h1, h2⟩ := F.toNat_xor_signMask b
  have := F.add_inf_left (b := b ^^^ F.signMask) ha (by unfold IsNaN; rw [h2]; exact hb)
  have e : (F.IsInf (b ^^^ F.signMask) ∧ F.sign a ≠ F.sign (b ^^^ F.signMask)) ↔
      (F.IsInf b ∧ F.sign a = F.sign b) := by
    rw [h1]; unfold IsInf; rw [h2]; cases F.sign a <;> cases F.sign b <;> simp
  simp only [e] at this
  exact this

/-- finite minus infinity is the infinity of the opposite sign -/
theorem C25_sub_inf_right (F : Fmt) {a b : BitVec F.w} (ha : F.IsFin a) (hb : F.IsInf b) :
    ∃ r, F.sub a b = .ok r ∧ F.IsInf r ∧ F.sign r = !F.sign b := by
  obtain ⟨h1, h2⟩ := F.toNat_xor_signMask b
  have hi : F.IsInf (b ^^^ F.signMask) := by unfold IsInf; rw [h2]; exact hb
  exact ⟨_, F.add_inf_right ha hi, hi, h1⟩

example : f64.IsFin 0x3ff0000000000000#64 ∧
    f64.sub 0x3ff0000000000000#64 0x3c90000000000000#64 = .ok 0x3ff0000000000000#64 ∧
    f64.sub 0x3ff0000000000000#64 0x3ff0000000000000#64 = .ok 0#64 := by
  unfold IsFin; decide +kernel

end Verif.Props
