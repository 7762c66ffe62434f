import Verif.Libm.MinMax
/-!
# Properties C38, C52, C53: min/max families, symmetry of soft-float arithmetic, fdim
-/
namespace Verif.Props
open Fmt

/-- `r` is one of the two operands and none of them is larger -/
def IsMaxOf (F : Fmt) (x y r : BitVec F.w) : Prop :=
  (r = x ∨ r = y) ∧ F.extVal x ≤ F.extVal r ∧ F.extVal y ≤ F.extVal r

/-- `r` is one of the two operands and none of them is smaller -/
def IsMinOf (F : Fmt) (x y r : BitVec F.w) : Prop :=
  (r = x ∨ r = y) ∧ F.extVal r ≤ F.extVal x ∧ F.extVal r ≤ F.extVal y

theorem isMaxOf_iff (F : Fmt) {x y r : BitVec F.w} (hx : ¬ F.IsNaN x) (hy : ¬ F.IsNaN y) :
    IsMaxOf F x y r ↔ (r = x ∧ F.smag y ≤ F.smag x) ∨ (r = y ∧ F.smag x ≤ F.smag y) := by
  unfold IsMaxOf
  constructor
  · rintro ⟨rfl | rfl, h1, h2⟩
    · exact Or.inl ⟨rfl, (F.extVal_le_iff hy hx).mp h2⟩
    · exact Or.inr ⟨rfl, (F.extVal_le_iff hx hy).mp h1⟩
  · rintro (⟨rfl, h⟩ | ⟨rfl, h⟩)
    · exact ⟨Or.inl rfl, le_refl _, (F.extVal_le_iff hy hx).mpr h⟩
    · exact ⟨Or.inr rfl, (F.extVal_le_iff hx hy).mpr h, le_refl _⟩

theorem isMinOf_iff (F : Fmt) {x y r : BitVec F.w} (hx : ¬ F.IsNaN x) (hy : ¬ F.IsNaN y) :
    IsMinOf F x y r ↔ (r = x ∧ F.smag x ≤ F.smag y) ∨ (r = y ∧ F.smag y ≤ F.smag x) := by
  unfold IsMinOf
  constructor
  · rintro ⟨rfl | rfl, h1, h2⟩
    · exact Or.inl ⟨rfl, (F.extVal_le_iff hx hy).mp h2⟩
    · exact Or.inr ⟨rfl, (F.extVal_le_iff hy hx).mp h1⟩
  · rintro (⟨rfl, h⟩ | ⟨rfl, h⟩)
    · exact ⟨Or.inl rfl, le_refl _, (F.extVal_le_iff hx hy).mpr h⟩
    · exact ⟨Or.inr rfl, (F.extVal_le_iff hy hx).mpr h, le_refl _⟩

/-! ## C38 -/

/-- C38 `fmax` (IEEE-754-2008 maxNum). -/
theorem C38_fmax (F : Fmt) (N : FPU F) (x y : BitVec F.w) :
    (F.IsNaN x → ¬ F.IsNaN y → F.fmax N x y = y) ∧ (¬ F.IsNaN x → F.IsNaN y → F.fmax N x y = x) ∧
    (F.IsNaN x → F.IsNaN y → F.IsNaN (F.fmax N x y)) ∧
    (¬ F.IsNaN x → ¬ F.IsNaN y → IsMaxOf F x y (F.fmax N x y)) := by
  have hnx := F.isNan_iff x
  have hlt := F.lt_iff x y
  unfold fmax
  simp only [Bool.or_eq_true, hnx, hlt]
  refine ⟨fun hx hy => ?_, fun hx hy => ?_, fun hx hy => ?_, fun hx hy => ?_⟩
  · rw [if_pos (Or.inl hx), F.canonicalize_eq N hy]
  · rw [if_neg (by tauto), F.canonicalize_eq N hx]
  · rw [if_pos (Or.inl hx)]; exact F.canonicalize_nan N hy
  · rw [isMaxOf_iff F hx hy]
    split
    · rename_i h; right; exact ⟨F.canonicalize_eq N hy, by rcases h with h | h; exacts [absurd h hx, h.2.2.le]⟩
    · rename_i h; left
      exact ⟨F.canonicalize_eq N hx, by by_contra hc; exact h (Or.inr ⟨hx, hy, by omega⟩)⟩
-- fmax(NaN, -1) = -1, fmax(-inf, 2) = 2
example : f32.fmax FPU.softF32 0x7FC00000#f32.w 0xBF800000#f32.w = 0xBF800000#f32.w ∧
    f32.fmax FPU.softF32 0xFF800000#f32.w 0x40000000#f32.w = 0x40000000#f32.w := by decide +kernel

/-- C38 `fmin` (IEEE-754-2008 minNum). -/
theorem C38_fmin (F : Fmt) (N : FPU F) (x y : BitVec F.w) :
    (F.IsNaN x → ¬ F.IsNaN y → F.fmin N x y = y) ∧ (¬ F.IsNaN x → F.IsNaN y → F.fmin N x y = x) ∧
    (F.IsNaN x → F.IsNaN y → F.IsNaN (F.fmin N x y)) ∧
    (¬ F.IsNaN x → ¬ F.IsNaN y → IsMinOf F x y (F.fmin N x y)) := by
  have hny := F.isNan_iff y
  have hlt := F.lt_iff x y
  unfold fmin
  simp only [Bool.or_eq_true, hny, hlt]
  refine ⟨fun hx hy => ?_, fun hx hy => ?_, fun hx hy => ?_, fun hx hy => ?_⟩
  · rw [if_neg (by tauto), F.canonicalize_eq N hy]
  · rw [if_pos (Or.inl hy), F.canonicalize_eq N hx]
  · rw [if_pos (Or.inl hy)]; exact F.canonicalize_nan N hx
  · rw [isMinOf_iff F hx hy]
    split
    · rename_i h; left; exact ⟨F.canonicalize_eq N hx, by rcases h with h | h; exacts [absurd h hy, h.2.2.le]⟩
    · rename_i h; right
      exact ⟨F.canonicalize_eq N hy, by by_contra hc; exact h (Or.inr ⟨hx, hy, by omega⟩)⟩
example : f32.fmin FPU.softF32 0x7FC00000#f32.w 0xBF800000#f32.w = 0xBF800000#f32.w ∧
    f32.fmin FPU.softF32 0xFF800000#f32.w 0x40000000#f32.w = 0xFF800000#f32.w := by decide +kernel

/-- C38 `fmaximum` (IEEE-754-2019 maximum): NaN if any operand is NaN, otherwise the larger operand; for two zeros
the result is `-0` only if both are. -/
theorem C38_fmaximum (F : Fmt) (N : FPU F) (x y : BitVec F.w) :
    (F.IsNaN x ∨ F.IsNaN y → F.IsNaN (F.fmaximum N x y)) ∧
    (¬ F.IsNaN x → ¬ F.IsNaN y → IsMaxOf F x y (F.fmaximum N x y) ∧
      (F.IsZero x → F.IsZero y → F.sign (F.fmaximum N x y) = (F.sign x && F.sign y))) := by
  have hnx := F.isNan_iff x
  have hny := F.isNan_iff y
  have hgt := F.gt_iff x y
  unfold fmaximum
  simp only [Bool.or_eq_true, Bool.and_eq_true, beq_iff_eq, Bool.not_eq_true', hnx, hny, hgt, F.eq_negZero_iff]
  refine ⟨fun h => ?_, fun hx hy => ?_⟩
  · by_cases hx : F.IsNaN x
    · rw [if_pos hx]; exact F.canonicalize_nan N hx
    · have hy : F.IsNaN y := by tauto
      rw [if_neg hx, if_pos hy]; exact F.canonicalize_nan N hy
  · rw [if_neg hx, if_neg hy, isMaxOf_iff F hx hy]
    unfold IsZero
    have zz : ∀ a : BitVec F.w, F.mag a = 0 → F.smag a = 0 := fun a h => F.smag_zero_iff.mpr h
    split
    · rename_i h
      rw [F.canonicalize_eq N hx]
      refine ⟨Or.inl ⟨rfl, ?_⟩, fun zx zy => ?_⟩
      · rcases h with h | h
        · exact h.2.2.le
        · unfold smag; rw [h.1.1, h.1.2, h.2]; simp
      · rcases h with h | h
        · have := h.2.2; rw [zz _ zx, zz _ zy] at this; omega
        · rw [h.2]; rfl
    · rename_i h
      rw [F.canonicalize_eq N hy]
      refine ⟨Or.inr ⟨rfl, ?_⟩, fun zx zy => ?_⟩
      · by_contra hc; exact h (Or.inl ⟨hx, hy, by omega⟩)
      · cases hsx : F.sign x
        · cases hsy : F.sign y
          · rfl
          · exact absurd (Or.inr ⟨⟨hsy, zy⟩, hsx⟩) h
        · simp
-- maximum(-0, +0) = +0, maximum(+0, -0) = +0
example : f32.fmaximum FPU.softF32 0x80000000#f32.w 0#f32.w = 0#f32.w ∧
    f32.fmaximum FPU.softF32 0#f32.w 0x80000000#f32.w = 0#f32.w := by decide +kernel

/-- C38 `fminimum` (IEEE-754-2019 minimum). -/
theorem C38_fminimum (F : Fmt) (N : FPU F) (x y : BitVec F.w) :
    (F.IsNaN x ∨ F.IsNaN y → F.IsNaN (F.fminimum N x y)) ∧
    (¬ F.IsNaN x → ¬ F.IsNaN y → IsMinOf F x y (F.fminimum N x y) ∧
      (F.IsZero x → F.IsZero y → F.sign (F.fminimum N x y) = (F.sign x || F.sign y))) := by
  have hnx := F.isNan_iff x
  have hny := F.isNan_iff y
  have hlt := F.lt_iff x y
  unfold fminimum
  simp only [Bool.or_eq_true, Bool.and_eq_true, beq_iff_eq, Bool.not_eq_true', hnx, hny, hlt, F.eq_negZero_iff]
  refine ⟨fun h => ?_, fun hx hy => ?_⟩
  · by_cases hx : F.IsNaN x
    · rw [if_pos hx]; exact F.canonicalize_nan N hx
    · have hy : F.IsNaN y := by tauto
      rw [if_neg hx, if_pos hy]; exact F.canonicalize_nan N hy
  · rw [if_neg hx, if_neg hy, isMinOf_iff F hx hy]
    unfold IsZero
    have zz : ∀ a : BitVec F.w, F.mag a = 0 → F.smag a = 0 := fun a h => F.smag_zero_iff.mpr h
    split
    · rename_i h
      rw [F.canonicalize_eq N hx]
      refine ⟨Or.inl ⟨rfl, ?_⟩, fun zx zy => ?_⟩
      · rcases h with h | h
        · exact h.2.2.le
        · unfold smag; rw [h.1.1, h.1.2, h.2]; simp
      · rcases h with h | h
        · have := h.2.2; rw [zz _ zx, zz _ zy] at this; omega
        · rw [h.1.1]; rfl
    · rename_i h
      rw [F.canonicalize_eq N hy]
      refine ⟨Or.inr ⟨rfl, ?_⟩, fun zx zy => ?_⟩
      · by_contra hc; exact h (Or.inl ⟨hx, hy, by omega⟩)
      · cases hsx : F.sign x
        · simp
        · cases hsy : F.sign y
          · exact absurd (Or.inr ⟨⟨hsx, zx⟩, hsy⟩) h
          · rfl
example : f32.fminimum FPU.softF32 0x80000000#f32.w 0#f32.w = 0x80000000#f32.w ∧
    f32.fminimum FPU.softF32 0#f32.w 0x80000000#f32.w = 0x80000000#f32.w := by decide +kernel

/-- C38 `fmaximum_num` (IEEE-754-2019 maximumNumber): a NaN operand is ignored, otherwise as `fmaximum`. -/
theorem C38_fmaximum_num (F : Fmt) (N : FPU F) (x y : BitVec F.w) :
    (F.IsNaN x → ¬ F.IsNaN y → F.fmaximumNum N x y = y) ∧ (¬ F.IsNaN x → F.IsNaN y → F.fmaximumNum N x y = x) ∧
    (F.IsNaN x → F.IsNaN y → F.IsNaN (F.fmaximumNum N x y)) ∧
    (¬ F.IsNaN x → ¬ F.IsNaN y → IsMaxOf F x y (F.fmaximumNum N x y) ∧
      (F.IsZero x → F.IsZero y → F.sign (F.fmaximumNum N x y) = (F.sign x && F.sign y))) := by
  have hnx := F.isNan_iff x
  have hny := F.isNan_iff y
  have h1 := F.gt_iff x y
  have h2 := F.gt_iff y x
  unfold fmaximumNum
  simp only [Bool.or_eq_true, Bool.not_eq_true', hnx, hny, h1, h2]
  refine ⟨fun hx hy => ?_, fun hx hy => ?_, fun hx hy => ?_, fun hx hy => ?_⟩
  · rw [if_neg (by tauto), if_pos (Or.inr hx), F.canonicalize_eq N hy]
  · rw [if_pos (Or.inr hy), F.canonicalize_eq N hx]
  · rw [if_pos (Or.inr hy)]; exact F.canonicalize_nan N hx
  · rw [isMaxOf_iff F hx hy]
    unfold IsZero
    simp only [hx, hy, not_false_eq_true, true_and, or_false]
    have zz : ∀ a : BitVec F.w, F.mag a = 0 → F.smag a = 0 := fun a h => F.smag_zero_iff.mpr h
    split
    · rename_i h
      rw [F.canonicalize_eq N hx]
      exact ⟨Or.inl ⟨rfl, h.le⟩, fun zx zy => by rw [zz _ zx, zz _ zy] at h; omega⟩
    · split
      · rename_i h' h
        rw [F.canonicalize_eq N hy]
        exact ⟨Or.inr ⟨rfl, h.le⟩, fun zx zy => by rw [zz _ zx, zz _ zy] at h; omega⟩
      · split
        · rename_i h' h hs
          rw [F.canonicalize_eq N hx]
          exact ⟨Or.inl ⟨rfl, by omega⟩, fun _ _ => by rw [hs]; rfl⟩
        · rename_i h' h hs
          rw [F.canonicalize_eq N hy]
          exact ⟨Or.inr ⟨rfl, by omega⟩, fun _ _ => by rw [Bool.not_eq_false] at hs; rw [hs]; rfl⟩
example : f32.fmaximumNum FPU.softF32 0x80000000#f32.w 0#f32.w = 0#f32.w ∧
    f32.fmaximumNum FPU.softF32 0xFFC00000#f32.w 0x80000000#f32.w = 0x80000000#f32.w := by decide +kernel

/-- C38 `fminimum_num` (IEEE-754-2019 minimumNumber). -/
theorem C38_fminimum_num (F : Fmt) (N : FPU F) (x y : BitVec F.w) :
    (F.IsNaN x → ¬ F.IsNaN y → F.fminimumNum N x y = y) ∧ (¬ F.IsNaN x → F.IsNaN y → F.fminimumNum N x y = x) ∧
    (F.IsNaN x → F.IsNaN y → F.IsNaN (F.fminimumNum N x y)) ∧
    (¬ F.IsNaN x → ¬ F.IsNaN y → IsMinOf F x y (F.fminimumNum N x y) ∧
      (F.IsZero x → F.IsZero y → F.sign (F.fminimumNum N x y) = (F.sign x || F.sign y))) := by
  have hnx := F.isNan_iff x
  have hny := F.isNan_iff y
  have h1 := F.gt_iff x y
  have h2 := F.gt_iff y x
  unfold fminimumNum
  simp only [Bool.or_eq_true, Bool.not_eq_true', hnx, hny, h1, h2]
  refine ⟨fun hx hy => ?_, fun hx hy => ?_, fun hx hy => ?_, fun hx hy => ?_⟩
  · rw [if_pos (Or.inr hx), F.canonicalize_eq N hy]
  · rw [if_neg (by tauto), if_pos (Or.inr hy), F.canonicalize_eq N hx]
  · rw [if_pos (Or.inr hx)]; exact F.canonicalize_nan N hy
  · rw [isMinOf_iff F hx hy]
    unfold IsZero
    simp only [hx, hy, not_false_eq_true, true_and, or_false]
    have zz : ∀ a : BitVec F.w, F.mag a = 0 → F.smag a = 0 := fun a h => F.smag_zero_iff.mpr h
    split
    · rename_i h
      rw [F.canonicalize_eq N hy]
      exact ⟨Or.inr ⟨rfl, h.le⟩, fun zx zy => by rw [zz _ zx, zz _ zy] at h; omega⟩
    · split
      · rename_i h' h
        rw [F.canonicalize_eq N hx]
        exact ⟨Or.inl ⟨rfl, h.le⟩, fun zx zy => by rw [zz _ zx, zz _ zy] at h; omega⟩
      · split
        · rename_i h' h hs
          rw [F.canonicalize_eq N hy]
          exact ⟨Or.inr ⟨rfl, by omega⟩, fun _ _ => by rw [hs]; rfl⟩
        · rename_i h' h hs
          rw [F.canonicalize_eq N hx]
          exact ⟨Or.inl ⟨rfl, by omega⟩, fun _ _ => by rw [Bool.not_eq_false] at hs; rw [hs]; rfl⟩
example : f32.fminimumNum FPU.softF32 0x80000000#f32.w 0#f32.w = 0x80000000#f32.w ∧
    f32.fminimumNum FPU.softF32 0xFFC00000#f32.w 0x40000000#f32.w = 0x40000000#f32.w := by decide +kernel

/-! ## C52 -/

/-- C52: soft-float addition is commutative, bit for bit unless the result is NaN. -/
theorem C52_add_comm (F : Fmt) (a b : BitVec F.w) :
    ∃ r r', F.add a b = .ok r ∧ F.add b a = .ok r' ∧ (r = r' ∨ (F.IsNaN r ∧ F.IsNaN r')) := by
  obtain ⟨r, hr⟩ := F.add_total a b
  obtain ⟨r', hr'⟩ := F.add_total b a
  refine ⟨r, r', hr, hr', ?_⟩
  have h := F.add_addSpec a b
  have h' := F.add_addSpec b a
  rw [hr] at h; rw [hr'] at h'
  exact AddSpec.unique F h (AddSpec.symm F h')
example : f32.add 0x3F800000#f32.w 0x33800001#f32.w = f32.add 0x33800001#f32.w 0x3F800000#f32.w := by decide +kernel

/-- C52: soft-float multiplication is commutative. -/
theorem C52_mul_comm (F : Fmt) {O : DOps F.w} (hO : O.Lawful) (a b : BitVec F.w) :
    ∃ r r', F.mul O a b = .ok r ∧ F.mul O b a = .ok r' ∧ (r = r' ∨ (F.IsNaN r ∧ F.IsNaN r')) := by
  obtain ⟨r, hr⟩ := F.mul_total hO a b
  obtain ⟨r', hr'⟩ := F.mul_total hO b a
  refine ⟨r, r', hr, hr', ?_⟩
  have h := F.mul_mulSpec hO a b
  have h' := F.mul_mulSpec hO b a
  rw [hr] at h; rw [hr'] at h'
  exact MulSpec.unique F h (MulSpec.symm F h')
example : (DOps.prim f32.w).Lawful ∧ (DOps.wide 64 : DOps f128.w).Lawful :=
  ⟨DOps.prim_lawful _, DOps.wide_lawful (g := 64) (k := 6) rfl⟩

/-- C52: negating both operands of an addition negates the result, unless the sum is an exact zero of finite
operands (or the result is NaN). -/
theorem C52_add_neg (F : Fmt) (a b : BitVec F.w) (h0 : ¬ (F.IsFin a ∧ F.IsFin b ∧ F.val a + F.val b = 0)) :
    ∃ r r', F.add a b = .ok r ∧ F.add (F.neg a) (F.neg b) = .ok r' ∧ (r' = F.neg r ∨ (F.IsNaN r ∧ F.IsNaN r')) := by
  obtain ⟨r, hr⟩ := F.add_total a b
  obtain ⟨r', hr'⟩ := F.add_total (F.neg a) (F.neg b)
  refine ⟨r, r', hr, hr', ?_⟩
  have h := F.add_addSpec a b
  have h' := F.add_addSpec (F.neg a) (F.neg b)
  rw [hr] at h; rw [hr'] at h'
  by_cases hn : F.IsNaN r
  · -- the reflected sum is NaN as well
    right
    refine ⟨hn, ?_⟩
    by_contra hn'
    have h'' := AddSpec.neg F h' hn' (by
      rw [F.isFin_neg, F.isFin_neg, F.val_neg, F.val_neg]
      rintro ⟨x, y, z⟩; exact h0 ⟨x, y, by linarith⟩)
    rw [F.neg_neg, F.neg_neg] at h''
    rcases AddSpec.unique F h'' h with e | e
    · change F.neg r' = r at e
      rw [← e] at hn; exact hn' (F.isNaN_neg.mp hn)
    · exact hn' (F.isNaN_neg.mp e.1)
  · rcases AddSpec.unique F h' (AddSpec.neg F h hn h0) with e | e
    · exact Or.inl e
    · exact absurd (F.isNaN_neg.mp e.2) hn
example : ¬ (f32.IsFin 0x7F800000#f32.w ∧ f32.IsFin 0x3F800000#f32.w ∧
    f32.val 0x7F800000#f32.w + f32.val 0x3F800000#f32.w = 0) := by
  intro h; exact absurd h.1 (by unfold IsFin; decide +kernel)

/-- C52: `a - b` is bit-identical to `a + (-b)`. -/
theorem C52_sub (F : Fmt) (a b : BitVec F.w) : F.sub a b = F.add a (F.neg b) := rfl
example : f32.sub 0x3F800000#f32.w 0x40000000#f32.w = .ok 0xBF800000#f32.w := by decide +kernel

/-- C52: negating one factor negates the product. -/
theorem C52_mul_neg (F : Fmt) {O : DOps F.w} (hO : O.Lawful) (a b : BitVec F.w) :
    ∃ r r', F.mul O a b = .ok r ∧ F.mul O (F.neg a) b = .ok r' ∧ (r' = F.neg r ∨ (F.IsNaN r ∧ F.IsNaN r')) := by
  obtain ⟨r, hr⟩ := F.mul_total hO a b
  obtain ⟨r', hr'⟩ := F.mul_total hO (F.neg a) b
  refine ⟨r, r', hr, hr', ?_⟩
  have h := F.mul_mulSpec hO a b
  have h' := F.mul_mulSpec hO (F.neg a) b
  rw [hr] at h; rw [hr'] at h'
  rcases MulSpec.unique F h' (MulSpec.neg_left F h) with e | e
  · exact Or.inl e
  · exact Or.inr ⟨F.isNaN_neg.mp e.2, e.1⟩
example : f32.mulPrim 0xBF800000#f32.w 0x40400000#f32.w = .ok 0xC0400000#f32.w := by decide +kernel

/-! ## C53 -/

/-- C53 `fdim` on finite operands: `+0` if `x ≤ y`, otherwise the correctly rounded difference (which is positive). -/
theorem C53_fdim_finite (F : Fmt) (N : FPU F) {x y : BitVec F.w} (hx : F.IsFin x) (hy : F.IsFin y) :
    if F.val x ≤ F.val y then F.fdim N x y = 0#F.w else F.Rounds (F.val x - F.val y) (F.fdim N x y) := by
  have hle : F.le x y = true ↔ F.val x ≤ F.val y := by
    have e : F.val x ≤ F.val y ↔ F.smag x ≤ F.smag y := by rw [← not_lt, F.val_lt_iff, not_lt]
    rw [F.le_iff, e]
    exact ⟨fun h => h.2.2, fun h => ⟨IsFin.not_nan F hx, IsFin.not_nan F hy, h⟩⟩
  unfold fdim
  simp only [hle]
  split
  · rfl
  · have := ((N.sub_spec x y).1 hx (F.isFin_neg.mpr hy)).1
    rwa [F.val_neg, ← sub_eq_add_neg] at this
example : f32.fdim FPU.softF32 0x40400000#f32.w 0x3F800000#f32.w = 0x40000000#f32.w := by decide +kernel

/-- C53 `fdim` with an infinity: `+0` if `x ≤ y`, otherwise `+∞`; with a NaN: NaN. -/
theorem C53_fdim_special (F : Fmt) (N : FPU F) (x y : BitVec F.w) :
    (F.IsNaN x ∨ F.IsNaN y → F.IsNaN (F.fdim N x y)) ∧
    (¬ F.IsNaN x → ¬ F.IsNaN y → F.IsInf x ∨ F.IsInf y →
      if F.extVal x ≤ F.extVal y then F.fdim N x y = 0#F.w
      else F.IsInf (F.fdim N x y) ∧ F.sign (F.fdim N x y) = false) := by
  have hle := F.le_iff x y
  unfold fdim
  simp only [hle]
  refine ⟨fun h => ?_, fun hx hy hi => ?_⟩
  · rw [if_neg (by tauto)]
    exact (N.sub_spec x y).2.1 (by rwa [F.isNaN_neg])
  · simp only [F.extVal_le_iff hx hy, hx, hy, not_false_eq_true, true_and]
    split
    · rfl
    · rename_i hc
      have hsp := N.sub_spec x y
      have hmx := F.mag_lt x
      unfold IsNaN at hx hy
      unfold smag at hc
      by_cases hxi : F.IsInf x
      · have := hsp.2.2.1 hxi (by rw [F.isNaN_neg]; exact hy)
        unfold IsInf at hxi
        have hsx : F.sign x = false := by
          by_contra hs
          rw [Bool.not_eq_false] at hs
          rw [hs] at hc
          cases F.sign y <;> simp at hc <;> omega
        have hny : ¬ (F.IsInf (F.neg y) ∧ F.sign x ≠ F.sign (F.neg y)) := by
          rw [F.isInf_neg, F.sign_neg]
          rintro ⟨h1, h2⟩
          unfold IsInf at h1
          rw [hsx] at h2 hc
          cases hsy : F.sign y <;> rw [hsy] at h2 hc <;> simp at h2 hc
          omega
        rw [if_neg hny] at this
        rw [this]
        exact ⟨hxi, hsx⟩
      · have hyi : F.IsInf y := by tauto
        have hxf : F.IsFin x := by
          have := F.isFin_or x
          unfold IsNaN at this; tauto
        rw [hsp.2.2.2 hxf (F.isInf_neg.mpr hyi), F.isInf_neg, F.sign_neg]
        refine ⟨hyi, ?_⟩
        unfold IsInf at hyi
        unfold IsFin at hxf
        cases hsy : F.sign y
        · rw [hsy] at hc
          cases F.sign x <;> simp at hc <;> omega
        · rfl
example : f32.fdim FPU.softF32 0x40400000#f32.w 0xFF800000#f32.w = 0x7F800000#f32.w := by decide +kernel

end Verif.Props
