import Verif.Libm.PartsProofs
/-! # Properties C40, C41, C45, C46: frexp, ilogb, modf, nextafter -/
namespace Verif.Props
open Fmt

/-! ## C40 -/

/-- C40 `frexp` on finite non-zero operands: an exact decomposition with mantissa in `[1/2, 1)`. -/
theorem C40_frexp_finite (F : Fmt) {x : BitVec F.w} (hx : F.IsFin x) (h0 : ¬ F.IsZero x) :
    ∃ m e, F.frexp x = .ok (m, e) ∧ F.IsFin m ∧ F.val x = F.val m * 2 ^ e ∧ 1 / 2 ≤ |F.val m| ∧ |F.val m| < 1 := by
  obtain ⟨⟨m, e⟩, h1, h2, _, h3, h4, h5⟩ := F.frexp_fin hx h0
  exact ⟨m, e, h1, h2, h3, h4, h5⟩
-- 6.0 = 0.75 * 2^3; the smallest subnormal
example : f32.frexp 0x40C00000#f32.w = .ok (0x3F400000#f32.w, 3) ∧
    f32.frexp 0x00000001#f32.w = .ok (0x3F000000#f32.w, -148) := by decide +kernel
example : f32.IsFin 0x00000001#f32.w ∧ ¬ f32.IsZero 0x00000001#f32.w := by unfold IsFin IsZero; decide +kernel

/-- C40 `frexp` returns zeros, infinities and NaNs unchanged, with exponent 0. -/
theorem C40_frexp_special (F : Fmt) {x : BitVec F.w} (h : F.IsZero x ∨ F.IsInf x ∨ F.IsNaN x) :
    F.frexp x = .ok (x, 0) := by
  apply F.frexp_special
  rcases h with h | h | h
  · exact Or.inl h
  · right; unfold IsFin; unfold IsInf at h; omega
  · right; unfold IsFin; unfold IsNaN at h; omega
example : f32.IsInf 0xFF800000#f32.w := by unfold IsInf; decide +kernel

/-! ## C41 -/

/-- C41 `ilogb` on finite non-zero operands: the exponent `e` with `2^e ≤ |x| < 2^(e+1)`. -/
theorem C41_ilogb_finite (F : Fmt) {x : BitVec F.w} (hx : F.IsFin x) (h0 : ¬ F.IsZero x) :
    ∃ e : Int, F.ilogb x = .ok e ∧ (2 : ℚ) ^ e ≤ |F.val x| ∧ |F.val x| < (2 : ℚ) ^ (e + 1) := by
  obtain ⟨e, h1, h2, h3⟩ := F.ilogb_fin hx h0
  have : |F.val x| = F.magVal ℚ (F.mag x) := by
    have := F.magVal_nonneg ℚ (F.mag x)
    rw [F.val_sign]
    split <;> simp [abs_of_nonneg this]
  exact ⟨e, h1, by rw [this]; exact h2, by rw [this]; exact h3⟩
example : f32.ilogb 0xC0C00000#f32.w = .ok 2 ∧ f32.ilogb 0x00000003#f32.w = .ok (-148) := by decide +kernel

/-- C41 `ilogb` of zero and NaN is `FP_ILOGB0 = FP_ILOGBNAN = i32::MIN`, of an infinity `i32::MAX`. -/
theorem C41_ilogb_special (F : Fmt) (x : BitVec F.w) :
    (F.IsZero x ∨ F.IsNaN x → F.ilogb x = .ok (-2 ^ 31)) ∧ (F.IsInf x → F.ilogb x = .ok (2 ^ 31 - 1)) :=
  F.ilogb_special x
example : f32.ilogb 0x7FC00000#f32.w = .ok (-2147483648) ∧ f32.ilogb 0xFF800000#f32.w = .ok 2147483647 := by
  decide +kernel

/-! ## C45 -/

/-- the integer nearest to `q` in the direction of zero -/
def towardZero (q : ℚ) : ℤ := if q < 0 then ⌈q⌉ else ⌊q⌋

/-- C45 `modf` on finite operands: `(frac, int)` where `int` is `x` truncated toward zero and `frac + int = x` exactly;
both carry the sign of `x`. -/
theorem C45_modf_finite (F : Fmt) (N : FPU F) {x : BitVec F.w} (hx : F.IsFin x) :
    ∃ frac int, F.modf N x = .ok (frac, int) ∧ F.IsFin frac ∧ F.IsFin int ∧
      F.sign frac = F.sign x ∧ F.sign int = F.sign x ∧
      F.val int = towardZero (F.val x) ∧ F.val frac + F.val int = F.val x := by
  obtain ⟨⟨f, i⟩, h, h1, h2, h3, h4, h5, h6⟩ := F.modf_fin N hx
  simp only at h1 h2 h3 h4 h5 h6
  refine ⟨f, i, h, h1, h2, h3, h4, ?_, h6⟩
  have h0 := F.magVal_nonneg ℚ (F.mag x)
  rw [F.val_sign i, h4, h5, F.val_sign x]
  unfold towardZero
  cases F.sign x
  · simp [not_lt.mpr h0]
  · simp only [if_true, neg_mul, one_mul]
    rcases h0.lt_or_eq with h0 | h0
    · rw [if_pos (by linarith), Int.ceil_neg]; push_cast; ring
    · rw [← h0]; simp
-- -2.75 = -0.75 + -2
example : f32.modf FPU.softF32 0xC0300000#f32.w = .ok (0xBF400000#f32.w, 0xC0000000#f32.w) := by decide +kernel

/-- C45 `modf` of an infinity is a zero of the same sign and the infinity; of a NaN, that NaN twice. -/
theorem C45_modf_special (F : Fmt) (N : FPU F) (x : BitVec F.w) :
    (F.IsNaN x → F.modf N x = .ok (x, x)) ∧
    (F.IsInf x → ∃ z, F.modf N x = .ok (z, x) ∧ F.IsZero z ∧ F.sign z = F.sign x) :=
  ⟨(F.modf_special N x).1, fun h => ⟨_, (F.modf_special N x).2 h, (F.and_signMask_facts x).2, (F.and_signMask_facts x).1⟩⟩
example : f32.modf FPU.softF32 0xFF800000#f32.w = .ok (0x80000000#f32.w, 0xFF800000#f32.w) := by decide +kernel

/-! ## C46 -/

/-- C46 `nextafter`: equal operands give `y`; otherwise the result lies strictly beyond `x` in the direction of `y`, not
past `y`, and no representable value lies strictly between `x` and the result. The sign is that of `x` unless `x` is a
zero. -/
theorem C46_nextafter (F : Fmt) (N : FPU F) {x y : BitVec F.w} (hx : ¬ F.IsNaN x) (hy : ¬ F.IsNaN y) :
    ∃ r, F.nextafter N x y = .ok r ∧ ¬ F.IsNaN r ∧
      (F.extVal x = F.extVal y → r = y) ∧
      (F.extVal x < F.extVal y → F.extVal x < F.extVal r ∧ F.extVal r ≤ F.extVal y ∧
        ∀ z, ¬ F.IsNaN z → ¬ (F.extVal x < F.extVal z ∧ F.extVal z < F.extVal r)) ∧
      (F.extVal y < F.extVal x → F.extVal r < F.extVal x ∧ F.extVal y ≤ F.extVal r ∧
        ∀ z, ¬ F.IsNaN z → ¬ (F.extVal r < F.extVal z ∧ F.extVal z < F.extVal x)) ∧
      (F.extVal x ≠ F.extVal y → F.sign r = if F.IsZero x then F.sign y else F.sign x) := by
  obtain ⟨r, h, _, h2⟩ := F.nextafter_spec N x y
  obtain ⟨a, b, c, d⟩ := h2 hx hy
  have hr : ¬ F.IsNaN r := by
    rcases lt_trichotomy (F.smag x) (F.smag y) with h | h | h
    · exact (b h).1
    · rw [a h]; exact hy
    · exact (c h).1
  have heq : F.extVal x = F.extVal y ↔ F.smag x = F.smag y := by
    rw [le_antisymm_iff, F.extVal_le_iff hx hy, F.extVal_le_iff hy hx]
    omega
  refine ⟨r, h, hr, fun h => a (heq.mp h), fun h => ?_, fun h => ?_, fun h => ?_⟩
  · rw [F.extVal_lt_iff hx hy] at h
    have := (b h).2
    rw [F.extVal_lt_iff hx hr, F.extVal_le_iff hr hy]
    refine ⟨by omega, by omega, fun z hz => ?_⟩
    rw [F.extVal_lt_iff hx hz, F.extVal_lt_iff hz hr]; omega
  · rw [F.extVal_lt_iff hy hx] at h
    have := (c h).2
    rw [F.extVal_lt_iff hr hx, F.extVal_le_iff hy hr]
    refine ⟨by omega, by omega, fun z hz => ?_⟩
    rw [F.extVal_lt_iff hr hz, F.extVal_lt_iff hz hx]; omega
  · rw [d (fun e => h (heq.mpr e))]
    unfold IsZero
    rfl
-- from the largest finite number to +inf; from +0 below zero; from -min to +1
example : f32.nextafter FPU.softF32 0x7F7FFFFF#f32.w 0x7F800000#f32.w = .ok 0x7F800000#f32.w ∧
    f32.nextafter FPU.softF32 0#f32.w 0xBF800000#f32.w = .ok 0x80000001#f32.w ∧
    f32.nextafter FPU.softF32 0x80000001#f32.w 0x3F800000#f32.w = .ok 0x80000000#f32.w := by decide +kernel

/-- C46 `nextafter` with a NaN operand is NaN. -/
theorem C46_nextafter_nan (F : Fmt) (N : FPU F) {x y : BitVec F.w} (h : F.IsNaN x ∨ F.IsNaN y) :
    ∃ r, F.nextafter N x y = .ok r ∧ F.IsNaN r := by
  obtain ⟨r, h1, h2, _⟩ := F.nextafter_spec N x y
  exact ⟨r, h1, h2 h⟩
example : f32.IsNaN 0x7FC00000#f32.w := by unfold IsNaN; decide +kernel

end Verif.Props
