import Verif.Float.ConvProofs
/-!
# Properties C31 - C33, C54: integer/float conversions, powi

Specifications: `Fmt.Rounds` (Verif/Float/Spec.lean), and
`satTrunc lo hi x`, the integer obtained from `x` by truncation toward zero and saturation to `[lo, hi]`.
-/
namespace Verif.Props
open Fmt

/-! ## C31 -/

/-- `__floatun{si,di,ti}{sf,df,tf}`: the result is the correctly rounded integer and has sign `+` (so `0` gives
`+0`). -/
theorem C31_unsigned :
    (∀ i : BitVec 32, ∃ r, u32ToF32 i = .ok r ∧ f32.Rounds (i.toNat : ℚ) r ∧ f32.sign r = false) ∧
    (∀ i : BitVec 32, ∃ r, u32ToF64 i = .ok r ∧ f64.Rounds (i.toNat : ℚ) r ∧ f64.sign r = false) ∧
    (∀ i : BitVec 32, ∃ r, u32ToF128 i = .ok r ∧ f128.Rounds (i.toNat : ℚ) r ∧ f128.sign r = false) ∧
    (∀ i : BitVec 64, ∃ r, u64ToF32 i = .ok r ∧ f32.Rounds (i.toNat : ℚ) r ∧ f32.sign r = false) ∧
    (∀ i : BitVec 64, ∃ r, u64ToF64 i = .ok r ∧ f64.Rounds (i.toNat : ℚ) r ∧ f64.sign r = false) ∧
    (∀ i : BitVec 64, ∃ r, u64ToF128 i = .ok r ∧ f128.Rounds (i.toNat : ℚ) r ∧ f128.sign r = false) ∧
    (∀ i : BitVec 128, ∃ r, u128ToF32 i = .ok r ∧ f32.Rounds (i.toNat : ℚ) r ∧ f32.sign r = false) ∧
    (∀ i : BitVec 128, ∃ r, u128ToF64 i = .ok r ∧ f64.Rounds (i.toNat : ℚ) r ∧ f64.sign r = false) ∧
    (∀ i : BitVec 128, ∃ r, u128ToF128 i = .ok r ∧ f128.Rounds (i.toNat : ℚ) r ∧ f128.sign r = false) :=
  ⟨fun i => (u32ToF32_spec i).mono fun _ => ConvU.rounds, fun i => (u32ToF64_spec i).mono fun _ => ConvU.rounds,
   fun i => (u32ToF128_spec i).mono fun _ => ConvU.rounds, fun i => (u64ToF32_spec i).mono fun _ => ConvU.rounds,
   fun i => (u64ToF64_spec i).mono fun _ => ConvU.rounds, fun i => (u64ToF128_spec i).mono fun _ => ConvU.rounds,
   fun i => (u128ToF32_spec i).mono fun _ => ConvU.rounds, fun i => (u128ToF64_spec i).mono fun _ => ConvU.rounds,
   fun i => (u128ToF128_spec i).mono fun _ => ConvU.rounds⟩

/-- `__float{si,di,ti}{sf,df,tf}`: the result is the correctly rounded signed integer; its sign bit is that of the
integer. -/
theorem C31_signed :
    (∀ i : BitVec 32, ∃ r, signedConv f32 u32ToF32 i = .ok r ∧ f32.Rounds (i.toInt : ℚ) r ∧ f32.sign r = i.msb) ∧
    (∀ i : BitVec 32, ∃ r, signedConv f64 u32ToF64 i = .ok r ∧ f64.Rounds (i.toInt : ℚ) r ∧ f64.sign r = i.msb) ∧
    (∀ i : BitVec 32, ∃ r, signedConv f128 u32ToF128 i = .ok r ∧ f128.Rounds (i.toInt : ℚ) r ∧
      f128.sign r = i.msb) ∧
    (∀ i : BitVec 64, ∃ r, signedConv f32 u64ToF32 i = .ok r ∧ f32.Rounds (i.toInt : ℚ) r ∧ f32.sign r = i.msb) ∧
    (∀ i : BitVec 64, ∃ r, signedConv f64 u64ToF64 i = .ok r ∧ f64.Rounds (i.toInt : ℚ) r ∧ f64.sign r = i.msb) ∧
    (∀ i : BitVec 64, ∃ r, signedConv f128 u64ToF128 i = .ok r ∧ f128.Rounds (i.toInt : ℚ) r ∧
      f128.sign r = i.msb) ∧
    (∀ i : BitVec 128, ∃ r, signedConv f32 u128ToF32 i = .ok r ∧ f32.Rounds (i.toInt : ℚ) r ∧ f32.sign r = i.msb) ∧
    (∀ i : BitVec 128, ∃ r, signedConv f64 u128ToF64 i = .ok r ∧ f64.Rounds (i.toInt : ℚ) r ∧ f64.sign r = i.msb) ∧
    (∀ i : BitVec 128, ∃ r, signedConv f128 u128ToF128 i = .ok r ∧ f128.Rounds (i.toInt : ℚ) r ∧
      f128.sign r = i.msb) :=
  ⟨f32.signedConv_spec (by omega) u32ToF32_spec, f64.signedConv_spec (by omega) u32ToF64_spec,
   f128.signedConv_spec (by omega) u32ToF128_spec, f32.signedConv_spec (by omega) u64ToF32_spec,
   f64.signedConv_spec (by omega) u64ToF64_spec, f128.signedConv_spec (by omega) u64ToF128_spec,
   f32.signedConv_spec (by omega) u128ToF32_spec, f64.signedConv_spec (by omega) u128ToF64_spec,
   f128.signedConv_spec (by omega) u128ToF128_spec⟩

-- a tie (2^24 + 1), just above a tie, u128::MAX to f32 (infinity), i32::MIN, -3
example : u32ToF32 0x01000001#32 = .ok 0x4b800000#32 ∧ u64ToF32 0x0100000100000001#64 = .ok 0x5b800001#32 ∧
    u128ToF32 (BitVec.allOnes 128) = .ok 0x7f800000#32 ∧ u32ToF128 3#32 = .ok 0x40008000000000000000000000000000#128 ∧
    signedConv f32 u32ToF32 0x80000000#32 = .ok 0xcf000000#32 ∧
    signedConv f64 u32ToF64 (-3#32) = .ok 0xc008000000000000#64 := by decide +kernel

/-! ## C32 -/

/-- The integer widths and formats of the crate's conversions satisfy the side conditions of the theorems below. -/
def ConvPair (F : Fmt) (N : Nat) : Prop :=
  (F = f32 ∨ F = f64 ∨ F = f128) ∧ (N = 32 ∨ N = 64 ∨ N = 128)

theorem ConvPair.side {F : Fmt} {N : Nat} (h : ConvPair F N) :
    2 ≤ N ∧ N < 2 ^ 16 ∧ (F.w ≤ N ∨ N ≤ F.s) ∧ F.bias + N < 2 ^ F.e := by
  obtain ⟨rfl | rfl | rfl, rfl | rfl | rfl⟩ := h <;> decide

/-- `__fixuns*`, finite argument: truncation toward zero, saturating at `0` and `2^N - 1`. -/
theorem C32_unsigned_finite {F : Fmt} {N : Nat} (h : ConvPair F N) {f : BitVec F.w} (hf : F.IsFin f) :
    ∃ r, F.floatToUnsigned N f = .ok r ∧ (r.toNat : ℤ) = satTrunc 0 (2 ^ N - 1) (F.val f) :=
  F.floatToUnsigned_fin (by have := h.side; omega) h.side.2.1 h.side.2.2.1 h.side.2.2.2 hf

/-- `__fixuns*`, infinities and NaN: the maximum for `+inf`, otherwise `0`. -/
theorem C32_unsigned_special {F : Fmt} {N : Nat} (h : ConvPair F N) {f : BitVec F.w} (hf : F.IsInf f ∨ F.IsNaN f) :
    F.floatToUnsigned N f = .ok (if F.IsInf f ∧ F.sign f = false then BitVec.allOnes N else 0#N) :=
  F.floatToUnsigned_special (by have := h.side; omega) h.side.2.1 h.side.2.2.1 h.side.2.2.2
    (by unfold IsInf IsNaN at hf; omega)

/-- `__fix*`, finite argument: truncation toward zero, saturating at the bounds of the signed type. -/
theorem C32_signed_finite {F : Fmt} {N : Nat} (h : ConvPair F N) {f : BitVec F.w} (hf : F.IsFin f) :
    ∃ r, F.floatToSigned N f = .ok r ∧ r.toInt = satTrunc (-2 ^ (N - 1)) (2 ^ (N - 1) - 1) (F.val f) :=
  F.floatToSigned_fin h.side.1 h.side.2.1 h.side.2.2.1 h.side.2.2.2 hf

/-- `__fix*`, infinities saturate, NaN gives `0`. -/
theorem C32_signed_special {F : Fmt} {N : Nat} (h : ConvPair F N) {f : BitVec F.w} (hf : F.IsInf f ∨ F.IsNaN f) :
    F.floatToSigned N f = .ok (if F.IsInf f then (if F.sign f then BitVec.intMin N else BitVec.intMax N) else 0#N) :=
  F.floatToSigned_special h.side.1 h.side.2.1 h.side.2.2.1 h.side.2.2.2 (by unfold IsInf IsNaN at hf; omega)

-- -3.5, 2^31 (saturates), the largest f32 to u128, a negative number to unsigned, NaN
example : ConvPair f32 32 := ⟨by simp, by simp⟩
example : f32.IsFin 0xc0600000#32 ∧ f32.IsNaN 0x7fc00000#32 := by unfold IsFin IsNaN; decide +kernel
example : f32.floatToSigned 32 0xc0600000#32 = .ok (-3#32) ∧
    f32.floatToSigned 32 0x4f000000#32 = .ok 0x7fffffff#32 ∧
    f32.floatToUnsigned 128 0x7f7fffff#32 = .ok 0xffffff00000000000000000000000000#128 ∧
    f64.floatToUnsigned 32 0xc008000000000000#64 = .ok 0#32 ∧
    f32.floatToSigned 64 0x7fc00000#32 = .ok 0#64 := by decide +kernel

/-! ## C33 -/

/-- `__powi*2`: with exact multiplication and division in any field the code computes `a ^ b`, for every `i32`
exponent `b` (including `i32::MIN`); the loop terminates. -/
theorem C33_powi_field {K : Type} [Field K] (a : K) (b : BitVec 32) :
    powi (1 : K) (fun x y => .ok (x * y)) (fun x y => .ok (x / y)) a b = .ok (a ^ b.toInt) := by
  unfold powi
  dsimp only
  rw [powLoop_spec (fun _ _ => rfl) 32 a 1 _ (absDiffZero b).isLt (by omega), absDiffZero_toNat, one_mul]
  show (if b.msb = true then Except.ok (1 / a ^ b.toInt.natAbs) else Except.ok (a ^ b.toInt.natAbs)) = _
  rw [BitVec.msb_eq_toInt]
  by_cases h : b.toInt < 0
  · rw [if_pos (by simpa using h)]
    congr 1
    rw [one_div, ← zpow_natCast, ← zpow_neg]
    congr 1; omega
  · rw [if_neg (by simpa using h)]
    congr 1
    rw [← zpow_natCast]
    congr 1; omega

/-- The loop terminates and does not fail for any multiplication that returns (in particular a rounding one); any
property of the operands kept by the multiplication holds for the result. -/
theorem C33_powi_total {α : Type} {P : α → Prop} {mulOp divOp : α → α → M α} {one a : α}
    (hm : ∀ x y, P x → P y → ∃ r, mulOp x y = .ok r ∧ P r) (hd : ∀ x y, P x → P y → ∃ r, divOp x y = .ok r ∧ P r)
    (h1 : P one) (ha : P a) (b : BitVec 32) : ∃ r, powi one mulOp divOp a b = .ok r ∧ P r := by
  unfold powi
  refine Ok.bind (powLoop_total hm 32 a one _ (absDiffZero b).isLt (by omega) ha h1) ?_
  intro q hq
  split
  · exact hd _ _ h1 hq
  · exact Ok.pure' hq

-- 3^5, 2^-3, exponent i32::MIN
example : powi (1 : ℚ) (fun x y => .ok (x * y)) (fun x y => .ok (x / y)) 3 5#32 = .ok 243 := by
  rw [C33_powi_field]; norm_num [BitVec.toInt]
example : powi (1 : ℚ) (fun x y => .ok (x * y)) (fun x y => .ok (x / y)) 2 (-3#32) = .ok (1 / 8) := by
  rw [C33_powi_field, show (-3#32).toInt = -3 from by decide]; norm_num [zpow_neg]
example : (0x80000000#32).toInt = -2 ^ 31 := by decide
-- a rounding multiplication (f32) to which `C33_powi_total` applies
example : powi 0x3f800000#32 f32.mulPrim f32.mulPrim 0x40400000#32 5#32 = .ok 0x43730000#32 := by decide +kernel

/-! ## C54 -/

/-- An integer of magnitude at most `2^(SIG_BITS+1)` survives the conversion to float and back (unsigned). -/
theorem C54_roundtrip_unsigned {F : Fmt} {N : Nat} (h : ConvPair F N) {conv : BitVec N → M (BitVec F.w)}
    (hc : ∀ i, ∃ r, conv i = .ok r ∧ F.Rounds (i.toNat : ℚ) r ∧ F.sign r = false)
    {i : BitVec N} (hi : i.toNat ≤ 2 ^ (F.s + 1)) :
    ∃ f, conv i = .ok f ∧ F.floatToUnsigned N f = .ok i := by
  obtain ⟨f, hf, hr, _⟩ := hc i
  refine ⟨f, hf, ?_⟩
  obtain ⟨hfin, hv⟩ := F.val_of_rounds_int (i := (i.toNat : ℤ)) (by exact_mod_cast hr)
    (by rw [abs_of_nonneg (by positivity)]; exact_mod_cast hi)
  obtain ⟨r, hr, ht⟩ := C32_unsigned_finite h hfin
  rw [hr]
  congr 1
  apply BitVec.eq_of_toNat_eq
  rw [hv] at ht
  unfold satTrunc at ht
  rw [truncZ_intCast] at ht
  have := i.isLt
  have h2 : (i.toNat : ℤ) < 2 ^ N := by exact_mod_cast this
  omega

/-- The same for signed integers. -/
theorem C54_roundtrip_signed {F : Fmt} {N : Nat} (h : ConvPair F N) {conv : BitVec N → M (BitVec F.w)}
    (hc : ∀ i, ∃ r, conv i = .ok r ∧ F.Rounds (i.toInt : ℚ) r ∧ F.sign r = i.msb)
    {i : BitVec N} (hi : |i.toInt| ≤ 2 ^ (F.s + 1)) :
    ∃ f, conv i = .ok f ∧ F.floatToSigned N f = .ok i := by
  obtain ⟨f, hf, hr, _⟩ := hc i
  refine ⟨f, hf, ?_⟩
  obtain ⟨hfin, hv⟩ := F.val_of_rounds_int hr hi
  obtain ⟨r, hr, ht⟩ := C32_signed_finite h hfin
  rw [hr]
  congr 1
  apply BitVec.eq_of_toInt_eq
  rw [hv] at ht
  unfold satTrunc at ht
  rw [truncZ_intCast] at ht
  have h1 := BitVec.toInt_lt (x := i)
  have h2 := BitVec.le_toInt i
  omega

/-- Any integer: the way back returns the rounded value, truncated and saturated (unsigned, finite result). -/
theorem C54_any_unsigned {F : Fmt} {N : Nat} (h : ConvPair F N) {conv : BitVec N → M (BitVec F.w)}
    (hc : ∀ i, ∃ r, conv i = .ok r ∧ F.Rounds (i.toNat : ℚ) r ∧ F.sign r = false) (i : BitVec N) :
    ∃ f r, conv i = .ok f ∧ F.floatToUnsigned N f = .ok r ∧ F.Rounds (i.toNat : ℚ) f ∧
      (F.IsFin f → (r.toNat : ℤ) = satTrunc 0 (2 ^ N - 1) (F.val f)) ∧ (F.IsInf f → r = BitVec.allOnes N) := by
  obtain ⟨f, hf, hr, hs⟩ := hc i
  by_cases hfin : F.IsFin f
  · obtain ⟨r, h1, h2⟩ := C32_unsigned_finite h hfin
    exact ⟨f, r, hf, h1, hr, fun _ => h2, fun hi => by unfold IsFin at hfin; unfold IsInf at hi; omega⟩
  · have hle := hr.1.1
    have hinf : F.IsInf f := by unfold IsFin at hfin; unfold IsInf; omega
    refine ⟨f, _, hf, C32_unsigned_special h (Or.inl hinf), hr, fun h => absurd h hfin, fun _ => ?_⟩
    rw [if_pos ⟨hinf, hs⟩]

-- the conversions of C31 meet the hypothesis `hc`, e.g. u64 -> f32 -> u64
example (i : BitVec 64) (hi : i.toNat ≤ 2 ^ 24) : ∃ f, u64ToF32 i = .ok f ∧ f32.floatToUnsigned 64 f = .ok i :=
  C54_roundtrip_unsigned ⟨by simp, by simp⟩ C31_unsigned.2.2.2.1 hi
example (i : BitVec 128) (hi : |i.toInt| ≤ 2 ^ 53) :
    ∃ f, signedConv f64 u128ToF64 i = .ok f ∧ f64.floatToSigned 128 f = .ok i :=
  C54_roundtrip_signed ⟨by simp, by simp⟩ C31_signed.2.2.2.2.2.2.2.1 hi
-- not vacuous, and 2^24 + 1 does not survive
example : u64ToF32 0xffffff#64 = .ok 0x4b7fffff#32 ∧ f32.floatToUnsigned 64 0x4b7fffff#32 = .ok 0xffffff#64 ∧
    u64ToF32 0x1000001#64 = .ok 0x4b800000#32 ∧ f32.floatToUnsigned 64 0x4b800000#32 = .ok 0x1000000#64 := by
  decide +kernel

end Verif.Props
