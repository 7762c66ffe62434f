import Verif.Int.TrifectaProofs
import Verif.Int.AsymmetricProofs
import Verif.Int.BinaryLongProofs
import Verif.Int.SDivProofs
/-!
# Properties C01 - C04: integer division

The specification is Euclid's: `n = q * d + r` with `r < d`, read through `BitVec.toNat`, and (signed)
truncation toward zero, read through `BitVec.toInt`. A result `.ok _` says that no step overflowed,
shifted too far, or was undefined, and that every loop ended.
-/
namespace Verif.Props

/-- `f` divides exactly on every input with a non-zero divisor. -/
def DividesExactly {w} (f : DivRem w) : Prop :=
  ∀ n d : BitVec w, d ≠ 0#w → ∃ q r, f n d = .ok (q, r) ∧
    n.toNat = q.toNat * d.toNat + r.toNat ∧ r.toNat < d.toNat

theorem dividesExactly_iff {w} (f : DivRem w) : DividesExactly f ↔ IsDivRem f := by
  constructor
  · intro h n d hd
    obtain ⟨q, r, e, h1, h2⟩ := h n d (toNat_ne_zero hd)
    exact ⟨(q, r), e, divRem_of h1.symm h2⟩
  · intro h n d hd
    obtain ⟨⟨q, r⟩, e, h1, h2⟩ := h n d (ne_zero_toNat hd)
    refine ⟨q, r, e, ?_, ?_⟩
    · simp only at h1 h2
      rw [h1, h2, Nat.mul_comm, Nat.div_add_mod]
    · simp only at h2
      rw [h2]; exact Nat.mod_lt _ (Nat.pos_of_ne_zero (ne_zero_toNat hd))

/-! ## C03: 32-bit unsigned division -/

/-- `u32_div_rem`: exact for every dividend and non-zero divisor, with and without a CLZ instruction. -/
theorem C03_u32_div_rem (useLz : Bool) : DividesExactly (u32DivRem useLz) :=
  (dividesExactly_iff _).2 (binaryLong_spec (k := 4) rfl useLz)

/-- The algorithm is exact for every power-of-two width. -/
theorem C03_binary_long_generic {k : Nat} (useLz : Bool) :
    DividesExactly (binaryLong (w := 2 ^ (k + 1)) useLz) :=
  (dividesExactly_iff _).2 (binaryLong_spec rfl useLz)

/-! ## C02: 64-bit unsigned division -/

/-- A 32-bit division a compiler may use for `u32 / u32`: the hardware's, or the software routine. -/
inductive Half32 : DivRem 32 → Prop
  | native : Half32 nativeDivRem
  | software (useLz : Bool) : Half32 (u32DivRem useLz)

theorem Half32.isDivRem {f} (h : Half32 f) : IsDivRem f := by
  cases h with
  | native => exact nativeDivRem_spec
  | software lz => exact binaryLong_spec (k := 4) rfl lz

/-- The `u64_div_rem` of some target. -/
inductive U64Div : DivRem 64 → Prop
  | delegate {half} (h : Half32 half) (useLz : Bool) : U64Div (u64DivRemDelegate useLz half)
  | binaryLong (useLz : Bool) : U64Div (u64DivRemBinaryLong useLz)
  | asymmetric {half} (h : Half32 half) : U64Div (u64DivRemAsymmetric half)

theorem U64Div.isDivRem {f} (h : U64Div f) : IsDivRem f := by
  cases h with
  | delegate h lz => exact delegate_spec (k := 4) (q := 16) rfl lz h.isDivRem
  | binaryLong lz => exact binaryLong_spec (k := 5) rfl lz
  | asymmetric h => exact asymmetric_spec (n := 32) (by omega) h.isDivRem

/-- Every `u64_div_rem` that a target may select is exact. -/
theorem C02_u64_div_rem {f : DivRem 64} (h : U64Div f) : DividesExactly f :=
  (dividesExactly_iff _).2 h.isDivRem

/-! ## C01: 128-bit unsigned division -/

/-- A 64-bit division a compiler may use for `u64 / u64`. -/
inductive Half64 : DivRem 64 → Prop
  | native : Half64 nativeDivRem
  | software {f} (h : U64Div f) : Half64 f

theorem Half64.isDivRem {f} (h : Half64 f) : IsDivRem f := by
  cases h with
  | native => exact nativeDivRem_spec
  | software h => exact h.isDivRem

/-- The `u128_div_rem` of some target. -/
inductive U128Div : DivRem 128 → Prop
  | trifecta {half} (h : Half64 half) : U128Div (u128DivRemTrifecta half)
  | delegate {half} (h : Half64 half) (useLz : Bool) : U128Div (u128DivRemDelegate useLz half)
  | asymmetric {half} (h : Half64 half) : U128Div (u128DivRemAsymmetric half)

theorem U128Div.isDivRem {f} (h : U128Div f) : IsDivRem f := by
  cases h with
  | trifecta h => exact trifecta_spec (q := 32) (by omega) h.isDivRem
  | delegate h lz => exact delegate_spec (k := 5) (q := 32) rfl lz h.isDivRem
  | asymmetric h => exact asymmetric_spec (n := 64) (by omega) h.isDivRem

/-- Every `u128_div_rem` that a target may select is exact. -/
theorem C01_u128_div_rem {f : DivRem 128} (h : U128Div f) : DividesExactly f :=
  (dividesExactly_iff _).2 h.isDivRem

/-- The trifecta algorithm is exact at every width `4q`, given an exact half-width division. -/
theorem C01_trifecta_generic {q : Nat} (hq : 0 < q) {half : DivRem (2 * q)} (hh : DividesExactly half) :
    DividesExactly (trifecta half) :=
  (dividesExactly_iff _).2 (trifecta_spec hq ((dividesExactly_iff _).1 hh))

/-- The asymmetric algorithm (hardware `2n`-by-`n` divide) is exact at every even width. -/
theorem C01_asymmetric_generic {n : Nat} (hn : 0 < n) {half : DivRem n} (hh : DividesExactly half) :
    DividesExactly (asymmetric half) :=
  (dividesExactly_iff _).2 (asymmetric_spec hn ((dividesExactly_iff _).1 hh))

/-- The delegate algorithm is exact at every width `4q` that is a power of two. -/
theorem C01_delegate_generic {q k : Nat} (hq : 2 * q = 2 ^ (k + 1)) (useLz : Bool)
    {half : DivRem (2 * q)} (hh : DividesExactly half) : DividesExactly (delegate useLz half) :=
  (dividesExactly_iff _).2 (delegate_spec hq useLz ((dividesExactly_iff _).1 hh))

example : U128Div (u128DivRemDelegate false (u64DivRemDelegate false (u32DivRem false))) :=
  .delegate (.software (.delegate (.software false) false)) false
example : u128DivRemTrifecta nativeDivRem 0xFFFFFFFFFFFFFFFFFFFFFFFFFFFFFFFF#128 0x10000000000000001#128
    = .ok (0xFFFFFFFFFFFFFFFF#128, 0#128) := by decide +kernel
example : u64DivRemAsymmetric (u32DivRem true) 0xFFFFFFFFFFFFFFFF#64 0x100000003#64
    = .ok (0xFFFFFFFD#64, 8#64) := by decide +kernel
example : u32DivRem false 4000000000#32 7#32 = .ok (571428571#32, 3#32) := by decide +kernel

/-! ### The public entry points -/

/-- `__udivti3`/`__udivdi3`/`__udivsi3`, `__umod*3`, `__udivmod*4` for any exact division: quotient and
remainder of Euclidean division, the remainder stored exactly when a pointer is supplied. -/
theorem C01_entry_points {w} {f : DivRem w} (hf : DividesExactly f) (n d : BitVec w) (hd : d ≠ 0#w) :
    ∃ q r : BitVec w, n.toNat = q.toNat * d.toNat + r.toNat ∧ r.toNat < d.toNat ∧
      udiv f n d = .ok q ∧ umod f n d = .ok r ∧
      udivmod f n d none = .ok (q, none) ∧ ∀ old, udivmod f n d (some old) = .ok (q, some r) := by
  obtain ⟨q, r, e, h1, h2⟩ := hf n d hd
  refine ⟨q, r, h1, h2, ?_, ?_, ?_, ?_⟩
  · simp [udiv, e, pure, Except.pure]
  · simp [umod, e, pure, Except.pure]
  · simp [udivmod, e, pure, Except.pure]
  · simp [udivmod, e, pure, Except.pure]

/-- `__udivmodti4` etc. on every target. -/
theorem C01_udivmodti4 {f : DivRem 128} (h : U128Div f) (n d : BitVec 128) (hd : d ≠ 0#128) :
    ∃ q r : BitVec 128, n.toNat = q.toNat * d.toNat + r.toNat ∧ r.toNat < d.toNat ∧
      udiv f n d = .ok q ∧ umod f n d = .ok r ∧
      udivmod f n d none = .ok (q, none) ∧ ∀ old, udivmod f n d (some old) = .ok (q, some r) :=
  C01_entry_points (C01_u128_div_rem h) n d hd

/-- `__udivmoddi4` etc. on every target. -/
theorem C02_udivmoddi4 {f : DivRem 64} (h : U64Div f) (n d : BitVec 64) (hd : d ≠ 0#64) :
    ∃ q r : BitVec 64, n.toNat = q.toNat * d.toNat + r.toNat ∧ r.toNat < d.toNat ∧
      udiv f n d = .ok q ∧ umod f n d = .ok r ∧
      udivmod f n d none = .ok (q, none) ∧ ∀ old, udivmod f n d (some old) = .ok (q, some r) :=
  C01_entry_points (C02_u64_div_rem h) n d hd

/-- `__udivmodsi4` etc. on every target. -/
theorem C03_udivmodsi4 (useLz : Bool) (n d : BitVec 32) (hd : d ≠ 0#32) :
    ∃ q r : BitVec 32, n.toNat = q.toNat * d.toNat + r.toNat ∧ r.toNat < d.toNat ∧
      udiv (u32DivRem useLz) n d = .ok q ∧ umod (u32DivRem useLz) n d = .ok r ∧
      udivmod (u32DivRem useLz) n d none = .ok (q, none) ∧
      ∀ old, udivmod (u32DivRem useLz) n d (some old) = .ok (q, some r) :=
  C01_entry_points (C03_u32_div_rem useLz) n d hd

/-- `__udivmodsi4` on AVR: the quotient in the low half of the result, the remainder in the high half. -/
theorem C03_udivmodsi4_avr (useLz : Bool) (n d : BitVec 32) (hd : d ≠ 0#32) :
    ∃ p : BitVec 64, udivmodPacked (u32DivRem useLz) n d = .ok p ∧
      p.toNat % 2 ^ 32 = n.toNat / d.toNat ∧ p.toNat / 2 ^ 32 = n.toNat % d.toNat := by
  obtain ⟨p, e, h1, h2⟩ := udivmodPacked_eq (w := 32) (binaryLong_spec (k := 4) rfl useLz) n d hd
  refine ⟨p, e, ?_, ?_⟩
  · have := congrArg BitVec.toNat h1
    simpa using this
  · have := congrArg BitVec.toNat h2
    have hp : p.toNat < 2 ^ 64 := p.isLt
    rw [BitVec.toNat_setWidth, BitVec.toNat_ushiftRight, Nat.shiftRight_eq_div_pow,
      Nat.mod_eq_of_lt (by omega), BitVec.toNat_umod] at this
    exact this

/-- AVR assembly `__udivmodqi4`: 8-bit quotient in `R24` and remainder in `R25`. -/
theorem C03_udivmodqi4_avr (n d : BitVec 8) (hd : d ≠ 0#8) :
    (udivmodqi4 n d).1.toNat = n.toNat / d.toNat ∧ (udivmodqi4 n d).2.toNat = n.toNat % d.toNat :=
  udivmodqi4_spec n d (ne_zero_toNat hd)

/-- AVR assembly `__udivmodhi4`: 16-bit quotient in `R22:R23` and remainder in `R24:R25`. -/
theorem C03_udivmodhi4_avr (n0 n1 d0 d1 : BitVec 8) (hd : d0.toNat + 256 * d1.toNat ≠ 0) :
    (udivmodhi4 n0 n1 d0 d1).1.toNat + 256 * (udivmodhi4 n0 n1 d0 d1).2.1.toNat
      = (n0.toNat + 256 * n1.toNat) / (d0.toNat + 256 * d1.toNat) ∧
    (udivmodhi4 n0 n1 d0 d1).2.2.1.toNat + 256 * (udivmodhi4 n0 n1 d0 d1).2.2.2.toNat
      = (n0.toNat + 256 * n1.toNat) % (d0.toNat + 256 * d1.toNat) :=
  udivmodhi4_spec n0 n1 d0 d1 hd

example : udivmodqi4 250#8 200#8 = (1#8, 50#8) := by decide +kernel
example : udivmodhi4 0xFF#8 0xFF#8 0x01#8 0x80#8 = (1#8, 0#8, 0xFE#8, 0x7F#8) := by decide +kernel

/-! ## C04: signed division -/

/-- `__divmod*4`, `__div*3`, `__mod*3` for any exact unsigned division: quotient truncated toward zero,
remainder with the sign of the dividend; `MIN / -1` wraps to `MIN` with remainder `0`. -/
theorem C04_signed {w} {f : DivRem w} (hf : DividesExactly f) (a b : BitVec w) (hb : b ≠ 0#w) :
    ∃ q r : BitVec w,
      sdiv f a b = .ok q ∧ smod f a b = .ok r ∧ (∀ old, sdivmod f a b old = .ok (q, r)) ∧
      r.toInt = a.toInt.tmod b.toInt ∧
      (¬ (a = BitVec.intMin w ∧ b = -1#w) → q.toInt = a.toInt.tdiv b.toInt) ∧
      (a = BitVec.intMin w ∧ b = -1#w → q = BitVec.intMin w) := by
  have hf := (dividesExactly_iff _).1 hf
  refine ⟨a.sdiv b, a.srem b, sdiv_eq hf a b hb, smod_eq hf a b hb, fun r => sdivmod_eq hf a b r hb,
    BitVec.toInt_srem .., ?_, ?_⟩
  · intro h
    rw [BitVec.toInt_sdiv_of_ne_or_ne]
    by_cases ha : a = BitVec.intMin w
    · right; intro hb'; exact h ⟨ha, hb'⟩
    · exact Or.inl ha
  · rintro ⟨rfl, rfl⟩
    simp [BitVec.intMin_sdiv_neg_one]

/-- The defining equations in elementary terms: `a = q*b + r`, `|r| < |b|`, and `r` is zero or has the
sign of `a`. -/
theorem C04_signed_equations {w} {f : DivRem w} (hf : DividesExactly f) (a b : BitVec w) (hb : b ≠ 0#w)
    (hne : ¬ (a = BitVec.intMin w ∧ b = -1#w)) :
    ∃ q r : BitVec w, (∀ old, sdivmod f a b old = .ok (q, r)) ∧
      a.toInt = q.toInt * b.toInt + r.toInt ∧ r.toInt.natAbs < b.toInt.natAbs ∧
      (0 ≤ a.toInt → 0 ≤ r.toInt) ∧ (a.toInt ≤ 0 → r.toInt ≤ 0) := by
  obtain ⟨q, r, -, -, h1, h2, h3, -⟩ := C04_signed hf a b hb
  have hb' : b.toInt ≠ 0 := by
    intro h; apply hb; apply BitVec.eq_of_toInt_eq; simpa using h
  refine ⟨q, r, h1, ?_, ?_, ?_, ?_⟩
  · rw [h2, h3 hne, Int.mul_comm, Int.mul_tdiv_add_tmod]
  · rw [h2, Int.natAbs_tmod]
    exact Nat.mod_lt _ (Int.natAbs_pos.2 hb')
  · intro h; rw [h2]; exact Int.tmod_nonneg _ h
  · intro h; rw [h2]
    have := Int.tmod_nonneg (a := -a.toInt) b.toInt (by omega)
    rw [Int.neg_tmod] at this; omega

/-- `__divmodti4`, `__divti3`, `__modti3` on every target. -/
theorem C04_divmodti4 {f : DivRem 128} (h : U128Div f) (a b : BitVec 128) (hb : b ≠ 0#128) :
    ∃ q r : BitVec 128,
      sdiv f a b = .ok q ∧ smod f a b = .ok r ∧ (∀ old, sdivmod f a b old = .ok (q, r)) ∧
      r.toInt = a.toInt.tmod b.toInt ∧
      (¬ (a = BitVec.intMin 128 ∧ b = -1#128) → q.toInt = a.toInt.tdiv b.toInt) ∧
      (a = BitVec.intMin 128 ∧ b = -1#128 → q = BitVec.intMin 128) :=
  C04_signed (C01_u128_div_rem h) a b hb

/-- `__divmoddi4`, `__divdi3`, `__moddi3` on every target. -/
theorem C04_divmoddi4 {f : DivRem 64} (h : U64Div f) (a b : BitVec 64) (hb : b ≠ 0#64) :
    ∃ q r : BitVec 64,
      sdiv f a b = .ok q ∧ smod f a b = .ok r ∧ (∀ old, sdivmod f a b old = .ok (q, r)) ∧
      r.toInt = a.toInt.tmod b.toInt ∧
      (¬ (a = BitVec.intMin 64 ∧ b = -1#64) → q.toInt = a.toInt.tdiv b.toInt) ∧
      (a = BitVec.intMin 64 ∧ b = -1#64 → q = BitVec.intMin 64) :=
  C04_signed (C02_u64_div_rem h) a b hb

/-- `__divmodsi4`, `__divsi3`, `__modsi3` on every target. -/
theorem C04_divmodsi4 (useLz : Bool) (a b : BitVec 32) (hb : b ≠ 0#32) :
    ∃ q r : BitVec 32,
      sdiv (u32DivRem useLz) a b = .ok q ∧ smod (u32DivRem useLz) a b = .ok r ∧
      (∀ old, sdivmod (u32DivRem useLz) a b old = .ok (q, r)) ∧
      r.toInt = a.toInt.tmod b.toInt ∧
      (¬ (a = BitVec.intMin 32 ∧ b = -1#32) → q.toInt = a.toInt.tdiv b.toInt) ∧
      (a = BitVec.intMin 32 ∧ b = -1#32 → q = BitVec.intMin 32) :=
  C04_signed (C03_u32_div_rem useLz) a b hb

/-- `__divmodsi4` on AVR: quotient in the low half, remainder in the high half. -/
theorem C04_divmodsi4_avr (useLz : Bool) (a b : BitVec 32) (hb : b ≠ 0#32) :
    ∃ p : BitVec 64, sdivmodPacked (u32DivRem useLz) a b = .ok p ∧
      (p.setWidth 32).toInt = (a.toInt.tdiv b.toInt).bmod (2 ^ 32) ∧
      ((p >>> 32).setWidth 32).toInt = a.toInt.tmod b.toInt := by
  obtain ⟨p, e, h1, h2⟩ := sdivmodPacked_eq (w := 32) (binaryLong_spec (k := 4) rfl useLz) a b hb
  exact ⟨p, e, by rw [h1, BitVec.toInt_sdiv], by rw [h2, BitVec.toInt_srem]⟩

example : sdivmod (u32DivRem true) (-7#32) 2#32 0#32 = .ok (-3#32, -1#32) := by decide +kernel
example : sdivmod (u64DivRemBinaryLong true) 0x8000000000000000#64 (-1#64) 5#64
    = .ok (0x8000000000000000#64, 0#64) := by decide +kernel

end Verif.Props
