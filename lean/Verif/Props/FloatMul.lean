import Verif.Float.ExtTruncProofs
import Verif.Int.WideProofs
/-!
# Properties C26, C28 - C30: soft-float multiplication, extension, truncation

`Fmt.Wider N W` collects the numeric facts about a pair of formats that the conversions rely on (more exponent
bits, at least two more significand bits, every value of the narrow format normal in the wide one); it is
proved below for every pair of formats for which the crate has a conversion.
-/
namespace Verif.Props
open Fmt

/-! ## C26 -/

/-- `__mulhf3`, `__mulsf3`, `__muldf3`: the product of finite operands is correctly rounded, its sign is the xor of
the signs. -/
theorem C26_mul_finite (F : Fmt) {a b : BitVec F.w} (ha : F.IsFin a) (hb : F.IsFin b) :
    ∃ r, F.mulPrim a b = .ok r ∧ F.Rounds (F.val a * F.val b) r ∧ F.sign r = (F.sign a ^^ F.sign b) :=
  F.mul_fin (DOps.prim_lawful F.w) ha hb

theorem C26_mul_nan (F : Fmt) {a b : BitVec F.w} (h : F.IsNaN a ∨ F.IsNaN b) :
    ∃ r, F.mulPrim a b = .ok r ∧ F.IsQNaN r := F.mul_nan h

/-- infinity times zero is a quiet NaN, infinity times anything else that is not NaN is an infinity -/
theorem C26_mul_inf (F : Fmt) {a b : BitVec F.w} (ha : ¬ F.IsNaN a) (hb : ¬ F.IsNaN b) (h : F.IsInf a ∨ F.IsInf b) :
    ∃ r, F.mulPrim a b = .ok r ∧
      if F.IsZero a ∨ F.IsZero b then F.IsQNaN r else F.IsInf r ∧ F.sign r = (F.sign a ^^ F.sign b) :=
  F.mul_inf ha hb h

/-- the two-limb `u256` used by `__multf3` has lawful widening multiplication -/
theorem wide128_lawful : (DOps.wide 64 : DOps f128.w).Lawful := DOps.wide_lawful (g := 64) (k := 6) rfl

/-- `__multf3`: the same for binary128, with the significand product computed in the crate's `u256`. -/
theorem C26_multf3_finite {a b : BitVec f128.w} (ha : f128.IsFin a) (hb : f128.IsFin b) :
    ∃ r, multf3 a b = .ok r ∧ f128.Rounds (f128.val a * f128.val b) r ∧
      f128.sign r = (f128.sign a ^^ f128.sign b) :=
  f128.mul_fin wide128_lawful ha hb

theorem C26_multf3_nan {a b : BitVec f128.w} (h : f128.IsNaN a ∨ f128.IsNaN b) :
    ∃ r, multf3 a b = .ok r ∧ f128.IsQNaN r := f128.mul_nan h

theorem C26_multf3_inf {a b : BitVec f128.w} (ha : ¬ f128.IsNaN a) (hb : ¬ f128.IsNaN b)
    (h : f128.IsInf a ∨ f128.IsInf b) :
    ∃ r, multf3 a b = .ok r ∧
      if f128.IsZero a ∨ f128.IsZero b then f128.IsQNaN r
      else f128.IsInf r ∧ f128.sign r = (f128.sign a ^^ f128.sign b) :=
  f128.mul_inf ha hb h

-- (1+2^-12)^2 exact is 1 + 2^-11 + 2^-24: a tie; a subnormal product; underflow to -0; overflow; 0 * inf
example : f32.IsFin 0x3f800800#32 ∧ f32.IsFin 0x00000001#32 ∧ f32.IsInf 0x7f800000#32 ∧ ¬ f32.IsNaN 0#32 := by
  unfold IsFin IsNaN IsInf; decide +kernel
example : f32.mulPrim 0x3f800800#32 0x3f800800#32 = .ok 0x3f801000#32 ∧
    f32.mulPrim 0x00800000#32 0x3f000001#32 = .ok 0x00400000#32 ∧
    f32.mulPrim 0x80000001#32 0x3f000000#32 = .ok 0x80000000#32 ∧
    f32.mulPrim 0x7f7fffff#32 0x40000000#32 = .ok 0x7f800000#32 := by decide +kernel
example : f32.mulPrim 0x7f800000#32 0#32 = .ok 0x7fc00000#32 := by decide +kernel
example : f128.IsFin 0x3fff8000000000000000000000000000#128 := by unfold IsFin; decide +kernel
example : multf3 0x3fff8000000000000000000000000000#128 0xbfff8000000000000000000000000000#128
    = .ok 0xc0002000000000000000000000000000#128 := by decide +kernel

/-! ## C28 -/

/-- every pair of formats for which the crate has a conversion -/
theorem wider_pairs : Wider f16 f32 ∧ Wider f16 f64 ∧ Wider f16 f128 ∧ Wider f32 f64 ∧ Wider f32 f128 ∧
    Wider f64 f128 :=
  ⟨wider_16_32, wider_16_64, wider_16_128, wider_32_64, wider_32_128, wider_64_128⟩

/-- `__extend*2` keeps the value of every finite number and its sign. -/
theorem C28_extend_finite {N W : Fmt} (hW : Wider N W) {a : BitVec N.w} (ha : N.IsFin a) :
    ∃ r, extend N W a = .ok r ∧ W.IsFin r ∧ W.sign r = N.sign a ∧ W.val r = N.val a := extend_fin hW ha

theorem C28_extend_inf {N W : Fmt} (hW : Wider N W) {a : BitVec N.w} (ha : N.IsInf a) :
    ∃ r, extend N W a = .ok r ∧ W.IsInf r ∧ W.sign r = N.sign a := by
  have ha' : N.mag a = N.infRep := ha
  obtain ⟨r, h1, h2, h3⟩ := extend_special hW (a := a) (by omega)
  refine ⟨r, h1, ?_, h2⟩
  rw [ha', Nat.sub_self, Nat.zero_mul, Nat.add_zero] at h3
  exact h3

/-- NaN becomes NaN; the sign and the payload are kept (the payload left-aligned). A signalling NaN is not
quieted. -/
theorem C28_extend_nan {N W : Fmt} (hW : Wider N W) {a : BitVec N.w} (ha : N.IsNaN a) :
    ∃ r, extend N W a = .ok r ∧ W.IsNaN r ∧ W.sign r = N.sign a ∧
      W.mag r - W.infRep = (N.mag a - N.infRep) * 2 ^ (W.s - N.s) := by
  have ha' : N.infRep < N.mag a := ha
  obtain ⟨r, h1, h2, h3⟩ := extend_special hW (a := a) (by omega)
  have hp : 0 < (N.mag a - N.infRep) * 2 ^ (W.s - N.s) := Nat.mul_pos (by omega) (Nat.two_pow_pos _)
  refine ⟨r, h1, ?_, h2, by omega⟩
  unfold IsNaN
  omega

-- 1.5, the smallest subnormal, -inf, a signalling NaN
example : f32.IsFin 0x00000001#32 ∧ f32.IsInf 0xff800000#32 ∧ f32.IsNaN 0x7f800001#32 := by
  unfold IsFin IsInf IsNaN; decide +kernel
example : extend f32 f64 0x3fc00000#32 = .ok 0x3ff8000000000000#64 ∧
    extend f32 f64 0x00000001#32 = .ok 0x36a0000000000000#64 ∧
    extend f32 f64 0xff800000#32 = .ok 0xfff0000000000000#64 ∧
    extend f32 f64 0x7f800001#32 = .ok 0x7ff0000020000000#64 := by decide +kernel

/-! ## C29 -/

/-- `__trunc*2` rounds every finite number correctly and keeps its sign (also of results that round to zero). -/
theorem C29_trunc_finite {N W : Fmt} (hW : Wider N W) {a : BitVec W.w} (ha : W.IsFin a) :
    ∃ r, trunc W N a = .ok r ∧ N.sign r = W.sign a ∧ N.Rounds (W.val a) r := trunc_fin hW ha

theorem C29_trunc_inf {N W : Fmt} (hW : Wider N W) {a : BitVec W.w} (ha : W.IsInf a) :
    ∃ r, trunc W N a = .ok r ∧ N.sign r = W.sign a ∧ N.IsInf r := trunc_inf hW ha

theorem C29_trunc_nan {N W : Fmt} (hW : Wider N W) {a : BitVec W.w} (ha : W.IsNaN a) :
    ∃ r, trunc W N a = .ok r ∧ N.sign r = W.sign a ∧ N.IsQNaN r := trunc_nan hW ha

-- 1 + 2^-24 (tie to even), 1 + 2^-24 + 2^-52, overflow, subnormal tie, -tiny to -0, signalling NaN quieted
example : f64.IsFin 0x3ff0000010000000#64 ∧ f64.IsInf 0xfff0000000000000#64 ∧ f64.IsNaN 0x7ff0000000000001#64 := by
  unfold IsFin IsInf IsNaN; decide +kernel
example : trunc f64 f32 0x3ff0000010000000#64 = .ok 0x3f800000#32 ∧
    trunc f64 f32 0x3ff0000010000001#64 = .ok 0x3f800001#32 ∧
    trunc f64 f32 0x47effffff0000000#64 = .ok 0x7f800000#32 ∧
    trunc f64 f32 0x36a8000000000000#64 = .ok 0x00000002#32 ∧
    trunc f64 f32 0x8000000000000001#64 = .ok 0x80000000#32 ∧
    trunc f64 f32 0x7ff0000000000001#64 = .ok 0x7fc00000#32 := by decide +kernel

/-! ## C30 -/

/-- Extending a pattern that is not NaN and truncating the result gives the same pattern. -/
theorem C30_trunc_extend {N W : Fmt} (hW : Wider N W) {a : BitVec N.w} (ha : ¬ N.IsNaN a) :
    ∃ b, extend N W a = .ok b ∧ trunc W N b = .ok a := trunc_extend hW ha

/-- Extending in two steps gives the same pattern as extending at once (not NaN). -/
theorem C30_extend_extend {A B C : Fmt} (hAB : Wider A B) (hBC : Wider B C) (hAC : Wider A C) {a : BitVec A.w}
    (ha : ¬ A.IsNaN a) :
    ∃ b c, extend A B a = .ok b ∧ extend B C b = .ok c ∧ extend A C a = .ok c := by
  have ha' : A.mag a ≤ A.infRep := by unfold IsNaN at ha; omega
  rcases Nat.lt_or_eq_of_le ha' with hlt | heq
  · obtain ⟨b, hb, fb, sb, vb⟩ := extend_fin hAB (a := a) hlt
    obtain ⟨c, hc, fc, sc, vc⟩ := extend_fin hBC (a := b) fb
    obtain ⟨d, hd, fd, sd, vd⟩ := extend_fin hAC (a := a) hlt
    refine ⟨b, c, hb, hc, ?_⟩
    rw [hd]
    congr 1
    have h1 := C.rounds_self (K := ℚ) (b := c) (Nat.le_of_lt fc)
    have h2 := C.rounds_self (K := ℚ) (b := d) (Nat.le_of_lt fd)
    refine C.ext_sign_mag (by rw [sd, sc, sb]) (IsRNE.unique C h2.1 ?_)
    have e : C.valK ℚ d = C.valK ℚ c := vd.trans (vb.symm.trans vc.symm)
    rw [e]
    exact h1.1
  · obtain ⟨b, hb, ib, sb⟩ := C28_extend_inf hAB (a := a) heq
    obtain ⟨c, hc, ic, sc⟩ := C28_extend_inf hBC ib
    obtain ⟨d, hd, id, sd⟩ := C28_extend_inf hAC (a := a) heq
    refine ⟨b, c, hb, hc, ?_⟩
    rw [hd]
    congr 1
    exact C.ext_sign_mag (by rw [sd, sc, sb]) (id.trans ic.symm)

example : ¬ f16.IsNaN 0x0001#16 := by unfold IsNaN; decide +kernel
example : extend f16 f128 0x0001#16 = .ok 0x3fe70000000000000000000000000000#128 ∧
    trunc f128 f16 0x3fe70000000000000000000000000000#128 = .ok 0x0001#16 := by decide +kernel

end Verif.Props
