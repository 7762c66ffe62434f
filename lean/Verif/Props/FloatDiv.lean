import Verif.Float.DivProofs
import Verif.Int.WideProofs
/-!
# Property C27: soft-float division

`ptr` is the pointer size of the target in bytes, on which the choice of Newton iterations for the reciprocal
depends. The statements cover every pointer size for which the crate has an error bound for the reciprocal (all
sizes for `f32`, below 16 bytes for `f64`, below 32 bytes for `f128`; real targets have at most 8).
-/
namespace Verif.Props
open Fmt

/-- what division has to deliver for operands outside the finite/nonzero-divisor case -/
def DivSpecialSpec (F : Fmt) (a b r : BitVec F.w) : Prop :=
  if F.IsNaN a ∨ F.IsNaN b then F.IsQNaN r
  else if (F.IsInf a ∧ F.IsInf b) ∨ (F.IsZero a ∧ F.IsZero b) then F.IsQNaN r
  else F.sign r = (F.sign a ^^ F.sign b) ∧ (if F.IsInf b then F.IsZero r else F.IsInf r)

theorem div_special_all {F : Fmt} {O : DOps F.w} {ptr : Nat} (C : F.DivCfg ptr) {a b : BitVec F.w}
    (h : ¬ (F.IsFin a ∧ F.IsFin b ∧ ¬ F.IsZero b)) :
    ∃ r, F.div O ptr a b = .ok r ∧ DivSpecialSpec F a b r := by
  unfold DivSpecialSpec
  by_cases hn : F.IsNaN a ∨ F.IsNaN b
  · obtain ⟨r, h1, h2⟩ := div_nan (O := O) C hn
    exact ⟨r, h1, by rw [if_pos hn]; exact h2⟩
  · have hna : ¬ F.IsNaN a := fun x => hn (Or.inl x)
    have hnb : ¬ F.IsNaN b := fun x => hn (Or.inr x)
    obtain ⟨r, h1, h2⟩ := div_special (O := O) C hna hnb (by
      unfold IsNaN at hna hnb; unfold IsFin IsZero at h; unfold IsInf IsZero; omega)
    exact ⟨r, h1, by rw [if_neg hn]; exact h2⟩

/-- `__divsf3` on every target: finite operands and a nonzero divisor give the correctly rounded quotient. -/
theorem C27_divsf3_finite (ptr : Nat) {a b : BitVec f32.w} (ha : f32.IsFin a) (hb : f32.IsFin b)
    (hz : ¬ f32.IsZero b) :
    ∃ r, f32.divPrim ptr a b = .ok r ∧ f32.Rounds (f32.val a / f32.val b) r ∧
      f32.sign r = (f32.sign a ^^ f32.sign b) := by
  rcases Nat.lt_or_ge ptr 8 with h | h
  · exact div_fin (DOps.prim_lawful _) (divCfg_f32_half h) ha hb hz
  · exact div_fin (DOps.prim_lawful _) (divCfg_f32_full h) ha hb hz

theorem C27_divsf3_special (ptr : Nat) {a b : BitVec f32.w} (h : ¬ (f32.IsFin a ∧ f32.IsFin b ∧ ¬ f32.IsZero b)) :
    ∃ r, f32.divPrim ptr a b = .ok r ∧ DivSpecialSpec f32 a b r := by
  rcases Nat.lt_or_ge ptr 8 with hp | hp
  · exact div_special_all (divCfg_f32_half hp) h
  · exact div_special_all (divCfg_f32_full hp) h

/-- `__divdf3` -/
theorem C27_divdf3_finite {ptr : Nat} (hp : ptr < 16) {a b : BitVec f64.w} (ha : f64.IsFin a) (hb : f64.IsFin b)
    (hz : ¬ f64.IsZero b) :
    ∃ r, f64.divPrim ptr a b = .ok r ∧ f64.Rounds (f64.val a / f64.val b) r ∧
      f64.sign r = (f64.sign a ^^ f64.sign b) :=
  div_fin (DOps.prim_lawful _) (divCfg_f64 hp) ha hb hz

theorem C27_divdf3_special {ptr : Nat} (hp : ptr < 16) {a b : BitVec f64.w}
    (h : ¬ (f64.IsFin a ∧ f64.IsFin b ∧ ¬ f64.IsZero b)) :
    ∃ r, f64.divPrim ptr a b = .ok r ∧ DivSpecialSpec f64 a b r := div_special_all (divCfg_f64 hp) h

/-- the product type of `__divtf3`: `u256` over two `u128` limbs -/
abbrev O128 : DOps f128.w := DOps.wide 64
theorem O128_lawful : O128.Lawful := DOps.wide_lawful (g := 64) (k := 6) rfl

/-- `__divtf3`, with the significand product computed in the crate's `u256` -/
theorem C27_divtf3_finite {ptr : Nat} (hp : ptr < 32) {a b : BitVec f128.w} (ha : f128.IsFin a) (hb : f128.IsFin b)
    (hz : ¬ f128.IsZero b) :
    ∃ r, divtf3 ptr a b = .ok r ∧ f128.Rounds (f128.val a / f128.val b) r ∧
      f128.sign r = (f128.sign a ^^ f128.sign b) :=
  div_fin (F := f128) (O := O128) O128_lawful (divCfg_f128 hp) ha hb hz

theorem C27_divtf3_special {ptr : Nat} (hp : ptr < 32) {a b : BitVec f128.w}
    (h : ¬ (f128.IsFin a ∧ f128.IsFin b ∧ ¬ f128.IsZero b)) :
    ∃ r, divtf3 ptr a b = .ok r ∧ DivSpecialSpec f128 a b r :=
  div_special_all (F := f128) (O := O128) (divCfg_f128 hp) h

/-- The Newton-Raphson reciprocal: for every normalised divisor significand `b1` (as `UQ1` number; its low `e` bits
are zero) the computed `x` is below the exact reciprocal `2^(2w-1)/b1` and by at most `d` units, in each of the
four configurations. -/
theorem C27_reciprocal :
    (∀ b1 : BitVec f32.w, 2 ^ 31 ≤ b1.toNat → 2 ^ 8 ∣ b1.toNat → ∃ x, f32.divRecip 2 1 74 b1 = .ok x ∧
      x.toNat * b1.toNat < 2 ^ 63 ∧ 2 ^ 63 ≤ x.toNat * b1.toNat + 111 * b1.toNat) ∧
    (∀ b1 : BitVec f32.w, 2 ^ 31 ≤ b1.toNat → 2 ^ 8 ∣ b1.toNat → ∃ x, f32.divRecip 0 3 10 b1 = .ok x ∧
      x.toNat * b1.toNat < 2 ^ 63 ∧ 2 ^ 63 ≤ x.toNat * b1.toNat + 20 * b1.toNat) ∧
    (∀ b1 : BitVec f64.w, 2 ^ 63 ≤ b1.toNat → 2 ^ 11 ∣ b1.toNat → ∃ x, f64.divRecip 3 1 220 b1 = .ok x ∧
      x.toNat * b1.toNat < 2 ^ 127 ∧ 2 ^ 127 ≤ x.toNat * b1.toNat + 400 * b1.toNat) ∧
    (∀ b1 : BitVec f128.w, 2 ^ 127 ≤ b1.toNat → 2 ^ 15 ∣ b1.toNat → ∃ x, f128.divRecip 5 1 13922 b1 = .ok x ∧
      x.toNat * b1.toNat < 2 ^ 255 ∧ 2 ^ 255 ≤ x.toNat * b1.toNat + 14000 * b1.toNat) :=
  ⟨fun _ h1 h2 => divRecip_f32_half h1 h2, fun _ h1 h2 => divRecip_f32_full h1 h2,
   fun _ h1 h2 => divRecip_f64 h1 h2, fun _ h1 h2 => divRecip_f128 h1 h2⟩

example : f64.divRecip 3 1 220 0xc000000000000000#64 = .ok 0xaaaaaaaaaaaaa9ca#64 := by decide +kernel

-- 1/3 on a 64-bit and a 32-bit target, a subnormal quotient, overflow, underflow to -0, 1/0, 0/0, -1/inf
example : f32.IsFin 0x3f800000#32 ∧ f32.IsFin 0x40400000#32 ∧ ¬ f32.IsZero 0x40400000#32 := by
  unfold IsFin IsZero; decide +kernel
example : f32.divPrim 8 0x3f800000#32 0x40400000#32 = .ok 0x3eaaaaab#32 ∧
    f32.divPrim 4 0x3f800000#32 0x40400000#32 = .ok 0x3eaaaaab#32 ∧
    f32.divPrim 4 0x00800000#32 0x40400000#32 = .ok 0x002aaaab#32 ∧
    f32.divPrim 4 0x7f7fffff#32 0x3f000000#32 = .ok 0x7f800000#32 ∧
    f32.divPrim 8 0x80000001#32 0x40000000#32 = .ok 0x80000000#32 ∧
    f32.divPrim 8 0x3f800000#32 0#32 = .ok 0x7f800000#32 ∧
    f32.divPrim 8 0#32 0#32 = .ok 0x7fc00000#32 ∧
    f32.divPrim 8 0xbf800000#32 0x7f800000#32 = .ok 0x80000000#32 := by decide +kernel
example : f64.divPrim 8 0x3ff0000000000000#64 0x4008000000000000#64 = .ok 0x3fd5555555555555#64 := by decide +kernel
example : divtf3 8 0x3fff0000000000000000000000000000#128 0x40008000000000000000000000000000#128 =
    .ok 0x3ffd5555555555555555555555555555#128 := by decide +kernel

end Verif.Props
