import Verif.Int.DInt
/-!
# Model of `compiler-builtins/src/int/addsub.rs`
-/
namespace Verif

/-- `UAddSub::uadd`, addsub.rs 4-9. -/
def uadd {h} (a b : BitVec (2 * h)) : BitVec (2 * h) :=
  let (l, carry) := overflowingAdd (lo a) (lo b)
  let u := hi a + hi b
  let carry : BitVec h := if carry then 1#h else 0#h
  fromLoHi l (u + carry)

/-- `UAddSub::uadd_one`, addsub.rs 10-14. -/
def uaddOne {h} (a : BitVec (2 * h)) : BitVec (2 * h) :=
  let (l, carry) := overflowingAdd (lo a) 1#h
  let carry : BitVec h := if carry then 1#h else 0#h
  fromLoHi l (hi a + carry)

/-- `UAddSub::usub`, addsub.rs 15-18. -/
def usub {h} (a b : BitVec (2 * h)) : BitVec (2 * h) := uadd a (uaddOne (~~~ b))

/-- `AddSub::add`, addsub.rs 27-29 (`from_unsigned`/`unsigned` are bit-preserving casts);
`__rust_u128_add`, `__rust_i128_add`, lines 65-67, 75-77. -/
def addSubAdd {h} (a b : BitVec (2 * h)) : BitVec (2 * h) := uadd a b
/-- `AddSub::sub`, addsub.rs 30-32; `__rust_u128_sub`, `__rust_i128_sub`, lines 85-87, 95-97. -/
def addSubSub {h} (a b : BitVec (2 * h)) : BitVec (2 * h) := usub a b

/-- `Addo::addo` for `u128`, addsub.rs 42-45 (`other < ZERO` is always false for unsigned values);
`__rust_u128_addo`, lines 79-83 (the flag is stored as 0/1 through the pointer). -/
def addoU {h} (a b : BitVec (2 * h)) : BitVec (2 * h) × Bool :=
  let sum := addSubAdd a b
  (sum, (b.ult 0#_) != (sum.ult a))
/-- `Addo::addo` for `i128`, addsub.rs 42-45, `__rust_i128_addo`, lines 69-73. -/
def addoS {h} (a b : BitVec (2 * h)) : BitVec (2 * h) × Bool :=
  let sum := addSubAdd a b
  (sum, (b.slt 0#_) != (sum.slt a))
/-- `Subo::subo` for `u128`, addsub.rs 55-58, `__rust_u128_subo`, lines 99-103. -/
def suboU {h} (a b : BitVec (2 * h)) : BitVec (2 * h) × Bool :=
  let sum := addSubSub a b
  (sum, (b.ult 0#_) != (a.ult sum))
/-- `Subo::subo` for `i128`, addsub.rs 55-58, `__rust_i128_subo`, lines 89-93. -/
def suboS {h} (a b : BitVec (2 * h)) : BitVec (2 * h) × Bool :=
  let sum := addSubSub a b
  (sum, (b.slt 0#_) != (a.slt sum))

end Verif
