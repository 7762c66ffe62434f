import Verif.Libm.HexFloat
/-!
# Model of hexadecimal float formatting (libm/src/math/support/hex_float.rs 329-378)

A formatter is the list of bytes written to it. The formatting of integers by `core::fmt` is not part of the repository;
`{:0w$x}`, `{:#0w$x}` and `{:+}` are modelled here after the documentation of `core::fmt`.
-/
namespace Verif

/-- the digits of `n` in base `b`, most significant first, one digit for zero; `fuel` bounds their number -/
def fmtDigits (b : Nat) : Nat → Nat → List Nat
  | 0, _ => []
  | fuel + 1, n => (if n < b then [] else fmtDigits b fuel (n / b)) ++ [n % b]

/-- the character of a digit, lower case -/
def digitCh (d : Nat) : HByte := if d < 10 then hch '0' + BitVec.ofNat 8 d else hch 'a' + BitVec.ofNat 8 (d - 10)

/-- the digits of `{n:0width$x}` -/
def hexPad (width n : Nat) : List Nat :=
  let ds := fmtDigits 16 (n.log2 + 1) n
  List.replicate (width - ds.length) 0 ++ ds

/-- `{n:+}` of an `i32` -/
def fmtPlus (n : Int) : List HByte :=
  (if n < 0 then hch '-' else hch '+') :: (fmtDigits 10 (n.natAbs.log2 + 1) n.natAbs).map digitCh

/-- ASCII text -/
def fmtStr (s : String) : List HByte := s.toList.map hch

namespace Fmt
variable (F : Fmt)

/-- `is_qnan`, float_traits.rs 135-147; `mips` is `MIPS_NAN` -/
def isQnan (mips : Bool) (x : BitVec F.w) : Bool :=
  if !F.isNan x then false
  else
    let top := x &&& F.quietBit
    if mips then top == 0#F.w else top != 0#F.w

/-- `is_snan`, float_traits.rs 149-151 -/
def isSnan (mips : Bool) (x : BitVec F.w) : Bool := F.isNan x && !F.isQnan mips x

/-- `is_infinite`, of the core float types: `abs() == INFINITY` -/
def isInfinite (x : BitVec F.w) : Bool := F.feq (x &&& F.absMask) F.expMask

/-- `fmt_any_hex`, hex_float.rs 335-378 -/
def fmtAnyHex (mips : Bool) (x : BitVec F.w) : M (List HByte) := do
  let out := if F.sign x then fmtStr "-" else fmtStr "+"
  if F.isNan x then do
    let out := if F.isSnan mips x then out ++ fmtStr "sNaN" else if F.isNan x then out ++ fmtStr "qNaN" else out
    let payload := (x &&& F.sigMask) &&& ~~~F.quietBit
    -- `div_ceil_u32`; the `2` counts the prefix `0x`, so the digits are padded to `width - 2`
    let width := (F.s + 3) / 4 + 2
    pure (out ++ fmtStr "(" ++ fmtStr "0x" ++ (hexPad (width - 2) payload.toNat).map digitCh ++ fmtStr ")")
  else if F.isInfinite x then pure (out ++ fmtStr "inf")
  else if F.feq x F.zero then pure (out ++ fmtStr "0x0p+0")
  else do
    let exponent ← F.expUnbiased x
    let sig := x &&& F.sigMask
    let mshift := (4 - F.s % 4) % 4
    let sig ← shlC sig mshift
    let mwidth := (F.s + 3) / 4
    let nb ← i32C (-(F.bias : Int))
    let (leading, exponent) ← (if exponent = nb then do
        let exponent ← i32C (exponent + 1)
        pure (fmtStr "0.", exponent)
      else pure (fmtStr "1.", exponent))
    pure (out ++ fmtStr "0x" ++ leading ++ (hexPad mwidth sig.toNat).map digitCh ++ fmtStr "p" ++ fmtPlus exponent)

end Fmt
end Verif
