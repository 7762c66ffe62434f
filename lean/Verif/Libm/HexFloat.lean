import Verif.Libm.RoundInt
import Verif.Int.Lz
/-!
# Model of hexadecimal float parsing (libm/src/math/support/hex_float.rs 41-327)

A `&str` is its list of bytes. The theorems are about arbitrary byte strings, so they do not depend on the text
being UTF-8. The error texts are kept apart only as far as the code does (`HexErr`); `hf16` … `hf128` (lines 9-38) only
wrap `parse_hex_exact`, which is modelled.
-/
namespace Verif

/-- a byte of the text -/
abbrev HByte := BitVec 8
/-- the byte literal `b'c'` of an ASCII character -/
def hch (c : Char) : HByte := BitVec.ofNat 8 c.toNat

/-- `HexFloatParseError`, hex_float.rs 40-41: one case for each message. -/
inductive HexErr where
  /-- line 53 -/ | tooHuge
  /-- line 54 -/ | tooTiny
  /-- line 55 -/ | tooPrecise
  /-- line 70 -/ | config
  /-- line 99 -/ | noHex
  /-- lines 237-239 -/ | point
  /-- line 248 -/ | hexDigit
  /-- line 276 -/ | noDigits
  /-- line 291 -/ | decDigit
  /-- lines 299-301 -/ | noExpDigits
  deriving DecidableEq, Repr

/-- `Round`, env.rs 39-49 -/
inductive Round where
  | nearest | negative | positive | zero
  deriving DecidableEq, Repr

/-- `dec_digit`, hex_float.rs 313-318 -/
def decDigit (c : HByte) : M (Option HByte) :=
  if hch '0' ≤ c ∧ c ≤ hch '9' then do
    let d ← subC c (hch '0')
    pure (some d)
  else pure none

/-- `hex_digit`, hex_float.rs 320-327 -/
def hexDigit (c : HByte) : M (Option HByte) :=
  if hch '0' ≤ c ∧ c ≤ hch '9' then do
    let d ← subC c (hch '0')
    pure (some d)
  else if hch 'a' ≤ c ∧ c ≤ hch 'f' then do
    let d ← subC c (hch 'a')
    let d ← addC d 10#8
    pure (some d)
  else if hch 'A' ≤ c ∧ c ≤ hch 'F' then do
    let d ← subC c (hch 'A')
    let d ← addC d 10#8
    pure (some d)
  else pure none

/-- The mutable variables of `parse_hex`, hex_float.rs 224-229. -/
structure HexState where
  sig : BitVec 128
  exp : Int
  seenPoint : Bool
  someDigits : Bool
  inexact : Bool

/-- One hexadecimal digit, hex_float.rs 250-265. -/
def hexStep (d : HByte) (st : HexState) : M HexState := do
  let t ← shrC st.sig 124
  let (sig, exp, inexact) ← (if t = 0#128 then do
      let s ← shlC st.sig 4
      pure (s ||| d.setWidth 128, st.exp, st.inexact)
    else do
      let e ← i32C (st.exp + 4)
      pure (st.sig, e, st.inexact || (d ≠ 0#8 : Bool)))
  let exp ← (if st.seenPoint then i32C (exp - 4) else pure exp)
  pure { st with sig := sig, exp := exp, inexact := inexact, someDigits := true }

/-- The first loop of `parse_hex`, hex_float.rs 231-268. -/
def hexLoop : List HByte → HexState → M (Except HexErr (HexState × List HByte))
  | [], st => pure (.ok (st, []))
  | c :: rest, st =>
    if c = hch '.' then
      if st.seenPoint then pure (.error .point)
      else hexLoop rest { st with seenPoint := true }
    else if c = hch 'p' ∨ c = hch 'P' then pure (.ok (st, rest))
    else do
      match ← hexDigit c with
      | none => pure (.error .hexDigit)
      | some d => do
        let st ← hexStep d st
        hexLoop rest st

/-- `u32` addition -/
def u32C (x : Nat) : M Nat := if x < 2 ^ 32 then .ok x else .error .overflow

/-- The second loop of `parse_hex`, hex_float.rs 286-296, with `some_digits`. -/
def decLoop : List HByte → Nat → Bool → M (Except HexErr (Nat × Bool))
  | [], pexp, some_digits => pure (.ok (pexp, some_digits))
  | c :: rest, pexp, _ => do
    match ← decDigit c with
    | none => pure (.error .decDigit)
    | some d => do
      let pexp := min (pexp * 10) (2 ^ 32 - 1)
      let pexp ← u32C (pexp + d.toNat)
      decLoop rest pexp true

/-- lines 74-76 and 282-284: drop a sign -/
def dropSign (b : List HByte) : List HByte :=
  match b with
  | c :: rest => if c = hch '-' ∨ c = hch '+' then rest else b
  | [] => []

/-- lines 73 and 281: is there a minus sign -/
def isNeg (b : List HByte) : Bool :=
  match b with
  | c :: _ => c = hch '-'
  | [] => false

/-- `parse_hex`, hex_float.rs 223-311. -/
def parseHex (b : List HByte) : M (Except HexErr (BitVec 128 × Int)) := do
  match ← hexLoop b ⟨0#128, 0, false, false, false⟩ with
  | .error e => pure (.error e)
  | .ok (st, b) => do
    let sig := st.sig ||| (if st.inexact then 1#128 else 0#128)
    if st.someDigits = false then pure (.error .noDigits)
    else do
      let negate_exp := isNeg b
      match ← decLoop (dropSign b) 0 false with
      | .error e => pure (.error e)
      | .ok (pexp, some_digits) =>
        if some_digits = false then pure (.error .noExpDigits)
        else
          let exp := if negate_exp then max (st.exp - pexp) (-2 ^ 31) else min (st.exp + pexp) (2 ^ 31 - 1)
          pure (.ok (sig, exp))

/-- `u128::trailing_zeros` (primitive) -/
def tz128 (x : BitVec 128) : Nat := ((List.range 128).find? (fun i => x.getLsbD i)).getD 128

/-- `shr_odd_rounding`, hex_float.rs 192-199. -/
def shrOddRounding (x : BitVec 128) (k : Nat) : M (BitVec 128) :=
  if k < 128 then do
    let inexact := tz128 x < k
    let t ← shrC x k
    pure (t ||| (if inexact then 1#128 else 0#128))
  else pure (if x ≠ 0#128 then 1#128 else 0#128)

/-- `shr2_round`, hex_float.rs 202-214. -/
def shr2Round (x : BitVec 128) (round : Round) : M (BitVec 128) := do
  let t := (x.setWidth 32 &&& 0b111#32).toNat
  let x ← shrC x 2
  match round with
  | .nearest => do
    let r ← shrC 0b11001000#8 t
    addC x ((r &&& 1#8).setWidth 128)
  | .negative => pure x
  | .zero => pure x
  | .positive => addC x (if t &&& 0b11 ≠ 0 then 1#128 else 0#128)

/-- `Status::inexact` and friends, env.rs 98-118 -/
def Status.has (s f : Status) : Bool := s &&& f ≠ 0#8

/-- The rounding part of `parse_finite`, hex_float.rs 133-152: the rounded significand and the status. -/
def roundSig (sig : BitVec 128) (round_bits : Int) (round : Round) : M (BitVec 128 × Status) :=
  if round_bits > 0 then do
    let sig ← (if round_bits = 1 then shlC sig 1
      else if round_bits > 2 then do
        let k ← i32C (round_bits - 2)
        shrOddRounding sig k.toNat
      else pure sig)
    let status := if sig &&& 0b11#128 ≠ 0#128 then Status.INEXACT else Status.OK
    let sig ← shr2Round sig round
    pure (sig, status)
  else if round_bits < 0 then do
    let k ← i32C (-round_bits)
    let sig ← shlI sig k
    pure (sig, Status.OK)
  else pure (sig, Status.OK)

/-- The end of `parse_finite`, hex_float.rs 160-184. -/
def packHex (exp_bits sig_bits : Nat) (sig : BitVec 128) (uexp : BitVec 128) (status : Status) (round : Round) :
    M (BitVec 128 × Status) := do
  let lim ← shlC 2#128 sig_bits
  assertC (decide (sig ≤ lim))
  let t ← shlC 1#128 exp_bits
  let t ← subC t 1#128
  let inf ← shlC t sig_bits
  let sum := sig + uexp
  if sig.toNat + uexp.toNat < 2 ^ 128 ∧ sum < inf then do
    let one ← shlC 1#128 sig_bits
    let status := if status.has .INEXACT ∧ sum < one then status ||| .UNDERFLOW else status
    pure (sum, status)
  else do
    let status := (status ||| .OVERFLOW) ||| .INEXACT
    match round with
    | .positive | .nearest => pure (inf, status)
    | .negative | .zero => do
      let r ← subC inf 1#128
      pure (r, status)

/-- `parse_finite` after the digits have been read, hex_float.rs 126-184. -/
def finishFinite (exp_bits sig_bits : Nat) (min_lsb : Int) (sig : BitVec 128) (exp : Int) (round : Round) :
    M (BitVec 128 × Status) := do
  let round_bits ← i32C (((127 - nlz sig : Nat) : Int) - sig_bits)
  let t ← i32C (min_lsb - round_bits)
  let round_bits ← (if exp < t then i32C (min_lsb - exp) else pure round_bits)
  let exp ← i32C (exp + round_bits)
  let (sig, status) ← roundSig sig round_bits round
  let t ← i32C (exp - min_lsb)
  let uexp ← shlC (BitVec.ofInt 128 t) sig_bits
  packHex exp_bits sig_bits sig uexp status round

/-- `parse_finite`, hex_float.rs 109-185. -/
def parseFinite (b : List HByte) (bits sig_bits : Nat) (round : Round) :
    M (Except HexErr (BitVec 128 × Status)) := do
  let t ← nsubC bits sig_bits
  let exp_bits ← nsubC t 1
  let e1 ← nsubC exp_bits 1
  let t ← (if e1 < 32 then pure (i32W (2 ^ e1)) else .error .shift)
  let max_msb ← i32C (t - 1)
  let t ← i32C (1 - max_msb)
  let min_lsb ← i32C (t - sig_bits)
  match ← parseHex b with
  | .error e => pure (.error e)
  | .ok (sig, exp) =>
    if sig = 0#128 then pure (.ok (0#128, Status.OK))
    else do
      let r ← finishFinite exp_bits sig_bits min_lsb sig exp round
      pure (.ok r)

/-- `eq_ignore_case` of the byte patterns in lines 84-86 -/
def isCh (c : HByte) (l u : Char) : Bool := c = hch l ∨ c = hch u

/-- lines 87-93: the rounding direction for the magnitude -/
def roundMag (neg : Bool) (round : Round) : Round :=
  match neg, round with
  | true, .positive => .negative
  | true, .negative => .positive
  | _, r => r

/-- the `match *b` of `parse_any`, hex_float.rs 83-100 -/
def parseBody (b : List HByte) (neg : Bool) (inf nan : BitVec 128) (bits sig_bits : Nat) (round : Round) :
    M (Except HexErr (BitVec 128 × Status)) :=
  match b with
  | [a, b, c] =>
    if isCh a 'i' 'I' && isCh b 'n' 'N' && isCh c 'f' 'F' then pure (.ok (inf, Status.OK))
    else if isCh a 'n' 'N' && isCh b 'a' 'A' && isCh c 'n' 'N' then pure (.ok (nan, Status.OK))
    else if a = hch '0' ∧ isCh b 'x' 'X' then parseFinite [c] bits sig_bits (roundMag neg round)
    else pure (.error .noHex)
  | a :: b :: rest =>
    if a = hch '0' ∧ isCh b 'x' 'X' then parseFinite rest bits sig_bits (roundMag neg round)
    else pure (.error .noHex)
  | _ => pure (.error .noHex)

/-- `parse_any`, hex_float.rs 61-107. -/
def parseAny (s : List HByte) (bits sig_bits : Nat) (round : Round) :
    M (Except HexErr (BitVec 128 × Status)) :=
  if sig_bits > 119 ∨ bits > 128 ∨ bits < sig_bits + 3 ∨ bits > sig_bits + 30 then pure (.error .config)
  else do
    let neg := isNeg s
    let b := dropSign s
    let k ← nsubC bits 1
    let sign_bit ← shlC 1#128 k
    let k ← nsubC sig_bits 1
    let quiet_bit ← shlC 1#128 k
    let nan ← subC sign_bit quiet_bit
    let inf ← subC nan quiet_bit
    match ← parseBody b neg inf nan bits sig_bits round with
    | .error e => pure (.error e)
    | .ok (x, status) => pure (.ok (if neg then x ^^^ sign_bit else x, status))

/-- `parse_hex_exact`, hex_float.rs 45-59. -/
def parseHexExact (s : List HByte) (bits sig_bits : Nat) : M (Except HexErr (BitVec 128)) := do
  match ← parseAny s bits sig_bits .nearest with
  | .error e => pure (.error e)
  | .ok (r, status) =>
    if status = Status.OK then pure (.ok r)
    else if status.has .OVERFLOW then pure (.error .tooHuge)
    else if status.has .UNDERFLOW then pure (.error .tooTiny)
    else if status.has .INEXACT then pure (.error .tooPrecise)
    else .error .assert

/-- text as bytes -/
def hstr (s : String) : List HByte := s.toList.map hch

end Verif
