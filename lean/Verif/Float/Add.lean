import Verif.Float.Repr
/-!
# Model of `add` and `sub` (compiler-builtins/src/float/add.rs, sub.rs)

The function is split at its natural seams; each piece cites its lines. `F::Int` is `BitVec F.w`.
-/
namespace Verif
namespace Fmt
variable (F : Fmt)

/-- add.rs 32-72: the early returns for zero, infinity and NaN operands (`none`: fall through). -/
def addSpecial (a b : BitVec F.w) : Option (BitVec F.w) :=
  let one := 1#F.w
  let a_abs := a &&& F.absMask
  let b_abs := b &&& F.absMask
  let inf_rep := F.expMask
  if a_abs - one ≥ inf_rep - one ∨ b_abs - one ≥ inf_rep - one then
    if a_abs > inf_rep then some (a_abs ||| F.quietBit)
    else if b_abs > inf_rep then some (b_abs ||| F.quietBit)
    else if a_abs = inf_rep then
      if a ^^^ b = F.signMask then some F.qnanRep else some a
    else if b_abs = inf_rep then some b
    else if a_abs = 0#F.w then
      if b_abs = 0#F.w then some (a &&& b) else some b
    else if b_abs = 0#F.w then some a
    else none
  else none

/-- add.rs 83-98, 109-110 for one operand: exponent, and significand with implicit bit, shifted by 3. -/
def addDecode (rep : BitVec F.w) : M (Int × BitVec F.w) := do
  let exponent ← castToI32 ((rep &&& F.expMask) >>> F.s)
  let significand := rep &&& F.sigMask
  let (exponent, significand) ←
    (if exponent = 0 then F.normalize significand else pure (exponent, significand))
  let significand ← shlC (significand ||| F.implicitBit) 3
  pure (exponent, significand)

/-- add.rs 117-120, 162-165: shift right, or-ing into the lowest bit whether a set bit was lost. -/
def addStickyShr (sig shift : BitVec F.w) : M (BitVec F.w) := do
  let bits := BitVec.ofNat F.w F.w
  let k ← castToU32 (bits - shift)
  let l ← shlC sig k
  let sticky := if l ≠ 0#F.w then 1#F.w else 0#F.w
  let k' ← castToU32 shift
  let h ← shrC sig k'
  pure (h ||| sticky)

/-- add.rs 112-124: align the smaller operand. -/
def addAlign (a_exponent b_exponent : Int) (b_significand : BitVec F.w) : M (BitVec F.w) := do
  let align ← castI F.w (i32W (a_exponent - b_exponent))
  if align ≠ 0#F.w then
    if align < BitVec.ofNat F.w F.w then F.addStickyShr b_significand align
    else pure 1#F.w
  else pure b_significand

/-- add.rs 125-139: the subtraction branch. `none`: return `+0`. -/
def addSubBranch (a_exponent : Int) (a_sig b_sig : BitVec F.w) : M (Option (Int × BitVec F.w)) := do
  let a_sig := a_sig - b_sig
  if a_sig = 0#F.w then pure none
  else do
    let t ← shlC F.implicitBit 3
    if a_sig < t then do
      let shift ← i32C ((nlz a_sig : Int) - (nlz t : Int))
      let a_sig ← shlI a_sig shift
      let a_exponent ← i32C (a_exponent - shift)
      pure (some (a_exponent, a_sig))
    else pure (some (a_exponent, a_sig))

/-- add.rs 140-151: the addition branch. -/
def addAddBranch (a_exponent : Int) (a_sig b_sig : BitVec F.w) : M (Int × BitVec F.w) := do
  let a_sig ← addC a_sig b_sig
  let t ← shlC F.implicitBit 4
  if a_sig &&& t ≠ 0#F.w then do
    let sticky := if a_sig &&& 1#F.w ≠ 0#F.w then 1#F.w else 0#F.w
    let h ← shrC a_sig 1
    let a_exponent ← i32C (a_exponent + 1)
    pure (a_exponent, h ||| sticky)
  else pure (a_exponent, a_sig)

/-- add.rs 153-189: overflow, denormalisation, rounding, packing. -/
def addFinish (result_sign : BitVec F.w) (a_exponent : Int) (a_sig : BitVec F.w) : M (BitVec F.w) := do
  if a_exponent ≥ F.expSat then pure (F.expMask ||| result_sign)
  else do
    let (a_exponent, a_sig) ← (if a_exponent ≤ 0 then do
        let d ← i32C (1 - a_exponent)
        let shift ← castI F.w d
        let a_sig ← F.addStickyShr a_sig shift
        pure ((0 : Int), a_sig)
      else pure (a_exponent, a_sig))
    let rgs := (a_sig.setWidth 32 &&& 7#32).toNat
    let h ← shrC a_sig 3
    let ex ← castI F.w a_exponent
    let ex ← shlC ex F.s
    let result := ((h &&& F.sigMask) ||| ex) ||| result_sign
    let result ← (if rgs > 4 then addC result 1#F.w else pure result)
    if rgs = 4 then addC result (result &&& 1#F.w) else pure result

/-- add.rs 82-189: the general case; `a_rep` has the larger magnitude. -/
def addCore (a_rep b_rep : BitVec F.w) : M (BitVec F.w) := do
  let (a_exponent, a_sig) ← F.addDecode a_rep
  let (b_exponent, b_sig) ← F.addDecode b_rep
  let result_sign := a_rep &&& F.signMask
  let b_sig ← F.addAlign a_exponent b_exponent b_sig
  if (a_rep ^^^ b_rep) &&& F.signMask ≠ 0#F.w then do
    let r ← F.addSubBranch a_exponent a_sig b_sig
    match r with
    | none => pure 0#F.w
    | some (x, g) => F.addFinish result_sign x g
  else do
    let (x, g) ← F.addAddBranch a_exponent a_sig b_sig
    F.addFinish result_sign x g

/-- add.rs 4-190: `add`. -/
def add (a b : BitVec F.w) : M (BitVec F.w) :=
  match F.addSpecial a b with
  | some r => pure r
  | none =>
    if b &&& F.absMask > a &&& F.absMask then F.addCore b a else F.addCore a b

/-- sub.rs 4-29: `sub`, addition of the operand with flipped sign bit. -/
def sub (a b : BitVec F.w) : M (BitVec F.w) := F.add a (b ^^^ F.signMask)

end Fmt
end Verif
