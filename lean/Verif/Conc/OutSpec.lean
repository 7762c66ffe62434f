import Verif.Conc.Spec
/-!
# Specification of the AArch64 outline atomics

From the documentation of `-moutline-atomics`, independent of the model.
-/
namespace Verif.Conc

/-- The read-modify-write operations. -/
inductive OutKind where
  | swp | ldadd | ldclr | ldeor | ldset
  deriving DecidableEq, Repr

/-- What is stored when the old value is `a` and the operand is `b`. -/
def OutKind.spec {w : Nat} : OutKind → BitVec w → BitVec w → BitVec w
  | .swp, _, b => b
  | .ldadd, a, b => BitVec.ofNat w (a.toNat + b.toNat)
  | .ldclr, a, b => a &&& ~~~b
  | .ldeor, a, b => a ^^^ b
  | .ldset, a, b => a ||| b

/-- A call of one of the `__aarch64_*` functions. -/
inductive OutOp (A : Nat) where
  /-- `__aarch64_{swp,ldadd,ldclr,ldeor,ldset}n_*` -/
  | rmw (n : Nat) (ptr : BitVec A) (k : OutKind) (val : BitVec (8 * n))
  /-- `__aarch64_casn_*` -/
  | cas (n : Nat) (ptr : BitVec A) (expected desired : BitVec (8 * n))

variable {A : Nat}

/-- the number of bytes operated on -/
def OutOp.size : OutOp A → Nat
  | .rmw n .. => n
  | .cas n .. => n
/-- the address -/
def OutOp.ptr : OutOp A → BitVec A
  | .rmw _ p .. => p
  | .cas _ p .. => p

/-- The values that a failing compare-and-swap may return: the old value `a`. With `tear`, a 16-byte one may return any other
value different from the expected one that has one 8-byte half in common with `a`. -/
def casFail (tear : Bool) {n : Nat} (a expected : BitVec (8 * n)) : Set Nat := fun r =>
  r = a.toNat ∨ (tear = true ∧ n = 16 ∧ ∃ v : BitVec (8 * n), r = v.toNat ∧ v ≠ expected ∧
    ∃ i < 2, v.extractLsb' (64 * i) 64 = a.extractLsb' (64 * i) 64)

/-- The effect: read the old value, store the new one, return the old one. -/
def OutOp.apply (be tear : Bool) : OutOp A → Mem A → Mem A × Set Nat
  | .rmw n p k v, m =>
    let a := readCell be m p n
    (writeCell be m p n (k.spec a v), {a.toNat})
  | .cas n p expected desired, m =>
    let a := readCell be m p n
    if a = expected then (writeCell be m p n desired, {a.toNat}) else (m, casFail tear a expected)

/-- which sizes exist -/
def OutOp.sizeOk : OutOp A → Prop
  | .rmw n .. => n = 1 ∨ n = 2 ∨ n = 4 ∨ n = 8
  | .cas n .. => n = 1 ∨ n = 2 ∨ n = 4 ∨ n = 8 ∨ n = 16

/-- The atomic object: naturally aligned cells. -/
def outObj (A : Nat) (be tear : Bool) : Obj A where
  Op := OutOp A
  Ret := Nat
  valid op := op.sizeOk ∧ op.ptr.toNat % op.size = 0
  apply := OutOp.apply be tear

end Verif.Conc
