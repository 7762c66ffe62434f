import Verif.Conc.Spec
/-!
# Specification of the `__sync_*` operations

From the GCC documentation of the `__sync` builtins, independent of the model.
-/
namespace Verif.Conc

/-- The read-modify-write operations. -/
inductive Kind where
  | add | sub | and | or | xor | nand | max | umax | min | umin | xchg
  deriving DecidableEq, Repr

/-- What is stored when the old value is `a` and the operand is `b`. -/
def Kind.spec {w : Nat} : Kind → BitVec w → BitVec w → BitVec w
  | .add, a, b => BitVec.ofNat w (a.toNat + b.toNat)
  | .sub, a, b => BitVec.ofInt w (a.toNat - b.toNat)
  | .and, a, b => a &&& b
  | .or, a, b => a ||| b
  | .xor, a, b => a ^^^ b
  | .nand, a, b => ~~~(a &&& b)
  | .max, a, b => BitVec.ofInt w (Max.max a.toInt b.toInt)
  | .umax, a, b => BitVec.ofNat w (Max.max a.toNat b.toNat)
  | .min, a, b => BitVec.ofInt w (Min.min a.toInt b.toInt)
  | .umin, a, b => BitVec.ofNat w (Min.min a.toNat b.toNat)
  | .xchg, _, b => b

/-- A call of one of the `__sync_*_n` functions. -/
inductive SyncOp (A : Nat) where
  /-- `__sync_fetch_and_k_n` (`new = false`) or `__sync_k_and_fetch_n` (`new = true`) -/
  | rmw (n : Nat) (ptr : BitVec A) (k : Kind) (new : Bool) (val : BitVec (8 * n))
  /-- `__sync_val_compare_and_swap_n` -/
  | cas (n : Nat) (ptr : BitVec A) (old new : BitVec (8 * n))

variable {A : Nat}

/-- the number of bytes operated on -/
def SyncOp.size : SyncOp A → Nat
  | .rmw n .. => n
  | .cas n .. => n
/-- the address -/
def SyncOp.ptr : SyncOp A → BitVec A
  | .rmw _ p .. => p
  | .cas _ p .. => p

/-- The effect: read the old value, store the new one, return one of them. -/
def SyncOp.apply (be : Bool) : SyncOp A → Mem A → Mem A × Set Nat
  | .rmw n p k new v, m =>
    let a := readCell be m p n
    let b := k.spec a v
    (writeCell be m p n b, {(if new then b else a).toNat})
  | .cas n p old new, m =>
    let a := readCell be m p n
    (if a = old then writeCell be m p n new else m, {a.toNat})

/-- The atomic object: naturally aligned cells of 1, 2 or 4 bytes. -/
def syncObj (A : Nat) (be : Bool) : Obj A where
  Op := SyncOp A
  Ret := Nat
  valid op := (op.size = 1 ∨ op.size = 2 ∨ op.size = 4) ∧ op.ptr.toNat % op.size = 0
  apply := SyncOp.apply be

end Verif.Conc
