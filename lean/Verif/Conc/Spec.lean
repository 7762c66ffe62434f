import Mathlib.Logic.Function.Basic
import Mathlib.Data.Set.Basic
/-!
# Specification of atomic objects

Independent of the model. An atomic object has a memory and operations; an operation changes the memory and fixes which
values may be returned. A *history* is the sequence of calls and returns of all threads, and of the single-byte stores
which other code makes. `Atomic` is the system in which each operation takes effect in one step between its call and
its return. A history that it can produce is exactly a linearizable one.
-/
namespace Verif.Conc

/-- What an outside observer sees. -/
inductive Event (Tid Op Ret Addr : Type) where
  /-- thread `t` calls an operation -/
  | call (t : Tid) (op : Op)
  /-- the operation of thread `t` returns `r` -/
  | ret (t : Tid) (r : Ret)
  /-- other code stores a byte -/
  | store (a : Addr) (b : BitVec 8)

/-- Byte-addressed memory. -/
abbrev Mem (A : Nat) := BitVec A → BitVec 8

/-- An atomic object over byte memory. -/
structure Obj (A : Nat) where
  Op : Type
  Ret : Type
  /-- may this operation be called at all (the caller's obligations, e.g. alignment) -/
  valid : Op → Prop
  /-- the new memory and the values that may be returned -/
  apply : Op → Mem A → Mem A × Set Ret

variable {A : Nat}

/-- The state of a thread in the atomic system. -/
inductive TState (O : Obj A) where
  | idle
  /-- called, without effect so far -/
  | pending (op : O.Op)
  /-- took effect, has yet to return one of the values in `R` -/
  | done (R : Set O.Ret)

/-- `Atomic O m₀ h m ts`: starting with memory `m₀`, the atomic system can produce the history `h` and reach memory `m` and
thread states `ts`. -/
inductive Atomic (O : Obj A) (Tid : Type) [DecidableEq Tid] (m₀ : Mem A) :
    List (Event Tid O.Op O.Ret (BitVec A)) → Mem A → (Tid → TState O) → Prop
  | init : Atomic O Tid m₀ [] m₀ (fun _ => .idle)
  | call {h m ts} (t : Tid) (op : O.Op) : Atomic O Tid m₀ h m ts → ts t = .idle → O.valid op →
      Atomic O Tid m₀ (h ++ [.call t op]) m (Function.update ts t (.pending op))
  | effect {h m ts} (t : Tid) (op : O.Op) : Atomic O Tid m₀ h m ts → ts t = .pending op →
      Atomic O Tid m₀ h (O.apply op m).1 (Function.update ts t (.done (O.apply op m).2))
  | ret {h m ts} (t : Tid) (R : Set O.Ret) (r : O.Ret) : Atomic O Tid m₀ h m ts → ts t = .done R → r ∈ R →
      Atomic O Tid m₀ (h ++ [.ret t r]) m (Function.update ts t .idle)
  | store {h m ts} (a : BitVec A) (b : BitVec 8) : Atomic O Tid m₀ h m ts →
      Atomic O Tid m₀ (h ++ [.store a b]) (Function.update m a b) ts

/-- A history is linearizable with final memory `m`. -/
def Linearizable (O : Obj A) (Tid : Type) [DecidableEq Tid] (m₀ : Mem A)
    (h : List (Event Tid O.Op O.Ret (BitVec A))) (m : Mem A) : Prop := ∃ ts, Atomic O Tid m₀ h m ts

/-! ### cells -/

/-- The position (in bytes, from the least significant) of the `k`-th byte in memory of an `n`-byte number. -/
def bytePos (be : Bool) (n k : Nat) : Nat := if be then n - 1 - k else k

/-- the number with the `n` bytes `f 0`, `f 1`, … from the least significant -/
def ofBytes (f : Nat → BitVec 8) : Nat → Nat
  | 0 => 0
  | n + 1 => ofBytes f n + (f n).toNat * 256 ^ n

/-- The `n`-byte number at address `a`: its byte at position `bytePos be n k` is the byte at address `a + k`. -/
def readCell (be : Bool) (m : Mem A) (a : BitVec A) (n : Nat) : BitVec (8 * n) :=
  BitVec.ofNat (8 * n) (ofBytes (fun p => m (a + BitVec.ofNat A (bytePos be n p))) n)

/-- Memory after storing the `n`-byte number `v` at address `a`. -/
def writeCell (be : Bool) (m : Mem A) (a : BitVec A) (n : Nat) (v : BitVec (8 * n)) : Mem A := fun x =>
  if (x - a).toNat < n then v.extractLsb' (8 * bytePos be n (x - a).toNat) 8 else m x

end Verif.Conc
