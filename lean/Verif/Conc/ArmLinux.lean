import Verif.Core
import Verif.Conc.SyncSpec
/-!
# Model of the ARM/Linux atomics (compiler-builtins/src/sync/arm_linux.rs, arm_thumb_shared.rs)

Pointers are 32-bit numbers, memory is a function from addresses to bytes, `be` is `target_endian = "big"`. Every
thread executes the functions below; one step is one memory access together with the computation up to the next one.
-/
namespace Verif.Conc

/-! ### the word computations -/

/-- `align_ptr`, arm_linux.rs 22-27; `n` is `size_of::<T>()`. -/
def alignPtr (n : Nat) (ptr : BitVec 32) : BitVec 32 :=
  let ptr_mask := 3#32 &&& (4#32 - BitVec.ofNat 32 n)
  ptr &&& ~~~ptr_mask

/-- `get_shift_mask`, arm_linux.rs 30-51. -/
def getShiftMask (be : Bool) (n : Nat) (ptr : BitVec 32) : M (Nat × BitVec 32) := do
  let mask ← (if n = 1 then pure 0xff#32
    else if n = 2 then pure 0xffff#32
    else if n = 4 then pure 0xffffffff#32
    else .error .assert)
  let endian_adjust := if be = false then 0#32 else 4#32 - BitVec.ofNat 32 n
  let ptr_mask := 3#32 &&& (4#32 - BitVec.ofNat 32 n)
  let shift ← mulC ((ptr &&& ptr_mask) ^^^ endian_adjust) 8#32
  pure (shift.toNat, mask)

/-- `extract_aligned`, arm_linux.rs 54-56 -/
def extractAligned (aligned : BitVec 32) (shift : Nat) (mask : BitVec 32) : M (BitVec 32) := do
  let t ← shrC aligned shift
  pure (t &&& mask)

/-- `insert_aligned`, arm_linux.rs 59-61 -/
def insertAligned (aligned val : BitVec 32) (shift : Nat) (mask : BitVec 32) : M (BitVec 32) := do
  let t ← shlC mask shift
  let u ← shlC (val &&& mask) shift
  pure ((aligned &&& ~~~t) ||| u)

/-! ### the operations -/

/-- The closures `$op` of arm_thumb_shared.rs 8-130, on the type `$ty` of `w` bits. The functions of one kind differ only
in the type. -/
def Kind.op {w : Nat} : Kind → BitVec w → BitVec w → BitVec w
  | .add, a, b => a + b                                     -- lines 8-18
  | .sub, a, b => a - b                                     -- lines 20-30
  | .and, a, b => a &&& b                                   -- lines 32-38
  | .or, a, b => a ||| b                                    -- lines 40-46
  | .xor, a, b => a ^^^ b                                   -- lines 48-54
  | .nand, a, b => ~~~(a &&& b)                             -- lines 56-62
  | .max, a, b => if b.slt a then a else b                  -- lines 64-78
  | .umax, a, b => if b < a then a else b                   -- lines 80-94
  | .min, a, b => if a.slt b then a else b                  -- lines 96-110
  | .umin, a, b => if a < b then a else b                   -- lines 112-126
  | .xchg, _, b => b                                        -- lines 128-130

/-- Is `$ty` signed (arm_thumb_shared.rs 64-78, 96-110)? -/
def Kind.signed : Kind → Bool
  | .max | .min => true
  | _ => false

/-- `x as u32` for `x : $ty` -/
def asU32 {w : Nat} (signed : Bool) (x : BitVec w) : BitVec 32 := if signed then x.signExtend 32 else x.setWidth 32

/-- The local state of a thread. -/
inductive ArmLocal where
  | idle
  /-- before `atomic_load_aligned` (line 111 or 130) -/
  | start (op : SyncOp 32)
  /-- before `__kuser_cmpxchg(cur, new, aligned_ptr)` (line 116 or 138); on success `res` is returned -/
  | loaded (op : SyncOp 32) (cur new res : BitVec 32)
  /-- about to return -/
  | done (r : Nat)
  /-- panicked -/
  | fault (f : Fault)

/-- What happens between the load of `cur` and the next memory access, arm_linux.rs 105-115 (`atomic_rmw`, with the
closures of lines 145-168) and 123-137 (`atomic_cmpxchg`, with the casts of line 175). -/
def onLoad (be : Bool) (op : SyncOp 32) (cur : BitVec 32) : M ArmLocal :=
  match op with
  | .rmw n ptr k new val => do
    let (shift, mask) ← getShiftMask be n ptr
    let curval ← extractAligned cur shift mask
    let newval := asU32 k.signed (k.op (curval.setWidth (8 * n)) val)
    let newal ← insertAligned cur newval shift mask
    pure (.loaded op cur newal (if new then newval else curval))
  | .cas n ptr old new => do
    let (shift, mask) ← getShiftMask be n ptr
    let curval ← extractAligned cur shift mask
    if curval ≠ asU32 false old then pure (.done (curval.setWidth (8 * n)).toNat)
    else do
      let newal ← insertAligned cur (asU32 false new) shift mask
      pure (.loaded op cur newal (asU32 false old))

/-- `atomic_load_aligned` (lines 77-102) of the word containing the cell, and what follows. The `ldr` and the atomic load
need an aligned address; anything else would be undefined behaviour. -/
def loadStep (be : Bool) (op : SyncOp 32) (m : Mem 32) : M ArmLocal := do
  let aligned_ptr := alignPtr op.size op.ptr
  (if aligned_ptr.toNat % 4 ≠ 0 then .error .ub else pure ())
  onLoad be op (readCell be m aligned_ptr 4)

/-- a panic leaves the thread in the fault state -/
def orFault : M ArmLocal → ArmLocal
  | .ok l => l
  | .error f => .fault f

/-- Executions: `ArmRun be Tid m₀ h m ls` if from memory `m₀` the threads can produce the history `h` and reach memory `m` and
local states `ls`. `__kuser_cmpxchg` (lines 6-13) may fail although the word is the expected one. Other code may store
single bytes at any time. -/
inductive ArmRun (be : Bool) (Tid : Type) [DecidableEq Tid] (m₀ : Mem 32) :
    List (Event Tid (SyncOp 32) Nat (BitVec 32)) → Mem 32 → (Tid → ArmLocal) → Prop
  | init : ArmRun be Tid m₀ [] m₀ (fun _ => .idle)
  | call {h m ls} (t : Tid) (op : SyncOp 32) : ArmRun be Tid m₀ h m ls → ls t = .idle → (syncObj 32 be).valid op →
      ArmRun be Tid m₀ (h ++ [.call t op]) m (Function.update ls t (.start op))
  | load {h m ls} (t : Tid) (op : SyncOp 32) : ArmRun be Tid m₀ h m ls → ls t = .start op →
      ArmRun be Tid m₀ h m (Function.update ls t (orFault (loadStep be op m)))
  | cmpxchg_ok {h m ls} (t : Tid) (op : SyncOp 32) (cur new res : BitVec 32) : ArmRun be Tid m₀ h m ls →
      ls t = .loaded op cur new res → readCell be m (alignPtr op.size op.ptr) 4 = cur →
      ArmRun be Tid m₀ h (writeCell be m (alignPtr op.size op.ptr) 4 new)
        (Function.update ls t (.done (res.setWidth (8 * op.size)).toNat))
  | cmpxchg_fail {h m ls} (t : Tid) (op : SyncOp 32) (cur new res : BitVec 32) : ArmRun be Tid m₀ h m ls →
      ls t = .loaded op cur new res → ArmRun be Tid m₀ h m (Function.update ls t (.start op))
  | ret {h m ls} (t : Tid) (r : Nat) : ArmRun be Tid m₀ h m ls → ls t = .done r →
      ArmRun be Tid m₀ (h ++ [.ret t r]) m (Function.update ls t .idle)
  | store {h m ls} (a : BitVec 32) (b : BitVec 8) : ArmRun be Tid m₀ h m ls →
      ArmRun be Tid m₀ (h ++ [.store a b]) (Function.update m a b) ls

end Verif.Conc
