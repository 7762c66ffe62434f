import Verif.Core
import Verif.Conc.SyncSpec
import Verif.Conc.ArmLinux
import Verif.Conc.Excl
/-!
# Model of the Armv6k atomics (compiler-builtins/src/sync/thumbv6k.rs, arm_thumb_shared.rs)

One step is one memory access together with the computation up to the next one. Registers have 32 bits. The barriers
(lines 15-33, 76, 86) have no effect in this interleaving model.
-/
namespace Verif.Conc

/-- The local state of a thread. -/
inductive ThumbLocal where
  | idle
  /-- at the beginning of the loop of `atomic_rmw` (line 156), or of `cmpxchg` (line 73) -/
  | start (op : SyncOp 32)
  /-- before `ldrex` (line 73 or 81) with the registers `old` and `new` -/
  | ldrex (op : SyncOp 32) (old new : BitVec 32)
  /-- before `strex` (line 78) -/
  | strex (op : SyncOp 32) (old new out : BitVec 32)
  /-- about to return -/
  | done (r : Nat)

/-- After the `asm!` block of `cmpxchg` (line 84, label 3): `cmpxchg` returns `out`, which is the result of
`__sync_val_compare_and_swap` (line 205), or is tested in `atomic_rmw` (lines 164-166). -/
def thumbFinish (op : SyncOp 32) (old new out : BitVec 32) : ThumbLocal :=
  match op with
  | .cas n _ _ _ => .done (out.setWidth (8 * n)).toNat
  | .rmw n _ _ fetchNew _ =>
    if out.setWidth (8 * n) = old.setWidth (8 * n) then
      .done (if fetchNew then new.setWidth (8 * n) else old.setWidth (8 * n)).toNat
    else .start op

/-- Executions. The bits of the register `new` beyond the size of the type are arbitrary (line 92 passes an `u8` or `u16` in a
register). `mon` is the state of the exclusive monitors. -/
inductive ThumbRun (be : Bool) (Tid : Type) [DecidableEq Tid] (m₀ : Mem 32) :
    List (Event Tid (SyncOp 32) Nat (BitVec 32)) → Mem 32 → Mon 32 Tid → (Tid → ThumbLocal) → Prop
  | init (mon : Mon 32 Tid) : ThumbRun be Tid m₀ [] m₀ mon (fun _ => .idle)
  | call {h m mon ls} (t : Tid) (op : SyncOp 32) : ThumbRun be Tid m₀ h m mon ls → ls t = .idle →
      (syncObj 32 be).valid op → ThumbRun be Tid m₀ (h ++ [.call t op]) m mon (Function.update ls t (.start op))
  /-- `load_relaxed` (line 159, 43-58) and `f` (line 160) -/
  | ldr {h m mon ls} (t : Tid) (n ptr k fetchNew val) (new : BitVec 32) : ThumbRun be Tid m₀ h m mon ls →
      ls t = .start (.rmw n ptr k fetchNew val) → new.setWidth (8 * n) = k.op (readCell be m ptr n) val →
      ThumbRun be Tid m₀ h m mon
        (Function.update ls t (.ldrex (.rmw n ptr k fetchNew val) ((readCell be m ptr n).setWidth 32) new))
  /-- the call of `cmpxchg` (line 205) -/
  | enter {h m mon ls} (t : Tid) (n ptr old new) (newr : BitVec 32) : ThumbRun be Tid m₀ h m mon ls →
      ls t = .start (.cas n ptr old new) → newr.setWidth (8 * n) = new →
      ThumbRun be Tid m₀ h m mon (Function.update ls t (.ldrex (.cas n ptr old new) (old.setWidth 32) newr))
  /-- lines 73-75 or 81-83 -/
  | ldrex {h m mon ls} (t : Tid) (op : SyncOp 32) (old new : BitVec 32) : ThumbRun be Tid m₀ h m mon ls →
      ls t = .ldrex op old new →
      ThumbRun be Tid m₀ h m (Function.update mon t (some (op.ptr, op.size)))
        (Function.update ls t (
          let out := (readCell be m op.ptr op.size).setWidth 32
          if out ≠ old then thumbFinish op old new out else .strex op old new out))
  /-- lines 78-80, `r = 0` -/
  | strex_ok {h m mon ls} (t : Tid) (op : SyncOp 32) (old new out : BitVec 32) : ThumbRun be Tid m₀ h m mon ls →
      ls t = .strex op old new out → mon t = some (op.ptr, op.size) →
      ThumbRun be Tid m₀ h (writeCell be m op.ptr op.size (new.setWidth (8 * op.size)))
        (Function.update (clearMon mon op.ptr op.size) t none) (Function.update ls t (thumbFinish op old new out))
  /-- lines 78-80, `r = 1` -/
  | strex_fail {h m mon ls} (t : Tid) (op : SyncOp 32) (old new out : BitVec 32) : ThumbRun be Tid m₀ h m mon ls →
      ls t = .strex op old new out →
      ThumbRun be Tid m₀ h m (Function.update mon t none) (Function.update ls t (.ldrex op old new))
  | ret {h m mon ls} (t : Tid) (r : Nat) : ThumbRun be Tid m₀ h m mon ls → ls t = .done r →
      ThumbRun be Tid m₀ (h ++ [.ret t r]) m mon (Function.update ls t .idle)
  | store {h m mon ls} (a : BitVec 32) (b : BitVec 8) : ThumbRun be Tid m₀ h m mon ls →
      ThumbRun be Tid m₀ (h ++ [.store a b]) (Function.update m a b) (clearMon mon a 1) ls

end Verif.Conc
