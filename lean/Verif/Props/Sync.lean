import Verif.Conc.ArmLinuxProofs
import Verif.Conc.Footprint
/-!
# C49: the ARM/Linux `__sync_*` functions

`ArmRun` is the model (`Verif/Conc/ArmLinux.lean`): any number of threads, any interleaving, spurious `__kuser_cmpxchg`
failures, arbitrary byte stores by other code. The specification is the system `Atomic` of `Verif/Conc/Spec.lean` in which
an operation takes effect in a single step, with the operations of `Verif/Conc/SyncSpec.lean`.
-/
namespace Verif.Props
open Verif.Conc

/-- Every execution is linearizable: the same calls, returns and stores, and the same memory contents, arise when each
operation acts on its own 1, 2 or 4 bytes in one step between its call and its return. -/
theorem C49_linearizable {be : Bool} {Tid : Type} [DecidableEq Tid] {m₀ m : Mem 32}
    {h : List (Event Tid (SyncOp 32) Nat (BitVec 32))} {ls : Tid → ArmLocal} (hr : ArmRun be Tid m₀ h m ls) :
    Linearizable (syncObj 32 be) Tid m₀ h m :=
  let ⟨ts, ha, _⟩ := arm_simulation hr
  ⟨ts, ha⟩

/-- No thread ever panics, or loads a word at an unaligned address. -/
theorem C49_no_fault {be : Bool} {Tid : Type} [DecidableEq Tid] {m₀ m : Mem 32}
    {h : List (Event Tid (SyncOp 32) Nat (BitVec 32))} {ls : Tid → ArmLocal} (hr : ArmRun be Tid m₀ h m ls) (t : Tid)
    (f : Fault) : ls t ≠ .fault f := arm_no_fault hr t f

/-- Neighbouring bytes: an address outside the cells of all operations ever called, to which other code did not store
either, keeps its initial value, although the words containing the cells are read and written as a whole. -/
theorem C49_neighbours {be : Bool} {Tid : Type} [DecidableEq Tid] {m₀ m : Mem 32}
    {h : List (Event Tid (SyncOp 32) Nat (BitVec 32))} {ls : Tid → ArmLocal} (hr : ArmRun be Tid m₀ h m ls) {x : BitVec 32}
    (hc : ∀ t op, .call t op ∈ h → ¬ (x - op.ptr).toNat < op.size) (hs : ∀ b, .store x b ∉ h) : m x = m₀ x :=
  let ⟨_, ha, _⟩ := arm_simulation hr
  (atomic_frame (O := syncObj 32 be) (cov := SyncOp.covers (A := 32)) (fun op m _ h => SyncOp.apply_frame be op m h) ha).2 hc hs

/-- Progress: whatever the other threads did before, a thread that has started an operation can finish it by its own
steps. -/
theorem C49_progress {be : Bool} {Tid : Type} [DecidableEq Tid] {m₀ m : Mem 32}
    {h : List (Event Tid (SyncOp 32) Nat (BitVec 32))} {ls : Tid → ArmLocal} (hr : ArmRun be Tid m₀ h m ls) (t : Tid)
    (hi : ls t ≠ .idle) :
    ∃ m' r, ArmRun be Tid m₀ (h ++ [.ret t r]) m' (Function.update ls t .idle) := by
  have fin : ∀ {m : Mem 32} {ls' : Tid → ArmLocal} {r : Nat}, ArmRun be Tid m₀ h m ls' → ls' t = .done r →
      (∀ t', t' ≠ t → ls' t' = ls t') →
      ∃ m' r, ArmRun be Tid m₀ (h ++ [.ret t r]) m' (Function.update ls t .idle) := by
    intro m ls' r hr hd ho
    refine ⟨m, r, ?_⟩
    have e : Function.update ls t .idle = Function.update ls' t .idle := by
      funext t'
      by_cases e : t' = t
      · subst e; simp
      · rw [Function.update_of_ne e, Function.update_of_ne e, ho t' e]
    rw [e]
    exact .ret t r hr hd
  have go : ∀ {m : Mem 32} {ls' : Tid → ArmLocal} {op : SyncOp 32}, ArmRun be Tid m₀ h m ls' → ls' t = .start op →
      (syncObj 32 be).valid op → (∀ t', t' ≠ t → ls' t' = ls t') →
      ∃ m' r, ArmRun be Tid m₀ (h ++ [.ret t r]) m' (Function.update ls t .idle) := by
    intro m ls' op hr hs hv ho
    have h1 := ArmRun.load t op hr hs
    have ho' : ∀ x, ∀ t', t' ≠ t → Function.update ls' t x t' = ls t' := by
      intro x t' e; rw [Function.update_of_ne e, ho t' e]
    obtain ⟨off, -, h2, -, -⟩ := align_spec be hv.1 hv.2
    have hl : loadStep be op m = onLoad be op (readCell be m (alignPtr op.size op.ptr) 4) := by
      unfold loadStep
      simp only [h2, ne_eq, not_true_eq_false, if_false]
      rfl
    rw [hl] at h1
    rcases onLoad_spec hv m with ⟨r, h3, -⟩ | ⟨new, res, h3, -⟩
    · rw [h3] at h1
      exact fin h1 (Function.update_self ..) (ho' _)
    · rw [h3] at h1
      have h4 := ArmRun.cmpxchg_ok t op _ new res h1 (Function.update_self ..) rfl
      exact fin h4 (Function.update_self ..) (fun t' e => by rw [Function.update_of_ne e, ho' _ t' e])
  obtain ⟨ts, -, hR⟩ := arm_simulation hr
  have hR := hR t
  generalize e : ls t = l at hR
  generalize ts t = s at hR
  cases hR with
  | idle => exact absurd e hi
  | start op hv => exact go hr e hv (fun _ _ => rfl)
  | loaded op cur new res hv h1 =>
    exact go (ArmRun.cmpxchg_fail t op cur new res hr e) (Function.update_self ..) hv
      (fun t' e => Function.update_of_ne e ..)
  | done r => exact fin hr e (fun _ _ => rfl)

/-! ### an execution

Thread 0 increments the byte at address 0x1001, thread 1 the byte at 0x1003 of the same word. Thread 1 gets in between, so
the kernel call of thread 0 fails once. -/

/-- the two operations -/
def exOp0 : SyncOp 32 := .rmw 1 0x1001#32 .add false 1#8
@[inherit_doc exOp0] def exOp1 : SyncOp 32 := .rmw 1 0x1003#32 .add true 1#8

example : ∃ m ls, ArmRun false (Fin 2) (fun _ => 0xff#8)
    [.call 0 exOp0, .call 1 exOp1, .ret 1 0, .ret 0 255] m ls ∧ m 0x1001#32 = 0#8 ∧ m 0x1003#32 = 0#8 ∧
      m 0x1000#32 = 0xff#8 ∧ m 0x1002#32 = 0xff#8 := by
  have s0 : ArmRun false (Fin 2) (fun _ => 0xff#8) [] _ _ := .init
  have s1 := ArmRun.call 0 exOp0 s0 rfl ⟨.inl rfl, rfl⟩
  have s2 := ArmRun.call 1 exOp1 s1 rfl ⟨.inl rfl, rfl⟩
  have s3 := ArmRun.load 0 exOp0 s2 rfl
  have s4 := ArmRun.load 1 exOp1 s3 rfl
  have s5 := ArmRun.cmpxchg_ok 1 exOp1 0xffffffff#32 0x00ffffff#32 0#32 s4 rfl rfl
  have s6 := ArmRun.cmpxchg_fail 0 exOp0 0xffffffff#32 0xffff00ff#32 255#32 s5 rfl
  have s7 := ArmRun.ret 1 0 s6 rfl
  have s8 := ArmRun.load 0 exOp0 s7 rfl
  have s9 := ArmRun.cmpxchg_ok 0 exOp0 0x00ffffff#32 0x00ff00ff#32 255#32 s8 rfl rfl
  have s10 := ArmRun.ret 0 255 s9 rfl
  exact ⟨_, _, s10, by decide, by decide, by decide, by decide⟩

end Verif.Props
