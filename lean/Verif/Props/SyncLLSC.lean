import Verif.Conc.ThumbProofs
import Verif.Conc.OutProofs
import Verif.Conc.Footprint
/-!
# C50: load-exclusive/store-exclusive based atomics

`ThumbRun` models compiler-builtins/src/sync/thumbv6k.rs, `OutRun` models compiler-builtins/src/aarch64_outline_atomics.rs
(both the LSE and the LL/SC path, the flag being arbitrary for each call). The specification is the system `Atomic` of
`Verif/Conc/Spec.lean`, in which an operation takes effect in a single step.
-/
namespace Verif.Props
open Verif.Conc

/-! ### Armv6k -/

/-- Every execution of the Armv6k functions is linearizable. -/
theorem C50_thumb_linearizable {be : Bool} {Tid : Type} [DecidableEq Tid] {m₀ m : Mem 32} {mon : Mon 32 Tid}
    {h : List (Event Tid (SyncOp 32) Nat (BitVec 32))} {ls : Tid → ThumbLocal} (hr : ThumbRun be Tid m₀ h m mon ls) :
    Linearizable (syncObj 32 be) Tid m₀ h m :=
  let ⟨ts, ha, _⟩ := thumb_simulation hr
  ⟨ts, ha⟩

/-- Bytes outside all cells keep their value. -/
theorem C50_thumb_neighbours {be : Bool} {Tid : Type} [DecidableEq Tid] {m₀ m : Mem 32} {mon : Mon 32 Tid}
    {h : List (Event Tid (SyncOp 32) Nat (BitVec 32))} {ls : Tid → ThumbLocal} (hr : ThumbRun be Tid m₀ h m mon ls)
    {x : BitVec 32} (hc : ∀ t op, .call t op ∈ h → ¬ (x - op.ptr).toNat < op.size) (hs : ∀ b, .store x b ∉ h) : m x = m₀ x :=
  let ⟨_, ha, _⟩ := thumb_simulation hr
  (atomic_frame (O := syncObj 32 be) (cov := SyncOp.covers (A := 32)) (fun op m _ h => SyncOp.apply_frame be op m h) ha).2 hc hs

/-- Progress: whatever the other threads did before, a thread that has started an operation can finish it by its own
steps. -/
theorem C50_thumb_progress {be : Bool} {Tid : Type} [DecidableEq Tid] {m₀ m : Mem 32} {mon : Mon 32 Tid}
    {h : List (Event Tid (SyncOp 32) Nat (BitVec 32))} {ls : Tid → ThumbLocal} (hr : ThumbRun be Tid m₀ h m mon ls) (t : Tid)
    (hi : ls t ≠ .idle) :
    ∃ m' mon' r, ThumbRun be Tid m₀ (h ++ [.ret t r]) m' mon' (Function.update ls t .idle) := by
  have upd : ∀ {ls' : Tid → ThumbLocal}, (∀ t', t' ≠ t → ls' t' = ls t') → ∀ x t', t' ≠ t →
      Function.update ls' t x t' = ls t' := by
    intro ls' ho x t' e; rw [Function.update_of_ne e, ho t' e]
  have fin : ∀ {m : Mem 32} {mon} {ls' : Tid → ThumbLocal} {r : Nat}, ThumbRun be Tid m₀ h m mon ls' → ls' t = .done r →
      (∀ t', t' ≠ t → ls' t' = ls t') →
      ∃ m' mon' r, ThumbRun be Tid m₀ (h ++ [.ret t r]) m' mon' (Function.update ls t .idle) := by
    intro m mon ls' r hr hd ho
    refine ⟨m, mon, r, ?_⟩
    have e : Function.update ls t .idle = Function.update ls' t .idle := by
      funext t'
      by_cases e : t' = t
      · subst e; simp
      · rw [Function.update_of_ne e, Function.update_of_ne e, ho t' e]
    rw [e]
    exact .ret t r hr hd
  -- from an `ldrex` that finds the expected value
  have good : ∀ {m : Mem 32} {mon} {ls' : Tid → ThumbLocal} {op : SyncOp 32} {old new : BitVec 32},
      ThumbRun be Tid m₀ h m mon ls' → ls' t = .ldrex op old new → (syncObj 32 be).valid op → ThumbRegs op old new →
      (readCell be m op.ptr op.size).setWidth 32 = old → (∀ t', t' ≠ t → ls' t' = ls t') →
      ∃ m' mon' r, ThumbRun be Tid m₀ (h ++ [.ret t r]) m' mon' (Function.update ls t .idle) := by
    intro m mon ls' op old new hr hl hv hg he ho
    have hw : 8 * op.size ≤ 32 := by have := hv.1; omega
    have h1 := ThumbRun.ldrex t op old new hr hl
    simp only [he, ne_eq, not_true_eq_false, if_false] at h1
    have h2 := ThumbRun.strex_ok t op old new old h1 (Function.update_self ..) (Function.update_self ..)
    obtain ⟨r, hf, -⟩ := thumb_ok hw hg (m := m) (be := be) (by rw [← he, setWidth_roundtrip hw])
    rw [hf] at h2
    exact fin h2 (Function.update_self ..) (upd (upd ho _) _)
  have start : ∀ {m : Mem 32} {mon} {ls' : Tid → ThumbLocal} {op : SyncOp 32},
      ThumbRun be Tid m₀ h m mon ls' → ls' t = .start op → (syncObj 32 be).valid op → (∀ t', t' ≠ t → ls' t' = ls t') →
      ∃ m' mon' r, ThumbRun be Tid m₀ (h ++ [.ret t r]) m' mon' (Function.update ls t .idle) := by
    intro m mon ls' op hr hl hv ho
    have hw : 8 * op.size ≤ 32 := by have := hv.1; omega
    cases op with
    | rmw n ptr k f val =>
      have hnew := setWidth_roundtrip hw (k.op (readCell be m ptr n) val)
      have h1 := ThumbRun.ldr t n ptr k f val _ hr hl hnew
      exact good h1 (Function.update_self ..) hv ⟨_, rfl, hnew⟩ rfl (upd ho _)
    | cas n ptr o nw =>
      have hnew := setWidth_roundtrip hw nw
      have h1 := ThumbRun.enter t n ptr o nw _ hr hl hnew
      by_cases he : (readCell be m ptr n).setWidth 32 = o.setWidth 32
      · exact good h1 (Function.update_self ..) hv ⟨rfl, hnew⟩ he (upd ho _)
      · have h2 := ThumbRun.ldrex t _ _ _ h1 (Function.update_self ..)
        simp only [SyncOp.ptr, SyncOp.size, ne_eq, he, not_false_eq_true, if_true] at h2
        exact fin h2 (Function.update_self ..) (upd (upd ho _) _)
  have ldrex : ∀ {m : Mem 32} {mon} {ls' : Tid → ThumbLocal} {op : SyncOp 32} {old new : BitVec 32},
      ThumbRun be Tid m₀ h m mon ls' → ls' t = .ldrex op old new → (syncObj 32 be).valid op → ThumbRegs op old new →
      (∀ t', t' ≠ t → ls' t' = ls t') →
      ∃ m' mon' r, ThumbRun be Tid m₀ (h ++ [.ret t r]) m' mon' (Function.update ls t .idle) := by
    intro m mon ls' op old new hr hl hv hg ho
    have hw : 8 * op.size ≤ 32 := by have := hv.1; omega
    by_cases he : (readCell be m op.ptr op.size).setWidth 32 = old
    · exact good hr hl hv hg he ho
    · have h2 := ThumbRun.ldrex t _ _ _ hr hl
      simp only [ne_eq, he, not_false_eq_true, if_true] at h2
      rcases thumb_fail hw hg he with hf | ⟨r, hf, -⟩
      · rw [hf] at h2
        exact start h2 (Function.update_self ..) hv (upd ho _)
      · rw [hf] at h2
        exact fin h2 (Function.update_self ..) (upd ho _)
  obtain ⟨ts, -, hR⟩ := thumb_simulation hr
  have hR := hR t
  generalize e : ls t = l at hR
  generalize ts t = s at hR
  cases hR with
  | idle => exact absurd e hi
  | start op hv => exact start hr e hv (fun _ _ => rfl)
  | ldrex op old new hv hg => exact ldrex hr e hv hg (fun _ _ => rfl)
  | strex op old new hv hg hm =>
    exact ldrex (ThumbRun.strex_fail t op old new old hr e) (Function.update_self ..) hv hg
      (fun t' e => Function.update_of_ne e ..)
  | done r => exact fin hr e (fun _ _ => rfl)

/-! ### AArch64 outline atomics -/

/-- Every execution of the outline atomics is linearizable, whichever code path each call takes: if 16-byte exclusive
loads are atomic (`tear = false`) for the usual specification, and otherwise for the one in which a failing 16-byte
compare-and-swap returns a value different from the expected one of which only one half need be in memory. -/
theorem C50_aarch64_linearizable_partial {be tear : Bool} {Tid : Type} [DecidableEq Tid] {m₀ m : Mem 64} {mon : Mon 64 Tid}
    {h : List (Event Tid (OutOp 64) Nat (BitVec 64))} {ls : Tid → OutLocal} (hr : OutRun be tear Tid m₀ h m mon ls) :
    Linearizable (outObj 64 be tear) Tid m₀ h m :=
  let ⟨ts, ha, _⟩ := out_simulation hr
  ⟨ts, ha⟩

/-- Without 16-byte compare-and-swaps the executions are linearizable for the usual specification in any case. -/
theorem C50_aarch64_linearizable_small {be tear : Bool} {Tid : Type} [DecidableEq Tid] {m₀ m : Mem 64} {mon : Mon 64 Tid}
    {h : List (Event Tid (OutOp 64) Nat (BitVec 64))} {ls : Tid → OutLocal} (hr : OutRun be tear Tid m₀ h m mon ls)
    (hs : ∀ t op, .call t op ∈ h → op.size ≠ 16) : Linearizable (outObj 64 be false) Tid m₀ h m :=
  let ⟨_, ha, _⟩ := out_simulation hr
  ⟨_, atomic_small ha hs⟩

/-- Bytes outside all cells keep their value. -/
theorem C50_aarch64_neighbours {be tear : Bool} {Tid : Type} [DecidableEq Tid] {m₀ m : Mem 64} {mon : Mon 64 Tid}
    {h : List (Event Tid (OutOp 64) Nat (BitVec 64))} {ls : Tid → OutLocal} (hr : OutRun be tear Tid m₀ h m mon ls)
    {x : BitVec 64} (hc : ∀ t op, .call t op ∈ h → ¬ (x - op.ptr).toNat < op.size) (hs : ∀ b, .store x b ∉ h) : m x = m₀ x :=
  let ⟨_, ha, _⟩ := out_simulation hr
  (atomic_frame (O := outObj 64 be tear) (cov := OutOp.covers (A := 64)) (fun op m _ h => OutOp.apply_frame be tear op m h)
    ha).2 hc hs

/-- Progress: whatever the other threads did before, a thread that has started an operation can finish it by its own
steps. -/
theorem C50_aarch64_progress {be tear : Bool} {Tid : Type} [DecidableEq Tid] {m₀ m : Mem 64} {mon : Mon 64 Tid}
    {h : List (Event Tid (OutOp 64) Nat (BitVec 64))} {ls : Tid → OutLocal} (hr : OutRun be tear Tid m₀ h m mon ls) (t : Tid)
    (hi : ls t ≠ .idle) :
    ∃ m' mon' r, OutRun be tear Tid m₀ (h ++ [.ret t r]) m' mon' (Function.update ls t .idle) := by
  have upd : ∀ {ls' : Tid → OutLocal}, (∀ t', t' ≠ t → ls' t' = ls t') → ∀ x t', t' ≠ t →
      Function.update ls' t x t' = ls t' := by
    intro ls' ho x t' e; rw [Function.update_of_ne e, ho t' e]
  have fin : ∀ {m : Mem 64} {mon} {ls' : Tid → OutLocal} {r : Nat}, OutRun be tear Tid m₀ h m mon ls' → ls' t = .done r →
      (∀ t', t' ≠ t → ls' t' = ls t') →
      ∃ m' mon' r, OutRun be tear Tid m₀ (h ++ [.ret t r]) m' mon' (Function.update ls t .idle) := by
    intro m mon ls' r hr hd ho
    refine ⟨m, mon, r, ?_⟩
    have e : Function.update ls t .idle = Function.update ls' t .idle := by
      funext t'
      by_cases e : t' = t
      · subst e; simp
      · rw [Function.update_of_ne e, Function.update_of_ne e, ho t' e]
    rw [e]
    exact .ret t r hr hd
  have lse : ∀ {m : Mem 64} {mon} {ls' : Tid → OutLocal} {op : OutOp 64}, OutRun be tear Tid m₀ h m mon ls' →
      ls' t = .lse op → op.sizeOk → (∀ t', t' ≠ t → ls' t' = ls t') →
      ∃ m' mon' r, OutRun be tear Tid m₀ (h ++ [.ret t r]) m' mon' (Function.update ls t .idle) := by
    intro m mon ls' op hr hl hv ho
    cases op with
    | rmw n ptr k val =>
      have hn : n ≤ 8 := by simp only [OutOp.sizeOk] at hv; omega
      exact fin (OutRun.lse_rmw t n ptr k val _ hr hl (roundtrip64 hn val)) (Function.update_self ..) (upd ho _)
    | cas n ptr e d =>
      by_cases h16 : n = 16
      · subst h16
        exact fin (OutRun.lse_casp t ptr e d hr hl) (Function.update_self ..) (upd ho _)
      · have hn : n ≤ 8 := by simp only [OutOp.sizeOk] at hv; omega
        exact fin (OutRun.lse_cas t n ptr e d _ _ hr hl h16 (roundtrip64 hn e) (roundtrip64 hn d)) (Function.update_self ..)
          (upd ho _)
  have ldxr : ∀ {m : Mem 64} {mon} {ls' : Tid → OutLocal} {op : OutOp 64} {x16 x1 : BitVec 64},
      OutRun be tear Tid m₀ h m mon ls' → ls' t = .ldxr op x16 x1 → (∀ t', t' ≠ t → ls' t' = ls t') →
      ∃ m' mon' r, OutRun be tear Tid m₀ (h ++ [.ret t r]) m' mon' (Function.update ls t .idle) := by
    intro m mon ls' op x16 x1 hr hl ho
    have h1 := OutRun.ldxr t op x16 x1 hr hl
    have hcase : (∃ r, afterLdxr op x16 x1 ((readCell be m op.ptr op.size).setWidth 64) = .done r) ∨
        ∃ data, afterLdxr op x16 x1 ((readCell be m op.ptr op.size).setWidth 64) =
          .stxr op x16 x1 ((readCell be m op.ptr op.size).setWidth 64) data := by
      cases op with
      | rmw n ptr k val => exact .inr ⟨_, rfl⟩
      | cas n ptr e d =>
        simp only [afterLdxr]
        split
        · exact .inl ⟨_, rfl⟩
        · exact .inr ⟨_, rfl⟩
    rcases hcase with ⟨r, e⟩ | ⟨data, e⟩
    · rw [e] at h1
      exact fin h1 (Function.update_self ..) (upd ho _)
    · rw [e] at h1
      exact fin (OutRun.stxr_ok t op x16 x1 _ data h1 (Function.update_self ..) (Function.update_self ..))
        (Function.update_self ..) (upd (upd ho _) _)
  have ldxp : ∀ {m : Mem 64} {mon} {ls' : Tid → OutLocal} {ptr : BitVec 64} {e d : BitVec 128},
      OutRun be tear Tid m₀ h m mon ls' → ls' t = .ldxp ptr e d → (∀ t', t' ≠ t → ls' t' = ls t') →
      ∃ m' mon' r, OutRun be tear Tid m₀ (h ++ [.ret t r]) m' mon' (Function.update ls t .idle) := by
    intro m mon ls' ptr e d hr hl ho
    have h1 := OutRun.ldxp t ptr e d hr hl
    unfold afterLdxp at h1
    split at h1
    · exact fin (OutRun.stxp_ok t ptr e d _ _ h1 (Function.update_self ..) (Function.update_self ..))
        (Function.update_self ..) (upd (upd ho _) _)
    · exact fin h1 (Function.update_self ..) (upd ho _)
  have stxp : ∀ {m : Mem 64} {mon} {ls' : Tid → OutLocal} {ptr : BitVec 64} {e d : BitVec 128} {x0 x1 : BitVec 64},
      OutRun be tear Tid m₀ h m mon ls' → ls' t = .stxp ptr e d x0 x1 → (∀ t', t' ≠ t → ls' t' = ls t') →
      ∃ m' mon' r, OutRun be tear Tid m₀ (h ++ [.ret t r]) m' mon' (Function.update ls t .idle) := by
    intro m mon ls' ptr e d x0 x1 hr hl ho
    exact ldxp (OutRun.stxp_fail t ptr e d x0 x1 hr hl) (Function.update_self ..) (upd ho _)
  have after : ∀ {m : Mem 64} {mon} {ls' : Tid → OutLocal} {ptr : BitVec 64} {e d : BitVec 128} {x0 x1 : BitVec 64},
      OutRun be tear Tid m₀ h m mon ls' → ls' t = afterLdxp be ptr e d x0 x1 → (∀ t', t' ≠ t → ls' t' = ls t') →
      ∃ m' mon' r, OutRun be tear Tid m₀ (h ++ [.ret t r]) m' mon' (Function.update ls t .idle) := by
    intro m mon ls' ptr e d x0 x1 hr hl ho
    unfold afterLdxp at hl
    split at hl
    · exact stxp hr hl ho
    · exact fin hr hl ho
  have ldxp2 : ∀ {ptr : BitVec 64} {e d : BitVec 128} {i : Nat} {v : BitVec 64}, ls t = .ldxp2 ptr e d i v →
      ∃ m' mon' r, OutRun be tear Tid m₀ (h ++ [.ret t r]) m' mon' (Function.update ls t .idle) := by
    intro ptr e d i v hl
    have h1 := OutRun.ldxp_second t ptr e d i v hr hl
    split at h1
    · exact after h1 (Function.update_self ..) (upd (fun _ _ => rfl) _)
    · exact after h1 (Function.update_self ..) (upd (fun _ _ => rfl) _)
  obtain ⟨ts, -, hR⟩ := out_simulation hr
  have hR := hR t
  generalize e : ls t = l at hR
  generalize ts t = s at hR
  cases hR with
  | idle => exact absurd e hi
  | start op hv => exact lse (OutRun.flag t op hr e) (Function.update_self ..) hv (upd (fun _ _ => rfl) _)
  | lse op hv => exact lse hr e hv (fun _ _ => rfl)
  | ldxr op x16 x1 hn hg => exact ldxr hr e (fun _ _ => rfl)
  | stxr op x16 x1 x0 data hn hg hs hm =>
    exact ldxr (OutRun.stxr_fail t op x16 x1 x0 data hr e) (Function.update_self ..) (upd (fun _ _ => rfl) _)
  | ldxp ptr e' d => exact ldxp hr e (fun _ _ => rfl)
  | ldxp2 => exact ldxp2 e
  | ldxp2_failed => exact ldxp2 e
  | stxp ptr e' d hm => exact stxp hr e (fun _ _ => rfl)
  | done r R hr' => exact fin hr e (fun _ _ => rfl)

/-- the history of the next theorem: thread 0 calls `__aarch64_cas16` at 0x1000, expecting all ones; other code stores 1 into
the lower, and then 1 into the upper doubleword; the call returns 2^64 -/
def tornHistory : List (Event (Fin 1) (OutOp 64) Nat (BitVec 64)) :=
  [.call 0 (.cas 16 0x1000#64 (BitVec.ofNat (8 * 16) (2 ^ 128 - 1)) 0), .store 0x1000#64 1#8, .store 0x1008#64 1#8, .ret 0 (2 ^ 64)]

/-- The usual specification does fail for 16 bytes when exclusive pair loads are not atomic: `__aarch64_cas16` can return
a value that the memory never contained. -/
theorem C50_aarch64_cas16_torn :
    (∃ m mon ls, OutRun false true (Fin 1) (fun _ => 0#8) tornHistory m mon ls) ∧
    ¬ ∃ m, Linearizable (outObj 64 false false) (Fin 1) (fun _ => 0#8) tornHistory m := by
  constructor
  · have s0 : OutRun false true (Fin 1) (fun _ => 0#8) [] _ _ _ := .init (fun _ => none)
    have s1 := OutRun.call 0 (.cas 16 0x1000#64 (BitVec.ofNat (8 * 16) (2 ^ 128 - 1)) 0) s0 rfl
      ⟨.inr (.inr (.inr (.inr rfl))), rfl⟩
    have s2 := OutRun.fall_cas16 0 _ _ _ s1 rfl
    have s3 := OutRun.ldxp_first 0 _ _ _ 0 s2 rfl rfl (by omega)
    have s4 := OutRun.store 0x1000#64 1#8 s3
    have s5 := OutRun.store 0x1008#64 1#8 s4
    have s6 := OutRun.ldxp_second 0 _ _ _ _ _ s5 rfl
    have s7 := OutRun.ret 0 (2 ^ 64) s6 rfl
    exact ⟨_, _, _, s7⟩
  · rintro ⟨m, ts, ha⟩
    have pre : ∀ h', h' <+: tornHistory → ∃ k < 5, h' = tornHistory.take k := by
      intro h' hp
      exact ⟨h'.length, by have := hp.length_le; simp [tornHistory] at this; omega, List.prefix_iff_eq_take.mp hp⟩
    have hvals : ∀ k < 5, readCell false (memOf (fun _ => 0#8) (tornHistory.take k)) 0x1000#64 16 ≠
          BitVec.ofNat (8 * 16) (2 ^ 128 - 1) ∧
        (readCell false (memOf (fun _ => 0#8) (tornHistory.take k)) 0x1000#64 16).toNat ≠ 2 ^ 64 := by decide
    have hmem : ∀ h', h' <+: tornHistory → readCell false (memOf (fun _ => 0#8) h') 0x1000#64 16 ≠
          BitVec.ofNat (8 * 16) (2 ^ 128 - 1) ∧
        (readCell false (memOf (fun _ => 0#8) h') 0x1000#64 16).toNat ≠ 2 ^ 64 := by
      intro h' hp
      obtain ⟨k, hk, rfl⟩ := pre h' hp
      exact hvals k hk
    have hcall : ∀ t op, Event.call t op ∈ tornHistory →
        op = .cas 16 0x1000#64 (BitVec.ofNat (8 * 16) (2 ^ 128 - 1)) 0 := by
      intro t op ho
      simp only [tornHistory, List.mem_cons, Event.call.injEq, List.not_mem_nil, or_false, reduceCtorEq] at ho
      exact ho.2
    have hret : Event.ret 0 (2 ^ 64) ∈ tornHistory := by simp [tornHistory]
    obtain ⟨-, -, h3⟩ := atomic_only_cas (n := 16) (p := 0x1000#64) (e := BitVec.ofNat (8 * 16) (2 ^ 128 - 1)) (d := 0) ha
      hcall (fun h' hp => (hmem h' hp).1)
    obtain ⟨h', hp, hr⟩ := h3 0 (2 ^ 64) hret
    exact (hmem h' hp).2 hr.symm

/-! ### executions -/

/-- Two threads increment the same half-word with LDREX/STREX; the first STREX of thread 0 fails because thread 1 has stored. -/
example : ∃ m mon ls, ThumbRun false (Fin 2) (fun _ => 0#8)
    [.call 0 (.rmw 2 0x1002#32 .add false 1#16), .call 1 (.rmw 2 0x1002#32 .add false 1#16), .ret 1 0, .ret 0 1] m mon ls ∧
      m 0x1002#32 = 2#8 := by
  have s0 : ThumbRun false (Fin 2) (fun _ => 0#8) [] _ _ _ := .init (fun _ => none)
  have s1 := ThumbRun.call 0 (.rmw 2 0x1002#32 .add false 1#16) s0 rfl ⟨.inr (.inl rfl), rfl⟩
  have s2 := ThumbRun.call 1 (.rmw 2 0x1002#32 .add false 1#16) s1 rfl ⟨.inr (.inl rfl), rfl⟩
  have s3 := ThumbRun.ldr 0 _ _ _ _ _ 0xabcd0001#32 s2 rfl rfl
  have s4 := ThumbRun.ldrex 0 _ _ _ s3 rfl
  have s5 := ThumbRun.ldr 1 _ _ _ _ _ 1#32 s4 rfl rfl
  have s6 := ThumbRun.ldrex 1 _ _ _ s5 rfl
  have s7 := ThumbRun.strex_ok 1 _ _ _ _ s6 rfl rfl
  have s8 := ThumbRun.strex_fail 0 _ _ _ _ s7 rfl
  have s9 := ThumbRun.ret 1 0 s8 rfl
  have s10 := ThumbRun.ldrex 0 _ _ _ s9 rfl
  have s11 := ThumbRun.ldr 0 _ _ _ _ _ 2#32 s10 rfl rfl
  have s12 := ThumbRun.ldrex 0 _ _ _ s11 rfl
  have s13 := ThumbRun.strex_ok 0 _ _ _ _ s12 rfl rfl
  have s14 := ThumbRun.ret 0 1 s13 rfl
  exact ⟨_, _, _, s14, by decide⟩

/-- Thread 0 uses the LL/SC path and thread 1 the LSE path, on the same word. -/
example : ∃ m mon ls, OutRun false true (Fin 2) (fun _ => 0#8)
    [.call 0 (.rmw 4 0x1000#64 .ldset 6#32), .call 1 (.rmw 4 0x1000#64 .ldclr 3#32), .ret 0 0, .ret 1 6] m mon ls ∧
      m 0x1000#64 = 4#8 := by
  have s0 : OutRun false true (Fin 2) (fun _ => 0#8) [] _ _ _ := .init (fun _ => none)
  have s1 := OutRun.call 0 (.rmw 4 0x1000#64 .ldset 6#32) s0 rfl ⟨.inr (.inr (.inl rfl)), rfl⟩
  have s2 := OutRun.call 1 (.rmw 4 0x1000#64 .ldclr 3#32) s1 rfl ⟨.inr (.inr (.inl rfl)), rfl⟩
  have s3 := OutRun.fall_rmw 0 _ _ _ _ 0xffffffff00000006#64 0 s2 rfl rfl
  have s4 := OutRun.flag 1 _ s3 rfl
  have s5 := OutRun.ldxr 0 _ _ _ s4 rfl
  have s6 := OutRun.stxr_ok 0 _ _ _ _ _ s5 rfl rfl
  have s7 := OutRun.ret 0 0 s6 rfl
  have s8 := OutRun.lse_rmw 1 _ _ _ _ 0x0123456700000003#64 s7 rfl rfl
  have s9 := OutRun.ret 1 6 s8 rfl
  exact ⟨_, _, _, s9, by decide⟩

end Verif.Props
