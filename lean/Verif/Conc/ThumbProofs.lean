import Verif.Conc.Thumb
import Verif.Conc.ArmLinuxProofs
/-! Linearizability of the Armv6k atomics. -/
namespace Verif.Conc

/-- the registers `old` and `new` of `cmpxchg` -/
def ThumbRegs (op : SyncOp 32) (old new : BitVec 32) : Prop :=
  match op with
  | .rmw n _ k _ val => ∃ a : BitVec (8 * n), old = a.setWidth 32 ∧ new.setWidth (8 * n) = k.op a val
  | .cas n _ o nw => old = o.setWidth 32 ∧ new.setWidth (8 * n) = nw

theorem setWidth_roundtrip {w : Nat} (h : w ≤ 32) (x : BitVec w) : (x.setWidth 32).setWidth w = x := by
  rw [BitVec.setWidth_setWidth_of_le x h, BitVec.setWidth_eq]

theorem thumb_fail {be : Bool} {op : SyncOp 32} (hw : 8 * op.size ≤ 32) {m : Mem 32} {old new : BitVec 32}
    (hg : ThumbRegs op old new) (h : (readCell be m op.ptr op.size).setWidth 32 ≠ old) :
    thumbFinish op old new ((readCell be m op.ptr op.size).setWidth 32) = .start op ∨
    ∃ r, thumbFinish op old new ((readCell be m op.ptr op.size).setWidth 32) = .done r ∧ op.apply be m = (m, {r}) := by
  cases op with
  | rmw n ptr k f val =>
    left
    obtain ⟨a, rfl, h2⟩ := hg
    simp only [SyncOp.size, SyncOp.ptr] at *
    simp only [thumbFinish]
    rw [if_neg]
    rw [setWidth_roundtrip hw, setWidth_roundtrip hw]
    rintro rfl
    exact h rfl
  | cas n ptr o nw =>
    right
    obtain ⟨rfl, h2⟩ := hg
    simp only [SyncOp.size, SyncOp.ptr] at *
    refine ⟨_, rfl, ?_⟩
    simp only [SyncOp.apply]
    rw [setWidth_roundtrip hw, if_neg]
    rintro rfl
    exact h rfl

theorem thumb_ok {be : Bool} {op : SyncOp 32} (hw : 8 * op.size ≤ 32) {m : Mem 32} {old new : BitVec 32}
    (hg : ThumbRegs op old new) (h : readCell be m op.ptr op.size = old.setWidth (8 * op.size)) :
    ∃ r, thumbFinish op old new old = .done r ∧
      op.apply be m = (writeCell be m op.ptr op.size (new.setWidth (8 * op.size)), {r}) := by
  cases op with
  | rmw n ptr k f val =>
    obtain ⟨a, rfl, h2⟩ := hg
    simp only [SyncOp.size, SyncOp.ptr] at *
    rw [setWidth_roundtrip hw] at h
    refine ⟨_, by simp only [thumbFinish, if_true]; rfl, ?_⟩
    simp only [SyncOp.apply]
    rw [setWidth_roundtrip hw, h2, h, Kind.op_eq]
  | cas n ptr o nw =>
    obtain ⟨rfl, h2⟩ := hg
    simp only [SyncOp.size, SyncOp.ptr] at *
    rw [setWidth_roundtrip hw] at h
    refine ⟨_, rfl, ?_⟩
    simp only [SyncOp.apply]
    rw [setWidth_roundtrip hw, if_pos h, h2, h]

/-- related states of a thread -/
inductive ThumbRel (be : Bool) (m : Mem 32) (μ : Option (BitVec 32 × Nat)) : ThumbLocal → TState (syncObj 32 be) → Prop
  | idle : ThumbRel be m μ .idle .idle
  | start (op : SyncOp 32) (hv : (syncObj 32 be).valid op) : ThumbRel be m μ (.start op) (.pending op)
  | ldrex (op : SyncOp 32) (old new) (hv : (syncObj 32 be).valid op) (hg : ThumbRegs op old new) :
      ThumbRel be m μ (.ldrex op old new) (.pending op)
  | strex (op : SyncOp 32) (old new) (hv : (syncObj 32 be).valid op) (hg : ThumbRegs op old new)
      (hm : μ = some (op.ptr, op.size) → readCell be m op.ptr op.size = old.setWidth (8 * op.size)) :
      ThumbRel be m μ (.strex op old new old) (.pending op)
  | done (r : Nat) : ThumbRel be m μ (.done r) (.done ({r} : Set Nat))

theorem ThumbRel.mono {be : Bool} {m m' : Mem 32} {μ μ' : Option (BitVec 32 × Nat)} {l : ThumbLocal}
    {s : TState (syncObj 32 be)} (hr : ThumbRel be m μ l s)
    (h : ∀ b k, k ≤ 4 → μ' = some (b, k) → μ = some (b, k) ∧ readCell be m' b k = readCell be m b k) :
    ThumbRel be m' μ' l s := by
  cases hr with
  | idle => exact .idle
  | start op hv => exact .start op hv
  | ldrex op old new hv hg => exact .ldrex op old new hv hg
  | strex op old new hv hg hm =>
    refine .strex op old new hv hg (fun e => ?_)
    obtain ⟨h1, h2⟩ := h _ _ (by have := hv.1; omega) e
    rw [h2, hm h1]
  | done r => exact .done r

theorem update_rel' {α β γ Tid : Type} [DecidableEq Tid] {R : γ → α → β → Prop} {f : Tid → α} {g : Tid → β} {μ : Tid → γ}
    (t : Tid) {a : α} {b : β} {c : γ} (h : ∀ t', t' ≠ t → R (μ t') (f t') (g t')) (hab : R c a b) :
    ∀ t', R (Function.update μ t c t') (Function.update f t a t') (Function.update g t b t') := by
  intro t'
  by_cases e : t' = t
  · subst e; simpa using hab
  · simpa [Function.update_of_ne e] using h t' e

theorem thumb_simulation {be : Bool} {Tid : Type} [DecidableEq Tid] {m₀ m : Mem 32} {mon : Mon 32 Tid}
    {h : List (Event Tid (SyncOp 32) Nat (BitVec 32))} {ls : Tid → ThumbLocal} (hr : ThumbRun be Tid m₀ h m mon ls) :
    ∃ ts, Atomic (syncObj 32 be) Tid m₀ h m ts ∧ ∀ t, ThumbRel be m (mon t) (ls t) (ts t) := by
  induction hr with
  | init mon => exact ⟨_, .init, fun _ => .idle⟩
  | @call h m mon ls t op hr hi hv ih =>
    obtain ⟨ts, ha, hR⟩ := ih
    have := hR t
    rw [hi] at this
    generalize e : ts t = s at this
    cases this
    refine ⟨_, .call t op ha e hv, ?_⟩
    have := update_rel' (R := ThumbRel be m) t (c := mon t) (fun t' _ => hR t') (.start op hv)
    rwa [Function.update_eq_self] at this
  | @ldr h m mon ls t n ptr k f val new hr hi hnew ih =>
    obtain ⟨ts, ha, hR⟩ := ih
    have := hR t
    rw [hi] at this
    generalize e : ts t = s at this
    cases this with
    | start _ hv =>
    refine ⟨ts, ha, ?_⟩
    have := update_rel' (R := ThumbRel be m) t (c := mon t) (fun t' _ => hR t')
      (.ldrex _ ((readCell be m ptr n).setWidth 32) new hv ⟨_, rfl, hnew⟩)
    rwa [Function.update_eq_self, ← e, Function.update_eq_self] at this
  | @enter h m mon ls t n ptr old new newr hr hi hnew ih =>
    obtain ⟨ts, ha, hR⟩ := ih
    have := hR t
    rw [hi] at this
    generalize e : ts t = s at this
    cases this with
    | start _ hv =>
    refine ⟨ts, ha, ?_⟩
    have := update_rel' (R := ThumbRel be m) t (c := mon t) (fun t' _ => hR t')
      (.ldrex _ (old.setWidth 32) newr hv ⟨rfl, hnew⟩)
    rwa [Function.update_eq_self, ← e, Function.update_eq_self] at this
  | @ldrex h m mon ls t op old new hr hi ih =>
    obtain ⟨ts, ha, hR⟩ := ih
    have := hR t
    rw [hi] at this
    generalize e : ts t = s at this
    cases this with
    | ldrex _ _ _ hv hg =>
    have hw : 8 * op.size ≤ 32 := by have := hv.1; omega
    simp only
    split
    · rename_i hne
      rcases thumb_fail hw hg hne with hf | ⟨r, hf, hap⟩
      · rw [hf]
        refine ⟨ts, ha, ?_⟩
        have := update_rel' (R := ThumbRel be m) t (c := some (op.ptr, op.size)) (fun t' _ => hR t') (.start op hv)
        rwa [← e, Function.update_eq_self] at this
      · rw [hf]
        have hA := Atomic.effect t op ha e
        have e1 : ((syncObj 32 be).apply op m) = (m, ({r} : Set Nat)) := hap
        rw [e1] at hA
        exact ⟨_, hA, update_rel' (R := ThumbRel be m) t (fun t' _ => hR t') (.done r)⟩
    · rename_i heq
      have heq : (readCell be m op.ptr op.size).setWidth 32 = old := by simpa using heq
      refine ⟨ts, ha, ?_⟩
      have := update_rel' (R := ThumbRel be m) t (c := some (op.ptr, op.size)) (fun t' _ => hR t')
        (.strex op old new hv hg (fun _ => by rw [← heq, setWidth_roundtrip hw]))
      rw [heq]
      rwa [← e, Function.update_eq_self] at this
  | @strex_ok h m mon ls t op old new out hr hi hmon ih =>
    obtain ⟨ts, ha, hR⟩ := ih
    have := hR t
    rw [hi] at this
    generalize e : ts t = s at this
    cases this with
    | strex _ _ _ hv hg hm =>
    have hw : 8 * op.size ≤ 32 := by have := hv.1; omega
    obtain ⟨r, hf, hap⟩ := thumb_ok hw hg (hm hmon)
    rw [hf]
    have hA := Atomic.effect t op ha e
    have e1 : ((syncObj 32 be).apply op m) = (_, ({r} : Set Nat)) := hap
    rw [e1] at hA
    refine ⟨_, hA, update_rel' (R := ThumbRel be _) t (fun t' _ => ?_) (.done r)⟩
    refine (hR t').mono (fun b k hk hμ => ?_)
    obtain ⟨h1, h2⟩ := clearMon_some hμ
    exact ⟨h1, readCell_write_disjoint (by omega) h2 _⟩
  | @strex_fail h m mon ls t op old new out hr hi ih =>
    obtain ⟨ts, ha, hR⟩ := ih
    have := hR t
    rw [hi] at this
    generalize e : ts t = s at this
    cases this with
    | strex _ _ _ hv hg hm =>
    refine ⟨ts, ha, ?_⟩
    have := update_rel' (R := ThumbRel be m) t (c := none) (fun t' _ => hR t') (.ldrex op old new hv hg)
    rwa [← e, Function.update_eq_self] at this
  | @ret h m mon ls t r hr hi ih =>
    obtain ⟨ts, ha, hR⟩ := ih
    have := hR t
    rw [hi] at this
    generalize e : ts t = s at this
    cases this
    refine ⟨_, .ret t _ r ha e rfl, ?_⟩
    have := update_rel' (R := ThumbRel be m) t (c := mon t) (fun t' _ => hR t') .idle
    rwa [Function.update_eq_self] at this
  | @store h m mon ls a b hr ih =>
    obtain ⟨ts, ha, hR⟩ := ih
    refine ⟨ts, .store a b ha, fun t => (hR t).mono (fun c k hk hμ => ?_)⟩
    obtain ⟨h1, h2⟩ := clearMon_some hμ
    exact ⟨h1, readCell_store_disjoint (by omega) h2 _⟩

end Verif.Conc
