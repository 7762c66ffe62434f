import Verif.Core
import Mathlib.Order.Lattice
import Mathlib.Logic.Function.Basic
/-!
# Lazily initialised relaxed atomic cells

libm/src/math/support/feature_detect.rs has two constructs of the same shape: load a cell with `Ordering::Relaxed`; if it does not
yet hold a usable value run an initialisation, store the outcome with `Ordering::Relaxed` and go on with it.
`OnceCode` is what the two do with the loaded value and with the outcome of the initialisation.

`OnceRun` are the executions of any number of threads. The cell follows the coherence rules of relaxed atomics, without
sequential consistency: the stores to it form a total order (time stamps in an arbitrary linear order `T`), a thread
may read any store that is not older than the newest one it knows of, it may insert its own store anywhere
after that, and a synchronisation outside of this code (a lock, a spawn, a join: `sync t t'`) makes everything `t` knows
known to `t'`. Not modelled: loads that read stores made later in the execution (speculated stores).
-/
namespace Verif.Conc

/-- The two decisions of a lazy initialisation. `V`: contents of the cell, `I`: outcome of the initialisation,
`R`: what the caller goes on with. -/
structure OnceCode (V I R : Type) where
  /-- on the loaded contents: go on with a value, or run the initialisation -/
  onLoad : V → Option R
  /-- on the outcome of the initialisation: what to store, and what to go on with -/
  onInit : I → M (V × R)

/-- Program counter of a thread. -/
inductive OnceLocal (V R : Type) where
  | idle
  | start
  | missed
  | storing (v : V) (r : R)
  | done (r : R)
  | failed (f : Fault)

/-- What can be observed from outside. -/
inductive OnceEvent (Tid I R : Type) where
  /-- `t` enters the function -/
  | call (t : Tid)
  /-- `t` runs the initialisation, with outcome `i` -/
  | detect (t : Tid) (i : I)
  /-- `t` leaves the function with `r` -/
  | ret (t : Tid) (r : R)
  /-- outside of the function: what `t` did so far happens before what `t'` does from now on -/
  | sync (t t' : Tid)

variable {V I R T Tid : Type} [LinearOrder T] [DecidableEq Tid]

/-- Executions: history, stores made so far by time stamp, newest store known to each thread, program counters. `D` are the
possible outcomes of an initialisation, `v₀` the initial contents of the cell. -/
inductive OnceRun (C : OnceCode V I R) (D : I → Prop) (t₀ : T) (v₀ : V) :
    List (OnceEvent Tid I R) → (T → Option V) → (Tid → T) → (Tid → OnceLocal V R) → Prop where
  | init : OnceRun C D t₀ v₀ [] (Function.update (fun _ => none) t₀ (some v₀)) (fun _ => t₀) (fun _ => .idle)
  | call (t) {h ms vw ls} : OnceRun C D t₀ v₀ h ms vw ls → ls t = .idle →
      OnceRun C D t₀ v₀ (h ++ [.call t]) ms vw (Function.update ls t .start)
  | load_hit (t x v r) {h ms vw ls} : OnceRun C D t₀ v₀ h ms vw ls → ls t = .start → vw t ≤ x → ms x = some v →
      C.onLoad v = some r → OnceRun C D t₀ v₀ h ms (Function.update vw t x) (Function.update ls t (.done r))
  | load_miss (t x v) {h ms vw ls} : OnceRun C D t₀ v₀ h ms vw ls → ls t = .start → vw t ≤ x → ms x = some v →
      C.onLoad v = none → OnceRun C D t₀ v₀ h ms (Function.update vw t x) (Function.update ls t .missed)
  | detect (t i v r) {h ms vw ls} : OnceRun C D t₀ v₀ h ms vw ls → ls t = .missed → D i → C.onInit i = .ok (v, r) →
      OnceRun C D t₀ v₀ (h ++ [.detect t i]) ms vw (Function.update ls t (.storing v r))
  | detect_fault (t i f) {h ms vw ls} : OnceRun C D t₀ v₀ h ms vw ls → ls t = .missed → D i → C.onInit i = .error f →
      OnceRun C D t₀ v₀ (h ++ [.detect t i]) ms vw (Function.update ls t (.failed f))
  | store (t x v r) {h ms vw ls} : OnceRun C D t₀ v₀ h ms vw ls → ls t = .storing v r → vw t < x → ms x = none →
      OnceRun C D t₀ v₀ h (Function.update ms x (some v)) (Function.update vw t x) (Function.update ls t (.done r))
  | ret (t r) {h ms vw ls} : OnceRun C D t₀ v₀ h ms vw ls → ls t = .done r →
      OnceRun C D t₀ v₀ (h ++ [.ret t r]) ms vw (Function.update ls t .idle)
  | sync (t t') {h ms vw ls} : OnceRun C D t₀ v₀ h ms vw ls → ls t = .idle → ls t' = .idle →
      OnceRun C D t₀ v₀ (h ++ [.sync t t']) ms (Function.update vw t' (vw t ⊔ vw t')) ls

/-- `t` is, at the end of the history (newest event first), after a completed call: it completed one, or synchronised with a
thread that was. -/
def afterCall : List (OnceEvent Tid I R) → Tid → Prop
  | [], _ => False
  | .ret t _ :: h, u => u = t ∨ afterCall h u
  | .sync t t' :: h, u => (u = t' ∧ afterCall h t) ∨ afterCall h u
  | .call _ :: h, u => afterCall h u
  | .detect _ _ :: h, u => afterCall h u

/-- A cell as used in this crate: the initial contents need initialisation, what is stored does not, and is read back as the
value the initialising caller itself went on with. -/
structure OnceCode.Good (C : OnceCode V I R) (D : I → Prop) (v₀ : V) : Prop where
  fresh : C.onLoad v₀ = none
  stored : ∀ i v r, D i → C.onInit i = .ok (v, r) → C.onLoad v = some r

/-- `r` is the value that some initialisation in the history arrived at. -/
def Detected (C : OnceCode V I R) (D : I → Prop) (h : List (OnceEvent Tid I R)) (r : R) : Prop :=
  ∃ t i v, .detect t i ∈ h ∧ D i ∧ C.onInit i = .ok (v, r)

theorem Detected.mono {C : OnceCode V I R} {D : I → Prop} {h : List (OnceEvent Tid I R)} {r : R} (hd : Detected C D h r)
    (l : List (OnceEvent Tid I R)) : Detected C D (h ++ l) r :=
  let ⟨t, i, v, h1, h2⟩ := hd
  ⟨t, i, v, List.mem_append_left _ h1, h2⟩

/-- What is known of a thread at a program counter. -/
def LocalOk (C : OnceCode V I R) (D : I → Prop) (h : List (OnceEvent Tid I R)) (fresh seen : Prop) :
    OnceLocal V R → Prop
  | .idle => seen → ¬ fresh
  | .start => seen → ¬ fresh
  | .missed => ¬ seen
  | .storing v r => Detected C D h r ∧ C.onLoad v = some r ∧ ¬ seen
  | .done r => Detected C D h r ∧ ¬ fresh
  | .failed f => ∃ i, D i ∧ C.onInit i = .error f

theorem LocalOk.mono {C : OnceCode V I R} {D : I → Prop} {h : List (OnceEvent Tid I R)} {fr sn : Prop} {l : OnceLocal V R}
    (hl : LocalOk C D h fr sn l) (k : List (OnceEvent Tid I R)) : LocalOk C D (h ++ k) fr sn l := by
  cases l <;> simp only [LocalOk] at hl ⊢ <;> try exact hl
  · exact ⟨hl.1.mono k, hl.2⟩
  · exact ⟨hl.1.mono k, hl.2⟩

structure OnceInv (C : OnceCode V I R) (D : I → Prop) (t₀ : T) (v₀ : V) (h : List (OnceEvent Tid I R)) (ms : T → Option V)
    (vw : Tid → T) (ls : Tid → OnceLocal V R) : Prop where
  base : ms t₀ = some v₀
  view : ∀ t, t₀ ≤ vw t
  msgs : ∀ x v, ms x = some v → x ≠ t₀ → t₀ < x ∧ ∃ r, C.onLoad v = some r ∧ Detected C D h r
  rets : ∀ t r, .ret t r ∈ h → Detected C D h r
  loc : ∀ t, LocalOk C D h (vw t = t₀) (afterCall h.reverse t) (ls t)
  quiet : ∀ a t i b, h = a ++ .detect t i :: b → ¬ afterCall a.reverse t

theorem once_inv {C : OnceCode V I R} {D : I → Prop} {t₀ : T} {v₀ : V} (hg : C.Good D v₀) {h : List (OnceEvent Tid I R)}
    {ms : T → Option V} {vw : Tid → T} {ls : Tid → OnceLocal V R} (hr : OnceRun C D t₀ v₀ h ms vw ls) :
    OnceInv C D t₀ v₀ h ms vw ls := by
  have split : ∀ {h a b : List (OnceEvent Tid I R)} {e f : OnceEvent Tid I R}, h ++ [e] = a ++ f :: b →
      (b = [] ∧ e = f ∧ h = a) ∨ ∃ b', h = a ++ f :: b' := by
    intro h a b e f he
    rcases List.eq_nil_or_concat b with rfl | ⟨b', e', rfl⟩
    · have := List.append_inj' he rfl
      simp at this; exact .inl ⟨rfl, this.2, this.1⟩
    · right
      refine ⟨b', ?_⟩
      have : h ++ [e] = (a ++ f :: b') ++ [e'] := by simpa using he
      exact (List.append_inj' this rfl).1
  induction hr with
  | init =>
    refine ⟨by simp, fun _ => le_refl _, ?_, by simp, fun t => ?_, by simp⟩
    · intro x v hx hne
      simp [Function.update_of_ne hne] at hx
    · simp [LocalOk, afterCall]
  | @call t h ms vw ls hr e ih =>
    refine ⟨ih.base, ih.view, fun x v hx hne => ?_, fun u r hm => ?_, fun u => ?_, fun a u i b he => ?_⟩
    · obtain ⟨h1, r, h2, h3⟩ := ih.msgs x v hx hne
      exact ⟨h1, r, h2, h3.mono _⟩
    · exact (ih.rets u r (by simpa using hm)).mono _
    · rw [List.reverse_append]
      by_cases hu : u = t
      · subst hu
        rw [Function.update_self]
        have := ih.loc u
        rw [e] at this
        simpa [LocalOk, afterCall] using this
      · rw [Function.update_of_ne hu]
        exact (ih.loc u).mono _
    · rcases split he with ⟨_, h1, _⟩ | ⟨b', h1⟩
      · cases h1
      · exact ih.quiet a u i b' h1
  | @load_hit t x v r h ms vw ls hr e hx hm hl ih =>
    have hne : x ≠ t₀ := by
      rintro rfl
      rw [ih.base] at hm
      cases hm
      rw [hg.fresh] at hl
      cases hl
    obtain ⟨hlt, r', h2, h3⟩ := ih.msgs x v hm hne
    rw [hl] at h2; cases h2
    refine ⟨ih.base, fun u => ?_, ih.msgs, ih.rets, fun u => ?_, ih.quiet⟩
    · by_cases hu : u = t
      · subst hu; rw [Function.update_self]; exact hlt.le
      · rw [Function.update_of_ne hu]; exact ih.view u
    · by_cases hu : u = t
      · subst hu; rw [Function.update_self, Function.update_self]; exact ⟨h3, hne⟩
      · rw [Function.update_of_ne hu, Function.update_of_ne hu]; exact ih.loc u
  | @load_miss t x v h ms vw ls hr e hx hm hl ih =>
    have heq : x = t₀ := by
      by_contra hne
      obtain ⟨_, r', h2, _⟩ := ih.msgs x v hm hne
      rw [hl] at h2; cases h2
    have hv : vw t = t₀ := le_antisymm (heq ▸ hx) (ih.view t)
    refine ⟨ih.base, fun u => ?_, ih.msgs, ih.rets, fun u => ?_, ih.quiet⟩
    · by_cases hu : u = t
      · subst hu; rw [Function.update_self, heq]
      · rw [Function.update_of_ne hu]; exact ih.view u
    · by_cases hu : u = t
      · subst hu; rw [Function.update_self, Function.update_self]
        have := ih.loc u
        rw [e] at this
        exact fun hs => this hs hv
      · rw [Function.update_of_ne hu, Function.update_of_ne hu]; exact ih.loc u
  | @detect t i v r h ms vw ls hr e hD hi ih =>
    have hns : ¬ afterCall h.reverse t := by
      have := ih.loc t
      rw [e] at this
      exact this
    refine ⟨ih.base, ih.view, fun x v hx hne => ?_, fun u r hm => ?_, fun u => ?_, fun a u j b he => ?_⟩
    · obtain ⟨h1, r, h2, h3⟩ := ih.msgs x v hx hne
      exact ⟨h1, r, h2, h3.mono _⟩
    · exact (ih.rets u r (by simpa using hm)).mono _
    · rw [List.reverse_append]
      by_cases hu : u = t
      · subst hu
        rw [Function.update_self]
        exact ⟨⟨u, i, v, by simp, hD, hi⟩, hg.stored i v r hD hi, hns⟩
      · rw [Function.update_of_ne hu]
        exact (ih.loc u).mono _
    · rcases split he with ⟨_, h1, h2⟩ | ⟨b', h1⟩
      · cases h1; subst h2; exact hns
      · exact ih.quiet a u j b' h1
  | @detect_fault t i f h ms vw ls hr e hD hi ih =>
    have hns : ¬ afterCall h.reverse t := by
      have := ih.loc t
      rw [e] at this
      exact this
    refine ⟨ih.base, ih.view, fun x v hx hne => ?_, fun u r hm => ?_, fun u => ?_, fun a u j b he => ?_⟩
    · obtain ⟨h1, r, h2, h3⟩ := ih.msgs x v hx hne
      exact ⟨h1, r, h2, h3.mono _⟩
    · exact (ih.rets u r (by simpa using hm)).mono _
    · rw [List.reverse_append]
      by_cases hu : u = t
      · subst hu
        rw [Function.update_self]
        exact ⟨i, hD, hi⟩
      · rw [Function.update_of_ne hu]
        exact (ih.loc u).mono _
    · rcases split he with ⟨_, h1, h2⟩ | ⟨b', h1⟩
      · cases h1; subst h2; exact hns
      · exact ih.quiet a u j b' h1
  | @store t x v r h ms vw ls hr e hx hm ih =>
    have hlt : t₀ < x := lt_of_le_of_lt (ih.view t) hx
    have hl := ih.loc t
    rw [e] at hl
    refine ⟨?_, fun u => ?_, fun y w hy hne => ?_, ih.rets, fun u => ?_, ih.quiet⟩
    · rw [Function.update_of_ne hlt.ne]; exact ih.base
    · by_cases hu : u = t
      · subst hu; rw [Function.update_self]; exact hlt.le
      · rw [Function.update_of_ne hu]; exact ih.view u
    · by_cases hyx : y = x
      · subst hyx
        rw [Function.update_self] at hy
        cases hy
        exact ⟨hlt, r, hl.2.1, hl.1⟩
      · rw [Function.update_of_ne hyx] at hy
        exact ih.msgs y w hy hne
    · by_cases hu : u = t
      · subst hu; rw [Function.update_self, Function.update_self]; exact ⟨hl.1, hlt.ne'⟩
      · rw [Function.update_of_ne hu, Function.update_of_ne hu]; exact ih.loc u
  | @ret t r h ms vw ls hr e ih =>
    have hl := ih.loc t
    rw [e] at hl
    refine ⟨ih.base, ih.view, fun x v hx hne => ?_, fun u r' hm => ?_, fun u => ?_, fun a u i b he => ?_⟩
    · obtain ⟨h1, r, h2, h3⟩ := ih.msgs x v hx hne
      exact ⟨h1, r, h2, h3.mono _⟩
    · rcases List.mem_append.1 hm with hm | hm
      · exact (ih.rets u r' hm).mono _
      · cases List.mem_singleton.1 hm; exact hl.1.mono _
    · rw [List.reverse_append]
      by_cases hu : u = t
      · subst hu
        rw [Function.update_self]
        exact fun _ => hl.2
      · rw [Function.update_of_ne hu]
        simpa [afterCall, hu] using (ih.loc u).mono [.ret t r]
    · rcases split he with ⟨_, h1, _⟩ | ⟨b', h1⟩
      · cases h1
      · exact ih.quiet a u i b' h1
  | @sync t t' h ms vw ls hr e e' ih =>
    refine ⟨ih.base, fun u => ?_, fun x v hx hne => ?_, fun u r' hm => ?_, fun u => ?_, fun a u i b he => ?_⟩
    · by_cases hu : u = t'
      · subst hu; rw [Function.update_self]; exact le_sup_of_le_left (ih.view t)
      · rw [Function.update_of_ne hu]; exact ih.view u
    · obtain ⟨h1, r, h2, h3⟩ := ih.msgs x v hx hne
      exact ⟨h1, r, h2, h3.mono _⟩
    · exact (ih.rets u r' (by simpa using hm)).mono _
    · rw [List.reverse_append]
      have h1 := ih.loc t
      rw [e] at h1
      by_cases hu : u = t'
      · subst hu
        rw [Function.update_self]
        have h2 := ih.loc u
        rw [e'] at h2 ⊢
        intro hs hv
        have h3 : vw t = t₀ := le_antisymm (hv ▸ le_sup_left) (ih.view t)
        have h4 : vw u = t₀ := le_antisymm (hv ▸ le_sup_right) (ih.view u)
        rcases hs with ⟨_, hs⟩ | hs
        · exact h1 hs h3
        · exact h2 hs h4
      · rw [Function.update_of_ne hu]
        simpa [afterCall, hu] using (ih.loc u).mono [.sync t t']
    · rcases split he with ⟨_, h1, _⟩ | ⟨b', h1⟩
      · cases h1
      · exact ih.quiet a u i b' h1

end Verif.Conc
