import Verif.Conc.SyncSpec
/-! Which bytes the atomic system changes. -/
namespace Verif.Conc
variable {A : Nat}

/-- `x` is one of the bytes of the cell of `op` -/
def SyncOp.covers (op : SyncOp A) (x : BitVec A) : Prop := (x - op.ptr).toNat < op.size

theorem SyncOp.apply_frame (be : Bool) (op : SyncOp A) (m : Mem A) {x : BitVec A} (h : ¬ op.covers x) :
    (op.apply be m).1 x = m x := by
  cases op with
  | rmw n p k new v =>
    show writeCell be m p n _ x = m x
    exact if_neg h
  | cas n p old new =>
    show (if readCell be m p n = old then writeCell be m p n new else m) x = m x
    split
    · exact if_neg h
    · rfl

/-- Bytes which no called operation covers and nobody stores to keep their value. -/
theorem atomic_frame {O : Obj A} {cov : O.Op → BitVec A → Prop}
    (hf : ∀ op m x, ¬ cov op x → (O.apply op m).1 x = m x) {Tid : Type} [DecidableEq Tid] {m₀ m : Mem A}
    {h : List (Event Tid O.Op O.Ret (BitVec A))} {ts : Tid → TState O} (hr : Atomic O Tid m₀ h m ts) {x : BitVec A} :
    (∀ t op, ts t = .pending op → .call t op ∈ h) ∧
    ((∀ t op, .call t op ∈ h → ¬ cov op x) → (∀ b, .store x b ∉ h) → m x = m₀ x) := by
  induction hr with
  | init => exact ⟨fun t op h => (by cases h), fun _ _ => rfl⟩
  | @call h m ts t op hr hi hv ih =>
    refine ⟨?_, fun h1 h2 => ih.2 (fun t op ho => h1 t op (by simp [ho])) (fun b hb => h2 b (by simp [hb]))⟩
    intro t' op' h'
    by_cases e : t' = t
    · subst e; simp at h'; subst h'; simp
    · rw [Function.update_of_ne e] at h'
      exact List.mem_append_left _ (ih.1 t' op' h')
  | @effect h m ts t op hr hi ih =>
    refine ⟨?_, fun h1 h2 => ?_⟩
    · intro t' op' h'
      by_cases e : t' = t
      · subst e; simp at h'
      · rw [Function.update_of_ne e] at h'; exact ih.1 t' op' h'
    · rw [← ih.2 h1 h2]
      exact hf op m x (h1 t op (ih.1 t op hi))
  | @ret h m ts t R r hr hi hR ih =>
    refine ⟨?_, fun h1 h2 => ih.2 (fun t op ho => h1 t op (by simp [ho])) (fun b hb => h2 b (by simp [hb]))⟩
    intro t' op' h'
    by_cases e : t' = t
    · subst e; simp at h'
    · rw [Function.update_of_ne e] at h'
      exact List.mem_append_left _ (ih.1 t' op' h')
  | @store h m ts a b hr ih =>
    refine ⟨fun t op ho => List.mem_append_left _ (ih.1 t op ho), fun h1 h2 => ?_⟩
    have : x ≠ a := by
      rintro rfl
      exact h2 b (by simp)
    rw [Function.update_of_ne this]
    exact ih.2 (fun t op ho => h1 t op (by simp [ho])) (fun b hb => h2 b (by simp [hb]))

end Verif.Conc
