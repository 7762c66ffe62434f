import Verif.Conc.Cell
/-!
# Exclusive monitors

From the ARM architecture manual: a load-exclusive sets the monitor of its processor to the loaded cell; a store to any of
those bytes by another observer clears it; a store-exclusive succeeds only if the monitor is still set to its cell, and
always clears it. It may also fail for no reason at all.
-/
namespace Verif.Conc
variable {A : Nat} {Tid : Type}

/-- The monitors: the cell (address and size) that each thread has marked. -/
abbrev Mon (A : Nat) (Tid : Type) := Tid → Option (BitVec A × Nat)

/-- The (non-empty) cells have a byte in common. -/
def overlap (a : BitVec A) (n : Nat) (b : BitVec A) (k : Nat) : Prop := (b - a).toNat < n ∨ (a - b).toNat < k

instance (a : BitVec A) (n : Nat) (b : BitVec A) (k : Nat) : Decidable (overlap a n b k) :=
  inferInstanceAs (Decidable (_ ∨ _))

/-- A store to `n` bytes at `a`. -/
def clearMon (mon : Mon A Tid) (a : BitVec A) (n : Nat) : Mon A Tid := fun t =>
  match mon t with
  | none => none
  | some (b, k) => if overlap a n b k then none else some (b, k)

theorem clearMon_some {mon : Mon A Tid} {a b : BitVec A} {n k : Nat} {t : Tid} (h : clearMon mon a n t = some (b, k)) :
    mon t = some (b, k) ∧ ¬ overlap a n b k := by
  unfold clearMon at h
  split at h
  · cases h
  · rename_i b' k' e
    split at h
    · cases h
    · rename_i ho
      cases h
      exact ⟨e, ho⟩

/-- differences of differences -/
theorem sub_eq_sub_sub (a b x : BitVec A) : b - a = (x - a) - (x - b) := by
  apply BitVec.eq_of_toNat_eq
  simp only [BitVec.toNat_sub]
  have := x.isLt; have := a.isLt; have := b.isLt
  generalize x.toNat = x at *
  generalize a.toNat = a at *
  generalize b.toNat = b at *
  generalize 2 ^ A = N at *
  have e : ∀ u v, u < N → v < N → (N - v + u) % N = if v ≤ u then u - v else N - v + u := by
    intro u v hu hv
    split
    · rw [show N - v + u = u - v + N by omega, Nat.add_mod_right, Nat.mod_eq_of_lt (by omega)]
    · rw [Nat.mod_eq_of_lt (by omega)]
  rw [e b a ‹_› ‹_›, e x a ‹_› ‹_›, e x b ‹_› ‹_›, e _ _ (by split <;> omega) (by split <;> omega)]
  split <;> split <;> split <;> split <;> omega

/-- `overlap` says what it should -/
theorem overlap_of_mem {a b x : BitVec A} {n k : Nat} (ha : (x - a).toNat < n) (hb : (x - b).toNat < k) :
    overlap a n b k := by
  unfold overlap
  rw [sub_eq_sub_sub a b x, sub_eq_sub_sub b a x, BitVec.toNat_sub (x - a), BitVec.toNat_sub (x - b)]
  have := (x - a).isLt; have := (x - b).isLt
  generalize (x - a).toNat = u at *
  generalize (x - b).toNat = v at *
  generalize 2 ^ A = N at *
  by_cases hv : v ≤ u
  · left
    rw [show N - v + u = u - v + N by omega, Nat.add_mod_right, Nat.mod_eq_of_lt (by omega)]; omega
  · right
    rw [show N - u + v = v - u + N by omega, Nat.add_mod_right, Nat.mod_eq_of_lt (by omega)]; omega

theorem readCell_write_disjoint {be : Bool} {m : Mem A} {a b : BitVec A} {n k : Nat} (hk : k ≤ 2 ^ A)
    (h : ¬ overlap a n b k) (v : BitVec (8 * n)) : readCell be (writeCell be m a n v) b k = readCell be m b k := by
  apply readCell_congr
  intro i hi
  unfold writeCell
  rw [if_neg]
  intro hc
  exact h (overlap_of_mem hc (by rw [sub_toNat_add (by omega)]; exact hi))

theorem readCell_store_disjoint {be : Bool} {m : Mem A} {a b : BitVec A} {k : Nat} (hk : k ≤ 2 ^ A)
    (h : ¬ overlap a 1 b k) (v : BitVec 8) : readCell be (Function.update m a v) b k = readCell be m b k := by
  apply readCell_congr
  intro i hi
  rw [Function.update_of_ne]
  rintro rfl
  exact h (overlap_of_mem (x := b + BitVec.ofNat A i) (by simp) (by rw [sub_toNat_add (by omega)]; exact hi))

end Verif.Conc
