import Verif.Core
/-!
# Memory model

A store maps addresses to bytes. Every access goes through an environment that says which addresses may
be read and written; any other access, and any misaligned access through a typed pointer, is the fault
`ub`. Addresses are natural numbers below `2^(8*ws)`; pointer arithmetic wraps, as `wrapping_add` does.
-/
namespace Verif.Mem

abbrev Byte := BitVec 8
abbrev Store := Nat → Byte

/-- Target and permissions. -/
structure Env where
  /-- `WORD_SIZE = size_of::<usize>()` -/
  ws : Nat
  /-- big endian? -/
  be : Bool
  /-- may this address be read? -/
  canR : Nat → Bool
  /-- may this address be written? -/
  canW : Nat → Bool

/-- Computations that access memory. -/
abbrev MM := StateT Store M

variable (E : Env)

/-- Size of the address space. -/
def Env.space : Nat := 2 ^ (8 * E.ws)

/-- `ptr.wrapping_add(n)` / `wrapping_byte_add(n)` (byte units). -/
def padd (a n : Nat) : Nat := (a + n) % E.space
/-- `ptr.wrapping_sub(n)` / `wrapping_byte_sub(n)` (byte units). -/
def psub (a n : Nat) : Nat := (a + (E.space - n % E.space)) % E.space
/-- `(a as usize).wrapping_neg()` -/
def pneg (a : Nat) : Nat := (E.space - a) % E.space

/-- Position in the integer (in bytes, from the least significant) of the `i`-th byte in memory of an
`sz`-byte integer. -/
def bytePos (be : Bool) (sz i : Nat) : Nat := if be then sz - 1 - i else i

/-- The number with the base-256 digits `f 0, f 1, .., f (n-1)`, least significant first. -/
def leNat (f : Nat → Byte) : Nat → Nat
  | 0 => 0
  | n + 1 => 2 ^ (8 * n) * (f n).toNat + leNat f n

/-- `sz`-byte integer with the memory representation `f 0, f 1, .., f (sz-1)` (`from_ne_bytes`). -/
def wordOf (be : Bool) (sz : Nat) (f : Nat → Byte) : BitVec (8 * sz) :=
  BitVec.ofNat (8 * sz) (leNat (fun i => f (bytePos be sz i)) sz)

/-- `i`-th byte in memory of an `sz`-byte integer (`to_ne_bytes`). -/
def byteOf (be : Bool) (sz : Nat) (w : BitVec (8 * sz)) (i : Nat) : Byte :=
  w.extractLsb' (8 * bytePos be sz i) 8

/-- All of `a .. a+n` may be read. -/
def allR (a n : Nat) : Bool := (List.range n).all (fun i => E.canR (a + i))
/-- All of `a .. a+n` may be written. -/
def allW (a n : Nat) : Bool := (List.range n).all (fun i => E.canW (a + i))

/-- Store with `sz` bytes at `a` replaced by `f`. -/
def put (s : Store) (a sz : Nat) (f : Nat → Byte) : Store :=
  fun x => if a ≤ x ∧ x < a + sz then f (x - a) else s x

/-- Fail. -/
def fault {α} (e : Fault) : MM α := fun _ => .error e

/-- `*p` for a byte pointer. -/
def readB (a : Nat) : MM Byte := fun s => if E.canR a then .ok (s a, s) else .error .ub
/-- `*p = b` for a byte pointer. -/
def writeB (a : Nat) (b : Byte) : MM Unit := fun s =>
  if E.canW a then .ok ((), put s a 1 (fun _ => b)) else .error .ub
/-- `*p` for a pointer to an `sz`-byte integer; `al` demands natural alignment. -/
def readWord (al : Bool) (sz a : Nat) : MM (BitVec (8 * sz)) := fun s =>
  if (al → a % sz = 0) ∧ allR E a sz then .ok (wordOf E.be sz (fun i => s (a + i)), s) else .error .ub
/-- `*p = w` for a pointer to an `sz`-byte integer. -/
def writeWord (al : Bool) (sz a : Nat) (w : BitVec (8 * sz)) : MM Unit := fun s =>
  if (al → a % sz = 0) ∧ allW E a sz then .ok ((), put s a sz (byteOf E.be sz w)) else .error .ub

/-! ### Reasoning -/

/-- Total correctness from store `s`. -/
def OkS {α} (m : MM α) (s : Store) (P : α → Store → Prop) : Prop := ∃ a s', m s = .ok (a, s') ∧ P a s'

theorem OkS.pure' {α} {a : α} {s : Store} {P : α → Store → Prop} (h : P a s) : OkS (Pure.pure a) s P :=
  ⟨a, s, rfl, h⟩

theorem OkS.bind {α β} {m : MM α} {f : α → MM β} {s : Store} {P : α → Store → Prop} {Q : β → Store → Prop}
    (hm : OkS m s P) (hf : ∀ a s', P a s' → OkS (f a) s' Q) : OkS (m >>= f) s Q := by
  obtain ⟨a, s', e, h⟩ := hm
  obtain ⟨b, s'', e', h'⟩ := hf a s' h
  refine ⟨b, s'', ?_, h'⟩
  show (m s >>= fun p => f p.1 p.2) = _
  rw [e]; exact e'

theorem OkS.mono {α} {m : MM α} {s : Store} {P Q : α → Store → Prop} (hm : OkS m s P)
    (h : ∀ a s', P a s' → Q a s') : OkS m s Q := by
  obtain ⟨a, s', e, h'⟩ := hm
  exact ⟨a, s', e, h _ _ h'⟩

theorem OkS.lift {α} {m : M α} {s : Store} {P : α → Prop} (hm : Ok m P) :
    OkS (liftM m : MM α) s (fun a s' => P a ∧ s' = s) := by
  obtain ⟨a, e, h⟩ := hm
  refine ⟨a, s, ?_, h, rfl⟩
  subst e; rfl

variable {E}

theorem allR_iff {a n : Nat} : allR E a n = true ↔ ∀ i, i < n → E.canR (a + i) = true := by
  simp [allR]
theorem allW_iff {a n : Nat} : allW E a n = true ↔ ∀ i, i < n → E.canW (a + i) = true := by
  simp [allW]

theorem readB_spec {a : Nat} {s : Store} (h : E.canR a = true) :
    OkS (readB E a) s (fun b s' => b = s a ∧ s' = s) :=
  ⟨s a, s, by simp [readB, h], rfl, rfl⟩

theorem writeB_spec {a : Nat} {b : Byte} {s : Store} (h : E.canW a = true) :
    OkS (writeB E a b) s (fun _ s' => s' = put s a 1 (fun _ => b)) :=
  ⟨(), _, by simp [writeB, h], rfl⟩

theorem readWord_spec {al : Bool} {sz a : Nat} {s : Store} (h : al = true → a % sz = 0)
    (hr : ∀ i, i < sz → E.canR (a + i) = true) :
    OkS (readWord E al sz a) s (fun w s' => w = wordOf E.be sz (fun i => s (a + i)) ∧ s' = s) :=
  ⟨_, s, by unfold readWord; rw [if_pos ⟨h, allR_iff.2 hr⟩], rfl, rfl⟩

theorem writeWord_spec {al : Bool} {sz a : Nat} {w : BitVec (8 * sz)} {s : Store} (h : al = true → a % sz = 0)
    (hr : ∀ i, i < sz → E.canW (a + i) = true) :
    OkS (writeWord E al sz a w) s (fun _ s' => s' = put s a sz (byteOf E.be sz w)) :=
  ⟨(), _, by unfold writeWord; rw [if_pos ⟨h, allW_iff.2 hr⟩], rfl⟩

theorem leNat_lt (f : Nat → Byte) (n : Nat) : leNat f n < 2 ^ (8 * n) := by
  induction n with
  | zero => simp [leNat]
  | succ n ih =>
    have h := (f n).isLt
    have e : 2 ^ (8 * (n + 1)) = 2 ^ (8 * n) * 256 := by
      rw [show 8 * (n + 1) = 8 * n + 8 by omega, Nat.pow_add]
    have : 2 ^ (8 * n) * ((f n).toNat + 1) ≤ 2 ^ (8 * n) * 256 := Nat.mul_le_mul_left _ (by omega)
    rw [Nat.mul_add] at this
    simp only [leNat]
    omega

theorem testBit_leNat (f : Nat → Byte) (n j : Nat) (hj : j < 8 * n) :
    (leNat f n).testBit j = (f (j / 8)).getLsbD (j % 8) := by
  induction n with
  | zero => omega
  | succ n ih =>
    simp only [leNat]
    rw [Nat.testBit_two_pow_mul_add _ (leNat_lt f n)]
    split
    · exact ih (by assumption)
    · have e1 : j / 8 = n := by omega
      have e2 : j % 8 = j - 8 * n := by omega
      rw [e1, e2]; rfl

theorem leNat_congr {f g : Nat → Byte} {n : Nat} (h : ∀ i, i < n → f i = g i) : leNat f n = leNat g n := by
  induction n with
  | zero => rfl
  | succ n ih => simp only [leNat]; rw [h n (by omega), ih (fun i hi => h i (by omega))]

theorem wordOf_congr {be : Bool} {sz : Nat} {f g : Nat → Byte} (h : ∀ i, i < sz → f i = g i) :
    wordOf be sz f = wordOf be sz g := by
  unfold wordOf
  rw [leNat_congr]
  intro i hi
  exact h _ (by unfold bytePos; split <;> omega)

theorem getLsbD_wordOf {be : Bool} {sz : Nat} {f : Nat → Byte} {j : Nat} (hj : j < 8 * sz) :
    (wordOf be sz f).getLsbD j = (f (bytePos be sz (j / 8))).getLsbD (j % 8) := by
  rw [wordOf, BitVec.getLsbD_ofNat, testBit_leNat _ _ _ hj]
  simp [hj]

theorem bytePos_bytePos {be : Bool} {sz i : Nat} (hi : i < sz) : bytePos be sz (bytePos be sz i) = i := by
  unfold bytePos; split <;> omega

theorem bytePos_lt {be : Bool} {sz i : Nat} (hi : i < sz) : bytePos be sz i < sz := by
  unfold bytePos; split <;> omega

theorem byteOf_wordOf {be : Bool} {sz : Nat} {f : Nat → Byte} {i : Nat} (hi : i < sz) :
    byteOf be sz (wordOf be sz f) i = f i := by
  apply BitVec.eq_of_getLsbD_eq
  intro j hj
  have hp := bytePos_lt (be := be) hi
  rw [byteOf, BitVec.getLsbD_extractLsb', getLsbD_wordOf (by omega)]
  have e1 : (8 * bytePos be sz i + j) / 8 = bytePos be sz i := by omega
  have e2 : (8 * bytePos be sz i + j) % 8 = j := by omega
  rw [e1, e2, bytePos_bytePos hi]
  simp [hj]

theorem padd_eq {a n : Nat} (h : a + n < E.space) : padd E a n = a + n := Nat.mod_eq_of_lt h

theorem psub_eq {a n : Nat} (hn : n ≤ a) (ha : a < E.space) : psub E a n = a - n := by
  unfold psub
  rw [Nat.mod_eq_of_lt (a := n) (by omega), show a + (E.space - n) = (a - n) + E.space by omega,
    Nat.add_mod_right, Nat.mod_eq_of_lt (by omega)]

end Verif.Mem
