/-!
# Core conventions of the model

* `Fault`/`M`: the outcome of a Rust computation. Every condition under which the modelled Rust code
  would panic in a build with overflow checks / debug assertions, or would be undefined behaviour, is an
  explicit `Fault`.
* `*C` operations: ordinary Rust operators (`+`, `-`, `*`, `<<`, `>>`, `/`, `%`) on unsigned machine
  integers, which are checked. `wrapping_*` operations are the plain `BitVec` operations.
-/

namespace Verif

/-- Reasons for which a modelled Rust computation does not return a value. -/
inductive Fault where
  /-- arithmetic overflow (panics when overflow checks are on) -/
  | overflow
  /-- shift amount not below the width (panics when overflow checks are on) -/
  | shift
  /-- `assert!`/`debug_assert!`/`unwrap` failure, explicit `panic!` -/
  | assert
  /-- division by zero -/
  | divZero
  /-- undefined behaviour (`unreachable_unchecked`, out-of-bounds or misaligned access, ...) -/
  | ub
  /-- the model's fuel was exhausted: the Rust loop might not terminate -/
  | fuel
  deriving DecidableEq, Repr

/-- The result of a Rust computation. -/
abbrev M := Except Fault

instance [DecidableEq α] : DecidableEq (M α) := fun x y =>
  match x, y with
  | .ok a, .ok b => if h : a = b then isTrue (by rw [h]) else isFalse (by intro e; injection e; contradiction)
  | .error a, .error b =>
    if h : a = b then isTrue (by rw [h]) else isFalse (by intro e; injection e; contradiction)
  | .ok _, .error _ => isFalse (by intro e; cases e)
  | .error _, .ok _ => isFalse (by intro e; cases e)

/-- `assert!(b)` -/
def assertC (b : Bool) : M Unit := if b then .ok () else .error .assert

/-- Checked unsigned `a + b`. -/
def addC {w} (a b : BitVec w) : M (BitVec w) :=
  if a.toNat + b.toNat < 2 ^ w then .ok (a + b) else .error .overflow
/-- Checked unsigned `a - b`. -/
def subC {w} (a b : BitVec w) : M (BitVec w) :=
  if b.toNat ≤ a.toNat then .ok (a - b) else .error .overflow
/-- Checked unsigned `a * b`. -/
def mulC {w} (a b : BitVec w) : M (BitVec w) :=
  if a.toNat * b.toNat < 2 ^ w then .ok (a * b) else .error .overflow
/-- Checked `a << n`: only the shift amount is checked, bits may be shifted out. -/
def shlC {w} (a : BitVec w) (n : Nat) : M (BitVec w) :=
  if n < w then .ok (a <<< n) else .error .shift
/-- Checked logical `a >> n` of an unsigned integer. -/
def shrC {w} (a : BitVec w) (n : Nat) : M (BitVec w) :=
  if n < w then .ok (a >>> n) else .error .shift
/-- Checked unsigned `a / b`. -/
def divC {w} (a b : BitVec w) : M (BitVec w) :=
  if b.toNat = 0 then .error .divZero else .ok (a / b)
/-- Checked unsigned `a % b`. -/
def remC {w} (a b : BitVec w) : M (BitVec w) :=
  if b.toNat = 0 then .error .divZero else .ok (a % b)
/-- Checked subtraction of `u32`/`usize` counters that are modelled as `Nat`. -/
def nsubC (a b : Nat) : M Nat :=
  if b ≤ a then .ok (a - b) else .error .overflow

/-! ### Reasoning about `M` -/

/-- Total correctness: `m` returns a value and the value satisfies `P`. -/
def Ok {α} (m : M α) (P : α → Prop) : Prop := ∃ a, m = .ok a ∧ P a

theorem Ok.pure {α} {a : α} {P : α → Prop} (h : P a) : Ok (.ok a) P := ⟨a, rfl, h⟩
theorem Ok.pure' {α} {a : α} {P : α → Prop} (h : P a) : Ok (Pure.pure a : M α) P := ⟨a, rfl, h⟩

theorem Ok.bind {α β} {m : M α} {f : α → M β} {P : α → Prop} {Q : β → Prop}
    (hm : Ok m P) (hf : ∀ a, P a → Ok (f a) Q) : Ok (m >>= f) Q := by
  obtain ⟨a, rfl, ha⟩ := hm
  exact hf a ha

theorem Ok.mono {α} {m : M α} {P Q : α → Prop} (h : Ok m P) (hPQ : ∀ a, P a → Q a) : Ok m Q := by
  obtain ⟨a, e, ha⟩ := h
  exact ⟨a, e, hPQ a ha⟩

theorem ok_iff {α} {a : α} {P : α → Prop} : Ok (.ok a) P ↔ P a :=
  ⟨fun ⟨_, e, h⟩ => by cases e; exact h, fun h => ⟨a, rfl, h⟩⟩

theorem Ok.eq {α} {m : M α} {a : α} (h : Ok m (· = a)) : m = .ok a := by
  obtain ⟨b, e, rfl⟩ := h; exact e

@[simp] theorem ok_bind {α β} (a : α) (f : α → M β) : ((.ok a : M α) >>= f) = f a := rfl
@[simp] theorem error_bind {α β} (e : Fault) (f : α → M β) :
    ((.error e : M α) >>= f) = .error e := rfl

theorem assertC_spec {b : Bool} (h : b = true) : Ok (assertC b) (fun _ => True) :=
  ⟨(), by simp [assertC, h], trivial⟩

theorem addC_spec {w} {a b : BitVec w} (h : a.toNat + b.toNat < 2 ^ w) :
    Ok (addC a b) (fun r => r.toNat = a.toNat + b.toNat) :=
  ⟨a + b, by simp [addC, h], by show _ = _; rw [BitVec.toNat_add, Nat.mod_eq_of_lt h]⟩

theorem subC_spec {w} {a b : BitVec w} (h : b.toNat ≤ a.toNat) :
    Ok (subC a b) (fun r => r.toNat = a.toNat - b.toNat) :=
  ⟨a - b, by simp [subC, h], BitVec.toNat_sub_of_le h⟩

theorem mulC_spec {w} {a b : BitVec w} (h : a.toNat * b.toNat < 2 ^ w) :
    Ok (mulC a b) (fun r => r.toNat = a.toNat * b.toNat) :=
  ⟨a * b, by simp [mulC, h], by show _ = _; rw [BitVec.toNat_mul, Nat.mod_eq_of_lt h]⟩

theorem shlC_spec {w} {a : BitVec w} {n : Nat} (h : n < w) :
    Ok (shlC a n) (fun r => r.toNat = a.toNat * 2 ^ n % 2 ^ w) :=
  ⟨a <<< n, by simp [shlC, h], by show _ = _; rw [BitVec.toNat_shiftLeft, Nat.shiftLeft_eq]⟩

theorem shrC_spec {w} {a : BitVec w} {n : Nat} (h : n < w) :
    Ok (shrC a n) (fun r => r.toNat = a.toNat / 2 ^ n) :=
  ⟨a >>> n, by simp [shrC, h], by show _ = _; rw [BitVec.toNat_ushiftRight, Nat.shiftRight_eq_div_pow]⟩

theorem divC_spec {w} {a b : BitVec w} (h : b.toNat ≠ 0) :
    Ok (divC a b) (fun r => r.toNat = a.toNat / b.toNat) :=
  ⟨a / b, by simp [divC, h], BitVec.toNat_udiv⟩

theorem remC_spec {w} {a b : BitVec w} (h : b.toNat ≠ 0) :
    Ok (remC a b) (fun r => r.toNat = a.toNat % b.toNat) :=
  ⟨a % b, by simp [remC, h], BitVec.toNat_umod⟩

theorem nsubC_spec {a b : Nat} (h : b ≤ a) : Ok (nsubC a b) (fun r => r = a - b) :=
  ⟨a - b, by simp [nsubC, h], rfl⟩

/-! ### Powers of two -/

theorem two_pow_pos (w : Nat) : 0 < 2 ^ w := Nat.two_pow_pos w

theorem two_pow_two_mul (h : Nat) : 2 ^ (2 * h) = 2 ^ h * 2 ^ h := by
  rw [Nat.two_mul, Nat.pow_add]

end Verif
