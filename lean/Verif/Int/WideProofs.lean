import Verif.Int.Wide
import Verif.Int.DivProofs
import Mathlib.Tactic.LinearCombination
/-! Correctness of the `u256`/`i256` model. -/
namespace Verif

set_option linter.unusedSimpArgs false

theorem xor_mask {k s : Nat} (hs : s < 2 ^ k) : (2 ^ k - 1) ^^^ s = 2 ^ k - 1 - s := by
  have h := BitVec.toNat_not (x := BitVec.ofNat k s)
  rw [BitVec.toNat_ofNat, Nat.mod_eq_of_lt hs] at h
  rw [← h, ← BitVec.allOnes_xor, BitVec.toNat_xor, BitVec.toNat_allOnes, BitVec.toNat_ofNat,
    Nat.mod_eq_of_lt hs]

theorem and_pow_eq_zero_iff {k r : Nat} (hr : r < 2 * 2 ^ k) : r &&& 2 ^ k = 0 ↔ r < 2 ^ k := by
  have hp := Nat.two_pow_pos k
  constructor
  · intro h
    by_contra hc
    have hb : r.testBit k = true := by
      rw [Nat.testBit_eq_decide_div_mod_eq]
      have : r / 2 ^ k = 1 := by rw [Nat.div_eq_iff hp]; omega
      simp [this]
    have := congrArg (fun x => x.testBit k) h
    simp [hb] at this
  · intro h
    apply Nat.eq_of_testBit_eq
    intro i
    by_cases hi : k = i
    · subst hi; simp [Nat.testBit_lt_two_pow h]
    · simp [Nat.testBit_two_pow_of_ne hi]

namespace Wide
variable {h : Nat}

/-- Unsigned value. -/
def val (x : Wide h) : Nat := x.hi.toNat * 2 ^ h + x.lo.toNat
/-- Signed value. -/
def valS (x : Wide h) : Int := x.hi.toInt * 2 ^ h + x.lo.toNat

theorem val_lt (x : Wide h) : x.val < 2 ^ (2 * h) := by
  have h1 := x.hi.isLt
  have h2 := x.lo.isLt
  rw [two_pow_two_mul, val]
  calc _ < x.hi.toNat * 2 ^ h + 2 ^ h := by omega
    _ = (x.hi.toNat + 1) * 2 ^ h := by ring
    _ ≤ _ := Nat.mul_le_mul_right _ h1

theorem val_lo (x : Wide h) : x.lo.toNat = x.val % 2 ^ h := by
  rw [val, Nat.mul_comm, Nat.mul_add_mod, Nat.mod_eq_of_lt x.lo.isLt]
theorem val_hi (x : Wide h) : x.hi.toNat = x.val / 2 ^ h := by
  rw [val, Nat.mul_comm, Nat.mul_add_div (Nat.two_pow_pos _), Nat.div_eq_of_lt x.lo.isLt]; rfl

theorem carryingAdd_unsigned {w} (hw : 0 < w) (a b : BitVec w) (c : Bool) :
    (carryingAdd false a b c).1.toNat + (if (carryingAdd false a b c).2 then 2 ^ w else 0)
      = a.toNat + b.toNat + (if c then 1 else 0) := by
  have ha := a.isLt
  have hb := b.isLt
  have h2 : 1 < 2 ^ w := Nat.one_lt_two_pow (by omega)
  have hc : (if c then 1#w else 0#w).toNat = if c then 1 else 0 := by
    cases c <;> simp [Nat.mod_eq_of_lt h2]
  simp only [carryingAdd, overflowingAdd, if_false, Bool.false_eq_true, BitVec.toNat_add, hc]
  generalize 2 ^ w = N at *
  have e1 : (a.toNat + b.toNat) % N = if N ≤ a.toNat + b.toNat then a.toNat + b.toNat - N else a.toNat + b.toNat := by
    split
    · rw [Nat.mod_eq_sub_mod (by omega), Nat.mod_eq_of_lt (by omega)]
    · rw [Nat.mod_eq_of_lt (by omega)]
  rw [e1]
  generalize hd : (if c = true then 1 else 0) = d
  have hd1 : d ≤ 1 := by cases c <;> simp at hd <;> omega
  by_cases h1 : N ≤ a.toNat + b.toNat
  · simp only [h1, if_true, decide_true]
    rw [Nat.mod_eq_of_lt (by omega)]
    have : ¬ N ≤ a.toNat + b.toNat - N + d := by omega
    simp [this]; omega
  · simp only [h1, if_false, decide_false]
    by_cases h3 : N ≤ a.toNat + b.toNat + d
    · rw [Nat.mod_eq_sub_mod h3, Nat.mod_eq_of_lt (by omega)]
      simp [h3]
    · rw [Nat.mod_eq_of_lt (by omega)]
      simp [h3]

theorem borrowingSub_unsigned {w} (hw : 0 < w) (a b : BitVec w) (c : Bool) :
    (borrowingSub false a b c).1.toNat + b.toNat + (if c then 1 else 0)
      = a.toNat + (if (borrowingSub false a b c).2 then 2 ^ w else 0) := by
  have ha := a.isLt
  have hb := b.isLt
  have h2 : 1 < 2 ^ w := Nat.one_lt_two_pow (by omega)
  have hc : (if c then 1#w else 0#w).toNat = if c then 1 else 0 := by
    cases c <;> simp [Nat.mod_eq_of_lt h2]
  simp only [borrowingSub, overflowingSub, if_false, Bool.false_eq_true, BitVec.toNat_sub, hc]
  generalize 2 ^ w = N at *
  have e1 : (N - b.toNat + a.toNat) % N = if a.toNat < b.toNat then N + a.toNat - b.toNat else a.toNat - b.toNat := by
    split
    · rw [Nat.mod_eq_of_lt (by omega)]; omega
    · rw [Nat.mod_eq_sub_mod (by omega), Nat.mod_eq_of_lt (by omega)]; omega
  rw [e1]
  generalize hd : (if c = true then 1 else 0) = d
  have hd1 : d ≤ 1 := by cases c <;> simp at hd <;> omega
  by_cases h1 : a.toNat < b.toNat
  · simp only [h1, if_true, decide_true]
    rw [Nat.mod_eq_sub_mod (by omega), Nat.mod_eq_of_lt (by omega)]
    have : ¬ N + a.toNat - b.toNat < d := by omega
    simp [this]; omega
  · simp only [h1, if_false, decide_false]
    by_cases h3 : a.toNat - b.toNat < d
    · rw [Nat.mod_eq_of_lt (by omega)]
      simp [h3]; omega
    · rw [Nat.mod_eq_sub_mod (by omega), Nat.mod_eq_of_lt (by omega)]
      simp [h3]; omega

/-- Bounds of the signed reading. -/
theorem toInt_bounds {w} (hw : 0 < w) (a : BitVec w) :
    -(2 ^ (w - 1) : Int) ≤ a.toInt ∧ a.toInt < 2 ^ (w - 1) := by
  have h1 := BitVec.le_two_mul_toInt (x := a)
  have h2 := BitVec.two_mul_toInt_lt (x := a)
  have e : (2 : Int) ^ w = 2 * 2 ^ (w - 1) := by
    obtain ⟨m, rfl⟩ : ∃ m, w = m + 1 := ⟨w - 1, by omega⟩
    simp [pow_succ]; ring
  rw [e] at h1 h2
  omega

/-- Uniqueness of the signed residue. -/
theorem residue_cases {P S r : Int} (hP : 0 < P) (hr : -P ≤ r ∧ r < P) (hS : -(3 * P) ≤ S ∧ S < 3 * P)
    (hd : 2 * P ∣ r - S) :
    (r = S ∧ -P ≤ S ∧ S < P) ∨ (r = S + 2 * P ∧ S < -P) ∨ (r = S - 2 * P ∧ P ≤ S) := by
  obtain ⟨k, hk⟩ := hd
  have h1 : k < 2 := by
    by_contra hc
    have := mul_le_mul_of_nonneg_left (show 2 ≤ k by omega) (show 0 ≤ 2 * P by omega)
    omega
  have h2 : -2 < k := by
    by_contra hc
    have := mul_le_mul_of_nonneg_left (show k ≤ -2 by omega) (show 0 ≤ 2 * P by omega)
    omega
  have : k = -1 ∨ k = 0 ∨ k = 1 := by omega
  rcases this with rfl | rfl | rfl <;> omega

theorem sadd_cases {w} (hw : 0 < w) (a b : BitVec w) :
    let P : Int := 2 ^ (w - 1)
    let S := a.toInt + b.toInt
    ((a + b).toInt = S ∧ -P ≤ S ∧ S < P) ∨ ((a + b).toInt = S + 2 * P ∧ S < -P) ∨
      ((a + b).toInt = S - 2 * P ∧ P ≤ S) := by
  have h1 := toInt_bounds hw a
  have h2 := toInt_bounds hw b
  have hP : (0 : Int) < 2 ^ (w - 1) := by positivity
  refine residue_cases hP (toInt_bounds hw _) (by omega) ?_
  rw [BitVec.toInt_add]
  have e : 2 * (2 : Int) ^ (w - 1) = ((2 ^ w : Nat) : Int) := by
    obtain ⟨m, rfl⟩ : ∃ m, w = m + 1 := ⟨w - 1, by omega⟩
    simp [pow_succ]; ring
  rw [e]
  exact Int.dvd_bmod_sub_self

theorem ssub_cases {w} (hw : 0 < w) (a b : BitVec w) :
    let P : Int := 2 ^ (w - 1)
    let S := a.toInt - b.toInt
    ((a - b).toInt = S ∧ -P ≤ S ∧ S < P) ∨ ((a - b).toInt = S + 2 * P ∧ S < -P) ∨
      ((a - b).toInt = S - 2 * P ∧ P ≤ S) := by
  have h1 := toInt_bounds hw a
  have h2 := toInt_bounds hw b
  have hP : (0 : Int) < 2 ^ (w - 1) := by positivity
  refine residue_cases hP (toInt_bounds hw _) (by omega) ?_
  rw [BitVec.toInt_sub]
  have e : 2 * (2 : Int) ^ (w - 1) = ((2 ^ w : Nat) : Int) := by
    obtain ⟨m, rfl⟩ : ∃ m, w = m + 1 := ⟨w - 1, by omega⟩
    simp [pow_succ]; ring
  rw [e]
  exact Int.dvd_bmod_sub_self

theorem toInt_ofBool {w} (hw : 1 < w) (c : Bool) :
    (if c then 1#w else 0#w).toInt = if c then 1 else 0 := by
  cases c
  · simp
  · simp only [if_true]
    have h2 : 1 < 2 ^ (w - 1) := Nat.one_lt_two_pow (by omega)
    have e2 : 2 ^ w = 2 * 2 ^ (w - 1) := by
      obtain ⟨m, rfl⟩ : ∃ m, w = m + 1 := ⟨w - 1, by omega⟩
      simp [Nat.pow_succ]; omega
    have : (1#w).toNat = 1 := by simp [Nat.mod_eq_of_lt (show 1 < 2 ^ w by omega)]
    rw [BitVec.toInt_eq_toNat_cond, this, if_pos (by omega)]; rfl

theorem flag_aux {P A S d : Int} (hd : d = 0 ∨ d = 1) (hP : 1 < P) (hA : -(2 * P) ≤ A ∧ A < 2 * P - 1)
    (hS : (S = A ∧ -P ≤ A ∧ A < P) ∨ (S = A + 2 * P ∧ A < -P) ∨ (S = A - 2 * P ∧ P ≤ A)) :
    ((!decide (-P ≤ A ∧ A < P) ^^ !decide (-P ≤ S + d ∧ S + d < P)) = true) ↔
      ¬ (-P ≤ A + d ∧ A + d < P) := by
  have key : ∀ p q : Prop, [Decidable p] → [Decidable q] → (((!decide p ^^ !decide q) = true) ↔ (p ∧ ¬ q ∨ ¬ p ∧ q)) := by
    intro p q _ _; by_cases p <;> by_cases q <;> simp [*]
  rw [key]
  constructor
  · omega
  · omega

/-- Signed carrying addition: exact up to a multiple of `2^w`, which is nonzero iff the flag is set. -/
theorem carryingAdd_signed {w} (hw : 1 < w) (a b : BitVec w) (c : Bool) :
    ∃ k : Int, (carryingAdd true a b c).1.toInt = a.toInt + b.toInt + (if c then 1 else 0) + k * 2 ^ w ∧
      (k = 0 ∨ k = 1 ∨ k = -1) ∧ ((carryingAdd true a b c).2 = true ↔ k ≠ 0) := by
  have hc := toInt_ofBool hw c
  have e : (2 : Int) ^ w = 2 * (2 : Int) ^ (w - 1) := by
    obtain ⟨m, rfl⟩ : ∃ m, w = m + 1 := ⟨w - 1, by omega⟩
    simp [pow_succ]; ring
  have hP : (1 : Int) < 2 ^ (w - 1) := by
    have : 1 < 2 ^ (w - 1) := Nat.one_lt_two_pow (by omega)
    exact_mod_cast this
  have ha := toInt_bounds (by omega) a
  have hb := toInt_bounds (by omega) b
  have h1 := sadd_cases (by omega) a b
  have h2 := sadd_cases (by omega) (a + b) (if c then 1#w else 0#w)
  simp only [carryingAdd, soverflowingAdd, if_true]
  simp only [hc] at h2 ⊢
  have hd : (if c then 1 else 0 : Int) = 0 ∨ (if c then 1 else 0 : Int) = 1 := by cases c <;> simp
  generalize (if c then 1 else 0 : Int) = d at *
  have flag := flag_aux hd hP (by omega) h1
  simp only at flag h1 h2
  rw [flag, e]
  generalize (2 : Int) ^ (w - 1) = P at *
  generalize (a + b + if c then 1#w else 0#w).toInt = T at *
  generalize (a + b).toInt = S at *
  generalize a.toInt = A at *
  generalize b.toInt = B at *
  clear flag e hc
  have key : (T = A + B + d ∧ (-P ≤ A + B + d ∧ A + B + d < P)) ∨
      (T = A + B + d + 2 * P ∧ A + B + d < -P) ∨ (T = A + B + d - 2 * P ∧ P ≤ A + B + d) := by
    omega
  rcases key with ⟨k1, k2⟩ | ⟨k1, k2⟩ | ⟨k1, k2⟩
  · exact ⟨0, by omega, by omega, by simp; omega⟩
  · exact ⟨1, by omega, by omega, by simp; omega⟩
  · exact ⟨-1, by omega, by omega, by simp; omega⟩

theorem borrowingSub_signed {w} (hw : 1 < w) (a b : BitVec w) (c : Bool) :
    ∃ k : Int, (borrowingSub true a b c).1.toInt = a.toInt - b.toInt - (if c then 1 else 0) + k * 2 ^ w ∧
      (k = 0 ∨ k = 1 ∨ k = -1) ∧ ((borrowingSub true a b c).2 = true ↔ k ≠ 0) := by
  have hc := toInt_ofBool hw c
  have e : (2 : Int) ^ w = 2 * (2 : Int) ^ (w - 1) := by
    obtain ⟨m, rfl⟩ : ∃ m, w = m + 1 := ⟨w - 1, by omega⟩
    simp [pow_succ]; ring
  have hP : (1 : Int) < 2 ^ (w - 1) := by
    have : 1 < 2 ^ (w - 1) := Nat.one_lt_two_pow (by omega)
    exact_mod_cast this
  have ha := toInt_bounds (by omega) a
  have hb := toInt_bounds (by omega) b
  have h1 := ssub_cases (by omega) a b
  have h2 := ssub_cases (by omega) (a - b) (if c then 1#w else 0#w)
  simp only [borrowingSub, soverflowingSub, if_true]
  simp only [hc] at h2 ⊢
  have hd : (if c then 1 else 0 : Int) = 0 ∨ (if c then 1 else 0 : Int) = 1 := by cases c <;> simp
  generalize (if c then 1 else 0 : Int) = d at *
  rw [e]
  simp only at h1 h2
  generalize (2 : Int) ^ (w - 1) = P at *
  generalize (a - b - if c then 1#w else 0#w).toInt = T at *
  generalize (a - b).toInt = S at *
  generalize a.toInt = A at *
  generalize b.toInt = B at *
  clear e hc
  have flag : ((!decide (-P ≤ A - B ∧ A - B < P) ^^ !decide (-P ≤ S - d ∧ S - d < P)) = true) ↔
      ¬ (-P ≤ A - B - d ∧ A - B - d < P) := by
    have key : ∀ p q : Prop, [Decidable p] → [Decidable q] → (((!decide p ^^ !decide q) = true) ↔ (p ∧ ¬ q ∨ ¬ p ∧ q)) := by
      intro p q _ _; by_cases p <;> by_cases q <;> simp [*]
    rw [key]
    constructor
    · omega
    · omega
  rw [flag]
  clear flag
  have key : (T = A - B - d ∧ (-P ≤ A - B - d ∧ A - B - d < P)) ∨
      (T = A - B - d + 2 * P ∧ A - B - d < -P) ∨ (T = A - B - d - 2 * P ∧ P ≤ A - B - d) := by
    omega
  rcases key with ⟨k1, k2⟩ | ⟨k1, k2⟩ | ⟨k1, k2⟩
  · exact ⟨0, by omega, by omega, by simp; omega⟩
  · exact ⟨1, by omega, by omega, by simp; omega⟩
  · exact ⟨-1, by omega, by omega, by simp; omega⟩

/-! ### Addition and subtraction -/

theorem addRaw_unsigned (hh : 0 < h) (x y : Wide h) :
    (addRaw false x y).1.val + (if (addRaw false x y).2 then 2 ^ (2 * h) else 0) = x.val + y.val := by
  have h1 := carryingAdd_unsigned hh x.hi y.hi (overflowingAdd x.lo y.lo).2
  have hl : (overflowingAdd x.lo y.lo).1.toNat + (if (overflowingAdd x.lo y.lo).2 then 1 else 0) * 2 ^ h
      = x.lo.toNat + y.lo.toNat := by
    have ha := x.lo.isLt
    have hb := y.lo.isLt
    simp only [overflowingAdd, BitVec.toNat_add]
    by_cases hc : 2 ^ h ≤ x.lo.toNat + y.lo.toNat
    · rw [Nat.mod_eq_sub_mod hc, Nat.mod_eq_of_lt (by omega)]; simp [hc]
    · rw [Nat.mod_eq_of_lt (by omega)]; simp [hc]
  have hg : addRaw false x y = (⟨(carryingAdd false x.hi y.hi (overflowingAdd x.lo y.lo).2).1,
    (overflowingAdd x.lo y.lo).1⟩, (carryingAdd false x.hi y.hi (overflowingAdd x.lo y.lo).2).2) := rfl
  rw [hg]
  simp only [val]
  generalize overflowingAdd x.lo y.lo = o at *
  generalize carryingAdd false x.hi y.hi o.2 = c at *
  have e : (if c.2 then 2 ^ (2 * h) else 0) = (if c.2 then 2 ^ h else 0) * 2 ^ h := by
    cases c.2 <;> simp [two_pow_two_mul]
  rw [e]
  calc c.1.toNat * 2 ^ h + o.1.toNat + (if c.2 then 2 ^ h else 0) * 2 ^ h
      = (c.1.toNat + if c.2 then 2 ^ h else 0) * 2 ^ h + o.1.toNat := by ring
    _ = (x.hi.toNat + y.hi.toNat) * 2 ^ h + (o.1.toNat + (if o.2 then 1 else 0) * 2 ^ h) := by rw [h1]; ring
    _ = _ := by rw [hl]; ring

theorem subRaw_unsigned (hh : 0 < h) (x y : Wide h) :
    (subRaw false x y).1.val + y.val = x.val + (if (subRaw false x y).2 then 2 ^ (2 * h) else 0) := by
  have h1 := borrowingSub_unsigned hh x.hi y.hi (overflowingSub x.lo y.lo).2
  have hl : (overflowingSub x.lo y.lo).1.toNat + y.lo.toNat
      = x.lo.toNat + (if (overflowingSub x.lo y.lo).2 then 1 else 0) * 2 ^ h := by
    have ha := x.lo.isLt
    have hb := y.lo.isLt
    simp only [overflowingSub, BitVec.toNat_sub]
    by_cases hc : x.lo.toNat < y.lo.toNat
    · rw [Nat.mod_eq_of_lt (by omega)]; simp [hc]; omega
    · rw [Nat.mod_eq_sub_mod (by omega), Nat.mod_eq_of_lt (by omega)]; simp [hc]; omega
  have hg : subRaw false x y = (⟨(borrowingSub false x.hi y.hi (overflowingSub x.lo y.lo).2).1,
    (overflowingSub x.lo y.lo).1⟩, (borrowingSub false x.hi y.hi (overflowingSub x.lo y.lo).2).2) := rfl
  rw [hg]
  simp only [val]
  generalize overflowingSub x.lo y.lo = o at *
  generalize borrowingSub false x.hi y.hi o.2 = c at *
  have e : (if c.2 then 2 ^ (2 * h) else 0) = (if c.2 then 2 ^ h else 0) * 2 ^ h := by
    cases c.2 <;> simp [two_pow_two_mul]
  rw [e]
  have h1' := congrArg (· * 2 ^ h) h1
  simp only [Nat.add_mul] at h1'
  omega

theorem valS_bounds (hh : 0 < h) (x : Wide h) :
    -(2 ^ (2 * h - 1) : Int) ≤ x.valS ∧ x.valS < 2 ^ (2 * h - 1) := by
  have h1 := toInt_bounds hh x.hi
  have h2 := x.lo.isLt
  have e : (2 : Int) ^ (2 * h - 1) = 2 ^ (h - 1) * 2 ^ h := by
    rw [← pow_add]; congr 1; omega
  have h2' : (x.lo.toNat : Int) < 2 ^ h := by exact_mod_cast h2
  have hN : (0 : Int) < 2 ^ h := by positivity
  rw [valS, e]
  constructor
  · have := mul_le_mul_of_nonneg_right h1.1 hN.le
    rw [neg_mul] at this
    omega
  · have := mul_le_mul_of_nonneg_right (show x.hi.toInt + 1 ≤ 2 ^ (h - 1) by omega) hN.le
    rw [add_mul] at this
    omega

theorem addRaw_signed (hh : 1 < h) (x y : Wide h) :
    ∃ k : Int, (addRaw true x y).1.valS = x.valS + y.valS + k * 2 ^ (2 * h) ∧
      (k = 0 ∨ k = 1 ∨ k = -1) ∧ ((addRaw true x y).2 = true ↔ k ≠ 0) := by
  obtain ⟨k, h1, h2, h3⟩ := carryingAdd_signed hh x.hi y.hi (overflowingAdd x.lo y.lo).2
  refine ⟨k, ?_, h2, h3⟩
  have hl : ((overflowingAdd x.lo y.lo).1.toNat : Int) + (if (overflowingAdd x.lo y.lo).2 then 1 else 0) * 2 ^ h
      = x.lo.toNat + y.lo.toNat := by
    have ha := x.lo.isLt
    have hb := y.lo.isLt
    have e : (2 : Int) ^ h = (2 ^ h : Nat) := by simp
    rw [e]
    simp only [overflowingAdd, BitVec.toNat_add]
    by_cases hc : 2 ^ h ≤ x.lo.toNat + y.lo.toNat
    · rw [Nat.mod_eq_sub_mod hc, Nat.mod_eq_of_lt (by omega)]; simp only [hc, decide_true, if_true]; omega
    · rw [Nat.mod_eq_of_lt (by omega)]; simp [hc]
  simp only [addRaw, valS]
  generalize overflowingAdd x.lo y.lo = o at *
  rw [h1]
  have e : (2 : Int) ^ (2 * h) = 2 ^ h * 2 ^ h := by rw [← pow_add]; congr 1; omega
  rw [e]
  linear_combination hl

theorem subRaw_signed (hh : 1 < h) (x y : Wide h) :
    ∃ k : Int, (subRaw true x y).1.valS = x.valS - y.valS + k * 2 ^ (2 * h) ∧
      (k = 0 ∨ k = 1 ∨ k = -1) ∧ ((subRaw true x y).2 = true ↔ k ≠ 0) := by
  obtain ⟨k, h1, h2, h3⟩ := borrowingSub_signed hh x.hi y.hi (overflowingSub x.lo y.lo).2
  refine ⟨k, ?_, h2, h3⟩
  have hl : ((overflowingSub x.lo y.lo).1.toNat : Int)
      = x.lo.toNat - y.lo.toNat + (if (overflowingSub x.lo y.lo).2 then 1 else 0) * 2 ^ h := by
    have ha := x.lo.isLt
    have hb := y.lo.isLt
    have e : (2 : Int) ^ h = (2 ^ h : Nat) := by simp
    rw [e]
    simp only [overflowingSub, BitVec.toNat_sub]
    by_cases hc : x.lo.toNat < y.lo.toNat
    · rw [Nat.mod_eq_of_lt (by omega)]; simp only [hc, decide_true, if_true]; omega
    · rw [Nat.mod_eq_sub_mod (by omega), Nat.mod_eq_of_lt (by omega)]; simp only [hc, decide_false]; simp; omega
  simp only [subRaw, valS]
  generalize overflowingSub x.lo y.lo = o at *
  rw [h1]
  have e : (2 : Int) ^ (2 * h) = 2 ^ h * 2 ^ h := by rw [← pow_add]; congr 1; omega
  rw [e]
  linear_combination hl

theorem add_unsigned_spec (hh : 0 < h) (x y : Wide h) (hv : x.val + y.val < 2 ^ (2 * h)) :
    Ok (add false x y) (fun r => r.val = x.val + y.val) := by
  have := addRaw_unsigned hh x y
  have hf : (addRaw false x y).2 = false := by
    cases hc : (addRaw false x y).2
    · rfl
    · rw [hc] at this; simp at this; omega
  rw [hf] at this
  unfold add
  simp only [hf]
  refine Ok.bind (assertC_spec rfl) (fun _ _ => Ok.pure' ?_)
  simpa using this

theorem sub_unsigned_spec (hh : 0 < h) (x y : Wide h) (hv : y.val ≤ x.val) :
    Ok (sub false x y) (fun r => r.val = x.val - y.val) := by
  have := subRaw_unsigned hh x y
  have hlt := (subRaw false x y).1.val_lt
  have hf : (subRaw false x y).2 = false := by
    cases hc : (subRaw false x y).2
    · rfl
    · rw [hc] at this; simp at this; omega
  rw [hf] at this
  unfold sub
  simp only [hf]
  refine Ok.bind (assertC_spec rfl) (fun _ _ => Ok.pure' ?_)
  simp at this
  omega

/-! ### Shifts -/

/-- Arithmetic of the left shift across two limbs. -/
theorem shl_arith {N A B H L u : Nat} (hN : N = A * B) (hA : 0 < A) (hu : u = H * A % N) :
    ((u + L / B) * N + L * A % N) % (N * N) = (H * N + L) * A % (N * N) := by
  have e1 : L * A = L / B * N + L * A % N := by
    have := Nat.div_add_mod (L * A) N
    rw [hN, Nat.mul_comm A B, Nat.mul_div_mul_right _ _ hA] at this
    rw [hN, Nat.mul_comm A B]
    rw [← this]; simp; ring
  have e2 : (H * N + L) * A = (u + L / B) * N + L * A % N + N * N * (H * A / N) := by
    have := Nat.div_add_mod (H * A) N
    rw [← hu] at this
    calc (H * N + L) * A = (H * A) * N + L * A := by ring
      _ = (N * (H * A / N) + u) * N + (L / B * N + L * A % N) := by rw [this, ← e1]
      _ = _ := by ring
  rw [e2, Nat.add_mul_mod_self_left]

theorem shl_spec {k : Nat} (hk : h = 2 ^ (k + 1)) (x : Wide h) {r : Nat} (hr : r < 2 * h) :
    Ok (shl x r) (fun y => y.val = x.val * 2 ^ r % 2 ^ (2 * h)) := by
  have hp := Nat.two_pow_pos k
  have hp2 : 2 ^ (k + 1) = 2 * 2 ^ k := by rw [Nat.pow_succ]; ring
  have hx := x.lo.isLt
  unfold shl
  refine Ok.bind (assertC_spec (by simpa using hr)) (fun _ _ => ?_)
  rw [show 2 * h / 2 = h by omega]
  refine Ok.bind (nsubC_spec (by omega)) ?_
  rintro m rfl
  have es : r &&& (h - 1) = r % h := by rw [hk, Nat.and_two_pow_sub_one_eq_mod]
  have hs : r % h < h := Nat.mod_lt _ (by omega)
  have hz : (r &&& h = 0) ↔ r < h := by
    have := and_pow_eq_zero_iff (k := k + 1) (r := r) (by omega)
    rwa [← hk] at this
  simp only [es]
  refine Ok.bind (shlC_spec hs) ?_
  intro lo hlo
  have hN := Nat.two_pow_pos h
  have e2 := two_pow_two_mul h
  split
  · rename_i hc
    have hrh := hz.1 hc
    rw [Nat.mod_eq_of_lt hrh] at *
    have ex : (h - 1) ^^^ r = h - 1 - r := by
      have := xor_mask (k := k + 1) (s := r) (by omega)
      rwa [← hk] at this
    rw [ex]
    refine Ok.bind (shrC_spec (by omega)) ?_
    intro t ht
    refine Ok.bind (shrC_spec (by omega)) ?_
    intro t' ht'
    refine Ok.bind (shlC_spec hrh) ?_
    intro u hu
    refine Ok.pure' ?_
    rw [ht, Nat.div_div_eq_div_mul, ← Nat.pow_add, show h - 1 - r + 1 = h - r by omega] at ht'
    have hNs : 2 ^ h = 2 ^ r * 2 ^ (h - r) := by rw [← Nat.pow_add]; congr 1; omega
    have htl : t'.toNat < 2 ^ r := by
      rw [ht', Nat.div_lt_iff_lt_mul (Nat.two_pow_pos _), ← hNs]; exact hx
    have hdv : 2 ^ r ∣ u.toNat := by
      rw [hu, hNs, Nat.mul_comm, Nat.mul_mod_mul_left]
      exact Nat.dvd_mul_right _ _
    have hor : (t' ||| u).toNat = u.toNat + x.lo.toNat / 2 ^ (h - r) := by
      rw [BitVec.toNat_or, or_eq_add htl hdv, ht']; omega
    have hlt := val_lt { lo := lo, hi := t' ||| u }
    have hm := shl_arith (L := x.lo.toNat) hNs (Nat.two_pow_pos _) hu
    rw [← hor, ← hlo] at hm
    rw [e2] at hlt ⊢
    exact (Nat.mod_eq_of_lt hlt).symm.trans hm
  · rename_i hc
    have hrh : h ≤ r := Nat.not_lt.1 (fun hh => hc (hz.2 hh))
    have hrm : r % h = r - h := by rw [Nat.mod_eq_sub_mod hrh, Nat.mod_eq_of_lt (by omega)]
    rw [hrm] at hlo
    refine Ok.pure' ?_
    simp only [val, hlo]
    have e3 : 2 ^ r = 2 ^ (r - h) * 2 ^ h := by rw [← Nat.pow_add]; congr 1; omega
    rw [e2, e3]
    have e4 : (x.hi.toNat * 2 ^ h + x.lo.toNat) * (2 ^ (r - h) * 2 ^ h) =
      (x.lo.toNat * 2 ^ (r - h) + 2 ^ h * (x.hi.toNat * 2 ^ (r - h))) * 2 ^ h := by ring
    rw [e4, Nat.mul_mod_mul_right, Nat.add_mul_mod_self_left]
    simp

/-- High limb as an integer, in the reading selected by `signed`. -/
def hiVal (signed : Bool) (a : BitVec h) : Int := if signed then a.toInt else a.toNat
/-- Value as an integer, in the reading selected by `signed`. -/
def valI (signed : Bool) (x : Wide h) : Int := hiVal signed x.hi * 2 ^ h + x.lo.toNat

theorem hiVal_emod (signed : Bool) (a : BitVec h) {s : Nat} (hs : s ≤ h) :
    hiVal signed a % 2 ^ s = ((a.toNat % 2 ^ s : Nat) : Int) := by
  cases signed
  · simp [hiVal]
  · simp only [hiVal, if_true]
    have hd : (2 : Int) ^ s ∣ 2 ^ h := pow_dvd_pow 2 hs
    rw [BitVec.toInt_eq_toNat_bmod]
    have h1 : ((2 ^ h : Nat) : Int) ∣ Int.bmod (a.toNat : Int) (2 ^ h) - a.toNat := Int.dvd_bmod_sub_self
    have h2 : (2 : Int) ^ s ∣ Int.bmod (a.toNat : Int) (2 ^ h) - a.toNat := by
      refine dvd_trans hd ?_
      simpa using h1
    have := Int.emod_emod_of_dvd
    rw [Int.emod_eq_emod_iff_emod_sub_eq_zero.2 (Int.emod_eq_zero_of_dvd h2)]
    simp

theorem shrHi_spec (signed : Bool) (a : BitVec h) {s : Nat} (hs : s < h) :
    Ok (shrHi signed a s) (fun r => hiVal signed r = hiVal signed a / 2 ^ s) := by
  refine ⟨if signed then a.sshiftRight s else a >>> s, by simp [shrHi, hs], ?_⟩
  cases signed
  · simp [hiVal, Nat.shiftRight_eq_div_pow]
  · simp [hiVal, BitVec.toInt_sshiftRight, Int.shiftRight_eq_div_pow]

theorem hiVal_bounds (signed : Bool) (a : BitVec h) (hh : 0 < h) :
    -(2 ^ h : Int) ≤ hiVal signed a ∧ hiVal signed a < 2 ^ h ∧
      (hiVal signed a < 0 ↔ (signed && a.slt 0#h) = true) := by
  have h1 : (a.toNat : Int) < 2 ^ h := by exact_mod_cast a.isLt
  have e : (2 : Int) ^ h = 2 * 2 ^ (h - 1) := by
    obtain ⟨m, rfl⟩ : ∃ m, h = m + 1 := ⟨h - 1, by omega⟩
    simp [pow_succ]; ring
  have hpos : (0 : Int) < 2 ^ (h - 1) := by positivity
  cases signed
  · simp [hiVal]; omega
  · have := toInt_bounds hh a
    simp only [hiVal, if_true, Bool.true_and, BitVec.slt, decide_eq_true_eq, BitVec.toInt_zero, and_true]
    omega

theorem toNat_of_hiVal (signed : Bool) (a : BitVec h) (hh : 0 < h) :
    (a.toNat : Int) = hiVal signed a + (if (signed && a.slt 0#h) = true then 2 ^ h else 0) := by
  obtain ⟨-, -, b⟩ := hiVal_bounds signed a hh
  have h1 : (a.toNat : Int) < 2 ^ h := by exact_mod_cast a.isLt
  cases signed
  · simp [hiVal]
  · have := BitVec.toInt_eq_toNat_cond a
    simp only [hiVal, if_true] at b ⊢
    push_cast at this
    split at this
    · rw [if_neg]
      · omega
      · rw [← b]; omega
    · rw [if_pos]
      · omega
      · rw [← b]; omega

theorem shr_arith {N A B : Int} {H L : Int} (hN : N = A * B) (hA : 0 < A) :
    H / A * N + (H % A * B + L / A) = (H * N + L) / A := by
  have h1 := Int.mul_ediv_add_emod H A
  have h2 : H * N + L = A * (H / A * N + H % A * B) + L := by
    calc H * N + L = (A * (H / A) + H % A) * N + L := by rw [h1]
      _ = _ := by rw [hN]; ring
  rw [h2, Int.mul_add_ediv_left _ _ (by omega)]
  ring

theorem shr_spec {k : Nat} (hk : h = 2 ^ (k + 1)) (signed : Bool) (x : Wide h) {r : Nat} (hr : r < 2 * h) :
    Ok (shr signed x r) (fun y => y.valI signed = x.valI signed / 2 ^ r) := by
  have hp := Nat.two_pow_pos k
  have hp2 : 2 ^ (k + 1) = 2 * 2 ^ k := by rw [Nat.pow_succ]; ring
  have hx := x.lo.isLt
  unfold shr
  refine Ok.bind (assertC_spec (by simpa using hr)) (fun _ _ => ?_)
  rw [show 2 * h / 2 = h by omega]
  refine Ok.bind (nsubC_spec (by omega)) ?_
  rintro m rfl
  have es : r &&& (h - 1) = r % h := by rw [hk, Nat.and_two_pow_sub_one_eq_mod]
  have hs : r % h < h := Nat.mod_lt _ (by omega)
  have hz : (r &&& h = 0) ↔ r < h := by
    have := and_pow_eq_zero_iff (k := k + 1) (r := r) (by omega)
    rwa [← hk] at this
  simp only [es]
  refine Ok.bind (shrHi_spec signed x.hi hs) ?_
  intro hi hhi
  have hN := Nat.two_pow_pos h
  split
  · rename_i hc
    have hrh := hz.1 hc
    rw [Nat.mod_eq_of_lt hrh] at *
    have ex : (h - 1) ^^^ r = h - 1 - r := by
      have := xor_mask (k := k + 1) (s := r) (by omega)
      rwa [← hk] at this
    rw [ex]
    refine Ok.bind (shlC_spec (by omega)) ?_
    intro t ht
    refine Ok.bind (shlC_spec (by omega)) ?_
    intro t' ht'
    refine Ok.bind (shrC_spec hrh) ?_
    intro u hu
    refine Ok.pure' ?_
    have hNs : 2 ^ h = 2 ^ r * 2 ^ (h - r) := by rw [← Nat.pow_add]; congr 1; omega
    have ht2 : t'.toNat = x.hi.toNat % 2 ^ r * 2 ^ (h - r) := by
      rw [ht', ht, Nat.mod_mul_mod, Nat.mul_assoc, ← Nat.pow_add, show h - 1 - r + 1 = h - r by omega, hNs,
        Nat.mul_mod_mul_right]
    have hul : u.toNat < 2 ^ (h - r) := by
      rw [hu, Nat.div_lt_iff_lt_mul (Nat.two_pow_pos _), Nat.mul_comm, ← hNs]; exact hx
    have hor : (t' ||| u).toNat = x.hi.toNat % 2 ^ r * 2 ^ (h - r) + x.lo.toNat / 2 ^ r := by
      rw [BitVec.toNat_or, or_eq_add' hul (by rw [ht2]; exact Nat.dvd_mul_left _ _), ht2, hu]; omega
    simp only [valI, hor, hhi]
    have he := hiVal_emod signed x.hi (Nat.le_of_lt hrh)
    have := shr_arith (H := hiVal signed x.hi) (L := x.lo.toNat) (N := 2 ^ h) (A := 2 ^ r) (B := 2 ^ (h - r))
      (by exact_mod_cast hNs) (by positivity)
    rw [he] at this
    push_cast at this ⊢
    exact this
  · rename_i hc
    have hrh : h ≤ r := Nat.not_lt.1 (fun hh => hc (hz.2 hh))
    have hrm : r % h = r - h := by rw [Nat.mod_eq_sub_mod hrh, Nat.mod_eq_of_lt (by omega)]
    rw [hrm] at hhi
    refine Ok.pure' ?_
    simp only [valI]
    have e3 : (2 : Int) ^ r = 2 ^ h * 2 ^ (r - h) := by rw [← pow_add]; congr 1; omega
    have hpos : (0 : Int) < 2 ^ h := by positivity
    have hpos2 : (0 : Int) < 2 ^ (r - h) := by positivity
    have hx' : (x.lo.toNat : Int) < 2 ^ h := by exact_mod_cast hx
    have e5 : (hiVal signed x.hi * 2 ^ h + x.lo.toNat) / 2 ^ h = hiVal signed x.hi := by
      rw [mul_comm, Int.mul_add_ediv_left _ _ (by omega), Int.ediv_eq_zero_of_lt (by omega) hx', add_zero]
    rw [e3, ← Int.ediv_ediv_of_nonneg (by positivity), e5, ← hhi]
    obtain ⟨b1, b2, b3⟩ := hiVal_bounds signed x.hi (by omega)
    obtain ⟨c1, c2, c3⟩ := hiVal_bounds signed hi (by omega)
    have hsign : hiVal signed hi < 0 ↔ hiVal signed x.hi < 0 := by
      rw [hhi]
      constructor
      · intro h1; by_contra h2
        have := Int.ediv_nonneg (not_lt.1 h2) hpos2.le
        omega
      · intro h1; exact Int.ediv_neg_of_neg_of_pos h1 hpos2
    have ht := toNat_of_hiVal signed hi (by omega)
    have hcc : (signed && hi.slt 0#h) = true ↔ (signed && x.hi.slt 0#h) = true := by rw [← c3, hsign, b3]
    by_cases hneg : (signed && x.hi.slt 0#h) = true
    · rw [if_pos (hcc.2 hneg)] at ht
      have hsg : signed = true := by simp at hneg; exact hneg.1
      rw [if_pos hneg, ht]
      subst hsg
      have : (~~~ 0#h).toInt = -1 := by
        rw [BitVec.not_zero, BitVec.toInt_allOnes, if_pos (by omega)]
      simp only [hiVal, if_true, this]
      ring
    · rw [if_neg (fun hh => hneg (hcc.1 hh))] at ht
      rw [if_neg hneg, ht]
      cases signed <;> simp [hiVal]

/-! ### Comparison, construction and widening multiplication -/

theorem lt_unsigned (x y : Wide h) : lt false x y = true ↔ x.val < y.val := by
  have h1 := x.lo.isLt
  have h2 := y.lo.isLt
  have hN := Nat.two_pow_pos h
  simp only [lt, val, Bool.false_eq_true, if_false, Bool.or_eq_true, Bool.and_eq_true, beq_iff_eq,
    BitVec.ult, decide_eq_true_eq]
  rw [← BitVec.toNat_inj]
  generalize 2 ^ h = N at *
  rcases Nat.lt_trichotomy x.hi.toNat y.hi.toNat with hc | hc | hc
  · have : (x.hi.toNat + 1) * N ≤ y.hi.toNat * N := Nat.mul_le_mul_right _ hc
    rw [Nat.add_mul] at this; omega
  · rw [hc]; omega
  · have : (y.hi.toNat + 1) * N ≤ x.hi.toNat * N := Nat.mul_le_mul_right _ hc
    rw [Nat.add_mul] at this; omega

theorem lt_signed (x y : Wide h) : lt true x y = true ↔ x.valS < y.valS := by
  have h1 : (x.lo.toNat : Int) < 2 ^ h := by exact_mod_cast x.lo.isLt
  have h2 : (y.lo.toNat : Int) < 2 ^ h := by exact_mod_cast y.lo.isLt
  have hN : (0 : Int) < 2 ^ h := by positivity
  simp only [lt, valS, if_true, Bool.or_eq_true, Bool.and_eq_true, beq_iff_eq,
    BitVec.ult, BitVec.slt, decide_eq_true_eq]
  rw [← BitVec.toInt_inj]
  generalize (2 : Int) ^ h = N at *
  rcases lt_trichotomy x.hi.toInt y.hi.toInt with hc | hc | hc
  · have : (x.hi.toInt + 1) * N ≤ y.hi.toInt * N := Int.mul_le_mul_of_nonneg_right hc hN.le
    rw [Int.add_mul] at this; omega
  · rw [hc]; omega
  · have : (y.hi.toInt + 1) * N ≤ x.hi.toInt * N := Int.mul_le_mul_of_nonneg_right hc hN.le
    rw [Int.add_mul] at this; omega

theorem val_widen (x : BitVec h) : (widen x).val = x.toNat := by simp [val, widen]
theorem val_widenHi (x : BitVec h) : (widenHi x).val = x.toNat * 2 ^ h := by simp [val, widenHi]
theorem val_fromLoHi (l u : BitVec h) : (fromLoHi l u).val = u.toNat * 2 ^ h + l.toNat := by
  simp [val, fromLoHi, Wide.or, widen, widenHi]
theorem valS_widenS (hh : 0 < h) (x : BitVec h) : (widenS x).valS = x.toInt := by
  have hc := toNat_of_hiVal true x hh
  simp only [hiVal, if_true, Bool.true_and] at hc
  simp only [valS, widenS]
  rw [hc]
  split
  · have : (-1#h).toInt = -1 := by
      rw [BitVec.neg_one_eq_allOnes, BitVec.toInt_allOnes, if_pos hh]
    rw [this]; ring
  · simp

theorem zwm_arith {N pll plh phl phh s0 s2 : Nat} (hs0 : s0 = phl + pll / N)
    (hs2 : s2 = plh + s0 % N) :
    (phh + s0 / N + s2 / N) * (N * N) + (pll % N + s2 % N * N) =
      phh * (N * N) + (phl + plh) * N + pll := by
  have e1 := Nat.div_add_mod pll N
  have e2 := Nat.div_add_mod s0 N
  have e3 := Nat.div_add_mod s2 N
  generalize pll / N = a at *
  generalize pll % N = b at *
  generalize s0 / N = c at *
  generalize s0 % N = d at *
  generalize s2 / N = e at *
  generalize s2 % N = f at *
  subst e1
  have h1 : (N * e + f) * N = (plh + d) * N := by rw [e3, hs2]
  have h2 : (N * c + d) * N = (phl + a) * N := by rw [e2, hs0]
  nlinarith

theorem zeroWidenMul_spec {g : Nat} (hg : 0 < g) (a b : BitVec (2 * g)) :
    Ok (zeroWidenMul a b) (fun y => y.val = a.toNat * b.toNat) := by
  have hN := Nat.two_pow_pos g
  have e2 := two_pow_two_mul g
  have ha := a.isLt
  have hb := b.isLt
  have hmask : ∀ c : BitVec (2 * g), (c &&& BitVec.ofNat (2 * g) (2 ^ g - 1)).toNat = c.toNat % 2 ^ g := by
    intro c
    rw [BitVec.toNat_and, BitVec.toNat_ofNat, Nat.mod_eq_of_lt (a := 2 ^ g - 1), Nat.and_two_pow_sub_one_eq_mod]
    have := Nat.pow_le_pow_right (n := 2) (by omega) (show g ≤ 2 * g by omega)
    omega
  unfold zeroWidenMul
  simp only
  refine Ok.bind (shrC_spec (by omega)) ?_
  intro h0 hh0
  refine Ok.bind (shrC_spec (by omega)) ?_
  intro h1 hh1
  have hl0 := hmask a
  have hl1 := hmask b
  generalize a &&& BitVec.ofNat (2 * g) (2 ^ g - 1) = l0 at *
  generalize b &&& BitVec.ofNat (2 * g) (2 ^ g - 1) = l1 at *
  rw [e2] at ha hb
  have bl0 : l0.toNat < 2 ^ g := by rw [hl0]; exact Nat.mod_lt _ hN
  have bl1 : l1.toNat < 2 ^ g := by rw [hl1]; exact Nat.mod_lt _ hN
  have bh0 : h0.toNat < 2 ^ g := by rw [hh0]; exact Nat.div_lt_of_lt_mul ha
  have bh1 : h1.toNat < 2 ^ g := by rw [hh1]; exact Nat.div_lt_of_lt_mul hb
  have hbd : ∀ {x y : Nat}, x < 2 ^ g → y < 2 ^ g → x * y + 2 * 2 ^ g ≤ 2 ^ g * 2 ^ g + 1 := by
    intro x y hx hy
    obtain ⟨M, hM⟩ : ∃ M, 2 ^ g = M + 1 := ⟨2 ^ g - 1, by omega⟩
    rw [hM] at hx hy ⊢
    have : x * y ≤ M * M := Nat.mul_le_mul (by omega) (by omega)
    nlinarith
  have hmul : ∀ {x y : BitVec (2 * g)}, x.toNat < 2 ^ g → y.toNat < 2 ^ g → (x * y).toNat = x.toNat * y.toNat := by
    intro x y hx hy
    rw [BitVec.toNat_mul, Nat.mod_eq_of_lt]
    have := hbd hx hy
    rw [e2]; omega
  have hpll := hmul bl0 bl1
  have hplh := hmul bl0 bh1
  have hphl := hmul bh0 bl1
  have hphh := hmul bh0 bh1
  have bpll := hbd bl0 bl1
  have bplh := hbd bl0 bh1
  have bphl := hbd bh0 bl1
  have bphh := hbd bh0 bh1
  have hmpll := hmask (l0 * l1)
  rw [hpll] at hmpll
  generalize (l0 * l1 &&& BitVec.ofNat (2 * g) (2 ^ g - 1)) = ml at *
  refine Ok.bind (shrC_spec (by omega)) ?_
  intro t ht
  have bt : t.toNat < 2 ^ g := by
    rw [ht, hpll]; exact Nat.div_lt_of_lt_mul (by omega)
  refine Ok.bind (addC_spec (by rw [e2]; omega)) ?_
  intro s0 hs0
  rw [ht, hphl, hpll] at hs0
  refine Ok.bind (shlC_spec (by omega)) ?_
  intro t2 ht2
  rw [e2, Nat.mul_mod_mul_right] at ht2
  have bml : ml.toNat < 2 ^ g := by rw [hmpll]; exact Nat.mod_lt _ hN
  have hcomb : ∀ z, z % 2 ^ g * 2 ^ g + 2 ^ g ≤ 2 ^ g * 2 ^ g := by
    intro z
    have := Nat.mod_lt z hN
    have : (z % 2 ^ g + 1) * 2 ^ g ≤ 2 ^ g * 2 ^ g := Nat.mul_le_mul_right _ this
    rw [Nat.add_mul] at this; omega
  have c1 := hcomb s0.toNat
  refine Ok.bind (addC_spec (by rw [e2]; omega)) ?_
  intro s1 hs1
  refine Ok.bind (shrC_spec (by omega)) ?_
  intro t3 ht3
  rw [hs1, ht2, Nat.add_mul_div_right _ _ hN, Nat.div_eq_of_lt bml, Nat.zero_add] at ht3
  have bt3 : t3.toNat < 2 ^ g := by rw [ht3]; exact Nat.mod_lt _ hN
  refine Ok.bind (addC_spec (by rw [e2]; omega)) ?_
  intro s2 hs2
  rw [ht3, hplh] at hs2
  refine Ok.bind (shlC_spec (by omega)) ?_
  intro t4 ht4
  rw [e2, Nat.mul_mod_mul_right] at ht4
  have c2 := hcomb s2.toNat
  refine Ok.bind (addC_spec (by rw [e2]; omega)) ?_
  intro lo hlo
  refine Ok.bind (shrC_spec (by omega)) ?_
  intro t5 ht5
  have key := zwm_arith (phh := (h0 * h1).toNat) hs0 hs2
  have hval : (h0 * h1).toNat * (2 ^ g * 2 ^ g) + (h0.toNat * l1.toNat + l0.toNat * h1.toNat) * 2 ^ g
      + l0.toNat * l1.toNat = a.toNat * b.toNat := by
    have ea := Nat.div_add_mod a.toNat (2 ^ g)
    have eb := Nat.div_add_mod b.toNat (2 ^ g)
    rw [← hl0, ← hh0] at ea
    rw [← hl1, ← hh1] at eb
    rw [hphh, ← ea, ← eb]; ring
  rw [hval] at key
  have hab : a.toNat * b.toNat < (2 ^ g * 2 ^ g) * (2 ^ g * 2 ^ g) := Nat.mul_lt_mul'' ha hb
  have hhi : (h0 * h1).toNat + s0.toNat / 2 ^ g + s2.toNat / 2 ^ g < 2 ^ g * 2 ^ g := by
    refine Nat.lt_of_mul_lt_mul_right (a := 2 ^ g * 2 ^ g) ?_
    omega
  generalize a.toNat * b.toNat = ab at *
  refine Ok.bind (addC_spec (by rw [e2, ht5]; exact Nat.lt_of_le_of_lt (Nat.le_add_right _ _) hhi)) ?_
  intro hi1 hhi1
  refine Ok.bind (shrC_spec (by omega)) ?_
  intro t6 ht6
  refine Ok.bind (addC_spec (by rw [e2, hhi1, ht5, ht6]; exact hhi)) ?_
  intro hi hhi2
  refine Ok.pure' ?_
  simp only [val]
  rw [hhi2, hhi1, ht5, ht6, hlo, ht4, hmpll, e2]
  exact key

end Wide
end Verif
