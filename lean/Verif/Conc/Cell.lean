import Verif.Conc.Spec
import Mathlib.Tactic.Ring
import Mathlib.Tactic.NormNum
/-! Bits of memory cells. -/
namespace Verif.Conc
variable {A : Nat}

theorem ofBytes_lt (f : Nat → BitVec 8) (n : Nat) : ofBytes f n < 2 ^ (8 * n) := by
  induction n with
  | zero => simp [ofBytes]
  | succ n ih =>
    rw [ofBytes]
    have h := (f n).isLt
    have e : 2 ^ (8 * (n + 1)) = 2 ^ (8 * n) * 256 := by rw [show 8 * (n + 1) = 8 * n + 8 by ring, pow_add]; norm_num
    have e2 : 256 ^ n = 2 ^ (8 * n) := by rw [pow_mul]; norm_num
    rw [e, e2]
    have : (f n).toNat * 2 ^ (8 * n) ≤ 255 * 2 ^ (8 * n) := Nat.mul_le_mul_right _ (by omega)
    omega

theorem testBit_ofBytes (f : Nat → BitVec 8) (n j : Nat) :
    (ofBytes f n).testBit j = (decide (j < 8 * n) && (f (j / 8)).getLsbD (j % 8)) := by
  induction n with
  | zero => simp [ofBytes]
  | succ n ih =>
    have hlt := ofBytes_lt f n
    have e2 : 256 ^ n = 2 ^ (8 * n) := by rw [pow_mul]; norm_num
    rw [ofBytes, e2, Nat.add_comm, Nat.mul_comm, Nat.testBit_two_pow_mul_add _ hlt, ih]
    by_cases h : j < 8 * n
    · rw [if_pos h]; simp [h, show j < 8 * (n + 1) by omega]
    · rw [if_neg h]
      by_cases h2 : j < 8 * (n + 1)
      · have h3 : j / 8 = n := by omega
        have h4 : j % 8 = j - 8 * n := by omega
        rw [h3, h4]
        simp [h2, BitVec.getLsbD]
      · simp [h2]
        apply BitVec.getLsbD_of_ge
        omega

theorem getLsbD_readCell (be : Bool) (m : Mem A) (a : BitVec A) (n j : Nat) :
    (readCell be m a n).getLsbD j =
      (decide (j < 8 * n) && (m (a + BitVec.ofNat A (bytePos be n (j / 8)))).getLsbD (j % 8)) := by
  unfold readCell
  rw [BitVec.getLsbD_ofNat, testBit_ofBytes]
  by_cases h : j < 8 * n <;> simp [h]

theorem bytePos_invol {be : Bool} {n k : Nat} (h : k < n) : bytePos be n (bytePos be n k) = k := by
  unfold bytePos; split <;> omega
theorem bytePos_lt {be : Bool} {n k : Nat} (h : k < n) : bytePos be n k < n := by
  unfold bytePos; split <;> omega

/-- the bytes of a cell -/
theorem extract_readCell (be : Bool) (m : Mem A) (a : BitVec A) {n k : Nat} (h : k < n) :
    (readCell be m a n).extractLsb' (8 * bytePos be n k) 8 = m (a + BitVec.ofNat A k) := by
  apply BitVec.eq_of_getLsbD_eq
  intro i hi
  have hp := bytePos_lt (be := be) h
  rw [BitVec.getLsbD_extractLsb', getLsbD_readCell]
  have e1 : (8 * bytePos be n k + i) / 8 = bytePos be n k := by omega
  have e2 : (8 * bytePos be n k + i) % 8 = i := by omega
  rw [e1, e2, bytePos_invol h]
  simp [hi, show 8 * bytePos be n k + i < 8 * n by omega]

theorem sub_toNat_add {a : BitVec A} {k : Nat} (h : k < 2 ^ A) : (a + BitVec.ofNat A k - a).toNat = k := by
  rw [BitVec.add_comm, BitVec.add_sub_cancel, BitVec.toNat_ofNat, Nat.mod_eq_of_lt h]

theorem add_sub_toNat (a x : BitVec A) : a + BitVec.ofNat A (x - a).toNat = x := by
  rw [BitVec.ofNat_toNat, BitVec.setWidth_eq, BitVec.add_comm, BitVec.sub_add_cancel]

/-- A cell is determined by its bytes. -/
theorem cell_ext {n : Nat} {be : Bool} {u v : BitVec (8 * n)}
    (h : ∀ k, k < n → u.extractLsb' (8 * bytePos be n k) 8 = v.extractLsb' (8 * bytePos be n k) 8) : u = v := by
  apply BitVec.eq_of_getLsbD_eq
  intro i hi
  have hk : i / 8 < n := by omega
  have := h (bytePos be n (i / 8)) (bytePos_lt hk)
  rw [bytePos_invol hk] at this
  have h2 := congrArg (fun b => b.getLsbD (i % 8)) this
  simp only [BitVec.getLsbD_extractLsb'] at h2
  have e : 8 * (i / 8) + i % 8 = i := by omega
  rw [e] at h2
  simpa [show i % 8 < 8 by omega] using h2

theorem read_write {be : Bool} {m : Mem A} {a : BitVec A} {n : Nat} (hn : n ≤ 2 ^ A) (v : BitVec (8 * n)) :
    readCell be (writeCell be m a n v) a n = v := by
  apply cell_ext (be := be)
  intro k hk
  rw [extract_readCell be _ _ hk]
  unfold writeCell
  rw [sub_toNat_add (by omega), if_pos hk]

theorem write_read (be : Bool) (m : Mem A) (a : BitVec A) (n : Nat) : writeCell be m a n (readCell be m a n) = m := by
  funext x
  unfold writeCell
  split
  · rename_i h
    rw [extract_readCell be _ _ h, add_sub_toNat]
  · rfl

/-- reading depends on the own bytes only -/
theorem readCell_congr {be : Bool} {m m' : Mem A} {a : BitVec A} {n : Nat}
    (h : ∀ k, k < n → m (a + BitVec.ofNat A k) = m' (a + BitVec.ofNat A k)) : readCell be m a n = readCell be m' a n := by
  apply cell_ext (be := be)
  intro k hk
  rw [extract_readCell be _ _ hk, extract_readCell be _ _ hk, h k hk]

end Verif.Conc
