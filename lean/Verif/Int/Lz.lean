import Verif.Core
/-! Number of significant bits, and the core primitive `leading_zeros`. -/
namespace Verif

/-- Number of significant bits of a natural number. -/
def bitLen (n : Nat) : Nat := if n = 0 then 0 else n.log2 + 1

theorem bitLen_le_iff {n k : Nat} : bitLen n ≤ k ↔ n < 2 ^ k := by
  unfold bitLen
  split
  · rename_i h; subst h; simp [Nat.two_pow_pos]
  · rename_i h; rw [Nat.succ_le_iff, Nat.log2_lt h]

theorem lt_two_pow_bitLen (n : Nat) : n < 2 ^ bitLen n := bitLen_le_iff.1 (Nat.le_refl _)

theorem two_pow_le_of_bitLen {n : Nat} (h : n ≠ 0) : 2 ^ (bitLen n - 1) ≤ n := by
  rw [← Nat.not_lt, ← bitLen_le_iff]
  have : bitLen n ≠ 0 := by unfold bitLen; simp [h]
  omega

theorem bitLen_unique {n k : Nat} (h1 : n < 2 ^ (k + 1)) (h2 : 2 ^ k ≤ n) : bitLen n = k + 1 := by
  have := bitLen_le_iff.2 h1
  have : ¬ bitLen n ≤ k := by rw [bitLen_le_iff]; omega
  omega

theorem bitLen_zero : bitLen 0 = 0 := rfl

theorem bitLen_pos {n : Nat} (h : n ≠ 0) : 0 < bitLen n := by
  unfold bitLen; simp [h]

theorem bitLen_div {n k : Nat} (h : 2 ^ k ≤ n) : bitLen (n / 2 ^ k) + k = bitLen n := by
  have hp := Nat.two_pow_pos k
  have h0 : n ≠ 0 := by omega
  have h1 : n / 2 ^ k ≠ 0 := Nat.ne_of_gt (Nat.div_pos h hp)
  have hb := two_pow_le_of_bitLen h1
  have hl := lt_two_pow_bitLen (n / 2 ^ k)
  have hbp : bitLen (n / 2 ^ k) ≠ 0 := by unfold bitLen; simp [h1]
  obtain ⟨m, hm⟩ : ∃ m, bitLen (n / 2 ^ k) = m + 1 := ⟨_, (Nat.succ_pred hbp).symm⟩
  rw [hm] at hb hl ⊢
  simp only [Nat.add_sub_cancel] at hb
  rw [show m + 1 + k = (m + k) + 1 by omega]
  symm
  apply bitLen_unique
  · rw [show m + k + 1 = m + 1 + k by omega, Nat.pow_add]
    exact (Nat.div_lt_iff_lt_mul hp).1 hl
  · rw [Nat.pow_add]
    exact (Nat.le_div_iff_mul_le hp).1 hb

/-- The core primitive `leading_zeros` of a `w`-bit unsigned integer. -/
def nlz {w} (x : BitVec w) : Nat := w - bitLen x.toNat

theorem bitLen_le_width {w} (x : BitVec w) : bitLen x.toNat ≤ w := bitLen_le_iff.2 x.isLt

end Verif
