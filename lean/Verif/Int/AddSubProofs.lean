import Verif.Int.AddSub
/-! Helper lemmas for `addsub.rs`. -/
namespace Verif

theorem bmod_two_mul {x : Int} {N : Nat} (h1 : -(2 * N) ≤ x) (h2 : x < 2 * N) :
    x.bmod (2 * N) = if x < -N then x + 2 * N else if x < N then x else x - 2 * N := by
  rcases Nat.eq_zero_or_pos N with rfl | hN
  · omega
  have key : x % (2 * (N : Int)) = if x < 0 then x + 2 * N else x := by
    split
    · rw [← Int.add_emod_right, Int.emod_eq_of_lt] <;> omega
    · rw [Int.emod_eq_of_lt] <;> omega
  simp only [Int.bmod, Int.natCast_mul, Int.cast_ofNat_Int]
  rw [key]
  split <;> split <;> split <;> (try split) <;> omega

theorem two_pow_pred {w : Nat} (hw : 0 < w) : 2 ^ w = 2 * 2 ^ (w - 1) := by
  obtain ⟨k, rfl⟩ : ∃ k, w = k + 1 := ⟨w - 1, by omega⟩
  simp [Nat.pow_succ, Nat.mul_comm]

theorem toInt_bounds {w : Nat} (hw : 0 < w) (x : BitVec w) :
    -((2 ^ (w - 1) : Nat) : Int) ≤ x.toInt ∧ x.toInt < ((2 ^ (w - 1) : Nat) : Int) := by
  have := x.isLt
  rw [BitVec.toInt_eq_toNat_cond]
  have h2 := two_pow_pred hw
  split <;> omega

theorem uadd_eq {h} (hh : 0 < h) (a b : BitVec (2 * h)) : uadd a b = a + b := by
  apply BitVec.eq_of_toNat_eq
  have ha := lo_add_hi a
  have hb := lo_add_hi b
  have la := (lo a).isLt
  have lb := (lo b).isLt
  have h1 : (1#h).toNat = 1 := by
    rw [BitVec.toNat_ofNat]; exact Nat.mod_eq_of_lt (Nat.one_lt_two_pow (Nat.ne_of_gt hh))
  have hp := Nat.two_pow_pos h
  have hsq := two_pow_two_mul h
  simp only [uadd, overflowingAdd, toNat_fromLoHi, BitVec.toNat_add, decide_eq_true_eq]
  generalize (lo a).toNat = al at *
  generalize (lo b).toNat = bl at *
  generalize (hi a).toNat = ah at *
  generalize (hi b).toNat = bh at *
  rw [← ha, ← hb, hsq]
  generalize 2 ^ h = N at *
  have key : ∀ l c : Nat, l < N → al + bl = l + N * c →
      l + N * ((ah + bh + c) % N) = (al + N * ah + (bl + N * bh)) % (N * N) := by
    intro l c hl he
    have e : al + N * ah + (bl + N * bh) = l + N * (ah + bh + c) := by
      rw [Nat.mul_add, Nat.mul_add]; omega
    rw [e, Nat.mod_mul, Nat.add_mul_mod_self_left, Nat.mod_eq_of_lt hl,
      Nat.add_mul_div_left _ _ hp, Nat.div_eq_of_lt hl, Nat.zero_add]
  split
  · rename_i hc
    rw [h1, ← key ((al + bl) % N) 1 (Nat.mod_lt _ hp)]
    · rw [Nat.mod_add_mod]
    · rw [Nat.mod_eq_sub_mod hc, Nat.mod_eq_of_lt] <;> omega
  · rename_i hc
    simp only [BitVec.toNat_ofNat]
    rw [← key ((al + bl) % N) 0 (Nat.mod_lt _ hp)]
    · simp
    · rw [Nat.mod_eq_of_lt] <;> omega

theorem uaddOne_eq {h} (hh : 0 < h) (a : BitVec (2 * h)) : uaddOne a = a + 1#_ := by
  have h1 : 1 < 2 ^ h := Nat.one_lt_two_pow (by omega)
  have e : uaddOne a = uadd a 1#_ := by
    have l1 : lo (1#(2 * h)) = 1#h := by
      apply BitVec.eq_of_toNat_eq
      rw [toNat_lo]; simp
      rw [Nat.mod_mod_of_dvd]
      exact Nat.pow_dvd_pow 2 (by omega)
    have u1 : hi (1#(2 * h)) = 0#h := by
      apply BitVec.eq_of_toNat_eq
      rw [toNat_hi]; simp
      rw [Nat.mod_eq_of_lt (Nat.one_lt_two_pow (by omega))]; omega
    simp only [uaddOne, uadd, l1, u1, BitVec.add_zero]
  rw [e, uadd_eq hh]

theorem usub_eq {h} (hh : 0 < h) (a b : BitVec (2 * h)) : usub a b = a - b := by
  rw [usub, uadd_eq hh, uaddOne_eq hh, BitVec.sub_eq_add_neg, BitVec.neg_eq_not_add]

theorem addoU_flag {h} (hh : 0 < h) (a b : BitVec (2 * h)) :
    (addoU a b).2 = true ↔ 2 ^ (2 * h) ≤ a.toNat + b.toNat := by
  have ha := a.isLt
  have hb := b.isLt
  simp [addoU, addSubAdd, uadd_eq hh, BitVec.ult]
  by_cases hc : 2 ^ (2 * h) ≤ a.toNat + b.toNat
  · rw [Nat.mod_eq_sub_mod hc, Nat.mod_eq_of_lt] <;> omega
  · rw [Nat.mod_eq_of_lt] <;> omega

theorem suboU_flag {h} (hh : 0 < h) (a b : BitVec (2 * h)) :
    (suboU a b).2 = true ↔ a.toNat < b.toNat := by
  have ha := a.isLt
  have hb := b.isLt
  simp [suboU, addSubSub, usub_eq hh, BitVec.ult, BitVec.toNat_sub]
  by_cases hc : a.toNat < b.toNat
  · rw [Nat.mod_eq_of_lt] <;> omega
  · rw [Nat.mod_eq_sub_mod (by omega), Nat.mod_eq_of_lt] <;> omega

theorem addoS_flag {h} (hh : 0 < h) (a b : BitVec (2 * h)) :
    (addoS a b).2 = true ↔
      ¬ (-(2 ^ (2 * h - 1) : Nat) ≤ a.toInt + b.toInt ∧
        a.toInt + b.toInt < (2 ^ (2 * h - 1) : Nat)) := by
  have ha := toInt_bounds (by omega) a
  have hb := toInt_bounds (by omega) b
  simp only [addoS, addSubAdd, uadd_eq hh, bne_iff_ne, ne_eq, BitVec.slt, decide_eq_decide,
    BitVec.toInt_zero, BitVec.toInt_add]
  rw [two_pow_pred (w := 2 * h) (by omega), bmod_two_mul (by omega) (by omega)]
  split <;> (try split) <;> omega

theorem suboS_flag {h} (hh : 0 < h) (a b : BitVec (2 * h)) :
    (suboS a b).2 = true ↔
      ¬ (-(2 ^ (2 * h - 1) : Nat) ≤ a.toInt - b.toInt ∧
        a.toInt - b.toInt < (2 ^ (2 * h - 1) : Nat)) := by
  have ha := toInt_bounds (by omega) a
  have hb := toInt_bounds (by omega) b
  simp only [suboS, addSubSub, usub_eq hh, bne_iff_ne, ne_eq, BitVec.slt, decide_eq_decide,
    BitVec.toInt_zero, BitVec.toInt_sub]
  rw [two_pow_pred (w := 2 * h) (by omega), bmod_two_mul (by omega) (by omega)]
  split <;> (try split) <;> omega

end Verif
