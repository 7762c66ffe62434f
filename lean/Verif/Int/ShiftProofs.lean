import Verif.Int.Shift
/-! Helper lemmas for `shift.rs`. -/
namespace Verif

theorem and_pow_ne_zero_iff {k s : Nat} (hs : s < 2 * 2 ^ k) : s &&& 2 ^ k ≠ 0 ↔ 2 ^ k ≤ s := by
  have ha : s &&& 2 ^ k = if s.testBit k then 2 ^ k else 0 := by
    apply Nat.eq_of_testBit_eq
    intro i
    rw [Nat.testBit_and, Nat.testBit_two_pow]
    by_cases hi : k = i
    · subst hi; by_cases hb : s.testBit k <;> simp [hb]
    · by_cases hb : s.testBit k <;> simp [hb, hi]
  rw [ha]
  have hp := Nat.two_pow_pos k
  have h1 : s / 2 ^ k < 2 := Nat.div_lt_of_lt_mul (by omega)
  have h2 : 2 ^ k ≤ s ↔ 1 ≤ s / 2 ^ k := by rw [Nat.le_div_iff_mul_le hp]; omega
  rw [h2, Nat.testBit_eq_decide_div_mod_eq]
  generalize s / 2 ^ k = q at h1
  have : q = 0 ∨ q = 1 := by omega
  rcases this with rfl | rfl <;> simp

theorem getLsbD_lo {h} (x : BitVec (2 * h)) (i : Nat) :
    (lo x).getLsbD i = (decide (i < h) && x.getLsbD i) := by
  simp [lo]

theorem getLsbD_hi {h} (x : BitVec (2 * h)) (i : Nat) :
    (hi x).getLsbD i = (decide (i < h) && x.getLsbD (h + i)) := by
  simp [hi]

theorem getLsbD_fromLoHi {h} (l u : BitVec h) (i : Nat) :
    (fromLoHi l u).getLsbD i = if i < h then l.getLsbD i else u.getLsbD (i - h) := by
  simp only [fromLoHi, zeroWiden, widenHi, BitVec.getLsbD_or, BitVec.getLsbD_setWidth,
    BitVec.getLsbD_shiftLeft]
  by_cases h1 : i < h
  · simp [h1]; omega
  · have h3 := u.getLsbD_of_ge (i - h)
    have h2 := l.getLsbD_of_ge i (by omega)
    simp only [h1, h2, if_false]
    by_cases h4 : i < 2 * h
    · have : i - h < 2 * h := by omega
      simp [h4, this]
    · rw [h3 (by omega)]; simp

theorem wsub32_eq {a b : Nat} (ha : a < 2 ^ 32) (h : b ≤ a) : wsub32 a b = a - b := by
  unfold wsub32; omega

theorem ashl_eq {k : Nat} (hk : k < 32) (x : BitVec (2 * 2 ^ k)) {s : Nat} (hs : s < 2 * 2 ^ k) :
    ashl x s = .ok (x <<< s) := by
  have hb : 2 ^ k < 2 ^ 32 := Nat.pow_lt_pow_right (by omega) hk
  unfold ashl
  simp only [and_pow_ne_zero_iff hs]
  generalize hN : 2 ^ k = N at *
  split
  · rename_i h1
    simp only [nsubC, h1, if_true, ok_bind]
    congr 1
    apply BitVec.eq_of_getLsbD_eq
    intro i hi
    have e : (s - N) % N = s - N := Nat.mod_eq_of_lt (by omega)
    simp only [widenHi, wshl, e, BitVec.getLsbD_shiftLeft, BitVec.getLsbD_setWidth, getLsbD_lo]
    grind
  · split
    · rename_i h2; subst h2; simp; rfl
    · rename_i h1 h2
      congr 1
      apply BitVec.eq_of_getLsbD_eq
      intro i hi
      rw [wsub32_eq hb (by omega)]
      have e1 : s % N = s := Nat.mod_eq_of_lt (by omega)
      have e2 : (N - s) % N = N - s := Nat.mod_eq_of_lt (by omega)
      simp only [wshl, wshr, e1, e2, BitVec.getLsbD_shiftLeft, getLsbD_lo, getLsbD_fromLoHi,
        getLsbD_hi, BitVec.getLsbD_or, BitVec.getLsbD_ushiftRight]
      by_cases c1 : i < N
      · have c2 : i - s < N := by omega
        simp [c1, c2, hi]
      · have c0 : N - s + (i - N) = i - s := by omega
        have c2 : i - N < N := by omega
        have c3 : i - N - s < N := by omega
        have c4 : ¬ i < s := by omega
        simp only [c0, c1, c2, c3, c4, hi]
        by_cases c5 : i - s < N
        · have : i - N < s := by omega
          simp [this, c5]
        · have c6 : ¬ i - N < s := by omega
          have c7 : N + (i - N - s) = i - s := by omega
          simp [c5, c6, c7]

theorem lshr_eq {k : Nat} (hk : k < 32) (x : BitVec (2 * 2 ^ k)) {s : Nat} (hs : s < 2 * 2 ^ k) :
    lshr x s = .ok (x >>> s) := by
  have hb : 2 ^ k < 2 ^ 32 := Nat.pow_lt_pow_right (by omega) hk
  unfold lshr
  simp only [and_pow_ne_zero_iff hs]
  generalize hN : 2 ^ k = N at *
  split
  · rename_i h1
    simp only [nsubC, h1, if_true, ok_bind]
    congr 1
    apply BitVec.eq_of_getLsbD_eq
    intro i hi
    have e : (s - N) % N = s - N := Nat.mod_eq_of_lt (by omega)
    simp only [zeroWiden, wshr, e, BitVec.getLsbD_ushiftRight, BitVec.getLsbD_setWidth, getLsbD_hi]
    have c0 : N + (s - N + i) = s + i := by omega
    simp only [c0, hi]
    by_cases c1 : s - N + i < N
    · simp [c1]
    · have := x.getLsbD_of_ge (s + i) (by omega)
      simp [c1, this]
  · split
    · rename_i h2; subst h2; simp; rfl
    · rename_i h1 h2
      congr 1
      apply BitVec.eq_of_getLsbD_eq
      intro i hi
      rw [wsub32_eq hb (by omega)]
      have e1 : s % N = s := Nat.mod_eq_of_lt (by omega)
      have e2 : (N - s) % N = N - s := Nat.mod_eq_of_lt (by omega)
      simp only [wshl, wshr, e1, e2, BitVec.getLsbD_shiftLeft, getLsbD_lo, getLsbD_fromLoHi,
        getLsbD_hi, BitVec.getLsbD_or, BitVec.getLsbD_ushiftRight]
      by_cases c1 : i < N
      · by_cases c2 : s + i < N
        · have : i < N - s := by omega
          simp [c1, c2, this]
        · have c3 : ¬ i < N - s := by omega
          have c4 : i - (N - s) < N := by omega
          have c5 : N + (i - (N - s)) = s + i := by omega
          simp [c1, c2, c3, c4, c5]
      · have c5 : N + (s + (i - N)) = s + i := by omega
        simp only [c1, c5]
        by_cases c2 : s + (i - N) < N
        · simp [c2]
        · have := x.getLsbD_of_ge (s + i) (by omega)
          simp [c2, this]

theorem ashr_eq {k : Nat} (hk : k < 32) (x : BitVec (2 * 2 ^ k)) {s : Nat} (hs : s < 2 * 2 ^ k) :
    ashr x s = .ok (x.sshiftRight s) := by
  have hb : 2 ^ k < 2 ^ 32 := Nat.pow_lt_pow_right (by omega) hk
  have hp := Nat.two_pow_pos k
  unfold ashr
  simp only [and_pow_ne_zero_iff hs, hiS_eq]
  generalize hN : 2 ^ k = N at *
  have hmsb : (hi x).msb = x.msb := by
    simp only [BitVec.msb_eq_getLsbD_last, getLsbD_hi]
    have : N + (N - 1) = 2 * N - 1 := by omega
    have h2 : N - 1 < N := by omega
    simp [this, h2]
  split
  · rename_i h1
    simp only [nsubC, h1, if_true, ok_bind, Nat.succ_le_of_lt hp]
    congr 1
    apply BitVec.eq_of_getLsbD_eq
    intro i hi'
    have e : (s - N) % N = s - N := Nat.mod_eq_of_lt (by omega)
    have e' : (N - 1) % N = N - 1 := Nat.mod_eq_of_lt (by omega)
    simp only [wsshr, e, e', BitVec.getLsbD_sshiftRight, getLsbD_fromLoHi, getLsbD_hi, hmsb]
    have c9 : ¬ 2 * N ≤ i := by omega
    by_cases c1 : i < N
    · have c2 : ¬ N ≤ i := by omega
      have c0 : N + (s - N + i) = s + i := by omega
      by_cases c3 : s - N + i < N
      · have c4 : s + i < 2 * N := by omega
        simp [c1, c2, c3, c0, c4, c9]
      · have c4 : ¬ s + i < 2 * N := by omega
        simp [c1, c2, c3, c4, c9]
    · have c2 : ¬ N ≤ i - N := by omega
      have c4 : ¬ s + i < 2 * N := by omega
      simp only [c1, c2, c9, c4]
      by_cases c5 : N - 1 + (i - N) < N
      · have c6 : N + (N - 1 + (i - N)) = 2 * N - 1 := by omega
        simp [c5, c6, BitVec.msb_eq_getLsbD_last]
      · simp [c5]
  · split
    · rename_i h2; subst h2; simp; rfl
    · rename_i h1 h2
      congr 1
      apply BitVec.eq_of_getLsbD_eq
      intro i hi'
      rw [wsub32_eq hb (by omega)]
      have e1 : s % N = s := Nat.mod_eq_of_lt (by omega)
      have e2 : (N - s) % N = N - s := Nat.mod_eq_of_lt (by omega)
      have c9 : ¬ 2 * N ≤ i := by omega
      simp only [wshl, wshr, wsshr, e1, e2, BitVec.getLsbD_shiftLeft, getLsbD_lo, getLsbD_fromLoHi,
        getLsbD_hi, BitVec.getLsbD_or, BitVec.getLsbD_ushiftRight, BitVec.getLsbD_sshiftRight, hmsb]
      by_cases c1 : i < N
      · have c8 : s + i < 2 * N := by omega
        by_cases c2 : s + i < N
        · have : i < N - s := by omega
          simp [c1, c2, this, c8, c9]
        · have c3 : ¬ i < N - s := by omega
          have c4 : i - (N - s) < N := by omega
          have c5 : N + (i - (N - s)) = s + i := by omega
          simp [c1, c2, c3, c4, c5, c8, c9]
      · have c5 : N + (s + (i - N)) = s + i := by omega
        have c6 : ¬ N ≤ i - N := by omega
        simp only [c1, c5, c6, c9]
        by_cases c2 : s + (i - N) < N
        · have c8 : s + i < 2 * N := by omega
          simp [c2, c8]
        · have c8 : ¬ s + i < 2 * N := by omega
          simp [c2, c8]

end Verif
