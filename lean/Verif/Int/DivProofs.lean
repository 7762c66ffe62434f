import Verif.Int.Div
import Mathlib.Tactic.Ring
import Mathlib.Tactic.Linarith
import Mathlib.Tactic.Positivity
/-! Helper lemmas for the unsigned division algorithms. -/
namespace Verif

set_option linter.unusedSimpArgs false

/-- Functional specification of a division routine: no fault, floor quotient and remainder. -/
def IsDivRem {w} (f : DivRem w) : Prop :=
  ∀ a b : BitVec w, b.toNat ≠ 0 →
    Ok (f a b) (fun r => r.1.toNat = a.toNat / b.toNat ∧ r.2.toNat = a.toNat % b.toNat)

theorem divRem_of {D d Q R : Nat} (h : Q * d + R = D) (hR : R < d) : Q = D / d ∧ R = D % d := by
  have hd : 0 < d := by omega
  subst h
  constructor
  · rw [Nat.mul_comm, Nat.mul_add_div hd, Nat.div_eq_of_lt hR, Nat.add_zero]
  · rw [Nat.mul_comm, Nat.mul_add_mod, Nat.mod_eq_of_lt hR]

theorem or_eq_add {a b k : Nat} (ha : a < 2 ^ k) (hb : 2 ^ k ∣ b) : a ||| b = a + b := by
  obtain ⟨c, rfl⟩ := hb
  rw [Nat.mul_comm, ← Nat.shiftLeft_eq, Nat.or_comm, ← Nat.shiftLeft_add_eq_or_of_lt ha, Nat.add_comm]

theorem or_eq_add' {a b k : Nat} (ha : a < 2 ^ k) (hb : 2 ^ k ∣ b) : b ||| a = a + b := by
  rw [Nat.or_comm, or_eq_add ha hb]

theorem ne_zero_toNat {w} {x : BitVec w} (h : x ≠ 0#w) : x.toNat ≠ 0 := by
  intro e; apply h; apply BitVec.eq_of_toNat_eq; simpa using e

theorem toNat_ne_zero {w} {x : BitVec w} (h : x.toNat ≠ 0) : x ≠ 0#w := by
  rintro rfl; simp at h

theorem nativeDivRem_spec {w} : IsDivRem (nativeDivRem (w := w)) := by
  intro a b hb
  refine ⟨(a / b, a % b), ?_, ?_⟩
  · have := toNat_ne_zero hb
    simp [nativeDivRem, this]
  · simp

/-! ### Sign bit of a difference -/

theorem sub_msb_of_le {w} {a b : BitVec w} (h : b.toNat ≤ a.toNat) (hs : a.toNat - b.toNat < 2 ^ (w - 1)) :
    (a - b).msb = false := by
  rw [BitVec.msb_eq_decide, BitVec.toNat_sub_of_le h]
  simp; omega

theorem sub_msb_of_lt {w} {a b : BitVec w} (h : a.toNat < b.toNat) (hs : b.toNat - a.toNat ≤ 2 ^ (w - 1)) :
    (a - b).msb = true := by
  have hw : 0 < w := by
    rcases Nat.eq_zero_or_pos w with rfl | h0
    · have := b.isLt; simp at this; omega
    · exact h0
  have e : 2 ^ w = 2 ^ (w - 1) + 2 ^ (w - 1) := by
    obtain ⟨m, rfl⟩ : ∃ m, w = m + 1 := ⟨w - 1, by omega⟩
    simp [Nat.pow_succ]; omega
  have hb := b.isLt
  rw [BitVec.msb_eq_decide, BitVec.toNat_sub_of_lt h]
  simp; omega

theorem sshiftRight_sign {w} (x : BitVec w) :
    x.sshiftRight (w - 1) = if x.msb then BitVec.allOnes w else 0#w := by
  apply BitVec.eq_of_getLsbD_eq
  intro i hi
  by_cases h0 : i = 0
  · subst h0
    rw [BitVec.getLsbD_sshiftRight]
    have h1 : ¬ (w ≤ 0) := by omega
    have h2 : w - 1 + 0 < w := by omega
    have h3 : x.getLsbD (w - 1) = x.msb := by rw [BitVec.msb_eq_getLsbD_last]
    simp [h1, h3]
    cases hx : x.msb <;> simp [h2, h3, hx]; omega
  · rw [BitVec.getLsbD_sshiftRight]
    have h1 : ¬ (w - 1 + i < w) := by omega
    have h2 : ¬ (w ≤ i) := by omega
    cases hx : x.msb <;> simp [h1, h2, hi]

/-! ### Normalisation shift -/

theorem bitLen_le_of {n k : Nat} (h : n < 2 ^ k) : bitLen n ≤ k := bitLen_le_iff.2 h

theorem bitLen_mono {a b : Nat} (h : a ≤ b) : bitLen a ≤ bitLen b :=
  bitLen_le_of (Nat.lt_of_le_of_lt h (lt_two_pow_bitLen b))

theorem bitLen_mul_pow {a k : Nat} (h : a ≠ 0) : bitLen (a * 2 ^ k) = bitLen a + k := by
  have h1 := two_pow_le_of_bitLen h
  have h2 := lt_two_pow_bitLen a
  have h3 := bitLen_pos h
  obtain ⟨m, hm⟩ : ∃ m, bitLen a = m + 1 := ⟨bitLen a - 1, by omega⟩
  rw [hm] at h1 h2 ⊢
  rw [show m + 1 + k = (m + k) + 1 by omega]
  apply bitLen_unique
  · rw [show m + k + 1 = (m + 1) + k by omega, Nat.pow_add]
    exact Nat.mul_lt_mul_of_pos_right h2 (Nat.two_pow_pos k)
  · rw [Nat.pow_add]
    exact Nat.mul_le_mul_right _ h1

/-- Bisection: fully normalised shift. -/
theorem normBisect_spec {w} (div : BitVec w) (duo : BitVec w) (j : Nat)
    (hj : 2 ^ j < w) (test : BitVec w) (shl : Nat) (ht : test.toNat = duo.toNat / 2 ^ shl)
    (h1 : div.toNat ≤ test.toNat) (h2 : test.toNat < div.toNat * 2 ^ (2 * 2 ^ j)) :
    Ok (normBisect div test shl (2 ^ j))
      (fun r => div.toNat * 2 ^ r ≤ duo.toNat ∧ duo.toNat < div.toNat * 2 ^ (r + 1)) := by
  induction j generalizing test shl with
  | zero =>
    unfold normBisect
    refine Ok.bind (shrC_spec hj) ?_
    intro tmp htmp
    simp only [Nat.pow_zero, Nat.reduceMul, Nat.reduceDiv, if_true] at *
    apply Ok.pure'
    rw [htmp]
    split
    · rename_i h
      simp only []
      have e : test.toNat / 2 = duo.toNat / 2 ^ (shl + 1) := by
        rw [ht, Nat.div_div_eq_div_mul, Nat.pow_succ]
      constructor
      · rw [e] at h
        exact (Nat.le_div_iff_mul_le (Nat.two_pow_pos _)).1 h
      · have : duo.toNat / 2 ^ (shl + 1) < div.toNat * 2 := by rw [← e]; omega
        rw [Nat.div_lt_iff_lt_mul (Nat.two_pow_pos _)] at this
        calc _ < _ := this
          _ = _ := by ring
    · rename_i h
      simp only []
      constructor
      · rw [ht] at h1
        exact (Nat.le_div_iff_mul_le (Nat.two_pow_pos _)).1 h1
      · have : duo.toNat / 2 ^ shl < div.toNat * 2 := by rw [← ht]; omega
        rw [Nat.div_lt_iff_lt_mul (Nat.two_pow_pos _)] at this
        calc _ < _ := this
          _ = _ := by ring
  | succ j ih =>
    unfold normBisect
    refine Ok.bind (shrC_spec hj) ?_
    intro tmp htmp
    have e1 : 2 ^ (j + 1) / 2 = 2 ^ j := by rw [Nat.pow_succ]; omega
    have e2 : 2 ^ j ≠ 0 := Nat.ne_of_gt (Nat.two_pow_pos _)
    have hj' : 2 ^ j < w := by rw [Nat.pow_succ] at hj; omega
    have e3 : 2 * 2 ^ j = 2 ^ (j + 1) := by ring
    simp only [e1, e2, if_false]
    split
    · rename_i h
      simp only []
      apply ih hj'
      · rw [htmp, ht, Nat.div_div_eq_div_mul, ← Nat.pow_add]
      · exact h
      · rw [htmp, Nat.div_lt_iff_lt_mul (Nat.two_pow_pos _), e3]
        calc _ < _ := h2
          _ = _ := by rw [Nat.mul_assoc, ← Nat.pow_add]; congr 2; ring
    · rename_i h
      simp only []
      apply ih hj' _ _ ht h1
      rw [htmp, Nat.not_le, Nat.div_lt_iff_lt_mul (Nat.two_pow_pos _)] at h
      rw [e3]; exact h

theorem lt_of_mul_pow_lt {a d r w : Nat} (hd : d ≠ 0) (h : d * 2 ^ r ≤ a) (ha : a < 2 ^ w) : r < w := by
  by_contra hc
  have := Nat.pow_le_pow_right (n := 2) (by omega) (Nat.not_lt.1 hc)
  have h2 : 1 * 2 ^ r ≤ d * 2 ^ r := Nat.mul_le_mul_right _ (by omega)
  omega

/-- Full normalisation. -/
theorem normShift_full {w k : Nat} (hwk : w = 2 ^ (k + 1)) (useLz : Bool) (duo div : BitVec w) (hd : div.toNat ≠ 0)
    (hle : div.toNat ≤ duo.toNat) :
    Ok (normShift useLz duo div true)
      (fun r => div.toNat * 2 ^ r ≤ duo.toNat ∧ duo.toNat < div.toNat * 2 ^ (r + 1)) := by
  have hw := duo.isLt
  unfold normShift
  split
  · have hb := bitLen_mono hle
    have hb1 := bitLen_le_width duo
    have hb2 := bitLen_le_width div
    refine Ok.bind (nsubC_spec (by simp only [nlz]; omega)) ?_
    intro shl hshl
    have hs : bitLen div.toNat + shl = bitLen duo.toNat := by simp only [nlz] at hshl; omega
    have hdp := bitLen_pos hd
    simp only [if_true]
    refine Ok.bind (shlC_spec (by omega)) ?_
    intro d hd'
    have hlt : div.toNat * 2 ^ shl < 2 ^ bitLen duo.toNat := by
      rw [← hs, Nat.pow_add]
      exact Nat.mul_lt_mul_of_pos_right (lt_two_pow_bitLen _) (Nat.two_pow_pos _)
    have hlt2 : 2 ^ bitLen duo.toNat ≤ 2 ^ w := Nat.pow_le_pow_right (by omega) hb1
    rw [Nat.mod_eq_of_lt (by omega)] at hd'
    have hup : duo.toNat < div.toNat * 2 ^ (shl + 1) := by
      have h1 := two_pow_le_of_bitLen hd
      calc duo.toNat < 2 ^ bitLen duo.toNat := lt_two_pow_bitLen _
        _ = 2 ^ (bitLen div.toNat - 1) * 2 ^ (shl + 1) := by rw [← Nat.pow_add]; congr 1; omega
        _ ≤ _ := Nat.mul_le_mul_right _ h1
    split
    · rename_i h
      rw [hd'] at h
      have hs0 : shl ≠ 0 := by rintro rfl; simp at h; omega
      refine Ok.mono (nsubC_spec (by omega)) ?_
      rintro r rfl
      obtain ⟨m, rfl⟩ : ∃ m, shl = m + 1 := ⟨shl - 1, by omega⟩
      simp only [Nat.add_sub_cancel]
      refine ⟨?_, h⟩
      have h2 := two_pow_le_of_bitLen (n := duo.toNat) (by omega)
      have h3 := lt_two_pow_bitLen div.toNat
      calc div.toNat * 2 ^ m ≤ 2 ^ bitLen div.toNat * 2 ^ m := Nat.mul_le_mul_right _ (by omega)
        _ = 2 ^ (bitLen duo.toNat - 1) := by rw [← Nat.pow_add]; congr 1; omega
        _ ≤ _ := h2
    · rename_i h
      rw [hd'] at h
      exact Ok.pure' ⟨by omega, hup⟩
  · have e : w / 2 = 2 ^ k := by rw [hwk, Nat.pow_succ]; omega
    rw [e]
    apply normBisect_spec div duo k (by rw [hwk, Nat.pow_succ]; have := Nat.two_pow_pos k; omega)
    · simp
    · exact hle
    · rw [show 2 * 2 ^ k = w by rw [hwk]; ring]
      have : 1 * 2 ^ w ≤ div.toNat * 2 ^ w := Nat.mul_le_mul_right _ (by omega)
      omega

/-- Without full normalisation only the alignment of the most significant bits is known. -/
theorem normShift_half {w k : Nat} (hwk : w = 2 ^ (k + 1)) (useLz : Bool) (duo div : BitVec w) (hd : div.toNat ≠ 0)
    (hle : div.toNat ≤ duo.toNat) :
    Ok (normShift useLz duo div false)
      (fun r => bitLen div.toNat + r ≤ bitLen duo.toNat ∧ duo.toNat < div.toNat * 2 ^ (r + 1)) := by
  by_cases hu : useLz = true
  · subst hu
    have hb := bitLen_mono hle
    have hb1 := bitLen_le_width duo
    have hb2 := bitLen_le_width div
    unfold normShift
    simp only [if_true]
    refine Ok.bind (nsubC_spec (by simp only [nlz]; omega)) ?_
    intro shl hshl
    have hs : bitLen div.toNat + shl = bitLen duo.toNat := by simp only [nlz] at hshl; omega
    have hdp := bitLen_pos hd
    apply Ok.pure'
    refine ⟨by omega, ?_⟩
    have h1 := two_pow_le_of_bitLen hd
    calc duo.toNat < 2 ^ bitLen duo.toNat := lt_two_pow_bitLen _
      _ = 2 ^ (bitLen div.toNat - 1) * 2 ^ (shl + 1) := by rw [← Nat.pow_add]; congr 1; omega
      _ ≤ _ := Nat.mul_le_mul_right _ h1
  · have hu : useLz = false := by simpa using hu
    subst hu
    have := normShift_full hwk false duo div hd hle
    have e : normShift false duo div false = normShift false duo div true := rfl
    rw [e]
    refine Ok.mono this ?_
    intro r hr
    refine ⟨?_, hr.2⟩
    rw [← bitLen_mul_pow hd]
    exact bitLen_mono hr.1

end Verif
