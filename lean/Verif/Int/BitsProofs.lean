import Verif.Int.Bits
import Verif.Int.Lz
/-! Helper lemmas for leading/trailing zeros and byte swaps. -/
namespace Verif

theorem lzStep_spec {w} {k : Nat} (hk : k < w) {x : BitVec w} {z : Nat} (hx : x.toNat < 2 ^ (k + k))
    (hz : bitLen x.toNat ≤ z) :
    Ok (lzStep k x z) (fun r => r.1.toNat < 2 ^ k ∧ bitLen r.1.toNat ≤ r.2 ∧
      r.2 - bitLen r.1.toNat = z - bitLen x.toNat) := by
  unfold lzStep
  refine Ok.bind (shrC_spec hk) ?_
  intro t ht
  have hp := Nat.two_pow_pos k
  have hne : t ≠ 0#w ↔ 2 ^ k ≤ x.toNat := by
    rw [← Nat.one_mul (2 ^ k), ← Nat.le_div_iff_mul_le hp, ← ht]
    constructor
    · intro h; apply Nat.pos_of_ne_zero; intro e; exact h (BitVec.eq_of_toNat_eq (by simpa using e))
    · intro h e; subst e; simp at h
  split
  · rename_i h
    have hle := hne.1 h
    have hb := bitLen_div hle
    rw [← ht] at hb
    refine Ok.bind (nsubC_spec (by omega)) ?_
    rintro z' rfl
    apply Ok.pure'
    refine ⟨?_, by simp only; omega, by simp only; omega⟩
    simp only [ht]
    rw [Nat.pow_add] at hx
    exact Nat.div_lt_of_lt_mul hx
  · rename_i h
    apply Ok.pure'
    refine ⟨?_, hz, rfl⟩
    have : ¬ 2 ^ k ≤ x.toNat := fun h' => h (hne.2 h')
    simp only; omega

theorem bitLen_one : bitLen 1 = 1 := by decide
theorem bitLen_two_three {n : Nat} (h1 : 2 ≤ n) (h2 : n < 4) : bitLen n = 2 :=
  bitLen_unique (k := 1) (by simpa using h2) (by simpa using h1)

theorem leadingZerosDefault_eq {w} (hw : w = 16 ∨ w = 32 ∨ w = 64) (x : BitVec w) :
    leadingZerosDefault x = .ok (nlz x) := by
  apply Ok.eq
  have hx := x.isLt
  have hbl := bitLen_le_width x
  unfold leadingZerosDefault
  refine Ok.bind (assertC_spec (by simp; omega)) ?_
  intro _ _
  refine Ok.bind (P := fun r : BitVec w × Nat => r.1.toNat < 2 ^ 32 ∧ bitLen r.1.toNat ≤ r.2 ∧ (w < 32 → r.1.toNat < 2 ^ 16) ∧
      r.2 - bitLen r.1.toNat = nlz x) ?_ ?_
  · split
    · refine (lzStep_spec (by omega) (Nat.lt_of_lt_of_le hx (Nat.pow_le_pow_right (by omega) (by omega))) hbl).mono ?_
      rintro r ⟨h1, h2, h3⟩
      exact ⟨h1, h2, by omega, h3⟩
    · apply Ok.pure'
      refine ⟨Nat.lt_of_lt_of_le hx (Nat.pow_le_pow_right (by omega) (by omega)), hbl, ?_, rfl⟩
      intro h; exact Nat.lt_of_lt_of_le hx (Nat.pow_le_pow_right (by omega) (by omega))
  rintro ⟨x1, z1⟩ ⟨hx1, hz1, hs1, he1⟩
  refine Ok.bind (P := fun r : BitVec w × Nat => r.1.toNat < 2 ^ 16 ∧ bitLen r.1.toNat ≤ r.2 ∧
      r.2 - bitLen r.1.toNat = nlz x) ?_ ?_
  · split
    · refine (lzStep_spec (by omega) hx1 hz1).mono ?_
      rintro r ⟨h1, h2, h3⟩
      exact ⟨h1, h2, by rw [h3]; exact he1⟩
    · exact Ok.pure' ⟨hs1 (by omega), hz1, he1⟩
  rintro ⟨x2, z2⟩ ⟨hx2, hz2, he2⟩
  refine Ok.bind (assertC_spec (by simp; omega)) ?_
  intro _ _
  refine Ok.bind (lzStep_spec (by omega) hx2 hz2) ?_
  rintro ⟨x3, z3⟩ ⟨hx3, hz3, he3⟩
  refine Ok.bind (lzStep_spec (by omega) hx3 hz3) ?_
  rintro ⟨x4, z4⟩ ⟨hx4, hz4, he4⟩
  refine Ok.bind (lzStep_spec (by omega) hx4 hz4) ?_
  rintro ⟨x5, z5⟩ ⟨hx5, hz5, he5⟩
  simp only at *
  refine Ok.bind (shrC_spec (by omega)) ?_
  intro t ht
  split
  · rename_i hne
    have : t.toNat ≠ 0 := fun e => hne (BitVec.eq_of_toNat_eq (by simpa using e))
    have hb := bitLen_two_three (n := x5.toNat) (by omega) (by omega)
    refine (nsubC_spec (by omega)).mono ?_
    rintro r rfl; omega
  · rename_i hne
    have : t.toNat = 0 := by
      have : t = 0#w := by simpa using hne
      simp [this]
    have hb : bitLen x5.toNat = x5.toNat := by
      have : x5.toNat = 0 ∨ x5.toNat = 1 := by omega
      rcases this with h | h <;> rw [h] <;> decide
    refine (nsubC_spec (by omega)).mono ?_
    rintro r rfl; omega

theorem lzCondStep_spec {w} {j : Nat} (hk : 2 ^ j < w) {x : BitVec w} {z : Nat}
    (hx : x.toNat < 2 ^ (2 ^ j + 2 ^ j)) (hz : bitLen x.toNat ≤ z) :
    Ok (lzCondStep j x z) (fun r => r.1.toNat < 2 ^ 2 ^ j ∧ bitLen r.1.toNat ≤ r.2 ∧
      r.2 - bitLen r.1.toNat = z - bitLen x.toNat) := by
  unfold lzCondStep
  have hjp := Nat.two_pow_pos j
  refine Ok.bind (shlC_spec hk) ?_
  intro bound hbound
  have hb1 : bound.toNat = 2 ^ 2 ^ j := by
    rw [hbound]
    simp only [BitVec.toNat_ofNat]
    rw [Nat.mod_eq_of_lt (a := 1) (Nat.one_lt_two_pow (by omega)), Nat.one_mul]
    exact Nat.mod_eq_of_lt (Nat.pow_lt_pow_right (by omega) hk)
  simp only [hb1]
  by_cases h : 2 ^ 2 ^ j ≤ x.toNat
  · simp only [h, if_true, Nat.shiftLeft_eq, Nat.one_mul]
    refine Ok.bind (shrC_spec hk) ?_
    intro t ht
    have hb := bitLen_div h
    rw [← ht] at hb
    refine Ok.bind (nsubC_spec (by omega)) ?_
    rintro z' rfl
    apply Ok.pure'
    refine ⟨?_, by simp only; omega, by simp only; omega⟩
    simp only [ht]
    rw [Nat.pow_add] at hx
    exact Nat.div_lt_of_lt_mul hx
  · simp only [h, if_false, Nat.shiftLeft_eq, Nat.zero_mul]
    refine Ok.bind (shrC_spec (by omega)) ?_
    intro t ht
    refine Ok.bind (nsubC_spec (by omega)) ?_
    rintro z' rfl
    apply Ok.pure'
    simp at ht
    refine ⟨?_, ?_, ?_⟩ <;> simp only [ht] <;> omega

theorem leadingZerosCondset_eq {w} (hw : w = 16 ∨ w = 32 ∨ w = 64) (x : BitVec w) :
    leadingZerosCondset x = .ok (nlz x) := by
  apply Ok.eq
  have hx := x.isLt
  have hbl := bitLen_le_width x
  unfold leadingZerosCondset
  refine Ok.bind (assertC_spec (by simp; omega)) ?_
  intro _ _
  refine Ok.bind (P := fun r : BitVec w × Nat => r.1.toNat < 2 ^ 32 ∧ bitLen r.1.toNat ≤ r.2 ∧ (w < 32 → r.1.toNat < 2 ^ 16) ∧
      r.2 - bitLen r.1.toNat = nlz x) ?_ ?_
  · split
    · refine (lzCondStep_spec (by omega) (Nat.lt_of_lt_of_le hx (Nat.pow_le_pow_right (by omega) (by omega))) hbl).mono ?_
      rintro r ⟨h1, h2, h3⟩
      exact ⟨h1, h2, by omega, h3⟩
    · apply Ok.pure'
      refine ⟨Nat.lt_of_lt_of_le hx (Nat.pow_le_pow_right (by omega) (by omega)), hbl, ?_, rfl⟩
      intro h; exact Nat.lt_of_lt_of_le hx (Nat.pow_le_pow_right (by omega) (by omega))
  rintro ⟨x1, z1⟩ ⟨hx1, hz1, hs1, he1⟩
  refine Ok.bind (P := fun r : BitVec w × Nat => r.1.toNat < 2 ^ 16 ∧ bitLen r.1.toNat ≤ r.2 ∧
      r.2 - bitLen r.1.toNat = nlz x) ?_ ?_
  · split
    · refine (lzCondStep_spec (by omega) hx1 hz1).mono ?_
      rintro r ⟨h1, h2, h3⟩
      exact ⟨h1, h2, by rw [h3]; exact he1⟩
    · exact Ok.pure' ⟨hs1 (by omega), hz1, he1⟩
  rintro ⟨x2, z2⟩ ⟨hx2, hz2, he2⟩
  refine Ok.bind (assertC_spec (by simp; omega)) ?_
  intro _ _
  refine Ok.bind (lzCondStep_spec (by omega) hx2 hz2) ?_
  rintro ⟨x3, z3⟩ ⟨hx3, hz3, he3⟩
  refine Ok.bind (lzCondStep_spec (by omega) hx3 hz3) ?_
  rintro ⟨x4, z4⟩ ⟨hx4, hz4, he4⟩
  refine Ok.bind (lzCondStep_spec (by omega) hx4 hz4) ?_
  rintro ⟨x5, z5⟩ ⟨hx5, hz5, he5⟩
  refine Ok.bind (lzCondStep_spec (by omega) hx5 hz5) ?_
  rintro ⟨x6, z6⟩ ⟨hx6, hz6, he6⟩
  simp only at *
  have hb : bitLen x6.toNat = x6.toNat := by
    have : x6.toNat = 0 ∨ x6.toNat = 1 := by omega
    rcases this with h | h <;> rw [h] <;> decide
  refine (nsubC_spec (by omega)).mono ?_
  rintro r rfl; omega

theorem clzti2_eq (c : Bool) (x : BitVec 128) : clzti2 c x = .ok (nlz x) := by
  have hd : ∀ y : BitVec 64, clzdi2 c y = .ok (nlz y) := by
    intro y; unfold clzdi2
    cases c
    · simpa using leadingZerosDefault_eq (by omega) y
    · simpa using leadingZerosCondset_eq (by omega) y
  apply Ok.eq
  unfold clzti2
  refine Ok.bind (shrC_spec (by omega)) ?_
  intro s hs
  have hx := x.isLt
  have hsw : (s.setWidth 64).toNat = x.toNat / 2 ^ 64 := by
    simp only [BitVec.toNat_setWidth, hs]; omega
  simp only
  split
  · rename_i h0
    rw [hd]
    apply Ok.pure'
    have h1 : x.toNat / 2 ^ 64 = 0 := by rw [← hsw, h0]; rfl
    have h2 : (x.setWidth 64).toNat = x.toNat := by simp only [BitVec.toNat_setWidth]; omega
    have := bitLen_le_width (x.setWidth 64)
    simp only [nlz]; rw [h2] at *; omega
  · rename_i h0
    rw [hd]
    apply Ok.pure
    have h1 : x.toNat / 2 ^ 64 ≠ 0 := fun e => h0 (BitVec.eq_of_toNat_eq (by rw [hsw, e]; rfl))
    have := bitLen_div (n := x.toNat) (k := 64) (by omega)
    have := bitLen_le_width x
    simp only [nlz]; rw [hsw]; omega

/-- The trailing zero count as a predicate on numbers. -/
def IsTz (w n r : Nat) : Prop := r ≤ w ∧ n % 2 ^ r = 0 ∧ (r < w → n / 2 ^ r % 2 = 1)

theorem tzTail_all : ∀ x : BitVec 8, (match tzTail x 0 with
    | .ok r => decide (r ≤ 8) && decide (x.toNat % 2 ^ r = 0) && (decide (8 ≤ r) || decide (x.toNat / 2 ^ r % 2 = 1))
    | .error _ => false) = true := by
  decide +kernel

theorem tzTail_shift (x : BitVec 8) (r : Nat) :
    tzTail x r = (do let t ← tzTail x 0; pure (r + t)) := by
  unfold tzTail
  simp only [Nat.zero_add]
  generalize shrC x _ = a
  cases a
  · rfl
  · rename_i a
    simp only [ok_bind]
    generalize shrC a _ = b
    cases b
    · rfl
    · simp only [ok_bind]
      generalize nsubC _ _ = c
      cases c
      · rfl
      · simp only [ok_bind]
        show Except.ok _ = Except.ok _
        congr 1; omega

theorem tzTail_spec (x : BitVec 8) (r : Nat) :
    Ok (tzTail x r) (fun s => ∃ t, s = r + t ∧ IsTz 8 x.toNat t) := by
  have h := tzTail_all x
  rw [tzTail_shift]
  cases ht : tzTail x 0 with
  | error e => rw [ht] at h; simp at h
  | ok t =>
    rw [ht] at h
    simp at h
    refine Ok.pure' ⟨t, rfl, h.1.1, h.1.2, ?_⟩
    omega

theorem tzStep_spec {w} {k : Nat} (hk : k < w) (x : BitVec w) (r : Nat) :
    Ok (tzStep k x r) (fun p => ∃ t, p.2 = r + t ∧ p.1.toNat = x.toNat / 2 ^ t ∧
      x.toNat % 2 ^ t = 0 ∧ (t = k ∨ (t = 0 ∧ x.toNat % 2 ^ k ≠ 0))) := by
  unfold tzStep
  have e : x.setWidth k = 0#k ↔ x.toNat % 2 ^ k = 0 := by
    constructor
    · intro h
      have := congrArg BitVec.toNat h
      simpa using this
    · intro h; apply BitVec.eq_of_toNat_eq; simpa using h
  by_cases h : x.toNat % 2 ^ k = 0
  · simp only [e.2 h, if_true]
    refine Ok.bind (shrC_spec hk) ?_
    intro t ht
    exact Ok.pure' ⟨k, rfl, ht, h, Or.inl rfl⟩
  · have h' : ¬ (x.setWidth k = 0#k) := fun h' => h (e.1 h')
    simp only [h', if_false]
    refine Ok.bind (shrC_spec (by omega)) ?_
    intro t ht
    exact Ok.pure' ⟨0, rfl, ht, by simp [Nat.mod_one], Or.inr ⟨rfl, h⟩⟩

/-- Composing a known run of `t` zero bits with the count for the rest. -/
theorem IsTz.shift {w n t r : Nat} (h0 : n % 2 ^ t = 0) (h : IsTz w (n / 2 ^ t) r) :
    IsTz (w + t) n (t + r) := by
  obtain ⟨h1, h2, h3⟩ := h
  refine ⟨by omega, ?_, ?_⟩
  · rw [Nat.pow_add, Nat.mod_mul, h0, h2, Nat.mul_zero]
  · intro hr
    rw [Nat.pow_add, ← Nat.div_div_eq_div_mul]
    exact h3 (by omega)

/-- A count for the low `k` bits is a count for everything if the low `k` bits are not all zero. -/
theorem IsTz.of_low {w k n r : Nat} (hk : k ≤ w) (hne : n % 2 ^ k ≠ 0)
    (h : IsTz k (n % 2 ^ k) r) : IsTz w n r := by
  obtain ⟨h1, h2, h3⟩ := h
  have hrk : r < k := by
    rcases Nat.lt_or_ge r k with h | h
    · exact h
    · exfalso
      apply hne
      have e : r = k := by omega
      rw [e] at h2
      simpa using h2
  refine ⟨by omega, ?_, ?_⟩
  · rw [Nat.mod_mod_of_dvd _ (Nat.pow_dvd_pow 2 (by omega))] at h2
    exact h2
  · intro _
    have h4 := h3 hrk
    have h5 : (n % 2 ^ k).testBit r = n.testBit r := by
      rw [Nat.testBit_mod_two_pow]; simp [hrk]
    rw [Nat.testBit_eq_decide_div_mod_eq, Nat.testBit_eq_decide_div_mod_eq] at h5
    simpa [h4] using h5

theorem IsTz.combine {k n t r : Nat} (h0 : n % 2 ^ t = 0)
    (ht : t = k ∨ (t = 0 ∧ n % 2 ^ k ≠ 0)) (h : IsTz k (n / 2 ^ t % 2 ^ k) r) :
    IsTz (k + k) (n % 2 ^ (k + k)) (t + r) := by
  rcases ht with rfl | ⟨rfl, hne⟩
  · apply IsTz.shift
    · rw [Nat.mod_mod_of_dvd _ (Nat.pow_dvd_pow 2 (by omega))]; exact h0
    · rw [Nat.pow_add, Nat.mod_mul_right_div_self]; exact h
  · have e : n % 2 ^ (k + k) % 2 ^ k = n % 2 ^ k :=
      Nat.mod_mod_of_dvd _ (Nat.pow_dvd_pow 2 (by omega))
    rw [Nat.zero_add]
    apply IsTz.of_low (k := k) (by omega)
    · rw [e]; exact hne
    · rw [e]; simpa using h

theorem trailingZeros_spec {w} (hw : w = 16 ∨ w = 32 ∨ w = 64) (x : BitVec w) :
    Ok (trailingZeros x) (fun r => IsTz w x.toNat r) := by
  have hx := x.isLt
  unfold trailingZeros
  refine Ok.bind (assertC_spec (by simp; omega)) ?_
  intro _ _
  refine Ok.bind (P := fun p : BitVec w × Nat =>
    ∀ r, IsTz (min w 32) (p.1.toNat % 2 ^ (min w 32)) r → IsTz w x.toNat (p.2 + r)) ?_ ?_
  · split
    · have e : w = 64 := by omega
      subst e
      refine (tzStep_spec (by omega) x 0).mono ?_
      rintro ⟨y, q⟩ ⟨t, h1, h2, h3, h4⟩ r hr
      simp only at h1 h2 hr ⊢
      subst h1
      rw [h2] at hr
      have := IsTz.combine h3 h4 hr
      rw [Nat.mod_eq_of_lt hx] at this
      simpa using this
    · apply Ok.pure'
      intro r hr
      have e : min w 32 = w := by omega
      simp only [e] at hr
      rw [Nat.mod_eq_of_lt hx] at hr
      simpa using hr
  rintro ⟨x1, r1⟩ h1
  refine Ok.bind (P := fun p : BitVec w × Nat =>
    ∀ r, IsTz 16 (p.1.toNat % 2 ^ 16) r → IsTz w x.toNat (p.2 + r)) ?_ ?_
  · split
    · have e : min w 32 = 32 := by omega
      rw [e] at h1
      refine (tzStep_spec (by omega) x1 r1).mono ?_
      rintro ⟨y, q⟩ ⟨t, h2, h3, h4, h5⟩ r hr
      simp only at h1 h2 h3 hr ⊢
      subst h2
      rw [h3] at hr
      rw [Nat.add_assoc]
      exact h1 _ (IsTz.combine h4 h5 hr)
    · have e : min w 32 = 16 := by omega
      rw [e] at h1
      exact Ok.pure' h1
  rintro ⟨x2, r2⟩ h2
  refine Ok.bind (assertC_spec (by simp; omega)) ?_
  intro _ _
  refine Ok.bind (tzStep_spec (by omega) x2 r2) ?_
  rintro ⟨x3, r3⟩ ⟨t, h3, h4, h5, h6⟩
  refine (tzTail_spec (x3.setWidth 8) r3).mono ?_
  rintro s ⟨u, rfl, hu⟩
  simp only at h3 h4 h2
  simp only [BitVec.toNat_setWidth, h4] at hu
  subst h3
  rw [Nat.add_assoc]
  exact h2 _ (IsTz.combine h5 h6 hu)

theorem ctzti2_spec (x : BitVec 128) : Ok (ctzti2 x) (fun r => IsTz 128 x.toNat r) := by
  have hx := x.isLt
  unfold ctzti2
  simp only
  split
  · rename_i h0
    have h1 : x.toNat % 2 ^ 64 = 0 := by
      have := congrArg BitVec.toNat h0; simpa using this
    refine Ok.bind (shrC_spec (by omega)) ?_
    intro s hs
    refine Ok.bind (trailingZeros_spec (by omega) _) ?_
    intro r hr
    apply Ok.pure'
    have e : (s.setWidth 64).toNat = x.toNat / 2 ^ 64 := by
      simp only [BitVec.toNat_setWidth, hs]; omega
    rw [e] at hr
    exact IsTz.shift h1 hr
  · rename_i h0
    have h1 : x.toNat % 2 ^ 64 ≠ 0 := by
      intro h; apply h0; apply BitVec.eq_of_toNat_eq; simpa using h
    refine (trailingZeros_spec (by omega) _).mono ?_
    intro r hr
    apply IsTz.of_low (k := 64) (by omega) h1
    simpa using hr

/-! ### Byte swap -/

theorem swapBytes_getLsbD {w : Nat} (n m : Nat) (x acc : BitVec w) (hw : w = 8 * (n + m))
    (hacc : ∀ j, 8 * m ≤ j → acc.getLsbD j = false) (j : Nat) :
    (swapBytes n x acc).getLsbD j =
      if j < 8 * n then x.getLsbD (8 * (n - 1 - j / 8) + j % 8)
      else (decide (j < w) && acc.getLsbD (j - 8 * n)) := by
  induction n generalizing m x acc with
  | zero =>
    simp [swapBytes]
    intro h; have := acc.getLsbD_of_ge j
    by_cases hj : j < w
    · exact hj
    · rw [this (by omega)] at h; simp at h
  | succ n ih =>
    have hff : ∀ i, (0xFF#w).getLsbD i = decide (i < 8) := by
      intro i
      rw [BitVec.getLsbD_ofNat, show (255 : Nat) = 2 ^ 8 - 1 by rfl, Nat.testBit_two_pow_sub_one]
      by_cases h : i < 8
      · have : i < w := by omega
        simp [h, this]
      · simp [h]
    rw [swapBytes, ih (m + 1) _ _ (by omega)]
    · simp only [BitVec.getLsbD_or, BitVec.getLsbD_and, BitVec.getLsbD_shiftLeft, hff,
        BitVec.getLsbD_ushiftRight]
      by_cases h1 : j < 8 * n
      · have h2 : j < 8 * (n + 1) := by omega
        have h3 : 8 + (8 * (n - 1 - j / 8) + j % 8) = 8 * (n + 1 - 1 - j / 8) + j % 8 := by omega
        simp only [h1, h2, h3, if_true]
      · simp only [h1, if_false]
        by_cases h2 : j < 8 * (n + 1)
        · have h3 : j - 8 * n < 8 := by omega
          have h4 : j < w := by omega
          have h5 : 8 * (n + 1 - 1 - j / 8) + j % 8 = j - 8 * n := by omega
          simp only [h2, if_true, h5]; simp [h3, h4]
        · have h3 : ¬ j - 8 * n < 8 := by omega
          have h5 : j - 8 * n - 8 = j - 8 * (n + 1) := by omega
          simp only [h2, h3, if_false, h5]
          by_cases h4 : j < w
          · have : j - 8 * n < w := by omega
            simp [h4, this]
          · simp [h4]
    · intro j hj
      simp only [BitVec.getLsbD_or, BitVec.getLsbD_and, BitVec.getLsbD_shiftLeft, hff]
      have h1 : ¬ j < 8 := by omega
      simp [h1, hacc (j - 8) (by omega)]

theorem bswap_getLsbD (n : Nat) (x : BitVec (8 * n)) (j : Nat) (hj : j < 8 * n) :
    (bswap n x).getLsbD j = x.getLsbD (8 * (n - 1 - j / 8) + j % 8) := by
  rw [bswap, swapBytes_getLsbD n 0 x 0#_ (by omega) (by simp)]
  simp [hj]

end Verif
