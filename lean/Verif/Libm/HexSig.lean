import Verif.Libm.HexFloat
import Verif.Libm.HexRound
import Verif.Float.AddProofs
import Mathlib.Tactic.IntervalCases
/-! Rounding the significand: proofs about `shr_odd_rounding`, `shr2_round` and their use. -/
namespace Verif
open HexSpec

/-- the rounding of the magnitude -/
def Round.dir : Round → Dir
  | .nearest => .nearest
  | .negative => .down
  | .zero => .down
  | .positive => .up

/-- `P` is `u`, or, if that is no integer, an odd neighbour of it -/
def OddOf (u : ℚ) (P : Nat) : Prop := u = P ∨ ∃ T : Nat, (T : ℚ) < u ∧ u < T + 1 ∧ P = T / 2 * 2 + 1

/-- what `parse_hex` delivers: the exact significand, or one with a sticky last bit far below the rounding position -/
def Sticky (v : ℚ) (n : Nat) : Prop :=
  v = n ∨ ∃ T : Nat, 2 ^ 124 ≤ T ∧ (T : ℚ) < v ∧ v < T + 1 ∧ n = T / 2 * 2 + 1

theorem Sticky.odd {v : ℚ} {n : Nat} (h : Sticky v n) : OddOf v n := by
  rcases h with h | ⟨T, _, h1, h2, h3⟩
  · exact Or.inl h
  · exact Or.inr ⟨T, h1, h2, h3⟩

theorem or_one' (n : Nat) : n ||| 1 = n / 2 * 2 + 1 := by
  rw [or_one]; split <;> omega

theorem tz128_lt_iff {x : BitVec 128} {k : Nat} (hk : k ≤ 128) : tz128 x < k ↔ x.toNat % 2 ^ k ≠ 0 := by
  have key : x.toNat % 2 ^ k ≠ 0 ↔ ∃ i, i < k ∧ x.getLsbD i = true := by
    constructor
    · intro h
      by_contra hc
      apply h
      apply Nat.eq_of_testBit_eq
      intro i
      rw [Nat.testBit_mod_two_pow, Nat.zero_testBit]
      by_cases hi : i < k
      · have : x.getLsbD i = false := by
          by_contra h2
          exact hc ⟨i, hi, by simpa using h2⟩
        rw [BitVec.getLsbD] at this
        simp [this]
      · simp [hi]
    · rintro ⟨i, hi, h⟩ h0
      have : (x.toNat % 2 ^ k).testBit i = true := by
        rw [Nat.testBit_mod_two_pow]
        rw [BitVec.getLsbD] at h
        simp [hi, h]
      rw [h0, Nat.zero_testBit] at this
      exact absurd this (by simp)
  rw [key]
  unfold tz128
  cases hf : (List.range 128).find? (fun i => x.getLsbD i) with
  | none =>
    rw [List.find?_eq_none] at hf
    simp only [Option.getD_none]
    constructor
    · intro h; omega
    · rintro ⟨i, hi, h⟩
      exact absurd h (hf i (List.mem_range.mpr (by omega)))
  | some i =>
    simp only [Option.getD_some]
    have h1 := List.find?_some hf
    constructor
    · intro h; exact ⟨i, h, h1⟩
    · rintro ⟨j, hj, h⟩
      by_contra hge
      have := List.find?_eq_some_iff_getElem.mp hf
      obtain ⟨_, m, hm, hm', hlt⟩ := this
      have e1 : m = i := by simpa using hm'
      subst e1
      have := hlt j (by omega)
      simp [h] at this

theorem shrOdd_spec {x : BitVec 128} {v : ℚ} {k : Nat} (hv : Sticky v x.toNat) (hx : x ≠ 0#128) (hk : 1 ≤ k) :
    Ok (shrOddRounding x k) (fun r => OddOf (v / 2 ^ k) r.toNat) := by
  have hx0 : x.toNat ≠ 0 := fun h => hx (BitVec.eq_of_toNat_eq h)
  have hp : 0 < 2 ^ k := Nat.two_pow_pos _
  have hpq : (0 : ℚ) < 2 ^ k := by positivity
  unfold shrOddRounding
  by_cases hk128 : k < 128
  · rw [if_pos hk128]
    refine Ok.bind (shrC_spec hk128) ?_
    intro t ht
    apply Ok.pure'
    rw [BitVec.toNat_or, ht]
    have hdm := Nat.div_add_mod x.toNat (2 ^ k)
    have hml := Nat.mod_lt x.toNat hp
    rcases hv with hv | ⟨T, hT, h1, h2, h3⟩
    · by_cases hm : x.toNat % 2 ^ k = 0
      · have : ¬ tz128 x < k := by rw [tz128_lt_iff (by omega)]; simp [hm]
        rw [if_neg this]
        left
        have : (0#128).toNat = 0 := rfl
        rw [this, Nat.or_zero, hv, div_eq_iff (ne_of_gt hpq)]
        have : x.toNat = x.toNat / 2 ^ k * 2 ^ k := by rw [Nat.mul_comm]; omega
        exact_mod_cast this
      · have : tz128 x < k := (tz128_lt_iff (by omega)).mpr hm
        rw [if_pos this]
        right
        refine ⟨x.toNat / 2 ^ k, ?_, ?_, ?_⟩
        · rw [hv, lt_div_iff₀ hpq]
          have : x.toNat / 2 ^ k * 2 ^ k < x.toNat := by rw [Nat.mul_comm]; omega
          exact_mod_cast this
        · rw [hv, div_lt_iff₀ hpq]
          have : x.toNat < (x.toNat / 2 ^ k + 1) * 2 ^ k := by rw [Nat.succ_mul, Nat.mul_comm]; omega
          exact_mod_cast this
        · exact or_one' _
    · have hpk : 2 ∣ 2 ^ k := dvd_pow_self 2 (by omega)
      have hm : x.toNat % 2 ^ k ≠ 0 := by
        intro h
        have : 2 ∣ x.toNat := dvd_trans hpk (Nat.dvd_of_mod_eq_zero h)
        omega
      have : tz128 x < k := (tz128_lt_iff (by omega)).mpr hm
      rw [if_pos this]
      right
      have hdiv : x.toNat / 2 ^ k = T / 2 ^ k := by
        obtain ⟨c, rfl⟩ : ∃ c, k = c + 1 := ⟨k - 1, by omega⟩
        rw [Nat.pow_succ, Nat.mul_comm, ← Nat.div_div_eq_div_mul, ← Nat.div_div_eq_div_mul]
        congr 1
        omega
      have hdmT := Nat.div_add_mod T (2 ^ k)
      have hmlT := Nat.mod_lt T hp
      refine ⟨x.toNat / 2 ^ k, ?_, ?_, or_one' _⟩
      · rw [hdiv, lt_div_iff₀ hpq]
        refine lt_of_le_of_lt ?_ h1
        have : T / 2 ^ k * 2 ^ k ≤ T := Nat.div_mul_le_self _ _
        exact_mod_cast this
      · rw [hdiv, div_lt_iff₀ hpq]
        refine lt_of_lt_of_le h2 ?_
        have : T + 1 ≤ (T / 2 ^ k + 1) * 2 ^ k := by rw [Nat.succ_mul, Nat.mul_comm]; omega
        exact_mod_cast this
  · rw [if_neg hk128]
    apply Ok.pure'
    rw [if_pos hx]
    right
    have hv0 : 0 < v ∧ v < 2 ^ 128 := by
      have hlt := x.isLt
      rcases hv with hv | ⟨T, hT, h1, h2, h3⟩
      · rw [hv]
        constructor
        · exact_mod_cast Nat.pos_of_ne_zero hx0
        · exact_mod_cast hlt
      · constructor
        · refine lt_of_le_of_lt ?_ h1; positivity
        · refine lt_of_lt_of_le h2 ?_
          have : T + 1 ≤ 2 ^ 128 := by omega
          exact_mod_cast this
    have hge : (2 : ℚ) ^ 128 ≤ 2 ^ k := pow_le_pow_right₀ (by norm_num) (by omega)
    refine ⟨0, ?_, ?_, rfl⟩
    · have := hv0.1
      rw [Nat.cast_zero]; positivity
    · rw [Nat.cast_zero, zero_add, div_lt_one hpq]
      linarith [hv0.2]

theorem shr2Round_spec {x : BitVec 128} {u : ℚ} {round : Round} (hu : OddOf u x.toNat) :
    Ok (shr2Round x round) (fun r => ∃ up f, u / 4 = ((x.toNat / 4 : Nat) : ℚ) + f ∧ 0 ≤ f ∧ f < 1 ∧
      r.toNat = x.toNat / 4 + up ∧ UpSpec round.dir (x.toNat / 4) f up ∧ (f = 0 ↔ x.toNat % 4 = 0)) := by
  have hx := x.isLt
  -- facts on the fraction
  have hfrac : ∃ f : ℚ, u / 4 = ((x.toNat / 4 : Nat) : ℚ) + f ∧ 0 ≤ f ∧ f < 1 ∧ (f = 0 ↔ x.toNat % 4 = 0) ∧
      (x.toNat % 4 ≤ 1 → f < 1 / 2) ∧ (x.toNat % 4 = 2 → f = 1 / 2) ∧ (x.toNat % 4 = 3 → 1 / 2 < f) := by
    have hdm := Nat.div_add_mod x.toNat 4
    have hml := Nat.mod_lt x.toNat (show 0 < 4 by omega)
    generalize x.toNat / 4 = a at *
    generalize x.toNat % 4 = b at *
    generalize hX : x.toNat = X at *
    subst hdm
    clear hX hx
    refine ⟨u / 4 - a, by ring, ?_⟩
    rcases hu with hu | ⟨T, h1, h2, h3⟩
    · rw [hu]; push_cast
      have : (4 * (a : ℚ) + b) / 4 - a = b / 4 := by ring
      rw [this]
      interval_cases b <;> norm_num
    · have hb : b = 1 ∧ T = 4 * a ∨ b = 1 ∧ T = 4 * a + 1 ∨ b = 3 ∧ T = 4 * a + 2 ∨ b = 3 ∧ T = 4 * a + 3 := by omega
      rcases hb with ⟨rfl, rfl⟩ | ⟨rfl, rfl⟩ | ⟨rfl, rfl⟩ | ⟨rfl, rfl⟩ <;> push_cast at h1 h2 <;>
      refine ⟨by linarith, by linarith, ⟨fun h => by linarith, fun h => by omega⟩, fun h => ?_, fun h => ?_, fun h => ?_⟩ <;>
      linarith
  obtain ⟨f, hf, hf0, hf1, hfz, hfa, hfb, hfc⟩ := hfrac
  unfold shr2Round
  have ht : (x.setWidth 32 &&& 0b111#32).toNat = x.toNat % 8 := by
    rw [BitVec.toNat_and, BitVec.toNat_setWidth, show (0b111#32).toNat = 2 ^ 3 - 1 from rfl, Nat.and_two_pow_sub_one_eq_mod]
    omega
  simp only [ht]
  refine Ok.bind (shrC_spec (by omega)) ?_
  intro y hy
  have hy' : y.toNat = x.toNat / 4 := hy
  have hm8 : x.toNat % 8 = 4 * (x.toNat / 4 % 2) + x.toNat % 4 := by omega
  cases round
  · refine Ok.bind (shrC_spec (by omega)) ?_
    intro r hr
    have hr1 : ((r &&& 1#8).setWidth 128).toNat = r.toNat % 2 := by
      rw [BitVec.toNat_setWidth, BitVec.toNat_and, show (1#8).toNat = 2 ^ 1 - 1 from rfl, Nat.and_two_pow_sub_one_eq_mod]
      omega
    refine (addC_spec ?_).mono ?_
    · rw [hr1, hy']; omega
    · intro z hz
      rw [hr1, hy'] at hz
      refine ⟨r.toNat % 2, f, hf, hf0, hf1, hz, ?_, hfz⟩
      rw [hr, hm8]
      have hb4 : x.toNat % 4 < 4 := Nat.mod_lt _ (by omega)
      have ha2 : x.toNat / 4 % 2 < 2 := Nat.mod_lt _ (by omega)
      show (f < 1 / 2 ∧ _) ∨ (1 / 2 < f ∧ _) ∨ (f = 1 / 2 ∧ _)
      generalize x.toNat / 4 % 2 = a at *
      generalize x.toNat % 4 = b at *
      clear hm8 hz hr hf
      interval_cases b
      · exact Or.inl ⟨hfa (by omega), by interval_cases a <;> rfl⟩
      · exact Or.inl ⟨hfa (by omega), by interval_cases a <;> rfl⟩
      · exact Or.inr (Or.inr ⟨hfb rfl, by interval_cases a <;> rfl⟩)
      · exact Or.inr (Or.inl ⟨hfc rfl, by interval_cases a <;> rfl⟩)
  · exact Ok.pure' ⟨0, f, hf, hf0, hf1, by rw [hy']; rfl, rfl, hfz⟩
  · have hb : x.toNat % 8 &&& 0b11 = x.toNat % 4 := by
      rw [show (0b11 : Nat) = 2 ^ 2 - 1 from rfl, Nat.and_two_pow_sub_one_eq_mod]; omega
    simp only [hb]
    by_cases h0 : x.toNat % 4 = 0
    · rw [if_neg (by simpa using h0)]
      refine (addC_spec (by rw [hy', show (0#128).toNat = 0 from rfl]; omega)).mono ?_
      intro z hz
      exact ⟨0, f, hf, hf0, hf1, by rw [hz, hy']; rfl, Or.inl ⟨hfz.mpr h0, rfl⟩, hfz⟩
    · rw [if_pos h0]
      refine (addC_spec (by rw [hy', show (1#128).toNat = 1 from rfl]; omega)).mono ?_
      intro z hz
      exact ⟨1, f, hf, hf0, hf1, by rw [hz, hy']; rfl, Or.inr ⟨fun h => h0 (hfz.mp h), rfl⟩, hfz⟩
  · exact Ok.pure' ⟨0, f, hf, hf0, hf1, by rw [hy']; rfl, rfl, hfz⟩

theorem Sticky.bounds {v : ℚ} {n : Nat} (h : Sticky v n) (h0 : n ≠ 0) :
    (2 : ℚ) ^ (bitLen n - 1) ≤ v ∧ v < 2 ^ bitLen n := by
  have h1 := two_pow_le_of_bitLen h0
  have h2 := lt_two_pow_bitLen n
  have hb := bitLen_pos h0
  rcases h with h | ⟨T, hT, a, b, c⟩
  · rw [h]; exact ⟨by exact_mod_cast h1, by exact_mod_cast h2⟩
  · have hev : 2 ∣ 2 ^ bitLen n := dvd_pow_self 2 (by omega)
    have hge : 124 < bitLen n := by
      by_contra hc
      have : n < 2 ^ 124 := lt_of_lt_of_le h2 (Nat.pow_le_pow_right (by omega) (by omega))
      omega
    have hev' : 2 ∣ 2 ^ (bitLen n - 1) := dvd_pow_self 2 (by omega)
    constructor
    · refine le_of_lt (lt_of_le_of_lt ?_ a)
      have : 2 ^ (bitLen n - 1) ≤ T := by omega
      exact_mod_cast this
    · refine lt_of_lt_of_le b ?_
      have : T + 1 ≤ 2 ^ bitLen n := by omega
      exact_mod_cast this

/-- The rounded significand: `v·2^(-k) = a + f`, and `a` or `a+1` is returned. -/
theorem roundSig_spec {sig : BitVec 128} {v : ℚ} {s : Nat} {k : Int} {round : Round} (hv : Sticky v sig.toNat)
    (h0 : sig ≠ 0#128) (hs : s ≤ 119) (hk : (bitLen sig.toNat : Int) - 1 - s ≤ k) (hk2 : k < 2 ^ 31) :
    Ok (roundSig sig k round) (fun r => ∃ (a up : Nat) (f : ℚ), v * 2 ^ (-k) = (a : ℚ) + f ∧ 0 ≤ f ∧ f < 1 ∧
      r.1.toNat = a + up ∧ UpSpec round.dir a f up ∧ r.2 = (if f = 0 then 0#8 else 16#8) ∧
      a < 2 ^ (s + 1) ∧ ((bitLen sig.toNat : Int) - 1 - s = k → 2 ^ s ≤ a)) := by
  have hn0 : sig.toNat ≠ 0 := fun h => h0 (BitVec.eq_of_toNat_eq h)
  obtain ⟨hb1, hb2⟩ := hv.bounds hn0
  have hbp := bitLen_pos hn0
  have hbw := bitLen_le_width sig
  -- size of the result
  have size : ∀ {a : Nat} {f : ℚ}, v * 2 ^ (-k) = (a : ℚ) + f → 0 ≤ f → f < 1 →
      a < 2 ^ (s + 1) ∧ ((bitLen sig.toNat : Int) - 1 - s = k → 2 ^ s ≤ a) := by
    intro a f h hf0 hf1
    have hp : (0 : ℚ) < 2 ^ (-k) := by positivity
    constructor
    · have h1 : v * 2 ^ (-k) < 2 ^ bitLen sig.toNat * 2 ^ (-k) := mul_lt_mul_of_pos_right hb2 hp
      have h2 : (2 : ℚ) ^ bitLen sig.toNat * 2 ^ (-k) ≤ 2 ^ (s + 1) := by
        rw [← zpow_natCast, ← zpow_add₀ (by norm_num : (2 : ℚ) ≠ 0), ← zpow_natCast]
        apply zpow_le_zpow_right₀ (by norm_num)
        push_cast; omega
      have h3 : (a : ℚ) < 2 ^ (s + 1) := by linarith
      exact_mod_cast h3
    · intro hke
      have h1 : (2 : ℚ) ^ (bitLen sig.toNat - 1) * 2 ^ (-k) ≤ v * 2 ^ (-k) :=
        mul_le_mul_of_nonneg_right hb1 (le_of_lt hp)
      have h2 : (2 : ℚ) ^ (bitLen sig.toNat - 1) * 2 ^ (-k) = 2 ^ s := by
        rw [← zpow_natCast, ← zpow_add₀ (by norm_num : (2 : ℚ) ≠ 0), ← zpow_natCast]
        congr 1
        omega
      have h3 : (2 : ℚ) ^ s < a + 1 := by linarith
      have h4 : 2 ^ s < a + 1 := by exact_mod_cast h3
      omega
  unfold roundSig
  by_cases hpos : k > 0
  · rw [if_pos hpos]
    have prep : Ok (if k = 1 then shlC sig 1
      else if k > 2 then do
        let k ← i32C (k - 2)
        shrOddRounding sig k.toNat
      else pure sig) (fun P => OddOf (v * 2 ^ (-k) * 4) P.toNat) := by
      by_cases h1 : k = 1
      · rw [if_pos h1]
        refine (shlC_spec (by omega)).mono ?_
        intro P hP
        subst h1
        have hsm : bitLen sig.toNat ≤ 121 := by omega
        have hlt : sig.toNat < 2 ^ 121 := bitLen_le_iff.mp hsm
        left
        rcases hv with hv | ⟨T, hT, _, _, hn⟩
        · rw [hP, Nat.mod_eq_of_lt (by omega), hv]
          push_cast
          norm_num
          ring
        · exfalso; omega
      · rw [if_neg h1]
        by_cases h2 : k > 2
        · rw [if_pos h2]
          refine Ok.bind (i32C_spec (by omega)) ?_
          rintro _ rfl
          refine (shrOdd_spec hv h0 (by omega)).mono ?_
          intro P hP
          have : v * 2 ^ (-k) * 4 = v / 2 ^ (k - 2).toNat := by
            rw [div_eq_mul_inv, ← zpow_natCast, ← zpow_neg, mul_assoc]
            congr 1
            rw [show ((4 : ℚ)) = 2 ^ (2 : ℤ) by norm_num, ← zpow_add₀ (by norm_num : (2 : ℚ) ≠ 0)]
            congr 1
            omega
          rw [this]; exact hP
        · rw [if_neg h2]
          apply Ok.pure'
          have hk' : k = 2 := by omega
          subst hk'
          have : v * 2 ^ (-2 : ℤ) * 4 = v := by
            rw [show ((2 : ℚ) ^ (-2 : ℤ)) = 1 / 4 by norm_num]; ring
          rw [this]; exact hv.odd
    refine Ok.bind prep ?_
    intro P hP
    refine Ok.bind (shr2Round_spec hP) ?_
    rintro r ⟨up, f, hf, hf0, hf1, hr, hup, hfz⟩
    apply Ok.pure'
    have hf' : v * 2 ^ (-k) = ((P.toNat / 4 : Nat) : ℚ) + f := by rw [← hf]; ring
    obtain ⟨s1, s2⟩ := size hf' hf0 hf1
    refine ⟨P.toNat / 4, up, f, hf', hf0, hf1, hr, hup, ?_, s1, s2⟩
    have hand : (P &&& 0b11#128 ≠ 0#128) ↔ ¬ f = 0 := by
      rw [hfz, not_iff_not, ← BitVec.toNat_inj, BitVec.toNat_and, show (0b11#128).toNat = 2 ^ 2 - 1 from rfl,
        Nat.and_two_pow_sub_one_eq_mod]
      rfl
    show (if P &&& 0b11#128 ≠ 0#128 then Status.INEXACT else Status.OK) = _
    by_cases hfe : f = 0
    · rw [if_neg (by rw [hand]; simpa using hfe), if_pos hfe]; rfl
    · rw [if_pos (hand.mpr hfe), if_neg hfe]; rfl
  · rw [if_neg hpos]
    have hex : v = sig.toNat := by
      rcases hv with hv | ⟨T, hT, _, _, hn⟩
      · exact hv
      · exfalso
        have : bitLen sig.toNat ≤ 120 := by omega
        have hlt : sig.toNat < 2 ^ 120 := bitLen_le_iff.mp this
        omega
    have hup : ∀ {a}, UpSpec round.dir a 0 0 := by
      intro a
      cases round
      · exact Or.inl ⟨by norm_num, rfl⟩
      · rfl
      · exact Or.inl ⟨rfl, rfl⟩
      · rfl
    by_cases hneg : k < 0
    · rw [if_pos hneg]
      refine Ok.bind (i32C_spec (by omega)) ?_
      rintro _ rfl
      refine Ok.bind (shlI_spec (by omega)) ?_
      intro r hr
      apply Ok.pure'
      obtain ⟨c, rfl⟩ : ∃ c : Nat, k = -(c : Int) := ⟨(-k).toNat, by omega⟩
      have hval : v * 2 ^ (-(-(c : Int))) = ((sig.toNat * 2 ^ c : Nat) : ℚ) + 0 := by
        rw [_root_.neg_neg, hex, zpow_natCast]; push_cast; ring
      obtain ⟨s1, s2⟩ := size hval (le_refl _) (by norm_num)
      have hle : (2 : Nat) ^ (s + 1) ≤ 2 ^ 128 := Nat.pow_le_pow_right (by omega) (by omega)
      refine ⟨sig.toNat * 2 ^ c, 0, 0, hval, le_refl _, by norm_num, ?_, hup, by simp; rfl, s1, s2⟩
      have hc : (-(-(c : Int))).toNat = c := by omega
      show r.toNat = _
      rw [hr, hc, Nat.mod_eq_of_lt (by omega)]; rfl
    · rw [if_neg hneg]
      apply Ok.pure'
      have hk0 : k = 0 := by omega
      subst hk0
      have hval : v * 2 ^ (-(0 : Int)) = ((sig.toNat : Nat) : ℚ) + 0 := by
        rw [hex]; norm_num
      obtain ⟨s1, s2⟩ := size hval (le_refl _) (by norm_num)
      exact ⟨sig.toNat, 0, 0, hval, le_refl _, by norm_num, rfl, hup, by simp; rfl, s1, s2⟩

end Verif
