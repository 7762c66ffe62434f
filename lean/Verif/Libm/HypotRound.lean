import Verif.Libm.HypotHard
/-! # The exact part of `hypot`, `as_hypot_hard`: rounding -/
namespace Verif
/-- `f64` value as a real -/
local notation "V" => Fmt.valK f64 ℝ
/-- value of a magnitude pattern -/
local notation "γ" => Fmt.magVal f64 ℝ

namespace Hypot

theorem round_is {v : ℚ} {r : BitVec f64.w} (h : f64.Rounds v r) (hv : 0 < v) {n : ℕ} (hn : f64.IsRNE v n) (b : BitVec f64.w)
    (hb : f64.mag b = n) (hb' : f64.sign b = false) : r = b := by
  apply f64.ext_sign_mag
  · rw [hb']
    rw [Bool.eq_false_iff]; intro hc
    linarith [(h.2 hv.ne').mp hc]
  · have := h.1
    rw [abs_of_pos hv] at this
    rw [hb]
    exact Fmt.IsRNE.unique f64 this hn

/-- both directed-rounding probes give one: rounding is to nearest -/
theorem opom_eq (N : FPU f64) : opom N = (0x3ff0000000000000#f64.w, 0x3ff0000000000000#f64.w) := by
  have v1 : f64.val 0x3ff0000000000000#f64.w = 1 := by decide +kernel
  have v2 : f64.val 0x3c90000000000000#f64.w = 1 / 2 ^ 54 := by decide +kernel
  have c1 : f64.magVal ℚ (1023 * 2 ^ 52) = 1 := by decide +kernel
  have c2 : f64.magVal ℚ (1023 * 2 ^ 52 + 1) = 1 + 1 / 2 ^ 52 := by decide +kernel
  have c3 : f64.magVal ℚ (1023 * 2 ^ 52 - 1) = 1 - 1 / 2 ^ 53 := by decide +kernel
  have hinf : f64.infRep = 2047 * 2 ^ 52 := by decide
  unfold opom
  congr 1
  · have h := ((N.add_spec 0x3ff0000000000000#f64.w 0x3c90000000000000#f64.w).1 (by decide) (by decide)).1
    rw [v1, v2] at h
    exact round_is h (by norm_num) (n := 1023 * 2 ^ 52) (f64.isRNE_between (n := 1023 * 2 ^ 52) (by rw [hinf]; norm_num)
      (by rw [c1]; norm_num) (by rw [c2]; norm_num) (Or.inl ⟨by rw [c1, c2]; norm_num, rfl⟩)) _ (by decide) (by decide)
  · have h := ((N.sub_spec 0x3ff0000000000000#f64.w 0x3c90000000000000#f64.w).1 (by decide) (by decide)).1
    rw [f64.val_neg, v1, v2] at h
    exact round_is h (by norm_num) (n := 1023 * 2 ^ 52) (f64.isRNE_between (n := 1023 * 2 ^ 52 - 1) (by rw [hinf]; norm_num)
      (by rw [c3]; norm_num) (by rw [show 1023 * 2 ^ 52 - 1 + 1 = 1023 * 2 ^ 52 by norm_num, c1]; norm_num)
      (Or.inr (Or.inr ⟨by rw [show 1023 * 2 ^ 52 - 1 + 1 = 1023 * 2 ^ 52 by norm_num, c1, c3]; norm_num, by norm_num⟩))) _ (by decide) (by decide)

theorem and_one (a : ℕ) : BitVec.ofNat f64.w a &&& 1#f64.w = BitVec.ofNat f64.w (a % 2) := by
  apply BitVec.eq_of_toNat_eq
  have hw : 2 ^ f64.w = 2 ^ 64 := rfl
  rw [BitVec.toNat_and, BitVec.toNat_ofNat, BitVec.toNat_ofNat, BitVec.toNat_ofNat]
  simp only [hw]
  rw [show 1 % 2 ^ 64 = 2 ^ 1 - 1 by norm_num, Nat.and_two_pow_sub_one_eq_mod]
  omega

/-- the sign mask of a difference -/
theorem sar63 (d : BitVec f64.w) : d.sshiftRight 63 = if d.toInt < 0 then BitVec.allOnes f64.w else 0#f64.w := by
  apply BitVec.eq_of_toInt_eq
  rw [BitVec.toInt_sshiftRight]
  have h1 := BitVec.le_toInt d
  have h2 := BitVec.toInt_lt (x := d)
  have hw : f64.w - 1 = 63 := rfl
  rw [hw] at h1 h2
  rw [Int.shiftRight_eq_div_pow]
  split
  · rw [show (BitVec.allOnes f64.w).toInt = -1 by decide]; omega
  · rw [show (0#f64.w).toInt = 0 by decide]; omega

theorem Rep.prev {k rm L : ℕ} (h : Rep k rm L) (hr : 2 ^ 52 < rm) :
    (rm ≤ 2 ^ 53 ∧ Rep k (rm - 1) (L - 1)) ∨ (2 ^ 53 < rm ∧ rm % 2 = 0 ∧ Rep k (rm - 2) (L - 1)) := by
  rcases h with ⟨h1, h2, h3⟩ | ⟨h1, h2, h3, h4⟩
  · left; exact ⟨h2, Or.inl ⟨by omega, by omega, by omega⟩⟩
  · right
    refine ⟨h1, h2, ?_⟩
    by_cases h : rm = 2 ^ 53 + 2
    · subst h; exact Or.inl ⟨by norm_num, by norm_num, by omega⟩
    · exact Or.inr ⟨by omega, by omega, by omega, by omega⟩

theorem round_spec (N : FPU f64) {I k rm L : ℕ} {σ : ℝ} (hk : 1 ≤ k) (hk3 : k ≤ 3) (hI : Cmp I (σ ^ 2 * 2 ^ 108)) (hσ0 : 0 ≤ σ)
    (hR : Rep k rm L) (hr : 2 ^ 52 < rm) (hk1 : k = 1 → 2 ^ 53 < rm)
    (hb : |σ ^ 2 - γ L ^ 2| * 2 ^ 108 ≤ 2 ^ 62) (hb' : |σ ^ 2 - ((γ (L - 1) + γ L) / 2) ^ 2| * 2 ^ 108 ≤ 2 ^ 62)
    (h2 : σ ≤ γ L) :
    ∃ rm', round N false (BitVec.ofNat f64.w I) k (BitVec.ofNat f64.w rm)
        (BitVec.ofNat f64.w I - BitVec.ofNat f64.w ((rm * 2 ^ k) * (rm * 2 ^ k))) = .ok (BitVec.ofNat f64.w rm') ∧
      ((σ = γ L ∧ rm' = rm) ∨ ((γ (L - 1) + γ L) / 2 < σ ∧ rm' = rm) ∨ (σ < (γ (L - 1) + γ L) / 2 ∧ rm' = rm - 1) ∨
       (σ = (γ (L - 1) + γ L) / 2 ∧ rm' = rm - rm % 2)) := by
  have hw : f64.w = 64 := rfl
  have hle := hR.le
  have hp : 2 ^ k ≤ 2 ^ 3 := Nat.pow_le_pow_right (by norm_num) hk3
  have hp1 : 2 ≤ 2 ^ k := by
    calc 2 = 2 ^ 1 := rfl
      _ ≤ _ := Nat.pow_le_pow_right (by norm_num) hk
  obtain ⟨s1, s2, s3⟩ := cmp_sign (t := rm * 2 ^ k) hI (sq_even hk) (by rw [hR.val]; push_cast; rfl) (f64.magVal_nonneg ℝ _) hσ0 hb
  unfold round
  rw [opom_eq]
  dsimp only
  by_cases hd : BitVec.ofNat f64.w I - BitVec.ofNat f64.w ((rm * 2 ^ k) * (rm * 2 ^ k)) = 0#f64.w
  · rw [if_pos hd]
    rw [hd, show (0#f64.w).toInt = 0 by decide] at s1
    refine ⟨rm, rfl, Or.inl ⟨?_, rfl⟩⟩
    apply le_antisymm h2
    by_contra hc
    rw [not_le] at hc
    have := s3.mpr hc
    omega
  rw [if_neg hd, if_pos (by decide)]
  -- the midpoint
  obtain ⟨i, hi⟩ : ∃ i : ℕ, i = if rm ≤ 2 ^ 53 then 1 else 0 := ⟨_, rfl⟩
  have hi1 : i ≤ 1 := by rw [hi]; split <;> omega
  have hik : 1 ≤ k - i := by
    by_cases h : k = 1
    · have := hk1 h
      rw [hi, if_neg (by omega)]; omega
    · omega
  have hpow : 2 ^ (k - i) ≤ 2 ^ k := Nat.pow_le_pow_right (by norm_num) (by omega)
  have hdi : (if BitVec.ofNat f64.w rm ≤ 1#f64.w <<< 53 then (1 : Int) else 0) = i := by
    rw [hi]
    by_cases h : rm ≤ 2 ^ 53
    · rw [if_pos h, if_pos (by rw [BitVec.le_def, toNat64 (by omega), show (1#f64.w <<< 53).toNat = 2 ^ 53 by decide]; exact h)]; rfl
    · rw [if_neg h, if_neg (by rw [BitVec.le_def, toNat64 (by omega), show (1#f64.w <<< 53).toNat = 2 ^ 53 by decide]; exact h)]; rfl
  have hrk : 2 ^ 52 * 2 ^ k ≤ rm * 2 ^ k := Nat.mul_le_mul_right _ hle.1
  have hrk2 : rm * 2 ^ k ≤ 2 ^ 54 * 2 ^ 3 := Nat.mul_le_mul hle.2 hp
  have hsub : 2 ^ (k - i) ≤ rm * 2 ^ k := by omega
  rw [shlE (k := k) rfl (by rw [hw]; omega), ok_bind, hdi, i32E (by omega) (by omega), ok_bind,
    shlE (k := k - i) (by omega) (by rw [hw]; omega), ok_bind, ofNat_shl, show 1#f64.w = BitVec.ofNat f64.w 1 from rfl, ofNat_shl, one_mul,
    subE hsub (by omega), ok_bind]
  generalize ht : rm * 2 ^ k - 2 ^ (k - i) = t
  have hmid : (γ (L - 1) + γ L) / 2 * 2 ^ 54 = t := by
    have hv := hR.val
    rw [← ht, Nat.cast_sub hsub]
    push_cast
    rcases hR.prev hr with ⟨p1, p2⟩ | ⟨p1, p2, p3⟩
    · have hv' := p2.val
      rw [if_pos p1] at hi
      subst hi
      rw [Nat.cast_sub (by omega)] at hv'
      push_cast at hv'
      have e : (2 : ℝ) ^ k = 2 * 2 ^ (k - 1) := by rw [← pow_succ']; congr 1; omega
      rw [e] at hv hv' ⊢
      linarith
    · have hv' := p3.val
      rw [if_neg (by omega)] at hi
      subst hi
      rw [Nat.cast_sub (by omega)] at hv'
      push_cast at hv'
      rw [Nat.sub_zero]
      linarith
  have hteven : t % 2 = 0 := by
    have h1 : rm * 2 ^ k % 2 = 0 := sq_even hk
    have h2 : 2 ^ (k - i) % 2 = 0 := by have := sq_even (rm := 1) hik; rwa [one_mul] at this
    omega
  obtain ⟨m1, m2, m3⟩ := cmp_sign (t := t) hI hteven hmid (by
    have := f64.magVal_nonneg ℝ L
    have := f64.magVal_nonneg ℝ (L - 1)
    positivity) hσ0 hb'
  unfold subI64
  rw [Bool.false_and, if_neg (by simp), ok_bind, ← BitVec.ofNat_mul]
  by_cases hz : BitVec.ofNat f64.w I - BitVec.ofNat f64.w (t * t) = 0#f64.w
  · rw [if_pos hz, show BitVec.ofNat f64.w 1 = 1#f64.w from rfl, and_one, subE (by omega) (by omega)]
    rw [hz, show (0#f64.w).toInt = 0 by decide] at m1
    refine ⟨_, rfl, Or.inr (Or.inr (Or.inr ⟨?_, rfl⟩))⟩
    apply le_antisymm
    · by_contra hc
      rw [not_le] at hc
      have := m2.mpr hc
      omega
    · by_contra hc
      rw [not_le] at hc
      have := m3.mpr hc
      omega
  · rw [if_neg hz, sar63, m1]
    have hne : (I : ℤ) - (t * t : ℕ) ≠ 0 := by
      intro h0
      apply hz
      apply BitVec.eq_of_toInt_eq
      rw [m1, h0]; decide
    by_cases hneg : (I : ℤ) - (t * t : ℕ) < 0
    · rw [if_pos hneg]
      refine ⟨rm - 1, ?_, Or.inr (Or.inr (Or.inl ⟨m3.mp hneg, rfl⟩))⟩
      have : BitVec.ofNat f64.w rm + BitVec.allOnes f64.w = BitVec.ofNat f64.w (rm - 1) := by
        apply BitVec.eq_of_toNat_eq
        rw [BitVec.toNat_add, toNat64 (by omega), toNat64 (by omega), show (BitVec.allOnes f64.w).toNat = 2 ^ 64 - 1 by decide]
        have hw : 2 ^ f64.w = 2 ^ 64 := rfl
        simp only [hw]
        omega
      rw [this]; rfl
    · rw [if_neg hneg]
      refine ⟨rm, ?_, Or.inr (Or.inl ⟨m2.mp (by omega), rfl⟩)⟩
      rw [BitVec.add_zero]; rfl

theorem pack_spec {k rm : ℕ} {re : ℤ} (hk3 : k ≤ 3) (hre : re = (k : ℤ) - 2) (h1 : rm ≤ 2 ^ 54) :
    pack 1023 (BitVec.ofNat f64.w rm) re =
      .ok (BitVec.ofNat f64.w (if 2 ^ 53 ≤ rm then (1021 + k) * 2 ^ 52 + rm / 2 else (1020 + k) * 2 ^ 52 + rm)) := by
  have hw : f64.w = 64 := rfl
  unfold pack
  have hle : (1#f64.w <<< 53 ≤ BitVec.ofNat f64.w rm) ↔ 2 ^ 53 ≤ rm := by
    rw [BitVec.le_def, toNat64 (by omega), show (1#f64.w <<< 53).toNat = 2 ^ 53 by decide]
  have hsh : BitVec.ofNat f64.w rm >>> 1 = BitVec.ofNat f64.w (rm / 2) := by
    apply BitVec.eq_of_toNat_eq
    rw [BitVec.toNat_ushiftRight, toNat64 (by omega), toNat64 (by omega), Nat.shiftRight_eq_div_pow]
  by_cases h : 2 ^ 53 ≤ rm
  · rw [if_pos (hle.mpr h), if_pos h, i32E (by omega) (by omega)]
    simp only [ok_bind, pure_bind]
    rw [i32E (by omega) (by omega), ok_bind, i32E (by omega) (by omega), ok_bind, hsh,
      show (1023 : Int) - 1 + (re + 1) = ((1021 + k : ℕ) : ℤ) by push_cast; omega, BitVec.ofInt_natCast, ofNat_shl, addE (by omega)]
  · rw [if_neg (fun hc => h (hle.mp hc)), if_neg h]
    simp only [pure_bind]
    rw [i32E (by omega) (by omega), ok_bind, i32E (by omega) (by omega), ok_bind,
      show (1023 : Int) - 1 + re = ((1020 + k : ℕ) : ℤ) by push_cast; omega, BitVec.ofInt_natCast, ofNat_shl, addE (by omega)]

theorem dec_spec {rm N k : ℕ} {re : ℤ} (hN : N = (1020 + k) * 2 ^ 52 + rm) (h1 : 2 ^ 52 ≤ rm) (h2 : rm < 2 ^ 53) (hk : 1 ≤ k) (hk3 : k ≤ 3)
    (hre : re = (k : ℤ) - 2) :
    ∃ rm' k' : ℕ, ∃ re' : ℤ, dec (BitVec.ofNat f64.w rm, re) = .ok (BitVec.ofNat f64.w rm', re') ∧ N - 1 = (1020 + k') * 2 ^ 52 + rm' ∧
      2 ^ 52 ≤ rm' ∧ rm' < 2 ^ 53 ∧ k' ≤ 3 ∧ re' = (k' : ℤ) - 2 := by
  unfold dec
  dsimp only
  by_cases h : rm = 2 ^ 52
  · rw [if_pos (by rw [h]; decide), i32E (by omega) (by omega), ok_bind]
    refine ⟨2 ^ 53 - 1, k - 1, re - 1, ?_, by omega, by norm_num, by norm_num, by omega, by omega⟩
    rw [show BitVec.allOnes f64.w >>> 11 = BitVec.ofNat f64.w (2 ^ 53 - 1) by decide]; rfl
  · rw [if_neg (by
      intro hc
      have := congrArg BitVec.toNat hc
      rw [toNat64 (by omega), show (1#f64.w <<< 52).toNat = 2 ^ 52 by decide] at this
      exact h this), show 1#f64.w = BitVec.ofNat f64.w 1 from rfl, subE (by omega) (by omega), ok_bind]
    exact ⟨rm - 1, k, re, rfl, by omega, by omega, by omega, hk3, hre⟩

end Hypot
end Verif
