import Verif.Libm.Fmaf16
/-! # Correctness of `fmaf16` -/
namespace Verif
open Fmt

theorem and_single {x k : Nat} : x &&& 2 ^ k = if x / 2 ^ k % 2 = 1 then 2 ^ k else 0 := by
  apply Nat.eq_of_testBit_eq
  intro i
  rw [Nat.testBit_and, Nat.testBit_two_pow]
  by_cases hi : k = i
  · subst hi
    rw [Nat.testBit_eq_decide_div_mod_eq]
    split
    · rename_i h; simp [h]
    · rename_i h; simp [h]
  · split
    · rw [Nat.testBit_two_pow]; simp [hi]
    · simp [hi]

/-- the rounding decision: round bit 47, and any of the lower bits or the last kept bit -/
theorem up48 (x : Nat) :
    x / 2 ^ 48 + (if (x &&& 2 ^ 47 ≠ 0) ∧ (x &&& ((2 ^ 47 - 1) ||| 2 ^ 48) ≠ 0) then 1 else 0) = rnd x 48 := by
  have h1 : (x &&& 2 ^ 47 ≠ 0) ↔ x / 2 ^ 47 % 2 = 1 := by
    rw [and_single]; split <;> simp_all
  have h2 : (x &&& ((2 ^ 47 - 1) ||| 2 ^ 48) ≠ 0) ↔ (x % 2 ^ 47 ≠ 0 ∨ x / 2 ^ 48 % 2 = 1) := by
    rw [Nat.and_or_distrib_left, Nat.and_two_pow_sub_one_eq_mod, and_single, ne_eq, Nat.or_eq_zero_iff]
    split <;> simp_all
  rw [if_congr (and_congr h1 h2) rfl rfl]
  unfold rnd
  simp only [show 48 - 1 = 47 from rfl]
  split <;> split <;> try split
  all_goals omega

theorem toNat_decide_and (p q : Prop) [Decidable p] [Decidable q] :
    (decide p && decide q).toNat = if p ∧ q then 1 else 0 := by
  by_cases p <;> by_cases q <;> simp [*]

theorem rnd_shift (x j : Nat) (hj : j ≤ 46) : rnd (x * 2 ^ j) 48 = rnd x (48 - j) := by
  obtain ⟨k, hk⟩ : ∃ k, 48 - j = k + 2 := ⟨46 - j, by omega⟩
  have e : 2 ^ 48 = 2 ^ j * 2 ^ (k + 2) := by rw [← Nat.pow_add]; congr 1; omega
  have e' : 2 ^ 47 = 2 ^ j * 2 ^ (k + 1) := by rw [← Nat.pow_add]; congr 1; omega
  have hp := Nat.two_pow_pos j
  unfold rnd
  rw [hk]
  simp only [show 48 - 1 = 47 from rfl, show k + 2 - 1 = k + 1 by omega]
  rw [e, e', Nat.mul_comm x, Nat.mul_div_mul_left _ _ hp, Nat.mul_mod_mul_left]
  simp only [Nat.mul_lt_mul_left hp, Nat.mul_right_inj hp.ne']

set_option maxRecDepth 10000 in
/-- `f16_from_u21_43` rounds the fixed-point number correctly. -/
theorem f16FromU2143_spec (r64 : BitVec 64) : Ok (f16FromU2143 r64) (fun r => f16.sign r = false ∧
    f16.IsRNE ((r64.toNat : ℚ) * 2 ^ (-43 : ℤ)) (f16.mag r)) := by
  unfold f16FromU2143
  dsimp only
  have hs : f16.s = 10 := rfl
  have hb : f16.bias = 15 := by decide
  have hw : f16.w = 16 := rfl
  rw [hs, hb]
  have hr := r64.isLt
  refine Ok.bind (P := fun t => t.toNat = 2 ^ 64 - 2 ^ 59) ?_ ?_
  · refine (shlC_spec (by norm_num)).mono ?_
    intro r hr; rw [hr, BitVec.toNat_allOnes]; norm_num
  intro top htop
  have htopz : (r64 &&& top ≠ 0#64) ↔ 2 ^ 59 ≤ r64.toNat := by
    have e : r64 &&& top = (r64 >>> 59) <<< 59 := by
      have : top = BitVec.allOnes 64 <<< 59 := BitVec.eq_of_toNat_eq (by rw [htop]; decide)
      rw [this]
      ext i hi
      simp only [BitVec.getElem_and, BitVec.getElem_shiftLeft, BitVec.getElem_ushiftRight, BitVec.getElem_allOnes]
      by_cases h : i < 59
      · simp [h]
      · simp [h, show 59 + (i - 59) = i by omega, BitVec.getElem_eq_testBit_toNat, BitVec.getLsbD]
    rw [e, ne_eq, ← BitVec.toNat_inj, BitVec.toNat_shiftLeft, BitVec.toNat_ushiftRight, Nat.shiftRight_eq_div_pow,
      Nat.shiftLeft_eq]
    simp only [BitVec.toNat_ofNat]
    omega
  by_cases c : r64 &&& top ≠ 0#64
  · rw [if_pos c]
    rw [htopz] at c
    have h0 : (0#f16.w).toNat < 2 ^ f16.s := by decide
    obtain ⟨f1, f2⟩ := f16.fromParts_facts (t := false) (n := f16.expSat) (by decide) h0
    refine Ok.pure' ⟨f1, ?_⟩
    rw [f2, show f16.expSat * 2 ^ f16.s + (0#f16.w).toNat = f16.infRep by decide]
    apply f16.isRNE_overflow
    have hc : (2 : ℚ) ^ 59 ≤ r64.toNat := by exact_mod_cast c
    rw [hb]
    calc (2 : ℚ) ^ (((15 : Nat) : ℤ) + 1) = 2 ^ 59 * 2 ^ (-43 : ℤ) := by norm_num
      _ ≤ _ := mul_le_mul_of_nonneg_right hc (by positivity)
  rw [if_neg c]
  rw [htopz, not_le] at c
  have hL : bitLen r64.toNat ≤ 59 := bitLen_le_iff.mpr c
  have hL1 : r64.toNat < 2 ^ bitLen r64.toNat := lt_two_pow_bitLen _
  unfold nlz
  obtain ⟨L, hLe⟩ : ∃ L, L = bitLen r64.toNat := ⟨_, rfl⟩
  rw [← hLe] at hL hL1 ⊢
  obtain ⟨E, hE⟩ : ∃ E, E = 15 + 15 - 1 + (64 - 10 - (64 - 16) - 1) - (64 - L) := ⟨_, rfl⟩
  rw [← hE]
  have hE' : E = L - 30 := by omega
  refine Ok.bind (nsubC_spec (by omega)) ?_
  intro sh hsh
  rw [hsh]
  have hxl : r64.toNat * 2 ^ (29 - E) < 2 ^ 59 := by
    calc _ < 2 ^ L * 2 ^ (29 - E) := Nat.mul_lt_mul_of_pos_right hL1 (Nat.two_pow_pos _)
      _ = 2 ^ (L + (29 - E)) := (Nat.pow_add _ _ _).symm
      _ ≤ _ := Nat.pow_le_pow_right (by norm_num) (by omega)
  refine Ok.bind (shlC_spec (by omega)) ?_
  intro s64 hs64
  rw [show 15 + 15 - 1 - E = 29 - E by omega, Nat.mod_eq_of_lt (by omega)] at hs64
  refine Ok.bind (P := fun t => t = BitVec.ofNat 64 (2 ^ 47)) ⟨_, rfl, rfl⟩ ?_
  rintro _ rfl
  refine Ok.bind (P := fun t => t = BitVec.ofNat 64 (2 ^ 49)) ⟨_, rfl, rfl⟩ ?_
  rintro _ rfl
  refine Ok.bind (P := fun t => t = BitVec.ofNat 64 (2 ^ 49 - 1)) ⟨_, rfl, rfl⟩ ?_
  rintro _ rfl
  have eu : BitVec.ofNat 64 (2 ^ 49 - 1) &&& ~~~ BitVec.ofNat 64 (2 ^ 47) = BitVec.ofNat 64 ((2 ^ 47 - 1) ||| 2 ^ 48) := by
    decide
  rw [eu]
  refine Ok.bind (shrC_spec (by norm_num)) ?_
  intro t ht
  rw [hs64, show 64 - 16 = 48 from rfl] at ht
  have htl : t.toNat < 2 ^ 11 := by rw [ht]; omega
  refine Ok.bind (castU_spec (by rw [hw]; omega)) ?_
  intro re hre
  refine Ok.bind (shlC_spec (by rw [hw]; omega)) ?_
  intro re2 hre2
  have hEl : E ≤ 29 := by omega
  rw [hre, Nat.mod_eq_of_lt (by rw [hw]; omega)] at hre2
  have hts : (t.setWidth f16.w).toNat = t.toNat := by
    rw [BitVec.toNat_setWidth, Nat.mod_eq_of_lt (by rw [hw]; omega)]
  refine Ok.bind (addC_spec (by rw [hts, hre2, hw]; omega)) ?_
  intro r hr
  rw [hts, hre2] at hr
  obtain ⟨ub, hub⟩ : ∃ ub : Bool, ub = (decide (s64 &&& BitVec.ofNat 64 (2 ^ 47) ≠ 0#64) &&
      decide (s64 &&& BitVec.ofNat 64 ((2 ^ 47 - 1) ||| 2 ^ 48) ≠ 0#64)) := ⟨_, rfl⟩
  rw [← hub]
  have hbn := toNat_ofBoolW (w := f16.w) (by decide) ub
  have hub1 : ub.toNat ≤ 1 := by cases ub <;> decide
  refine (addC_spec (by rw [hbn, hr, hw]; omega)).mono ?_
  intro q hq
  rw [hbn, hr] at hq
  have hubi : ub.toNat = if (s64.toNat &&& 2 ^ 47 ≠ 0) ∧ (s64.toNat &&& ((2 ^ 47 - 1) ||| 2 ^ 48) ≠ 0) then 1 else 0 := by
    have e1 : (s64 &&& BitVec.ofNat 64 (2 ^ 47) ≠ 0#64) ↔ s64.toNat &&& 2 ^ 47 ≠ 0 := by
      rw [ne_eq, ne_eq, ← BitVec.toNat_inj, BitVec.toNat_and]; rfl
    have e2 : (s64 &&& BitVec.ofNat 64 ((2 ^ 47 - 1) ||| 2 ^ 48) ≠ 0#64) ↔ s64.toNat &&& ((2 ^ 47 - 1) ||| 2 ^ 48) ≠ 0 := by
      rw [ne_eq, ne_eq, ← BitVec.toNat_inj, BitVec.toNat_and]; rfl
    simp only [← e1, ← e2]
    rw [hub]
    exact toNat_decide_and _ _
  have hu := up48 s64.toNat
  rw [← hubi, hs64, ← ht, rnd_shift _ _ (by omega)] at hu
  have hq' : q.toNat = E * 2 ^ 10 + rnd r64.toNat (48 - (29 - E)) := by rw [hq, ← hu]; omega
  have hk : 48 - (29 - E) = 19 + E := by omega
  rw [hk] at hq'
  have hdiv : r64.toNat / 2 ^ (19 + E) = t.toNat := by
    have : 2 ^ 48 = 2 ^ (29 - E) * 2 ^ (19 + E) := by rw [← Nat.pow_add]; congr 1; omega
    rw [ht, this, Nat.mul_comm r64.toNat, Nat.mul_div_mul_left _ _ (Nat.two_pow_pos _)]
  have hrl := rnd_le r64.toNat (19 + E)
  rw [hdiv] at hrl
  obtain ⟨s1, s2⟩ := f16.sign_mag_of (b := q) (t := false) (n := E * 2 ^ 10 + rnd r64.toNat (19 + E))
    (by show _ < 2 ^ 15; omega) (by simpa using hq')
  refine ⟨s1, ?_⟩
  rw [s2]
  refine f16.isRNE_at (E := E + 1) (Stk.exact _) (by omega) (by omega) ?_ ?_ ?_ ?_
  · rw [hdiv]; exact htl
  · rcases Nat.eq_zero_or_pos E with h | h
    · right; omega
    · left
      have hn0 : r64.toNat ≠ 0 := by intro h0; rw [hLe, h0] at hE'; simp [bitLen] at hE'; omega
      have := two_pow_le_of_bitLen hn0
      rw [← hLe] at this
      rw [Nat.le_div_iff_mul_le (Nat.two_pow_pos _), ← Nat.pow_add]
      refine le_trans (Nat.pow_le_pow_right (by norm_num) ?_) this
      rw [hs]; omega
  · rw [hdiv]; show E * 2 ^ 10 + t.toNat < 31 * 2 ^ 10; omega
  · rw [hs, hb]; push_cast; ring


/-- the fixed-point magnitude `a` represents the exact `t` (units of 2^-43): equal, or strictly
between the same two consecutive multiples of 2^18 -/
def Cell16 (a : Nat) (t : ℚ) : Prop :=
  t = a ∨ ∃ n : Nat, n * 262144 < a ∧ a < (n + 1) * 262144 ∧ ((n * 262144 : Nat) : ℚ) < t ∧ t < (((n + 1) * 262144 : Nat) : ℚ)

theorem mid16 {q : ℚ} (h : f16.IsMid q) : ∃ j : Nat, q = ((j * 262144 : Nat) : ℚ) * 2 ^ (-43 : ℤ) := by
  obtain ⟨n, _, hq⟩ := h
  obtain ⟨E, m, h1, _, _, _, h5, h6⟩ := f16.decompQ n
  rw [h5, h6, show f16.s = 10 from rfl, show f16.bias = 15 by decide] at hq
  refine ⟨(2 * m + 1) * 2 ^ (E - 1), ?_⟩
  have e : (2 : ℚ) ^ ((E : ℤ) - (15 : Nat) - (10 : Nat)) = 2 ^ (E - 1) * 2 ^ (-24 : ℤ) := by
    rw [← zpow_natCast, ← zpow_add₀ (by norm_num)]; congr 1; omega
  rw [e] at hq
  have : (2 : ℚ) ^ (-24 : ℤ) = 2 * 262144 * 2 ^ (-43 : ℤ) := by norm_num
  rw [this] at hq
  push_cast
  linarith

theorem cell_rne {a : Nat} {t : ℚ} {r : Nat} (h : Cell16 a t) (hr : f16.IsRNE ((a : ℚ) * 2 ^ (-43 : ℤ)) r) :
    f16.IsRNE (t * 2 ^ (-43 : ℤ)) r := by
  rcases h with h | ⟨n, h1, h2, h3, h4⟩
  · rw [h]; exact hr
  have hp : (0 : ℚ) < 2 ^ (-43 : ℤ) := by positivity
  have ht : (0 : ℚ) ≤ t := le_trans (Nat.cast_nonneg _) h3.le
  obtain ⟨b, ⟨hb, _⟩, _⟩ := f16.exists_rounds (t * 2 ^ (-43 : ℤ)) false (fun _ => by
    simp only [Bool.false_eq_true, false_iff, not_lt]
    exact mul_nonneg ht hp.le)
  rw [abs_of_nonneg (mul_nonneg ht hp.le)] at hb
  have h1' : ((n * 262144 : Nat) : ℚ) < a := by exact_mod_cast h1
  have h2' : (a : ℚ) < (((n + 1) * 262144 : Nat) : ℚ) := by exact_mod_cast h2
  have key : ∀ m, f16.IsMid m → (((n * 262144 : Nat) : ℚ)) * 2 ^ (-43 : ℤ) < m → m < (((n + 1) * 262144 : Nat) : ℚ) * 2 ^ (-43 : ℤ) → False := by
    intro m hm l1 l2
    obtain ⟨j, rfl⟩ := mid16 hm
    have l1 := lt_of_mul_lt_mul_right l1 hp.le
    have l2 := lt_of_mul_lt_mul_right l2 hp.le
    have l1 : n * 262144 < j * 262144 := by exact_mod_cast l1
    have l2 : j * 262144 < (n + 1) * 262144 := by exact_mod_cast l2
    omega
  have m1 := mul_lt_mul_of_pos_right h1' hp
  have m2 := mul_lt_mul_of_pos_right h2' hp
  have m3 := mul_lt_mul_of_pos_right h3 hp
  have m4 := mul_lt_mul_of_pos_right h4 hp
  rcases le_total (a : ℚ) t with hle | hle
  · have := f16.isRNE_eq_of_noMid (mul_le_mul_of_nonneg_right hle hp.le) hr hb
      (fun m hm a1 a2 => key m hm (lt_of_lt_of_le m1 a1) (lt_of_le_of_lt a2 m4))
    rw [this]; exact hb
  · have := f16.isRNE_eq_of_noMid (mul_le_mul_of_nonneg_right hle hp.le) hb hr
      (fun m hm a1 a2 => key m hm (lt_of_lt_of_le m3 a1) (lt_of_le_of_lt a2 m2))
    rw [← this]; exact hb

theorem cell_aux (C n k a : Nat) (h1 : n * C < a) (h2 : a < (n + 1) * C) :
    (n + k) * C < a + k * C ∧ a + k * C < (n + k + 1) * C := by
  rw [Nat.add_mul] at h2
  rw [Nat.add_mul, Nat.add_mul, Nat.add_mul]
  omega

theorem cell_aux' (C d k a : Nat) (h1 : (k + d) * C < a) (h2 : a < (k + d + 1) * C) :
    d * C < a - k * C ∧ a - k * C < (d + 1) * C := by
  rw [Nat.add_mul] at h1 h2
  rw [Nat.add_mul] at h2
  rw [Nat.add_mul]
  omega

theorem cell_aux'' (C d n a : Nat) (h1 : n * C < a) (h2 : a < (n + 1) * C) :
    d * C < (n + 1 + d) * C - a ∧ (n + 1 + d) * C - a < (d + 1) * C := by
  rw [Nat.add_mul] at h2
  rw [Nat.add_mul, Nat.add_mul, Nat.add_mul]
  omega

theorem cell_add {a z : Nat} {t : ℚ} (h : Cell16 a t) (hz : z % 262144 = 0) : Cell16 (a + z) (t + z) := by
  obtain ⟨k, rfl⟩ : ∃ k, z = k * 262144 := ⟨z / 262144, by omega⟩
  rcases h with h | ⟨n, h1, h2, h3, h4⟩
  · left; rw [h]; push_cast; ring
  · right
    obtain ⟨g1, g2⟩ := cell_aux 262144 n k a h1 h2
    refine ⟨n + k, g1, g2, ?_, ?_⟩
    · push_cast at h3 h4 ⊢; linarith
    · push_cast at h3 h4 ⊢; linarith

theorem cell_sub {a z : Nat} {t : ℚ} (h : Cell16 a t) (hz : z % 262144 = 0) (hlt : z < a) : Cell16 (a - z) (t - z) ∧ (z : ℚ) < t := by
  obtain ⟨k, rfl⟩ : ∃ k, z = k * 262144 := ⟨z / 262144, by omega⟩
  rcases h with h | ⟨n, h1, h2, h3, h4⟩
  · refine ⟨?_, by rw [h]; exact_mod_cast hlt⟩
    left; rw [h, Nat.cast_sub hlt.le]
  · have hkn : k ≤ n := by omega
    obtain ⟨d, rfl⟩ : ∃ d, n = k + d := ⟨n - k, by omega⟩
    obtain ⟨g1, g2⟩ := cell_aux' 262144 d k a h1 h2
    refine ⟨Or.inr ⟨d, g1, g2, ?_, ?_⟩, ?_⟩
    · push_cast at h3 h4 ⊢; linarith
    · push_cast at h3 h4 ⊢; linarith
    · have : (0 : ℚ) ≤ d := by positivity
      push_cast at h3 h4 ⊢; linarith

theorem cell_rsub {a z : Nat} {t : ℚ} (h : Cell16 a t) (hz : z % 262144 = 0) (hlt : a < z) : Cell16 (z - a) (z - t) ∧ t < z := by
  obtain ⟨k, rfl⟩ : ∃ k, z = k * 262144 := ⟨z / 262144, by omega⟩
  rcases h with h | ⟨n, h1, h2, h3, h4⟩
  · refine ⟨?_, by rw [h]; exact_mod_cast hlt⟩
    left; rw [h, Nat.cast_sub hlt.le]
  · have hkn : n + 1 ≤ k := by omega
    obtain ⟨d, rfl⟩ : ∃ d, k = n + 1 + d := ⟨k - n - 1, by omega⟩
    obtain ⟨g1, g2⟩ := cell_aux'' 262144 d n a h1 h2
    refine ⟨Or.inr ⟨d, g1, g2, ?_, ?_⟩, ?_⟩
    · push_cast at h3 h4 ⊢; linarith
    · push_cast at h3 h4 ⊢; linarith
    · have : (0 : ℚ) ≤ d := by positivity
      push_cast at h3 h4 ⊢; linarith

theorem cell_eq {a : Nat} {t : ℚ} (h : Cell16 a t) (hz : a % 262144 = 0) : t = a := by
  rcases h with h | ⟨n, h1, h2, h3, h4⟩
  · exact h
  · omega

/-- significand and exponent of a finite `f16` -/
theorem fmaf16Sig_spec {x : BitVec f16.w} (hx : f16.IsFin x) :
    (fmaf16Sig (x &&& ~~~f16.signMask) (f16.ex x)).toNat < 2 ^ 11 ∧
    (2 ^ 10 ≤ (fmaf16Sig (x &&& ~~~f16.signMask) (f16.ex x)).toNat ∨ f16.ex x - 1 = 0) ∧ f16.ex x - 1 ≤ 29 ∧
    f16.magVal ℚ (f16.mag x) =
      ((fmaf16Sig (x &&& ~~~f16.signMask) (f16.ex x)).toNat : ℚ) * 2 ^ (((f16.ex x - 1 : Nat) : ℤ) - 24) := by
  have hm : (x &&& ~~~f16.signMask).toNat = f16.mag x := f16.toNat_and_not_signMask x
  have hl : f16.mag x < 31 * 2 ^ 10 := hx
  have he : f16.ex x = f16.mag x / 2 ^ 10 := f16.ex_eq x
  have hs : f16.s = 10 := rfl
  have hb : f16.bias = 15 := by decide
  have h0 : ((x &&& ~~~f16.signMask) &&& f16.sigMask).toNat = f16.mag x % 2 ^ 10 := by
    rw [f16.toNat_and_sigMask, hm]; rfl
  unfold fmaf16Sig
  dsimp only
  by_cases c : f16.ex x ≠ 0
  · rw [if_pos c]
    have h1 : (((x &&& ~~~f16.signMask) &&& f16.sigMask) ||| f16.implicitBit).toNat = 2 ^ 10 + f16.mag x % 2 ^ 10 := by
      rw [f16.or_implicit (by rw [h0]; exact Nat.mod_lt _ (by norm_num)), h0]; rfl
    rw [h1]
    refine ⟨by omega, by omega, by omega, ?_⟩
    have := f16.magVal_at (E := f16.ex x) (m := 2 ^ 10 + f16.mag x % 2 ^ 10) (by omega) (by rw [hs]; omega) (by rw [hs]; omega)
    rw [show (f16.ex x - 1) * 2 ^ f16.s + (2 ^ 10 + f16.mag x % 2 ^ 10) = f16.mag x by rw [hs]; omega] at this
    rw [this, hs, hb]
    congr 2; omega
  · rw [if_neg c, h0]
    rw [not_not] at c
    refine ⟨by omega, by omega, by omega, ?_⟩
    have := f16.magVal_at (E := 1) (m := f16.mag x % 2 ^ 10) (by omega) (by rw [hs]; omega) (by omega)
    rw [show (1 - 1) * 2 ^ f16.s + (f16.mag x % 2 ^ 10) = f16.mag x by omega] at this
    rw [this, hs, hb, c]
    congr 1

/-- the product in fixed point -/
theorem fmaf16Prod_spec {xsig ysig : BitVec f16.w} {mexp : Nat} (hx : xsig.toNat < 2 ^ 11) (hy : ysig.toNat < 2 ^ 11)
    (hm : mexp ≤ 44) : Ok (fmaf16Prod xsig ysig mexp) (fun m =>
      m.toNat < 2 ^ 61 ∧ Cell16 m.toNat (((xsig.toNat * ysig.toNat : Nat) : ℚ) * 2 ^ ((mexp : ℤ) - 5))) := by
  unfold fmaf16Prod
  have hw : f16.w = 16 := rfl
  have hxs : (xsig.setWidth 32).toNat = xsig.toNat := by
    rw [BitVec.toNat_setWidth, Nat.mod_eq_of_lt (by omega)]
  have hys : (ysig.setWidth 32).toNat = ysig.toNat := by
    rw [BitVec.toNat_setWidth, Nat.mod_eq_of_lt (by omega)]
  have hp : xsig.toNat * ysig.toNat < 2 ^ 22 := by
    calc _ < 2 ^ 11 * 2 ^ 11 := Nat.mul_lt_mul_of_lt_of_lt hx hy
      _ = _ := by norm_num
  refine Ok.bind (mulC_spec (by rw [hxs, hys]; omega)) ?_
  intro m hm32
  rw [hxs, hys] at hm32
  generalize xsig.toNat * ysig.toNat = P at *
  have hm64 : (m.setWidth 64).toNat = P := by
    rw [BitVec.toNat_setWidth, hm32, Nat.mod_eq_of_lt (by omega)]
  dsimp only
  generalize (m.setWidth 64) = m64 at *
  by_cases c : 5 ≤ mexp
  · rw [if_pos c]
    have hlt : P * 2 ^ (mexp - 5) < 2 ^ 61 := by
      calc _ < 2 ^ 22 * 2 ^ (mexp - 5) := Nat.mul_lt_mul_of_pos_right hp (Nat.two_pow_pos _)
        _ = 2 ^ (22 + (mexp - 5)) := (Nat.pow_add _ _ _).symm
        _ ≤ _ := Nat.pow_le_pow_right (by norm_num) (by omega)
    refine Ok.bind (nsubC_spec (by omega)) ?_
    rintro n hn
    refine Ok.bind (assertC_spec ?_) ?_
    · rw [decide_eq_true_iff]
      split
      · apply BitVec.eq_of_toNat_eq
        rw [BitVec.toNat_ushiftRight, Nat.shiftRight_eq_div_pow, hm64]
        show _ = 0
        apply Nat.div_eq_of_lt
        exact lt_of_lt_of_le hp (Nat.pow_le_pow_right (by norm_num) (by omega))
      · rfl
    intro _ _
    refine (shlC_spec (by omega)).mono ?_
    intro r hr
    rw [hm64, Nat.mod_eq_of_lt (by omega)] at hr
    refine ⟨by omega, Or.inl ?_⟩
    rw [hr, show (mexp : ℤ) - 5 = ((mexp - 5 : Nat) : ℤ) by omega, zpow_natCast]
    push_cast; rfl
  · rw [if_neg c]
    rw [not_le] at c
    refine Ok.bind (shrC_spec (by omega)) ?_
    intro t ht
    rw [hm64] at ht
    have hst : decide (m64 &&& 0b11111#64 ≠ 0#64) = decide (P % 32 ≠ 0) := by
      rw [decide_eq_decide, ne_eq, ne_eq, ← BitVec.toNat_inj, BitVec.toNat_and, hm64]
      show ¬ (P &&& (2 ^ 5 - 1) = 0) ↔ _
      rw [Nat.and_two_pow_sub_one_eq_mod]
    rw [hst]
    have hb := toNat_ofBoolW (w := 64) (by decide) (decide (P % 32 ≠ 0))
    have hq : (2 : ℚ) ^ ((mexp : ℤ) - 5) = (2 ^ (5 - mexp))⁻¹ := by
      rw [show (mexp : ℤ) - 5 = -((5 - mexp : Nat) : ℤ) by omega, zpow_neg, zpow_natCast]
    obtain ⟨j, hj⟩ : ∃ j, j = 5 - mexp := ⟨_, rfl⟩
    rw [← hj] at hq ht
    have hj1 : 1 ≤ j := by omega
    have hj5 : j ≤ 5 := by omega
    have hjp : (0 : ℚ) < 2 ^ j := by positivity
    have hdm := Nat.div_add_mod P (2 ^ j)
    have hml := Nat.mod_lt P (Nat.two_pow_pos j)
    have htl : t.toNat < 2 ^ 22 := by rw [ht]; exact lt_of_le_of_lt (Nat.div_le_self _ _) hp
    refine Ok.pure' ?_
    rw [BitVec.toNat_or, hb, hq]
    by_cases c2 : P % 32 = 0
    · have hd : P % 2 ^ j = 0 := by
        have : 2 ^ j ∣ 32 := by
          rw [show 32 = 2 ^ 5 from rfl]; exact Nat.pow_dvd_pow 2 hj5
        exact Nat.mod_eq_zero_of_dvd (this.trans (Nat.dvd_of_mod_eq_zero c2))
      have e : t.toNat ||| (decide (P % 32 ≠ 0)).toNat = t.toNat := by simp [c2]
      rw [e]
      refine ⟨by omega, Or.inl ?_⟩
      rw [hd, Nat.add_zero, ← ht] at hdm
      rw [← hdm]
      push_cast
      field_simp
    · have e : t.toNat ||| (decide (P % 32 ≠ 0)).toNat = t.toNat / 2 * 2 + 1 := by
        simp only [ne_eq, c2, not_false_eq_true, decide_true, Bool.toNat_true]
        rcases Nat.even_or_odd' t.toNat with ⟨k, hk | hk⟩
        · rw [hk, Nat.mul_comm 2 k, Nat.or_comm, or_eq_add (k := 1) (by norm_num) (by simp)]; omega
        · have h2 : k * 2 ||| 1 = k * 2 + 1 := by
            rw [Nat.or_comm, or_eq_add (k := 1) (by norm_num) (by simp)]; omega
          rw [hk, Nat.mul_comm 2 k, ← h2, Nat.or_assoc, Nat.or_self, h2]; omega
      rw [e]
      refine ⟨by omega, Or.inr ⟨t.toNat / 2 ^ 18, by omega, by omega, ?_, ?_⟩⟩
      · rw [← div_eq_mul_inv, lt_div_iff₀ hjp]
        have : t.toNat / 2 ^ 18 * 2 ^ 18 * 2 ^ j < P := by
          rcases Nat.lt_or_ge (t.toNat / 2 ^ 18 * 2 ^ 18 * 2 ^ j) P with h | h
          · exact h
          · exfalso
            apply c2
            have h3 : t.toNat / 2 ^ 18 * 2 ^ 18 * 2 ^ j ≤ t.toNat * 2 ^ j := Nat.mul_le_mul_right _ (by omega)
            rw [← ht, Nat.mul_comm] at hdm
            have : P = t.toNat / 2 ^ 18 * 2 ^ 18 * 2 ^ j := by omega
            rw [this]
            have : t.toNat / 2 ^ 18 * 2 ^ 18 * 2 ^ j = 32 * (t.toNat / 2 ^ 18 * 2 ^ 13 * 2 ^ j) := by ring
            rw [this]; exact Nat.mul_mod_right _ _
        exact_mod_cast this
      · rw [← div_eq_mul_inv, div_lt_iff₀ hjp]
        have : P < (t.toNat / 2 ^ 18 + 1) * 2 ^ 18 * 2 ^ j := by
          have h3 : (t.toNat + 1) * 2 ^ j ≤ (t.toNat / 2 ^ 18 + 1) * 2 ^ 18 * 2 ^ j := Nat.mul_le_mul_right _ (by omega)
          rw [← ht, Nat.mul_comm] at hdm
          rw [Nat.add_mul, Nat.one_mul] at h3
          omega
        exact_mod_cast this

theorem fmaf16_main (N : FPU f16) {x y z : BitVec f16.w} (hx : f16.IsFin x) (hy : f16.IsFin y) (hz : f16.IsFin z)
    (hxz : ¬ f16.IsZero x) (hyz : ¬ f16.IsZero y) (hzz : ¬ f16.IsZero z) :
    Ok (fmaf16 N x y z) (fun r => f16.Rounds (f16.val x * f16.val y + f16.val z) r ∧
      (f16.val x * f16.val y + f16.val z = 0 → f16.sign r = ((f16.sign x ^^ f16.sign y) && f16.sign z))) := by
  unfold fmaf16
  dsimp only
  have hs : f16.s = 10 := rfl
  have hb : f16.bias = 15 := by decide
  have em : f16.expMask.toNat = 31 * 2 ^ 10 := by decide
  have mx : (x &&& ~~~f16.signMask).toNat = f16.mag x := f16.toNat_and_not_signMask x
  have my : (y &&& ~~~f16.signMask).toNat = f16.mag y := f16.toNat_and_not_signMask y
  have mz : (z &&& ~~~f16.signMask).toNat = f16.mag z := f16.toNat_and_not_signMask z
  have lx : f16.mag x < 31 * 2 ^ 10 := hx
  have ly : f16.mag y < 31 * 2 ^ 10 := hy
  have lz : f16.mag z < 31 * 2 ^ 10 := hz
  rw [if_neg (by
    simp only [BitVec.le_def]
    rw [mx, my, em]
    unfold IsZero at hxz hyz
    omega), if_neg (by rw [mz]; exact hzz), if_neg (by rw [BitVec.le_def, mz, em]; omega)]
  obtain ⟨x1, x2, x3, x4⟩ := fmaf16Sig_spec hx
  obtain ⟨y1, y2, y3, y4⟩ := fmaf16Sig_spec hy
  obtain ⟨z1, z2, z3, z4⟩ := fmaf16Sig_spec hz
  generalize fmaf16Sig (x &&& ~~~f16.signMask) (f16.ex x) = xs at *
  generalize fmaf16Sig (y &&& ~~~f16.signMask) (f16.ex y) = ys at *
  generalize fmaf16Sig (z &&& ~~~f16.signMask) (f16.ex z) = zs at *
  generalize f16.ex x - 1 = xe at *
  generalize f16.ex y - 1 = ye at *
  generalize f16.ex z - 1 = ze at *
  have vx : f16.val x = (if f16.sign x then -1 else 1) * (xs.toNat * 2 ^ ((xe : ℤ) - 24)) := by rw [f16.val_sign, x4]
  have vy : f16.val y = (if f16.sign y then -1 else 1) * (ys.toNat * 2 ^ ((ye : ℤ) - 24)) := by rw [f16.val_sign, y4]
  have vz : f16.val z = (if f16.sign z then -1 else 1) * (zs.toNat * 2 ^ ((ze : ℤ) - 24)) := by rw [f16.val_sign, z4]
  have z64 : (zs.toNat : ℚ) * 2 ^ ((ze : ℤ) - 24) = ((zs.toNat * 2 ^ (ze + 19) : Nat) : ℚ) * 2 ^ (-43 : ℤ) := by
    push_cast
    rw [mul_assoc, ← zpow_natCast, ← zpow_add₀ (by norm_num)]; congr 2; push_cast; ring
  have p64 : (xs.toNat * 2 ^ ((xe : ℤ) - 24)) * (ys.toNat * 2 ^ ((ye : ℤ) - 24)) =
      ((xs.toNat * ys.toNat : Nat) : ℚ) * 2 ^ (((xe + ye : Nat) : ℤ) - 5) * 2 ^ (-43 : ℤ) := by
    have e1 : (2 : ℚ) ^ ((xe : ℤ) - 24) * 2 ^ ((ye : ℤ) - 24) = 2 ^ (((xe + ye : Nat) : ℤ) - 5) * 2 ^ (-43 : ℤ) := by
      rw [← zpow_add₀ (by norm_num), ← zpow_add₀ (by norm_num)]; congr 1; push_cast; ring
    rw [Nat.cast_mul]
    linear_combination (xs.toNat : ℚ) * ys.toNat * e1
  have hxs0 : xs.toNat ≠ 0 := by
    intro h
    apply hxz
    refine f16.val_eq_zero_iff.mp ?_; rw [vx, h]; simp
  have hys0 : ys.toNat ≠ 0 := by
    intro h
    apply hyz
    refine f16.val_eq_zero_iff.mp ?_; rw [vy, h]; simp
  have hzs0 : zs.toNat ≠ 0 := by
    intro h
    apply hzz
    refine f16.val_eq_zero_iff.mp ?_; rw [vz, h]; simp
  have vxy : f16.val x * f16.val y = (if (f16.sign x ^^ f16.sign y) then -1 else 1) *
      (((xs.toNat * ys.toNat : Nat) : ℚ) * 2 ^ (((xe + ye : Nat) : ℤ) - 5) * 2 ^ (-43 : ℤ)) := by
    rw [← p64, vx, vy]
    cases f16.sign x <;> cases f16.sign y <;> simp
  rw [z64] at vz
  have hzl : zs.toNat * 2 ^ (ze + 19) < 2 ^ 59 := by
    calc _ < 2 ^ 11 * 2 ^ (ze + 19) := Nat.mul_lt_mul_of_pos_right z1 (Nat.two_pow_pos _)
      _ = 2 ^ (11 + (ze + 19)) := (Nat.pow_add _ _ _).symm
      _ ≤ _ := Nat.pow_le_pow_right (by norm_num) (by omega)
  have hpp : (0 : ℚ) < 2 ^ (-43 : ℤ) := by positivity
  have ht0 : 0 < ((xs.toNat * ys.toNat : Nat) : ℚ) * 2 ^ (((xe + ye : Nat) : ℤ) - 5) := by
    have : 0 < xs.toNat * ys.toNat := Nat.mul_pos (Nat.pos_of_ne_zero hxs0) (Nat.pos_of_ne_zero hys0)
    have : (0 : ℚ) < ((xs.toNat * ys.toNat : Nat) : ℚ) := by exact_mod_cast this
    positivity
  have hz0 : 0 < zs.toNat * 2 ^ (ze + 19) := Nat.mul_pos (Nat.pos_of_ne_zero hzs0) (Nat.two_pow_pos _)
  have hz0' : (0 : ℚ) < ((zs.toNat * 2 ^ (ze + 19) : Nat) : ℚ) := by exact_mod_cast hz0
  rw [hb, show (15 - 1) * 2 + 15 + 1 = 44 from rfl]
  by_cases c : xe + ye > 44
  · rw [if_pos c]
    have h0 : (0#f16.w).toNat < 2 ^ f16.s := by decide
    obtain ⟨f1, f2⟩ := f16.fromParts_facts (t := f16.sign x ^^ f16.sign y) (n := f16.expSat) (by decide) h0
    rw [show f16.expSat * 2 ^ f16.s + (0#f16.w).toNat = f16.infRep by decide] at f2
    refine Ok.pure' ?_
    have hbig : (2 : ℚ) ^ 60 ≤ ((xs.toNat * ys.toNat : Nat) : ℚ) * 2 ^ (((xe + ye : Nat) : ℤ) - 5) := by
      have h1 : 2 ^ 10 * 2 ^ 10 ≤ xs.toNat * ys.toNat := Nat.mul_le_mul (by omega) (by omega)
      have h1' : (2 : ℚ) ^ 20 ≤ ((xs.toNat * ys.toNat : Nat) : ℚ) := by exact_mod_cast h1
      have h2 : (2 : ℚ) ^ (40 : ℤ) ≤ 2 ^ (((xe + ye : Nat) : ℤ) - 5) := zpow_le_zpow_right₀ (by norm_num) (by omega)
      calc (2 : ℚ) ^ 60 = 2 ^ 20 * 2 ^ (40 : ℤ) := by norm_num
        _ ≤ _ := mul_le_mul h1' h2 (by positivity) (by positivity)
    have hzl' : (((zs.toNat * 2 ^ (ze + 19) : Nat) : ℚ)) ≤ 2 ^ 59 := by exact_mod_cast hzl.le
    generalize ((xs.toNat * ys.toNat : Nat) : ℚ) * 2 ^ (((xe + ye : Nat) : ℤ) - 5) = τ at *
    generalize (((zs.toNat * 2 ^ (ze + 19) : Nat) : ℚ)) = ζ at *
    have key : ∃ w : ℚ, 2 ^ 59 ≤ w ∧ f16.val x * f16.val y + f16.val z =
        (if (f16.sign x ^^ f16.sign y) then -1 else 1) * (w * 2 ^ (-43 : ℤ)) := by
      rw [vxy, vz]
      rcases hsx : (f16.sign x ^^ f16.sign y) <;> rcases hsz : f16.sign z
      · exact ⟨τ + ζ, by linarith, by simp; ring⟩
      · exact ⟨τ - ζ, by linarith, by simp; ring⟩
      · exact ⟨τ - ζ, by linarith, by simp; ring⟩
      · exact ⟨τ + ζ, by linarith, by simp; ring⟩
    obtain ⟨w, hw, hv⟩ := key
    have hwp : (0 : ℚ) < w := lt_of_lt_of_le (by positivity) hw
    refine ⟨f16.rounds_signed (mul_pos hwp hpp) hv ⟨?_, f1⟩, ?_⟩
    · rw [f2]
      apply f16.isRNE_overflow
      rw [hb]
      calc (2 : ℚ) ^ (((15 : Nat) : ℤ) + 1) = 2 ^ 59 * 2 ^ (-43 : ℤ) := by norm_num
        _ ≤ _ := mul_le_mul_of_nonneg_right hw hpp.le
    · intro h
      rw [hv] at h
      have := mul_pos hwp hpp
      exfalso
      revert h
      cases (f16.sign x ^^ f16.sign y) <;> simp <;> exact hwp.ne'
  rw [if_neg c]
  refine Ok.bind (fmaf16Prod_spec x1 y1 (by omega)) ?_
  rintro m ⟨m1, m2⟩
  generalize ((xs.toNat * ys.toNat : Nat) : ℚ) * 2 ^ (((xe + ye : Nat) : ℤ) - 5) = τ at *
  refine Ok.bind (nsubC_spec (by rw [hs]; omega)) ?_
  intro t ht
  refine Ok.bind (nsubC_spec (by rw [ht, hs]; omega)) ?_
  intro zsh hzsh
  rw [ht, hs] at hzsh
  have hzsh : zsh = ze + 19 := by omega
  refine Ok.bind (shlC_spec (by omega)) ?_
  intro Z hZ
  rw [BitVec.toNat_setWidth, hzsh, Nat.mod_eq_of_lt (a := zs.toNat) (by omega), Nat.mod_eq_of_lt (by omega)] at hZ
  rw [← hZ] at hz0 hzl vz hz0'
  have hZm : Z.toNat % 2 ^ 18 = 0 := by
    rw [hZ, Nat.pow_add, show 2 ^ 19 = 2 * 2 ^ 18 by norm_num, ← Nat.mul_assoc, ← Nat.mul_assoc]
    exact Nat.mul_mod_left _ _
  refine Ok.bind (P := fun p => ∃ v : ℚ, Cell16 p.2.toNat v ∧ ((v = 0 ∧ p.1 = false ∧ (f16.sign x ^^ f16.sign y) ≠ f16.sign z) ∨ 0 < v) ∧
    f16.val x * f16.val y + f16.val z = (if p.1 then -1 else 1) * (v * 2 ^ (-43 : ℤ))) ?_ ?_
  · rw [vxy, vz]
    generalize (f16.sign x ^^ f16.sign y) = mn
    generalize f16.sign z = zn
    by_cases c1 : (mn ^^ zn) = true
    · rw [if_pos c1]
      by_cases c2 : Z < m
      · rw [if_pos c2]
        rw [BitVec.lt_def] at c2
        obtain ⟨q1, q2⟩ := cell_sub m2 hZm c2
        refine Ok.pure' ⟨τ - Z.toNat, ?_, Or.inr (by linarith), ?_⟩
        · have : (m - Z).toNat = m.toNat - Z.toNat := by
            rw [BitVec.toNat_sub_of_le (by rw [BitVec.le_def]; omega)]
          rw [this]; exact q1
        · revert c1; cases mn <;> cases zn <;> simp <;> ring
      · rw [if_neg c2]
        by_cases c3 : m = Z
        · rw [if_pos c3]
          have := cell_eq m2 (by rw [c3]; exact hZm)
          refine Ok.pure' ⟨0, ?_, Or.inl ⟨rfl, rfl, ?_⟩, ?_⟩
          · left; rw [c3]; simp
          · revert c1; cases mn <;> cases zn <;> simp
          · rw [this, c3]; revert c1; cases mn <;> cases zn <;> simp
        · rw [if_neg c3]
          have c4 : m.toNat < Z.toNat := by
            rw [BitVec.lt_def] at c2
            have : m.toNat ≠ Z.toNat := fun h => c3 (BitVec.eq_of_toNat_eq h)
            omega
          obtain ⟨q1, q2⟩ := cell_rsub m2 hZm c4
          refine Ok.pure' ⟨Z.toNat - τ, ?_, Or.inr (by linarith), ?_⟩
          · have : (Z - m).toNat = Z.toNat - m.toNat := by
              rw [BitVec.toNat_sub_of_le (by rw [BitVec.le_def]; omega)]
            rw [this]; exact q1
          · revert c1; cases mn <;> cases zn <;> simp <;> ring
    · rw [if_neg c1]
      refine Ok.bind (addC_spec (by omega)) ?_
      intro s hs
      refine Ok.pure' ⟨τ + Z.toNat, by rw [hs]; exact cell_add m2 hZm, Or.inr (by linarith), ?_⟩
      revert c1; cases mn <;> cases zn <;> simp <;> ring
  rintro ⟨rneg, r64⟩ ⟨v, v1, v2, v3⟩
  dsimp only at v1 v2 v3 ⊢
  refine Ok.bind (f16FromU2143_spec r64) ?_
  rintro r ⟨_, r2⟩
  have h0 : (0#f16.w).toNat < 2 ^ f16.s := by decide
  obtain ⟨f1, _⟩ := f16.fromParts_facts (t := rneg) (n := 15) (by decide) h0
  obtain ⟨g1, g2⟩ := f16.copysign_facts r (f16.fromParts rneg 15 0#f16.w)
  have hr := cell_rne v1 r2
  refine Ok.pure' ?_
  rw [v3]
  rcases v2 with ⟨rfl, rfl, hne⟩ | hv
  · refine ⟨⟨?_, fun h => by simp at h⟩, fun _ => ?_⟩
    · rw [g2]; simpa using hr
    · rw [g1, f1]
      revert hne
      cases (f16.sign x ^^ f16.sign y) <;> cases f16.sign z <;> simp
  · refine ⟨f16.rounds_signed (mul_pos hv hpp) rfl ⟨by rw [g2]; exact hr, by rw [g1, f1]⟩, ?_⟩
    intro h
    exfalso
    revert h
    cases rneg <;> simp <;> exact hv.ne'

/-- `fmaf16` is the correctly rounded fused multiply-add, for all inputs -/
theorem fmaf16_spec (N : FPU f16) (x y z : BitVec f16.w) : Ok (fmaf16 N x y z) (f16.FmaSpec x y z) := by
  have em : f16.expMask.toNat = f16.infRep := by decide
  have mx : (x &&& ~~~f16.signMask).toNat = f16.mag x := f16.toNat_and_not_signMask x
  have my : (y &&& ~~~f16.signMask).toNat = f16.mag y := f16.toNat_and_not_signMask y
  have mz : (z &&& ~~~f16.signMask).toNat = f16.mag z := f16.toNat_and_not_signMask z
  by_cases c1 : ¬ f16.IsFin x ∨ ¬ f16.IsFin y ∨ f16.IsZero x ∨ f16.IsZero y
  · unfold fmaf16
    dsimp only
    rw [if_pos (by
      simp only [BitVec.le_def]
      rw [mx, my, em]
      unfold IsZero IsFin at c1
      omega)]
    exact Ok.pure' (f16.fma_special N c1)
  obtain ⟨hx, c1⟩ := not_or.mp c1
  obtain ⟨hy, c1⟩ := not_or.mp c1
  obtain ⟨hxz, hyz⟩ := not_or.mp c1
  rw [not_not] at hx hy
  have nix : ¬ f16.IsInf x := by unfold IsInf; unfold IsFin at hx; omega
  have niy : ¬ f16.IsInf y := by unfold IsInf; unfold IsFin at hy; omega
  have nnx := IsFin.not_nan f16 hx
  have nny := IsFin.not_nan f16 hy
  have hin : ¬ ((x &&& ~~~f16.signMask).toNat = 0 ∨ f16.expMask ≤ (x &&& ~~~f16.signMask) ∨
      (y &&& ~~~f16.signMask).toNat = 0 ∨ f16.expMask ≤ (y &&& ~~~f16.signMask)) := by
    simp only [BitVec.le_def]
    rw [mx, my, em]
    unfold IsZero at hxz hyz
    unfold IsFin at hx hy
    omega
  by_cases c2 : f16.IsZero z
  · unfold fmaf16
    dsimp only
    rw [if_neg hin, if_pos (by rw [mz]; exact c2)]
    have hv : f16.val z = 0 := (f16.val_eq_zero_iff).mpr c2
    have hf := f16.isZero_isFin c2
    obtain ⟨m1, m2⟩ := (N.mul_spec x y).1 hx hy
    refine Ok.pure' ⟨fun _ _ _ => ?_, ?_, ?_, ?_, ?_⟩
    · rw [hv, add_zero]
      refine ⟨m1, fun h => ?_⟩
      rcases mul_eq_zero.mp h with h | h
      · exact absurd ((f16.val_eq_zero_iff).mp h) hxz
      · exact absurd ((f16.val_eq_zero_iff).mp h) hyz
    · rintro (h | h | h)
      · exact absurd h nnx
      · exact absurd h nny
      · exact absurd h (IsFin.not_nan f16 hf)
    · rintro _ (h | h)
      · exact absurd h.1 nix
      · exact absurd h.2 niy
    · rintro _ _ _ (h | h)
      · exact absurd h nix
      · exact absurd h niy
    · intro _ _ h; unfold IsInf at h; unfold IsFin at hf; omega
  by_cases c3 : f16.IsFin z
  · have niz : ¬ f16.IsInf z := by unfold IsInf; unfold IsFin at c3; omega
    have nnz := IsFin.not_nan f16 c3
    refine Ok.mono (fmaf16_main N hx hy c3 hxz hyz c2) ?_
    intro r hr
    refine ⟨fun _ _ _ => hr, ?_, ?_, ?_, ?_⟩
    · rintro (h | h | h)
      · exact absurd h nnx
      · exact absurd h nny
      · exact absurd h nnz
    · rintro _ (h | h)
      · exact absurd h.1 nix
      · exact absurd h.2 niy
    · rintro _ _ _ (h | h)
      · exact absurd h nix
      · exact absurd h niy
    · intro _ _ h; exact absurd h niz
  · unfold fmaf16
    dsimp only
    rw [if_neg hin, if_neg (by rw [mz]; exact c2), if_pos (by
      rw [BitVec.le_def, mz, em]; unfold IsFin at c3; omega)]
    refine Ok.pure' ⟨fun _ _ h => absurd h c3, ?_, ?_, ?_, fun _ _ _ => rfl⟩
    · rintro (h | h | h)
      · exact absurd h nnx
      · exact absurd h nny
      · exact h
    · rintro _ (h | h)
      · exact absurd h.1 nix
      · exact absurd h.2 niy
    · rintro _ _ _ (h | h)
      · exact absurd h nix
      · exact absurd h niy

end Verif
