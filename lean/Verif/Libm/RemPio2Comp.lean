import Verif.Libm.RemPio2Sum
/-! # The end of `rem_pio2_large`: the two parts of the result -/
namespace Verif
open Fmt

namespace Pio2
open Hypot

section
variable {iq : ℕ → ℤ} {q0 : ℤ} {jp jz : ℕ}

theorem av_bounds (hjp : jp ≤ 4) (hd : Dig iq (jz + 1)) {d : ℕ} (hdj : d ≤ jz) :
    0 ≤ av iq q0 jp jz d ∧ av iq q0 jp jz d ≤ 5 * 2 ^ (q0 + 25 - 24 * (d : ℤ)) ∧ Mul2 (q0 - 23 - 24 * (d : ℤ)) (av iq q0 jp jz d) := by
  obtain ⟨h1, h2⟩ := Fq_bounds (i := jz - d) (c := min jp d + 1) hd (by omega)
  have h3 : ((min jp d + 1 : ℕ) : ℤ) * 2 ^ 48 ≤ 5 * 2 ^ 48 := mul_le_mul_of_nonneg_right (by omega) (by norm_num)
  have h1R : (0 : ℝ) ≤ Fq iq (jz - d) (min jp d + 1) := by exact_mod_cast h1
  have h2R : (Fq iq (jz - d) (min jp d + 1) : ℝ) ≤ 5 * 2 ^ 48 := by exact_mod_cast h2.trans h3
  have hp : (0 : ℝ) < 2 ^ (q0 - 23 - 24 * (d : ℤ)) := by positivity
  refine ⟨by unfold av; positivity, ?_, ⟨_, rfl⟩⟩
  have e : (5 : ℝ) * 2 ^ (q0 + 25 - 24 * (d : ℤ)) = 5 * 2 ^ 48 * 2 ^ (q0 - 23 - 24 * (d : ℤ)) := by
    rw [mul_assoc, ← zpow_natCast, ← zpow_add₀ (by norm_num)]; congr 2; push_cast; ring
  rw [e]
  exact mul_le_mul_of_nonneg_right h2R hp.le

theorem Tk_le (hjp : jp ≤ 4) (hd : Dig iq (jz + 1)) {k : ℕ} (hk : k ≤ jz + 1) :
    Tk (av iq q0 jp jz) jz k ≤ 6 * 2 ^ (q0 + 25 - 24 * (k : ℤ)) := by
  induction hk using Nat.decreasingInduction with
  | self => unfold Tk; rw [Finset.Ico_self, Finset.sum_empty]; positivity
  | of_succ k hk ih =>
    obtain ⟨_, h2, _⟩ := av_bounds (q0 := q0) hjp hd (d := k) (by omega)
    rw [Tk_succ (by omega)]
    have e : (2 : ℝ) ^ (q0 + 25 - 24 * ((k + 1 : ℕ) : ℤ)) = 2 ^ (q0 + 25 - 24 * (k : ℤ)) / 2 ^ 24 := by
      rw [← zpow_natCast, ← zpow_sub₀ (by norm_num)]; congr 1; push_cast; ring
    rw [e] at ih
    have hp : (0 : ℝ) < 2 ^ (q0 + 25 - 24 * (k : ℤ)) := by positivity
    norm_num at ih
    linarith

theorem av_zero (hd : Dig iq (jz + 1)) (ht : iq jz ≠ 0) : 3 / 2 * 2 ^ q0 ≤ av iq q0 jp jz 0 := by
  have h1 : 1 ≤ iq jz := by have := (hd jz (by omega)).1; omega
  have h1R : (1 : ℝ) ≤ iq jz := by exact_mod_cast h1
  have hp : (0 : ℝ) < 2 ^ q0 := by positivity
  have e : av iq q0 jp jz 0 = 13176794 * iq jz * (2 ^ q0 / 2 ^ 23) := by
    unfold av Fq
    rw [Nat.min_zero, Nat.sub_zero]
    simp only [zero_add, Finset.sum_range_one, add_zero]
    rw [show q0 - 23 - 24 * ((0 : ℕ) : ℤ) = q0 - 23 by push_cast; ring, zpow_sub₀ (by norm_num)]
    simp only [pd, List.getD_cons_zero]
    push_cast
    norm_num
  rw [e]
  norm_num
  nlinarith

theorem av_one (hd : Dig iq (jz + 1)) (hj : 1 ≤ jz) (ht : iq jz ≠ 0) : av iq q0 jp jz 1 ≤ (1 + 1 / 2 ^ 22) * av iq q0 jp jz 0 := by
  have h1 : 1 ≤ iq jz := by have := (hd jz (by omega)).1; omega
  have h1R : (1 : ℝ) ≤ iq jz := by exact_mod_cast h1
  have h2 : iq (jz - 1) < 2 ^ 24 := (hd (jz - 1) (by omega)).2
  have h2R : (iq (jz - 1) : ℝ) ≤ 2 ^ 24 := by exact_mod_cast h2.le
  have hp : (0 : ℝ) < 2 ^ q0 := by positivity
  have e : av iq q0 jp jz 0 = 13176794 * iq jz * (2 ^ q0 / 2 ^ 23) := by
    unfold av Fq
    rw [Nat.min_zero, Nat.sub_zero]
    simp only [zero_add, Finset.sum_range_one, add_zero]
    rw [show q0 - 23 - 24 * ((0 : ℕ) : ℤ) = q0 - 23 by push_cast; ring, zpow_sub₀ (by norm_num)]
    simp only [pd, List.getD_cons_zero]
    push_cast
    norm_num
  have e1 : av iq q0 jp jz 1 ≤ (13176794 * iq (jz - 1) + 2 ^ 24 * iq jz) * (2 ^ q0 / 2 ^ 47) := by
    unfold av
    rw [show q0 - 23 - 24 * ((1 : ℕ) : ℤ) = q0 - 47 by push_cast; ring, zpow_sub₀ (by norm_num)]
    refine mul_le_mul_of_nonneg_right ?_ (by positivity)
    have hpd1 : pd 1 ≤ 2 ^ 24 := by decide +kernel
    have hpd0 : pd 0 = 13176794 := by decide +kernel
    have : Fq iq (jz - 1) (min jp 1 + 1) ≤ 13176794 * iq (jz - 1) + 2 ^ 24 * iq jz := by
      rcases Nat.eq_zero_or_pos jp with h | h
      · rw [h, Nat.zero_min]
        unfold Fq
        rw [Finset.sum_range_one, hpd0, Nat.add_zero]
        push_cast; omega
      · rw [min_eq_right (by omega : 1 ≤ jp)]
        unfold Fq
        rw [Finset.sum_range_succ, Finset.sum_range_one, hpd0, Nat.add_zero, Nat.sub_add_cancel hj]
        have : (pd 1 : ℤ) * iq jz ≤ 2 ^ 24 * iq jz := mul_le_mul_of_nonneg_right (by exact_mod_cast hpd1) (by omega)
        push_cast; omega
    exact_mod_cast this
  refine e1.trans ?_
  rw [e]
  have h3 : (13176794 * (iq (jz - 1) : ℝ) + 2 ^ 24 * iq jz) * (2 ^ q0 / 2 ^ 47) ≤ (13176794 * 2 ^ 24 + 2 ^ 24 * iq jz) * (2 ^ q0 / 2 ^ 47) :=
    mul_le_mul_of_nonneg_right (by linarith) (by positivity)
  refine h3.trans ?_
  rw [show (13176794 * 2 ^ 24 + 2 ^ 24 * (iq jz : ℝ)) * (2 ^ q0 / 2 ^ 47) = (13176794 + iq jz) * (2 ^ q0 / 2 ^ 23) by ring,
    show (1 + 1 / 2 ^ 22) * (13176794 * (iq jz : ℝ) * (2 ^ q0 / 2 ^ 23)) = ((1 + 1 / 2 ^ 22) * (13176794 * (iq jz : ℝ))) * (2 ^ q0 / 2 ^ 23) by ring]
  refine mul_le_mul_of_nonneg_right ?_ (by positivity)
  norm_num
  linarith

theorem Tk_zero (a : ℕ → ℝ) (jz : ℕ) : Tk a jz 0 = ∑ d ∈ Finset.range (jz + 1), a d := by
  unfold Tk; rw [Finset.range_eq_Ico]

theorem Tk_anti {a : ℕ → ℝ} (ha : ∀ d, d ≤ jz → 0 ≤ a d) (k : ℕ) : Tk a jz (k + 1) ≤ Tk a jz k := by
  by_cases h : k ≤ jz
  · rw [Tk_succ h]; linarith [ha k h]
  · unfold Tk; rw [Finset.Ico_eq_empty (by omega), Finset.Ico_eq_empty (by omega)]

theorem Tk_anti' {a : ℕ → ℝ} (ha : ∀ d, d ≤ jz → 0 ≤ a d) {k l : ℕ} (h : k ≤ l) : Tk a jz l ≤ Tk a jz k := by
  induction h with
  | refl => exact le_refl _
  | step h ih => exact (Tk_anti ha _).trans ih

/-- bounds for the errors of the sums -/
noncomputable def Eb (a : ℕ → ℝ) (jz : ℕ) : ℕ → ℝ
  | 0 => U * Tk a jz 0 + (1 + U) * (U * Tk a jz 1 + (1 + U) * (((1 + U) ^ (jz + 1 - 2) - 1) * Tk a jz 2))
  | 1 => U * Tk a jz 1 + (1 + U) * (((1 + U) ^ (jz + 1 - 2) - 1) * Tk a jz 2)
  | k + 2 => ((1 + U) ^ (jz + 1 - (k + 2)) - 1) * Tk a jz (k + 2)

section
variable {N : FPU f64}

theorem sum_main (hjz : jz ≤ 12) (hjp : jp ≤ 4) (hq1 : -400 ≤ q0) (hq2 : q0 ≤ 30) (hd : Dig iq (jz + 1)) (ht : iq jz ≠ 0) {fq : ℕ → D}
    (hf : ∀ d, d ≤ jz → Fv (fq d) (av iq q0 jp jz d)) :
    Ok (sumFq N jz fq) fun r => ∃ y, Fv r y ∧ av iq q0 jp jz 0 ≤ y ∧ Mul2 (q0 - 23 - 24 * (jz : ℤ)) y ∧
      |y - Tk (av iq q0 jp jz) jz 0| ≤ 1.501 / 2 ^ 53 * Tk (av iq q0 jp jz) jz 0 := by
  obtain ⟨a, hadef⟩ : ∃ a, a = av iq q0 jp jz := ⟨_, rfl⟩
  have ha : ∀ d, d ≤ jz → 0 ≤ a d := fun d h => by rw [hadef]; exact (av_bounds hjp hd h).1
  have hg : ∀ d, d ≤ jz → Mul2 (q0 - 23 - 24 * (jz : ℤ)) (a d) := fun d h => by
    rw [hadef]; exact (av_bounds hjp hd h).2.2.mono (by omega)
  have hT := fun k (hk : k ≤ jz + 1) => Tk_le (q0 := q0) (jp := jp) hjp hd hk
  have ha0 := av_zero (q0 := q0) (jp := jp) hd ht
  rw [← hadef] at hf hT ha0 ⊢
  have hTn := Tk_nonneg (a := a) (jz := jz) ha
  have hT0 : a 0 ≤ Tk a jz 0 := by rw [Tk_succ (by omega)]; linarith [hTn 1]
  have hU : (0 : ℝ) < U := by unfold U; positivity
  have hp : (0 : ℝ) < 2 ^ q0 := by positivity
  have hT1 := Tk_anti (jz := jz) ha 0
  have hT2 : Tk a jz 2 ≤ 1 / 2 ^ 21 * Tk a jz 0 := by
    by_cases h2 : 2 ≤ jz + 1
    · have := hT 2 h2
      have e : (2 : ℝ) ^ (q0 + 25 - 24 * ((2 : ℕ) : ℤ)) = 2 ^ q0 / 2 ^ 23 := by
        rw [← zpow_natCast, ← zpow_sub₀ (by norm_num)]; congr 1; push_cast; ring
      rw [e] at this
      norm_num at this ⊢
      linarith
    · have : Tk a jz 2 = 0 := by unfold Tk; rw [Finset.Ico_eq_empty (by omega)]; simp
      rw [this]
      have := hTn 0
      positivity
  have hpw : ∀ n, n ≤ 13 → (1 + U) ^ n - 1 ≤ 1 / 2 ^ 49 := by
    intro n hn
    have h1 : (1 + U) ^ n ≤ (1 + U) ^ 13 := pow_le_pow_right₀ (by linarith) hn
    have h2 : (1 + U) ^ 13 - 1 ≤ 1 / 2 ^ 49 := by unfold U; norm_num
    linarith
  have hpw0 : ∀ n, 0 ≤ (1 + U) ^ n - 1 := by
    intro n
    have : (1 : ℝ) ≤ (1 + U) ^ n := one_le_pow₀ (by linarith)
    linarith
  have hE2 : ((1 + U) ^ (jz + 1 - 2) - 1) * Tk a jz 2 ≤ 1 / 2 ^ 70 * Tk a jz 0 := by
    have h1 := hpw (jz + 1 - 2) (by omega)
    have := hTn 2
    calc ((1 + U) ^ (jz + 1 - 2) - 1) * Tk a jz 2 ≤ 1 / 2 ^ 49 * Tk a jz 2 := mul_le_mul_of_nonneg_right h1 this
      _ ≤ 1 / 2 ^ 49 * (1 / 2 ^ 21 * Tk a jz 0) := mul_le_mul_of_nonneg_left hT2 (by positivity)
      _ = _ := by ring
  have hUv : U = 1 / 2 ^ 53 := rfl
  have hE1 : Eb a jz 1 ≤ 1 / 2 ^ 52 * Tk a jz 0 := by
    simp only [Eb]
    have := hTn 0
    rw [hUv] at hE2 ⊢
    norm_num at hE2 ⊢
    linarith
  have hT1h : Tk a jz 1 ≤ 0.5001 * Tk a jz 0 := by
    rcases Nat.eq_zero_or_pos jz with h | h
    · have : Tk a jz 1 = 0 := by unfold Tk; rw [Finset.Ico_eq_empty (by omega)]; simp
      rw [this]; have := hTn 0; positivity
    · have h1 := av_one (q0 := q0) (jp := jp) hd h ht
      rw [← hadef] at h1
      have h2 := Tk_succ (a := a) (jz := jz) (k := 1) h
      have h3 := Tk_succ (a := a) (jz := jz) (k := 0) (by omega)
      norm_num at h1 h2 h3 hT2 ⊢
      linarith
  have hE0 : Eb a jz 0 ≤ 1.501 / 2 ^ 53 * Tk a jz 0 := by
    have e : Eb a jz 0 = U * Tk a jz 0 + (1 + U) * (U * Tk a jz 1 + (1 + U) * (((1 + U) ^ (jz + 1 - 2) - 1) * Tk a jz 2)) := rfl
    rw [e]
    have := hTn 0
    rw [hUv] at hE2 ⊢
    norm_num at hE2 ⊢
    linarith
  have hTb : Tk a jz 0 ≤ 2 ^ (99 : ℤ) := by
    refine (hT 0 (by omega)).trans ?_
    calc (6 : ℝ) * 2 ^ (q0 + 25 - 24 * ((0 : ℕ) : ℤ)) ≤ 2 ^ (3 : ℤ) * 2 ^ (96 : ℤ) :=
          mul_le_mul (by norm_num) (zpow_le_zpow_right₀ (by norm_num) (by push_cast; omega)) (by positivity) (by positivity)
      _ = 2 ^ (99 : ℤ) := by rw [← zpow_add₀ (by norm_num)]; norm_num
  have hTb' : Tk a jz 0 ≤ 2 ^ (100 : ℤ) := hTb.trans (zpow_le_zpow_right₀ (by norm_num) (by norm_num))
  refine Ok.mono (sumFq_spec (N := N) (by omega) hf ha (j0 := q0 - 23 - 24 * (jz : ℤ)) (by omega) hg (E := Eb a jz) ?_ ?_ ?_ hTb') ?_
  · rcases jz with _ | jz
    · have h1 : Tk a 0 1 = 0 := by unfold Tk; rw [Finset.Ico_self]; simp
      have h2 : Tk a 0 2 = 0 := by unfold Tk; rw [Finset.Ico_eq_empty (by omega)]; simp
      simp only [zero_add, Eb, h1, h2]; ring
    · have h1 : Tk a (jz + 1) (jz + 2) = 0 := by unfold Tk; rw [Finset.Ico_self]; simp
      simp only [Eb, h1, mul_zero]
  · intro k hk
    match k with
    | 0 => exact le_refl _
    | 1 => exact le_refl _
    | k + 2 =>
      simp only [Eb]
      have h1 := Tk_anti (jz := jz) ha (k + 2)
      have h2 := hTn (k + 2 + 1)
      obtain ⟨n, hn⟩ : ∃ n, jz + 1 - (k + 2) = n + 1 := ⟨jz + 1 - (k + 2) - 1, by omega⟩
      have hn' : jz + 1 - (k + 1 + 2) = n := by omega
      rw [hn, hn', pow_succ]
      have h3 := hpw0 n
      rw [show k + 1 + 2 = k + 2 + 1 by ring]
      generalize Tk a jz (k + 2) = t1 at *
      generalize Tk a jz (k + 2 + 1) = t2 at *
      generalize (1 + U) ^ n = P at *
      have : (1 + U) * ((P - 1) * t2) ≤ (1 + U) * ((P - 1) * t1) :=
        mul_le_mul_of_nonneg_left (mul_le_mul_of_nonneg_left h1 h3) (by linarith)
      linarith
  · intro k hk
    have hle : Eb a jz k ≤ Tk a jz 0 := by
      have := hTn 0
      match k with
      | 0 => norm_num at hE0; linarith
      | 1 => norm_num at hE1; linarith
      | k + 2 =>
        simp only [Eb]
        have h1 := hpw (jz + 1 - (k + 2)) (by omega)
        have h3 : Tk a jz (k + 2) ≤ Tk a jz 0 := Tk_anti' ha (by omega)
        have h4 := hTn (k + 2)
        have h5 := hpw0 (jz + 1 - (k + 2))
        norm_num at h1
        nlinarith
    exact hle.trans hTb'
  · rintro r ⟨y, h1, h2, h3, h4, h5⟩
    exact ⟨y, h1, h3, h4, h5.trans hE0⟩

/-- The difference of the first product and the sum is exact. -/
theorem first_sub (hq1 : -400 ≤ q0) (hq2 : q0 ≤ 30) {fq : D} {s : D} {a y : ℝ}
    (ha : Fv fq a) (hag : Mul2 (q0 - 23) a) (ha0 : 2 ^ q0 ≤ a) (hs : Fv s y) (hay : a ≤ y) (hy : y ≤ 7 * 2 ^ (q0 + 25)) :
    Fv (N.sub fq s) (a - y) := by
  have hp : (0 : ℝ) < 2 ^ q0 := by positivity
  obtain ⟨m, j, h1, h2, h3, h4⟩ := f64.val_dec s
  rw [hs.val] at h1
  have h2R : |(m : ℝ)| < 2 ^ 53 := by rw [s64] at h2; exact_mod_cast h2
  have hpj : (0 : ℝ) < 2 ^ j := by positivity
  have hyabs : y = |(m : ℝ)| * 2 ^ j := by
    rw [← abs_of_pos hpj, ← abs_mul, ← h1, abs_of_nonneg (by linarith)]
  have hlt : y < 2 ^ (j + 53) := by
    rw [hyabs, add_comm, zpow_add₀ (by norm_num)]
    exact mul_lt_mul_of_pos_right (by exact_mod_cast h2R) hpj
  have hj1 : q0 < j + 53 := by
    have := lt_of_le_of_lt (ha0.trans hay) hlt
    rwa [zpow_lt_zpow_iff_right₀ (by norm_num)] at this
  have hbig : (2 : ℝ) ^ 52 ≤ |(m : ℝ)| := by
    rcases h4 with h | h
    · rw [s64] at h; exact_mod_cast h
    · rw [b64, s64] at h; push_cast at h; omega
  have hj2 : j ≤ q0 - 23 := by
    have h5 : (2 : ℝ) ^ (52 + j) ≤ y := by
      rw [hyabs, zpow_add₀ (by norm_num)]
      exact mul_le_mul_of_nonneg_right (by exact_mod_cast hbig) hpj.le
    have h6 : y < 2 ^ (q0 + 28) := by
      refine lt_of_le_of_lt hy ?_
      rw [show q0 + 28 = 3 + (q0 + 25) by ring, zpow_add₀ (by norm_num) 3]
      exact mul_lt_mul_of_pos_right (by norm_num) (by positivity)
    have := lt_of_le_of_lt h5 h6
    rw [zpow_lt_zpow_iff_right₀ (by norm_num)] at this
    omega
  refine ha.sub N hs (j := j) ((hag.mono hj2).sub ⟨m, h1⟩) ?_ (by omega) (by omega)
  rw [abs_of_nonpos (by linarith)]
  linarith

theorem sgn_fv {ih : ℤ} {b : D} {v : ℝ} (h : Fv b v) : Fv (sgn ih b) ((if ih = 0 then 1 else -1) * v) := by
  unfold sgn
  split
  · simpa using h
  · simpa using h.neg

theorem compress1 (hjz : jz ≤ 12) (hjp : jp ≤ 4) (hq1 : -400 ≤ q0) (hq2 : q0 ≤ 30) (hd : Dig iq (jz + 1)) (ht : iq jz ≠ 0) {fq : ℕ → D}
    (hf : ∀ d, d ≤ jz → Fv (fq d) (av iq q0 jp jz d)) (ih : ℤ) {prec : ℕ} (hprec : prec = 1 ∨ prec = 2) {ny : ℕ} (hny : 2 ≤ ny) :
    Ok (compress N prec ny jz ih fq) fun r => ∃ y0 y1 : ℝ, Fv (r 0) ((if ih = 0 then 1 else -1) * y0) ∧ Fv (r 1) ((if ih = 0 then 1 else -1) * y1) ∧
      |y0 - Tk (av iq q0 jp jz) jz 0| ≤ 1.501 / 2 ^ 53 * Tk (av iq q0 jp jz) jz 0 ∧
      |y0 + y1 - Tk (av iq q0 jp jz) jz 0| ≤ 1 / 2 ^ 70 * Tk (av iq q0 jp jz) jz 0 := by
  obtain ⟨s, es, y, fs, hay, hyg, hye⟩ := sum_main (N := N) hjz hjp hq1 hq2 hd ht hf
  obtain ⟨b0, _, bg⟩ := av_bounds (q0 := q0) hjp hd (d := 0) (by omega)
  have ha : ∀ d, d ≤ jz → 0 ≤ av iq q0 jp jz d := fun d h => (av_bounds hjp hd h).1
  have hg : ∀ d, d ≤ jz → Mul2 (q0 - 23 - 24 * (jz : ℤ)) (av iq q0 jp jz d) := fun d h => (av_bounds hjp hd h).2.2.mono (by omega)
  have hT := fun k (hk : k ≤ jz + 1) => Tk_le (q0 := q0) (jp := jp) hjp hd hk
  have ha0 := av_zero (q0 := q0) (jp := jp) hd ht
  have hTn := Tk_nonneg (a := av iq q0 jp jz) (jz := jz) ha
  have hp : (0 : ℝ) < 2 ^ q0 := by positivity
  have hT0 : av iq q0 jp jz 0 ≤ Tk (av iq q0 jp jz) jz 0 := by rw [Tk_succ (by omega)]; linarith [hTn 1]
  have hyab := abs_le.mp hye
  have hT00 := hT 0 (by omega)
  rw [show q0 + 25 - 24 * ((0 : ℕ) : ℤ) = q0 + 25 by push_cast; ring] at hT00
  have hp25 : (0 : ℝ) < 2 ^ (q0 + 25) := by positivity
  have hy7 : y ≤ 7 * 2 ^ (q0 + 25) := by
    have := hyab.2
    norm_num at this
    linarith [hTn 0]
  have f1 := first_sub (N := N) hq1 hq2 (hf 0 (by omega)) (by simpa using bg) (by linarith) fs hay hy7
  have hT2 : Tk (av iq q0 jp jz) jz 2 ≤ 1 / 2 ^ 21 * Tk (av iq q0 jp jz) jz 0 := by
    by_cases h2 : 2 ≤ jz + 1
    · have := hT 2 h2
      have e : (2 : ℝ) ^ (q0 + 25 - 24 * ((2 : ℕ) : ℤ)) = 2 ^ q0 / 2 ^ 23 := by
        rw [← zpow_natCast, ← zpow_sub₀ (by norm_num)]; congr 1; push_cast; ring
      rw [e] at this
      norm_num at this ⊢
      linarith
    · have : Tk (av iq q0 jp jz) jz 2 = 0 := by unfold Tk; rw [Finset.Ico_eq_empty (by omega)]; simp
      rw [this]
      have := hTn 0
      positivity
  obtain ⟨T, hTd⟩ : ∃ T, T = Tk (av iq q0 jp jz) jz 0 := ⟨_, rfl⟩
  have hT0' := hTn 0
  have hTb' : T ≤ 2 ^ (100 : ℤ) := by
    rw [hTd]
    refine hT00.trans ?_
    calc (6 : ℝ) * 2 ^ (q0 + 25) ≤ 2 ^ (3 : ℤ) * 2 ^ (96 : ℤ) :=
          mul_le_mul (by norm_num) (zpow_le_zpow_right₀ (by norm_num) (by omega)) (by positivity) (by positivity)
      _ ≤ 2 ^ (100 : ℤ) := by rw [← zpow_add₀ (by norm_num)]; exact zpow_le_zpow_right₀ (by norm_num) (by norm_num)
  obtain ⟨t, et, v, ft, hv⟩ := tailSum_spec (N := N) (by omega) hf (j0 := q0 - 23 - 24 * (jz : ℤ)) (by omega) hg f1 rfl
    ((hg 0 (by omega)).sub hyg) (B := 9 / 2 ^ 24 * Tk (av iq q0 jp jz) jz 0) (by positivity)
    (by rw [← hTd] at hT0' ⊢; norm_num at hTb' ⊢; linarith) (by
      intro i hi1 hi2
      have h1 : Tk (av iq q0 jp jz) jz (i + 1) ≤ Tk (av iq q0 jp jz) jz 2 := Tk_anti' ha (by omega)
      have h0 := hTn (i + 1)
      rw [← hTd] at hye hT0' hT2 ⊢
      rw [abs_le] at hye ⊢
      norm_num at hye hT2 ⊢
      constructor <;> linarith [hye.1, hye.2])
  refine ⟨Function.update (Function.update (fun _ => 0#f64.w) 0 (sgn ih s)) 1 (sgn ih t), ?_, y, v, ?_, ?_, hye, ?_⟩
  · unfold compress
    rw [if_neg (by omega), if_pos hprec, es, ok_bind, wr_ok (by omega), ok_bind, rd_ok (by omega), ok_bind, et, ok_bind, wr_ok (by omega)]
  · rw [Function.update_of_ne (by omega), Function.update_self]
    exact sgn_fv fs
  · rw [Function.update_self]
    exact sgn_fv ft
  · rw [← hTd] at hv hT0' ⊢
    have h1' : (1 + U) ^ jz - 1 ≤ 13 / 2 ^ 53 := by
      have h1 : (1 + U) ^ jz ≤ (1 + U) ^ 12 := pow_le_pow_right₀ (by unfold U; norm_num) hjz
      have h2 : (1 + U) ^ 12 - 1 ≤ 13 / 2 ^ 53 := by unfold U; norm_num
      linarith
    rw [show y + v - T = v - (T - y) by ring]
    refine hv.trans ?_
    calc ((1 + U) ^ jz - 1) * (9 / 2 ^ 24 * T) ≤ 13 / 2 ^ 53 * (9 / 2 ^ 24 * T) := mul_le_mul_of_nonneg_right h1' (by positivity)
      _ ≤ 1 / 2 ^ 70 * T := by norm_num; linarith

theorem compress0 (hjz : jz ≤ 12) (hjp : jp ≤ 4) (hq1 : -400 ≤ q0) (hq2 : q0 ≤ 30) (hd : Dig iq (jz + 1)) (ht : iq jz ≠ 0) {fq : ℕ → D}
    (hf : ∀ d, d ≤ jz → Fv (fq d) (av iq q0 jp jz d)) (ih : ℤ) :
    Ok (compress N 0 1 jz ih fq) fun r => ∃ y0 : ℝ, Fv (r 0) ((if ih = 0 then 1 else -1) * y0) ∧
      |y0 - Tk (av iq q0 jp jz) jz 0| ≤ 1.501 / 2 ^ 53 * Tk (av iq q0 jp jz) jz 0 := by
  obtain ⟨s, es, y, fs, hay, hyg, hye⟩ := sum_main (N := N) hjz hjp hq1 hq2 hd ht hf
  refine ⟨Function.update (fun _ => 0#f64.w) 0 (sgn ih s), ?_, y, ?_, hye⟩
  · unfold compress
    rw [if_pos rfl, es, ok_bind, wr_ok (by omega)]
  · rw [Function.update_self]
    exact sgn_fv fs

end
end
end Pio2
end Verif
