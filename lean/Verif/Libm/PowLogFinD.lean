import Verif.Libm.PowLogWordD
/-! The logarithm of `pow`. -/
namespace Verif
open Fmt
namespace Power
namespace Dbl
open Pio2
local notation "W" => BitVec f64.w

/-- table entries: `DP_H[1] + DP_L[1]` is `log2 1.5` -/
theorem dp_near2 : |((f64.val dh1 : ℚ) : ℝ) + (f64.val dl1 : ℚ) - Real.logb 2 (3 / 2)| ≤ 0.004 * (eps : ℚ) := by
  have c : |(f64.val dh1 + f64.val dl1) * (693147180559945309417 / 10 ^ 21) - 405465108108164381978 / 10 ^ 21| ≤ 1 / 10000 * eps
      ∧ |f64.val dh1 + f64.val dl1| ≤ 1 := by decide +kernel
  have c1 := Rat.cast_le (K := ℝ).mpr c.1
  have c2 := Rat.cast_le (K := ℝ).mpr c.2
  push_cast at c1 c2
  generalize ((f64.val dh1 : ℚ) : ℝ) + (f64.val dl1 : ℚ) = q at *
  have h2 := Log2.ln2_near
  have h3 := log15_near
  have hl : 0.69 ≤ Real.log 2 := by rw [abs_le] at h2; norm_num at h2 ⊢; linarith [h2.1]
  have e : q - Real.logb 2 (3 / 2) = (q * Real.log 2 - Real.log (3 / 2)) / Real.log 2 := by unfold Real.logb; field_simp
  rw [e, abs_div, abs_of_pos (show 0 < Real.log 2 by linarith), div_le_iff₀ (by linarith)]
  have e2 : q * Real.log 2 - Real.log (3 / 2) = (q * (693147180559945309417 / 10 ^ 21) - 405465108108164381978 / 10 ^ 21) + (q * (Real.log 2 - 0.693147180559945309417) - (Real.log (3 / 2) - 0.405465108108164381978)) := by
    norm_num; ring
  rw [e2]
  have m := mulB c2 h2
  have a1 := abs_add_le (q * (693147180559945309417 / 10 ^ 21) - 405465108108164381978 / 10 ^ 21) (q * (Real.log 2 - 0.693147180559945309417) - (Real.log (3 / 2) - 0.405465108108164381978))
  have a2 := abs_sub (q * (Real.log 2 - 0.693147180559945309417)) (Real.log (3 / 2) - 0.405465108108164381978)
  have h5 : 0.004 * ((eps : ℚ) : ℝ) * 0.69 ≤ 0.004 * ((eps : ℚ) : ℝ) * Real.log 2 := mul_le_mul_of_nonneg_left hl (by rw [epsR]; positivity)
  refine le_trans ?_ h5
  have h6 : (2 : ℝ) / 10 ^ 20 ≤ 0.0018 * (eps : ℚ) := by rw [epsR]; norm_num
  linarith

/-- the reduced argument -/
theorem red_of {A B TH : ℝ} (h : (B = 1 ∧ 0.86602 ≤ A ∧ A ≤ 1.22476) ∨ (B = 3 / 2 ∧ 1.22474 ≤ A ∧ A ≤ 1.73205)) (hT : |TH - (A + B)| ≤ 1 / 1024) : Red A B TH := by
  norm_num at h
  rcases h with ⟨hB, h1, h2⟩ | ⟨hB, h1, h2⟩
  · refine ⟨by norm_num; linarith, by norm_num; linarith, by rw [abs_le]; norm_num; constructor <;> linarith, by norm_num; linarith, ?_, hT, Or.inl hB⟩
    rw [abs_div, div_le_iff₀ (by rw [abs_of_pos (by linarith)]; linarith), abs_of_pos (show 0 < A + B by linarith), abs_le]
    norm_num; constructor <;> linarith
  · refine ⟨by norm_num; linarith, by norm_num; linarith, by rw [abs_le]; norm_num; constructor <;> linarith, by norm_num; linarith, ?_, hT, Or.inr hB⟩
    rw [abs_div, div_le_iff₀ (by rw [abs_of_pos (by linarith)]; linarith), abs_of_pos (show 0 < A + B by linarith), abs_le]
    norm_num; constructor <;> linarith

/-- the main part, for every interval -/
theorem main_of (N : FPU f64) {ax bp th dph dpl t : W} {A B TH D E : ℝ} {n : ℤ} (hax : GFv f64 ax A) (hbp : GFv f64 bp B) (hth : GFv f64 th TH)
    (hD : GFv f64 dph D) (hE : GFv f64 dpl E) (hn : GFv f64 t n) {L : ℝ} (hL : L = n + Real.logb 2 A) (hn1 : |n| ≤ 1190) (hT : |TH - (A + B)| ≤ 1 / 1024)
    (h : (B = 1 ∧ D = 0 ∧ E = 0 ∧ 0.86602 ≤ A ∧ A ^ 2 ≤ 3 / 2 * 1.00001 ∧ 3 / 4 ≤ A ^ 2 * 1.00001 ∧ (n = 0 → 1 / 2 ^ 53 ≤ |A - 1|)) ∨
      (B = 3 / 2 ∧ D = (f64.val dh1 : ℚ) ∧ E = (f64.val dl1 : ℚ) ∧ 1.22474 ≤ A ∧ 3 / 2 ≤ A ^ 2 ∧ A ^ 2 ≤ 3 ∧ A ≤ 1.73205)) :
    ∃ T1 T2, GFv f64 (logMain N KD Asin.clearLow ax bp dph dpl th t).1 T1 ∧ GFv f64 (logMain N KD Asin.clearLow ax bp dph dpl th t).2 T2 ∧
      |T1 + T2 - L| ≤ 16 * (eps : ℚ) * |L| ∧ |T2| ≤ 0.0006 * |L| := by
  have hA0 : 0 < A := by norm_num at h; rcases h with h | h <;> linarith [h.2.2.2.1]
  have eps0 : (0 : ℝ) ≤ (eps : ℚ) := by rw [eps64]; positivity
  obtain ⟨e1, e2, e3, e4, e5, e6⟩ := lg_ends hA0
  have hnR : |(n : ℝ)| ≤ 1190 := by exact_mod_cast hn1
  have tri := abs_add_le (n : ℝ) (Real.logb 2 A)
  rw [← hL] at tri
  rcases h with ⟨hB, hD0, hE0, a1, a2, a3, a4⟩ | ⟨hB, hD0, hE0, a1, a2, a3, a4⟩
  · have a5 : A ≤ 1.22476 := by
      norm_num at a2 ⊢; nlinarith
    have lu := e5 a2
    have ll := e6 a3
    have hdif : |A - B| ≤ 0.2753 := by rw [hB, abs_le]; norm_num at a1 a5 ⊢; constructor <;> linarith
    have hR : Red A B TH := by
      exact red_of (Or.inl ⟨hB, a1, a5⟩) hT
    have lb : Real.logb 2 B = 0 := by rw [hB]; simp
    have labs : |Real.logb 2 A| ≤ 0.2925 := by rw [abs_le]; norm_num at lu ll ⊢; constructor <;> linarith
    by_cases hz : n = 0
    · have hLA : L = Real.logb 2 A := by rw [hL, hz]; simp
      refine logMain_spec N hax hbp hth hR hD hE hn hL (σ := |A - B|) ?_ (by rw [hB]; exact a4 hz) hdif le_rfl ?_ ?_ ?_ ?_ ?_ ?_ ?_
      · rw [hD0, hE0, lb]; norm_num; positivity
      · rw [hLA, hB]
        have h2 := Log2.ln2_near
        rw [abs_le] at h2
        have hp : 0 < Real.log 2 := Real.log_pos (by norm_num)
        have hm : Real.log A = Real.logb 2 A * Real.log 2 := by unfold Real.logb; field_simp
        have b1 := lg_lo hA0
        have b2 := Real.log_le_sub_one_of_pos hA0
        rw [hm] at b1 b2
        have hl1 : Real.log 2 ≤ 0.7 := by norm_num at h2 ⊢; linarith [h2.2]
        rcases le_total 1 A with hA | hA
        · have c := e1 hA
          rw [abs_of_nonneg (by linarith), abs_of_nonneg c]
          have c2 := mul_le_mul_of_nonneg_left hl1 c
          have c3 : (A - 1) / 1.22476 ≤ 1 - 1 / A := by
            rw [show 1 - 1 / A = (A - 1) / A by field_simp]
            exact div_le_div_of_nonneg_left (by linarith) hA0 a5
          have c4 : (A - 1) * 0.8 ≤ (A - 1) / 1.22476 := by rw [le_div_iff₀ (by norm_num)]; norm_num; linarith only [hA]
          linarith only [b1, c2, c3, c4, c, hA]
        · have c := e2 hA
          rw [abs_of_nonpos (by linarith), abs_of_nonpos c]
          have c2 := mul_le_mul_of_nonpos_left hl1 c
          linarith only [b2, c2, c, hA]
      · rw [hz]; norm_num
      · rw [hD0]; norm_num
      · rw [hE0]; norm_num
      · rw [hLA]; norm_num; linarith [abs_nonneg (Real.logb 2 A)]
      · rw [lb, sub_zero, hLA]; norm_num; linarith [abs_nonneg (Real.logb 2 A)]
      · norm_num at labs; linarith
    · have hLn : 0.7 * |(n : ℝ)| ≤ |L| ∧ 1 ≤ |(n : ℝ)| := by
        have h1 : (1 : ℤ) ≤ |n| := Int.one_le_abs hz
        have h1' : (1 : ℝ) ≤ |(n : ℝ)| := by exact_mod_cast h1
        refine ⟨?_, h1'⟩
        have := abs_sub_abs_le_abs_sub (n : ℝ) (-Real.logb 2 A)
        rw [sub_neg_eq_add, ← hL, abs_neg] at this
        norm_num at labs ⊢; linarith
      obtain ⟨hL1, hL2⟩ := hLn
      refine logMain_spec N hax hbp hth hR hD hE hn hL (σ := 0.2753) ?_ (by norm_num) le_rfl hdif ?_ ?_ ?_ ?_ ?_ ?_ ?_
      · rw [hD0, hE0, lb]; norm_num; positivity
      · norm_num at hL1 ⊢; linarith
      · norm_num at hL1 ⊢; linarith
      · rw [hD0]; norm_num
      · rw [hE0]; norm_num
      · norm_num at hL1 labs ⊢; linarith
      · rw [lb, sub_zero]; norm_num at hL1 labs ⊢; linarith
      · norm_num at labs; linarith
  · have lu := e4 a3
    have ll := e3 a2
    have hdif : |A - B| ≤ 0.2753 := by rw [hB, abs_le]; norm_num at a1 a4 ⊢; constructor <;> linarith
    have hR : Red A B TH := red_of (Or.inr ⟨hB, a1, a4⟩) hT
    have lb := lg15
    rw [← hB] at lb
    have hLn : 0.2075 ≤ |L| ∧ |(n : ℝ)| ≤ 4.9 * |L| := by
      norm_num at lu ll ⊢
      rcases lt_trichotomy n 0 with hs | hs | hs
      · have : (n : ℝ) ≤ -1 := by exact_mod_cast (by omega : n ≤ -1)
        rw [abs_of_nonpos (by rw [hL]; linarith), abs_of_nonpos (by linarith), hL]
        constructor <;> linarith
      · rw [hL, hs, Int.cast_zero, zero_add, abs_zero, abs_of_nonneg (by linarith)]
        constructor <;> linarith
      · have : (1 : ℝ) ≤ n := by exact_mod_cast (by omega : 1 ≤ n)
        rw [abs_of_nonneg (by rw [hL]; linarith), abs_of_nonneg (by linarith), hL]
        constructor <;> linarith
    obtain ⟨hL1, hL2⟩ := hLn
    obtain ⟨d1, d2⟩ := dp_small
    have labs : |Real.logb 2 A| ≤ 0.79249 := by rw [abs_le]; norm_num at lu ll ⊢; constructor <;> linarith
    refine logMain_spec N hax hbp hth hR hD hE hn hL (σ := 0.2753) ?_ (by norm_num) le_rfl hdif ?_ ?_ ?_ ?_ ?_ ?_ ?_
    · rw [hD0, hE0, hB]
      refine dp_near2.trans ?_
      have := mul_le_mul_of_nonneg_left hL1 (show (0 : ℝ) ≤ 0.02 * (eps : ℚ) by positivity)
      linarith only [this, eps0]
    · norm_num at hL1 ⊢; linarith
    · exact hL2
    · rw [hD0]; norm_num at hL1 d1 ⊢; linarith
    · rw [hE0]; norm_num at hL1 d2 ⊢; linarith
    · norm_num at hL1 labs ⊢; linarith
    · rw [abs_le] at lb ⊢; norm_num at lb lu ll hL1 ⊢; constructor <;> linarith [lb.1, lb.2]
    · norm_num at labs; linarith

theorem logD_spec (N : FPU f64) {ax : W} {E g : ℕ} {n0 : ℤ} (hE0 : 1 ≤ E) (hE : E ≤ 2046) (hg : g < 2 ^ 52) (hax : ax.toNat = E * 2 ^ 52 + g) (hn0 : |n0| ≤ 60) {L : ℝ}
    (hL : L = ((n0 + E - 1023 : ℤ) : ℝ) + Real.logb 2 (1 + (g : ℝ) / 2 ^ 52)) (hL0 : L ≠ 0) :
    ∃ t T1 T2, logD N ax (ax.toNat >>> 32) n0 = .ok t ∧ GFv f64 t.1 T1 ∧ GFv f64 t.2 T2 ∧ |T1 + T2 - L| ≤ 16 * (eps : ℚ) * |L| ∧ |T2| ≤ 0.0006 * |L| := by
  obtain ⟨j, hj⟩ : ∃ j, j = g / 2 ^ 32 := ⟨_, rfl⟩
  obtain ⟨l, hl⟩ : ∃ l, l = g % 2 ^ 32 := ⟨_, rfl⟩
  have hgj : g = j * 2 ^ 32 + l := by omega
  have hl1 : l < 2 ^ 32 := by omega
  have hj1 : j < 2 ^ 20 := by omega
  have hx : ax.toNat % 2 ^ 32 = l := by omega
  obtain ⟨k, n, e', w, t, q1, q2, q3⟩ := logD_words N ax (ix := ax.toNat >>> 32) (E := E) (j := j) (by rw [Nat.shiftRight_eq_div_pow]; omega) hj1 hE hn0
  obtain ⟨b1, b2, b3, b4, b5, b6⟩ := bp_val
  have hlR0 : (0 : ℝ) ≤ l := by positivity
  have hlR1 : (l : ℝ) < 4294967296 := by exact_mod_cast hl1
  have hgR : (g : ℝ) = j * 2 ^ 32 + l := by rw [hgj]; push_cast; ring
  have hjd : (j : ℝ) / 2 - 1 / 2 ≤ ((j / 2 : ℕ) : ℝ) ∧ ((j / 2 : ℕ) : ℝ) ≤ (j : ℝ) / 2 := by
    have h1 : j ≤ 2 * (j / 2) + 1 := by omega
    have h2 : 2 * (j / 2) ≤ j := by omega
    have h1' : (j : ℝ) ≤ 2 * ((j / 2 : ℕ) : ℝ) + 1 := by exact_mod_cast h1
    have h2' : 2 * ((j / 2 : ℕ) : ℝ) ≤ (j : ℝ) := by exact_mod_cast h2
    constructor <;> linarith
  rw [abs_le] at hn0
  have z0 : (0 : W).toNat % 2 ^ 32 = 0 := by decide
  rcases q3 with ⟨hk, hjb, he, hn, hw⟩ | ⟨hk, hja, hjb, he, hn, hw⟩ | ⟨hk, hja, he, hn, hw⟩
  · have gA := setHi_val ax (e := 1023) (f := j) (by norm_num) (by norm_num) hj1
    have gT := setHi_val 0 (e := 1024) (f := j / 2) (by norm_num) (by norm_num) (by omega)
    have eA : (2 ^ 52 + ((j * 2 ^ 32 + ax.toNat % 2 ^ 32 : ℕ) : ℝ)) * 2 ^ (((1023 : ℕ) : ℤ) - 1075) = 1 + (g : ℝ) / 2 ^ 52 := by
      rw [hx, hgR]; push_cast; norm_num; ring
    rw [eA] at gA
    rw [hk, he, hw] at q1
    rw [hn] at q2
    have hjR : (j : ℝ) ≤ 0x3988E := by exact_mod_cast hjb
    have hj0 : (0 : ℝ) ≤ j := by positivity
    obtain ⟨T1, T2, r⟩ := main_of N gA b1 gT b3 b4 q2 hL (by rw [abs_le]; omega) (by
        rw [z0, abs_le, hgR]; push_cast; norm_num at hjd ⊢; constructor <;> linarith [hjd.1, hjd.2, hlR0, hlR1])
      (Or.inl ⟨rfl, rfl, rfl, by rw [hgR]; norm_num; linarith [hlR0], by
        have h1 : 1 + (g : ℝ) / 2 ^ 52 ≤ 1.224746 := by rw [hgR]; norm_num; linarith [hlR1]
        have h0 : 0 ≤ 1 + (g : ℝ) / 2 ^ 52 := by positivity
        have := pow_le_pow_left₀ h0 h1 2
        norm_num at this ⊢; linarith, by
        have h1 : 1 ≤ 1 + (g : ℝ) / 2 ^ 52 := by have : (0 : ℝ) ≤ (g : ℝ) / 2 ^ 52 := by positivity
                                                 linarith
        have := pow_le_pow_left₀ (by norm_num) h1 2
        exact le_trans (by norm_num) (mul_le_mul_of_nonneg_right this (by norm_num)), fun hz => by
        have h0 : g ≠ 0 := by
          intro h0
          apply hL0
          rw [hL, hz, h0]; simp
        have h1 : (1 : ℝ) ≤ g := by exact_mod_cast (by omega : 1 ≤ g)
        rw [add_sub_cancel_left, abs_of_nonneg (by positivity)]
        norm_num; linarith⟩)
    exact ⟨_, T1, T2, q1, r⟩
  · have gA := setHi_val ax (e := 1023) (f := j) (by norm_num) (by norm_num) hj1
    have gT := setHi_val 0 (e := 1024) (f := j / 2 + 2 ^ 18) (by norm_num) (by norm_num) (by omega)
    have eA : (2 ^ 52 + ((j * 2 ^ 32 + ax.toNat % 2 ^ 32 : ℕ) : ℝ)) * 2 ^ (((1023 : ℕ) : ℤ) - 1075) = 1 + (g : ℝ) / 2 ^ 52 := by
      rw [hx, hgR]; push_cast; norm_num; ring
    rw [eA] at gA
    rw [hk, he, hw] at q1
    rw [hn] at q2
    have hjR : (j : ℝ) + 1 ≤ 0xBB67A := by exact_mod_cast hjb
    have hjL : (0x3988F : ℝ) ≤ j := by exact_mod_cast (show 0x3988F ≤ j by omega)
    have h0 : 0 ≤ 1 + (g : ℝ) / 2 ^ 52 := by positivity
    have h1 : 1 + (g : ℝ) / 2 ^ 52 ≤ 1.73205 := by rw [hgR]; norm_num; linarith [hlR1]
    have h2 : 1.2247456 ≤ 1 + (g : ℝ) / 2 ^ 52 := by rw [hgR]; norm_num; linarith [hlR0]
    have s1 := pow_le_pow_left₀ h0 h1 2
    have s2 := pow_le_pow_left₀ (by norm_num) h2 2
    obtain ⟨T1, T2, r⟩ := main_of N gA b2 gT b5 b6 q2 hL (by rw [abs_le]; omega) (by
        rw [z0, abs_le, hgR]; push_cast; norm_num at hjd ⊢; constructor <;> linarith [hjd.1, hjd.2, hlR0, hlR1])
      (Or.inr ⟨rfl, rfl, rfl, le_trans (by norm_num) h2, le_trans (by norm_num) s2, s1.trans (by norm_num), h1⟩)
    exact ⟨_, T1, T2, q1, r⟩
  · have gA := setHi_val ax (e := 1022) (f := j) (by norm_num) (by norm_num) hj1
    have gT := setHi_val 0 (e := 1023) (f := j / 2 + 2 ^ 19) (by norm_num) (by norm_num) (by omega)
    have eA : (2 ^ 52 + ((j * 2 ^ 32 + ax.toNat % 2 ^ 32 : ℕ) : ℝ)) * 2 ^ (((1022 : ℕ) : ℤ) - 1075) = (1 + (g : ℝ) / 2 ^ 52) / 2 := by
      rw [hx, hgR]; push_cast; norm_num; ring
    rw [eA] at gA
    rw [hk, he, hw] at q1
    rw [hn] at q2
    have hjR : (j : ℝ) + 1 ≤ 2 ^ 20 := by exact_mod_cast hj1
    have hjL : (0xBB67A : ℝ) ≤ j := by exact_mod_cast hja
    have hgT : (g : ℝ) + 1 ≤ 2 ^ 52 := by exact_mod_cast hg
    have h0 : 0 < 1 + (g : ℝ) / 2 ^ 52 := by positivity
    have h1 : (1 + (g : ℝ) / 2 ^ 52) / 2 + 1 / 2 ^ 53 ≤ 1 := by norm_num at hgT ⊢; linarith
    have h2 : 0.8660249 ≤ (1 + (g : ℝ) / 2 ^ 52) / 2 := by rw [hgR]; norm_num; linarith [hlR0]
    have s1 := pow_le_pow_left₀ (by positivity) (show (1 + (g : ℝ) / 2 ^ 52) / 2 ≤ 1 by norm_num at h1 ⊢; linarith) 2
    have s2 := pow_le_pow_left₀ (by norm_num) h2 2
    have hL' : L = ((n0 + E - 1023 + 1 : ℤ) : ℝ) + Real.logb 2 ((1 + (g : ℝ) / 2 ^ 52) / 2) := by
      rw [hL, Real.logb_div h0.ne' (by norm_num), Real.logb_self_eq_one (by norm_num)]; push_cast; ring
    obtain ⟨T1, T2, r⟩ := main_of N gA b1 gT b3 b4 q2 hL' (by rw [abs_le]; omega) (by
        rw [z0, abs_le, hgR]; push_cast; norm_num at hjd ⊢; constructor <;> linarith [hjd.1, hjd.2, hlR0, hlR1])
      (Or.inl ⟨rfl, rfl, rfl, le_trans (by norm_num) h2, s1.trans (by norm_num), le_trans (by norm_num) (mul_le_mul_of_nonneg_right s2 (by norm_num)), fun _ => by
        rw [abs_of_nonpos (by norm_num at h1 ⊢; linarith)]; linarith⟩)
    exact ⟨_, T1, T2, q1, r⟩
end Dbl
end Power
end Verif
