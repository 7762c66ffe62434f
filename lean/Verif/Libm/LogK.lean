import Verif.Libm.LogCore
/-! # The common part of `log` and `logf`, with a multiple of `ln 2` -/
namespace Verif
open Fmt
namespace Log
variable {F : Fmt}

theorem ln2_in : (6931 / 10000) < Real.log 2 ∧ Real.log 2 < (6932 / 10000) := by
  have h1 := Poly.ln2_gt
  have h2 := Poly.ln2_lt
  have c1 : ((6931 / 10000) : ℝ) < ((Poly.ln2L : ℚ) : ℝ) := by unfold Poly.ln2L; push_cast; norm_num
  have c2 : ((Poly.ln2H : ℚ) : ℝ) < (6932 / 10000) := by unfold Poly.ln2H; push_cast; norm_num
  exact ⟨c1.trans h1, h2.trans c2⟩

section
variable (hF : F.Big) (hs : F.s = 23 ∨ F.s = 52) (N : FPU F)
include hF hs

set_option maxHeartbeats 1000000 in
/-- the last two sums: `v` is the exact value of the first of them -/
theorem two_sums {P f kh : BitVec F.w} {p X K t ℓ : ℝ} (hP : GFv F P p) (hf : GFv F f X) (hk : GFv F kh K) (hg : Mul2 (-2 - (F.s : ℤ)) K) {k : ℤ} (hk0 : k ≠ 0)
    (hk9 : |(k : ℝ)| ≤ 2000) (hK : |K - k * Real.log 2| ≤ (15 / 10000)) (hℓ : |ℓ| ≤ (34665 / 100000)) (ht : t = ℓ + k * Real.log 2)
    (hv : |p + X + K - t| ≤ (28 / 100) * (1 / 2 ^ (F.s + 1))) :
    ∃ W, GFv F (N.add (N.add P f) kh) W ∧ |W - t| ≤ 2 * (1 / 2 ^ (F.s + 1)) * |t| := by
  have h127 := hF.bias
  obtain ⟨l1, l2⟩ := ln2_in
  set u : ℝ := 1 / 2 ^ (F.s + 1) with hu
  have hu0 : 0 < u := by positivity
  have hu1 : (1 : ℝ) / 2 ^ 53 ≤ u := one_div_le_one_div_of_le (by positivity) (pow_le_pow_right₀ (by norm_num) (by rcases hs with h | h <;> omega))
  have hu2 : u ≤ 1 / 2 ^ 20 := one_div_le_one_div_of_le (by norm_num) (pow_le_pow_right₀ (by norm_num) (by rcases hs with h | h <;> omega))
  have hz : ∀ k : ℤ, (2 : ℝ) ^ (k - F.s - 2) = 2 ^ (k - 1) * u := by
    intro k
    rw [show k - (F.s : ℤ) - 2 = (k - 1) - ((F.s + 1 : ℕ) : ℤ) by push_cast; ring, zpow_sub₀ (by norm_num), zpow_natCast, hu]; ring
  -- size of the first sum
  have hv1 : |p + X| ≤ (349 / 1000) := by
    have e : p + X = (p + X + K - t) - (K - k * Real.log 2) + ℓ := by rw [ht]; ring
    rw [e]
    refine (abs_add_le _ _).trans ?_
    have := abs_sub (p + X + K - t) (K - k * Real.log 2)
    linarith
  have hR := hP.addR N hf
  have hw9 := hR.fin100 hF (hv1.trans (by norm_num))
  have hw : GFv F (N.add P f) (F.valK ℝ (N.add P f)) := ⟨hw9, rfl⟩
  have e1 := hR.err F (k := -1) (hv1.trans (by norm_num)) (by omega) (by omega)
  rw [hz] at e1
  have hmul : (1 : ℝ) / 4 ≤ |F.valK ℝ (N.add P f)| → Mul2 (-2 - (F.s : ℤ)) (F.valK ℝ (N.add P f)) := by
    intro h
    exact F.mul2_ge (k := -2) (by norm_num at h ⊢; linarith)
  have hsm : |F.valK ℝ (N.add P f)| < 1 / 4 → |F.valK ℝ (N.add P f) - (p + X)| ≤ (125 / 1000) * u := by
    intro h
    have hrp := F.rp_pow (j := -2) (by omega)
    have hb : |(2 : ℝ) ^ (-2 : ℤ)| ≤ 2 ^ ((F.bias : ℤ) + 1) := by
      rw [abs_of_pos (by positivity)]; exact zpow_le_zpow_right₀ (by norm_num) (by omega)
    have h3 : |p + X| ≤ 2 ^ (-2 : ℤ) := by
      by_contra hc
      rw [not_le] at hc
      rcases le_total 0 (p + X) with h0 | h0
      · rw [abs_of_nonneg h0] at hc
        have := hR.ge_of F hrp hb hc.le
        have := this.trans (le_abs_self _)
        rw [show (2 : ℝ) ^ (-2 : ℤ) = 1 / 4 by norm_num] at this
        linarith
      · rw [abs_of_nonpos h0] at hc
        have := hR.le_of F (hrp.neg F) (by rwa [abs_neg]) (by linarith : p + X ≤ -2 ^ (-2 : ℤ))
        rw [show (2 : ℝ) ^ (-2 : ℤ) = 1 / 4 by norm_num] at this
        have := neg_le_abs (F.valK ℝ (N.add P f))
        linarith
    have := hR.err F (k := -2) h3 (by omega) (by omega)
    rw [hz] at this
    norm_num at this ⊢
    linarith
  generalize F.valK ℝ (N.add P f) = w at *
  generalize N.add P f = S at *
  have e1' : |w - (p + X)| ≤ (25 / 100) * u := by norm_num at e1 ⊢; linarith
  have hk1 : (1 : ℝ) ≤ |(k : ℝ)| := by exact_mod_cast Int.one_le_abs hk0
  have hKa : |K| ≤ 1400 := by
    have := abs_sub_abs_le_abs_sub K (k * Real.log 2)
    rw [abs_mul, abs_of_pos (show (0 : ℝ) < Real.log 2 by norm_num at l1; linarith)] at this
    nlinarith
  have hwa : |w| ≤ (35 / 100) := by
    have := abs_sub_abs_le_abs_sub w (p + X)
    linarith
  have hsum : |w + K| ≤ 2 ^ (100 : ℤ) := by
    have := abs_add_le w K
    linarith
  -- a bound for the relative error, if the sum is not exact
  have key : ∀ c m : ℝ, |w - (p + X)| ≤ c * u → m ≤ |t| → 0 < m → (c + (281 / 1000)) ≤ (95 / 100) * m → c ≤ 1 → |t| ≤ 2000 →
      ∃ W, GFv F (N.add S kh) W ∧ |W - t| ≤ 2 * u * |t| := by
    intro c m h1 h2 h3 h4 h5 h6
    obtain ⟨W, W1, W2⟩ := GFv.rnd hF (hw.addR N hk) hsum
    refine ⟨W, W1, ?_⟩
    rw [← hu] at W2
    have d1 : |w + K - t| ≤ (c + (28 / 100)) * u := by
      have e : w + K - t = (w - (p + X)) + (p + X + K - t) := by ring
      rw [e]
      refine (abs_add_le _ _).trans ?_
      linarith
    have d2 : |w + K| ≤ |t| + (c + (28 / 100)) * u := by
      have := abs_sub_abs_le_abs_sub (w + K) t
      linarith
    have d3 : W - t = (W - (w + K)) + (w + K - t) := by ring
    rw [d3]
    refine (abs_add_le _ _).trans ?_
    have d4 : u * |w + K| ≤ u * (|t| + (c + (28 / 100)) * u) := mul_le_mul_of_nonneg_left d2 hu0.le
    have d5 : (1 : ℝ) / 2 ^ 150 ≤ (1 / 10000) * u := by norm_num at hu1 ⊢; linarith
    have d6 : u * ((c + (28 / 100)) * u) ≤ (1 / 10000) * u := by
      rw [show u * ((c + (28 / 100)) * u) = ((c + (28 / 100)) * u) * u by ring]
      refine mul_le_mul_of_nonneg_right ?_ hu0.le
      have : (c + (28 / 100)) * u ≤ 2 * u := mul_le_mul_of_nonneg_right (by norm_num; linarith) hu0.le
      norm_num at hu2 this ⊢
      linarith
    have d7 : u * ((95 / 100) * m) ≤ u * ((95 / 100) * |t|) := mul_le_mul_of_nonneg_left (by linarith) hu0.le
    have d8 : (c + (281 / 1000)) * u ≤ (95 / 100) * m * u := mul_le_mul_of_nonneg_right h4 hu0.le
    have d9 : 0 ≤ u * |t| := by positivity
    linarith
  have ht9 : |t| ≤ 2000 := by
    rw [ht]
    have := abs_add_le ℓ (k * Real.log 2)
    rw [abs_mul, abs_of_pos (show (0 : ℝ) < Real.log 2 by norm_num at l1; linarith)] at this
    nlinarith
  -- the other bound of `t`
  have htw : |t - (w + K)| ≤ (1 / 1000) := by
    have e : t - (w + K) = - ((w - (p + X)) + (p + X + K - t)) := by ring
    rw [e, abs_neg]
    refine (abs_add_le _ _).trans ?_
    linarith
  have hKk : |k| = 1 ∨ 2 ≤ |k| := by
    have := Int.one_le_abs hk0
    omega
  rcases lt_or_ge |w| (1 / 4) with hw4 | hw4
  · refine key (125 / 1000) (44 / 100) (hsm hw4) ?_ (by norm_num) (by norm_num) (by norm_num) ht9
    have h3 : (6931 / 10000) ≤ |(k : ℝ) * Real.log 2| := by
      rw [abs_mul, abs_of_pos (show (0 : ℝ) < Real.log 2 by norm_num at l1; linarith)]
      nlinarith
    have h4 := abs_sub_abs_le_abs_sub (k * Real.log 2) (- (t - k * Real.log 2))
    have e : (k : ℝ) * Real.log 2 - -(t - k * Real.log 2) = t := by ring
    rw [e, abs_neg] at h4
    have h5 : |t - k * Real.log 2| ≤ (2526 / 10000) := by
      have e : t - k * Real.log 2 = (t - (w + K)) + (K - k * Real.log 2) + w := by ring
      rw [e]
      refine (abs_add_le _ _).trans ?_
      have := abs_add_le (t - (w + K)) (K - k * Real.log 2)
      linarith
    linarith
  · rcases hKk with h1 | h1
    · -- one time `ln 2`
      have hkk : (k : ℝ) = 1 ∨ (k : ℝ) = -1 := by
        rcases abs_eq (show (0 : ℤ) ≤ 1 by norm_num) |>.mp h1 with h | h
        · left; rw [h]; norm_num
        · right; rw [h]; norm_num
      have hsgn : (0 ≤ w ∧ (k : ℝ) = 1 ∨ w ≤ 0 ∧ (k : ℝ) = -1) ∨ (0 ≤ w ∧ (k : ℝ) = -1 ∨ w ≤ 0 ∧ (k : ℝ) = 1) := by
        rcases le_total 0 w with h | h <;> rcases hkk with h' | h'
        · exact Or.inl (Or.inl ⟨h, h'⟩)
        · exact Or.inr (Or.inl ⟨h, h'⟩)
        · exact Or.inr (Or.inr ⟨h, h'⟩)
        · exact Or.inl (Or.inr ⟨h, h'⟩)
      rcases hsgn with hsg | hsg
      · refine key (25 / 100) (9 / 10) e1' ?_ (by norm_num) (by norm_num) (by norm_num) ht9
        rcases hsg with ⟨a1, a2⟩ | ⟨a1, a2⟩
        · rw [a2] at hK
          rw [abs_of_nonneg a1] at hw4
          refine le_trans ?_ (le_abs_self _)
          rw [abs_le] at htw hK
          linarith [htw.1, htw.2, hK.1, hK.2]
        · rw [a2] at hK
          rw [abs_of_nonpos a1] at hw4
          refine le_trans ?_ (neg_le_abs _)
          rw [abs_le] at htw hK
          linarith [htw.1, htw.2, hK.1, hK.2]
      · -- the sum is exact
        have hle : |w + K| ≤ 1 / 2 := by
          rcases hsg with ⟨a1, a2⟩ | ⟨a1, a2⟩
          · rw [a2] at hK
            rw [abs_of_nonneg a1] at hw4 hwa
            rw [abs_le] at hK ⊢
            constructor <;> linarith [hK.1, hK.2]
          · rw [a2] at hK
            rw [abs_of_nonpos a1] at hw4 hwa
            rw [abs_le] at hK ⊢
            constructor <;> linarith [hK.1, hK.2]
        have hex := GFv.of_rounds hF (hw.addR N hk) (j := -2 - (F.s : ℤ)) ((hmul hw4).add hg) (by
          rw [show -2 - (F.s : ℤ) + F.s + 1 = -1 by ring]; norm_num at hle ⊢; exact hle) (by omega) hsum
        refine ⟨_, hex, ?_⟩
        have d1 : |w + K - t| ≤ (53 / 100) * u := by
          have e : w + K - t = (w - (p + X)) + (p + X + K - t) := by ring
          rw [e]
          refine (abs_add_le _ _).trans ?_
          linarith
        have d2 : (346 / 1000) ≤ |t| := by
          have h3 : (6931 / 10000) ≤ |(k : ℝ) * Real.log 2| := by
            rw [abs_mul, abs_of_pos (show (0 : ℝ) < Real.log 2 by norm_num at l1; linarith)]
            nlinarith
          have h4 := abs_sub_abs_le_abs_sub (k * Real.log 2) (- ℓ)
          have e : (k : ℝ) * Real.log 2 - - ℓ = t := by rw [ht]; ring
          rw [e, abs_neg] at h4
          linarith
        have d3 : u * (346 / 1000) ≤ u * |t| := mul_le_mul_of_nonneg_left d2 hu0.le
        linarith
    · refine key (25 / 100) (9 / 10) e1' ?_ (by norm_num) (by norm_num) (by norm_num) ht9
      have h3 : (138 / 100) ≤ |(k : ℝ) * Real.log 2| := by
        rw [abs_mul, abs_of_pos (show (0 : ℝ) < Real.log 2 by norm_num at l1; linarith)]
        have : (2 : ℝ) ≤ |(k : ℝ)| := by exact_mod_cast h1
        nlinarith
      have h4 := abs_sub_abs_le_abs_sub (k * Real.log 2) (- ℓ)
      have e : (k : ℝ) * Real.log 2 - - ℓ = t := by rw [ht]; ring
      rw [e, abs_neg] at h4
      linarith

/-- the last two sums, with a large multiple of `ln 2` -/
theorem two_sums_big {P f kh : BitVec F.w} {p X K t ℓ : ℝ} (hP : GFv F P p) (hf : GFv F f X) (hk : GFv F kh K) {k : ℤ} (hk0 : 24 ≤ k)
    (hk9 : |(k : ℝ)| ≤ 2000) (hK : |K - k * Real.log 2| ≤ (15 / 10000)) (hℓ : |ℓ| ≤ (34665 / 100000)) (ht : t = ℓ + k * Real.log 2)
    (hv : |p + X + K - t| ≤ 3 * (1 / 2 ^ (F.s + 1))) :
    ∃ W, GFv F (N.add (N.add P f) kh) W ∧ |W - t| ≤ 2 * (1 / 2 ^ (F.s + 1)) * |t| := by
  have h127 := hF.bias
  obtain ⟨l1, l2⟩ := ln2_in
  have hu0 : (0 : ℝ) < 1 / 2 ^ (F.s + 1) := by positivity
  have hu1 : (1 : ℝ) / 2 ^ 53 ≤ 1 / 2 ^ (F.s + 1) := one_div_le_one_div_of_le (by positivity) (pow_le_pow_right₀ (by norm_num) (by rcases hs with h | h <;> omega))
  have hu2 : (1 : ℝ) / 2 ^ (F.s + 1) ≤ 1 / 2 ^ 20 := one_div_le_one_div_of_le (by norm_num) (pow_le_pow_right₀ (by norm_num) (by rcases hs with h | h <;> omega))
  have hkR : (24 : ℝ) ≤ k := by exact_mod_cast hk0
  rw [abs_of_nonneg (by linarith)] at hk9
  have hkl : 24 * (6931 / 10000) ≤ (k : ℝ) * Real.log 2 := mul_le_mul hkR l1.le (by norm_num) (by linarith)
  have hkl9 : (k : ℝ) * Real.log 2 ≤ 2000 * (6932 / 10000) := mul_le_mul hk9 l2.le (by linarith) (by norm_num)
  rw [abs_le] at hℓ hK
  have ht1 : 16 ≤ t := by linarith [hℓ.1]
  have ht9 : t ≤ 1400 := by linarith [hℓ.2]
  have hv1 : |p + X| ≤ 1 := by
    rw [abs_le] at hv ⊢
    constructor <;> linarith [hv.1, hv.2, hK.1, hK.2, hℓ.1, hℓ.2]
  obtain ⟨w, w1, w2⟩ := GFv.rnd hF (hP.addR N hf) (hv1.trans (by norm_num))
  have hT : (1 : ℝ) / 2 ^ 150 ≤ 1 / 10000 * (1 / 2 ^ 53) := by norm_num
  have w3 : |w - (p + X)| ≤ 11 / 10 * (1 / 2 ^ (F.s + 1)) := by
    have := mul_le_mul_of_nonneg_left hv1 hu0.le
    linarith
  have d1 : |w + K - t| ≤ 42 / 10 * (1 / 2 ^ (F.s + 1)) := by
    have e : w + K - t = (w - (p + X)) + (p + X + K - t) := by ring
    rw [e]
    refine (abs_add_le _ _).trans ?_
    linarith
  have d2 : |w + K| ≤ |t| + 42 / 10 * (1 / 2 ^ (F.s + 1)) := by
    have := abs_sub_abs_le_abs_sub (w + K) t
    linarith
  have hta : |t| = t := abs_of_pos (by linarith)
  obtain ⟨W, W1, W2⟩ := GFv.rnd hF (w1.addR N hk) (v := w + K) (by
    rw [hta] at d2
    refine d2.trans ?_
    have : (1400 : ℝ) + 42 / 10 * (1 / 2 ^ 20) ≤ 2 ^ (100 : ℤ) := by norm_num
    linarith)
  refine ⟨W, W1, ?_⟩
  have d4 := mul_le_mul_of_nonneg_left d2 hu0.le
  have d5 : (1 : ℝ) / 2 ^ (F.s + 1) * (42 / 10 * (1 / 2 ^ (F.s + 1))) ≤ 1 / 2 ^ (F.s + 1) * 1 := mul_le_mul_of_nonneg_left (by norm_num at hu2 ⊢; linarith) hu0.le
  have d6 := mul_le_mul_of_nonneg_left ht1 hu0.le
  have d3 : W - t = (W - (w + K)) + (w + K - t) := by ring
  rw [d3]
  refine (abs_add_le _ _).trans ?_
  rw [hta] at d4 ⊢
  linarith

/-- the result with a multiple of `ln 2` and a correction `η` -/
theorem coreE {f half two r : BitVec F.w} {X R : ℝ} (hf : GFv F f X) (h2 : GFv F two 2)
    (hh : GFv F (N.mul half f) (X / 2)) (hr : Ex.Holds F 1 r R ⟨2 / 100, 14 / 100 / 2 ^ (F.s + 1), false⟩) (hR : 0 ≤ R)
    (hap : |Real.log (1 + X) - X / (2 + X) * (2 + R)| ≤ 0.04 * (1 / 2 ^ (F.s + 1)) * |X / (2 + X)|) (hX0 : -0.2929 ≤ X) (hX1 : X ≤ 0.41422)
    {l kh : BitVec F.w} {L K : ℝ} (hl : Ex.Holds F 1 l L ⟨14 / 10000, 1 / 100 / 2 ^ (F.s + 1), false⟩) (hk : GFv F kh K) (hg : Mul2 (-2 - (F.s : ℤ)) K)
    {k : ℤ} (hk0 : k ≠ 0) (hk9 : |(k : ℝ)| ≤ 2000) {η : ℝ} (hη : |η| ≤ 2 * (1 / 2 ^ (F.s + 1)))
    {δ : ℝ} (hK : |K + L - (k * Real.log 2 + η)| ≤ δ * (1 / 2 ^ (F.s + 1))) (hδ : δ ≤ 1 / 100 ∨ δ ≤ 2 ∧ 24 ≤ k) :
    ∃ W, GFv F (N.add (N.add (N.sub (N.add (N.mul (N.div f (N.add two f)) (N.add (N.mul (N.mul half f) f) r)) l) (N.mul (N.mul half f) f)) f) kh) W ∧
      |W - (Real.log (1 + X) + η + k * Real.log 2)| ≤ 2 * (1 / 2 ^ (F.s + 1)) * |Real.log (1 + X) + η + k * Real.log 2| := by
  have hu2 : (1 : ℝ) / 2 ^ (F.s + 1) ≤ 1 / 2 ^ 20 :=
    one_div_le_one_div_of_le (by norm_num) (pow_le_pow_right₀ (by norm_num) (by rcases hs with h | h <;> omega))
  have hP := p_any hF hs N hf h2 hh hr hX0 hX1 hl
  have hR2 := hr.2.1
  simp only [Ex.sv] at hR2
  have hL := hl.2.1
  simp only [Ex.sv] at hL
  obtain ⟨p1, -, p3⟩ := hP
  simp only [Ex.sv] at p3
  have e8 : (((26 / 100 / 2 ^ (F.s + 1) : ℚ)) : ℝ) = (26 / 100) * (1 / 2 ^ (F.s + 1)) := by push_cast; ring
  rw [e8] at p3
  have hu0 : (0 : ℝ) < 1 / 2 ^ (F.s + 1) := by positivity
  set u : ℝ := 1 / 2 ^ (F.s + 1) with hu
  have hδ2 : δ ≤ 2 := by
    rcases hδ with h | h
    · linarith
    · exact h.1
  have hid := ideal_eq (R := R) (X := X) (by norm_num at hX0; linarith)
  have hs1 := s_le rfl hX0 hX1
  have hap2 : |Real.log (1 + X) - X / (2 + X) * (2 + R)| ≤ (7 / 1000) * u := by
    refine hap.trans ?_
    norm_num at hs1 ⊢
    nlinarith [abs_nonneg (X / (2 + X))]
  have hℓ : |Real.log (1 + X) + η| ≤ (34665 / 100000) := by
    refine (abs_add_le _ _).trans ?_
    have h5 : |X / (2 + X) * (2 + R)| = |X / (2 + X)| * (2 + R) := by rw [abs_mul, abs_of_nonneg (show (0 : ℝ) ≤ 2 + R by linarith)]
    have h6 := abs_sub_abs_le_abs_sub (Real.log (1 + X)) (X / (2 + X) * (2 + R))
    have hR3 : R ≤ (2 / 100) := by
      have := (le_abs_self R).trans hR2
      push_cast at this
      norm_num at this ⊢; linarith
    have h7 : |X / (2 + X)| * (2 + R) ≤ (1716 / 10000) * (202 / 100) := mul_le_mul (by norm_num at hs1 ⊢; exact hs1) (by norm_num at hR3 ⊢; linarith) (by linarith) (by norm_num)
    rw [h5] at h6
    clear h5 e8 hu
    norm_num at h6 h7 hap2 hu2 ⊢
    linarith
  have hK2 : |K - k * Real.log 2| ≤ (15 / 10000) := by
    have e : K - k * Real.log 2 = (K + L - (k * Real.log 2 + η)) + (η - L) := by ring
    rw [e]
    refine (abs_add_le _ _).trans ?_
    have := abs_sub η L
    push_cast at hL
    have := mul_le_mul_of_nonneg_right hδ2 hu0.le
    linarith
  suffices hv : |F.valK ℝ (N.sub (N.add (N.mul (N.div f (N.add two f)) (N.add (N.mul (N.mul half f) f) r)) l) (N.mul (N.mul half f) f)) + X + K -
      (Real.log (1 + X) + η + k * Real.log 2)| ≤ (27 / 100 + δ) * u by
    rcases hδ with h | ⟨h, h'⟩
    · exact two_sums hF hs N ⟨p1, rfl⟩ hf hk hg hk0 hk9 hK2 hℓ rfl (hv.trans (mul_le_mul_of_nonneg_right (by linarith) hu0.le))
    · exact two_sums_big hF hs N ⟨p1, rfl⟩ hf hk h' hk9 hK2 hℓ rfl (hv.trans (mul_le_mul_of_nonneg_right (by linarith) hu0.le))
  generalize F.valK ℝ (N.sub (N.add (N.mul (N.div f (N.add two f)) (N.add (N.mul (N.mul half f) f) r)) l) (N.mul (N.mul half f) f)) = p at p3 ⊢
  have e : p + X + K - (Real.log (1 + X) + η + k * Real.log 2) = (p - (X / (2 + X) * (X / 2 * X + R) + L - X / 2 * X)) -
      (Real.log (1 + X) - X / (2 + X) * (2 + R)) + (K + L - (k * Real.log 2 + η)) := by rw [← hid]; ring
  rw [e]
  refine (abs_add_le _ _).trans ?_
  have := abs_sub (p - (X / (2 + X) * (X / 2 * X + R) + L - X / 2 * X)) (Real.log (1 + X) - X / (2 + X) * (2 + R))
  simp only [Bool.false_eq_true, if_false, mul_one] at p3
  linarith

/-- the result with a multiple of `ln 2` -/
theorem coreK {f half two r : BitVec F.w} {X R : ℝ} (hf : GFv F f X) (h2 : GFv F two 2)
    (hh : GFv F (N.mul half f) (X / 2)) (hr : Ex.Holds F 1 r R ⟨2 / 100, 14 / 100 / 2 ^ (F.s + 1), false⟩) (hR : 0 ≤ R)
    (hap : |Real.log (1 + X) - X / (2 + X) * (2 + R)| ≤ 0.04 * (1 / 2 ^ (F.s + 1)) * |X / (2 + X)|) (hX0 : -0.2929 ≤ X) (hX1 : X ≤ 0.41422)
    {l kh : BitVec F.w} {L K : ℝ} (hl : Ex.Holds F 1 l L ⟨14 / 10000, 1 / 100 / 2 ^ (F.s + 1), false⟩) (hk : GFv F kh K) (hg : Mul2 (-2 - (F.s : ℤ)) K)
    {k : ℤ} (hk0 : k ≠ 0) (hk9 : |(k : ℝ)| ≤ 2000) (hK : |K + L - k * Real.log 2| ≤ (1 / 100) * (1 / 2 ^ (F.s + 1))) :
    ∃ W, GFv F (N.add (N.add (N.sub (N.add (N.mul (N.div f (N.add two f)) (N.add (N.mul (N.mul half f) f) r)) l) (N.mul (N.mul half f) f)) f) kh) W ∧
      |W - (Real.log (1 + X) + k * Real.log 2)| ≤ 2 * (1 / 2 ^ (F.s + 1)) * |Real.log (1 + X) + k * Real.log 2| := by
  have := coreE hF hs N hf h2 hh hr hR hap hX0 hX1 hl hk hg hk0 hk9 (η := 0) (by rw [abs_zero]; positivity) (by rw [add_zero]; exact hK) (Or.inl le_rfl)
  rwa [add_zero] at this
end
end Log
end Verif
