import Verif.Libm.CbrtNewton
import Verif.Libm.GFvSign
import Verif.Libm.RoundNearest
import Verif.Libm.FmaWideProofs
/-! # `cbrt`: the result of the iteration is nearest to a number that is very near the cube root -/
namespace Verif
open Fmt
namespace CbrtD
variable (N : FPU f64) {fma : D → D → D → M D}

/-- no multiple of `2^-52` up to 2 is nearer to `v` -/
def NearU (v Y : ℝ) : Prop := ∀ g, Mul2 (-52) g → |g| ≤ 2 → |v - Y| ≤ |v - g|

/-- the sign of a number, as a number -/
theorem unit_sign {c : ℝ} (h : c ≠ 0) : ∃ σ : ℝ, (σ = 1 ∨ σ = -1) ∧ c = σ * |c| := by
  rcases lt_or_gt_of_ne h with h | h
  · exact ⟨-1, Or.inr rfl, by rw [abs_of_neg h]; ring⟩
  · exact ⟨1, Or.inl rfl, by rw [abs_of_pos h]; ring⟩

theorem abs_unit {σ : ℝ} (h : σ = 1 ∨ σ = -1) : |σ| = 1 := by rcases h with rfl | rfl <;> simp

theorem unit_mul2 {σ : ℝ} (h : σ = 1 ∨ σ = -1) {j : ℤ} (hj : j ≤ 0) : Mul2 j σ := by
  have h1 : Mul2 0 σ := by
    rcases h with rfl | rfl
    · exact ⟨1, by simp⟩
    · exact ⟨-1, by simp⟩
  exact h1.mono hj

/-- a multiple of `2^-53` less than that is 0 -/
theorem mul2_zero {j : ℤ} {v : ℝ} (h : Mul2 j v) (hv : |v| < 2 ^ j) : v = 0 := by
  obtain ⟨m, rfl⟩ := h
  have hp : (0 : ℝ) < 2 ^ j := by positivity
  rw [abs_mul, abs_of_pos hp] at hv
  have : |(m : ℝ)| < 1 := by by_contra hh; rw [not_lt] at hh; nlinarith
  have : |m| < 1 := by exact_mod_cast this
  rw [Int.abs_lt_one_iff] at this
  rw [this]; simp

theorem p53 : (2 : ℝ) ^ (-53 : ℤ) = 1 / 2 ^ 53 := by rw [zpow_neg]; norm_num
theorem p52R : (2 : ℝ) ^ (-52 : ℤ) = 1 / 2 ^ 52 := by rw [zpow_neg]; norm_num

/-- a pattern of at least 1 is a multiple of `2^-52` -/
theorem mul2_one {b : D} {B : ℝ} (h : GFv f64 b B) (h1 : 1 ≤ |B|) : Mul2 (-52) B := by
  have := f64.mul2_ge (b := b) (k := 0) (by rw [h.val, zpow_zero]; exact h1)
  rwa [h.val, s64] at this

/-- within half a unit: no other is nearer -/
theorem near_of_half {v Y : ℝ} (hY : Mul2 (-52) Y) (h : |v - Y| ≤ 1 / 2 ^ 53) : NearU v Y := by
  intro g hg _
  by_cases e : g = Y
  · rw [e]
  · have h1 : 1 / 2 ^ 52 ≤ |g - Y| := by
      by_contra hh
      rw [not_le, ← p52R] at hh
      exact e (sub_eq_zero.mp (mul2_zero (hg.sub hY) hh))
    have h2 := abs_sub_le g v Y
    rw [abs_sub_comm g v] at h2
    norm_num at h h1 ⊢
    linarith

/-- what rounding gives near the cube root -/
theorem post {c v Y : ℝ} {y : D} (hr : f64.Rounds v y) (gy : GFv f64 y Y) (c1 : 1 ≤ |c|) (c2 : |c| ≤ 2 - 1 / 2 ^ 54) (hv : |v - c| ≤ 1 / 2 ^ 75) :
    1 ≤ |Y| ∧ |Y| ≤ 2 ∧ |v - Y| ≤ 1 / 2 ^ 53 ∧ 0 < Y * c ∧ ∃ v', |v' - c| ≤ |v - c| ∧ 1 ≤ |v'| ∧ |v'| ≤ 2 ∧ NearU v' Y := by
  have hc : c ≠ 0 := by intro h; rw [h, abs_zero] at c1; linarith
  obtain ⟨σ, hσ, ec⟩ := unit_sign hc
  have hσ2 : σ * σ = 1 := by rcases hσ with rfl | rfl <;> norm_num
  -- `w = σ v` is positive
  obtain ⟨w, hw⟩ : ∃ w, v = σ * w := ⟨σ * v, by rw [← mul_assoc, hσ2, one_mul]⟩
  have k1 : |w - (|c|)| ≤ 1 / 2 ^ 75 := by
    have : v - c = σ * (w - |c|) := by rw [hw, mul_sub, ← ec]
    rw [this, abs_mul, abs_unit hσ, one_mul] at hv
    exact hv
  have k2 := abs_le.mp k1
  norm_num at k2 c2
  have w2 : w ≤ 2 := by linarith [k2.2]
  have w0 : 0 < w := by linarith [k2.1]
  have av : |v| = w := by rw [hw, abs_mul, abs_unit hσ, one_mul, abs_of_pos w0]
  have eY : |v - Y| ≤ 1 / 2 ^ 53 := by
    have := err64 hr gy (k := 1) (by rw [av, zpow_one]; exact w2) (by norm_num) (by norm_num)
    rw [abs_sub_comm]
    exact this.trans (by norm_num)
  have hnear : ∀ g, Mul2 (-52) g → |g| ≤ 2 → |v - Y| ≤ |v - g| := by
    intro g hg h2
    have := hr.near f64 (hg.rp f64 (h2.trans (by rw [s64]; norm_num)) (by decide)) (h2.trans (by
      rw [b64]; exact le_trans (by norm_num) (zpow_le_zpow_right₀ (by norm_num : (1 : ℝ) ≤ 2) (show (1 : ℤ) ≤ 1023 + 1 by norm_num))))
    rwa [gy.val] at this
  have m1 := unit_mul2 hσ (j := -52) (by norm_num)
  have n1 := hnear σ m1 (by rw [abs_unit hσ]; norm_num)
  have e1 : v - σ = σ * (w - 1) := by rw [hw]; ring
  rw [e1, abs_mul, abs_unit hσ, one_mul] at n1
  obtain ⟨Z, hZ⟩ : ∃ Z, Y = σ * Z := ⟨σ * Y, by rw [← mul_assoc, hσ2, one_mul]⟩
  have e2 : v - Y = σ * (w - Z) := by rw [hw, hZ]; ring
  have e3 : |v - Y| = |w - Z| := by rw [e2, abs_mul, abs_unit hσ, one_mul]
  have eY' := eY
  rw [e3] at n1 eY'
  have k3 := abs_le.mp eY'
  norm_num at k3
  have Z0 : 0 < Z := by linarith [k3.2]
  have aY : |Y| = Z := by rw [hZ, abs_mul, abs_unit hσ, one_mul, abs_of_pos Z0]
  have hYc : 0 < Y * c := by
    have : Y * c = Z * |c| := by rw [hZ]; nth_rw 1 [ec]; rw [show σ * Z * (σ * |c|) = (σ * σ) * (Z * |c|) by ring, hσ2, one_mul]
    rw [this]
    exact mul_pos Z0 (by linarith)
  have h2 : |Y| ≤ 2 := by
    rw [aY]
    have := hnear (2 * σ) (by rw [two_mul]; exact m1.add m1) (by rw [abs_mul, abs_unit hσ]; norm_num)
    have e4 : v - 2 * σ = σ * (w - 2) := by rw [hw]; ring
    rw [e3, e4, abs_mul, abs_unit hσ, one_mul, abs_of_nonpos (by linarith : w - 2 ≤ 0)] at this
    have := (abs_le.mp this).1
    linarith
  rcases le_or_gt 1 w with hw1 | hw1
  · have h1 : 1 ≤ |Y| := by
      rw [aY]
      rw [abs_of_nonneg (by linarith : 0 ≤ w - 1)] at n1
      have := (abs_le.mp n1).2
      linarith
    exact ⟨h1, h2, eY, hYc, v, le_refl _, by rw [av]; exact hw1, by rw [av]; exact w2, hnear⟩
  · -- below 1: the result is 1
    have hs : |w - 1| ≤ 1 / 2 ^ 75 := by rw [abs_le]; norm_num; constructor <;> linarith [k2.1]
    have g1 : Mul2 (-53) Y := by
      have := f64.mul2_ge (b := y) (k := -1) (by rw [gy.val, aY]; norm_num; linarith)
      rwa [gy.val, s64] at this
    have hYs : Y = σ := by
      refine sub_eq_zero.mp (mul2_zero (g1.sub (unit_mul2 hσ (by norm_num))) ?_)
      have : Y - σ = σ * (Z - 1) := by rw [hZ]; ring
      rw [this, abs_mul, abs_unit hσ, one_mul, p53]
      have h3 := abs_sub_le Z w 1
      rw [abs_sub_comm Z w] at h3
      norm_num at hs ⊢
      linarith
    refine ⟨by rw [hYs, abs_unit hσ], h2, eY, hYc, σ, ?_, by rw [abs_unit hσ], by rw [abs_unit hσ]; norm_num, ?_⟩
    · have e5 : σ - c = σ * (1 - |c|) := by rw [mul_sub, ← ec]; ring
      have e6 : v - c = σ * (w - |c|) := by rw [hw, mul_sub, ← ec]
      rw [e5, e6, abs_mul, abs_mul, abs_unit hσ, one_mul, one_mul, abs_of_nonpos (by linarith : 1 - |c| ≤ 0), abs_of_nonpos (by linarith : w - |c| ≤ 0)]
      linarith
    · intro g _ _
      rw [hYs]; simp

theorem off_fv : GFv f64 off (1 / 2 ^ 53) := by
  have := GFv.const (F := f64) (b := off) (q := 1 / 2 ^ 53) (by decide) (by decide +kernel)
  exact this.cast (by push_cast; norm_num)
theorem p75_fv : GFv f64 p75 (1 / 2 ^ 75) := by
  have := GFv.const (F := f64) (b := p75) (q := 1 / 2 ^ 75) (by decide) (by decide +kernel)
  exact this.cast (by push_cast; norm_num)

/-- the first test fails: the sum is not near the middle of two numbers -/
theorem tight_false {dy : D} {δ : ℝ} (gd : GFv f64 dy δ) (hd : |δ| ≤ 1 / 2 ^ 53) (h : ¬ tight N dy p75 = true) : |δ| ≤ 1 / 2 ^ 53 - 0.9999 / 2 ^ 75 := by
  unfold tight at h
  dsimp only at h
  rw [Bool.or_eq_true, not_or] at h
  obtain ⟨u, gu, eu, -⟩ := rnd53 (gd.fabs.subR N off_fv) (by
    rw [abs_le]; have := abs_nonneg δ; norm_num at hd ⊢; constructor <;> linarith)
  have h1 := h.1
  rw [gu.fabs.lt_iff p75_fv, not_lt] at h1
  have e : |(|δ|) - 1 / 2 ^ 53| = 1 / 2 ^ 53 - |δ| := by rw [abs_of_nonpos (by linarith)]; ring
  have h2 := abs_sub_abs_le_abs_sub u (|δ| - 1 / 2 ^ 53)
  rw [e] at h2 eu
  norm_num at *
  linarith

/-- the two worst cases are nearest to the cube root -/
theorem worst_spec {zz y1 : D} {c v Y : ℝ} (gz : GFv f64 zz (c ^ 3)) (gy : GFv f64 y1 Y) (c1 : 1 ≤ |c|) (c2 : |c| ≤ 2 - 1 / 2 ^ 54)
    (h : 1 ≤ |Y| ∧ |Y| ≤ 2 ∧ 0 < Y * c ∧ ∃ v', |v' - c| ≤ 1 / 2 ^ 100 * |c| ∧ 1 ≤ |v'| ∧ |v'| ≤ 2 ∧ NearU v' Y) :
    ∃ Y', GFv f64 (worst zz y1) Y' ∧ 1 ≤ |Y'| ∧ |Y'| ≤ 2 ∧ 0 < Y' * c ∧ ∃ v', |v' - c| ≤ 1 / 2 ^ 100 * |c| ∧ 1 ≤ |v'| ∧ |v'| ≤ 2 ∧ NearU v' Y' := by
  have hc : c ≠ 0 := by intro h; rw [h, abs_zero] at c1; linarith
  -- a special case: `a` is the cube of a number between `p - 2^-53` and `p`
  have key : ∀ (a p : D) (q w : ℚ), f64.val a = q → f64.val p = w → f64.mag a < f64.infRep → f64.mag p < f64.infRep → f64.sign p = false → 1 ≤ w → w ≤ 2 → (w - 1 / 2 ^ 53) ^ 3 ≤ q → q ≤ w ^ 3 →
      f64.feq (f64.fabs zz) a = true →
      ∃ Y', GFv f64 (f64.copysign p zz) Y' ∧ 1 ≤ |Y'| ∧ |Y'| ≤ 2 ∧ 0 < Y' * c ∧ ∃ v', |v' - c| ≤ 1 / 2 ^ 100 * |c| ∧ 1 ≤ |v'| ∧ |v'| ≤ 2 ∧ NearU v' Y' := by
    intro a p q w ha hp fa fp sp w1 w2 hlo hhi hq
    have ga := GFv.const fa ha
    have gp := GFv.const fp hp
    have hv := (f64.feq_val gz.fabs.fin ga.fin).mp hq
    have hv : |c ^ 3| = (q : ℝ) := by
      have e1 := gz.fabs.valQ
      have e2 := ga.valQ
      rw [← e1, hv, e2]
    rw [abs_pow] at hv
    have hwR : (1 : ℝ) ≤ w := by exact_mod_cast w1
    have hwR2 : (w : ℝ) ≤ 2 := by exact_mod_cast w2
    have l1 : (w : ℝ) - 1 / 2 ^ 53 ≤ |c| := by
      by_contra hh
      rw [not_le] at hh
      have : |c| ^ 3 < ((w : ℝ) - 1 / 2 ^ 53) ^ 3 := pow_lt_pow_left₀ hh (abs_nonneg _) (by norm_num)
      rw [hv] at this
      have h3 : ((w : ℝ) - 1 / 2 ^ 53) ^ 3 ≤ q := by have := (Rat.cast_le (K := ℝ)).mpr hlo; push_cast at this; exact this
      linarith
    have l2 : |c| ≤ w := by
      by_contra hh
      rw [not_le] at hh
      have : (w : ℝ) ^ 3 < |c| ^ 3 := pow_lt_pow_left₀ hh (by linarith) (by norm_num)
      rw [hv] at this
      have h3 : (q : ℝ) ≤ (w : ℝ) ^ 3 := by exact_mod_cast hhi
      linarith
    obtain ⟨σ, hσ, ec⟩ := unit_sign hc
    have hσ2 : σ * σ = 1 := by rcases hσ with rfl | rfl <;> norm_num
    have gY : GFv f64 (f64.copysign p zz) (σ * w) := by
      obtain ⟨s1, s2⟩ := f64.copysign_facts p zz
      have hf : f64.IsFin (f64.copysign p zz) := by unfold Fmt.IsFin; rw [s2]; exact fp
      refine ⟨hf, ?_⟩
      have := (GFv.self hf).eq_sign
      rw [this, s1, s2, ← gp.abs_eq, abs_of_nonneg (by linarith : (0 : ℝ) ≤ w)]
      have hs := gz.eq_sign
      have hpos : 0 < f64.magVal ℝ (f64.mag zz) := by rw [← gz.abs_eq, abs_pow]; positivity
      rcases hσ with rfl | rfl
      · have : 0 < c ^ 3 := by have : 0 < c := by rw [ec]; linarith
                               positivity
        split at hs
        · nlinarith
        · rename_i hh; rw [if_neg hh]
      · have : c ^ 3 < 0 := by
          have : c < 0 := by rw [ec]; linarith
          exact Odd.pow_neg (by decide) this
        split at hs
        · rename_i hh; rw [if_pos hh]
        · nlinarith
    have aY : |σ * (w : ℝ)| = w := by rw [abs_mul, abs_unit hσ, one_mul, abs_of_pos (by linarith)]
    refine ⟨σ * w, gY, by rw [aY]; exact hwR, by rw [aY]; exact hwR2, ?_, c, by rw [sub_self, abs_zero]; positivity, c1, by norm_num at c2; linarith, ?_⟩
    · have : σ * w * c = w * |c| := by nth_rw 1 [ec]; rw [show σ * w * (σ * |c|) = (σ * σ) * (w * |c|) by ring, hσ2, one_mul]
      rw [this]
      exact mul_pos (by linarith) (by linarith)
    · refine near_of_half (mul2_one gY (by rw [aY]; exact hwR)) ?_
      have : c - σ * w = σ * (|c| - w) := by rw [mul_sub, ← ec]
      rw [this, abs_mul, abs_unit hσ, one_mul, abs_le]
      constructor <;> linarith
  unfold worst
  dsimp only
  by_cases h2 : f64.feq (f64.fabs zz) 0x401a202bfc89ddff#f64.w = true
  · rw [if_pos h2]
    exact key _ _ (7353722687053311 / 2 ^ 50) (8418387830473231 / 2 ^ 52) (by decide +kernel) (by decide +kernel) (by decide) (by decide) (by decide) (by norm_num) (by norm_num) (by norm_num)
      (by norm_num) h2
  · rw [if_neg h2]
    by_cases h1 : f64.feq (f64.fabs zz) 0x4009b78223aa307c#f64.w = true
    · rw [if_pos h1]
      exact key _ _ (7238643989753980 / 2 ^ 51) (6646641489139100 / 2 ^ 52) (by decide +kernel) (by decide +kernel) (by decide) (by decide) (by decide) (by norm_num) (by norm_num) (by norm_num)
        (by norm_num) h1
    · rw [if_neg h1]
      exact ⟨Y, gy, h⟩

/-- the result of the iteration -/
theorem refine_spec (hH : FmaOk fma) {zz rr y : D} {c R Y : ℝ} (gz : GFv f64 zz (c ^ 3)) (gr : GFv f64 rr R) (gy : GFv f64 y Y) (c1 : 1 ≤ |c|) (c2 : |c| ≤ 2 - 1 / 2 ^ 54)
    (hR : |R * c ^ 3 - 1| ≤ 1 / 2 ^ 52) (hY : |Y - c| ≤ 2.2e-12 * |c|) :
    ∃ y1 dy Y1 δ, refine N fma zz rr y = .ok (y1, dy) ∧ GFv f64 y1 Y1 ∧ GFv f64 dy δ ∧ |δ| ≤ 1 / 2 ^ 53 ∧ 1 ≤ |Y1| ∧ |Y1| ≤ 2 ∧ 0 < Y1 * c ∧
      ∃ v, |v - c| ≤ 1 / 2 ^ 100 * |c| ∧ 1 ≤ |v| ∧ |v| ≤ 2 ∧ NearU v Y1 := by
  have c2' : |c| ≤ 2 := by norm_num at c2; linarith
  obtain ⟨y1, dy, v, Y1, e1, r1, g1, gd, hv⟩ := newton_spec N hH gz gr gy c1 c2' hR (by norm_num) hY
  have hv2 : |v - c| ≤ 0.75 / 2 ^ 75 := by
    refine hv.trans ?_
    calc _ ≤ (2.001 * (2.2e-12 : ℝ) ^ 2 + 2.2e-12 / 2 ^ 50 + 1 / 2 ^ 102) * 2 := mul_le_mul_of_nonneg_left c2' (by norm_num)
      _ ≤ _ := by norm_num
  obtain ⟨a1, a2, a3, a4, -⟩ := post r1 g1 c1 c2 (hv2.trans (by norm_num))
  unfold refine
  rw [e1]
  show ∃ y1' dy' Y1' δ, (if tight N dy p75 = true then _ else _) = _ ∧ _
  by_cases ht : tight N dy p75 = true
  · rw [if_pos ht]
    obtain ⟨y2, dy2, v2, Y2, e2, r2, g2, gd2, hw⟩ := newton_spec N hH gz gr g1 c1 c2' hR (E := 1 / 2 ^ 52) (by norm_num) (by
      have := abs_sub_le Y1 v c
      rw [abs_sub_comm Y1 v] at this
      norm_num at a3 hv2 ⊢
      linarith)
    have hw2 : |v2 - c| ≤ 1 / 2 ^ 100 * |c| := by
      refine hw.trans (mul_le_mul_of_nonneg_right ?_ (abs_nonneg _))
      norm_num
    have hw3 : |v2 - c| ≤ 1 / 2 ^ 75 := by norm_num at hw2 ⊢; linarith
    obtain ⟨b1, b2, b3, b4, w, b5, b6, b7, b8⟩ := post r2 g2 c1 c2 hw3
    rw [e2]
    show ∃ y1' dy' Y1' δ, (if tight N dy2 p98 = true then _ else _) = _ ∧ _
    by_cases ht2 : tight N dy2 p98 = true
    · rw [if_pos ht2]
      obtain ⟨Y', gY', d1, d2, d3, d4⟩ := worst_spec (v := 0) gz g2 c1 c2 ⟨b1, b2, b4, w, b5.trans hw2, b6, b7, b8⟩
      exact ⟨_, _, Y', _, rfl, gY', gd2, b3, d1, d2, d3, d4⟩
    · rw [if_neg ht2]
      exact ⟨_, _, Y2, _, rfl, g2, gd2, b3, b1, b2, b4, w, b5.trans hw2, b6, b7, b8⟩
  · rw [if_neg ht]
    refine ⟨_, _, Y1, _, rfl, g1, gd, a3, a1, a2, a4, c, by rw [sub_self, abs_zero]; positivity, c1, c2', near_of_half (mul2_one g1 a1) ?_⟩
    have h1 := tight_false N gd a3 ht
    have h2 := abs_sub_le c v Y1
    rw [abs_sub_comm c v] at h2
    norm_num at h1 hv2 ⊢
    linarith
end CbrtD
end Verif
