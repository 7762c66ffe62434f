import Verif.Libm.PolyMul
import Mathlib.Analysis.SpecialFunctions.Trigonometric.InverseDeriv
import Mathlib.Analysis.Calculus.MeanValue
import Mathlib.Analysis.SpecialFunctions.Trigonometric.Bounds
/-! # The arcsine of small arguments, as a polynomial -/
namespace Verif
namespace Poly

/-- coefficients of `(arcsin x / x - 1) / x²` in `x²`, rounded to dyadic numbers -/
def asL : List ℚ :=
  [201487636602438195784363 / 2 ^ 80,
   22667359117774297025741 / 2 ^ 78,
   3373118916335460866926 / 2 ^ 76,
   573898704515408272498 / 2 ^ 74,
   105649534240336522892 / 2 ^ 72,
   20486528274167819343 / 2 ^ 70,
   4121694378969477939 / 2 ^ 68,
   852372458886151228 / 2 ^ 66,
   180069912732527562 / 2 ^ 64,
   38693594343120506 / 2 ^ 62,
   8430768332666079 / 2 ^ 60,
   1858281853325148 / 2 ^ 58,
   413613304247941 / 2 ^ 56,
   92833774260083 / 2 ^ 54,
   20987420471164 / 2 ^ 52,
   4774836901702 / 2 ^ 50,
   1092394408814 / 2 ^ 48,
   251160501276 / 2 ^ 46,
   58002484185 / 2 ^ 44,
   13448441836 / 2 ^ 42,
   3129406247 / 2 ^ 40,
   730589918 / 2 ^ 38,
   171073611 / 2 ^ 36,
   40168113 / 2 ^ 34,
   9455259 / 2 ^ 32,
   2230872 / 2 ^ 30,
   527485 / 2 ^ 28,
   124972 / 2 ^ 26,
   29663 / 2 ^ 24,
   7053 / 2 ^ 22,
   1680 / 2 ^ 20,
   401 / 2 ^ 18]

/-- the coefficients of the derivative of `x p(x²)`, in `x²` -/
def dOdd : List ℚ → List ℚ
  | [] => []
  | a :: q => a :: add (scale 2 q) (dOdd q)

theorem dOdd_spec (p : List ℚ) (x : ℝ) : HasDerivAt (fun t => t * ev p (t * t)) (ev (dOdd p) (x * x)) x := by
  induction p with
  | nil => simp only [ev, dOdd, mul_zero]; exact hasDerivAt_const x 0
  | cons a q ih =>
    have h1 : HasDerivAt (fun t : ℝ => t * (a : ℝ) + (t * t) * (t * ev q (t * t)))
        (1 * (a : ℝ) + ((1 * x + x * 1) * (x * ev q (x * x)) + (x * x) * ev (dOdd q) (x * x))) x :=
      ((hasDerivAt_id x).mul_const (a : ℝ)).add (((hasDerivAt_id x).mul (hasDerivAt_id x)).mul ih)
    have e1 : (fun t : ℝ => t * ev (a :: q) (t * t)) = fun t : ℝ => t * (a : ℝ) + (t * t) * (t * ev q (t * t)) := by
      funext t; simp only [ev]; ring
    rw [e1]
    refine h1.congr_deriv ?_
    simp only [dOdd, ev, ev_add, ev_scale]
    push_cast
    ring

theorem ev_nonneg {p : List ℚ} (h : (p.all fun a => decide (0 ≤ a)) = true) {t : ℝ} (ht : 0 ≤ t) : 0 ≤ ev p t := by
  induction p with
  | nil => simp [ev]
  | cons a q ih =>
    rw [List.all_cons, Bool.and_eq_true, decide_eq_true_iff] at h
    have h1 : (0 : ℝ) ≤ a := by exact_mod_cast h.1
    have := ih h.2
    simp only [ev]; positivity

/-- the derivative of the polynomial -/
def asS : List ℚ := dOdd (1 :: asL)

theorem asS_near : bnd (1 / 4) (sub [1] (mul [1, -1] (mul asS asS))) ≤ 1 / 2 ^ 66 := by decide +kernel

theorem asin_deriv {z : ℝ} (h0 : 0 ≤ z) (h1 : z ≤ 1 / 4) : |1 / Real.sqrt (1 - z) - ev asS z| ≤ 1 / 2 ^ 65 := by
  have hb := (ev_le_bnd (h := 1 / 4) (by norm_num) (sub [1] (mul [1, -1] (mul asS asS))) (t := z) (by rw [abs_of_nonneg h0]; push_cast; linarith)).1
  have hb2 : ((bnd (1 / 4) (sub [1] (mul [1, -1] (mul asS asS))) : ℚ) : ℝ) ≤ ((1 / 2 ^ 66 : ℚ) : ℝ) := by exact_mod_cast asS_near
  have e : ev (sub [1] (mul [1, -1] (mul asS asS))) z = 1 - (1 - z) * (ev asS z * ev asS z) := by
    rw [ev_sub, ev_mul, ev_mul]
    generalize ev asS z = S
    simp only [ev]; push_cast; ring
  rw [e] at hb
  have hS : 0 ≤ ev asS z := ev_nonneg (by decide +kernel) h0
  generalize ev asS z = S at *
  obtain ⟨w, hw⟩ : ∃ w, w = Real.sqrt (1 - z) := ⟨_, rfl⟩
  have hww : w * w = 1 - z := by rw [hw]; exact Real.mul_self_sqrt (by linarith)
  have hw0 : 0 ≤ w := by rw [hw]; exact Real.sqrt_nonneg _
  have hwh : 1 / 2 ≤ w := by nlinarith
  rw [← hw]
  have h3 : |1 - w * S| ≤ 1 / 2 ^ 66 := by
    have h4 : |1 - w * S| * 1 ≤ |1 - w * S| * |1 + w * S| := by
      refine mul_le_mul_of_nonneg_left ?_ (abs_nonneg _)
      rw [abs_of_nonneg (by positivity)]; have : 0 ≤ w * S := by positivity
      linarith
    rw [mul_one, ← abs_mul] at h4
    have e2 : (1 - w * S) * (1 + w * S) = 1 - (1 - z) * (S * S) := by rw [← hww]; ring
    rw [e2] at h4
    refine h4.trans (hb.trans (hb2.trans ?_))
    push_cast; norm_num
  have e3 : 1 / w - S = (1 - w * S) / w := by field_simp
  rw [e3, abs_div, abs_of_nonneg hw0, div_le_iff₀ (by linarith)]
  refine h3.trans ?_
  nlinarith

theorem asin_near {x : ℝ} (h : |x| ≤ 1 / 2) : |Real.arcsin x - x * ev (1 :: asL) (x * x)| ≤ 1 / 2 ^ 65 * |x| := by
  have hm := Convex.norm_image_sub_le_of_norm_hasDerivWithin_le (𝕜 := ℝ) (f := fun t => Real.arcsin t - t * ev (1 :: asL) (t * t))
    (f' := fun t => 1 / Real.sqrt (1 - t ^ 2) - ev asS (t * t)) (C := 1 / 2 ^ 65) (s := Set.Icc (-(1 / 2)) (1 / 2)) (x := 0) (y := x)
    (fun t ht => (((Real.hasDerivAt_arcsin (by linarith [ht.1]) (by linarith [ht.2])).sub (dOdd_spec (1 :: asL) t)).hasDerivWithinAt))
    (fun t ht => by
      rw [Real.norm_eq_abs, show t ^ 2 = t * t by ring]
      exact asin_deriv (mul_self_nonneg t) (by have := ht.1; have := ht.2; nlinarith))
    (convex_Icc _ _) (by constructor <;> norm_num) (by rw [abs_le] at h; exact ⟨h.1, h.2⟩)
  simpa using hm

/-- `arcsin x / x - 1` for `x² = z` -/
noncomputable def asA (z : ℝ) : ℝ := z * ev asL z

theorem asA_near {x : ℝ} (h : |x| ≤ 1 / 2) : |Real.arcsin x - x * (1 + asA (x * x))| ≤ 1 / 2 ^ 65 * |x| := by
  have := asin_near h
  rwa [show ev (1 :: asL) (x * x) = 1 + asA (x * x) by simp only [ev, asA]; push_cast; ring] at this

theorem asL_bd : chk (sub asL [1 / 6]) (1 / 30) 4 0 (1 / 4) = true := by decide +kernel

theorem asA_bd {z : ℝ} (h0 : 0 ≤ z) (h1 : z ≤ 1 / 4) : z / 6 ≤ asA z ∧ asA z ≤ z / 5 := by
  have h := chk_sound asL_bd (t := z) (by push_cast; exact h0) (by push_cast; linarith)
  rw [ev_sub, show ev [1 / 6] z = 1 / 6 by simp only [ev]; push_cast; ring] at h
  push_cast at h
  rw [abs_le] at h
  have hl : 1 / 6 ≤ ev asL z := by
    have h2 : 0 ≤ ev asL.tail z := ev_nonneg (by decide +kernel) h0
    have e : ev asL z = (201487636602438195784363 / 2 ^ 80 : ℚ) + z * ev asL.tail z := rfl
    rw [e]
    have : 0 ≤ z * ev asL.tail z := mul_nonneg h0 h2
    have h3 : (1 / 6 : ℝ) ≤ ((201487636602438195784363 / 2 ^ 80 : ℚ) : ℝ) := by push_cast; norm_num
    linarith
  unfold asA
  constructor <;> nlinarith

theorem asA_lip {z w : ℝ} (h0 : 0 ≤ z) (h1 : z ≤ 1 / 4) (h2 : 0 ≤ w) (h3 : w ≤ 1 / 4) : |asA z - asA w| ≤ 1 / 4 * |z - w| := by
  have h := ev_lip (h := 1 / 4) (by norm_num) (0 :: asL) (s := z) (t := w) (by rw [abs_of_nonneg h0]; push_cast; linarith) (by rw [abs_of_nonneg h2]; push_cast; linarith)
  have e : ∀ t : ℝ, ev (0 :: asL) t = asA t := fun t => by simp only [ev, asA]; push_cast; ring
  rw [e, e] at h
  have hl : ((lip (1 / 4) (0 :: asL) : ℚ) : ℝ) ≤ ((1 / 4 : ℚ) : ℝ) := by
    have : lip (1 / 4) (0 :: asL) ≤ 1 / 4 := by decide +kernel
    exact_mod_cast this
  refine h.trans ((mul_le_mul_of_nonneg_right hl (abs_nonneg _)).trans ?_)
  push_cast; exact le_rfl

theorem ev_take (p : List ℚ) (k : ℕ) (t : ℝ) : ev p t = ev (p.take k) t + t ^ k * ev (p.drop k) t := by
  induction k generalizing p with
  | zero => simp [ev]
  | succ k ih =>
    cases p with
    | nil => simp [ev]
    | cons a q => simp only [List.take_succ_cons, List.drop_succ_cons, ev]; rw [ih q]; ring

/-- a check of the first `k` coefficients only, with a bound of the others -/
def chkT (p : List ℚ) (B : ℚ) (k n : ℕ) (hi : ℚ) : Bool := chk (p.take k) (B - hi ^ k * bnd hi (p.drop k)) n 0 hi

theorem chkT_sound {p : List ℚ} {B hi : ℚ} {k n : ℕ} (h : chkT p B k n hi = true) {t : ℝ} (h1 : 0 ≤ t) (h2 : t ≤ hi) : |ev p t| ≤ B := by
  have a := chk_sound h (t := t) (by push_cast; exact h1) h2
  have hh : (0 : ℝ) ≤ hi := h1.trans h2
  have b := ev_le_bnd (h := hi) (by exact_mod_cast hh) (p.drop k) (t := t) (by rw [abs_of_nonneg h1]; exact h2)
  rw [ev_take p k t]
  refine (abs_add_le _ _).trans ?_
  rw [abs_mul, abs_of_nonneg (pow_nonneg h1 k)]
  have c : t ^ k * |ev (p.drop k) t| ≤ hi ^ k * bnd hi (p.drop k) :=
    mul_le_mul (pow_le_pow_left₀ h1 h2 k) b.1 (abs_nonneg _) (pow_nonneg hh k)
  push_cast at a
  linarith

/-- a rational function near `asA` -/
theorem asA_rat {P Q : List ℚ} {B c m : ℚ} {n k : ℕ} (hm : 0 < m) (hP : chkT (0 :: sub P (mul Q asL)) (B * m) k n (1 / 4) = true)
    (hQ : chk (sub Q [c]) (c - m) n 0 (1 / 4) = true) {z : ℝ} (h0 : 0 ≤ z) (h1 : z ≤ 1 / 4) :
    |z * ev P z / ev Q z - asA z| ≤ B := by
  have a := chkT_sound hP (t := z) h0 (by push_cast; linarith)
  have b := chk_sound hQ (t := z) (by push_cast; exact h0) (by push_cast; linarith)
  rw [show ev (0 :: sub P (mul Q asL)) z = z * ev (sub P (mul Q asL)) z by rw [ev]; push_cast; ring, ev_sub, ev_mul] at a
  rw [ev_sub, show ev [c] z = c by simp only [ev]; ring] at b
  push_cast at a b
  have hmR : (0 : ℝ) < m := by exact_mod_cast hm
  have hq : (m : ℝ) ≤ ev Q z := by have := (abs_le.mp b).1; linarith
  generalize ev P z = p at *
  generalize hqq : ev Q z = q at *
  unfold asA
  generalize ev asL z = r at *
  have hq0 : 0 < q := by linarith
  have e : z * p / q - z * r = z * (p - q * r) / q := by field_simp
  rw [e, abs_div, abs_of_pos hq0, div_le_iff₀ hq0]
  have hB : 0 ≤ (B : ℝ) * m := (abs_nonneg _).trans a
  have hB0 : 0 ≤ (B : ℝ) := nonneg_of_mul_nonneg_left hB hmR
  exact a.trans (mul_le_mul_of_nonneg_left hq hB0)

/-- the reduction of large arguments -/
theorem acos_red {x : ℝ} (h0 : -1 ≤ x) (h1 : x ≤ 1) : Real.arccos x = 2 * Real.arcsin (Real.sqrt ((1 - x) / 2)) := by
  obtain ⟨s, hs⟩ : ∃ s, s = Real.sqrt ((1 - x) / 2) := ⟨_, rfl⟩
  have hss : s * s = (1 - x) / 2 := by rw [hs]; exact Real.mul_self_sqrt (by linarith)
  have hs0 : 0 ≤ s := by rw [hs]; exact Real.sqrt_nonneg _
  have hs1 : s ≤ 1 := by nlinarith
  rw [← hs]
  have hx : x = Real.cos (2 * Real.arcsin s) := by
    rw [Real.cos_two_mul', ← sub_eq_zero]
    have h2 := Real.sin_sq_add_cos_sq (Real.arcsin s)
    have h3 := Real.sin_arcsin (by linarith) hs1
    rw [h3] at h2 ⊢
    nlinarith
  conv_lhs => rw [hx]
  have h4 := Real.arcsin_le_pi_div_two s
  exact Real.arccos_cos (by have := Real.arcsin_nonneg.mpr hs0; linarith) (by linarith)

theorem asin_red {x : ℝ} (h0 : -1 ≤ x) (h1 : x ≤ 1) : Real.arcsin x = Real.pi / 2 - 2 * Real.arcsin (Real.sqrt ((1 - x) / 2)) := by
  rw [← acos_red h0 h1, Real.arccos]; ring

theorem acos_neg_red {x : ℝ} (h0 : -1 ≤ x) (h1 : x ≤ 1) : Real.arccos x = Real.pi - 2 * Real.arcsin (Real.sqrt ((1 + x) / 2)) := by
  have := acos_red (x := -x) (by linarith) (by linarith)
  rw [Real.arccos_neg, sub_neg_eq_add] at this
  linarith

/-- the arcsine is larger than its argument -/
theorem le_arcsin {x : ℝ} (h0 : 0 ≤ x) (h1 : x ≤ 1) : x ≤ Real.arcsin x := by
  have := Real.sin_le (Real.arcsin_nonneg.mpr h0)
  rwa [Real.sin_arcsin (by linarith) h1] at this
theorem abs_le_arcsin {x : ℝ} (h1 : |x| ≤ 1) : |x| ≤ |Real.arcsin x| := by
  rw [abs_le] at h1
  rcases le_total 0 x with h | h
  · rw [abs_of_nonneg h, abs_of_nonneg (Real.arcsin_nonneg.mpr h)]; exact le_arcsin h h1.2
  · rw [abs_of_nonpos h, abs_of_nonpos (Real.arcsin_nonpos.mpr h), ← Real.arcsin_neg]; exact le_arcsin (by linarith) (by linarith)
end Poly
end Verif
