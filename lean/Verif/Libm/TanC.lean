import Verif.Libm.TanB
/-! # `k_tan` of reduced arguments from 0.6743 on: the whole branch -/
namespace Verif
open Fmt

/-- `f64` value as a real -/
local notation "V" => Fmt.valK f64 ℝ

namespace Trig
open Pio2 Hypot

theorem fv_PIO4 : Fv PIO4 (7074237752028440 / 2 ^ 53) := by
  have := fv_const (b := PIO4) (q := 7074237752028440 / 2 ^ 53) (by decide +kernel) (by decide +kernel); push_cast at this; exact this
theorem fv_PIO4_LO : Fv PIO4_LO (4967757600021511 / 2 ^ 107) := by
  have := fv_const (b := PIO4_LO) (q := 4967757600021511 / 2 ^ 107) (by decide +kernel) (by decide +kernel); push_cast at this; exact this

theorem pio4_err : |7074237752028440 / 2 ^ 53 + 4967757600021511 / 2 ^ 107 - Real.pi / 4| ≤ 1 / 2 ^ 80 := by
  have h1 := pi_tight.1
  have h2 := pi_tight.2
  rw [abs_le]
  norm_num at *
  constructor <;> linarith

/-- the reduced argument, k_tan.rs 72-73 -/
theorem bigIn {N : FPU f64} {x y : D} {X Y T : ℝ} (hx : Fv x X) (hy : Fv y Y) (h1 : 1414184 / 2 ^ 21 ≤ X) (h2 : X ≤ 0.78541)
    (hY : |Y| ≤ 1.502 / 2 ^ 53 * X) (hT : |T - (X + Y)| ≤ 1 / 2 ^ 64 * X) :
    ∃ A, Fv (N.add (N.sub PIO4 x) (N.sub PIO4_LO y)) A ∧ |A| ≤ 0.1112 ∧ -0.0005 ≤ A ∧ |A - (Real.pi / 4 - T)| ≤ 0.0635 / 2 ^ 53 ∧
      (|A| ≤ 1 / 2 ^ 10 → |A - (Real.pi / 4 - T)| ≤ 0.002 / 2 ^ 53) := by
  have hXp : 0 < X := lt_of_lt_of_le (by norm_num) h1
  have hg : Mul2 (-53) (7074237752028440 / 2 ^ 53 - X) := by
    refine Mul2.sub ⟨7074237752028440, by norm_num⟩ ?_
    exact mul2_of_ge (k := -1) hx (by rw [abs_of_pos hXp]; refine le_trans ?_ h1; norm_num)
  have fd := fv_PIO4.sub N hx (j := -53) hg (by rw [abs_le]; norm_num at *; constructor <;> linarith) (by norm_num) (by norm_num)
  obtain ⟨e1, fe, he⟩ := rnd_abs (fv_PIO4_LO.subR (N := N) hy) (by
    refine (abs_sub _ _).trans ?_
    norm_num at *; linarith)
  have hlo : |4967757600021511 / 2 ^ 107 - Y| ≤ 2 / 2 ^ 53 := by
    refine (abs_sub _ _).trans ?_
    norm_num at *; linarith
  have hR := fd.addR (N := N) fe
  have hd1 : 7074237752028440 / 2 ^ 53 - X ≤ 0.1111 := by norm_num at *; linarith
  have hd2 : -0.0001 ≤ 7074237752028440 / 2 ^ 53 - X := by norm_num at *; linarith
  have hpe := pio4_err
  generalize (7074237752028440 : ℝ) / 2 ^ 53 = p at *
  generalize (4967757600021511 : ℝ) / 2 ^ 107 = q at *
  have he1 : |e1| ≤ 3 / 2 ^ 53 := by
    have := abs_add_le (e1 - (q - Y)) (q - Y)
    rw [sub_add_cancel] at this
    norm_num at *; linarith
  have hs : |p - X + e1| ≤ 2 ^ (-3 : ℤ) := by
    rw [abs_le] at he1 ⊢
    norm_num at *
    constructor <;> linarith
  have er := err64 hR hs (by norm_num) (by norm_num)
  have fA : Fv (N.add (N.sub PIO4 x) (N.sub PIO4_LO y)) (V (N.add (N.sub PIO4 x) (N.sub PIO4_LO y))) :=
    ⟨fin64 hR (hs.trans ((by norm_num : (2 : ℝ) ^ (-3 : ℤ) ≤ 1).trans (one_le_zpow₀ (by norm_num) (by norm_num)))), rfl⟩
  have er2 : |p - X + e1| ≤ 2 ^ (-9 : ℤ) → _ := fun h => err64 hR h (by norm_num) (by norm_num)
  generalize V (N.add (N.sub PIO4 x) (N.sub PIO4_LO y)) = A at *
  have hdist : |p - X + e1 - (Real.pi / 4 - T)| ≤ 0.0006 / 2 ^ 53 := by
    rw [show p - X + e1 - (Real.pi / 4 - T) = (p + q - Real.pi / 4) + ((e1 - (q - Y)) + (T - (X + Y))) by ring]
    refine (abs_add_le _ _).trans ((add_le_add_right (abs_add_le _ _) _).trans ?_)
    norm_num at *
    linarith
  refine ⟨A, fA, ?_, ?_, ?_, ?_⟩
  · have := abs_sub_abs_le_abs_sub A (p - X + e1)
    have h3 : |p - X + e1| ≤ 0.11111 := by
      rw [abs_le] at he1 ⊢
      norm_num at *
      constructor <;> linarith
    norm_num at *; linarith
  · rw [abs_le] at er he1
    norm_num at *; linarith
  · have := abs_add_le (A - (p - X + e1)) (p - X + e1 - (Real.pi / 4 - T))
    rw [sub_add_sub_cancel] at this
    norm_num at *; linarith
  · intro hc
    have hs9 : |p - X + e1| ≤ 2 ^ (-9 : ℤ) := by
      have := abs_sub_abs_le_abs_sub (p - X + e1) A
      rw [abs_sub_comm] at this
      norm_num at *; linarith
    have er2 := er2 hs9
    have := abs_add_le (A - (p - X + e1)) (p - X + e1 - (Real.pi / 4 - T))
    rw [sub_add_sub_cancel] at this
    norm_num at *; linarith

/-! error bounds for `|A| ≤ 0.1112` and for `|A| ≤ 2^-10` -/
theorem tanE_5 : tanE.errLe f64.s (1 / 2 ^ 75) (tanInfo (1 / 2 ^ 10) (1 / 2 ^ 20) (1 / 2 ^ 74) 0 false) false (1 / 2 ^ 30) (1 / 2 ^ 75) = true := by decide +kernel
theorem bigNum_1 : bigNum.errLe f64.s (1 / 2 ^ 75) (bigInfo (1112 / 10000) (1 / 2 ^ 11) (2 / 1000 / 2 ^ 53) 0 0) false (125 / 10000) (223 / 10000 / 2 ^ 53) = true := by decide +kernel
theorem bigDen_1 : bigDen.errLe f64.s (1 / 2 ^ 75) (bigInfo (1112 / 10000) (1 / 2 ^ 11) (2 / 1000 / 2 ^ 53) 0 0) false 2 (1070 / 1000 / 2 ^ 53) = true := by decide +kernel
theorem bigSub_1 : bigSub.errLe f64.s (1 / 2 ^ 75) (bigInfo (1112 / 10000) (1 / 2 ^ 11) (2 / 1000 / 2 ^ 53) (141 / 10000) (51 / 1000 / 2 ^ 53)) false (146 / 10000) (61 / 1000 / 2 ^ 53) = true := by
  decide +kernel
theorem bigNum_2 : bigNum.errLe f64.s (1 / 2 ^ 75) (bigInfo (1 / 2 ^ 10) (1 / 2 ^ 30) (1 / 2 ^ 75) 0 0) false (1 / 2 ^ 19) (1 / 2 ^ 70) = true := by decide +kernel
theorem bigDen_2 : bigDen.errLe f64.s (1 / 2 ^ 75) (bigInfo (1 / 2 ^ 10) (1 / 2 ^ 30) (1 / 2 ^ 75) 0 0) false 2 (1 / 2 ^ 52) = true := by decide +kernel
theorem bigSub_2 : bigSub.errLe f64.s (1 / 2 ^ 75) (bigInfo (1 / 2 ^ 10) (1 / 2 ^ 30) (1 / 2 ^ 75) (1 / 2 ^ 18) (1 / 2 ^ 68)) false (1 / 2 ^ 17) (1 / 2 ^ 67) = true := by
  decide +kernel

theorem fv_s (odd : Bool) : Fv (if odd then cmone else cone) (if odd then -1 else 1) := by
  cases odd
  · exact fv_cone
  · exact fv_cmone

/-- the whole computation after the reduction, compared with the tangent -/
theorem bigMain {N : FPU f64} {x : D} {A : ℝ} (odd : Bool) (hx : Fv x A) (h1 : |A| ≤ 0.1112) (h2 : -0.0005 ≤ A) :
    let s : ℝ := if odd then -1 else 1
    ∃ v, f64.Rounds v (bigPost N x (tanR N x 0#f64.w) (if odd then cmone else cone)) ∧ |v| ≤ 4 ∧
      |v - s * (s - Real.tan A) / (s + Real.tan A)| ≤ (if odd then 0.384 else 0.259) / 2 ^ 53 ∧
      (|A| ≤ 1 / 2 ^ 10 → |v - s * (s - Real.tan A) / (s + Real.tan A)| ≤ 0.1 / 2 ^ 53) := by
  intro s
  have hs : s = 1 ∨ s = -1 := by cases odd <;> simp [s]
  have hAA0 : 0 ≤ A * A := mul_self_nonneg A
  have hAA1 : A * A ≤ 0.0124 := by
    rw [← abs_mul_abs_self]
    have := mul_le_mul h1 h1 (abs_nonneg _) (by norm_num)
    norm_num at this ⊢
    linarith
  have sv0 : Ex.sv 1 false = 1 := if_neg (by simp)
  obtain ⟨t, ht⟩ : ∃ t, t = A * Poly.ev tanP (A * A) := ⟨_, rfl⟩
  have hid : A * (Poly.ev tanP (A * A) - 1) + 0 * (1 + A * A) = t - A := by rw [ht]; ring
  obtain ⟨R, fR, ha, he⟩ := tanR_err (N := N) (σ := 1) hx fv_zero (by norm_num) le_rfl (A0 := 1112 / 10000) (Yb := 0) (by rw [sv0]; push_cast; norm_num at h1 ⊢; exact h1)
    (by rw [sv0]; simp) (holds_sq' (k := -6) hx (by norm_num) (by norm_num) (h := 1112 / 10000) (by push_cast; norm_num at h1 ⊢; exact h1) (by norm_num) (by norm_num) (by norm_num) _) tanE_4
  rw [sv0, hid, mul_one] at ha he
  have htA : |t - A| ≤ 1 / 2 ^ 11 := by push_cast at ha; exact ha
  have ht112 : |t| ≤ 0.112 := by
    have := abs_add_le (t - A) A
    rw [sub_add_cancel] at this
    norm_num at *; linarith
  -- the polynomial and the tangent
  have hcA := cos_low (h1.trans (by norm_num))
  have hcpos : 0 < Real.cos A := lt_of_lt_of_le (by norm_num) hcA
  have htan : |t - Real.tan A| ≤ 0.0373 / 2 ^ 53 * |A| := by
    have hd := tanP_def (X := A) (h1.trans (by norm_num))
    rw [← ht] at hd
    rw [Real.tan_eq_sin_div_cos, show t - Real.sin A / Real.cos A = (t * Real.cos A - Real.sin A) / Real.cos A by field_simp, abs_div, abs_of_pos hcpos, div_le_iff₀ hcpos]
    refine hd.trans ?_
    have := mul_le_mul_of_nonneg_left hcA (show 0 ≤ 0.0373 / 2 ^ 53 * |A| by positivity)
    norm_num at *
    linarith [abs_nonneg A]
  have htan12 : |Real.tan A| ≤ 0.12 := by
    have := abs_sub_abs_le_abs_sub (Real.tan A) t
    rw [abs_sub_comm] at this
    norm_num at *; linarith
  have hml := mobius_lip (s := s) hs (h := ht112.trans (by norm_num)) htan12
  have hA' : t ≤ 0.112 := (le_abs_self t).trans ht112
  have htl : -0.002 ≤ t := by rw [abs_le] at htA; norm_num at *; linarith
  have hadd1 : |s * t / (s + t)| ≤ if odd then 0.1262 else 0.1121 := by
    have key : ∀ {d B : ℝ}, 0 < |d| → |t| ≤ B * |d| → |t| / |d| ≤ B := fun h1 h2 => by rw [div_le_iff₀ h1]; exact h2
    cases odd
    · show |(1 : ℝ) * t / (1 + t)| ≤ 0.1121
      have h0 : 0 < 1 + t := by norm_num at *; linarith
      rw [one_mul, abs_div]
      refine key (abs_pos.mpr h0.ne') ?_
      rw [abs_of_pos h0]
      rcases le_total 0 t with h | h
      · rw [abs_of_nonneg h]; norm_num at *; linarith
      · rw [abs_of_nonpos h]; norm_num at *; linarith
    · show |(-1 : ℝ) * t / (-1 + t)| ≤ 0.1262
      have h0 : -1 + t < 0 := by norm_num at *; linarith
      rw [neg_one_mul, abs_div, abs_neg]
      refine key (abs_pos.mpr h0.ne) ?_
      rw [abs_of_neg h0]
      rcases le_total 0 t with h | h
      · rw [abs_of_nonneg h]; norm_num at *; linarith
      · rw [abs_of_nonpos h]; norm_num at *; linarith
  rcases le_or_gt |A| (1 / 2 ^ 10) with hA10 | hA10
  · obtain ⟨R', fR', ha', he'⟩ := tanR_err (N := N) (σ := 1) hx fv_zero (by norm_num) le_rfl (A0 := 1 / 2 ^ 10) (Yb := 0) (by rw [sv0]; push_cast; norm_num at hA10 ⊢; exact hA10)
      (by rw [sv0]; simp) (holds_sq' (k := -20) hx (by norm_num) (by norm_num) (h := 1 / 2 ^ 10) (by push_cast; norm_num at hA10 ⊢; exact hA10) (by norm_num) (by norm_num) (by norm_num) _) tanE_5
    rw [sv0, hid, mul_one] at ha' he'
    have ht10 : |t| ≤ 1 / 2 ^ 10 + 1 / 2 ^ 30 := by
      have := abs_add_le (t - A) A
      rw [sub_add_cancel] at this
      push_cast at ha'
      norm_num at *; linarith
    have hadd2 : |s * t / (s + t)| ≤ 0.0011 := by
      have hst : 0.99 ≤ |s + t| := by
        rw [abs_le] at ht10
        rcases hs with h | h <;> rw [h]
        · rw [abs_of_nonneg (by norm_num at *; linarith)]; norm_num at *; linarith
        · rw [abs_of_nonpos (by norm_num at *; linarith)]; norm_num at *; linarith
      have hs1 : |s| = 1 := by rcases hs with h | h <;> rw [h] <;> simp
      rw [abs_div, abs_mul, hs1, one_mul, div_le_iff₀ (lt_of_lt_of_le (by norm_num) hst)]
      norm_num at *; linarith
    obtain ⟨v', hw1, hw2, hw3⟩ := bigPost_spec (N := N) (t := t) (s := s) (nA := 1 / 2 ^ 19) (ne := 1 / 2 ^ 70) (de := 1 / 2 ^ 52) (QA := 1 / 2 ^ 18) (Qe := 1 / 2 ^ 68)
      (kq := -17) (ka := -9) hx fR' (fv_s odd) hs (A := 1 / 2 ^ 10) (by push_cast; norm_num at hA10 ⊢; exact hA10) ha' he' ht112 bigNum_2 bigDen_2 (by norm_num) (by norm_num) (by norm_num) (by norm_num) (by norm_num) (by norm_num)
      bigSub_2 (by norm_num) (by norm_num) (by push_cast; norm_num at *; linarith)
    have e1 : |v' - s * (s - Real.tan A) / (s + Real.tan A)| ≤ 2 * (((1 / 2 ^ 67 : ℚ) : ℝ) + 2 ^ ((-9 : ℤ) - 54)) + 2.6 * (0.0373 / 2 ^ 53 * |A|) :=
      (abs_sub_le v' (s * (s - t) / (s + t)) _).trans (add_le_add hw3 (hml.trans (mul_le_mul_of_nonneg_left htan (by norm_num))))
    have e2 : |v' - s * (s - Real.tan A) / (s + Real.tan A)| ≤ 0.1 / 2 ^ 53 := by
      refine e1.trans ?_
      push_cast
      norm_num at *
      linarith
    refine ⟨v', hw1, hw2, e2.trans ?_, fun _ => e2⟩
    cases odd <;> norm_num
  · obtain ⟨v, hv1, hv2, hv3⟩ := bigPost_spec (N := N) (t := t) (s := s) (nA := 125 / 10000) (ne := 223 / 10000 / 2 ^ 53) (de := 1070 / 1000 / 2 ^ 53) (QA := 141 / 10000) (Qe := 51 / 1000 / 2 ^ 53)
      (kq := -6) (ka := if odd then -2 else -3) hx fR (fv_s odd) hs (A := 1112 / 10000) (by push_cast; norm_num at h1 ⊢; exact h1) ha he ht112 bigNum_1 bigDen_1 (by norm_num) (by norm_num) (by norm_num) (by norm_num) (by norm_num) (by norm_num)
      bigSub_1 (by cases odd <;> norm_num) (by cases odd <;> norm_num) (by
        cases odd
        · have : |s * t / (s + t)| ≤ 0.1121 := hadd1
          push_cast; norm_num at *; linarith
        · have : |s * t / (s + t)| ≤ 0.1262 := hadd1
          push_cast; norm_num at *; linarith)
    have e1 : |v - s * (s - Real.tan A) / (s + Real.tan A)| ≤ 2 * (((61 / 1000 / 2 ^ 53 : ℚ) : ℝ) + 2 ^ ((if odd then -2 else -3 : ℤ) - 54)) + 2.6 * (0.0373 / 2 ^ 53 * |A|) := by
      refine (abs_sub_le v (s * (s - t) / (s + t)) _).trans (add_le_add hv3 (hml.trans (mul_le_mul_of_nonneg_left htan (by norm_num))))
    refine ⟨v, hv1, hv2, ?_, fun h => absurd h (not_le.mpr hA10)⟩
    refine e1.trans ?_
    cases odd <;> push_cast <;> norm_num at * <;> linarith

/-- the value aimed at: the tangent, or minus the cotangent -/
noncomputable def tgt (odd : Bool) (T : ℝ) : ℝ := if odd then -(Real.cos T / Real.sin T) else Real.tan T

theorem tgt_neg (odd : Bool) (T : ℝ) : tgt odd (-T) = -tgt odd T := by
  cases odd
  · exact Real.tan_neg T
  · show -(Real.cos (-T) / Real.sin (-T)) = -(-(Real.cos T / Real.sin T))
    rw [Real.cos_neg, Real.sin_neg, div_neg]

/-- what is proved of every result -/
structure Close (s : ℝ) (r : D) : Prop where
  ex : ∃ v, f64.Rounds v r ∧ |v| ≤ 2 ^ (100 : ℤ) ∧ |v - s| ≤ 0.982 / 2 ^ 53 * |s|
  ne : s ≠ 0

theorem fv_pow0 : f64.IsFin cone ∧ V cone = 2 ^ (0 : ℤ) := ⟨fv_cone.fin, by rw [fv_cone.val]; norm_num⟩
theorem fv_powm1 : f64.IsFin chalf ∧ V chalf = 2 ^ (-1 : ℤ) := ⟨fv_chalf.fin, by rw [fv_chalf.val]; norm_num⟩

set_option maxHeartbeats 1000000 in
theorem kTan_big {N : FPU f64} {x y : D} {X Y T : ℝ} (odd : Bool) (hx : Fv x X) (hy : Fv y Y) (h1 : 1414184 / 2 ^ 21 ≤ X) (h2 : X ≤ 0.78541)
    (hY : |Y| ≤ 1.502 / 2 ^ 53 * X) (hT : |T - (X + Y)| ≤ 1 / 2 ^ 64 * X) :
    let xx := N.add (N.sub PIO4 x) (N.sub PIO4_LO y)
    let r := bigPost N xx (tanR N xx 0#f64.w) (if odd then cmone else cone)
    Close (tgt odd T) r ∧ f64.FaithfulTo (tgt odd T) r := by
  intro xx r
  obtain ⟨A, fA, a1, a2, a3, a4⟩ := bigIn (N := N) hx hy h1 h2 hY hT
  obtain ⟨v, v1, v2, v3, v4⟩ := bigMain (N := N) odd fA a1 a2
  have hfin : f64.IsFin r := v1.fin100 big64 (v2.trans (by norm_num))
  have hT1 : 0.674 ≤ T := by rw [abs_le] at hY hT; norm_num at *; linarith
  have hT2 : T ≤ 0.78542 := by rw [abs_le] at hY hT; norm_num at *; linarith
  have hpl := pi_gt20
  have hpu := pi_lt20
  have hA1 : 0.67 ≤ Real.pi / 4 - A := by rw [abs_le] at a1; norm_num at *; linarith
  have hA2 : Real.pi / 4 - A ≤ 0.787 := by norm_num at *; linarith
  have a3' : |Real.pi / 4 - A - T| ≤ 0.0635 / 2 ^ 53 := by rwa [show Real.pi / 4 - A - T = -(A - (Real.pi / 4 - T)) by ring, abs_neg]
  have a4' : |A| ≤ 1 / 2 ^ 10 → |Real.pi / 4 - A - T| ≤ 0.002 / 2 ^ 53 := by
    intro h; rw [show Real.pi / 4 - A - T = -(A - (Real.pi / 4 - T)) by ring, abs_neg]; exact a4 h
  obtain ⟨m1, m2⟩ := mobius_tan (u := A) (a1.trans (by norm_num))
  have htanT : 0.674 ≤ Real.tan T := hT1.trans (Real.lt_tan (by norm_num at *; linarith) (by norm_num at *; linarith)).le
  cases odd
  · have htg : tgt false T = Real.tan T := rfl
    have v3' : |v - Real.tan (Real.pi / 4 - A)| ≤ 0.259 / 2 ^ 53 := by rw [← m1]; exact v3
    have hl := tan_lip (a := Real.pi / 4 - A) (b := T) (by rw [abs_of_nonneg] <;> norm_num at * <;> linarith) (by rw [abs_of_nonneg] <;> norm_num at * <;> linarith)
    have ht := abs_sub_le v (Real.tan (Real.pi / 4 - A)) (Real.tan T)
    have hv : |v - Real.tan T| ≤ 0.45 / 2 ^ 53 := by norm_num at *; linarith
    rw [htg]
    refine ⟨⟨⟨v, v1, v2.trans (by norm_num), hv.trans ?_⟩, by norm_num at *; linarith⟩, ?_⟩
    · rw [abs_of_nonneg (by norm_num at *; linarith)]; norm_num at *; linarith
    · refine (v1.nearF f64 hfin).faithful_absS f64 fv_powm1.1 fv_powm1.2 (δ := 0.45 / 2 ^ 53) ?_ hv (by rw [s64]; norm_num)
      rw [abs_of_nonneg (by norm_num at *; linarith)]; norm_num at *; linarith
  · have htg : tgt true T = -(Real.cos T / Real.sin T) := rfl
    rw [htg]
    have hl := cot_lip (a := Real.pi / 4 - A) (b := T) hA1 (by norm_num at *; linarith) (by norm_num at *; linarith) (by norm_num at *; linarith)
    have e0 : |-(Real.cos (Real.pi / 4 - A) / Real.sin (Real.pi / 4 - A)) - -(Real.cos T / Real.sin T)| ≤ 2.7 * |Real.pi / 4 - A - T| := by
      rw [neg_sub_neg, abs_sub_comm]; exact hl
    have ht := abs_sub_le v (-(Real.cos (Real.pi / 4 - A) / Real.sin (Real.pi / 4 - A))) (-(Real.cos T / Real.sin T))
    have v3' : |v - -(Real.cos (Real.pi / 4 - A) / Real.sin (Real.pi / 4 - A))| ≤ 0.384 / 2 ^ 53 := by rw [← m2]; exact v3
    have v4' : |A| ≤ 1 / 2 ^ 10 → |v - -(Real.cos (Real.pi / 4 - A) / Real.sin (Real.pi / 4 - A))| ≤ 0.1 / 2 ^ 53 := by rw [← m2]; exact v4
    -- size of the cotangent
    have hcs : 0.99 ≤ Real.cos T / Real.sin T ∧ (1 / 2 ^ 10 < A → 1 + 1 / 2 ^ 11 ≤ Real.cos T / Real.sin T) := by
      have ht1 : |Real.tan A| ≤ 2.13 * |A| := by
        have := tan_lip (a := A) (b := 0) (a1.trans (by norm_num)) (by norm_num)
        rwa [Real.tan_zero, sub_zero, sub_zero] at this
      have ht0 : -0.002 ≤ Real.tan A ∧ (1 / 2 ^ 10 < A → A ≤ Real.tan A) := by
        rcases le_total 0 A with h | h
        · have := Real.le_tan h (by rw [abs_of_nonneg h] at a1; norm_num at *; linarith)
          exact ⟨by norm_num at *; linarith, fun _ => this⟩
        · refine ⟨?_, fun h' => by norm_num at *; linarith⟩
          rw [abs_of_nonpos h, abs_le] at ht1
          norm_num at *; linarith [ht1.1]
      have ht2 : Real.tan A ≤ 0.3 := by rw [abs_le] at ht1; norm_num at *; linarith [ht1.2]
      have hc' : 1 + 2 * Real.tan A ≤ Real.cos (Real.pi / 4 - A) / Real.sin (Real.pi / 4 - A) := by
        rw [← neg_le_neg_iff, ← m2]
        generalize Real.tan A = τ at *
        have hd : -1 + τ < 0 := by norm_num at *; linarith
        rw [div_le_iff_of_neg hd]
        nlinarith [sq_nonneg τ]
      rw [abs_le] at hl
      constructor
      · norm_num at *; linarith [hl.2, ht0.1]
      · intro h
        have := ht0.2 h
        have := hl.2
        norm_num at *; linarith
    have hne : -(Real.cos T / Real.sin T) ≠ 0 := by
      intro h
      rw [neg_eq_zero] at h
      have := hcs.1
      rw [h] at this
      norm_num at this
    generalize Real.cos T / Real.sin T = c at *
    generalize Real.cos (Real.pi / 4 - A) / Real.sin (Real.pi / 4 - A) = c' at *
    have hcabs : |-c| = c := by rw [abs_neg, abs_of_nonneg (by norm_num at *; linarith [hcs.1])]
    have hv : |v - -c| ≤ 0.56 / 2 ^ 53 := by norm_num at *; linarith
    refine ⟨⟨⟨v, v1, v2.trans (by norm_num), hv.trans ?_⟩, hne⟩, ?_⟩
    · rw [hcabs]; norm_num at *; linarith [hcs.1]
    rcases le_or_gt A (1 / 2 ^ 10) with hc | hc
    · have hA10 : |A| ≤ 1 / 2 ^ 10 := by rw [abs_le]; norm_num at *; constructor <;> linarith
      have w1 := a4' hA10
      have w2 := v4' hA10
      refine (v1.nearF f64 hfin).faithful_absS f64 fv_powm1.1 fv_powm1.2 (δ := 0.2 / 2 ^ 53) ?_ (by norm_num at *; linarith) (by rw [s64]; norm_num)
      rw [hcabs]; norm_num at *; linarith [hcs.1]
    · refine (v1.nearF f64 hfin).faithful_absS f64 fv_pow0.1 fv_pow0.2 (δ := 0.56 / 2 ^ 53) ?_ hv (by rw [s64]; norm_num)
      have := hcs.2 hc
      rw [hcabs]; norm_num at *; linarith

end Trig
end Verif
