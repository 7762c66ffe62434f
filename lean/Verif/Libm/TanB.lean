import Verif.Libm.TanO
/-! # `k_tan` of reduced arguments from 0.6743 on -/
namespace Verif
open Fmt

/-- `f64` value as a real -/
local notation "V" => Fmt.valK f64 ℝ

namespace Trig
open Pio2 Hypot

/-! ### Real analysis -/

/-- `(1 - t) / (1 + t)`, the tangent of `π/4 - arctan t`, or minus its reciprocal, as the program computes it -/
theorem mobius {s t : ℝ} (hs : s = 1 ∨ s = -1) (h : t + s ≠ 0) : s - 2 * (t - t * t / (t + s)) = s * (s - t) / (s + t) := by
  have h' : s + t ≠ 0 := by rwa [add_comm]
  rcases hs with rfl | rfl <;> field_simp <;> ring

theorem mobius_lip {s t t' : ℝ} (hs : s = 1 ∨ s = -1) (h : |t| ≤ 0.12) (h' : |t'| ≤ 0.12) :
    |s * (s - t) / (s + t) - s * (s - t') / (s + t')| ≤ 2.6 * |t - t'| := by
  have lo : ∀ u : ℝ, |u| ≤ 0.12 → 0.88 ≤ |s + u| := by
    intro u hu
    rw [abs_le] at hu
    rcases hs with rfl | rfl
    · rw [abs_of_nonneg (by norm_num at *; linarith)]; norm_num at *; linarith
    · rw [abs_of_nonpos (by norm_num at *; linarith)]; norm_num at *; linarith
  have l1 := lo t h
  have l2 := lo t' h'
  have n1 : s + t ≠ 0 := by intro hc; rw [hc, abs_zero] at l1; norm_num at l1
  have n2 : s + t' ≠ 0 := by intro hc; rw [hc, abs_zero] at l2; norm_num at l2
  have e : s * (s - t) / (s + t) - s * (s - t') / (s + t') = -2 * (t - t') / ((s + t) * (s + t')) := by
    have hss : s * s = 1 := by rcases hs with rfl | rfl <;> norm_num
    rw [div_sub_div _ _ n1 n2]
    congr 1
    have : s * (s - t) * (s + t') - (s + t) * (s * (s - t')) = s * s * (2 * (t' - t)) := by ring
    rw [this, hss]; ring
  rw [e, abs_div, abs_mul, abs_mul, show |(-2 : ℝ)| = 2 by norm_num]
  rw [div_le_iff₀ (by positivity)]
  have hm := mul_le_mul l1 l2 (by norm_num) (abs_nonneg _)
  have h3 : 2.6 * |t - t'| * (0.88 * 0.88) ≤ 2.6 * |t - t'| * (|s + t| * |s + t'|) := mul_le_mul_of_nonneg_left hm (by positivity)
  norm_num at *
  linarith [abs_nonneg (t - t')]

/-- the tangent of `π/4 - u` -/
theorem mobius_tan {u : ℝ} (hu : |u| ≤ 0.12) :
    1 * (1 - Real.tan u) / (1 + Real.tan u) = Real.tan (Real.pi / 4 - u) ∧
    -1 * (-1 - Real.tan u) / (-1 + Real.tan u) = -(Real.cos (Real.pi / 4 - u) / Real.sin (Real.pi / 4 - u)) := by
  have hc : 0 < Real.cos u := lt_of_lt_of_le (by norm_num) (cos_low (hu.trans (by norm_num)))
  have hq : Real.cos (Real.pi / 4) = Real.sin (Real.pi / 4) := by rw [Real.cos_pi_div_four, Real.sin_pi_div_four]
  have hq0 : 0 < Real.sin (Real.pi / 4) := by rw [Real.sin_pi_div_four]; positivity
  have hs : |Real.sin u| ≤ 0.12 := Real.abs_sin_le_abs.trans hu
  have hc9 := cos_low (hu.trans (by norm_num : (0.12 : ℝ) ≤ 0.786))
  rw [abs_le] at hs
  have n1 : Real.cos u + Real.sin u ≠ 0 := by norm_num at *; linarith [hs.1]
  have n2 : Real.cos u - Real.sin u ≠ 0 := by norm_num at *; linarith [hs.2]
  rw [Real.tan_eq_sin_div_cos, Real.tan_eq_sin_div_cos, Real.sin_sub, Real.cos_sub, hq]
  generalize Real.sin (Real.pi / 4) = q at *
  generalize Real.cos u = C at *
  generalize Real.sin u = S at *
  have hCne : C ≠ 0 := hc.ne'
  have hqne : q ≠ 0 := hq0.ne'
  have n1' : S + C ≠ 0 := by rwa [add_comm]
  have n3 : -C + S ≠ 0 := by intro h; apply n2; linarith
  have n4 : S - C ≠ 0 := by intro h; apply n2; linarith
  constructor
  · rw [show 1 * (1 - S / C) / (1 + S / C) = (C - S) / (C + S) by field_simp,
      show q * C - q * S = q * (C - S) by ring, show q * C + q * S = q * (C + S) by ring, mul_div_mul_left _ _ hqne]
  · rw [show -1 * (-1 - S / C) / (-1 + S / C) = (C + S) / (S - C) by field_simp; ring_nf,
      show q * C - q * S = q * (C - S) by ring, show q * C + q * S = q * (C + S) by ring, mul_div_mul_left _ _ hqne,
      show C - S = -(S - C) by ring, div_neg, _root_.neg_neg]

theorem tan_lip {a b : ℝ} (ha : |a| ≤ 0.79) (hb : |b| ≤ 0.79) : |Real.tan a - Real.tan b| ≤ 2.13 * |a - b| := by
  have lo : ∀ u : ℝ, |u| ≤ 0.79 → 0.687 ≤ Real.cos u := by
    intro u hu
    refine le_trans ?_ (Real.one_sub_sq_div_two_le_cos (x := u))
    have : u ^ 2 ≤ 0.79 ^ 2 := by rw [← sq_abs]; exact pow_le_pow_left₀ (abs_nonneg _) hu 2
    norm_num at *
    linarith
  have l1 := lo a ha
  have l2 := lo b hb
  have n1 : Real.cos a ≠ 0 := by intro h; rw [h] at l1; norm_num at l1
  have n2 : Real.cos b ≠ 0 := by intro h; rw [h] at l2; norm_num at l2
  rw [Real.tan_eq_sin_div_cos, Real.tan_eq_sin_div_cos, div_sub_div _ _ n1 n2, ← Real.sin_sub, abs_div]
  have hp : 0.687 * 0.687 ≤ |Real.cos a * Real.cos b| := by
    rw [abs_of_nonneg (mul_nonneg (by norm_num at *; linarith) (by norm_num at *; linarith))]
    exact mul_le_mul l1 l2 (by norm_num) (by norm_num at *; linarith)
  rw [div_le_iff₀ (lt_of_lt_of_le (by norm_num) hp)]
  have h1 : |Real.sin (a - b)| ≤ |a - b| := Real.abs_sin_le_abs
  have h2 : 2.13 * |a - b| * (0.687 * 0.687) ≤ 2.13 * |a - b| * |Real.cos a * Real.cos b| := mul_le_mul_of_nonneg_left hp (by positivity)
  norm_num at *
  linarith [abs_nonneg (a - b)]

theorem cot_lip {a b : ℝ} (ha : 0.67 ≤ a) (ha' : a ≤ 0.8) (hb : 0.67 ≤ b) (hb' : b ≤ 0.8) :
    |Real.cos a / Real.sin a - Real.cos b / Real.sin b| ≤ 2.7 * |a - b| := by
  have lo : ∀ u : ℝ, 0.67 ≤ u → u ≤ 0.8 → 0.6196 ≤ Real.sin u := by
    intro u h1 h2
    have h3 : Real.sin 0.67 ≤ Real.sin u := Real.sin_le_sin_of_le_of_le_pi_div_two (by have := pi_gt20; norm_num at *; linarith) (by have := pi_gt20; norm_num at *; linarith) h1
    have h4 := sin_cubic (x := 0.67) (by rw [abs_of_nonneg] <;> norm_num)
    rw [abs_le, abs_of_nonneg (by norm_num : (0 : ℝ) ≤ 0.67)] at h4
    norm_num at *
    linarith [h4.2]
  have l1 := lo a ha ha'
  have l2 := lo b hb hb'
  have n1 : Real.sin a ≠ 0 := by intro h; rw [h] at l1; norm_num at l1
  have n2 : Real.sin b ≠ 0 := by intro h; rw [h] at l2; norm_num at l2
  rw [div_sub_div _ _ n1 n2, show Real.cos a * Real.sin b - Real.sin a * Real.cos b = Real.sin (b - a) by rw [Real.sin_sub]; ring, abs_div]
  have hp : 0.6196 * 0.6196 ≤ |Real.sin a * Real.sin b| := by
    rw [abs_of_nonneg (mul_nonneg (by norm_num at *; linarith) (by norm_num at *; linarith))]
    exact mul_le_mul l1 l2 (by norm_num) (by norm_num at *; linarith)
  rw [div_le_iff₀ (lt_of_lt_of_le (by norm_num) hp)]
  have h1 : |Real.sin (b - a)| ≤ |a - b| := by rw [abs_sub_comm]; exact Real.abs_sin_le_abs
  have h2 : 2.7 * |a - b| * (0.6196 * 0.6196) ≤ 2.7 * |a - b| * |Real.sin a * Real.sin b| := mul_le_mul_of_nonneg_left hp (by positivity)
  norm_num at *
  linarith [abs_nonneg (a - b)]

/-! ### The program -/

def bigLeaf (x r s q : D) : ℕ → D
  | 0 => x | 1 => r | 2 => s | _ => q
def bigVal (X R S Q : ℝ) : ℕ → ℝ
  | 0 => X | 1 => R | 2 => S | _ => Q
def bigInfo (A rA re QA Qe : ℚ) : ℕ → Ex.Bd
  | 0 => ⟨A, 0, false⟩ | 1 => ⟨rA, re, false⟩ | 2 => ⟨1, 0, false⟩ | _ => ⟨QA, Qe, false⟩
def bigNum : Ex := .mul (.add (.leaf 0) (.leaf 1)) (.add (.leaf 0) (.leaf 1))
def bigDen : Ex := .add (.add (.leaf 0) (.leaf 1)) (.leaf 2)
def bigSub : Ex := .sub (.leaf 1) (.leaf 3)

/-- doubling is exact -/
theorem dbl_fv {N : FPU f64} {q : D} {Q : ℝ} (h : Fv q Q) (hQ : |Q| ≤ 1) : Fv (N.mul ctwo q) (2 * Q) := by
  have h2 : Fv ctwo 2 := by
    have := fv_const (b := ctwo) (q := 2) (by decide +kernel) (by decide +kernel); push_cast at this; exact this
  obtain ⟨m, j, e1, e2, e3, e4⟩ := f64.val_dec q
  rw [h.val] at e1
  rw [s64] at e2 e3 e4
  rw [b64] at e3 e4
  have hg : Mul2 (j + 1) (2 * Q) := ⟨m, by rw [e1, zpow_add₀ (by norm_num), zpow_one]; ring⟩
  have hp : (0 : ℝ) < 2 ^ j := by positivity
  rcases le_or_gt j 100 with hj | hj
  · refine h2.mul N h (j := j + 1) hg ?_ (by omega) (by omega)
    rw [e1, abs_mul, abs_mul, abs_of_pos hp, show j + 1 + 53 = 1 + ((53 : ℕ) : ℤ) + j by push_cast; ring, zpow_add₀ (by norm_num), zpow_add₀ (by norm_num), zpow_natCast]
    have : (|(m : ℝ)|) ≤ 2 ^ 53 := by
      have := e2.le
      exact_mod_cast this
    rw [show |(2 : ℝ)| = 2 by norm_num, zpow_one, mul_assoc]
    exact mul_le_mul_of_nonneg_left (mul_le_mul_of_nonneg_right this hp.le) (by norm_num)
  · have hm : m = 0 := by
      by_contra hm
      have h1 : (1 : ℝ) ≤ |(m : ℝ)| := by
        have := Int.one_le_abs hm
        exact_mod_cast this
      have h2 : (2 : ℝ) ^ (1 : ℤ) ≤ 2 ^ j := zpow_le_zpow_right₀ (by norm_num) (by omega)
      rw [e1, abs_mul, abs_of_pos hp] at hQ
      have := mul_le_mul h1 h2 (by norm_num) (abs_nonneg _)
      norm_num at this hQ
      linarith
    have hQ0 : Q = 0 := by rw [e1, hm]; simp
    rw [hQ0, mul_zero] at hg ⊢
    have := h2.mul N h (j := 0) ⟨0, by rw [hQ0]; simp⟩ (by rw [hQ0]; simp) (by norm_num) (by norm_num)
    rwa [hQ0, mul_zero] at this

/-- the part after the polynomial, k_tan.rs 88-92 -/
def bigPost (N : FPU f64) (x r s : D) : D :=
  let w := N.add x r
  N.sub s (N.mul ctwo (N.add x (N.sub r (N.div (N.mul w w) (N.add w s)))))

set_option maxHeartbeats 1000000 in
theorem bigPost_spec {N : FPU f64} {x r c : D} {X R t s : ℝ} {A rA re nA ne de QA Qe sA se : ℚ} {kq ka : ℤ} (hx : Fv x X) (hr : Fv r R) (hc : Fv c s) (hs : s = 1 ∨ s = -1)
    (hA : |X| ≤ A) (hrA : |t - X| ≤ rA) (hre : |R - (t - X)| ≤ re) (ht : |t| ≤ 0.112)
    (c2 : bigNum.errLe f64.s (1 / 2 ^ 75) (bigInfo A rA re 0 0) false nA ne = true) (c3 : bigDen.errLe f64.s (1 / 2 ^ 75) (bigInfo A rA re 0 0) false 2 de = true)
    (hde : de ≤ 1 / 2 ^ 50)
    (hQA : nA / (888 / 1000) ≤ QA) (hQe : (ne + QA * de) / (887 / 1000) + 2 ^ (kq - 54) ≤ Qe) (hQk : QA + (ne + QA * de) / (887 / 1000) ≤ 2 ^ kq) (hkq : -1000 ≤ kq) (hkq' : kq ≤ 0)
    (c4 : bigSub.errLe f64.s (1 / 2 ^ 75) (bigInfo A rA re QA Qe) false sA se = true) (hka : -1000 ≤ ka) (hka' : ka ≤ -1)
    (hadd : |s * t / (s + t)| + se ≤ 2 ^ ka) :
    ∃ v, f64.Rounds v (bigPost N x r c) ∧ |v| ≤ 4 ∧ |v - s * (s - t) / (s + t)| ≤ 2 * (se + 2 ^ (ka - 54)) := by
  have sv0 : Ex.sv 1 false = 1 := if_neg (by simp)
  have hs1 : |s| = 1 := by rcases hs with rfl | rfl <;> simp
  have ht75 : (1 : ℝ) / 2 ^ 150 ≤ ((1 / 2 ^ 75 : ℚ) : ℝ) * 1 := by push_cast; norm_num
  have hl : ∀ (q : D) (Q : ℝ) (QA Qe : ℚ), f64.IsFin q → |Q| ≤ QA → |V q - Q| ≤ Qe →
      ∀ i, Ex.Holds f64 1 (bigLeaf x r c q i) (bigVal X (t - X) s Q i) (bigInfo A rA re QA Qe i) := by
    intro q Q QA Qe h1 h2 h3 i
    match i with
    | 0 => exact Ex.holds_exact hx.fin hx.val (by rw [sv0, mul_one]; exact hA)
    | 1 => exact ⟨hr.fin, by show _ ≤ _ * Ex.sv 1 false; rw [sv0, mul_one]; exact hrA, by show _ ≤ _ * Ex.sv 1 false; rw [sv0, mul_one, show bigLeaf x r c q 1 = r from rfl, hr.val]; exact hre⟩
    | 2 => exact Ex.holds_exact hc.fin hc.val (by rw [sv0, mul_one]; exact hs1.le.trans (by norm_num))
    | (n + 3) => exact ⟨h1, by show _ ≤ _ * Ex.sv 1 false; rw [sv0, mul_one]; exact h2, by show _ ≤ _ * Ex.sv 1 false; rw [sv0, mul_one]; exact h3⟩
  have hl0 := hl 0#f64.w 0 0 0 fv_zero.fin (by simp) (by rw [fv_zero.val]; simp)
  obtain ⟨fn, an, en⟩ := Ex.errLe_sound big64 N (by norm_num) (le_refl _) ht75 hl0 c2
  obtain ⟨fd, -, ed⟩ := Ex.errLe_sound big64 N (by norm_num) (le_refl _) ht75 hl0 c3
  rw [sv0, mul_one] at an en ed
  rw [show bigNum.ideal (bigVal X (t - X) s 0) = t * t by simp only [bigNum, Ex.ideal, bigVal]; ring] at an en
  rw [show bigDen.ideal (bigVal X (t - X) s 0) = t + s by simp only [bigDen, Ex.ideal, bigVal]; ring] at ed
  have hdl : 0.888 ≤ |t + s| := by
    rw [abs_le] at ht
    rcases hs with rfl | rfl
    · rw [abs_of_nonneg (by norm_num at *; linarith)]; norm_num at *; linarith
    · rw [abs_of_nonpos (by norm_num at *; linarith)]; norm_num at *; linarith
  have hdeR : (de : ℝ) ≤ 1 / 2 ^ 50 := by
    have : ((de : ℚ) : ℝ) ≤ ((1 / 2 ^ 50 : ℚ) : ℝ) := Rat.cast_le.mpr hde
    push_cast at this; exact this
  obtain ⟨nv, hnv⟩ : ∃ nv, nv = V (bigNum.flt N (bigLeaf x r c 0#f64.w)) := ⟨_, rfl⟩
  obtain ⟨dv, hdv⟩ : ∃ dv, dv = V (bigDen.flt N (bigLeaf x r c 0#f64.w)) := ⟨_, rfl⟩
  rw [← hnv] at en
  rw [← hdv] at ed
  have hdv7 : 0.887 ≤ |dv| := by
    have := abs_sub_abs_le_abs_sub (t + s) dv
    rw [abs_sub_comm] at this
    norm_num at *; linarith
  have hdvp : 0 < |dv| := lt_of_lt_of_le (by norm_num) hdv7
  have hdvne : dv ≠ 0 := abs_pos.mp hdvp
  have htsne : t + s ≠ 0 := abs_pos.mp (lt_of_lt_of_le (by norm_num) hdl)
  obtain ⟨Q, hQ⟩ : ∃ Q, Q = t * t / (t + s) := ⟨_, rfl⟩
  have hQA' : |Q| ≤ QA := by
    have h1 : (nA : ℝ) / (888 / 1000) ≤ QA := by
      have : ((nA / (888 / 1000) : ℚ) : ℝ) ≤ ((QA : ℚ) : ℝ) := Rat.cast_le.mpr hQA
      push_cast at this; exact this
    refine le_trans ?_ h1
    rw [hQ, abs_div]
    exact div_le_div₀ ((abs_nonneg _).trans an) an (by norm_num) (le_trans (by norm_num) hdl)
  have hde0 : (0 : ℝ) ≤ de := (abs_nonneg _).trans ed
  have hne0 : (0 : ℝ) ≤ ne := (abs_nonneg _).trans en
  have hQA0 : (0 : ℝ) ≤ QA := (abs_nonneg _).trans hQA'
  have hquo : |nv / dv - Q| ≤ (ne + QA * de) / (887 / 1000) := by
    rw [show nv / dv - Q = ((nv - t * t) - Q * (dv - (t + s))) / dv by rw [hQ]; field_simp; ring, abs_div]
    refine div_le_div₀ (by positivity) ((abs_sub _ _).trans (add_le_add en ?_)) (by norm_num) (le_trans (by norm_num) hdv7)
    rw [abs_mul]; exact mul_le_mul hQA' ed (abs_nonneg _) hQA0
  have hQeR : ((ne : ℝ) + QA * de) / (887 / 1000) + 2 ^ (kq - 54) ≤ Qe := by
    have : (((ne + QA * de) / (887 / 1000) + 2 ^ (kq - 54) : ℚ) : ℝ) ≤ ((Qe : ℚ) : ℝ) := Rat.cast_le.mpr hQe
    push_cast at this; exact this
  have hQkR : (QA : ℝ) + ((ne : ℝ) + QA * de) / (887 / 1000) ≤ 2 ^ kq := by
    have : ((QA + (ne + QA * de) / (887 / 1000) : ℚ) : ℝ) ≤ ((2 ^ kq : ℚ) : ℝ) := Rat.cast_le.mpr hQk
    push_cast at this; exact this
  have hdR := Fmt.divR N fn fd (by rw [← hdv]; exact hdvne)
  rw [← hnv, ← hdv] at hdR
  have hqk : |nv / dv| ≤ 2 ^ kq := by
    have := abs_sub_abs_le_abs_sub (nv / dv) Q
    linarith
  have hk1 : (2 : ℝ) ^ kq ≤ 1 := zpow_le_one_of_nonpos₀ (by norm_num) hkq'
  obtain ⟨fq, eq⟩ : f64.IsFin _ ∧ _ := ⟨fin64 hdR (hqk.trans (hk1.trans (one_le_zpow₀ (by norm_num) (by norm_num)))), err64 hdR hqk (by omega) (by omega)⟩
  obtain ⟨qd, hqd⟩ : ∃ qd, qd = N.div (bigNum.flt N (bigLeaf x r c 0#f64.w)) (bigDen.flt N (bigLeaf x r c 0#f64.w)) := ⟨_, rfl⟩
  rw [← hqd] at fq eq
  have hqe : |V qd - Q| ≤ Qe := by
    have := abs_add_le (V qd - nv / dv) (nv / dv - Q)
    rw [sub_add_sub_cancel] at this
    linarith
  obtain ⟨fs, -, es⟩ := Ex.errLe_sound big64 N (by norm_num) (le_refl _) ht75 (hl qd Q QA Qe fq hQA' hqe) c4
  rw [sv0, mul_one, show bigSub.ideal (bigVal X (t - X) s Q) = t - X - Q by simp only [bigSub, Ex.ideal, bigVal]] at es
  have efs : bigSub.flt N (bigLeaf x r c qd) = N.sub r qd := rfl
  rw [efs] at fs es
  have fsv : Fv (N.sub r qd) (V (N.sub r qd)) := ⟨fs, rfl⟩
  have hstne : s + t ≠ 0 := by rwa [add_comm]
  have eid : X + (t - X - Q) = s * t / (s + t) := by
    rw [hQ]
    rw [show X + (t - X - t * t / (t + s)) = t - t * t / (t + s) by ring]
    field_simp
    ring
  have haR := hx.addR (N := N) fsv
  have hab : |X + V (N.sub r qd)| ≤ 2 ^ ka := by
    have := abs_add_le (X + (t - X - Q)) (V (N.sub r qd) - (t - X - Q))
    rw [show X + (t - X - Q) + (V (N.sub r qd) - (t - X - Q)) = X + V (N.sub r qd) by ring, eid] at this
    linarith
  have hk2 : (2 : ℝ) ^ ka ≤ 1 := zpow_le_one_of_nonpos₀ (by norm_num) (by omega)
  have fav : Fv (N.add x (N.sub r qd)) (V (N.add x (N.sub r qd))) := ⟨fin64 haR (hab.trans (hk2.trans (one_le_zpow₀ (by norm_num) (by norm_num)))), rfl⟩
  have eav := err64 haR hab (by omega) (by omega)
  generalize V (N.add x (N.sub r qd)) = q at fav eav
  have hq1 : |q| ≤ 1 := by
    have := abs_sub_abs_le_abs_sub q (X + V (N.sub r qd))
    have h1 : (2 : ℝ) ^ ka ≤ 1 / 2 := by
      calc (2 : ℝ) ^ ka ≤ 2 ^ (-1 : ℤ) := zpow_le_zpow_right₀ (by norm_num) hka'
        _ = _ := by norm_num
    have h2 : (2 : ℝ) ^ (ka - 54) ≤ 1 / 2 := by
      calc (2 : ℝ) ^ (ka - 54) ≤ 2 ^ (-1 : ℤ) := zpow_le_zpow_right₀ (by norm_num) (by omega)
        _ = _ := by norm_num
    linarith
  have f2 := dbl_fv (N := N) fav hq1
  have hres : bigPost N x r c = N.sub c (N.mul ctwo (N.add x (N.sub r qd))) := by rw [hqd]; rfl
  refine ⟨s - 2 * q, by rw [hres]; exact hc.subR f2, ?_, ?_⟩
  · refine (abs_sub _ _).trans ?_
    rw [hs1, abs_mul, show |(2 : ℝ)| = 2 by norm_num]
    linarith
  · rw [← mobius hs htsne, ← hQ]
    rw [show s - 2 * q - (s - 2 * (t - Q)) = -2 * ((q - (X + V (N.sub r qd))) + (V (N.sub r qd) - (t - X - Q))) by ring, abs_mul, show |(-2 : ℝ)| = 2 by norm_num]
    refine mul_le_mul_of_nonneg_left ((abs_add_le _ _).trans ?_) (by norm_num)
    linarith

end Trig
end Verif
