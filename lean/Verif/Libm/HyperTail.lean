import Verif.Libm.HyperCore
import Verif.Libm.ExpScale
import Mathlib.Analysis.Complex.ExponentialBounds
import Mathlib.Analysis.SpecialFunctions.Trigonometric.Series
import Mathlib.Analysis.SpecialFunctions.Trigonometric.DerivHyp
/-! # Hyperbolic functions: identities, tiny and huge arguments -/
namespace Verif
open Fmt
namespace Hyper
open Expm1
open Exp (exp_add_log)

theorem cosh_eq1 (a : ℝ) : Real.cosh a = 1 + (Real.exp a - 1) * (Real.exp a - 1) / (2 * (1 + (Real.exp a - 1))) := by
  rw [Real.cosh_eq, Real.exp_neg]
  have := Real.exp_pos a
  field_simp; ring
theorem cosh_eq2 (a : ℝ) : Real.cosh a = (Real.exp a + 1 / Real.exp a) / 2 := by
  rw [Real.cosh_eq, Real.exp_neg, one_div]
theorem sinh_eq1 (a : ℝ) : Real.sinh a = (Real.exp a - 1 + (Real.exp a - 1) / (Real.exp a - 1 + 1)) / 2 := by
  rw [Real.sinh_eq, Real.exp_neg]
  have := Real.exp_pos a
  field_simp; ring
theorem tanh_eq1 (a : ℝ) : Real.tanh a = (Real.exp (2 * a) - 1) / (Real.exp (2 * a) - 1 + 2) := by
  rw [Real.tanh_eq_sinh_div_cosh, Real.sinh_eq, Real.cosh_eq, Real.exp_neg, two_mul, Real.exp_add]
  have := Real.exp_pos a
  have h2 : Real.exp a * Real.exp a - 1 + 2 ≠ 0 := by nlinarith [mul_pos this this]
  have h3 : (Real.exp a + (Real.exp a)⁻¹) / 2 ≠ 0 := by positivity
  rw [div_eq_div_iff h3 h2]
  field_simp; ring
theorem tanh_eq2 (a : ℝ) : Real.tanh a = -((Real.exp (-2 * a) - 1) / (Real.exp (-2 * a) - 1 + 2)) := by
  have := tanh_eq1 (-a)
  rw [Real.tanh_neg, show 2 * -a = -2 * a by ring] at this
  rw [← this, _root_.neg_neg]

theorem cosh_near {a : ℝ} (h : |a| ≤ 1) : 1 ≤ Real.cosh a ∧ Real.cosh a ≤ 1 + a ^ 2 * (3 / 4) := by
  refine ⟨Real.one_le_cosh a, (Real.cosh_le_exp_half_sq a).trans ?_⟩
  have h1 : a ^ 2 ≤ 1 := by rw [← sq_abs]; nlinarith [abs_nonneg a]
  have h2 := Real.exp_bound' (x := a ^ 2 / 2) (by positivity) (by linarith) (n := 2) (by norm_num)
  norm_num [Finset.sum_range_succ, Nat.factorial] at h2
  nlinarith [sq_nonneg a]

theorem sinh_near {a : ℝ} (h0 : 0 ≤ a) (h : a ≤ 1 / 1000) : a ≤ Real.sinh a ∧ Real.sinh a ≤ a + a ^ 3 / 5 := by
  refine ⟨Real.self_le_sinh_iff.mpr h0, ?_⟩
  have h1 := Real.exp_bound' h0 (by linarith) (n := 4) (by norm_num)
  have h2 := Real.exp_bound (x := -a) (by rw [abs_neg, abs_of_nonneg h0]; linarith) (n := 4) (by norm_num)
  norm_num [Finset.sum_range_succ, Nat.factorial] at h1 h2
  rw [abs_of_nonneg h0, abs_le] at h2
  rw [Real.sinh_eq]
  have h3 : a ^ 4 ≤ a ^ 3 * (1 / 1000) := by
    rw [pow_succ]; exact mul_le_mul_of_nonneg_left h (by positivity)
  have h4 : 0 ≤ a ^ 3 := by positivity
  have h5 : (-a) ^ 3 = - a ^ 3 := by ring
  have h6 := h2.1
  have h7 : (-a) ^ 2 = a ^ 2 := by ring
  nlinarith

theorem tanh_near {a : ℝ} (h0 : 0 ≤ a) (h : a ≤ 1 / 4) : a - a ^ 2 ≤ Real.tanh a ∧ Real.tanh a ≤ a + 3 * a ^ 2 := by
  have e1 : 2 * a + 1 ≤ Real.exp (2 * a) := Real.add_one_le_exp _
  have e2 : 1 - 2 * a ≤ Real.exp (-(2 * a)) := by have := Real.add_one_le_exp (-(2 * a)); linarith
  rw [Real.exp_neg, le_inv_comm₀ (by linarith) (Real.exp_pos _)] at e2
  have e3 : (1 - 2 * a)⁻¹ ≤ 1 + 2 * a + 8 * a ^ 2 := by
    rw [inv_le_iff_one_le_mul₀ (by linarith)]; nlinarith [sq_nonneg a]
  rw [tanh_eq1]
  have hE := Real.exp_pos (2 * a)
  constructor
  · rw [le_div_iff₀ (by linarith)]; nlinarith [sq_nonneg a, mul_nonneg h0 (sq_nonneg a)]
  · rw [div_le_iff₀ (by linarith)]
    generalize Real.exp (2 * a) = E at *
    have h1 := e2.trans e3
    have h2 : 0 ≤ a + 3 * a ^ 2 := by positivity
    have h3 := mul_le_mul_of_nonneg_left e1 h2
    have h4 : 0 ≤ a ^ 3 := by positivity
    nlinarith

theorem exp_half_bd : Real.exp 0.511 ≤ 1.669 := by
  have h := Real.exp_bound' (x := 0.511) (by norm_num) (by norm_num) (n := 6) (by norm_num)
  norm_num [Finset.sum_range_succ, Nat.factorial] at h
  norm_num
  linarith

theorem exp_1098 : 2.99 ≤ Real.exp 1.098 := by
  have h1 := Real.quadratic_le_exp_of_nonneg (x := 0.098) (by norm_num)
  have h2 := Real.exp_one_gt_d9
  rw [show (1.098 : ℝ) = 1 + 0.098 by norm_num, Real.exp_add]
  norm_num at *
  nlinarith

variable {F : Fmt} {K : Cn F} {R : List ℚ}

/-- a subtraction that is exact -/
theorem sub_ex (hF : F.Big) (N : FPU F) {x k : BitVec F.w} {X κ : ℝ} {j : ℤ} (hx : GFv F x X) (hk : GFv F k κ) (hκ : Mul2 j κ) (lo : 2 ^ (j + F.s) ≤ |X|)
    (hd : |X - κ| ≤ 2 ^ (j + F.s + 1)) (hj : 1 - (F.bias : ℤ) - F.s ≤ j) (hj2 : j + F.s + 1 ≤ 100) : GFv F (N.sub x k) (X - κ) := by
  refine GFv.of_rounds hF (hx.subR N hk) (j := j) (Mul2.sub ?_ hκ) hd hj (hd.trans (zpow_le_zpow_right₀ (by norm_num) hj2))
  obtain ⟨m, i, e, hm, hi, -⟩ := F.val_dec x
  rw [hx.val] at e
  refine Mul2.mono (j := i) ⟨m, e⟩ ?_
  rw [e, abs_mul, abs_of_pos (show (0 : ℝ) < 2 ^ i by positivity)] at lo
  have hm' : (|(m : ℝ)|) < 2 ^ ((F.s + 1 : ℕ) : ℤ) := by rw [zpow_natCast]; exact_mod_cast hm
  have : (2 : ℝ) ^ (j + F.s) < 2 ^ (((F.s + 1 : ℕ) : ℤ) + i) := by
    rw [zpow_add₀ (by norm_num) ((F.s + 1 : ℕ) : ℤ)]
    exact lt_of_le_of_lt lo (mul_lt_mul_of_pos_right hm' (by positivity))
  rw [zpow_lt_zpow_iff_right₀ (by norm_num)] at this
  push_cast at this
  omega

theorem expo2_real {u E S A e σ : ℝ} (hu0 : 0 < u) (hu : u ≤ 1 / 2 ^ 20) (hA : 0 < A) (he : |e - 1| ≤ 0.52 * u) (hE : |E * S - A * e| ≤ 1.9 * u * (A * e) + σ)
    (hσ : σ ≤ u / 7 * (A * e)) : |E * S - A| ≤ 2.6 * u * A := by
  have hu' : u ≤ 1 / 1000000 := hu.trans (by norm_num)
  rw [abs_le] at *
  have h1 := mul_le_mul_of_nonneg_left he.1 hA.le
  have h2 := mul_le_mul_of_nonneg_left he.2 hA.le
  have hAu := mul_pos hA hu0
  have h3 : u * (A * e) ≤ 1.0001 * (A * u) := by nlinarith
  constructor <;> nlinarith

/-- `expo2` when nothing overflows -/
theorem expo2_fin (hF : F.Big) (N : FPU F) {ex : BitVec F.w → M (BitVec F.w)} {kln2 scale x : BitVec F.w} {X Y κ σ : ℝ} {c : ℤ} (hYX : Y = X - κ)
    (hδ : |(2 * c + 1) * Real.log 2 - κ| ≤ 0.51 * (1 / 2 ^ (F.s + 1)))
    (hex : Ok (ex (N.sub x kln2)) fun z => ∃ E, GFv F z E ∧ |E - Real.exp Y| ≤ 1.9 * (1 / 2 ^ (F.s + 1)) * Real.exp Y + σ) (hσ : σ ≤ 1 / 2 ^ (F.s + 1) / 7 * Real.exp Y)
    (hs : GFv F scale (2 ^ c)) (hc : 0 ≤ c) (hfin : Real.exp X / 2 * (1 + 2.6 * (1 / 2 ^ (F.s + 1))) < 2 ^ ((F.bias : ℤ) + 1)) :
    Ok (expo2 N ex kln2 scale x) fun z => ∃ V, GFv F z V ∧ |V - Real.exp X / 2| ≤ 2.6 * (1 / 2 ^ (F.s + 1)) * (Real.exp X / 2) := by
  have hu0 := u_pos F
  have hu := u_le hF
  have hu' : (1 : ℝ) / 2 ^ (F.s + 1) ≤ 1 / 1000000 := hu.trans (by norm_num)
  obtain ⟨z, hz, E, hE, eE⟩ := hex
  have hp : (0 : ℝ) < 2 ^ c := by positivity
  have hp1 : (1 : ℝ) ≤ 2 ^ c := one_le_zpow₀ (by norm_num) hc
  have hA : 0 < Real.exp X / 2 := by positivity
  have hYp := Real.exp_pos Y
  -- the factor left over
  obtain ⟨δ, hd⟩ : ∃ δ, δ = (2 * c + 1) * Real.log 2 - κ := ⟨_, rfl⟩
  have hk : Real.exp Y * (2 ^ c * 2 ^ c) = Real.exp X / 2 * Real.exp δ := by
    have e1 : Y = (X + δ) + ((-(2 * c + 1) : ℤ) : ℝ) * Real.log 2 := by rw [hYX, hd]; push_cast; ring
    rw [e1, exp_add_log, Real.exp_add, zpow_neg, show 2 * c + 1 = c + c + 1 by ring, zpow_add₀ (by norm_num), zpow_add₀ (by norm_num), zpow_one]
    field_simp
  rw [← hd] at hδ
  have he : |Real.exp δ - 1| ≤ 0.52 * (1 / 2 ^ (F.s + 1)) := by
    have hdb := abs_le.mp hδ
    have h1 := Real.add_one_le_exp δ
    have h2 := Real.add_one_le_exp (-δ)
    rw [Real.exp_neg, le_inv_comm₀ (by linarith) (Real.exp_pos _)] at h2
    have h3 : (-δ + 1)⁻¹ ≤ 1 + 0.52 * (1 / 2 ^ (F.s + 1)) := by
      rw [inv_le_iff_one_le_mul₀ (by linarith)]; nlinarith
    rw [abs_le]
    constructor <;> linarith
  have hS : (0 : ℝ) < 2 ^ c * 2 ^ c := by positivity
  have hES : |E * (2 ^ c * 2 ^ c) - Real.exp X / 2 * Real.exp δ| ≤ 1.9 * (1 / 2 ^ (F.s + 1)) * (Real.exp X / 2 * Real.exp δ) + σ * (2 ^ c * 2 ^ c) := by
    rw [← hk, ← sub_mul, abs_mul, abs_of_pos hS]
    have := mul_le_mul_of_nonneg_right eE hS.le
    linarith
  have hres := expo2_real hu0 hu hA he hES (by
    rw [← hk]
    have := mul_le_mul_of_nonneg_right hσ hS.le
    linarith)
  have hE0 : 0 < E := by
    rw [abs_le] at eE
    nlinarith [eE.1]
  have hb : E * (2 ^ c * 2 ^ c) < 2 ^ ((F.bias : ℤ) + 1) := by
    refine lt_of_le_of_lt ?_ hfin
    have := (abs_le.mp hres).2
    linarith
  have h1 : GFv F (N.mul z scale) (E * 2 ^ c) := by
    refine up_ex hE hc (hE.mulR N hs) ?_
    rw [abs_of_pos (by positivity)]
    refine lt_of_le_of_lt ?_ hb
    have := mul_pos hE0 hp
    nlinarith
  have h2 : GFv F (N.mul (N.mul z scale) scale) (E * 2 ^ c * 2 ^ c) := by
    refine up_ex h1 hc (h1.mulR N hs) ?_
    rw [abs_of_pos (by positivity), mul_assoc]
    exact hb
  refine ⟨_, ?_, E * 2 ^ c * 2 ^ c, h2, by rw [mul_assoc]; exact hres⟩
  unfold expo2
  rw [hz]; rfl

/-- `+∞` times a positive number -/
theorem inf_mul (N : FPU F) {z c : BitVec F.w} {C : ℝ} (hz : F.IsInf z ∧ F.sign z = false) (hc : GFv F c C) (hC : 0 < C) : F.IsInf (N.mul z c) ∧ F.sign (N.mul z c) = false := by
  have hzn : ¬ F.IsNaN z := by unfold IsNaN; have := hz.1; unfold IsInf at this; omega
  have hz0 : ¬ F.IsZero z := by
    unfold IsZero; have := hz.1; unfold IsInf at this; rw [this]
    have h1 := F.ps_le_infRep
    have h2 := Nat.two_pow_pos F.s; omega
  have hc0 : ¬ F.IsZero c := by
    intro h
    have : C = 0 := by
      rw [← hc.val]; unfold valK; rw [show F.mag c = 0 from h, ← F.magVal_cast, F.magVal_zero]; simp
    linarith
  have := (N.mul_spec z c).2.2 hzn hc.not_nan (Or.inl hz.1)
  rw [if_neg (by tauto), hz.2, hc.sign_of_pos hC] at this
  exact ⟨this.1, by simpa using this.2⟩

/-- `expo2` when the result is too large -/
theorem expo2_big (N : FPU F) {ex : BitVec F.w → M (BitVec F.w)} {kln2 scale x : BitVec F.w} {c : ℤ}
    (hex : Ok (ex (N.sub x kln2)) fun z => (F.IsInf z ∧ F.sign z = false) ∨ ∃ E, GFv F z E ∧ 2 ^ ((F.bias : ℤ) + 1) ≤ E * 2 ^ c * 2 ^ c)
    (hs : GFv F scale (2 ^ c)) (hc : 0 ≤ c) : Ok (expo2 N ex kln2 scale x) fun z => F.IsInf z ∧ F.sign z = false := by
  obtain ⟨z, hz, h⟩ := hex
  have hp : (0 : ℝ) < 2 ^ c := by positivity
  have hf : F.IsInf (N.mul (N.mul z scale) scale) ∧ F.sign (N.mul (N.mul z scale) scale) = false := by
    rcases h with h | ⟨E, hE, hb⟩
    · exact inf_mul N (inf_mul N h hs hp) hs hp
    · by_cases h1 : 2 ^ ((F.bias : ℤ) + 1) ≤ E * 2 ^ c
      · exact inf_mul N ((hE.mulR N hs).over h1) hs hp
      · have hE0 : 0 < E := by
          by_contra hc'
          have h2 : E * 2 ^ c * 2 ^ c ≤ 0 := mul_nonpos_of_nonpos_of_nonneg (mul_nonpos_of_nonpos_of_nonneg (not_lt.mp hc') hp.le) hp.le
          have h3 : (0 : ℝ) < 2 ^ ((F.bias : ℤ) + 1) := by positivity
          linarith
        have h2 : GFv F (N.mul z scale) (E * 2 ^ c) := up_ex hE hc (hE.mulR N hs) (by rw [abs_of_pos (by positivity)]; exact not_le.mp h1)
        exact (h2.mulR N hs).over hb
  refine ⟨_, ?_, hf⟩
  unfold expo2
  rw [hz]; rfl

/-- the error of a rounding of a number that may be just below the normal numbers -/
theorem rr_min (hF : F.Big) {v : ℝ} {r : BitVec F.w} (h : F.Rounds v r) {m : ℝ} (hv : |v| ≤ m) (hm : 2 ^ (1 - (F.bias : ℤ)) ≤ m) (hm2 : m ≤ 1) :
    ∃ V, GFv F r V ∧ |V - v| ≤ 1 / 2 ^ (F.s + 1) * m := by
  have h127 := hF.bias
  have hu0 := u_pos F
  have hue : (2 : ℝ) ^ (-(F.s : ℤ) - 1) = 1 / 2 ^ (F.s + 1) := by
    rw [show -(F.s : ℤ) - 1 = -((F.s + 1 : ℕ) : ℤ) by push_cast; ring, zpow_neg, zpow_natCast, one_div]
  refine ⟨_, ⟨h.fin100 hF ((hv.trans hm2).trans (by norm_num)), rfl⟩, ?_⟩
  by_cases hb : 2 ^ (1 - (F.bias : ℤ)) ≤ |v|
  · have := h.rel F hb ((hv.trans hm2).trans (one_le_zpow₀ (by norm_num) (by omega)))
    rw [hue] at this
    exact this.trans (mul_le_mul_of_nonneg_left hv hu0.le)
  · rw [not_le] at hb
    have := h.err F (k := 2 - F.bias) (hb.le.trans (zpow_le_zpow_right₀ (by norm_num) (by omega))) le_rfl (by omega)
    refine this.trans ?_
    rw [show 2 - (F.bias : ℤ) - F.s - 2 = (-(F.s : ℤ) - 1) + (1 - F.bias) by ring, zpow_add₀ (by norm_num), hue]
    exact mul_le_mul_of_nonneg_left hm hu0.le

theorem tiny_q {u a τ d : ℝ} (hu0 : 0 < u) (hu : u ≤ 1 / 1000000) (ha : 0 < a) (τ1 : -(4.2 * u * a) ≤ τ + 2 * a) (τ2 : τ + 2 * a ≤ 4.2 * u * a) (d1 : 2 - 2.1 * u ≤ d) (d2 : d ≤ 2 + 2.1 * u) :
    |(-τ) / d - a| ≤ 3.2 * u * a := by
  have dp : 0 < d := by linarith
  have : (-τ) / d - a = (-τ - a * d) / d := by field_simp
  rw [this, abs_div, abs_of_pos dp, div_le_iff₀ dp, abs_le]
  have h1 := mul_le_mul_of_nonneg_left d1 ha.le
  have h2 := mul_le_mul_of_nonneg_left d2 ha.le
  have h3 : 3.2 * u * a * 1.99 ≤ 3.2 * u * a * d := mul_le_mul_of_nonneg_left (by linarith) (by positivity)
  constructor <;> nlinarith [mul_pos hu0 ha]

theorem tiny_end {u a v V h : ℝ} (hu0 : 0 < u) (hu : u ≤ 1 / 1000000) (ha : 0 < a) (hv : |v - a| ≤ 3.2 * u * a) (hV : |V - v| ≤ u * (a + 3.2 * u * a)) (ha2 : a ^ 2 ≤ 1 / 64 * u * a)
    (n1 : a - a ^ 2 ≤ h) (n2 : h ≤ a + 3 * a ^ 2) : |V - h| ≤ 4.6 * u * h := by
  have hua := mul_pos hu0 ha
  have hua2 : u * (u * a) ≤ 1 / 1000000 * (u * a) := mul_le_mul_of_nonneg_right hu hua.le
  have h1 : u * (a - a ^ 2) ≤ u * h := mul_le_mul_of_nonneg_left n1 hu0.le
  have h2 : u * a ^ 2 ≤ u * (1 / 64 * u * a) := mul_le_mul_of_nonneg_left ha2 hu0.le
  rw [abs_le] at *
  constructor <;> linarith [hv.1, hv.2, hV.1, hV.2]

/-- `-t / (t + 2)` for tiny `t` -/
theorem tC_tiny (hF : F.Big) (hs : F.s ≤ 52) (hK : COk F K R) (N : FPU F) {t : BitVec F.w} {τ a : ℝ} (ht : GFv F t τ) (h0 : 2 ^ (1 - (F.bias : ℤ)) ≤ a) (h1 : a < 1 / 2 ^ 59)
    (hT : Rl (2 * (1 / 2 ^ (F.s + 1))) τ (Real.exp (-2 * a) - 1)) : ∃ V, GFv F (tC N K t) V ∧ |V - Real.tanh a| ≤ 4.6 * (1 / 2 ^ (F.s + 1)) * Real.tanh a := by
  have hu0 := u_pos F
  have hu := u_le hF
  have hut := u_tiny hs
  have hu' : (1 : ℝ) / 2 ^ (F.s + 1) ≤ 1 / 1000000 := hu.trans (by norm_num)
  have ha : 0 < a := lt_of_lt_of_le (by positivity) h0
  have hau : a ≤ 1 / 64 * (1 / 2 ^ (F.s + 1)) := by
    have : (1 : ℝ) / 2 ^ 59 = 1 / 64 * (1 / 2 ^ 53) := by norm_num
    linarith
  obtain ⟨n1, n2⟩ := tanh_near ha.le (by linarith)
  -- the argument
  have hTl : |Real.exp (-2 * a) - 1 + 2 * a| ≤ 4 * a ^ 2 := by
    have e1 := Real.add_one_le_exp (-2 * a)
    have e2 := Real.add_one_le_exp (2 * a)
    have e3 : Real.exp (-2 * a) ≤ (2 * a + 1)⁻¹ := by
      rw [show -2 * a = -(2 * a) by ring, Real.exp_neg]; exact inv_anti₀ (by linarith) e2
    have e4 : (2 * a + 1)⁻¹ ≤ 1 - 2 * a + 4 * a ^ 2 := by
      rw [inv_le_iff_one_le_mul₀ (by linarith)]; nlinarith [mul_pos ha (mul_pos ha ha)]
    rw [abs_le]
    constructor <;> nlinarith [sq_nonneg a]
  unfold Rl at hT
  have hTa : |Real.exp (-2 * a) - 1| ≤ 2 * a + 4 * a ^ 2 := by
    rw [abs_le] at hTl ⊢
    constructor <;> linarith [hTl.1, hTl.2, sq_nonneg a]
  generalize Real.exp (-2 * a) - 1 = T at *
  have htn := ht.neg
  obtain ⟨u, hud⟩ : ∃ u, u = (1 : ℝ) / 2 ^ (F.s + 1) := ⟨_, rfl⟩
  have rmin := fun {v : ℝ} {r : BitVec F.w} => @rr_min F hF v r
  have rrr := fun {v : ℝ} {r : BitVec F.w} => @rr F hF v r
  rw [← hud] at hu0 hu' hut hau hT rmin rrr ⊢
  have ha2 : a ^ 2 ≤ 1 / 64 * u * a := by rw [sq]; exact mul_le_mul_of_nonneg_right hau ha.le
  have hτ : |τ + 2 * a| ≤ 4.2 * u * a := by
    rw [abs_le] at hTl hT ⊢
    have : 2 * u * |T| ≤ 4.001 * u * a := by nlinarith [abs_nonneg T]
    constructor <;> nlinarith [hTl.1, hTl.2, hT.1, hT.2]
  obtain ⟨τ1, τ2⟩ := abs_le.mp hτ
  have hasm : a ≤ 1 / 1000000 := by linarith
  have tb1 : -(2.001 * a) ≤ τ := by nlinarith
  have tb2 : τ ≤ -(1.999 * a) := by nlinarith
  obtain ⟨d, hd, ed⟩ := rrr (ht.addR N hK.two) (lo_of (le_trans (by norm_num) (show (1 : ℝ) ≤ τ + 2 by linarith))) (by
    rw [abs_of_pos (by linarith)]; linarith)
  obtain ⟨db1, db2⟩ := Rl.bounds ed (show 0 < τ + 2 by linarith)
  have d1 : 2 - 2.1 * u ≤ d := by nlinarith
  have d2 : d ≤ 2 + 2.1 * u := by nlinarith
  have dp : 0 < d := by linarith
  have hv := tiny_q hu0 hu' ha τ1 τ2 d1 d2
  obtain ⟨v1, v2⟩ := abs_le.mp hv
  have hua := mul_pos hu0 ha
  have hua1 : u * a ≤ 1 / 1000000 * a := mul_le_mul_of_nonneg_right hu' ha.le
  obtain ⟨V, hV, eV⟩ := rmin (htn.divR N hd dp.ne') (m := a + 3.2 * u * a) (by
    rw [abs_le]; constructor <;> linarith) (by linarith) (by linarith)
  exact ⟨V, hV, tiny_end hu0 hu' ha hv eV ha2 n1 n2⟩
end Hyper
end Verif
