import Verif.Libm.Tan
import Verif.Libm.TrigF
import Verif.Libm.PolyMul
import Mathlib.Analysis.SpecialFunctions.Trigonometric.Deriv
/-! # `tanf` is faithfully rounded -/
namespace Verif
open Fmt

/-- `f64` value as a real -/
local notation "V" => Fmt.valK f64 ℝ

namespace Trig
open Pio2 Hypot

def tanfP : List ℚ := [1, f64.val T0f, f64.val T1f, f64.val T2f, f64.val T3f, f64.val T4f, f64.val T5f]

theorem tanfP_near : Poly.chkLe (Poly.sub (Poly.mul Poly.cosL tanfP) Poly.sinL) (Poly.scale (4 / 10 / 2 ^ 24) Poly.sinL) (1 / 2 ^ 24) 12 0 (617 / 1000) = true := by
  decide +kernel
theorem tanfP_small : Poly.chk (Poly.sub (Poly.mul Poly.cosL tanfP) Poly.sinL) (1 / 2 ^ 38) 4 0 (1 / 2 ^ 20) = true := by decide +kernel
theorem tanfP_le : Poly.chk tanfP 2 8 0 (617 / 1000) = true := by decide +kernel

def tanfLeaf (x z : D) : ℕ → D
  | 0 => x | 1 => z | 2 => T0f | 3 => T1f | 4 => T2f | 5 => T3f | 6 => T4f | _ => T5f
def tanfVal (X Z : ℝ) : ℕ → ℝ
  | 0 => X | 1 => Z | 2 => (f64.val T0f : ℚ) | 3 => (f64.val T1f : ℚ) | 4 => (f64.val T2f : ℚ) | 5 => (f64.val T3f : ℚ) | 6 => (f64.val T4f : ℚ)
  | _ => (f64.val T5f : ℚ)
def tanfInfo : ℕ → Ex.Bd
  | 0 => ⟨1, 0, true⟩ | 1 => ⟨617 / 1000, 1 / 2 ^ 54, false⟩ | 2 => ⟨|f64.val T0f|, 0, false⟩ | 3 => ⟨|f64.val T1f|, 0, false⟩
  | 4 => ⟨|f64.val T2f|, 0, false⟩ | 5 => ⟨|f64.val T3f|, 0, false⟩ | 6 => ⟨|f64.val T4f|, 0, false⟩ | _ => ⟨|f64.val T5f|, 0, false⟩
def tanfE : Ex :=
  let z := Ex.leaf 1
  let s := z.mul (.leaf 0)
  let w := z.mul z
  .add (.add (.leaf 0) (s.mul (.add (.leaf 2) (z.mul (.leaf 3)))))
    ((s.mul w).mul (.add (.add (.leaf 4) (z.mul (.leaf 5))) (w.mul (.add (.leaf 6) (z.mul (.leaf 7))))))

theorem tanfE_err : tanfE.errLe f64.s (1 / 2 ^ 75) tanfInfo true 2 (1 / 2 ^ 50) = true := by decide +kernel
theorem tanfE_ideal (X : ℝ) : tanfE.ideal (tanfVal X (X * X)) = X * Poly.ev tanfP (X * X) := by
  simp only [tanfE, Ex.ideal, tanfVal, tanfP, Poly.ev]
  push_cast
  ring

/-- the kernel, by its defect `R cos X - sin X` -/
theorem kTanD_spec {N : FPU f64} {x : D} {X : ℝ} (hx : Fv x X) (h0 : 2 ^ (-70 : ℤ) ≤ |X|) (h1 : |X| ≤ 0.78541) :
    ∃ R, Fv (kTanD N x) R ∧ |R * Real.cos X - Real.sin X| ≤ 0.41 / 2 ^ 24 * |Real.sin X| ∧
      (|X| ≤ 1 / 2 ^ 10 → |R * Real.cos X - Real.sin X| ≤ 1 / 2 ^ 36 * |Real.sin X|) := by
  have hX0 : 0 < |X| := lt_of_lt_of_le (by positivity) h0
  have hX1 : |X| ≤ 1 := h1.trans (by norm_num)
  have hXX0 : 0 ≤ X * X := mul_self_nonneg X
  have hXX1 : X * X ≤ 0.617 := by rw [← abs_mul_abs_self]; nlinarith
  have hsv : Ex.sv |X| true = |X| := if_pos rfl
  have ht : (1 : ℝ) / 2 ^ 150 ≤ ((1 / 2 ^ 75 : ℚ) : ℝ) * |X| := by
    push_cast
    calc (1 : ℝ) / 2 ^ 150 ≤ 1 / 2 ^ 75 * 2 ^ (-70 : ℤ) := by norm_num
      _ ≤ _ := mul_le_mul_of_nonneg_left h0 (by positivity)
  have hl : ∀ i, Ex.Holds f64 |X| (tanfLeaf x (N.mul x x) i) (tanfVal X (X * X) i) (tanfInfo i) := by
    intro i
    match i with
    | 0 => exact Ex.holds_exact hx.fin hx.val (by rw [hsv]; push_cast; rw [one_mul]; exact le_refl _)
    | 1 => exact holds_sq hx h0 h1 _
    | 2 => exact Ex.holds_const (b := T0f) (by decide +kernel)
    | 3 => exact Ex.holds_const (b := T1f) (by decide +kernel)
    | 4 => exact Ex.holds_const (b := T2f) (by decide +kernel)
    | 5 => exact Ex.holds_const (b := T3f) (by decide +kernel)
    | 6 => exact Ex.holds_const (b := T4f) (by decide +kernel)
    | (n + 7) => exact Ex.holds_const (b := T5f) (by decide +kernel)
  obtain ⟨f, -, e⟩ := Ex.errLe_sound big64 N hX0 hX1 ht hl tanfE_err
  rw [hsv, tanfE_ideal] at e
  refine ⟨V (tanfE.flt N (tanfLeaf x (N.mul x x))), ⟨f, rfl⟩, ?_⟩
  generalize V (tanfE.flt N (tanfLeaf x (N.mul x x))) = R at e
  have hP2 := Poly.chk_sound tanfP_le (t := X * X) (by simpa using hXX0) (by push_cast; norm_num at hXX1 ⊢; linarith)
  have hq := Poly.chkLe_sound tanfP_near (t := X * X) (by simpa using hXX0) (by push_cast; norm_num at hXX1 ⊢; linarith)
  have hqs : X * X ≤ 1 / 2 ^ 20 → _ := fun h => Poly.chk_sound tanfP_small (t := X * X) (by simpa using hXX0) (by push_cast; exact h)
  rw [Poly.ev_sub, Poly.ev_mul, Poly.ev_scale] at hq
  rw [Poly.ev_sub, Poly.ev_mul] at hqs
  push_cast at hq hP2 e hqs
  have hx20 : |X| ^ 20 / 2 ^ 61 ≤ 1 / 2 ^ 61 * |X| := by
    have h20 : |X| ^ 20 = |X| ^ 19 * |X| := by ring
    rw [h20, mul_div_right_comm]
    refine mul_le_mul_of_nonneg_right ?_ hX0.le
    have : |X| ^ 19 ≤ 1 := pow_le_one₀ hX0.le hX1
    gcongr
  have hS := (Poly.sin_near hX1).trans hx20
  have hC : |Real.cos X - Poly.ev Poly.cosL (X * X)| ≤ 1 / 2 ^ 61 := (Poly.cos_near hX1).trans (by
    have : |X| ^ 20 ≤ 1 := pow_le_one₀ hX0.le hX1
    gcongr)
  have hlow : 0.89 * |X| ≤ |Real.sin X| := by
    have := sin_low h1
    have h2 : 0.89 * |X| ≤ (1 - 0.168 * (X * X)) * |X| := mul_le_mul_of_nonneg_right (by norm_num at *; linarith) hX0.le
    linarith
  have hc1 := Real.abs_cos_le_one X
  generalize Poly.ev tanfP (X * X) = P at *
  generalize Poly.ev Poly.cosL (X * X) = CL at *
  generalize Poly.ev Poly.sinL (X * X) = SL at *
  generalize Real.sin X = S at *
  generalize Real.cos X = C at *
  have hdec : R * C - S = (R - X * P) * C + X * P * (C - CL) + X * (CL * P - SL) - (S - X * SL) := by ring
  have m1 : |(R - X * P) * C| ≤ 1 / 2 ^ 50 * |X| := by
    rw [abs_mul]
    calc _ ≤ 1 / 2 ^ 50 * |X| * 1 := mul_le_mul e hc1 (abs_nonneg _) (by positivity)
      _ = _ := mul_one _
  have m2 : |X * P * (C - CL)| ≤ |X| * 2 * (1 / 2 ^ 61) := by
    rw [abs_mul, abs_mul]
    exact mul_le_mul (mul_le_mul_of_nonneg_left hP2 hX0.le) hC (abs_nonneg _) (by positivity)
  have key : ∀ η : ℝ, |X * (CL * P - SL)| ≤ η → |R * C - S| ≤ η + 1.1 / 2 ^ 50 * |X| := by
    intro η h
    rw [hdec]
    have t1 := abs_sub ((R - X * P) * C + X * P * (C - CL) + X * (CL * P - SL)) (S - X * SL)
    have t2 := abs_add_le ((R - X * P) * C + X * P * (C - CL)) (X * (CL * P - SL))
    have t3 := abs_add_le ((R - X * P) * C) (X * P * (C - CL))
    norm_num at *
    linarith
  constructor
  · have hSL : |X| * SL ≤ |S| + 1 / 2 ^ 61 * |X| := by
      have h1 := abs_sub_abs_le_abs_sub (X * SL) S
      rw [abs_sub_comm] at h1
      have h2 : |X| * SL ≤ |X * SL| := by rw [abs_mul]; exact mul_le_mul_of_nonneg_left (le_abs_self _) hX0.le
      linarith
    refine (key (|X| * (0.4 / 2 ^ 24 * SL)) ?_).trans ?_
    · rw [abs_mul]
      refine mul_le_mul_of_nonneg_left (hq.trans (le_of_eq ?_)) hX0.le
      norm_num
    · norm_num at *; linarith
  · intro hs
    have hXs : X * X ≤ 1 / 2 ^ 20 := by
      rw [← abs_mul_abs_self]
      calc |X| * |X| ≤ 1 / 2 ^ 10 * (1 / 2 ^ 10) := mul_le_mul hs hs hX0.le (by norm_num)
        _ = _ := by norm_num
    refine (key (|X| * (1 / 2 ^ 38)) ?_).trans ?_
    · rw [abs_mul]
      exact mul_le_mul_of_nonneg_left (hqs hXs) hX0.le
    · norm_num at *; linarith

/-- `R` is the tangent of `T` up to a relative error `η` -/
def TanNear (T η R : ℝ) : Prop := Real.sin T ≠ 0 ∧ Real.cos T ≠ 0 ∧ |R * Real.cos T - Real.sin T| ≤ η * |Real.sin T|

theorem TanNear.tan {T η R : ℝ} (h : TanNear T η R) : |R - Real.tan T| ≤ η * |Real.tan T| ∧ Real.tan T ≠ 0 := by
  obtain ⟨h1, h2, h3⟩ := h
  rw [Real.tan_eq_sin_div_cos]
  refine ⟨?_, div_ne_zero h1 h2⟩
  have hc : 0 < |Real.cos T| := abs_pos.mpr h2
  rw [show R - Real.sin T / Real.cos T = (R * Real.cos T - Real.sin T) / Real.cos T by field_simp, abs_div, abs_div, ← mul_div_assoc]
  exact div_le_div_of_nonneg_right h3 hc.le

/-- the cotangent -/
theorem TanNear.cot {T η R : ℝ} (h : TanNear T η R) (h0 : 0 ≤ η) (h1 : η < 1) : R ≠ 0 ∧
    |-1 / R - -(Real.cos T / Real.sin T)| ≤ η / (1 - η) * |Real.cos T / Real.sin T| ∧ -(Real.cos T / Real.sin T) ≠ 0 := by
  obtain ⟨hs, hc, h3⟩ := h
  have hsp : 0 < |Real.sin T| := abs_pos.mpr hs
  have hcp : 0 < |Real.cos T| := abs_pos.mpr hc
  have hlow : (1 - η) * |Real.sin T| ≤ |R| * |Real.cos T| := by
    have := abs_sub_abs_le_abs_sub (Real.sin T) (R * Real.cos T)
    rw [abs_sub_comm, abs_mul] at this
    linarith
  have hR : R ≠ 0 := by
    intro h
    rw [h, abs_zero, zero_mul] at hlow
    have := mul_pos (show 0 < 1 - η by linarith) hsp
    linarith
  have hRp : 0 < |R| := abs_pos.mpr hR
  refine ⟨hR, ?_, neg_ne_zero.mpr (div_ne_zero hc hs)⟩
  rw [show -1 / R - -(Real.cos T / Real.sin T) = (R * Real.cos T - Real.sin T) / (R * Real.sin T) by field_simp; ring, abs_div, abs_div, abs_mul,
    div_mul_div_comm, div_le_div_iff₀ (by positivity) (mul_pos (by linarith) hsp)]
  calc _ ≤ η * |Real.sin T| * ((1 - η) * |Real.sin T|) := mul_le_mul_of_nonneg_right h3 (mul_nonneg (by linarith) hsp.le)
    _ ≤ η * |Real.sin T| * (|R| * |Real.cos T|) := mul_le_mul_of_nonneg_left hlow (by positivity)
    _ = _ := by ring

/-- a small change of the angle -/
theorem tan_shift (R T X : ℝ) : |R * Real.cos T - Real.sin T| ≤ |R * Real.cos X - Real.sin X| + |T - X| * (|R| * |Real.sin X| + |Real.cos X|) := by
  have e : R * Real.cos T - Real.sin T = Real.cos (T - X) * (R * Real.cos X - Real.sin X) - Real.sin (T - X) * (R * Real.sin X + Real.cos X) := by
    have h1 : T = (T - X) + X := by ring
    rw [h1, Real.cos_add, Real.sin_add, ← h1]
    ring
  rw [e]
  refine (abs_sub _ _).trans (add_le_add ?_ ?_)
  · rw [abs_mul]
    calc _ ≤ 1 * |R * Real.cos X - Real.sin X| := mul_le_mul_of_nonneg_right (Real.abs_cos_le_one _) (abs_nonneg _)
      _ = _ := one_mul _
  · rw [abs_mul]
    refine mul_le_mul Real.abs_sin_le_abs ?_ (abs_nonneg _) (abs_nonneg _)
    rw [← abs_mul]
    exact abs_add_le _ _

theorem cos_low {T : ℝ} (hT : |T| ≤ 0.786) : 0.69 ≤ Real.cos T := by
  refine le_trans ?_ (Real.one_sub_sq_div_two_le_cos (x := T))
  have : T ^ 2 ≤ 0.786 ^ 2 := by rw [← sq_abs]; exact pow_le_pow_left₀ (abs_nonneg _) hT 2
  norm_num at *
  linarith

theorem kTanD_near {N : FPU f64} {T : ℝ} {y : D} (h : Redf T y) : ∃ R, Fv (kTanD N y) R ∧ |R| ≤ 2 ∧ 2 ^ (-72 : ℤ) ≤ |R| ∧ TanNear T (0.43 / 2 ^ 24) R := by
  obtain ⟨X, hx, h0, h1, hT1, hT2⟩ := h
  obtain ⟨R, fR, hR, hRs⟩ := kTanD_spec (N := N) hx h0 h1
  have hX0 : 0 < |X| := lt_of_lt_of_le (by positivity) h0
  have hXX0 : 0 ≤ X * X := mul_self_nonneg X
  have hlow : 0.89 * |X| ≤ |Real.sin X| := by
    have := sin_low h1
    have h2 : 0.89 * |X| ≤ (1 - 0.168 * (X * X)) * |X| := mul_le_mul_of_nonneg_right (by
      have hm := mul_le_mul h1 h1 hX0.le (by norm_num)
      rw [← abs_mul_abs_self]; norm_num at hm ⊢; linarith) hX0.le
    linarith
  have hlow2 : |X| ≤ 1 / 2 ^ 10 → 0.99 * |X| ≤ |Real.sin X| := fun hc => by
    have := sin_low h1
    have h2 : 0.99 * |X| ≤ (1 - 0.168 * (X * X)) * |X| := mul_le_mul_of_nonneg_right (by
      have hm := mul_le_mul hc hc hX0.le (by norm_num)
      rw [← abs_mul_abs_self]; norm_num at hm ⊢; linarith) hX0.le
    linarith
  have hup : |Real.sin X| ≤ |X| := Real.abs_sin_le_abs
  have hc1 := Real.abs_cos_le_one X
  have hTX : |T| ≤ 0.786 := by
    have a1 := abs_add_le (T - X) X
    rw [sub_add_cancel] at a1
    norm_num at *
    linarith
  have hcT := cos_low hTX
  have hcX : 0.69 ≤ |Real.cos X| := (cos_low (T := X) (by norm_num at *; linarith)).trans (le_abs_self _)
  have hd := Real.abs_sin_sub_sin_le T X
  have hsT : |Real.sin X| - |T - X| ≤ |Real.sin T| := by
    have := abs_sub_abs_le_abs_sub (Real.sin X) (Real.sin T)
    rw [abs_sub_comm] at this
    linarith
  have hsh := tan_shift R T X
  have hRc : |R| * |Real.cos X| ≤ |R * Real.cos X - Real.sin X| + |Real.sin X| := by
    have := abs_add_le (R * Real.cos X - Real.sin X) (Real.sin X)
    rwa [sub_add_cancel, abs_mul] at this
  have hRc' : |Real.sin X| ≤ |R * Real.cos X - Real.sin X| + |R| * |Real.cos X| := by
    have := abs_sub (R * Real.cos X) (R * Real.cos X - Real.sin X)
    rw [sub_sub_cancel, abs_mul] at this
    linarith
  have hR69 : 0.69 * |R| ≤ |R| * |Real.cos X| := by rw [mul_comm]; exact mul_le_mul_of_nonneg_left hcX (abs_nonneg _)
  have hR1 : |R| * |Real.cos X| ≤ |R| := by
    calc _ ≤ |R| * 1 := mul_le_mul_of_nonneg_left hc1 (abs_nonneg _)
      _ = _ := mul_one _
  have hRu : |R| ≤ 1.5 * |X| := by norm_num at *; linarith
  have hRl : 0.8 * |X| ≤ |R| := by norm_num at *; linarith
  refine ⟨R, fR, by norm_num at *; linarith, by norm_num at *; linarith, ?_, by linarith, ?_⟩
  · intro h
    rw [h, abs_zero] at hsT
    norm_num at *; linarith
  · have hf : |R| * |Real.sin X| ≤ 1.5 * (|X| * |X|) := by
      calc _ ≤ 1.5 * |X| * |X| := mul_le_mul hRu hup (abs_nonneg _) (by positivity)
        _ = _ := by ring
    rcases le_or_gt |X| (1 / 2 ^ 10) with hc | hc
    · have hl2 := hlow2 hc
      have hxx : |X| * |X| ≤ 1 / 2 ^ 20 := by
        calc |X| * |X| ≤ 1 / 2 ^ 10 * (1 / 2 ^ 10) := mul_le_mul hc hc hX0.le (by norm_num)
          _ = _ := by norm_num
      have hRs' := hRs hc
      have hm : |T - X| * (|R| * |Real.sin X| + |Real.cos X|) ≤ |T - X| * 1.00001 := mul_le_mul_of_nonneg_left (by norm_num at *; linarith) (abs_nonneg _)
      norm_num at *
      linarith
    · have hxx : |X| * |X| ≤ 0.617 := by
        calc |X| * |X| ≤ 0.78541 * 0.78541 := mul_le_mul h1 h1 hX0.le (by norm_num)
          _ ≤ _ := by norm_num
      have hm : |T - X| * (|R| * |Real.sin X| + |Real.cos X|) ≤ |T - X| * 2 := mul_le_mul_of_nonneg_left (by norm_num at *; linarith) (abs_nonneg _)
      norm_num at *
      linarith

theorem fv_cmone : Fv cmone (-1) := by
  have := fv_const (b := cmone) (q := -1) (by decide +kernel) (by decide +kernel); push_cast at this; exact this

theorem kTanf_even {N : FPU f64} {T : ℝ} {y : D} (h : Redf T y) : Ok (kTanf N y false) (f32.FaithfulTo (Real.tan T)) := by
  obtain ⟨R, fR, hR2, -, hn⟩ := kTanD_near (N := N) h
  refine (trunc_near fR (hR2.trans (by norm_num))).mono fun r hr => ?_
  refine hr.faithful_rel f32 hn.tan.2 (by rw [s32]; norm_num) (hn.tan.1.trans (mul_le_mul_of_nonneg_right ?_ (abs_nonneg _)))
  rw [s32]; norm_num

theorem kTanf_odd {N : FPU f64} {T : ℝ} {y : D} (h : Redf T y) : Ok (kTanf N y true) (f32.FaithfulTo (-(Real.cos T / Real.sin T))) := by
  obtain ⟨R, fR, hR2, hR0, hn⟩ := kTanD_near (N := N) h
  obtain ⟨hRne, hc, hne⟩ := hn.cot (by norm_num) (by norm_num)
  have hdR := Fmt.divR N fv_cmone.fin fR.fin (by rw [fR.val]; exact hRne)
  rw [fv_cmone.val, fR.val] at hdR
  have hRp : 0 < |R| := abs_pos.mpr hRne
  have hv : |-1 / R| ≤ 2 ^ (72 : ℤ) := by
    rw [abs_div, abs_neg, abs_one, div_le_iff₀ hRp]
    calc (1 : ℝ) = 2 ^ (72 : ℤ) * 2 ^ (-72 : ℤ) := by norm_num
      _ ≤ _ := mul_le_mul_of_nonneg_left hR0 (by positivity)
  have hv1 : 0.5 ≤ |-1 / R| := by
    rw [abs_div, abs_neg, abs_one, le_div_iff₀ hRp]
    norm_num at *; linarith
  have hf := hdR.fin100 big64 (hv.trans (by norm_num))
  have he := hdR.rel_abs big64 (hv.trans (by norm_num))
  have fQ : Fv (N.div cmone (kTanD N y)) (V (N.div cmone (kTanD N y))) := ⟨hf, rfl⟩
  generalize V (N.div cmone (kTanD N y)) = Q at he fQ
  generalize -1 / R = W at *
  generalize Real.cos T / Real.sin T = s at *
  rw [s64] at he
  have t1 := abs_add_le (Q - W) W
  rw [sub_add_cancel] at t1
  refine (trunc_near fQ (by norm_num at *; linarith)).mono fun r hr => ?_
  refine hr.faithful_rel f32 hne (by rw [s32]; norm_num) ?_
  have t2 := abs_add_le (Q - W) (W - -s)
  rw [sub_add_sub_cancel] at t2
  have t3 := abs_add_le (W - -s) (-s)
  rw [sub_add_cancel, abs_neg] at t3
  rw [s32, abs_neg]
  norm_num at *
  linarith

/-- the angles -/
theorem tan_shift_odd (X : ℝ) : Real.tan X = -(Real.cos (X - (1 : ℕ) * (Real.pi / 2)) / Real.sin (X - (1 : ℕ) * (Real.pi / 2))) ∧
    Real.tan X = -(Real.cos (X + (1 : ℕ) * (Real.pi / 2)) / Real.sin (X + (1 : ℕ) * (Real.pi / 2))) := by
  obtain ⟨a, b, c, d⟩ := ang1 X
  constructor
  · rw [Real.tan_eq_sin_div_cos, d, c, div_neg]
  · rw [Real.tan_eq_sin_div_cos, b, a, neg_div]

theorem tan_even (X : ℝ) (j : ℤ) : Real.tan X = Real.tan (X - (2 * j : ℤ) * (Real.pi / 2)) := by
  rw [show ((2 * j : ℤ) : ℝ) * (Real.pi / 2) = j * Real.pi by push_cast; ring, Real.tan_sub_int_mul_pi]

theorem tan_odd (X : ℝ) (j : ℤ) : Real.tan X = -(Real.cos (X - (2 * j + 1 : ℤ) * (Real.pi / 2)) / Real.sin (X - (2 * j + 1 : ℤ) * (Real.pi / 2))) := by
  rw [tan_even X j, (tan_shift_odd _).1]
  rw [show X - ((2 * j + 1 : ℤ) : ℝ) * (Real.pi / 2) = X - ((2 * j : ℤ) : ℝ) * (Real.pi / 2) - (1 : ℕ) * (Real.pi / 2) by push_cast; ring]

theorem low1_eq (n : Int) : low1 n = decide (n % 2 = 1) := by
  unfold low1
  rw [BitVec.toNat_and, show (1#32).toNat = 2 ^ 1 - 1 from rfl, Nat.and_two_pow_sub_one_eq_mod, BitVec.toNat_ofInt]
  have h : (n % ((2 ^ 32 : ℕ) : ℤ)).toNat % 2 ^ 1 = (n % 2).toNat := by push_cast; omega
  rw [h, Bool.eq_iff_iff, bne_iff_ne, decide_eq_true_iff]
  omega

theorem kTanf_any {N : FPU f64} {X : ℝ} {y : D} {k : ℤ} (h : Redf (X - k * (Real.pi / 2)) y) : Ok (kTanf N y (decide (k % 2 = 1))) (f32.FaithfulTo (Real.tan X)) := by
  rcases Int.emod_two_eq_zero_or_one k with hk | hk
  · rw [hk]
    obtain ⟨j, rfl⟩ : ∃ j, k = 2 * j := ⟨k / 2, by omega⟩
    exact (kTanf_even h).faith (tan_even X j)
  · rw [hk]
    obtain ⟨j, rfl⟩ : ∃ j, k = 2 * j + 1 := ⟨k / 2, by omega⟩
    exact (kTanf_odd h).faith (tan_odd X j)

theorem lt_tan_pos {x : ℝ} (h0 : 0 < x) (h1 : x ≤ 1 / 2 ^ 5) : x ≤ Real.tan x ∧ Real.tan x - x ≤ 0.4 * x ^ 3 := by
  refine ⟨(Real.lt_tan h0 (by have := pi_gt20; linarith)).le, ?_⟩
  have hc : 0 < Real.cos x := Real.cos_pos_of_mem_Ioo ⟨by have := pi_gt20; linarith, by have := pi_gt20; linarith⟩
  rw [Real.tan_eq_sin_div_cos, sub_le_iff_le_add, div_le_iff₀ hc]
  have h2 := Real.one_sub_sq_div_two_le_cos (x := x)
  have hX1 : |x| ≤ 1 := by rw [abs_of_pos h0]; linarith
  have h3 := (abs_le.mp (Real.sin_bound hX1)).2
  rw [abs_of_pos h0] at h3
  have hp : 0 ≤ 0.4 * x ^ 3 + x := by positivity
  refine le_trans ?_ (mul_le_mul_of_nonneg_left h2 hp)
  have hx2 : x ^ 2 ≤ 1 / 2 ^ 10 := by
    have := pow_le_pow_left₀ h0.le h1 2
    norm_num at this ⊢; linarith
  have hx3 : 0 < x ^ 3 := by positivity
  have e4 : x ^ 4 = x ^ 3 * x := by ring
  have m1 : x ^ 3 * x ≤ x ^ 3 * (1 / 2 ^ 5) := mul_le_mul_of_nonneg_left h1 hx3.le
  have m2 : x ^ 3 * x ^ 2 ≤ x ^ 3 * (1 / 2 ^ 10) := mul_le_mul_of_nonneg_left hx2 hx3.le
  rw [show (0.4 * x ^ 3 + x) * (1 - x ^ 2 / 2) = x + 0.4 * x ^ 3 - x ^ 3 / 2 - 0.2 * (x ^ 3 * x ^ 2) by ring]
  norm_num at *
  linarith

/-- small arguments -/
theorem _root_.Verif.Fmt.faithful_tan (F : Fmt) {x : BitVec F.w} (hx : F.IsFin x) (hb : |F.valK ℝ x| ≤ 1 / 2 ^ 5) (hs : 0.4 * (F.valK ℝ x) ^ 2 < 1 / 2 ^ (F.s + 1)) :
    F.FaithfulTo (Real.tan (F.valK ℝ x)) x := by
  have key : ∀ x : BitVec F.w, F.IsFin x → |F.valK ℝ x| ≤ 1 / 2 ^ 5 → 0.4 * (F.valK ℝ x) ^ 2 < 1 / 2 ^ (F.s + 1) → 0 < F.valK ℝ x →
      F.FaithfulTo (Real.tan (F.valK ℝ x)) x := by
    intro x hx hb hs h0
    rw [abs_of_pos h0] at hb
    obtain ⟨h1, h2⟩ := lt_tan_pos h0 hb
    refine ⟨hx, fun c hc => ⟨fun ⟨h3, h4⟩ => ?_, fun ⟨h3, h4⟩ => by linarith⟩⟩
    have hg := F.gap_rel (by linarith) h3
    have h5 := mul_lt_mul_of_pos_left hs h0
    have h6 : F.valK ℝ x * (1 / 2 ^ (F.s + 1)) ≤ F.valK ℝ c / 2 ^ (F.s + 1) := by
      rw [mul_one_div]; exact div_le_div_of_nonneg_right h3.le (by positivity)
    nlinarith
  rcases lt_trichotomy (F.valK ℝ x) 0 with h | h | h
  · have hv := F.valK_neg x
    have h1 := (key (F.neg x) (F.isFin_neg.mpr hx) (by rwa [hv, abs_neg]) (by rw [hv, neg_sq]; exact hs) (by rw [hv]; linarith)).neg F
    rw [hv, Real.tan_neg, _root_.neg_neg] at h1
    exact h1.congr F hx (F.neg_neg' x)
  · rw [h, Real.tan_zero, ← h]; exact F.faithful_self hx
  · exact key x hx hb hs h

theorem tanf_tiny {x : BitVec f32.w} (hx : f32.IsFin x) (h : f32.mag x < 0x39800000) : f32.FaithfulTo (Real.tan (Vf x)) x := by
  have a := mag_le (x := x) (c := 0x39800000) (q := 1 / 2 ^ 12) (by decide +kernel) h.le
  push_cast at a
  have hf := f32.faithful_tan hx (by rw [vf_val]; norm_num at *; linarith) (by
    rw [vf_val, s32, ← sq_abs]
    have : |Vf x| ^ 2 ≤ (1 / 2 ^ 12) ^ 2 := pow_le_pow_left₀ (abs_nonneg _) a 2
    norm_num at *
    linarith)
  rwa [vf_val] at hf

theorem kTanf_k {N : FPU f64} {x : BitVec f32.w} {x64 P : D} {k : ℕ} {c : ℝ} (b : Bool) (hb : b = decide ((k : ℤ) % 2 = 1)) (hx : Fv x64 (Vf x)) (hP : Fv P c)
    (h : NearK k c |Vf x|) : Ok (kTanf N (if f32.sign x then N.add x64 P else N.sub x64 P) b) (f32.FaithfulTo (Real.tan (Vf x))) := by
  rw [hb]
  by_cases hs : f32.sign x = true
  · rw [if_pos hs]
    have := red_neg (N := N) hx hP ((vf_sign x).1 hs) h
    have h2 := kTanf_any (N := N) (X := Vf x) (k := -(k : ℤ)) (y := N.add x64 P) (by push_cast; rwa [neg_mul, sub_neg_eq_add])
    rwa [show decide (-(k : ℤ) % 2 = 1) = decide ((k : ℤ) % 2 = 1) by rw [decide_eq_decide]; omega] at h2
  · rw [if_neg hs]
    exact kTanf_any (N := N) (X := Vf x) (k := k) (by push_cast; exact red_pos hx hP ((vf_sign x).2 (by simpa using hs)) h)

theorem tanf_spec (N : FPU f64) (p64 : Bool) (N32 : FPU f32) {x : BitVec f32.w} (hx : f32.IsFin x) :
    Ok (tanf N p64 N32 x) (f32.FaithfulTo (Real.tan (Vf x))) := by
  obtain ⟨x64, he, fx⟩ := ext_fv hx
  unfold tanf
  rw [he, ok_bind]
  simp only [bits32, sign32]
  by_cases h1 : f32.mag x ≤ 0x3f490fda
  · rw [if_pos h1]
    by_cases h2 : f32.mag x < 0x39800000
    · rw [if_pos h2]; exact ⟨x, rfl, tanf_tiny hx h2⟩
    · rw [if_neg h2]; exact kTanf_even (redf_direct fx (by omega) h1)
  rw [if_neg h1]
  by_cases h2 : f32.mag x ≤ 0x407b53d1
  · rw [if_pos h2]
    by_cases h3 : f32.mag x ≤ 0x4016cbe3
    · rw [if_pos h3]; exact kTanf_k true (by decide) fx fv_P1o2 (nearK1 (by omega) h3)
    · rw [if_neg h3]; exact kTanf_k false (by decide) fx fv_P2o2 (nearK2 (by omega) h2)
  rw [if_neg h2]
  by_cases h3 : f32.mag x ≤ 0x40e231d5
  · rw [if_pos h3]
    by_cases h4 : f32.mag x ≤ 0x40afeddf
    · rw [if_pos h4]; exact kTanf_k true (by decide) fx fv_P3o2 (nearK3 (by omega) h4)
    · rw [if_neg h4]; exact kTanf_k false (by decide) fx fv_P4o2 (nearK4 (by omega) h3)
  rw [if_neg h3, if_neg (by have : f32.mag x < 0x7f800000 := hx; omega)]
  obtain ⟨n, y, h4, k, h5, h6⟩ := redf_large (N := N) (p64 := p64) hx (by omega)
  rw [h4, ok_bind]
  simp only
  rw [low1_eq, show decide (n % 2 = 1) = decide (k % 2 = 1) by rw [decide_eq_decide]; rw [low2_eq] at h5; omega]
  exact kTanf_any h6

end Trig
end Verif
