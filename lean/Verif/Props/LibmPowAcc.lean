import Mathlib.Analysis.Complex.ExponentialBounds
import Verif.Libm.PowCoreD
import Verif.Props.LibmPow
/-! # Property C103: the accuracy of `pow` -/
namespace Verif.Props
open Fmt Power

/-- Specification of an accurate power: with `P = Y log2 X` the binary exponent of the exact `X^Y`, the result `r` is a finite
number without sign bit within `(9 + 13 |P|) 2^-53` relative plus `2^-1074` absolute of `X^Y` when `P` is below 1024 by `2^-30`,
and it is `+∞` when `P` is above 1024 by `2^-30`. -/
def PowSpec (X Y : ℝ) (r : BitVec f64.w) : Prop :=
  (Y * Real.logb 2 X ≤ 1024 - 1 / 2 ^ 30 → f64.IsFin r ∧ f64.sign r = false ∧
    |f64.valK ℝ r - X ^ Y| ≤ (9 + 13 * |Y * Real.logb 2 X|) / 2 ^ 53 * X ^ Y + 2 ^ (-1074 : ℤ)) ∧
  (1024 + 1 / 2 ^ 30 ≤ Y * Real.logb 2 X → f64.IsInf r ∧ f64.sign r = false)

theorem rpow_exp {X : ℝ} (Y : ℝ) (hX : 0 < X) : X ^ Y = Real.exp (Y * Real.logb 2 X * Real.log 2) := by
  have h2 : Real.log 2 ≠ 0 := (Real.log_pos (by norm_num)).ne'
  rw [Real.rpow_def_of_pos hX, Real.logb]
  congr 1
  field_simp

/-- a correctly rounded power is accurate -/
theorem powSpec_of_rounds {X Y : ℝ} (hX : 0 < X) {r : BitVec f64.w} (h : f64.Rounds (X ^ Y) r) : PowSpec X Y r := by
  obtain ⟨P, hP⟩ : ∃ P, P = Y * Real.logb 2 X := ⟨_, rfl⟩
  obtain ⟨V, hV⟩ : ∃ V, V = X ^ Y := ⟨_, rfl⟩
  have hVe : V = Real.exp (P * Real.log 2) := by rw [hV, hP]; exact rpow_exp Y hX
  have hV0 : 0 < V := by rw [hVe]; exact Real.exp_pos _
  have l2 := Real.log_two_gt_d9
  unfold PowSpec
  rw [← hV] at h
  rw [← hP, ← hV]
  have hs : f64.sign r = false := by
    have := h.2 hV0.ne'
    cases hh : f64.sign r
    · rfl
    · exact absurd (this.mp hh) (not_lt.mpr hV0.le)
  have hm := f64.absvR r
  refine ⟨fun hp => ?_, fun hp => ?_⟩
  · have hVm : V ≤ 2 ^ (1024 : ℤ) * (1 - 1 / 2 ^ 32) := by
      have h1 : P * Real.log 2 ≤ ((1024 : ℤ) : ℝ) * Real.log 2 + (-(1 / 2 ^ 30 * Real.log 2)) := by
        push_cast; nlinarith
      have h2 := Real.exp_le_exp.mpr h1
      rw [Real.exp_add, Power.Dbl.exp_two, ← hVe] at h2
      refine h2.trans (mul_le_mul_of_nonneg_left ?_ (by positivity))
      have h3 := Real.add_one_le_exp (1 / 2 ^ 30 * Real.log 2)
      rw [Real.exp_neg]
      have h4 : (1 : ℝ) + 1 / 2 ^ 31 ≤ Real.exp (1 / 2 ^ 30 * Real.log 2) := by refine le_trans ?_ h3; norm_num; linarith
      refine (inv_anti₀ (by norm_num) h4).trans ?_
      norm_num
    have hp1024 : (0 : ℝ) < 2 ^ (1024 : ℤ) := by positivity
    obtain ⟨T, hT⟩ : ∃ T : ℝ, T = 2 ^ (1024 : ℤ) := ⟨_, rfl⟩
    rw [← hT] at hVm hp1024
    have hV1 : V ≤ 2 ^ (1024 : ℤ) := by
      rw [← hT]
      refine hVm.trans ((mul_le_mul_of_nonneg_left (by norm_num : (1 : ℝ) - 1 / 2 ^ 32 ≤ 1) hp1024.le).trans (mul_one T).le)
    have he := h.err f64 (k := 1024) (by rw [abs_of_pos hV0]; exact hV1) (by decide) (by decide)
    have hfin : f64.IsFin r := by
      unfold IsFin
      rw [← f64.magValR_lt_iff, f64.magValR_infRep, ← hm, show ((f64.bias : ℕ) : ℤ) + 1 = 1024 from rfl]
      rw [show (1024 : ℤ) - f64.s - 2 = 1024 + (-54) from rfl, zpow_add₀ (by norm_num), ← hT] at he
      rw [← hT]
      have h5 := abs_add_le (f64.valK ℝ r - V) V
      rw [sub_add_cancel, abs_of_pos hV0] at h5
      have h6 : T * (2 : ℝ) ^ (-54 : ℤ) ≤ T * (1 / 2 ^ 40) := mul_le_mul_of_nonneg_left (by norm_num) hp1024.le
      refine (h5.trans (add_le_add (he.trans h6) hVm)).trans_lt ?_
      rw [← mul_add]
      exact (mul_lt_mul_of_pos_left (by norm_num : (1 : ℝ) / 2 ^ 40 + (1 - 1 / 2 ^ 32) < 1) hp1024).trans_eq (mul_one T)
    refine ⟨hfin, hs, ?_⟩
    have ha : 0 ≤ |P| := abs_nonneg P
    by_cases hlo : V ≤ 2 ^ (-1021 : ℤ)
    · have he := h.err f64 (k := -1021) (by rw [abs_of_pos hV0]; exact hlo) (by decide) (by decide)
      refine he.trans ((zpow_le_zpow_right₀ (by norm_num) (by decide)).trans (le_add_of_nonneg_left (by positivity)))
    · rw [not_le] at hlo
      obtain ⟨k, k1, k2⟩ := exists_mem_Ioc_zpow hV0 (by norm_num : (1 : ℝ) < 2)
      have k3 : -1021 < k + 1 := (zpow_lt_zpow_iff_right₀ (by norm_num : (1 : ℝ) < 2)).mp (hlo.trans_le k2)
      have k4 : k < 1024 := (zpow_lt_zpow_iff_right₀ (by norm_num : (1 : ℝ) < 2)).mp (k1.trans_le hV1)
      have he := h.err f64 (k := k + 1) (by rw [abs_of_pos hV0]; exact k2) (by rw [show ((f64.bias : ℕ) : ℤ) = 1023 from rfl]; omega)
        (by rw [show ((f64.bias : ℕ) : ℤ) = 1023 from rfl]; omega)
      rw [show k + 1 - (f64.s : ℕ) - 2 = k + (-53) by rw [show f64.s = 52 from rfl]; push_cast; ring, zpow_add₀ (by norm_num)] at he
      refine he.trans (le_trans ?_ (le_add_of_nonneg_right (by positivity)))
      have h7 : (2 : ℝ) ^ k * 2 ^ (-53 : ℤ) ≤ V * 2 ^ (-53 : ℤ) := mul_le_mul_of_nonneg_right k1.le (by positivity)
      have h8 : (2 : ℝ) ^ (-53 : ℤ) = 1 / 2 ^ 53 := by norm_num
      rw [h8] at h7 ⊢
      refine h7.trans ?_
      rw [mul_comm]
      refine mul_le_mul_of_nonneg_right ?_ hV0.le
      rw [div_le_div_iff_of_pos_right (by norm_num)]
      linarith
  · refine ⟨?_, hs⟩
    have hge : (2 : ℝ) ^ (1024 : ℤ) ≤ V := by
      rw [hVe, ← Power.Dbl.exp_two]
      apply Real.exp_le_exp.mpr
      refine mul_le_mul_of_nonneg_right ?_ (by linarith)
      push_cast
      refine le_trans ?_ hp
      norm_num
    have h1 := h.ge_of f64 (f64.rp_pow (j := 1024) (by decide)) (by rw [abs_of_pos (by positivity)]; exact le_rfl) hge
    have h2 : f64.magVal ℝ f64.infRep ≤ f64.magVal ℝ (f64.mag r) := by
      rw [f64.magValR_infRep, ← hm]
      exact h1.trans (le_abs_self _)
    rw [f64.magValR_le_iff] at h2
    exact le_antisymm h.1.1 h2

/-- C103: for every finite `x > 0` and every finite `y`, `pow(x, y)` returns (it does not panic) a result meeting `PowSpec`. -/
theorem C103_pow_accuracy (N : FPU f64) {x y : BitVec f64.w} (hx : f64.IsFin x) (hx0 : 0 < f64.val x) (hy : f64.IsFin y) :
    ∃ r, Power.pow N x y = .ok r ∧ PowSpec (f64.val x) (f64.val y) r := by
  have hX : (0 : ℝ) < (f64.val x : ℝ) := by exact_mod_cast hx0
  have gx : GFv f64 x (f64.val x : ℝ) := ⟨hx, by rw [f64.valK_cast]⟩
  have gy : GFv f64 y (f64.val y : ℝ) := ⟨hy, by rw [f64.valK_cast]⟩
  have hs := gx.sign_of_pos hX
  have h1v : (f64.val KD.one : ℝ) = 1 := by
    have : f64.val KD.one = 1 := by rw [f64.val_sign, kd_ok.o1, kd_ok.o2, Power.magVal_one]; norm_num
    rw [this]; norm_num
  have h1r : f64.Rounds (1 : ℝ) KD.one := by
    have := f64.rounds_self (K := ℝ) (b := KD.one) (by decide +kernel)
    rwa [← f64.valK_cast, h1v] at this
  have hyn : ¬ f64.IsNaN y := by unfold IsFin at hy; unfold IsNaN; omega
  have hxn : ¬ f64.IsNaN x := by unfold IsFin at hx; unfold IsNaN; omega
  have simple := C101_pow_simple N (x := x) hy
  by_cases y0 : f64.mag y = 0
  · refine ⟨KD.one, by rw [Power.pow_eq]; exact gen_y0 N kd_ok y0, powSpec_of_rounds hX ?_⟩
    rw [val_zero_iff.mpr y0, Rat.cast_zero, Real.rpow_zero]; exact h1r
  by_cases x1 : f64.mag x = f64.bias * 2 ^ f64.s
  · refine ⟨KD.one, by rw [Power.pow_eq]; exact gen_x1 N kd_ok hs x1, powSpec_of_rounds hX ?_⟩
    have : f64.val x = 1 := by rw [f64.val_sign, hs, x1, Power.magVal_one]; norm_num
    rw [this, Rat.cast_one, Real.one_rpow]; exact h1r
  by_cases c1 : f64.val y = 1
  · refine ⟨x, simple.1 c1 hxn, powSpec_of_rounds hX ?_⟩
    rw [c1, Rat.cast_one, Real.rpow_one, f64.valK_cast]
    exact f64.rounds_self (le_of_lt hx)
  by_cases c2 : f64.val y = -1
  · obtain ⟨r, e, h, -⟩ := simple.2.1 c2 hx hx0.ne'
    refine ⟨r, e, powSpec_of_rounds hX ?_⟩
    have h := h.cast f64
    rw [c2, Rat.cast_neg, Rat.cast_one, Real.rpow_neg_one]
    rwa [Rat.cast_div, Rat.cast_one, one_div] at h
  by_cases c3 : f64.val y = 2
  · obtain ⟨r, e, h, -⟩ := simple.2.2.1 c3 hx
    refine ⟨r, e, powSpec_of_rounds hX ?_⟩
    have h := h.cast f64
    rw [c3, Rat.cast_ofNat, Real.rpow_two]
    rwa [Rat.cast_pow] at h
  by_cases c4 : f64.val y = 1 / 2
  · obtain ⟨r, e, h, hsr⟩ := simple.2.2.2 c4 hx hs
    refine ⟨r, e, powSpec_of_rounds hX ?_⟩
    rw [c4, show (((1 / 2 : ℚ) : ℚ) : ℝ) = 1 / 2 by norm_num, ← Real.sqrt_eq_rpow]
    exact ⟨by rw [abs_of_nonneg (Real.sqrt_nonneg _)]; exact h, fun _ => by rw [hsr]; simp [Real.sqrt_nonneg]⟩
  have hx1 : f64.val x ≠ 1 := fun h => x1 (of_val magVal_one (by rw [h]; norm_num))
  have hfab : f64.fabs x = x := by
    have := f64.fabs_facts x
    exact f64.ext_sign_mag (by rw [this.1, hs]) this.2
  obtain ⟨r, e, g1, g2⟩ := Power.Dbl.coreD_spec N gx hX (by exact_mod_cast hx1) gy (by
    have : f64.val y ≠ 0 := fun h => y0 (val_zero_iff.mp h)
    exact_mod_cast this)
  refine ⟨r, ?_, ?_⟩
  · rw [Power.pow_eq]
    obtain ⟨k, -, hk, e'⟩ := gen_rest N kd_ok (sq := Asin.sqrtD N x)
      (core := fun s => Power.coreD N s (f64.fabs x) y (f64.mag x / 2 ^ 32) (y.toNat >>> 32) (f64.mag y / 2 ^ 32))
      (yisint_spec y0) hxn hyn y0 (x := x) (fun h => x1 h.2)
    rw [e']
    unfold rest
    have v := f64.val_sign y
    have n1 : ¬ f64.mag y = f64.bias * 2 ^ f64.s := fun h => by
      rw [h, Power.magVal_one] at v
      cases hh : f64.sign y <;> rw [hh] at v <;> simp at v
      · exact c1 v
      · exact c2 v
    have n2 : ¬ (f64.sign y = false ∧ f64.mag y = (f64.bias + 1) * 2 ^ f64.s) := fun h => by
      rw [h.2, Power.magVal_two, h.1] at v
      exact c3 (by rw [v]; norm_num)
    have n3 : ¬ (f64.sign y = false ∧ f64.mag y = (f64.bias - 1) * 2 ^ f64.s ∧ f64.sign x = false) := fun h => by
      rw [h.2.1, Power.magVal_half, h.1] at v
      exact c4 (by rw [v]; norm_num)
    have n4 : ¬ (f64.mag x = f64.infRep ∨ f64.mag x = 0 ∨ f64.mag x = f64.bias * 2 ^ f64.s) := by
      rintro (h | h | h)
      · exact absurd h (ne_of_lt hx)
      · exact hx0.ne' (val_zero_iff.mpr h)
      · exact x1 h
    rw [if_neg (ne_of_lt hy), if_neg n1, if_neg n2, if_neg n3, if_neg n4, if_neg (by rw [hs]; simp), if_neg (by rw [hs]; simp), hfab]
    exact e
  · refine ⟨fun h => ?_, g2⟩
    obtain ⟨f, s, b⟩ := g1 h
    refine ⟨f, s, ?_⟩
    rw [rpow_exp _ hX, div_eq_mul_one_div]
    exact b

/-- C103, negative base: for a finite `x < 0` and a nonzero integer `y` the result is that of `|x|`, accurate as above, negated exactly if `y` is odd. -/
theorem C103_pow_accuracy_neg (N : FPU f64) {x y : BitVec f64.w} (hx : f64.IsFin x) (hx0 : f64.val x < 0) (hy : f64.IsFin y) (h0 : ¬ f64.IsZero y) (h : IsInteger f64 y) :
    ∃ r r', Power.pow N x y = .ok r ∧ PowSpec (-(f64.val x : ℝ)) (f64.val y) r' ∧
      (f64.val y * Real.logb 2 (-(f64.val x : ℝ)) ≤ 1024 - 1 / 2 ^ 30 ∨ 1024 + 1 / 2 ^ 30 ≤ f64.val y * Real.logb 2 (-(f64.val x : ℝ)) →
        (OddInt f64 y → r = f64.neg r') ∧ (¬ OddInt f64 y → r = r')) := by
  have hv : (f64.val (f64.neg x) : ℝ) = -(f64.val x : ℝ) := by rw [f64.valK_cast, f64.valK_neg, f64.valK_cast]
  have hp : 0 < f64.val (f64.neg x) := by
    have : (0 : ℝ) < (f64.val (f64.neg x) : ℝ) := by
      rw [hv, ← Rat.cast_neg]; exact_mod_cast neg_pos.mpr hx0
    exact_mod_cast this
  obtain ⟨r', e, hs⟩ := C103_pow_accuracy N (x := f64.neg x) (by unfold IsFin; rw [f64.mag_neg]; exact hx) hp hy
  obtain ⟨r, e', -, hr⟩ := C101_pow_neg N hx hx0 hy h0 h e
  rw [hv] at hs
  refine ⟨r, r', e', hs, fun hP => hr ?_⟩
  have : f64.IsFin r' ∨ f64.IsInf r' := hP.imp (fun h => (hs.1 h).1) (fun h => (hs.2 h).1)
  unfold IsFin IsInf at this; unfold IsNaN; omega

/-! Concrete values: 10^0.3, 3^5 = 243, 3^-672 (subnormal), 10^308.25, 10^309 = ∞, (-3)^5 = -243. -/
example : Power.pow FPU.softF64 0x4024000000000000#64 0x3fd3333333333333#64 = .ok 0x3fffec982d5bb8af#64 ∧
    Power.pow FPU.softF64 0x4008000000000000#64 0x4014000000000000#64 = .ok 0x406e600000000000#64 ∧
    Power.pow FPU.softF64 0x4008000000000000#64 0xc085000000000000#64 = .ok 0x00000000000001df#64 ∧
    Power.pow FPU.softF64 0x4024000000000000#64 0x4073440000000000#64 = .ok 0x7fefa788589d81d3#64 ∧
    Power.pow FPU.softF64 0x4024000000000000#64 0x4073500000000000#64 = .ok 0x7ff0000000000000#64 ∧
    Power.pow FPU.softF64 0xc008000000000000#64 0x4014000000000000#64 = .ok 0xc06e600000000000#64 := by decide +kernel
/-- The hypotheses are met: 10 is finite and positive, 0.3 finite, -3 finite and negative, 5 a nonzero integer. -/
example : f64.IsFin 0x4024000000000000#64 ∧ 0 < f64.val 0x4024000000000000#64 ∧ f64.IsFin 0x3fd3333333333333#64 ∧
    f64.IsFin 0xc008000000000000#64 ∧ f64.val 0xc008000000000000#64 < 0 ∧ ¬ f64.IsZero 0x4014000000000000#64 ∧ IsInteger f64 0x4014000000000000#64 := by
  refine ⟨by unfold Fmt.IsFin; decide +kernel, by decide +kernel, by unfold Fmt.IsFin; decide +kernel, by unfold Fmt.IsFin; decide +kernel, by decide +kernel,
    by unfold Fmt.IsZero; decide +kernel, ⟨5, by decide +kernel⟩⟩
/-- Both sides of the range occur: `10^0` has exponent 0, `2^2000` the exponent 2000. -/
example : (0 : ℝ) * Real.logb 2 10 ≤ 1024 - 1 / 2 ^ 30 ∧ (1024 : ℝ) + 1 / 2 ^ 30 ≤ 2000 * Real.logb 2 2 := by
  rw [Real.logb_self_eq_one (by norm_num)]; norm_num

end Verif.Props
