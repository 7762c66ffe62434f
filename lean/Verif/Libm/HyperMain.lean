import Verif.Libm.HyperTail
import Verif.Libm.Expm1Main
import Verif.Libm.ExpMain
/-! # `cosh`, `sinh` and `tanh` -/
namespace Verif
open Fmt
namespace Hyper
open Pio2 Expm1
open Exp (exp_add_log)

/-- the largest argument for which `cosh` and `sinh` are finite -/
def LIM : D := 0x408633ce8fb9f87d#f64.w
theorem lim_fv : GFv f64 LIM (f64.val LIM : ℚ) := GFv.const (by decide +kernel) rfl
theorem k_fv : GFv f64 KLN2 (f64.val KLN2 : ℚ) := GFv.const (by decide +kernel) rfl
theorem scale_fv : GFv f64 SCALE (2 ^ (1021 : ℤ)) := by
  have := GFv.const (F := f64) (b := SCALE) (q := 2 ^ (1021 : ℤ)) (by decide +kernel) (by decide +kernel)
  push_cast at this
  exact this

theorem abs_eq (x : D) : abs64 x = f64.fabs x := by
  have h : (abs64 x).toNat = f64.mag x := by
    unfold abs64
    rw [BitVec.toNat_ofNat, show (0x7fffffffffffffff : ℕ) = 2 ^ 63 - 1 from rfl, Nat.and_two_pow_sub_one_eq_mod]
    exact Nat.mod_eq_of_lt (lt_of_lt_of_le (Nat.mod_lt _ (by norm_num)) (by decide))
  apply BitVec.eq_of_toNat_eq
  obtain ⟨h1, h2⟩ := f64.fabs_facts x
  rw [f64.toNat_eq (f64.fabs x), h1, h2, h]; simp
theorem abs_nat (x : D) : (abs64 x).toNat = f64.mag x := by
  obtain ⟨h1, h2⟩ := f64.fabs_facts x
  rw [abs_eq, f64.toNat_eq (f64.fabs x), h1, h2]; simp
theorem abs_fv {x : D} {X : ℝ} (hx : GFv f64 x X) : GFv f64 (abs64 x) |X| := by rw [abs_eq]; exact hx.fabs
theorem abs_abs (x : D) : abs64 (abs64 x) = abs64 x := by
  apply f64.ext_sign_mag
  · rw [abs_eq, abs_eq, (f64.fabs_facts _).1, (f64.fabs_facts _).1]
  · rw [abs_eq, abs_eq, (f64.fabs_facts _).2]

theorem w_lt {x : D} {X : ℝ} (hx : GFv f64 x X) (c : ℕ) (q : ℚ) (hc : f64.magVal ℚ (c * 2 ^ 32) = q) : (abs64 x).toNat >>> 32 < c ↔ |X| < q := by
  rw [abs_nat, Nat.shiftRight_eq_div_pow]; exact hx.hi_lt hc

theorem w_big {x : D} (h : f64.infRep ≤ f64.mag x) : 0x7ff00000 ≤ (abs64 x).toNat >>> 32 := by
  have e : f64.infRep = 0x7ff0000000000000 := by decide
  rw [abs_nat, Nat.shiftRight_eq_div_pow]; omega

theorem k_mul : Mul2 (-43) ((f64.val KLN2 : ℚ) : ℝ) :=
  ⟨0x2c40cc2a35bb16, by
    rw [show f64.val KLN2 = 0x2c40cc2a35bb16 / 2 ^ 43 by decide +kernel, zpow_neg]; push_cast; norm_num⟩
theorem k_bd : (1416.099 : ℝ) ≤ (f64.val KLN2 : ℚ) ∧ ((f64.val KLN2 : ℚ) : ℝ) ≤ 1416.0997 := by
  have c : (1416099 / 1000 : ℚ) ≤ f64.val KLN2 ∧ f64.val KLN2 ≤ 14160997 / 10000 := by decide +kernel
  have c1 := Rat.cast_le (K := ℝ).mpr c.1
  have c2 := Rat.cast_le (K := ℝ).mpr c.2
  push_cast at c1 c2
  constructor
  · refine le_trans (by norm_num) c1
  · refine le_trans c2 (by norm_num)
theorem ln2_gap : ((Poly.ln2H : ℚ) : ℝ) - (Poly.ln2L : ℚ) ≤ 1 / 10 ^ 26 := by unfold Poly.ln2H Poly.ln2L; push_cast; norm_num
theorem k_near : |(2 * ((1021 : ℤ) : ℝ) + 1) * Real.log 2 - (f64.val KLN2 : ℚ)| ≤ 0.51 * (1 / 2 ^ (f64.s + 1)) := by
  have c : |2043 * Poly.ln2L - f64.val KLN2| ≤ 1 / 2 * (1 / 2 ^ 53) := by decide +kernel
  have c1 : ((|2043 * Poly.ln2L - f64.val KLN2| : ℚ) : ℝ) ≤ ((1 / 2 * (1 / 2 ^ 53) : ℚ) : ℝ) := Rat.cast_le.mpr c
  push_cast at c1
  have h2 := Poly.ln2_gt
  have h3 := Poly.ln2_lt
  have h4 := ln2_gap
  rw [s64]
  push_cast
  have e : (1 : ℝ) / 10 ^ 26 * 2043 ≤ 1 / 100 * (1 / 2 ^ 53) := by norm_num
  rw [abs_le] at c1 ⊢
  norm_num only [] at c1 e ⊢
  constructor <;> linarith [c1.1, c1.2]

theorem lim_bd : ((f64.val LIM : ℚ) : ℝ) ≤ 1025 * Real.log 2 - 600 / 2 ^ 53 ∧ 1025 * Real.log 2 + 300 / 2 ^ 53 ≤ ((f64.val LIM : ℚ) : ℝ) + 1 / 2 ^ 43 := by
  have c : f64.val LIM ≤ 1025 * Poly.ln2L - 600 / 2 ^ 53 ∧ 1025 * Poly.ln2H + 300 / 2 ^ 53 ≤ f64.val LIM + 1 / 2 ^ 43 := by decide +kernel
  have c1 := Rat.cast_le (K := ℝ).mpr c.1
  have c2 := Rat.cast_le (K := ℝ).mpr c.2
  have h2 := Poly.ln2_gt
  have h3 := Poly.ln2_lt
  push_cast at c1 c2
  constructor <;> linarith

theorem lim_small : (709 : ℝ) ≤ (f64.val LIM : ℚ) ∧ ((f64.val LIM : ℚ) : ℝ) ≤ 711 := by
  have c : 709 ≤ f64.val LIM ∧ f64.val LIM ≤ 711 := by decide +kernel
  exact ⟨by exact_mod_cast c.1, by exact_mod_cast c.2⟩

theorem room_lim {X : ℝ} (h : X ≤ (f64.val LIM : ℚ)) : Real.exp X / 2 * (1 + 100 / 2 ^ 53) < 2 ^ (1024 : ℤ) := by
  have h1 : Real.exp X ≤ Real.exp (-(600 / 2 ^ 53)) * 2 ^ (1025 : ℤ) := by
    rw [← exp_add_log]
    refine Real.exp_le_exp.mpr ?_
    have := lim_bd.1
    push_cast; linarith
  have h2 : Real.exp (-(600 / 2 ^ 53)) ≤ 1 - 500 / 2 ^ 53 := by
    rw [Real.exp_neg]
    have := Real.add_one_le_exp (600 / 2 ^ 53 : ℝ)
    refine (inv_anti₀ (by positivity) this).trans ?_
    rw [inv_le_iff_one_le_mul₀ (by positivity)]
    norm_num
  have hp : (0 : ℝ) < 2 ^ (1024 : ℤ) := by positivity
  have e : (2 : ℝ) ^ (1025 : ℤ) = 2 * 2 ^ (1024 : ℤ) := by rw [← zpow_one_add₀ (by norm_num)]; norm_num
  rw [e] at h1
  generalize (2 : ℝ) ^ (1024 : ℤ) = P at *
  have h3 : Real.exp X / 2 ≤ (1 - 500 / 2 ^ 53) * P := by
    have := mul_le_mul_of_nonneg_right h2 hp.le
    linarith
  have h4 : Real.exp X / 2 * (1 + 100 / 2 ^ 53) ≤ (1 - 500 / 2 ^ 53) * P * (1 + 100 / 2 ^ 53) := mul_le_mul_of_nonneg_right h3 (by positivity)
  refine lt_of_le_of_lt h4 ?_
  rw [mul_right_comm]
  exact mul_lt_of_lt_one_left hp (by norm_num)

theorem over_pos : (0 : ℝ) ≤ (f64.val Exp.OVER : ℚ) := by
  have c : 0 ≤ f64.val Exp.OVER := by decide +kernel
  exact_mod_cast c

theorem kexpo2_fin (N : FPU f64) {x : D} {X : ℝ} (hx : GFv f64 x X) (h1 : 709.7822 ≤ X) (h2 : X ≤ (f64.val LIM : ℚ)) :
    Ok (kexpo2 N x) fun z => ∃ V, GFv f64 z V ∧ |V - Real.exp X / 2| ≤ 2.6 * (1 / 2 ^ (f64.s + 1)) * (Real.exp X / 2) := by
  obtain ⟨k1, k2⟩ := k_bd
  have l2 := lim_small.2
  have hX0 : 0 < X := lt_of_lt_of_le (by norm_num) h1
  have hy : GFv f64 (N.sub x KLN2) (X - (f64.val KLN2 : ℚ)) := by
    refine sub_ex big64 N hx k_fv k_mul ?_ ?_ (by rw [b64, s64]; norm_num) (by rw [s64]; norm_num)
    · rw [abs_of_pos hX0, s64]; norm_num at h1 ⊢; linarith
    · rw [s64, abs_le]
      norm_num1 at *
      constructor <;> linarith
  have hg := Exp.exp_fin N hy (by have := over_pos; linarith)
  refine expo2_fin big64 N (σ := 2 ^ (-1075 : ℤ)) (c := 1021) rfl k_near ?_ ?_ scale_fv (by norm_num) ?_
  · obtain ⟨z, hz, g1, g2, g3⟩ := hg
    refine ⟨z, hz, _, ⟨g1, rfl⟩, ?_⟩
    rw [s64]
    refine le_trans g3 (le_of_eq ?_)
    norm_num
  · have e : Real.exp (-(1 / 1000) + (-1019 : ℤ) * Real.log 2) ≤ Real.exp (X - (f64.val KLN2 : ℚ)) := by
      refine Real.exp_le_exp.mpr ?_
      have h3 := Poly.ln2_gt
      have h4 : (0.69314718 : ℝ) ≤ (Poly.ln2L : ℚ) := by unfold Poly.ln2L; push_cast; norm_num
      push_cast
      norm_num1 at *
      linarith
    rw [exp_add_log] at e
    have e9 := mul_le_mul_of_nonneg_right (Real.add_one_le_exp (-(1 / 1000) : ℝ)) (show (0 : ℝ) ≤ 2 ^ (-1019 : ℤ) by positivity)
    rw [s64]
    have e2 : (2 : ℝ) ^ (-1075 : ℤ) = 1 / 2 ^ (52 + 1) * (1 / 8 * 2 ^ (-1019 : ℤ)) := by
      rw [show (-1075 : ℤ) = -56 + -1019 by norm_num, zpow_add₀ (by norm_num), ← mul_assoc]; norm_num
    rw [e2]
    have hp : (0 : ℝ) < 2 ^ (-1019 : ℤ) := by positivity
    generalize (2 : ℝ) ^ (-1019 : ℤ) = P at *
    norm_num1 at *
    linarith
  · rw [s64, b64]
    refine lt_of_le_of_lt ?_ (room_lim h2)
    exact mul_le_mul_of_nonneg_left (by norm_num) (by positivity)

/-- `NEXT - KLN2`, where `NEXT` follows `LIM` -/
def Y0 : D := 0xc0860cfd9a7bc298#f64.w

theorem kexpo2_big (N : FPU f64) {x : D} {X : ℝ} (hx : GFv f64 x X) (h : ((f64.val LIM : ℚ) : ℝ) < X) :
    (Ok (kexpo2 N x) fun z => f64.IsInf z ∧ f64.sign z = false) ∧ 2 ^ (1024 : ℤ) * (1 + 300 / 2 ^ 53) ≤ Real.exp X / 2 := by
  obtain ⟨k1, k2⟩ := k_bd
  have l1 := lim_small.1
  have hg : ((f64.val LIM : ℚ) : ℝ) + 1 / 2 ^ 43 ≤ X := by
    have := f64.gap_ge (b := LIM) (c := x) (k := 9) (by
      rw [lim_fv.val]; norm_num; linarith) (by rw [lim_fv.val, hx.val]; exact h)
    rw [lim_fv.val, hx.val, s64] at this
    norm_num at this ⊢
    linarith
  have hb := lim_bd.2
  have hlog := k_near
  rw [s64, abs_le] at hlog
  push_cast at hlog
  constructor
  · have c0 : f64.val Y0 = f64.val LIM + 1 / 2 ^ 43 - f64.val KLN2 := by decide +kernel
    have c0' : ((f64.val Y0 : ℚ) : ℝ) = (f64.val LIM : ℚ) + 1 / 2 ^ 43 - (f64.val KLN2 : ℚ) := by rw [c0]; push_cast; ring
    have hy0 : GFv f64 Y0 (f64.val Y0 : ℚ) := GFv.const (by decide +kernel) rfl
    have hR := hx.subR N k_fv
    have hXlt : X < 2 ^ ((f64.bias : ℤ) + 1) := by
      have := hx.fin
      unfold Fmt.IsFin at this
      rw [← f64.magValR_lt_iff, f64.magValR_infRep, ← f64.absvR, hx.val] at this
      exact lt_of_le_of_lt (le_abs_self X) this
    have r1 : ((f64.val Y0 : ℚ) : ℝ) ≤ f64.valK ℝ (N.sub x KLN2) := by
      refine hR.ge_of f64 ?_ ?_ (by rw [c0']; linarith)
      · rw [← hy0.val]; exact f64.rp_val _
      · have := hy0.fin
        unfold Fmt.IsFin at this
        rw [← f64.magValR_lt_iff, f64.magValR_infRep, ← f64.absvR, hy0.val] at this
        exact this.le
    have r2 : f64.valK ℝ (N.sub x KLN2) ≤ X := by
      refine hR.le_of f64 ?_ ?_ (by norm_num1 at *; linarith)
      · rw [← hx.val]; exact f64.rp_val _
      · rw [abs_of_pos (by norm_num1 at *; linarith)]; exact hXlt.le
    have hfin : f64.IsFin (N.sub x KLN2) := by
      refine fin_of_le (g := max X 1500) ?_ (max_lt hXlt ?_)
      · rw [abs_le]
        refine ⟨?_, r2.trans (le_max_left _ _)⟩
        have : (1500 : ℝ) ≤ max X 1500 := le_max_right _ _
        rw [c0'] at r1
        norm_num1 at *
        linarith
      · rw [b64]
        refine lt_of_lt_of_le (show (1500 : ℝ) < 2 ^ (11 : ℤ) by norm_num) (zpow_le_zpow_right₀ (by norm_num) (by norm_num))
    have hy : GFv f64 (N.sub x KLN2) (f64.valK ℝ (N.sub x KLN2)) := GFv.self hfin
    refine expo2_big N (c := 1021) ?_ scale_fv (by norm_num)
    generalize f64.valK ℝ (N.sub x KLN2) = Y at *
    rcases le_or_gt Y (f64.val Exp.OVER : ℚ) with h3 | h3
    · obtain ⟨z, hz, g1, g2, g3⟩ := Exp.exp_fin N hy h3
      refine ⟨z, hz, Or.inr ⟨_, ⟨g1, rfl⟩, ?_⟩⟩
      have e1 : (1 + 290 / 2 ^ 53) * 2 ^ (-1018 : ℤ) ≤ Real.exp Y := by
        have e2 : Real.exp (290 / 2 ^ 53 + ((-1018 : ℤ) : ℝ) * Real.log 2) ≤ Real.exp Y := by
          refine Real.exp_le_exp.mpr ?_
          rw [c0'] at r1
          push_cast
          norm_num1 at *
          linarith [hlog.1]
        rw [exp_add_log] at e2
        refine le_trans (mul_le_mul_of_nonneg_right ?_ (by positivity)) e2
        have := Real.add_one_le_exp (290 / 2 ^ 53 : ℝ)
        linarith
      have e3 : (2 : ℝ) ^ (-1075 : ℤ) = 1 / 2 ^ 57 * 2 ^ (-1018 : ℤ) := by
        rw [show (-1075 : ℤ) = -57 + -1018 by norm_num, zpow_add₀ (by norm_num)]; norm_num
      rw [e3] at g3
      have hP : (0 : ℝ) < 2 ^ (-1018 : ℤ) := by positivity
      have e4 : (2 : ℝ) ^ (-1018 : ℤ) ≤ f64.valK ℝ z := by
        have := (abs_le.mp g3).1
        change _ ≤ f64.valK ℝ z - _ at this
        generalize (2 : ℝ) ^ (-1018 : ℤ) = P at *
        norm_num1 at *
        linarith
      rw [b64]
      have e5 : (2 : ℝ) ^ (((1023 : ℕ) : ℤ) + 1) = 2 ^ (-1018 : ℤ) * 2 ^ (1021 : ℤ) * 2 ^ (1021 : ℤ) := by
        rw [← zpow_add₀ (by norm_num), ← zpow_add₀ (by norm_num)]; norm_num
      rw [e5]
      exact mul_le_mul_of_nonneg_right (mul_le_mul_of_nonneg_right e4 (by positivity)) (by positivity)
    · obtain ⟨z, hz, hi⟩ := (Exp.exp_big N hy h3).1
      exact ⟨z, hz, Or.inl hi⟩
  · have h4 : 300 / 2 ^ 53 + ((1025 : ℤ) : ℝ) * Real.log 2 ≤ X := by push_cast; linarith
    have h5 := Real.exp_le_exp.mpr h4
    rw [exp_add_log, show (1025 : ℤ) = 1024 + 1 by norm_num, zpow_add₀ (by norm_num), zpow_one] at h5
    have h6 := mul_le_mul_of_nonneg_right (Real.add_one_le_exp (300 / 2 ^ 53 : ℝ)) (show (0 : ℝ) ≤ 2 ^ (1024 : ℤ) * 2 by positivity)
    generalize (2 : ℝ) ^ (1024 : ℤ) = P at *
    linarith

/-- `e^-x` against `e^x` -/
theorem exp_neg_tiny {X : ℝ} (h : 80 ≤ X) : Real.exp (-X) ≤ 1 / 2 ^ 100 * Real.exp X := by
  have h1 : Real.exp (-(2 * X)) ≤ 1 / 2 ^ 100 := by
    have h2 : -(2 * X) ≤ 0 + ((-100 : ℤ) : ℝ) * Real.log 2 := by
      have := Real.log_two_lt_d9
      push_cast
      norm_num1 at *
      linarith
    have h3 := Real.exp_le_exp.mpr h2
    rw [exp_add_log, Real.exp_zero, one_mul] at h3
    refine h3.trans (by norm_num)
  have e : Real.exp (-X) = Real.exp (-(2 * X)) * Real.exp X := by rw [← Real.exp_add]; congr 1; ring
  rw [e]
  exact mul_le_mul_of_nonneg_right h1 (Real.exp_pos X).le

/-- the exponential below the threshold of the overflow branch -/
theorem exp_room {X : ℝ} (h : X ≤ 709.7822265625) : Room f64 (Real.exp X) := by
  unfold Room
  rw [s64, b64]
  have h1 : Real.exp X ≤ Real.exp (-(4 / 10000)) * 2 ^ (1024 : ℤ) := by
    rw [← exp_add_log]
    refine Real.exp_le_exp.mpr ?_
    have h3 := Poly.ln2_gt
    have h4 : (0.693147180 : ℝ) ≤ (Poly.ln2L : ℚ) := by unfold Poly.ln2L; push_cast; norm_num
    push_cast; norm_num1 at *; linarith
  have h2 : Real.exp (-(4 / 10000)) ≤ 1 - 3 / 10000 := by
    rw [Real.exp_neg]
    have := Real.add_one_le_exp (4 / 10000 : ℝ)
    refine (inv_anti₀ (by positivity) this).trans ?_
    norm_num
  have h5 : (2 : ℝ) ^ (100 : ℤ) ≤ 2 ^ (1024 : ℤ) := zpow_le_zpow_right₀ (by norm_num) (by norm_num)
  rw [show (((1023 : ℕ) : ℤ) + 1) = 1024 by norm_num]
  generalize (2 : ℝ) ^ (1024 : ℤ) = P at *
  norm_num1 at *
  have h3 : Real.exp X ≤ (1 - 3 / 10000) * P := by
    refine h1.trans ?_
    have := mul_le_mul_of_nonneg_right h2 (show (0 : ℝ) ≤ P by linarith)
    norm_num1 at *
    linarith
  linarith

theorem room_mono {F : Fmt} {T S : ℝ} (h : Room F T) (hS : S ≤ T) : Room F S := by
  unfold Room at *
  exact lt_of_le_of_lt (mul_le_mul_of_nonneg_right (by linarith) (by positivity)) h

/-- a looser bound -/
theorem abs_tol' {V C S d e : ℝ} (h : |V - C * (2 * S)| ≤ d * (2 * S / 2)) (hS : 0 ≤ S) (hd : d ≤ e) : |V - C * (2 * S)| ≤ e * S := by
  refine h.trans ?_
  have := mul_le_mul_of_nonneg_right hd hS
  linarith

/-- `±1` times `+∞` -/
theorem sgn_inf {F : Fmt} {K : Cn F} {R : List ℚ} (hF : F.Big) (hK : COk F K R) (N : FPU F) {h z : BitVec F.w} {σ : ℝ} {b : Bool} (hh : GFv F h σ) (hσ : σ = if b then -(1 / 2) else 1 / 2) (hz : F.IsInf z ∧ F.sign z = false) :
    F.IsInf (N.mul (N.mul K.two h) z) ∧ F.sign (N.mul (N.mul K.two h) z) = b := by
  have hσ1 : |σ| = 1 / 2 := by cases b <;> (rw [hσ]; norm_num)
  have h1 : GFv F (N.mul K.two h) (2 * σ) := by
    have := dblX (k := 1) (z := N.mul K.two h) hF hh (by rw [hσ1]; norm_num) (by norm_num) (by rw [zpow_one, mul_comm]; exact hK.two.mulR N hh) (big_of hF (by rw [zpow_one, abs_mul, hσ1]; norm_num))
    rwa [zpow_one, mul_comm] at this
  have hzn : ¬ F.IsNaN z := by unfold IsNaN; have := hz.1; unfold IsInf at this; omega
  have hz0 : ¬ F.IsZero z := by
    unfold IsZero; have := hz.1; unfold IsInf at this; rw [this]
    have h1 := F.ps_le_infRep
    have h2 := Nat.two_pow_pos F.s; omega
  have hc0 : ¬ F.IsZero (N.mul K.two h) := by
    intro h
    have : 2 * σ = 0 := by
      rw [← h1.val]; unfold valK; rw [show F.mag _ = 0 from h, ← F.magVal_cast, F.magVal_zero]; simp
    rw [show σ = 0 by linarith, abs_zero] at hσ1
    norm_num at hσ1
  have h2 := (N.mul_spec (N.mul K.two h) z).2.2 h1.not_nan hzn (Or.inr hz.1)
  rw [if_neg (by tauto), hz.2] at h2
  refine ⟨h2.1, ?_⟩
  rw [h2.2]
  cases b
  · rw [h1.sign_of_pos (by rw [hσ]; norm_num)]; rfl
  · have : F.sign (N.mul K.two h) = true := by
      by_contra hc
      have := h1.nonneg (by simpa using hc)
      rw [hσ] at this
      norm_num at this
    rw [this]; rfl

theorem abs_tol {V C d e : ℝ} (h : |V - C| ≤ d * C) (hC : 0 ≤ C) (hd : d ≤ e) : |V - C| ≤ e * C := h.trans (mul_le_mul_of_nonneg_right hd hC)

theorem thr_val : (709.7822265625 : ℝ) ≤ (f64.val O_THRESHOLD : ℚ) := by
  have c : 7097822265625 / 10000000000 ≤ f64.val O_THRESHOLD := by decide +kernel
  have := Rat.cast_le (K := ℝ).mpr c
  push_cast at this
  refine le_trans (by norm_num) this
theorem over_val : (709.7822265625 : ℝ) ≤ (f64.val Exp.OVER : ℚ) := by
  have c : 7097822265625 / 10000000000 ≤ f64.val Exp.OVER := by decide +kernel
  have := Rat.cast_le (K := ℝ).mpr c
  push_cast at this
  refine le_trans (by norm_num) this

/-- `expm1` of the absolute value -/
theorem expm1_rl (N : FPU f64) {y : D} {Y : ℝ} (hy : GFv f64 y Y) (h : Y ≤ 709.7822265625) :
    Ok (expm1 N y) fun t => ∃ τ, GFv f64 t τ ∧ Rl (2 * (1 / 2 ^ (f64.s + 1))) τ (Real.exp Y - 1) := by
  obtain ⟨t, ht, ⟨τ, h1, h2, -⟩, -⟩ := expm1_fin N hy (h.trans thr_val)
  exact ⟨t, ht, τ, h1, h2⟩

theorem exp_ge1 {a : ℝ} (h : 1 ≤ a) : 1.718 ≤ Real.exp a - 1 := by
  have h1 := Real.exp_le_exp.mpr h
  have := Real.exp_one_gt_d9
  norm_num1 at *; linarith
theorem exp_le1 {a : ℝ} (h : a ≤ 1) : Real.exp a - 1 ≤ 1.7184 := by
  have h1 := Real.exp_le_exp.mpr h
  have := Real.exp_one_lt_d9
  norm_num1 at *; linarith
theorem exp_ln2 {a : ℝ} (h : a ≤ 0.69314718) : Real.exp a ≤ 2 := by
  have h1 : a ≤ 0 + ((1 : ℤ) : ℝ) * Real.log 2 := by
    have := Real.log_two_gt_d9
    push_cast; norm_num1 at *; linarith
  have h2 := Real.exp_le_exp.mpr h1
  rwa [exp_add_log, Real.exp_zero, one_mul, zpow_one] at h2
theorem exp_ln2' {a : ℝ} (h : 0.693146 ≤ a) : 1.999 ≤ Real.exp a := by
  have h1 : -(2 / 1000000) + ((1 : ℤ) : ℝ) * Real.log 2 ≤ a := by
    have := Real.log_two_lt_d9
    push_cast; norm_num1 at *; linarith
  have h2 := Real.exp_le_exp.mpr h1
  rw [exp_add_log, zpow_one] at h2
  have h3 := Real.add_one_le_exp (-(2 / 1000000) : ℝ)
  norm_num1 at *; linarith

/-- what is claimed of `cosh` -/
def CGood (z : D) (X : ℝ) : Prop := ∃ V, GFv f64 z V ∧ |V - Real.cosh X| ≤ 3.2 * (1 / 2 ^ (f64.s + 1)) * Real.cosh X ∧ 1 ≤ V

theorem cosh_fin (N : FPU f64) {x : D} {X : ℝ} (hx : GFv f64 x X) (h : |X| ≤ (f64.val LIM : ℚ)) : Ok (cosh N x) fun z => CGood z X := by
  have ha := abs_fv hx
  have hu0 := u_pos f64
  have c1 := w_lt hx 0x3fe62e42 (726817 / 1048576) (by decide +kernel)
  have c2 := w_lt hx (0x3ff00000 - (26 <<< 20)) (1 / 67108864) (by decide +kernel)
  have c3 := w_lt hx 0x40862e42 (726817 / 1024) (by decide +kernel)
  push_cast at c1 c2 c3
  have hC := Real.cosh_pos X
  unfold cosh CGood
  simp only
  rw [← Real.cosh_abs] at hC ⊢
  have ha0 := abs_nonneg X
  have hlim := lim_small.2
  generalize |X| = a at *
  have hc1 := Real.one_le_cosh a
  by_cases h1 : (abs64 x).toNat >>> 32 < 0x3fe62e42
  · rw [if_pos h1]
    have b1 := c1.mp h1
    by_cases h2 : (abs64 x).toNat >>> 32 < 0x3ff00000 - (26 <<< 20)
    · rw [if_pos h2]
      have b2 := c2.mp h2
      refine ⟨_, rfl, 1, ok64.one, ?_, le_rfl⟩
      obtain ⟨n1, n2⟩ := cosh_near (a := a) (by rw [abs_of_nonneg ha0]; norm_num1 at *; linarith)
      rw [abs_sub_comm, abs_of_nonneg (by linarith), s64]
      have : a ^ 2 ≤ (1 / 67108864) ^ 2 := pow_le_pow_left₀ ha0 b2.le 2
      norm_num at this ⊢
      nlinarith
    · rw [if_neg h2]
      have b2 := not_lt.mp (mt c2.mpr h2)
      obtain ⟨t, ht, τ, g1, g2⟩ := expm1_rl N ha (by norm_num1 at *; linarith)
      have e1 := Real.add_one_le_exp a
      have e2 := exp_ln2 (a := a) (by norm_num1 at *; linarith)
      obtain ⟨V, hV, eV, gV⟩ := cSmall_spec big64 ok64 N g1 g2 (by norm_num1 at *; linarith) (by norm_num1 at *; linarith)
      rw [← cosh_eq1] at eV
      exact ⟨_, by rw [ht]; rfl, V, hV, eV, gV⟩
  · rw [if_neg h1]
    have b1 := not_lt.mp (mt c1.mpr h1)
    by_cases h3 : (abs64 x).toNat >>> 32 < 0x40862e42
    · rw [if_pos h3]
      have b3 := c3.mp h3
      have b3' : a ≤ 709.7822265625 := by norm_num1 at *; linarith
      obtain ⟨t, ht, g1, g2, g3⟩ := Exp.exp_fin N ha (b3'.trans over_val)
      have e1 := exp_ln2' (a := a) (by norm_num1 at *; linarith)
      have hrl : Rl (1.91 * (1 / 2 ^ (f64.s + 1))) (f64.valK ℝ t) (Real.exp a) := by
        unfold Rl
        rw [abs_of_pos (Real.exp_pos a), s64]
        refine le_trans g3 ?_
        have e2 : (2 : ℝ) ^ (-1075 : ℤ) ≤ 2 ^ (-100 : ℤ) := zpow_le_zpow_right₀ (by norm_num) (by norm_num)
        generalize (2 : ℝ) ^ (-1075 : ℤ) = P at *
        norm_num1 at *
        linarith
      obtain ⟨V, hV, eV⟩ := cMid_spec big64 (by rw [s64]) ok64 N (GFv.self g1) hrl e1 (exp_room b3')
      rw [← cosh_eq2] at eV
      refine ⟨_, by rw [ht]; rfl, V, hV, eV, ?_⟩
      have hcosh : 1.2 ≤ Real.cosh a := by
        rw [cosh_eq2]
        have : 0 < 1 / Real.exp a := by positivity
        have hh : Real.exp a * (1 / Real.exp a) = 1 := by field_simp
        rcases le_total (Real.exp a) 3 with h | h
        · have : 1 / 3 ≤ 1 / Real.exp a := one_div_le_one_div_of_le (Real.exp_pos a) h
          rcases le_total (Real.exp a) 2.2 with h' | h'
          · have : 1 / 2.2 ≤ 1 / Real.exp a := one_div_le_one_div_of_le (Real.exp_pos a) h'
            norm_num1 at *; linarith
          · norm_num1 at *; linarith
        · norm_num1 at *; linarith
      rw [s64] at eV
      have := (abs_le.mp eV).1
      norm_num1 at *
      linarith
    · rw [if_neg h3]
      have b3 := not_lt.mp (mt c3.mpr h3)
      obtain ⟨z, hz, V, hV, eV⟩ := kexpo2_fin N ha (by norm_num1 at *; linarith) h
      have e1 := exp_neg_tiny (X := a) (by norm_num1 at *; linarith)
      have e2 : 100 ≤ Real.exp a := by have := Real.add_one_le_exp a; norm_num1 at *; linarith
      have hp := Real.exp_pos (-a)
      have e3 := Real.cosh_eq a
      rw [s64] at *
      refine ⟨z, hz, V, hV, ?_, ?_⟩
      · rw [abs_le] at eV ⊢
        generalize Real.exp a = E at *
        generalize Real.exp (-a) = E' at *
        rw [e3]
        norm_num1 at *
        constructor <;> linarith [eV.1, eV.2]
      · have := (abs_le.mp eV).1
        norm_num1 at *
        linarith

theorem cosh_big (N : FPU f64) {x : D} {X : ℝ} (hx : GFv f64 x X) (h : ((f64.val LIM : ℚ) : ℝ) < |X|) :
    (Ok (cosh N x) fun z => f64.IsInf z ∧ f64.sign z = false) ∧ 2 ^ (1024 : ℤ) ≤ Real.cosh X := by
  have ha := abs_fv hx
  have c1 := w_lt hx 0x3fe62e42 (726817 / 1048576) (by decide +kernel)
  have c3 := w_lt hx 0x40862e42 (726817 / 1024) (by decide +kernel)
  push_cast at c1 c3
  have hl : (726817 / 1024 : ℝ) ≤ |X| := by
    have c : 726817 / 1024 ≤ f64.val LIM := by decide +kernel
    have := Rat.cast_le (K := ℝ).mpr c
    push_cast at this
    linarith
  obtain ⟨k1, k2⟩ := kexpo2_big N ha h
  constructor
  · unfold cosh
    simp only
    rw [if_neg (fun hc => by have := c1.mp hc; norm_num1 at *; linarith), if_neg (fun hc => by have := c3.mp hc; linarith)]
    exact k1
  · rw [← Real.cosh_abs, Real.cosh_eq]
    have := Real.exp_pos (-|X|)
    have hP : (0 : ℝ) < 2 ^ (1024 : ℤ) := by positivity
    generalize (2 : ℝ) ^ (1024 : ℤ) = P at *
    norm_num1 at *
    linarith

/-- no overflow up to the limit -/
theorem cosh_lim {X : ℝ} (h : |X| ≤ (f64.val LIM : ℚ)) : Real.cosh X < 2 ^ (1024 : ℤ) := by
  have h1 : Real.cosh X ≤ Real.cosh (f64.val LIM : ℚ) := by
    rw [Real.cosh_le_cosh]
    exact h.trans (le_abs_self _)
  refine lt_of_le_of_lt h1 ?_
  have h2 := room_lim (le_refl ((f64.val LIM : ℚ) : ℝ))
  have h3 := lim_small.1
  have h4 := exp_neg_tiny (X := ((f64.val LIM : ℚ) : ℝ)) (by linarith)
  rw [Real.cosh_eq]
  have h5 := Real.exp_pos ((f64.val LIM : ℚ) : ℝ)
  generalize Real.exp ((f64.val LIM : ℚ) : ℝ) = E at *
  generalize Real.exp (-((f64.val LIM : ℚ) : ℝ)) = E' at *
  generalize (2 : ℝ) ^ (1024 : ℤ) = P at *
  norm_num1 at *
  linarith

theorem cosh_special (N : FPU f64) (x : D) :
    (f64.IsNaN x → Ok (cosh N x) f64.IsNaN) ∧ (f64.IsInf x → Ok (cosh N x) fun z => f64.IsInf z ∧ f64.sign z = false) := by
  have hs : f64.sign (abs64 x) = false := by rw [abs_eq]; exact (f64.fabs_facts x).1
  have hm : f64.mag (abs64 x) = f64.mag x := by rw [abs_eq]; exact (f64.fabs_facts x).2
  constructor
  · intro h
    have hw := w_big (le_of_lt h)
    have hn : f64.IsNaN (abs64 x) := by unfold Fmt.IsNaN at *; rw [hm]; exact h
    unfold cosh
    simp only
    rw [if_neg (by omega), if_neg (by omega)]
    have h1 := (N.sub_spec (abs64 x) KLN2).2.1 (Or.inl hn)
    refine ⟨_, ?_, (N.mul_spec _ SCALE).2.1 (Or.inl ((N.mul_spec _ SCALE).2.1 (Or.inl h1)))⟩
    unfold kexpo2 expo2
    rw [(Exp.exp_special N _).1 h1]; rfl
  · intro h
    have hw := w_big (le_of_eq h.symm)
    have hn : f64.IsInf (abs64 x) := by unfold Fmt.IsInf at *; rw [hm]; exact h
    unfold cosh
    simp only
    rw [if_neg (by omega), if_neg (by omega)]
    have hknan : ¬ f64.IsNaN (f64.neg KLN2) := by decide +kernel
    have hkinf : ¬ f64.IsInf (f64.neg KLN2) := by decide +kernel
    have h1 := (N.sub_spec (abs64 x) KLN2).2.2.1 hn hknan
    rw [if_neg (by tauto)] at h1
    have h2 : f64.IsInf (N.sub (abs64 x) KLN2) ∧ f64.sign (N.sub (abs64 x) KLN2) = false := by rw [h1]; exact ⟨hn, hs⟩
    obtain ⟨z, hz, hi⟩ := (Exp.exp_special N _).2.1 h2.1 h2.2
    exact expo2_big N (c := 1021) ⟨z, hz, Or.inl hi⟩ scale_fv (by norm_num)

/-! ## `sinh` -/

theorem h_eq (x : D) : h64 x = if f64.sign x then f64.neg K64.half else K64.half := by
  unfold h64
  rw [show x.toNat >>> 63 = if f64.sign x then 1 else 0 by rw [← sign64, ← Nat.shiftRight_add]]
  cases f64.sign x <;> simp

/-- `±1/2` with the sign of `x` -/
theorem h_fv (x : D) : ∃ σ, GFv f64 (h64 x) σ ∧ (σ = 1 / 2 ∨ σ = -(1 / 2)) ∧ σ = (if f64.sign x then -(1 / 2) else 1 / 2) := by
  rw [h_eq]
  cases f64.sign x
  · exact ⟨1 / 2, by simpa using ok64.half, Or.inl rfl, by simp⟩
  · exact ⟨-(1 / 2), by simpa using ok64.half.neg, Or.inr rfl, by simp⟩

theorem sinh_sgn {x : D} {X : ℝ} (hx : GFv f64 x X) {σ : ℝ} (hσ : σ = if f64.sign x then -(1 / 2) else 1 / 2) : Real.sinh X = σ * (2 * Real.sinh |X|) ∧ |Real.sinh X| = Real.sinh |X| := by
  have h0 : 0 ≤ Real.sinh |X| := Real.sinh_nonneg_iff.mpr (abs_nonneg X)
  have e := hx.eq_abs
  constructor
  · cases hs : f64.sign x
    · rw [hs] at e hσ; simp only [Bool.false_eq_true, if_false] at e hσ
      rw [hσ, ← e]; ring
    · rw [hs] at e hσ; simp only [if_true] at e hσ
      rw [hσ]
      conv_lhs => rw [e, Real.sinh_neg]
      ring
  · cases hs : f64.sign x
    · rw [hs] at e; simp only [Bool.false_eq_true, if_false] at e
      conv_lhs => rw [e]
      exact abs_of_nonneg h0
    · rw [hs] at e; simp only [if_true] at e
      conv_lhs => rw [e, Real.sinh_neg, abs_neg]
      exact abs_of_nonneg h0

/-- what is claimed of `sinh` -/
def SGood (x z : D) (X : ℝ) : Prop := ∃ V, GFv f64 z V ∧ |V - Real.sinh X| ≤ 4.5 * (1 / 2 ^ (f64.s + 1)) * |Real.sinh X| ∧ (X = 0 → z = x)

/-- twice `h` is `±1`, and the product with it is exact -/
theorem one_mul_ex (N : FPU f64) {h e : D} {σ E : ℝ} (hh : GFv f64 h σ) (hσ : σ = 1 / 2 ∨ σ = -(1 / 2)) (he : GFv f64 e E) : GFv f64 (N.mul K64.two h) (2 * σ) ∧ GFv f64 (N.mul (N.mul K64.two h) e) (2 * σ * E) := by
  have hσ1 : |σ| = 1 / 2 := by rcases hσ with rfl | rfl <;> norm_num
  have h1 : GFv f64 (N.mul K64.two h) (2 * σ) := by
    have := dblX (k := 1) (z := N.mul K64.two h) big64 hh (by rw [hσ1]; norm_num) (by norm_num) (by rw [zpow_one, mul_comm]; exact ok64.two.mulR N hh) (big_of big64 (by rw [zpow_one, abs_mul, hσ1]; norm_num))
    rwa [zpow_one, mul_comm] at this
  refine ⟨h1, ?_⟩
  have hR := h1.mulR N he
  have h2 : |2 * σ * E| = |E| := by rw [abs_mul, abs_mul, hσ1]; norm_num
  have h3 : |E| < 2 ^ ((f64.bias : ℤ) + 1) := by
    have := he.fin
    unfold Fmt.IsFin at this
    rwa [← f64.magValR_lt_iff, f64.magValR_infRep, ← f64.absvR, he.val] at this
  have hrp : f64.Rp (2 * σ * E) := by
    obtain ⟨c, hc⟩ := f64.rp_val e
    rw [he.val] at hc
    exact ⟨c, by rw [h2, hc]⟩
  have hv := hR.exactR f64 hrp (by rw [h2]; exact h3.le)
  exact ⟨fin_of_le (g := |E|) (by rw [hv, h2]) h3, hv⟩

theorem sinh_fin (N : FPU f64) {x : D} {X : ℝ} (hx : GFv f64 x X) (h : |X| ≤ (f64.val LIM : ℚ)) : Ok (sinh N x) fun z => SGood x z X := by
  have ha := abs_fv hx
  have hu0 := u_pos f64
  have c1 := w_lt hx 0x3ff00000 1 (by decide +kernel)
  have c2 := w_lt hx (0x3ff00000 - (26 <<< 20)) (1 / 67108864) (by decide +kernel)
  have c3 := w_lt hx 0x40862e42 (726817 / 1024) (by decide +kernel)
  push_cast at c1 c2 c3
  obtain ⟨σ, hh, hσ, hσ'⟩ := h_fv x
  obtain ⟨s1, s2⟩ := sinh_sgn hx hσ'
  have hσ1 : |σ| = 1 / 2 := by rcases hσ with rfl | rfl <;> norm_num
  unfold sinh SGood
  simp only
  have ha0 := abs_nonneg X
  have hlim := lim_small.2
  have hz0 : X = 0 → |X| = 0 := fun h => by rw [h, abs_zero]
  rw [s2]
  have hxx := hx
  have habs : X = 2 * σ * |X| := by
    have e := hx.eq_abs
    cases hs : f64.sign x
    · rw [hs] at e hσ'; simp only [Bool.false_eq_true, if_false] at e hσ'
      rw [hσ', ← e]; ring
    · rw [hs] at e hσ'; simp only [if_true] at e hσ'
      rw [hσ']; linarith
  rw [s1]
  generalize |X| = a at *
  by_cases h3 : (abs64 x).toNat >>> 32 < 0x40862e42
  · rw [if_pos h3]
    have b3 := c3.mp h3
    have b3' : a ≤ 709.7822265625 := by norm_num1 at *; linarith
    obtain ⟨t, ht, τ, g1, g2⟩ := expm1_rl N ha b3'
    rw [ht]
    simp only [ok_bind]
    by_cases h1 : (abs64 x).toNat >>> 32 < 0x3ff00000
    · rw [if_pos h1]
      have b1 := c1.mp h1
      by_cases h2 : (abs64 x).toNat >>> 32 < 0x3ff00000 - (26 <<< 20)
      · rw [if_pos h2]
        have b2 := c2.mp h2
        refine ⟨_, rfl, X, hx, ?_, fun _ => rfl⟩
        obtain ⟨n1, n2⟩ := sinh_near ha0 (by norm_num1 at *; linarith)
        have e : X - σ * (2 * Real.sinh a) = 2 * σ * (a - Real.sinh a) := by
          rw [mul_sub, ← habs]; ring
        rw [e, abs_mul, abs_mul, hσ1, abs_sub_comm, abs_of_nonneg (show 0 ≤ Real.sinh a - a by linarith), s64]
        have h4 : a ^ 2 ≤ (1 / 67108864) ^ 2 := pow_le_pow_left₀ ha0 b2.le 2
        have h5 : a ^ 3 ≤ (1 / 67108864) ^ 2 * a := by rw [pow_succ]; exact mul_le_mul_of_nonneg_right h4 ha0
        norm_num at h5 ⊢
        linarith
      · rw [if_neg h2]
        have b2 := not_lt.mp (mt c2.mpr h2)
        have e1 := Real.add_one_le_exp a
        have e2 := exp_le1 (a := a) (by linarith)
        obtain ⟨V, hV, eV⟩ := sSmall_spec big64 ok64 N hh hσ g1 g2 (by norm_num1 at *; linarith) e2
        have hS := sinh_eq1 a
        have hS0 : 0 ≤ Real.sinh a := Real.sinh_nonneg_iff.mpr ha0
        refine ⟨_, rfl, V, hV, ?_, fun h0 => absurd (hz0 h0) (by intro hc; rw [hc] at b2; norm_num at b2)⟩
        rw [show Real.exp a - 1 + (Real.exp a - 1) / (Real.exp a - 1 + 1) = 2 * Real.sinh a by rw [hS]; ring] at eV
        exact abs_tol' eV hS0 (by linarith)
    · rw [if_neg h1]
      have b1 := not_lt.mp (mt c1.mpr h1)
      obtain ⟨V, hV, eV⟩ := sMid_spec big64 ok64 N hh hσ g1 g2 (exp_ge1 b1) (room_mono (exp_room b3') (by linarith))
      have hS := sinh_eq1 a
      have hS0 : 0 ≤ Real.sinh a := Real.sinh_nonneg_iff.mpr ha0
      refine ⟨_, rfl, V, hV, ?_, fun h0 => absurd (hz0 h0) (by intro hc; rw [hc] at b1; norm_num at b1)⟩
      rw [show Real.exp a - 1 + (Real.exp a - 1) / (Real.exp a - 1 + 1) = 2 * Real.sinh a by rw [hS]; ring] at eV
      exact abs_tol' eV hS0 (by linarith)
  · rw [if_neg h3]
    have b3 := not_lt.mp (mt c3.mpr h3)
    obtain ⟨z, hz, V, hV, eV⟩ := kexpo2_fin N ha (by norm_num1 at *; linarith) h
    rw [hz]
    simp only [ok_bind]
    have e1 := exp_neg_tiny (X := a) (by norm_num1 at *; linarith)
    have e2 : 100 ≤ Real.exp a := by have := Real.add_one_le_exp a; norm_num1 at *; linarith
    have hp := Real.exp_pos (-a)
    have e3 := Real.sinh_eq a
    obtain ⟨-, hV2⟩ := one_mul_ex N hh hσ hV
    refine ⟨_, rfl, _, hV2, ?_, fun h0 => absurd (hz0 h0) (by intro hc; rw [hc] at b3; norm_num at b3)⟩
    rw [show 2 * σ * V - σ * (2 * Real.sinh a) = 2 * σ * (V - Real.sinh a) by ring, abs_mul, abs_mul, hσ1]
    rw [s64] at *
    have : |V - Real.sinh a| ≤ 4.5 * (1 / 2 ^ (52 + 1)) * Real.sinh a := by
      rw [abs_le] at eV ⊢
      generalize Real.exp a = E at *
      generalize Real.exp (-a) = E' at *
      rw [e3]
      norm_num1 at *
      constructor <;> linarith [eV.1, eV.2]
    rw [abs_of_pos (show (0 : ℝ) < 2 by norm_num)]
    linarith

theorem sinh_big (N : FPU f64) {x : D} {X : ℝ} (hx : GFv f64 x X) (h : ((f64.val LIM : ℚ) : ℝ) < |X|) :
    (Ok (sinh N x) fun z => f64.IsInf z ∧ f64.sign z = f64.sign x) ∧ 2 ^ (1024 : ℤ) ≤ |Real.sinh X| := by
  have ha := abs_fv hx
  have c3 := w_lt hx 0x40862e42 (726817 / 1024) (by decide +kernel)
  push_cast at c3
  have hl : (726817 / 1024 : ℝ) ≤ |X| := by
    have c : 726817 / 1024 ≤ f64.val LIM := by decide +kernel
    have := Rat.cast_le (K := ℝ).mpr c
    push_cast at this
    linarith
  obtain ⟨⟨z, hz, hi⟩, k2⟩ := kexpo2_big N ha h
  obtain ⟨σ, hh, hσ, hσ'⟩ := h_fv x
  constructor
  · unfold sinh
    simp only
    rw [if_neg (fun hc => by have := c3.mp hc; linarith), hz]
    simp only [ok_bind]
    refine ⟨_, rfl, ?_⟩
    exact sgn_inf big64 ok64 N hh hσ' hi
  · rw [(sinh_sgn hx hσ').2, Real.sinh_eq]
    have h1 := exp_neg_tiny (X := |X|) (by norm_num1 at *; linarith)
    generalize Real.exp |X| = E at *
    generalize Real.exp (-|X|) = E' at *
    have hP : (0 : ℝ) < 2 ^ (1024 : ℤ) := by positivity
    generalize (2 : ℝ) ^ (1024 : ℤ) = P at *
    norm_num1 at *
    linarith

theorem sinh_special (N : FPU f64) (x : D) :
    (f64.IsNaN x → Ok (sinh N x) f64.IsNaN) ∧ (f64.IsInf x → Ok (sinh N x) fun z => f64.IsInf z ∧ f64.sign z = f64.sign x) := by
  have hs : f64.sign (abs64 x) = false := by rw [abs_eq]; exact (f64.fabs_facts x).1
  have hm : f64.mag (abs64 x) = f64.mag x := by rw [abs_eq]; exact (f64.fabs_facts x).2
  constructor
  · intro h
    have hw := w_big (le_of_lt h)
    have hn : f64.IsNaN (abs64 x) := by unfold Fmt.IsNaN at *; rw [hm]; exact h
    unfold sinh
    simp only
    rw [if_neg (by omega)]
    have h1 := (N.sub_spec (abs64 x) KLN2).2.1 (Or.inl hn)
    refine ⟨_, ?_, (N.mul_spec (N.mul K64.two (h64 x)) _).2.1 (Or.inr ((N.mul_spec _ SCALE).2.1 (Or.inl ((N.mul_spec _ SCALE).2.1 (Or.inl h1)))))⟩
    unfold kexpo2 expo2
    rw [(Exp.exp_special N _).1 h1]; rfl
  · intro h
    have hw := w_big (le_of_eq h.symm)
    have hn : f64.IsInf (abs64 x) := by unfold Fmt.IsInf at *; rw [hm]; exact h
    unfold sinh
    simp only
    rw [if_neg (by omega)]
    have hknan : ¬ f64.IsNaN (f64.neg KLN2) := by decide +kernel
    have hkinf : ¬ f64.IsInf (f64.neg KLN2) := by decide +kernel
    have h1 := (N.sub_spec (abs64 x) KLN2).2.2.1 hn hknan
    rw [if_neg (by tauto)] at h1
    have h2 : f64.IsInf (N.sub (abs64 x) KLN2) ∧ f64.sign (N.sub (abs64 x) KLN2) = false := by rw [h1]; exact ⟨hn, hs⟩
    obtain ⟨z, hz, hi⟩ := (Exp.exp_special N _).2.1 h2.1 h2.2
    obtain ⟨z', hz', hi'⟩ := expo2_big N (x := abs64 x) (kln2 := KLN2) (c := 1021) ⟨z, hz, Or.inl hi⟩ scale_fv (by norm_num)
    have hk : kexpo2 N (abs64 x) = .ok z' := hz'
    rw [hk]
    simp only [ok_bind]
    obtain ⟨σ, hh, hσ, hσ'⟩ := h_fv x
    exact ⟨_, rfl, sgn_inf big64 ok64 N hh hσ' hi'⟩

/-! ## `tanh` -/

/-- what is claimed of `tanh` for arguments not below zero -/
def TGood (z : D) (a : ℝ) : Prop := ∃ V, GFv f64 z V ∧ |V - Real.tanh a| ≤ 4.6 * (1 / 2 ^ (f64.s + 1)) * Real.tanh a ∧ V ≤ 1 ∧ f64.sign z = false

theorem tanh_pos {a : ℝ} (h : 0 < a) : 0 < Real.tanh a := by
  rw [Real.tanh_eq_sinh_div_cosh]; exact div_pos (Real.sinh_pos_iff.mpr h) (Real.cosh_pos a)

theorem tgood_of {z : D} {V a : ℝ} (ha : 0 < a) (hV : GFv f64 z V) (h : |V - Real.tanh a| ≤ 4.6 * (1 / 2 ^ (f64.s + 1)) * Real.tanh a) (h1 : V ≤ 1) : TGood z a := by
  refine ⟨V, hV, h, h1, hV.sign_of_pos ?_⟩
  have := tanh_pos ha
  have := (abs_le.mp h).1
  rw [s64] at this
  norm_num at this
  linarith

theorem tanh_small {a : ℝ} (h : a ≤ 1) : Real.tanh a ≤ 0.8 := by
  rw [tanh_eq1]
  have h1 : Real.exp (2 * a) ≤ 7.4 := by
    have h2 : Real.exp (2 * a) ≤ Real.exp 2 := Real.exp_le_exp.mpr (by linarith)
    have h3 : Real.exp 2 = Real.exp 1 * Real.exp 1 := by rw [← Real.exp_add]; norm_num
    have h4 := Real.exp_one_lt_d9
    have h5 := Real.exp_pos 1
    norm_num1 at *; nlinarith
  have h2 := Real.exp_pos (2 * a)
  rw [div_le_iff₀ (by linarith)]
  norm_num1 at *; linarith

theorem le_one_of {V a : ℝ} (h : a ≤ 1) (hV : |V - Real.tanh a| ≤ 4.6 * (1 / 2 ^ (f64.s + 1)) * Real.tanh a) : V ≤ 1 := by
  have h1 := tanh_small h
  have := (abs_le.mp hV).2
  rw [s64] at this
  norm_num1 at *
  linarith

theorem two_x (N : FPU f64) {x : D} {a : ℝ} (hx : GFv f64 x a) (ha : |a| ≤ 2 ^ 100) : GFv f64 (N.mul K64.two x) (2 * a) ∧ GFv f64 (N.mul K64.mtwo x) (-2 * a) := by
  have hb : |a| * 2 < 2 ^ ((f64.bias : ℤ) + 1) := by
    rw [b64]
    refine lt_of_le_of_lt (show |a| * 2 ≤ 2 ^ (101 : ℤ) by norm_num1 at *; linarith) (zpow_lt_zpow_right₀ (by norm_num) (by norm_num))
  constructor
  · have := up_ex (k := 1) (z := N.mul K64.two x) hx (by norm_num) (by rw [zpow_one, mul_comm]; exact ok64.two.mulR N hx) (by rw [zpow_one, abs_mul]; simpa using hb)
    rwa [zpow_one, mul_comm] at this
  · have := up_ex (k := 1) (z := N.mul K64.mtwo x) hx.neg (by norm_num) (by rw [zpow_one, show -a * 2 = -2 * a by ring]; exact ok64.mtwo.mulR N hx) (by rw [zpow_one, abs_mul, abs_neg]; simpa using hb)
    rwa [zpow_one, show -a * 2 = -2 * a by ring] at this

theorem tanhAbs_fin (N : FPU f64) {x : D} {a : ℝ} (hx : GFv f64 (abs64 x) a) (ha0 : 0 ≤ a) : Ok (tanhAbs N (abs64 x)) fun z => TGood z a := by
  have hu0 := u_pos f64
  have hself := abs_abs x
  have c1 := w_lt hx 0x3fe193eb (1151979 / 2097152) (by decide +kernel)
  have c2 := w_lt hx 0x40340001 (1310721 / 65536) (by decide +kernel)
  have c3 := w_lt hx 0x3fd058af (1071279 / 4194304) (by decide +kernel)
  have c4 := w_lt hx 0x00100000 (1 / 2 ^ 1022) (by decide +kernel)
  rw [hself, abs_of_nonneg ha0] at c1 c2 c3 c4
  push_cast at c1 c2 c3 c4
  unfold tanhAbs
  simp only
  generalize hw : (abs64 x).toNat >>> 32 = w at *
  by_cases h1 : w > 0x3fe193ea
  · rw [if_pos h1]
    have b1 := not_lt.mp (mt c1.mpr (by omega))
    have hap : 0 < a := lt_of_lt_of_le (by norm_num) b1
    by_cases h2 : w > 0x40340000
    · rw [if_pos h2]
      have b2 := not_lt.mp (mt c2.mpr (by omega))
      have hd : GFv f64 (N.div 0#f64.w (abs64 x)) 0 := by
        have := Exp.zero_fv.divR N hx hap.ne'
        rw [zero_div] at this
        exact GFv.of_rounds big64 (j := 0) this ⟨0, by simp⟩ (by rw [abs_zero]; positivity) (by rw [b64, s64]; norm_num) (by rw [abs_zero]; positivity)
      have h1 : GFv f64 (N.sub K64.one (N.div 0#f64.w (abs64 x))) 1 := by
        have := ok64.one.subR N hd
        rw [sub_zero] at this
        exact GFv.of_rounds big64 (j := 0) this ⟨1, by simp⟩ (by rw [abs_one, s64]; norm_num) (by rw [b64, s64]; norm_num) (by norm_num)
      refine ⟨_, rfl, tgood_of hap h1 ?_ le_rfl⟩
      have e1 : (2 : ℝ) ^ (57 : ℤ) ≤ Real.exp (2 * a) := by
        have : 0 + ((57 : ℤ) : ℝ) * Real.log 2 ≤ 2 * a := by
          have := Real.log_two_lt_d9
          push_cast; norm_num1 at *; linarith
        have := Real.exp_le_exp.mpr this
        rwa [exp_add_log, Real.exp_zero, one_mul] at this
      have e2 : 1 - Real.tanh a = 2 / (Real.exp (2 * a) + 1) := by
        rw [tanh_eq1]
        have := Real.exp_pos (2 * a)
        have h0 : Real.exp (2 * a) - 1 + 2 ≠ 0 := by linarith
        have h0' : Real.exp (2 * a) + 1 ≠ 0 := by linarith
        field_simp; ring
      have e3 : 2 / (Real.exp (2 * a) + 1) ≤ 1 / 2 ^ 56 := by
        have hE := Real.exp_pos (2 * a)
        rw [div_le_iff₀ (by linarith)]
        norm_num1 at *
        linarith
      have e4 : 0 ≤ 2 / (Real.exp (2 * a) + 1) := by have := Real.exp_pos (2 * a); positivity
      rw [e2, abs_of_nonneg e4, s64]
      have e5 : 1 - 1 / 2 ^ 56 ≤ Real.tanh a := by linarith
      norm_num1 at *
      linarith
    · rw [if_neg h2]
      have b2 := c2.mp (by omega)
      obtain ⟨d1, -⟩ := two_x N hx (by rw [abs_of_pos hap]; norm_num1 at *; linarith)
      obtain ⟨t, ht, τ, g1, g2⟩ := expm1_rl N d1 (by norm_num1 at *; linarith)
      have e1 : 1.99 ≤ Real.exp (2 * a) - 1 := by
        have h3 := Real.exp_le_exp.mpr (show (1.098 : ℝ) ≤ 2 * a by norm_num1 at *; linarith)
        have h4 := exp_1098
        norm_num1 at *; linarith
      have e2 : Real.exp (2 * a) - 1 ≤ 2 ^ 80 := by
        have : 2 * a ≤ 0 + ((80 : ℤ) : ℝ) * Real.log 2 := by
          have := Real.log_two_gt_d9
          push_cast; norm_num1 at *; linarith
        have := Real.exp_le_exp.mpr this
        rw [exp_add_log, Real.exp_zero, one_mul] at this
        norm_num1 at *
        linarith
      obtain ⟨V, hV, eV, V1⟩ := tA_spec big64 ok64 N g1 g2 e1 e2
      rw [← tanh_eq1] at eV
      exact ⟨_, by rw [ht]; rfl, tgood_of hap hV eV V1⟩
  · rw [if_neg h1]
    have b1 := c1.mp (by omega)
    by_cases h2 : w > 0x3fd058ae
    · rw [if_pos h2]
      have b2 := not_lt.mp (mt c3.mpr (by omega))
      have hap : 0 < a := lt_of_lt_of_le (by norm_num) b2
      obtain ⟨d1, -⟩ := two_x N hx (by rw [abs_of_pos hap]; norm_num1 at *; linarith)
      obtain ⟨t, ht, τ, g1, g2⟩ := expm1_rl N d1 (by norm_num1 at *; linarith)
      have e1 := Real.add_one_le_exp (2 * a)
      have e2 : Real.exp (2 * a) ≤ 7.5 := by
        have h2 : Real.exp (2 * a) ≤ Real.exp 2 := Real.exp_le_exp.mpr (by linarith)
        have h3 : Real.exp 2 = Real.exp 1 * Real.exp 1 := by rw [← Real.exp_add]; norm_num
        have h4 := Real.exp_one_lt_d9
        have h5 := Real.exp_pos 1
        norm_num1 at *; nlinarith
      obtain ⟨V, hV, eV⟩ := tDiv_spec big64 ok64 N g1 g2 (by
        refine le_trans ?_ (le_abs_self _); norm_num1 at *; linarith) (by norm_num1 at *; linarith) (by norm_num1 at *; linarith)
      rw [← tanh_eq1, abs_of_pos (tanh_pos hap)] at eV
      exact ⟨_, by rw [ht]; rfl, tgood_of hap hV eV (le_one_of (by linarith) eV)⟩
    · rw [if_neg h2]
      have b2 := c3.mp (by omega)
      by_cases h3 : w ≥ 0x00100000
      · rw [if_pos h3]
        have b3 := not_lt.mp (mt c4.mpr (by omega))
        have hap : 0 < a := lt_of_lt_of_le (by positivity) b3
        obtain ⟨-, d1⟩ := two_x N hx (by rw [abs_of_pos hap]; norm_num1 at *; linarith)
        obtain ⟨t, ht, τ, g1, g2⟩ := expm1_rl N d1 (by norm_num1 at *; linarith)
        rcases lt_or_ge a (1 / 2 ^ 59) with h4 | h4
        · obtain ⟨V, hV, eV⟩ := tC_tiny big64 (by rw [s64]) ok64 N g1 (by
            rw [b64]
            refine le_trans (le_of_eq ?_) b3
            rw [show (1 : ℤ) - ((1023 : ℕ) : ℤ) = -((1022 : ℕ) : ℤ) by norm_num, zpow_neg, zpow_natCast, one_div]) h4 g2
          exact ⟨_, by rw [ht]; rfl, tgood_of hap hV eV (le_one_of (by norm_num1 at *; linarith) eV)⟩
        · have e1 : 0.599 ≤ Real.exp (-2 * a) := by
            have h5 : Real.exp (-0.511) ≤ Real.exp (-2 * a) := Real.exp_le_exp.mpr (by norm_num1 at *; linarith)
            have h6 := exp_half_bd
            rw [Real.exp_neg] at h5
            have h7 := inv_anti₀ (Real.exp_pos _) h6
            norm_num1 at *
            linarith
          have e2 : Real.exp (-2 * a) ≤ 1 - a := by
            have h5 := Real.add_one_le_exp (2 * a)
            rw [show -2 * a = -(2 * a) by ring, Real.exp_neg]
            refine (inv_anti₀ (by linarith) h5).trans ?_
            rw [inv_le_iff_one_le_mul₀ (by linarith)]
            nlinarith
          obtain ⟨V, hV, eV⟩ := tC_spec big64 ok64 N g1 g2 (by
            rw [abs_of_neg (by linarith)]; norm_num1 at *; linarith) (by norm_num1 at *; linarith) (by linarith)
          have htn := tanh_eq2 a
          rw [← htn, show (Real.exp (-2 * a) - 1) / (Real.exp (-2 * a) - 1 + 2) = -Real.tanh a by rw [htn]; ring, abs_neg, abs_of_pos (tanh_pos hap)] at eV
          exact ⟨_, by rw [ht]; rfl, tgood_of hap hV eV (le_one_of (by norm_num1 at *; linarith) eV)⟩
      · rw [if_neg h3]
        have b3 := c4.mp (by omega)
        have b3' : a ≤ 1 / 2 ^ 100 := by
          refine b3.le.trans (one_div_le_one_div_of_le (by positivity) (pow_le_pow_right₀ (by norm_num) (by norm_num)))
        obtain ⟨n1, n2⟩ := tanh_near ha0 (by norm_num1 at *; linarith)
        refine ⟨_, rfl, a, hx, ?_, by norm_num1 at *; linarith, by rw [abs_eq]; exact (f64.fabs_facts x).1⟩
        have hsq : a ^ 2 ≤ 1 / 2 ^ 100 * a := by rw [sq]; exact mul_le_mul_of_nonneg_right b3' ha0
        rw [s64, abs_le]
        norm_num1 at *
        constructor <;> linarith

theorem tanh_fin (N : FPU f64) {x : D} {X : ℝ} (hx : GFv f64 x X) :
    Ok (tanh N x) fun z => ∃ V, GFv f64 z V ∧ |V - Real.tanh X| ≤ 4.6 * (1 / 2 ^ (f64.s + 1)) * |Real.tanh X| ∧ |V| ≤ 1 ∧ f64.sign z = f64.sign x := by
  obtain ⟨t, ht, V, hV, eV, V1, hs⟩ := tanhAbs_fin N (abs_fv hx) (abs_nonneg X)
  have hV0 := hV.nonneg hs
  have hT0 : 0 ≤ Real.tanh |X| := by
    rw [Real.tanh_eq_sinh_div_cosh]; exact div_nonneg (Real.sinh_nonneg_iff.mpr (abs_nonneg X)) (Real.cosh_pos _).le
  have e := hx.eq_abs
  unfold tanh
  rw [ht, show x.toNat >>> 63 = if f64.sign x then 1 else 0 by rw [← sign64, ← Nat.shiftRight_add]]
  simp only [ok_bind]
  cases hsx : f64.sign x
  · rw [hsx] at e; simp only [Bool.false_eq_true, if_false] at e
    rw [← e] at eV hT0
    refine ⟨t, by simp, V, hV, ?_, ?_, hs⟩
    · rw [abs_of_nonneg hT0]; exact eV
    · rw [abs_of_nonneg hV0]; exact V1
  · rw [hsx] at e; simp only [if_true] at e
    refine ⟨f64.neg t, by simp, -V, hV.neg, ?_, ?_, by rw [f64.sign_neg, hs]; rfl⟩
    · have e2 : Real.tanh X = -Real.tanh |X| := by conv_lhs => rw [e, Real.tanh_neg]
      rw [e2, abs_neg, abs_of_nonneg hT0, show -V - -Real.tanh |X| = -(V - Real.tanh |X|) by ring, abs_neg]
      exact eV
    · rw [abs_neg, abs_of_nonneg hV0]; exact V1

theorem tanh_special (N : FPU f64) (x : D) :
    (f64.IsNaN x → Ok (tanh N x) f64.IsNaN) ∧ (f64.IsInf x → Ok (tanh N x) fun z => f64.val z = if f64.sign x then -1 else 1) := by
  have hs : f64.sign (abs64 x) = false := by rw [abs_eq]; exact (f64.fabs_facts x).1
  have hm : f64.mag (abs64 x) = f64.mag x := by rw [abs_eq]; exact (f64.fabs_facts x).2
  constructor
  · intro h
    have hw := w_big (le_of_lt h)
    have hn : f64.IsNaN (abs64 x) := by unfold Fmt.IsNaN at *; rw [hm]; exact h
    have h1 := (N.div_spec 0#f64.w (abs64 x)).2.1 (Or.inr hn)
    have h2 : f64.IsNaN (N.sub K64.one (N.div 0#f64.w (abs64 x))) := by
      refine (N.sub_spec K64.one _).2.1 (Or.inr ?_)
      unfold Fmt.IsNaN at *; rw [f64.mag_neg]; exact h1
    have ht : tanhAbs N (abs64 x) = .ok (N.sub K64.one (N.div 0#f64.w (abs64 x))) := by
      unfold tanhAbs
      simp only
      rw [if_pos (by omega), if_pos (by omega)]
    unfold tanh
    rw [ht]
    refine ⟨_, rfl, ?_⟩
    split
    · unfold Fmt.IsNaN at *; rw [f64.mag_neg]; exact h2
    · exact h2
  · intro h
    have hw := w_big (le_of_eq h.symm)
    have hn : f64.IsInf (abs64 x) := by unfold Fmt.IsInf at *; rw [hm]; exact h
    have hnn : ¬ f64.IsNaN (abs64 x) := by unfold Fmt.IsInf Fmt.IsNaN at *; omega
    have h1 := (N.div_spec 0#f64.w (abs64 x)).2.2 (by decide) hnn (Or.inr (Or.inl hn))
    have hz : ¬ f64.IsZero (abs64 x) := by
      have e : f64.infRep = 0x7ff0000000000000 := by decide
      unfold Fmt.IsInf Fmt.IsZero at *; omega
    rw [if_neg (by
      rintro (⟨h, -⟩ | ⟨-, h⟩)
      · exact absurd h (by decide)
      · exact hz h), if_pos hn] at h1
    have hd : GFv f64 (N.div 0#f64.w (abs64 x)) 0 := by
      have h2 : f64.mag (N.div 0#f64.w (abs64 x)) = 0 := h1.2
      refine ⟨?_, ?_⟩
      · unfold Fmt.IsFin; rw [h2]; decide
      · unfold Fmt.valK; rw [h2, ← f64.magVal_cast, f64.magVal_zero]; simp
    have h1 : GFv f64 (N.sub K64.one (N.div 0#f64.w (abs64 x))) 1 := by
      have := ok64.one.subR N hd
      rw [sub_zero] at this
      exact GFv.of_rounds big64 (j := 0) this ⟨1, by simp⟩ (by rw [abs_one, s64]; norm_num) (by rw [b64, s64]; norm_num) (by norm_num)
    have ht : tanhAbs N (abs64 x) = .ok (N.sub K64.one (N.div 0#f64.w (abs64 x))) := by
      unfold tanhAbs
      simp only
      rw [if_pos (by omega), if_pos (by omega)]
    unfold tanh
    rw [ht, show x.toNat >>> 63 = if f64.sign x then 1 else 0 by rw [← sign64, ← Nat.shiftRight_add]]
    refine ⟨_, rfl, ?_⟩
    cases f64.sign x
    · have := h1.valQ
      simp only [Bool.false_eq_true, if_false, ne_eq, not_true_eq_false]
      exact_mod_cast this
    · have := h1.neg.valQ
      simp only [if_true, ne_eq, one_ne_zero, not_false_eq_true]
      exact_mod_cast this
end Hyper
end Verif
