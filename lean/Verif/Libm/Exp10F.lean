import Verif.Libm.Exp2Top
import Verif.Libm.LogR
import Verif.Props.LibmParts
import Verif.Props.Conv
/-! # Accuracy of `exp10f` -/
namespace Verif
open Fmt
namespace Exp2
open Cbrtf (widen_fv narrow_fv)

/-! ### The constants -/

/-- 22 digits of `ln 10` -/
theorem ln10_near : |Real.log 10 - 2.30258509299404568402| ≤ 1 / 10 ^ 20 := by
  have h := Poly.log_rat (P := Poly.logL) (B := 0) (n := 0) (by decide +kernel) (f := 1 / 4) (s := 1 / 9) (by norm_num) (by norm_num) (by rw [abs_of_pos (by norm_num)]; norm_num)
  have e : Real.log 10 = 3 * Real.log 2 + Real.log (1 + 1 / 4) := by
    rw [show (10 : ℝ) = 2 ^ 3 * (1 + 1 / 4) by norm_num, Real.log_mul (by norm_num) (by norm_num), Real.log_pow]; push_cast; ring
  have h2 := Poly.ln2_gt
  have h3 := Poly.ln2_lt
  rw [e]
  unfold Poly.ln2L at h2
  unfold Poly.ln2H at h3
  push_cast at h2 h3
  simp only [Poly.logL, Poly.ev] at h
  rw [abs_of_pos (show (0 : ℝ) < 1 / 9 by norm_num)] at h
  push_cast at h
  rw [abs_le] at h ⊢
  norm_num at h h2 h3 ⊢
  constructor <;> linarith [h.1, h.2]

theorem ln2_near : |Real.log 2 - 0.693147180559945309417| ≤ 1 / 10 ^ 20 := by
  have h2 := Poly.ln2_gt
  have h3 := Poly.ln2_lt
  unfold Poly.ln2L at h2
  unfold Poly.ln2H at h3
  push_cast at h2 h3
  rw [abs_le]
  norm_num at h2 h3 ⊢
  constructor <;> linarith

theorem ln10F_fv : GFv f32 LN10F (3483294 / 2 ^ 20) := by
  have := GFv.const (F := f32) (b := LN10F) (q := 3483294 / 2 ^ 20) (by decide +kernel) (by decide +kernel); push_cast at this; exact this
theorem ln10D_fv : GFv f64 LN10 (7480317065143153 / 2 ^ 51) := by
  have := GFv.const (F := f64) (b := LN10) (q := 7480317065143153 / 2 ^ 51) (by decide +kernel) (by decide +kernel); push_cast at this; exact this

theorem dF : |3483294 / 2 ^ 20 * Real.log 2 - Real.log 10| ≤ 0.83 / 2 ^ 24 := by
  have h1 := ln10_near
  have h2 := ln2_near
  rw [abs_le] at *
  norm_num at *
  constructor <;> linarith [h1.1, h1.2, h2.1, h2.2]
theorem dD : |7480317065143153 / 2 ^ 51 * Real.log 2 - Real.log 10| ≤ 1 / 2 ^ 52 := by
  have h1 := ln10_near
  have h2 := ln2_near
  rw [abs_le] at *
  norm_num at *
  constructor <;> linarith [h1.1, h1.2, h2.1, h2.2]

/-! ### The table -/

/-- the entries of the table -/
def pF (i : ℕ) : S := BitVec.ofNat f32.w (P10.getD i 0)

theorem pF_pos : ((List.range 8).all fun i => decide (f32.mag (pF (i + 7)) < f32.infRep) && decide (f32.val (pF (i + 7)) = 10 ^ i)) = true := by decide +kernel
theorem pF_neg : ((List.range 8).all fun i => decide (FPU.softF32.div oneF (pF (7 + i)) = pF (7 - i))) = true := by decide +kernel

theorem pF_up {i : ℕ} (hi : i < 8) : GFv f32 (pF (i + 7)) (10 ^ i) := by
  have h := pF_pos
  rw [List.all_eq_true] at h
  have h := h i (List.mem_range.mpr hi)
  rw [Bool.and_eq_true, decide_eq_true_iff, decide_eq_true_iff] at h
  have := GFv.const h.1 h.2
  push_cast at this; exact this

/-- every entry is the float nearest to its power of ten -/
theorem pF_rounds {k : ℤ} (h1 : -7 ≤ k) (h2 : k ≤ 7) : f32.Rounds ((10 : ℝ) ^ k) (pF (k + 7).toNat) := by
  have h := pF_neg
  rw [List.all_eq_true] at h
  rcases le_or_gt 0 k with h0 | h0
  · have g := pF_up (i := k.toNat) (by omega)
    have := g.addR FPU.softF32 (GFv.const (F := f32) (b := 0#f32.w) (q := 0) (by decide +kernel) (by decide +kernel))
    have e : (10 : ℝ) ^ k = 10 ^ k.toNat := by rw [← zpow_natCast]; congr 1; omega
    rw [e, show (k + 7).toNat = k.toNat + 7 by omega]
    have r := g.divR FPU.softF32 one_fvF (by norm_num)
    rw [div_one] at r
    have hd : FPU.softF32.div (pF (k.toNat + 7)) oneF = pF (k.toNat + 7) := by
      have : k.toNat < 8 := by omega
      generalize k.toNat = m at *
      interval_cases m <;> decide +kernel
    rwa [hd] at r
  · have h := h (-k).toNat (List.mem_range.mpr (by omega))
    rw [decide_eq_true_iff] at h
    have g := pF_up (i := (-k).toNat) (by omega)
    have r := one_fvF.divR FPU.softF32 g (by positivity)
    rw [Nat.add_comm] at r
    rw [h] at r
    have e : (10 : ℝ) ^ k = 1 / 10 ^ (-k).toNat := by
      rw [one_div, ← zpow_natCast, ← zpow_neg]; congr 1; omega
    rw [e, show (k + 7).toNat = 7 - (-k).toNat by omega]
    exact r

theorem p10_bds {k : ℤ} (h1 : -7 ≤ k) (h2 : k ≤ 7) : (2 : ℝ) ^ (-24 : ℤ) ≤ 10 ^ k ∧ (10 : ℝ) ^ k ≤ 2 ^ (24 : ℤ) := by
  constructor
  · calc (2 : ℝ) ^ (-24 : ℤ) ≤ 10 ^ (-7 : ℤ) := by norm_num
      _ ≤ _ := zpow_le_zpow_right₀ (by norm_num) h1
  · calc (10 : ℝ) ^ k ≤ 10 ^ (7 : ℤ) := zpow_le_zpow_right₀ (by norm_num) h2
      _ ≤ _ := by norm_num

theorem pF_err {k : ℤ} (h1 : -7 ≤ k) (h2 : k ≤ 7) : ∃ P, GFv f32 (pF (k + 7).toNat) P ∧ |P - 10 ^ k| ≤ 1 / 2 ^ 24 * 10 ^ k := by
  have r := pF_rounds h1 h2
  obtain ⟨b1, b2⟩ := p10_bds h1 h2
  have hp : (0 : ℝ) < 10 ^ k := by positivity
  have := r.rel f32 (by rw [abs_of_pos hp, b32]; exact le_trans (zpow_le_zpow_right₀ (by norm_num) (by norm_num)) b1)
    (by rw [abs_of_pos hp, b32]; exact b2.trans (zpow_le_zpow_right₀ (by norm_num) (by norm_num)))
  rw [abs_of_pos hp, s32, show (2 : ℝ) ^ (-((23 : ℕ) : ℤ) - 1) = 1 / 2 ^ 24 by norm_num] at this
  exact ⟨_, ⟨r.fin100 big32 (by rw [abs_of_pos hp]; exact b2.trans (zpow_le_zpow_right₀ (by norm_num) (by norm_num))), rfl⟩, this⟩

theorem pow10_eq {n : S} {k : ℤ} (hn : f32.IsFin n) (hv : f32.val n = k) (h1 : -7 ≤ k) (h2 : k ≤ 7) : pow10 n = .ok (pF (k + 7).toNat) := by
  obtain ⟨r, r1, r2⟩ := Props.C32_signed_finite (F := f32) (N := 64) ⟨by simp, by simp⟩ hn
  have ht : truncZ (f32.val n) = k := by
    unfold truncZ
    rw [hv]
    split
    · rw [← Int.cast_neg, Int.floor_intCast]; omega
    · rw [Int.floor_intCast]
  unfold satTrunc at r2
  rw [ht] at r2
  have r3 : r.toInt = k := by rw [r2]; norm_num; omega
  unfold pow10
  rw [r1]
  simp only [bind, Except.bind, r3]
  rw [if_pos (by omega)]
  unfold Pio2.rd
  rw [if_pos (by omega)]
  rfl

/-! ### Small arguments -/

/-- `exp2f` with a relative error in the middle range -/
theorem exp2f_mid (N : FPU f32) (N64 : FPU f64) (C : FloatCast f32 f64) {x : S} {X : ℝ} (hx : GFv f32 x X) (h : |X| ≤ 4) :
    Ok (exp2f N N64 C x) fun z => ∃ Y, GFv f32 z Y ∧ |Y - Real.exp (X * Real.log 2)| ≤ 1.02 / 2 ^ 24 * Real.exp (X * Real.log 2) := by
  have hl0 := Poly.log2_pos
  have hl7 := Poly.log2_lt
  have h' := h
  rw [abs_le] at h'
  unfold exp2f
  rcases le_or_gt |X| (1 / 2 ^ 25) with h2 | h2
  · rw [specialF_one N hx h2]
    refine ⟨_, rfl, 1, tinyF N hx h2, ?_⟩
    have hw : |X * Real.log 2| ≤ 1 / 2 ^ 25 * 0.7 := by
      rw [abs_mul, abs_of_pos hl0]; exact mul_le_mul h2 hl7.le hl0.le (by norm_num)
    have h3 := Real.abs_exp_sub_one_le (x := X * Real.log 2) (hw.trans (by norm_num))
    rw [abs_sub_comm]
    generalize |X * Real.log 2| = w at *
    generalize Real.exp (X * Real.log 2) = E at *
    have h4 := h3
    rw [abs_le] at h4
    linarith [h4.1]
  rw [specialF_none N hx (by linarith [h'.1]) (by linarith [h'.2]) h2]
  refine (mainF_spec N N64 C hx (by linarith [h'.1]) (by linarith [h'.2])).mono ?_
  rintro z ⟨v, v1, v2⟩
  have hE1 : Real.exp (X * Real.log 2) ≤ 16 := by
    have : X * Real.log 2 ≤ 0 + ((4 : ℤ) : ℝ) * Real.log 2 := by push_cast; nlinarith [h'.2]
    have := Real.exp_le_exp.mpr this
    rw [Exp.exp_add_log, Real.exp_zero] at this
    norm_num at this ⊢; exact this
  have hE0 : 1 / 16 ≤ Real.exp (X * Real.log 2) := by
    have : 0 + ((-4 : ℤ) : ℝ) * Real.log 2 ≤ X * Real.log 2 := by push_cast; nlinarith [h'.1]
    have := Real.exp_le_exp.mpr this
    rw [Exp.exp_add_log, Real.exp_zero] at this
    norm_num at this ⊢; exact this
  generalize Real.exp (X * Real.log 2) = E at *
  have v3 := v1
  rw [abs_le] at v3
  have v4 : 1 / 32 ≤ v ∧ v ≤ 32 := by constructor <;> linarith [v3.1, v3.2]
  have va : |v| = v := abs_of_nonneg (by linarith [v4.1])
  have hr := v2.rel f32 (by
      rw [va, b32]; refine le_trans ?_ v4.1
      calc (2 : ℝ) ^ (1 - ((127 : ℕ) : ℤ)) ≤ 2 ^ (-5 : ℤ) := zpow_le_zpow_right₀ (by norm_num) (by norm_num)
        _ ≤ _ := by norm_num) (by
      rw [va, b32]; refine v4.2.trans ?_
      calc (32 : ℝ) = 2 ^ (5 : ℤ) := by norm_num
        _ ≤ _ := zpow_le_zpow_right₀ (by norm_num) (by norm_num))
  rw [va, s32, show (2 : ℝ) ^ (-((23 : ℕ) : ℤ) - 1) = 1 / 2 ^ 24 by norm_num] at hr
  refine ⟨_, ⟨v2.fin100 big32 (by rw [va]; exact v4.2.trans (by norm_num)), rfl⟩, ?_⟩
  have t := abs_add_le (f32.valK ℝ z - v) (v - E)
  rw [sub_add_sub_cancel] at t
  linarith [v3.2]

theorem combine10 {z p r e1 e2 δ E : ℝ} (he1 : 0 < e1) (he2 : 0 < e2) (hz : |z - e1| ≤ 1.02 / 2 ^ 24 * e1) (hp : |p - e2| ≤ 1 / 2 ^ 24 * e2)
    (hr : |r - z * p| ≤ 1.01 / 2 ^ 24 * |z * p|) (hδ : |δ| ≤ 3.16 / 2 ^ 24) (hE : E = e1 * Real.exp δ * e2) : |r - E| ≤ 6.2 / 2 ^ 24 * E := by
  have d := Real.abs_exp_sub_one_sub_id_le (x := δ) (hδ.trans (by norm_num))
  have d2 : δ ^ 2 ≤ (3.16 / 2 ^ 24) ^ 2 := by rw [← sq_abs]; exact pow_le_pow_left₀ (abs_nonneg _) hδ 2
  have d3 : |Real.exp δ - 1| ≤ 3.161 / 2 ^ 24 := by
    have := abs_add_le (Real.exp δ - 1 - δ) δ
    rw [sub_add_cancel] at this
    norm_num at *
    linarith
  rw [hE]
  generalize Real.exp δ = x at *
  rw [abs_le] at hz hp d3
  have z1 : z * (1 : ℝ) ≤ (1 + 1.02 / 2 ^ 24) * e1 := by linarith [hz.2]
  have z0 : (1 - 1.02 / 2 ^ 24) * e1 ≤ z := by linarith [hz.1]
  have p1 : p ≤ (1 + 1 / 2 ^ 24) * e2 := by linarith [hp.2]
  have p0 : (1 - 1 / 2 ^ 24) * e2 ≤ p := by linarith [hp.1]
  have hz0 : 0 ≤ z := le_trans (mul_nonneg (by norm_num) he1.le) z0
  have hp0 : 0 ≤ p := le_trans (mul_nonneg (by norm_num) he2.le) p0
  rw [abs_of_nonneg (mul_nonneg hz0 hp0)] at hr
  have u1 : z * p ≤ (1 + 1.02 / 2 ^ 24) * (1 + 1 / 2 ^ 24) * (e1 * e2) := by
    calc z * p ≤ ((1 + 1.02 / 2 ^ 24) * e1) * ((1 + 1 / 2 ^ 24) * e2) := mul_le_mul (by linarith) p1 hp0 (mul_nonneg (by norm_num) he1.le)
      _ = _ := by ring
  have u0 : (1 - 1.02 / 2 ^ 24) * (1 - 1 / 2 ^ 24) * (e1 * e2) ≤ z * p := by
    calc _ = ((1 - 1.02 / 2 ^ 24) * e1) * ((1 - 1 / 2 ^ 24) * e2) := by ring
      _ ≤ _ := mul_le_mul z0 p0 (mul_nonneg (by norm_num) he2.le) hz0
  rw [abs_le] at hr
  have hee : 0 < e1 * e2 := mul_pos he1 he2
  rw [show e1 * x * e2 = x * (e1 * e2) by ring]
  generalize e1 * e2 = e at *
  generalize z * p = q at *
  have x1 : x * e ≤ (1 + 3.161 / 2 ^ 24) * e := mul_le_mul_of_nonneg_right (by linarith [d3.2]) hee.le
  have x0 : (1 - 3.161 / 2 ^ 24) * e ≤ x * e := mul_le_mul_of_nonneg_right (by linarith [d3.1]) hee.le
  generalize x * e = E' at *
  rw [abs_le]
  norm_num at *
  constructor <;> linarith [hr.1, hr.2]

/-- the float is nearest to a power of ten, or near it -/
theorem small_spec (N : FPU f32) (N64 : FPU f64) (C : FloatCast f32 f64) {y n : S} {Y : ℝ} {k : ℤ} (hy : GFv f32 y Y) (hn : f32.IsFin n)
    (hv : f32.val n = k) (hY : |Y| < 1) (h1 : -7 ≤ k) (h2 : k ≤ 7) :
    Ok (small N N64 C y n) fun z => f32.IsFin z ∧ |f32.valK ℝ z - Real.exp ((Y + k) * Real.log 10)| ≤ 6.2 / 2 ^ 24 * Real.exp ((Y + k) * Real.log 10) ∧
      (Y = 0 → f32.Near (Real.exp ((Y + k) * Real.log 10)) z) := by
  have e10 : Real.exp (k * Real.log 10) = 10 ^ k := by
    rw [mul_comm, Real.exp_mul, Real.exp_log (by norm_num), Real.rpow_intCast]
  have hzv : GFv f32 0#f32.w 0 := by
    have := GFv.const (F := f32) (b := 0#f32.w) (q := 0) (by decide +kernel) (by decide +kernel); simpa using this
  have hq := f32.feq_val hy.fin hzv.fin
  obtain ⟨P, p1, p2⟩ := pF_err h1 h2
  obtain ⟨b1, b2⟩ := p10_bds h1 h2
  have hp : (0 : ℝ) < 10 ^ k := by positivity
  unfold small
  by_cases h0 : Y = 0
  · have : f32.feq y 0#f32.w = true := by
      rw [hq]
      have := hy.valQ
      have h3 := hzv.valQ
      rw [h0, ← h3] at this
      exact_mod_cast this
    rw [this, if_pos rfl, pow10_eq hn hv h1 h2]
    refine ⟨_, rfl, p1.fin, ?_, fun _ => ?_⟩
    · rw [h0, zero_add, e10, p1.val]
      refine p2.trans (mul_le_mul_of_nonneg_right (by norm_num) hp.le)
    · rw [h0, zero_add, e10]
      exact (pF_rounds h1 h2).nearF f32 p1.fin
  · have : ¬ f32.feq y 0#f32.w = true := by
      rw [hq]
      intro hc
      have h3 := hzv.valQ
      rw [← hc, hy.valQ] at h3
      exact h0 h3
    rw [if_neg this]
    have hpr := ln10F_fv.mulR N hy
    have hab : |3483294 / 2 ^ 20 * Y| ≤ 3.33 := by
      rw [abs_mul, abs_of_pos (by norm_num)]
      norm_num
      linarith
    obtain ⟨W, w1, w2⟩ := GFv.rnd big32 hpr (hab.trans (by norm_num))
    rw [s32] at w2
    have w3 : |W - 3483294 / 2 ^ 20 * Y| ≤ 3.331 / 2 ^ 24 := by
      refine w2.trans ?_
      norm_num at hab ⊢
      linarith
    have w4 : |W| ≤ 4 := by
      have := abs_add_le (W - 3483294 / 2 ^ 20 * Y) (3483294 / 2 ^ 20 * Y)
      rw [sub_add_cancel] at this
      norm_num at *
      linarith
    obtain ⟨z, z1, Z, z2, z3⟩ := exp2f_mid N N64 C w1 w4
    rw [z1, pow10_eq hn hv h1 h2]
    simp only [bind, Except.bind, pure, Except.pure]
    have hl0 := Poly.log2_pos
    have hl7 := Poly.log2_lt
    have hEW1 : Real.exp (W * Real.log 2) ≤ 17 := by
      rw [abs_le] at w4
      have : W * Real.log 2 ≤ 0 + ((4 : ℤ) : ℝ) * Real.log 2 := by push_cast; nlinarith [w4.2]
      have := Real.exp_le_exp.mpr this
      rw [Exp.exp_add_log, Real.exp_zero] at this
      norm_num at this ⊢; linarith
    have hEW0 : 1 / 16 ≤ Real.exp (W * Real.log 2) := by
      rw [abs_le] at w4
      have : 0 + ((-4 : ℤ) : ℝ) * Real.log 2 ≤ W * Real.log 2 := by push_cast; nlinarith [w4.1]
      have := Real.exp_le_exp.mpr this
      rw [Exp.exp_add_log, Real.exp_zero] at this
      norm_num at this ⊢; exact this
    have hm := z2.mulR N p1
    have z3' := z3
    have p2' := p2
    rw [abs_le] at z3' p2'
    have Z0 : 1 / 32 ≤ Z ∧ Z ≤ 32 := by
      generalize Real.exp (W * Real.log 2) = E at *
      constructor <;> linarith [z3'.1, z3'.2]
    have P0 : 2 ^ (-25 : ℤ) ≤ P ∧ P ≤ 2 ^ (25 : ℤ) := by
      generalize (10 : ℝ) ^ k = t at *
      norm_num at *
      constructor <;> linarith [p2'.1, p2'.2]
    have Pp : 0 < P := lt_of_lt_of_le (by positivity) P0.1
    have ZP : |Z * P| = Z * P := abs_of_pos (mul_pos (by linarith [Z0.1]) Pp)
    have ZP0 : 2 ^ (-30 : ℤ) ≤ Z * P := by
      calc (2 : ℝ) ^ (-30 : ℤ) = 1 / 32 * 2 ^ (-25 : ℤ) := by norm_num
        _ ≤ _ := mul_le_mul Z0.1 P0.1 (by positivity) (by linarith [Z0.1])
    have ZP1 : Z * P ≤ 2 ^ (30 : ℤ) := by
      calc Z * P ≤ 32 * 2 ^ (25 : ℤ) := mul_le_mul Z0.2 P0.2 Pp.le (by norm_num)
        _ = _ := by norm_num
    have hr := hm.rel f32 (by rw [ZP, b32]; exact le_trans (zpow_le_zpow_right₀ (by norm_num) (by norm_num)) ZP0)
      (by rw [ZP, b32]; exact ZP1.trans (zpow_le_zpow_right₀ (by norm_num) (by norm_num)))
    rw [s32, show (2 : ℝ) ^ (-((23 : ℕ) : ℤ) - 1) = 1 / 2 ^ 24 by norm_num] at hr
    refine ⟨_, rfl, hm.fin100 big32 (by rw [ZP]; exact ZP1.trans (zpow_le_zpow_right₀ (by norm_num) (by norm_num))), ?_, fun h => absurd h h0⟩
    refine combine10 (δ := Y * Real.log 10 - W * Real.log 2) (Real.exp_pos _) hp z3 p2
      (hr.trans (mul_le_mul_of_nonneg_right (by norm_num) (abs_nonneg _))) ?_ ?_
    · have e : Y * Real.log 10 - W * Real.log 2 = -((3483294 / 2 ^ 20 * Real.log 2 - Real.log 10) * Y) - (W - 3483294 / 2 ^ 20 * Y) * Real.log 2 := by ring
      rw [e]
      have a1 : |(3483294 / 2 ^ 20 * Real.log 2 - Real.log 10) * Y| ≤ 0.83 / 2 ^ 24 * 1 := by
        rw [abs_mul]; exact mul_le_mul dF hY.le (abs_nonneg _) (by norm_num)
      have a2 : |(W - 3483294 / 2 ^ 20 * Y) * Real.log 2| ≤ 3.331 / 2 ^ 24 * 0.6932 := by
        rw [abs_mul, abs_of_pos hl0]
        have := ln2_near
        rw [abs_le] at this
        exact mul_le_mul w3 (by norm_num at this ⊢; linarith [this.2]) hl0.le (by norm_num)
      have := abs_sub (-((3483294 / 2 ^ 20 * Real.log 2 - Real.log 10) * Y)) ((W - 3483294 / 2 ^ 20 * Y) * Real.log 2)
      rw [abs_neg] at this
      norm_num at *
      linarith
    · rw [← Real.exp_add, ← e10, ← Real.exp_add]; congr 1; ring

/-! ### Large arguments -/

theorem finB {v : ℝ} {z : D} (h : f64.Rounds v z) (hv : |v| ≤ 2 ^ (200 : ℤ)) : f64.IsFin z := by
  have hr : f64.Rp (2 ^ (200 : ℤ) : ℝ) := f64.rp_pow (by rw [b64, s64]; norm_num)
  have hp : (0 : ℝ) < 2 ^ (200 : ℤ) := by positivity
  have hb : |(2 : ℝ) ^ (200 : ℤ)| ≤ 2 ^ ((f64.bias : ℤ) + 1) := by
    rw [abs_of_pos hp, b64]; exact zpow_le_zpow_right₀ (by norm_num) (by norm_num)
  rw [abs_le] at hv
  have h1 := h.le_of f64 hr hb hv.2
  have hr' : f64.Rp (-(2 ^ (200 : ℤ)) : ℝ) := by
    have := f64.rp_of (m := -1) (j := 200) (v := -(2 ^ (200 : ℤ))) (by norm_num) (by rw [s64]; norm_num) (by rw [b64, s64]; norm_num)
    exact this
  have h2 := h.ge_of f64 hr' (by rw [abs_neg]; exact hb) hv.1
  unfold Fmt.IsFin
  rw [← f64.magValR_lt_iff, f64.magValR_infRep, ← f64.absvR, b64]
  refine lt_of_le_of_lt (abs_le.mpr ⟨h2, h1⟩) (zpow_lt_zpow_right₀ (by norm_num) (by norm_num))

/-- the argument of `exp2` -/
theorem arg_spec (N64 : FPU f64) (C : FloatCast f32 f64) {x : S} {X : ℝ} (hx : GFv f32 x X) (h8 : 8 ≤ |X|) :
    ∃ W, GFv f64 (N64.mul LN10 (C.widen x)) W ∧ |W - 7480317065143153 / 2 ^ 51 * X| ≤ 1 / 2 ^ 53 * (3.33 * |X|) := by
  have hr := ln10D_fv.mulR N64 (widen_fv C hx)
  have hX : |X| < 2 ^ (128 : ℤ) := by
    rw [← hx.val, f32.absvR]
    have : f32.mag x < f32.infRep := hx.fin
    rw [← f32.magValR_lt_iff, f32.magValR_infRep, b32] at this
    exact this
  have ha : |7480317065143153 / 2 ^ 51 * X| ≤ 3.33 * |X| := by
    rw [abs_mul, abs_of_pos (by norm_num)]
    exact mul_le_mul_of_nonneg_right (by norm_num) (abs_nonneg _)
  have ha0 : |X| ≤ |7480317065143153 / 2 ^ 51 * X| := by
    rw [abs_mul, abs_of_pos (show (0 : ℝ) < 7480317065143153 / 2 ^ 51 by norm_num)]
    exact le_mul_of_one_le_left (abs_nonneg _) (by norm_num)
  have ha2 : |7480317065143153 / 2 ^ 51 * X| ≤ 2 ^ (130 : ℤ) := by
    refine ha.trans ?_
    have : (2 : ℝ) ^ (130 : ℤ) = 4 * 2 ^ (128 : ℤ) := by norm_num
    rw [this]
    exact mul_le_mul (by norm_num) hX.le (abs_nonneg _) (by norm_num)
  have hrel := hr.rel f64 (by
      rw [b64]; refine le_trans ?_ (h8.trans ha0)
      calc (2 : ℝ) ^ (1 - ((1023 : ℕ) : ℤ)) ≤ 2 ^ (3 : ℤ) := zpow_le_zpow_right₀ (by norm_num) (by norm_num)
        _ = _ := by norm_num) (by
      rw [b64]; exact ha2.trans (zpow_le_zpow_right₀ (by norm_num) (by norm_num)))
  rw [s64, show (2 : ℝ) ^ (-((52 : ℕ) : ℤ) - 1) = 1 / 2 ^ 53 by norm_num] at hrel
  exact ⟨_, ⟨finB hr (ha2.trans (zpow_le_zpow_right₀ (by norm_num) (by norm_num))), rfl⟩, hrel.trans (mul_le_mul_of_nonneg_left ha (by norm_num))⟩

/-- in the middle range the value before the last rounding is near the power -/
theorem large_mid (N64 : FPU f64) (C : FloatCast f32 f64) {x : S} {X : ℝ} (hx : GFv f32 x X) (h8 : 8 ≤ |X|) (h1 : -60 ≤ X) (h2 : X ≤ 100) :
    Ok (large N64 C x) fun z => ∃ v, |v - Real.exp (X * Real.log 10)| ≤ 1 / 2 ^ 40 * Real.exp (X * Real.log 10) ∧ f32.Rounds v z := by
  obtain ⟨W, w1, w2⟩ := arg_spec N64 C hx h8
  have hXa : |X| ≤ 100 := by rw [abs_le]; constructor <;> linarith
  have w3 : |W - 7480317065143153 / 2 ^ 51 * X| ≤ 333 / 2 ^ 53 := w2.trans (by
    calc 1 / 2 ^ 53 * (3.33 * |X|) ≤ 1 / 2 ^ 53 * (3.33 * 100) := by gcongr
      _ ≤ _ := by norm_num)
  have w4 := w3
  rw [abs_le] at w4
  have hW : -200 ≤ W ∧ W < 1024 := by
    norm_num at w4
    constructor <;> linarith [w4.1, w4.2]
  obtain ⟨r, r1, r2, -, r3, -⟩ := exp2_fin N64 w1 hW.2
  unfold large
  rw [r1]
  simp only [bind, Except.bind, pure, Except.pure]
  refine ⟨_, rfl, _, ?_, narrow_fv C (GFv.self r2)⟩
  have hl0 := Poly.log2_pos
  have hl7 := Poly.log2_lt
  obtain ⟨δ, hδ⟩ : ∃ δ, δ = W * Real.log 2 - X * Real.log 10 := ⟨_, rfl⟩
  have hd : |δ| ≤ 1 / 2 ^ 44 := by
    have e : δ = (7480317065143153 / 2 ^ 51 * Real.log 2 - Real.log 10) * X + (W - 7480317065143153 / 2 ^ 51 * X) * Real.log 2 := by rw [hδ]; ring
    rw [e]
    have a1 : |(7480317065143153 / 2 ^ 51 * Real.log 2 - Real.log 10) * X| ≤ 1 / 2 ^ 52 * 100 := by
      rw [abs_mul]; exact mul_le_mul dD hXa (abs_nonneg _) (by norm_num)
    have a2 : |(W - 7480317065143153 / 2 ^ 51 * X) * Real.log 2| ≤ 333 / 2 ^ 53 * 0.7 := by
      rw [abs_mul, abs_of_pos hl0]
      exact mul_le_mul w3 hl7.le hl0.le (by norm_num)
    have := abs_add_le ((7480317065143153 / 2 ^ 51 * Real.log 2 - Real.log 10) * X) ((W - 7480317065143153 / 2 ^ 51 * X) * Real.log 2)
    refine this.trans ((add_le_add a1 a2).trans (by norm_num))
  have he : Real.exp (W * Real.log 2) = Real.exp (X * Real.log 10) * Real.exp δ := by
    rw [← Real.exp_add, hδ]; congr 1; ring
  have d1 : |Real.exp δ - 1| ≤ 1 / 2 ^ 43 := (Real.abs_exp_sub_one_le (hd.trans (by norm_num))).trans (by
    norm_num at hd ⊢; linarith)
  have hlow : (2 : ℝ) ^ (-1075 : ℤ) ≤ 1 / 2 ^ 50 * Real.exp (W * Real.log 2) := by
    have : 0 + ((-200 : ℤ) : ℝ) * Real.log 2 ≤ W * Real.log 2 := by push_cast; nlinarith [hW.1]
    have := Real.exp_le_exp.mpr this
    rw [Exp.exp_add_log, Real.exp_zero, one_mul] at this
    calc (2 : ℝ) ^ (-1075 : ℤ) ≤ 2 ^ (-50 + -200 : ℤ) := zpow_le_zpow_right₀ (by norm_num) (by norm_num)
      _ = 1 / 2 ^ 50 * 2 ^ (-200 : ℤ) := by rw [zpow_add₀ (by norm_num)]; norm_num
      _ ≤ _ := mul_le_mul_of_nonneg_left this (by norm_num)
  rw [he] at r3 hlow
  have hE := Real.exp_pos (X * Real.log 10)
  generalize Real.exp (X * Real.log 10) = E at *
  generalize Real.exp δ = d at *
  have k : |E * d - E| ≤ 1 / 2 ^ 43 * E := by
    rw [show E * d - E = E * (d - 1) by ring, abs_mul, abs_of_pos hE, mul_comm]
    exact mul_le_mul_of_nonneg_right d1 hE.le
  have t := abs_add_le (f64.valK ℝ r - E * d) (E * d - E)
  rw [sub_add_sub_cancel] at t
  generalize E * d = G at *
  generalize (2 : ℝ) ^ (-1075 : ℤ) = p at *
  have k' := k
  rw [abs_le] at k'
  linarith [k'.2]

/-- far below the least number the result is zero -/
theorem large_low (N64 : FPU f64) (C : FloatCast f32 f64) {x : S} {X : ℝ} (hx : GFv f32 x X) (h1 : X < -60) :
    Ok (large N64 C x) fun z => f32.Near (Real.exp (X * Real.log 10)) z := by
  obtain ⟨W, w1, w2⟩ := arg_spec N64 C hx (by rw [abs_of_neg (by linarith)]; linarith)
  rw [abs_of_neg (show X < 0 by linarith)] at w2
  have hW : W ≤ -160 := by
    rw [abs_le] at w2
    norm_num at w2
    linarith [w2.2]
  obtain ⟨r, r1, r2, r4, r3, -⟩ := exp2_fin N64 w1 (by linarith)
  unfold large
  rw [r1]
  simp only [bind, Except.bind, pure, Except.pure]
  refine ⟨_, rfl, ?_⟩
  have hl0 := Poly.log2_pos
  have hEW : Real.exp (W * Real.log 2) ≤ 2 ^ (-160 : ℤ) := by
    have : W * Real.log 2 ≤ 0 + ((-160 : ℤ) : ℝ) * Real.log 2 := by push_cast; nlinarith
    have := Real.exp_le_exp.mpr this
    rwa [Exp.exp_add_log, Real.exp_zero, one_mul] at this
  have hr0 : 0 ≤ f64.valK ℝ r := (GFv.self r2).nonneg r4
  have hr1 : f64.valK ℝ r ≤ 2 ^ (-151 : ℤ) := by
    rw [abs_le] at r3
    have p1 : (2 : ℝ) ^ (-1075 : ℤ) ≤ 2 ^ (-160 : ℤ) := zpow_le_zpow_right₀ (by norm_num) (by norm_num)
    have p2 : (2 : ℝ) ^ (-151 : ℤ) = 2 ^ 9 * 2 ^ (-160 : ℤ) := by norm_num
    rw [p2]
    generalize (2 : ℝ) ^ (-160 : ℤ) = p at *
    generalize (2 : ℝ) ^ (-1075 : ℤ) = q at *
    generalize Real.exp (W * Real.log 2) = E at *
    linarith [r3.2]
  have hn := narrow_fv C (GFv.self r2)
  have hf := hn.fin100 big32 (by
    rw [abs_of_nonneg hr0]; exact hr1.trans (zpow_le_zpow_right₀ (by norm_num) (by norm_num)))
  have hz : GFv f32 0#f32.w 0 := by
    have := GFv.const (F := f32) (b := 0#f32.w) (q := 0) (by decide +kernel) (by decide +kernel); simpa using this
  have hnear := (hn.nearF f32 hf).2 0#f32.w hz.fin
  rw [hz.val, sub_zero, abs_of_nonneg hr0] at hnear
  have hv : f32.valK ℝ (C.narrow r) = 0 := by
    rw [abs_le] at hnear
    rcases lt_trichotomy (f32.valK ℝ (C.narrow r)) 0 with h | h | h
    · linarith [hnear.2]
    · exact h
    · have g := f32.gap_abs (b := 0#f32.w) (c := C.narrow r) (by rw [hz.val]; exact h)
      rw [hz.val, b32, s32, sub_zero] at g
      have e : (2 : ℝ) ^ (1 - ((127 : ℕ) : ℤ) - ((23 : ℕ) : ℤ)) = 4 * 2 ^ (-151 : ℤ) := by norm_num
      rw [e] at g
      have : (0 : ℝ) < 2 ^ (-151 : ℤ) := by positivity
      linarith [hnear.1]
  have hE : Real.exp (X * Real.log 10) ≤ 2 ^ (-150 : ℤ) := by
    have h10 : 2 * Real.log 2 ≤ Real.log 10 * 0.9 := by
      have a := ln10_near
      have b := ln2_near
      rw [abs_le] at a b
      norm_num at a b ⊢
      linarith [a.1, b.2]
    have h100 : 0 < Real.log 10 := by nlinarith
    have : X * Real.log 10 ≤ 0 + ((-150 : ℤ) : ℝ) * Real.log 2 := by
      push_cast
      have a := ln10_near
      have b := ln2_near
      rw [abs_le] at a b
      norm_num at a b
      nlinarith [a.1, b.2]
    have := Real.exp_le_exp.mpr this
    rwa [Exp.exp_add_log, Real.exp_zero, one_mul] at this
  have hz0 := near_zero (Real.exp_pos (X * Real.log 10)).le hE
  refine ⟨hf, fun c hc => ?_⟩
  have := hz0.2 c hc
  rwa [hz.val, ← hv] at this

/-- the overflow limit -/
theorem limit {x : S} {X : ℝ} (hx : GFv f32 x X) :
    (Real.exp (X * Real.log 10) < 2 ^ (128 : ℤ) → X ≤ 10100890 / 2 ^ 18) ∧ (2 ^ (128 : ℤ) ≤ Real.exp (X * Real.log 10) → 10100891 / 2 ^ 18 ≤ X) := by
  have h100 : 0 < Real.log 10 := by
    have a := ln10_near
    rw [abs_le] at a
    norm_num at a
    linarith [a.1]
  have e128 : Real.exp (0 + ((128 : ℤ) : ℝ) * Real.log 2) = 2 ^ (128 : ℤ) := by rw [Exp.exp_add_log, Real.exp_zero, one_mul]
  have m1 := mag_le hx (c := 0x421a209a) (q := 10100890 / 2 ^ 18) (by decide +kernel)
  have m2 := hx.mag_lt (c := 0x421a209b) (q := 10100891 / 2 ^ 18) (by decide +kernel)
  push_cast at m1 m2
  have a := ln10_near
  have b := ln2_near
  rw [abs_le] at a b
  norm_num at a b
  constructor
  · intro h
    by_contra hc
    rw [not_le] at hc
    have h0 : 0 < X := lt_trans (by norm_num) hc
    rw [abs_of_pos h0] at m1 m2
    have : ¬ f32.mag x < 0x421a209b := fun h => absurd (m1.mp (by omega)) (not_le.mpr hc)
    have hX : 10100891 / 2 ^ 18 ≤ X := not_lt.mp fun h => this (m2.mpr h)
    refine absurd h (not_lt.mpr ?_)
    rw [← e128]
    apply Real.exp_le_exp.mpr
    push_cast
    have : 10100891 / 2 ^ 18 * Real.log 10 ≤ X * Real.log 10 := mul_le_mul_of_nonneg_right hX h100.le
    norm_num at this
    linarith [a.1, b.2]
  · intro h
    by_contra hc
    rw [not_le] at hc
    refine absurd h (not_le.mpr ?_)
    have hX : X ≤ 10100890 / 2 ^ 18 := by
      rcases le_or_gt X 0 with h0 | h0
      · exact h0.trans (by norm_num)
      · rw [abs_of_pos h0] at m1 m2
        exact m1.mp (by have := m2.mpr hc; omega)
    rw [← e128]
    apply Real.exp_lt_exp.mpr
    push_cast
    have : X * Real.log 10 ≤ 10100890 / 2 ^ 18 * Real.log 10 := mul_le_mul_of_nonneg_right hX h100.le
    norm_num at this
    linarith [a.2, b.1]

/-- below the limit: the result of the large branch is nearest to a real near the power -/
theorem large_fin (N64 : FPU f64) (C : FloatCast f32 f64) {x : S} {X : ℝ} (hx : GFv f32 x X) (h8 : 8 ≤ |X|) (h : Real.exp (X * Real.log 10) < 2 ^ (128 : ℤ)) :
    Ok (large N64 C x) fun z => ∃ v, |v - Real.exp (X * Real.log 10)| ≤ 1 / 2 ^ 40 * Real.exp (X * Real.log 10) ∧ f32.Near v z := by
  have hX := (limit hx).1 h
  rcases lt_or_ge X (-60) with h6 | h6
  · refine (large_low N64 C hx h6).mono fun z hz => ⟨_, ?_, hz⟩
    rw [sub_self, abs_zero]; positivity
  refine (large_mid N64 C hx h8 h6 (by norm_num at hX; linarith)).mono ?_
  rintro z ⟨v, v1, v2⟩
  refine ⟨v, v1, v2.nearF f32 ?_⟩
  have hE : Real.exp (X * Real.log 10) ≤ (1 - 1 / 2 ^ 19) * 2 ^ (128 : ℤ) := by
    have a := ln10_near
    have b := ln2_near
    rw [abs_le] at a b
    norm_num at a b
    have h100 : 0 < Real.log 10 := by linarith [a.1]
    have h3 : X * Real.log 10 ≤ -(1 / 2 ^ 18) + ((128 : ℤ) : ℝ) * Real.log 2 := by
      push_cast
      have : X * Real.log 10 ≤ 10100890 / 2 ^ 18 * Real.log 10 := mul_le_mul_of_nonneg_right hX h100.le
      norm_num at this ⊢
      linarith [a.2, b.1]
    have := Real.exp_le_exp.mpr h3
    rw [Exp.exp_add_log] at this
    refine this.trans (mul_le_mul_of_nonneg_right ?_ (by positivity))
    have h4 := Real.abs_exp_sub_one_sub_id_le (x := -(1 / 2 ^ 18)) (by rw [abs_neg, abs_of_pos] <;> norm_num)
    rw [abs_le] at h4
    norm_num at h4 ⊢
    linarith [h4.2]
  have hE0 := Real.exp_pos (X * Real.log 10)
  have hv : v ≤ ((2 ^ 24 - 1 : ℤ) : ℝ) * 2 ^ (104 : ℤ) := by
    rw [abs_le] at v1
    have : ((2 ^ 24 - 1 : ℤ) : ℝ) * 2 ^ (104 : ℤ) = (1 - 1 / 2 ^ 24) * 2 ^ (128 : ℤ) := by norm_num
    rw [this]
    generalize (2 : ℝ) ^ (128 : ℤ) = t at *
    generalize Real.exp (X * Real.log 10) = E at *
    linarith [v1.2]
  have hv0 : 0 ≤ v := by
    rw [abs_le] at v1
    generalize Real.exp (X * Real.log 10) = E at *
    linarith [v1.1]
  have hM : (((2 ^ 24 - 1 : ℤ) : ℝ) * 2 ^ (104 : ℤ)) < 2 ^ (128 : ℤ) := by norm_num
  have hrp : f32.Rp (((2 ^ 24 - 1 : ℤ) : ℝ) * 2 ^ (104 : ℤ)) := f32.rp_of (m := 2 ^ 24 - 1) (j := 104) rfl (by rw [s32]; norm_num) (by rw [b32, s32]; norm_num)
  have hle := v2.le_of f32 hrp (by rw [b32, abs_of_pos (by positivity)]; exact hM.le) hv
  have hge := v2.ge_of f32 f32.rp_zero (by rw [abs_zero]; positivity) hv0
  unfold Fmt.IsFin
  rw [← f32.magValR_lt_iff, f32.magValR_infRep, ← f32.absvR, abs_of_nonneg hge, b32]
  exact lt_of_le_of_lt hle hM

/-- from the limit on the result is infinite -/
theorem large_big (N64 : FPU f64) (C : FloatCast f32 f64) {x : S} {X : ℝ} (hx : GFv f32 x X) (h : 2 ^ (128 : ℤ) ≤ Real.exp (X * Real.log 10)) :
    Ok (large N64 C x) fun z => f32.IsInf z ∧ f32.sign z = false := by
  have hX := (limit hx).2 h
  have h38 : (38.5 : ℝ) ≤ X := le_trans (by norm_num) hX
  have h8 : 8 ≤ |X| := by rw [abs_of_pos (by linarith)]; linarith
  rcases le_or_gt X 100 with h1 | h1
  · refine (large_mid N64 C hx h8 (by linarith) h1).mono ?_
    rintro z ⟨v, v1, v2⟩
    refine v2.over ?_
    rw [b32]
    have a := ln10_near
    have b := ln2_near
    rw [abs_le] at a b
    norm_num at a b
    have h100 : 0 < Real.log 10 := by linarith [a.1]
    have h3 : 1 / 2 ^ 18 + ((128 : ℤ) : ℝ) * Real.log 2 ≤ X * Real.log 10 := by
      push_cast
      have : 10100891 / 2 ^ 18 * Real.log 10 ≤ X * Real.log 10 := mul_le_mul_of_nonneg_right hX h100.le
      norm_num at this ⊢
      linarith [a.1, b.2]
    have := Real.exp_le_exp.mpr h3
    rw [Exp.exp_add_log] at this
    have h4 := Real.add_one_le_exp (1 / 2 ^ 18 : ℝ)
    have h5 : (1 / 2 ^ 18 + 1) * (2 : ℝ) ^ (128 : ℤ) ≤ Real.exp (X * Real.log 10) := le_trans (mul_le_mul_of_nonneg_right h4 (by positivity)) this
    rw [abs_le] at v1
    have hp : (0 : ℝ) < 2 ^ (128 : ℤ) := by positivity
    rw [show ((127 : ℕ) : ℤ) + 1 = 128 by norm_num]
    generalize (2 : ℝ) ^ (128 : ℤ) = t at *
    generalize Real.exp (X * Real.log 10) = E at *
    linarith [v1.1]
  · obtain ⟨W, w1, w2⟩ := arg_spec N64 C hx h8
    rw [abs_of_pos (show 0 < X by linarith)] at w2
    rw [abs_le] at w2
    have hW : 300 ≤ W := by
      norm_num at w2
      linarith [w2.1]
    unfold large
    rcases lt_or_ge W 1024 with h2 | h2
    · obtain ⟨r, r1, r2, -, r3, -⟩ := exp2_fin N64 w1 h2
      rw [r1]
      simp only [bind, Except.bind, pure, Except.pure]
      refine ⟨_, rfl, (narrow_fv C (GFv.self r2)).over ?_⟩
      have hl0 := Poly.log2_pos
      have hEW : 2 ^ (300 : ℤ) ≤ Real.exp (W * Real.log 2) := by
        have : 0 + ((300 : ℤ) : ℝ) * Real.log 2 ≤ W * Real.log 2 := by push_cast; nlinarith
        have := Real.exp_le_exp.mpr this
        rwa [Exp.exp_add_log, Real.exp_zero, one_mul] at this
      rw [b32, show ((127 : ℕ) : ℤ) + 1 = 128 by norm_num]
      have p1 : (2 : ℝ) ^ (-1075 : ℤ) ≤ 2 ^ (128 : ℤ) := zpow_le_zpow_right₀ (by norm_num) (by norm_num)
      have p2 : (2 : ℝ) ^ (300 : ℤ) = 2 ^ (172 : ℤ) * 2 ^ (128 : ℤ) := by rw [← zpow_add₀ (by norm_num)]; norm_num
      have p3 : (2 : ℝ) ^ (2 : ℤ) * 2 ^ (128 : ℤ) ≤ 2 ^ (172 : ℤ) * 2 ^ (128 : ℤ) := mul_le_mul_of_nonneg_right (zpow_le_zpow_right₀ (by norm_num) (by norm_num)) (by positivity)
      rw [p2] at hEW
      replace hEW := p3.trans hEW
      clear p2 p3
      have hp : (0 : ℝ) < 2 ^ (128 : ℤ) := by positivity
      rw [abs_le] at r3
      generalize (2 : ℝ) ^ (128 : ℤ) = t at *
      generalize (2 : ℝ) ^ (-1075 : ℤ) = q at *
      generalize Real.exp (W * Real.log 2) = E at *
      norm_num at hEW
      linarith [r3.1]
    · obtain ⟨r, r1, r2, r3⟩ := exp2_big N64 w1 h2
      rw [r1]
      simp only [bind, Except.bind, pure, Except.pure]
      obtain ⟨a, b⟩ := C.narrow_inf r r2
      exact ⟨_, rfl, a, b.trans r3⟩

/-! ### The result -/

/-- the branch -/
theorem branch (n : S) : (n.toNat >>> 23) &&& 0xff < 0x7f + 3 ↔ f32.mag n < 0x41000000 := by
  obtain ⟨e1, e2⟩ := bits32 n
  rw [show 0xff = 2 ^ 8 - 1 from rfl, Nat.and_two_pow_sub_one_eq_mod, Nat.shiftRight_eq_div_pow, e1]
  split <;> omega

theorem exp10f_split (N : FPU f32) (N64 : FPU f64) (C : FloatCast f32 f64) {x : S} {X : ℝ} (hx : GFv f32 x X) :
    (8 ≤ |X| → exp10f N N64 C x = large N64 C x) ∧
    (|X| < 8 → ∃ (y n : S) (Y : ℝ) (k : ℤ), exp10f N N64 C x = small N N64 C y n ∧ GFv f32 y Y ∧ f32.IsFin n ∧ f32.val n = k ∧ |Y| < 1 ∧ -7 ≤ k ∧ k ≤ 7 ∧
      X = Y + k ∧ (∀ j : ℤ, X = j → Y = 0)) := by
  obtain ⟨y, n, h1, h2, h3, h4, h5, h6, h7⟩ := Props.C45_modf_finite f32 N hx.fin
  have hq := hx.valQ
  obtain ⟨k, hk⟩ : ∃ k, k = Props.towardZero (f32.val x) := ⟨_, rfl⟩
  rw [← hk] at h6
  have hyv : f32.val y = f32.val x - k := by rw [← h7, h6]; ring
  have gy : GFv f32 y (X - k) := by
    refine ⟨h2, ?_⟩
    rw [← f32.valK_cast, hyv]; push_cast; rw [hq]
  have gn : GFv f32 n k := ⟨h3, by rw [← f32.valK_cast, h6]; push_cast; rfl⟩
  have hy1 : |X - k| < 1 ∧ |(k : ℝ)| ≤ |X| ∧ (∀ j : ℤ, X = j → X - k = 0) := by
    rw [← hq]
    have q1 : |f32.val x - k| < 1 ∧ |(k : ℚ)| ≤ |f32.val x| ∧ (∀ j : ℤ, f32.val x = j → f32.val x - k = 0) := by
      generalize f32.val x = q at *
      unfold Props.towardZero at hk
      split at hk <;> rename_i hs
      · have a := Int.le_ceil q
        have b := Int.ceil_lt_add_one q
        rw [← hk] at a b
        have c : (k : ℚ) ≤ 0 := by
          have : k ≤ 0 := by rw [hk]; exact Int.ceil_le.mpr (by push_cast; linarith)
          exact_mod_cast this
        refine ⟨by rw [abs_lt]; constructor <;> linarith, by rw [abs_of_nonpos c, abs_of_neg hs]; linarith, fun j hj => ?_⟩
        rw [hk, hj, Int.ceil_intCast, sub_self]
      · rw [not_lt] at hs
        have a := Int.floor_le q
        have b := Int.lt_floor_add_one q
        rw [← hk] at a b
        have c : (0 : ℚ) ≤ k := by
          have : 0 ≤ k := by rw [hk]; exact Int.le_floor.mpr (by push_cast; linarith)
          exact_mod_cast this
        refine ⟨by rw [abs_lt]; constructor <;> linarith, by rw [abs_of_nonneg c, abs_of_nonneg hs]; linarith, fun j hj => ?_⟩
        rw [hk, hj, Int.floor_intCast, sub_self]
    obtain ⟨a, b, c⟩ := q1
    refine ⟨by exact_mod_cast a, by exact_mod_cast b, fun j hj => ?_⟩
    have := c j (by exact_mod_cast hj)
    exact_mod_cast this
  have m1 := gn.mag_lt (c := 0x41000000) (q := 8) (by decide +kernel)
  push_cast at m1
  unfold exp10f
  rw [h1]
  simp only [bind, Except.bind]
  simp only [branch, m1]
  constructor
  · intro h8
    rw [if_neg]
    intro hc
    have hc3 : |(k : ℝ)| < 8 := hc
    have hc' : |k| < 8 := by exact_mod_cast hc3
    have hc2 : |(k : ℝ)| ≤ 7 := by
      have : |k| ≤ 7 := by omega
      exact_mod_cast this
    have := abs_add_le (X - k) (k : ℝ)
    rw [sub_add_cancel] at this
    linarith [hy1.1]
  · intro h8
    have hc : |(k : ℝ)| < 8 := lt_of_le_of_lt hy1.2.1 h8
    have hc' : |k| < 8 := by exact_mod_cast hc
    rw [abs_lt] at hc'
    rw [if_pos hc]
    exact ⟨y, n, X - k, k, rfl, gy, h3, h6, hy1.1, by omega, by omega, by ring, hy1.2.2⟩

theorem exp10f_special (N : FPU f32) (N64 : FPU f64) (C : FloatCast f32 f64) (x : S) :
    (f32.IsNaN x → Ok (exp10f N N64 C x) fun z => f32.IsNaN z) ∧
    (f32.IsInf x → f32.sign x = false → Ok (exp10f N N64 C x) fun z => f32.IsInf z ∧ f32.sign z = false) ∧
    (f32.IsInf x → f32.sign x = true → Ok (exp10f N N64 C x) fun z => f32.IsZero z ∧ f32.sign z = false) := by
  have hi : f32.infRep = 0x7f800000 := by decide +kernel
  have hbr : f32.infRep ≤ f32.mag x → ¬ (x.toNat >>> 23) &&& 0xff < 0x7f + 3 := fun h => by rw [branch]; omega
  have hL := (show f64.IsFin LN10 ∧ ¬ f64.IsNaN LN10 ∧ ¬ f64.IsZero LN10 ∧ f64.sign LN10 = false by decide +kernel)
  have inf : ∀ h : f32.IsInf x, f64.IsInf (N64.mul LN10 (C.widen x)) ∧ f64.sign (N64.mul LN10 (C.widen x)) = f32.sign x := by
    intro h
    obtain ⟨a, b⟩ := C.widen_inf x h
    have := (N64.mul_spec LN10 (C.widen x)).2.2 hL.2.1 (by unfold Fmt.IsNaN; unfold Fmt.IsInf at a; omega) (Or.inr a)
    rw [if_neg] at this
    · refine ⟨this.1, this.2.trans ?_⟩
      rw [hL.2.2.2, b]; simp
    · rintro (h5 | h5)
      · exact hL.2.2.1 h5
      · unfold Fmt.IsZero at h5; unfold Fmt.IsInf at a; rw [h5] at a; exact absurd a (by decide)
  refine ⟨fun h => ?_, fun h hs => ?_, fun h hs => ?_⟩
  · have hm := (Props.C45_modf_special f32 N x).1 h
    unfold exp10f
    rw [hm]
    simp only [bind, Except.bind]
    rw [if_neg (hbr (by unfold Fmt.IsNaN at h; omega))]
    have hw := (N64.mul_spec LN10 (C.widen x)).2.1 (Or.inr (C.widen_nan x h))
    obtain ⟨r, r1, r2⟩ := (exp2_special N64 _).1 hw
    unfold large
    rw [r1]
    exact ⟨_, rfl, C.narrow_nan r r2⟩
  · obtain ⟨w, hm, -⟩ := (Props.C45_modf_special f32 N x).2 h
    unfold exp10f
    rw [hm]
    simp only [bind, Except.bind]
    rw [if_neg (hbr (by unfold Fmt.IsInf at h; omega))]
    obtain ⟨r, r1, r2, r3⟩ := (exp2_special N64 _).2.1 (inf h).1 ((inf h).2.trans hs)
    unfold large
    rw [r1]
    obtain ⟨a, b⟩ := C.narrow_inf r r2
    exact ⟨_, rfl, a, b.trans r3⟩
  · obtain ⟨w, hm, -⟩ := (Props.C45_modf_special f32 N x).2 h
    unfold exp10f
    rw [hm]
    simp only [bind, Except.bind]
    rw [if_neg (hbr (by unfold Fmt.IsInf at h; omega))]
    obtain ⟨r, r1, r2, r3⟩ := (exp2_special N64 _).2.2 (inf h).1 ((inf h).2.trans hs)
    unfold large
    rw [r1]
    have hrf : f64.IsFin r := by unfold Fmt.IsFin; unfold Fmt.IsZero at r2; rw [r2]; decide
    have hv0 : GFv f64 r 0 := by
      refine ⟨hrf, ?_⟩
      unfold Fmt.IsZero at r2
      unfold Fmt.valK; rw [r2, ← f64.magVal_cast, show f64.magVal ℚ 0 = 0 by decide +kernel]; simp
    obtain ⟨a, -⟩ := C.narrow_fin r hrf
    have hn := narrow_fv C hv0
    have hf := hn.fin100 big32 (by rw [abs_zero]; positivity)
    have hv := hn.exactR f32 f32.rp_zero (by rw [abs_zero]; positivity)
    refine ⟨_, rfl, ?_, a.trans r3⟩
    have m := GFv.mag_lt (F := f32) ⟨hf, hv⟩ (c := 1) (q := 1 / 2 ^ 149) (by decide +kernel)
    have := m.mpr (by rw [abs_zero]; push_cast; positivity)
    unfold Fmt.IsZero
    omega
end Exp2
end Verif
