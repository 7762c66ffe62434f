import Verif.Libm.Exp10
import Verif.Libm.Exp10F
import Verif.Libm.PowFront
/-! # Accuracy of `exp10` for `|x| < 16` -/
namespace Verif
open Fmt
namespace Exp10
open Exp2 (exp2_fin b64 s64 big64 one_fvD ln10D_fv ln2_near dD)

theorem dD' : |7480317065143153 / 2 ^ 51 * Real.log 2 - Real.log 10| ≤ 2 / 2 ^ 53 := dD.trans (by norm_num)

/-! ### The table -/

/-- the entries of the table -/
def pD (i : ℕ) : D := BitVec.ofNat f64.w (P10.getD i 0)

theorem pD_pos : ((List.range 16).all fun i => decide (f64.mag (pD (i + 15)) < f64.infRep) && decide (f64.val (pD (i + 15)) = 10 ^ i)) = true := by decide +kernel
theorem pD_neg : ((List.range 16).all fun i => decide (FPU.softF64.div Exp2.one (pD (15 + i)) = pD (15 - i))) = true := by decide +kernel

theorem pD_up {i : ℕ} (hi : i < 16) : GFv f64 (pD (i + 15)) (10 ^ i) := by
  have h := pD_pos
  rw [List.all_eq_true] at h
  have h := h i (List.mem_range.mpr hi)
  rw [Bool.and_eq_true, decide_eq_true_iff, decide_eq_true_iff] at h
  have := GFv.const h.1 h.2
  push_cast at this; exact this

/-- every entry is the float nearest to its power of ten -/
theorem pD_rounds {k : ℤ} (h1 : -15 ≤ k) (h2 : k ≤ 15) : f64.Rounds ((10 : ℝ) ^ k) (pD (k + 15).toNat) := by
  have h := pD_neg
  rw [List.all_eq_true] at h
  rcases le_or_gt 0 k with h0 | h0
  · have g := pD_up (i := k.toNat) (by omega)
    have := g.addR FPU.softF64 (GFv.const (F := f64) (b := 0#f64.w) (q := 0) (by decide +kernel) (by decide +kernel))
    have e : (10 : ℝ) ^ k = 10 ^ k.toNat := by rw [← zpow_natCast]; congr 1; omega
    rw [e, show (k + 15).toNat = k.toNat + 15 by omega]
    have r := g.divR FPU.softF64 one_fvD (by norm_num)
    rw [div_one] at r
    have hd : FPU.softF64.div (pD (k.toNat + 15)) Exp2.one = pD (k.toNat + 15) := by
      have : k.toNat < 16 := by omega
      generalize k.toNat = m at *
      interval_cases m <;> decide +kernel
    rwa [hd] at r
  · have h := h (-k).toNat (List.mem_range.mpr (by omega))
    rw [decide_eq_true_iff] at h
    have g := pD_up (i := (-k).toNat) (by omega)
    have r := one_fvD.divR FPU.softF64 g (by positivity)
    rw [Nat.add_comm] at r
    rw [h] at r
    have e : (10 : ℝ) ^ k = 1 / 10 ^ (-k).toNat := by
      rw [one_div, ← zpow_natCast, ← zpow_neg]; congr 1; omega
    rw [e, show (k + 15).toNat = 15 - (-k).toNat by omega]
    exact r

theorem p10_bds {k : ℤ} (h1 : -15 ≤ k) (h2 : k ≤ 15) : (2 : ℝ) ^ (-50 : ℤ) ≤ 10 ^ k ∧ (10 : ℝ) ^ k ≤ 2 ^ (50 : ℤ) := by
  constructor
  · calc (2 : ℝ) ^ (-50 : ℤ) ≤ 10 ^ (-15 : ℤ) := by norm_num
      _ ≤ _ := zpow_le_zpow_right₀ (by norm_num) h1
  · calc (10 : ℝ) ^ k ≤ 10 ^ (15 : ℤ) := zpow_le_zpow_right₀ (by norm_num) h2
      _ ≤ _ := by norm_num

theorem pD_err {k : ℤ} (h1 : -15 ≤ k) (h2 : k ≤ 15) : ∃ P, GFv f64 (pD (k + 15).toNat) P ∧ |P - 10 ^ k| ≤ 1 / 2 ^ 53 * 10 ^ k := by
  have r := pD_rounds h1 h2
  obtain ⟨b1, b2⟩ := p10_bds h1 h2
  have hp : (0 : ℝ) < 10 ^ k := by positivity
  have := r.rel f64 (by rw [abs_of_pos hp, b64]; exact le_trans (zpow_le_zpow_right₀ (by norm_num) (by norm_num)) b1)
    (by rw [abs_of_pos hp, b64]; exact b2.trans (zpow_le_zpow_right₀ (by norm_num) (by norm_num)))
  rw [abs_of_pos hp, s64, show (2 : ℝ) ^ (-((52 : ℕ) : ℤ) - 1) = 1 / 2 ^ 53 by norm_num] at this
  exact ⟨_, ⟨r.fin100 big64 (by rw [abs_of_pos hp]; exact b2.trans (zpow_le_zpow_right₀ (by norm_num) (by norm_num))), rfl⟩, this⟩

theorem pow10_eq {n : D} {k : ℤ} (hn : f64.IsFin n) (hv : f64.val n = k) (h1 : -15 ≤ k) (h2 : k ≤ 15) : pow10 n = .ok (pD (k + 15).toNat) := by
  obtain ⟨r, r1, r2⟩ := Props.C32_signed_finite (F := f64) (N := 64) ⟨by simp, by simp⟩ hn
  have ht : truncZ (f64.val n) = k := by
    unfold truncZ
    rw [hv]
    split
    · rw [← Int.cast_neg, Int.floor_intCast]; omega
    · rw [Int.floor_intCast]
  unfold satTrunc at r2
  rw [ht] at r2
  have r3 : r.toInt = k := by rw [r2]; norm_num; omega
  unfold pow10
  rw [r1]
  simp only [bind, Except.bind, r3]
  rw [if_pos (by omega)]
  unfold Pio2.rd
  rw [if_pos (by omega)]
  rfl

/-! ### Small arguments -/

/-- `exp2` with a relative error in the middle range -/
theorem exp2_mid (N : FPU f64) {x : D} {X : ℝ} (hx : GFv f64 x X) (h : |X| ≤ 4) :
    Ok (Exp2.exp2 N x) fun z => ∃ Y, GFv f64 z Y ∧ |Y - Real.exp (X * Real.log 2)| ≤ 1.05 / 2 ^ 53 * Real.exp (X * Real.log 2) := by
  have hl0 := Poly.log2_pos
  rw [abs_le] at h
  obtain ⟨r, r1, r2, -, r3, -⟩ := exp2_fin N hx (by linarith [h.2])
  refine ⟨r, r1, _, GFv.self r2, r3.trans ?_⟩
  have hE0 : 1 / 16 ≤ Real.exp (X * Real.log 2) := by
    have : 0 + ((-4 : ℤ) : ℝ) * Real.log 2 ≤ X * Real.log 2 := by push_cast; nlinarith [h.1]
    have := Real.exp_le_exp.mpr this
    rw [Exp.exp_add_log, Real.exp_zero] at this
    norm_num at this ⊢; exact this
  have p : (2 : ℝ) ^ (-1075 : ℤ) ≤ 2 ^ (-100 : ℤ) := zpow_le_zpow_right₀ (by norm_num) (by norm_num)
  have p2 : (2 : ℝ) ^ (-100 : ℤ) = 1 / 2 ^ 100 := by norm_num
  rw [p2] at p
  generalize (2 : ℝ) ^ (-1075 : ℤ) = q at *
  generalize Real.exp (X * Real.log 2) = E at *
  norm_num at *
  linarith

theorem combine10 {z p r e1 e2 δ E : ℝ} (he1 : 0 < e1) (he2 : 0 < e2) (hz : |z - e1| ≤ 1.05 / 2 ^ 53 * e1) (hp : |p - e2| ≤ 1 / 2 ^ 53 * e2)
    (hr : |r - z * p| ≤ 1.01 / 2 ^ 53 * |z * p|) (hδ : |δ| ≤ 4.32 / 2 ^ 53) (hE : E = e1 * Real.exp δ * e2) : |r - E| ≤ 7.4 / 2 ^ 53 * E := by
  have d := Real.abs_exp_sub_one_sub_id_le (x := δ) (hδ.trans (by norm_num))
  have d2 : δ ^ 2 ≤ (4.32 / 2 ^ 53) ^ 2 := by rw [← sq_abs]; exact pow_le_pow_left₀ (abs_nonneg _) hδ 2
  have d3 : |Real.exp δ - 1| ≤ 4.321 / 2 ^ 53 := by
    have := abs_add_le (Real.exp δ - 1 - δ) δ
    rw [sub_add_cancel] at this
    norm_num at *
    linarith
  rw [hE]
  generalize Real.exp δ = x at *
  rw [abs_le] at hz hp d3
  have z1 : z * (1 : ℝ) ≤ (1 + 1.05 / 2 ^ 53) * e1 := by linarith [hz.2]
  have z0 : (1 - 1.05 / 2 ^ 53) * e1 ≤ z := by linarith [hz.1]
  have p1 : p ≤ (1 + 1 / 2 ^ 53) * e2 := by linarith [hp.2]
  have p0 : (1 - 1 / 2 ^ 53) * e2 ≤ p := by linarith [hp.1]
  have hz0 : 0 ≤ z := le_trans (mul_nonneg (by norm_num) he1.le) z0
  have hp0 : 0 ≤ p := le_trans (mul_nonneg (by norm_num) he2.le) p0
  rw [abs_of_nonneg (mul_nonneg hz0 hp0)] at hr
  have u1 : z * p ≤ (1 + 1.05 / 2 ^ 53) * (1 + 1 / 2 ^ 53) * (e1 * e2) := by
    calc z * p ≤ ((1 + 1.05 / 2 ^ 53) * e1) * ((1 + 1 / 2 ^ 53) * e2) := mul_le_mul (by linarith) p1 hp0 (mul_nonneg (by norm_num) he1.le)
      _ = _ := by ring
  have u0 : (1 - 1.05 / 2 ^ 53) * (1 - 1 / 2 ^ 53) * (e1 * e2) ≤ z * p := by
    calc _ = ((1 - 1.05 / 2 ^ 53) * e1) * ((1 - 1 / 2 ^ 53) * e2) := by ring
      _ ≤ _ := mul_le_mul z0 p0 (mul_nonneg (by norm_num) he2.le) hz0
  rw [abs_le] at hr
  have hee : 0 < e1 * e2 := mul_pos he1 he2
  rw [show e1 * x * e2 = x * (e1 * e2) by ring]
  generalize e1 * e2 = e at *
  generalize z * p = q at *
  have x1 : x * e ≤ (1 + 4.321 / 2 ^ 53) * e := mul_le_mul_of_nonneg_right (by linarith [d3.2]) hee.le
  have x0 : (1 - 4.321 / 2 ^ 53) * e ≤ x * e := mul_le_mul_of_nonneg_right (by linarith [d3.1]) hee.le
  generalize x * e = E' at *
  rw [abs_le]
  norm_num at *
  constructor <;> linarith [hr.1, hr.2]

/-- the float is nearest to a power of ten, or near it -/
theorem small_spec (N : FPU f64) {y n : D} {Y : ℝ} {k : ℤ} (hy : GFv f64 y Y) (hn : f64.IsFin n)
    (hv : f64.val n = k) (hY : |Y| < 1) (h1 : -15 ≤ k) (h2 : k ≤ 15) :
    Ok (small N y n) fun z => f64.IsFin z ∧ |f64.valK ℝ z - Real.exp ((Y + k) * Real.log 10)| ≤ 7.4 / 2 ^ 53 * Real.exp ((Y + k) * Real.log 10) ∧
      (Y = 0 → f64.Near (Real.exp ((Y + k) * Real.log 10)) z) := by
  have e10 : Real.exp (k * Real.log 10) = 10 ^ k := by
    rw [mul_comm, Real.exp_mul, Real.exp_log (by norm_num), Real.rpow_intCast]
  have hzv : GFv f64 0#f64.w 0 := by
    have := GFv.const (F := f64) (b := 0#f64.w) (q := 0) (by decide +kernel) (by decide +kernel); simpa using this
  have hq := f64.feq_val hy.fin hzv.fin
  obtain ⟨P, p1, p2⟩ := pD_err h1 h2
  obtain ⟨b1, b2⟩ := p10_bds h1 h2
  have hp : (0 : ℝ) < 10 ^ k := by positivity
  unfold small
  by_cases h0 : Y = 0
  · have : f64.feq y 0#f64.w = true := by
      rw [hq]
      have := hy.valQ
      have h3 := hzv.valQ
      rw [h0, ← h3] at this
      exact_mod_cast this
    rw [this, if_pos rfl, pow10_eq hn hv h1 h2]
    refine ⟨_, rfl, p1.fin, ?_, fun _ => ?_⟩
    · rw [h0, zero_add, e10, p1.val]
      refine p2.trans (mul_le_mul_of_nonneg_right (by norm_num) hp.le)
    · rw [h0, zero_add, e10]
      exact (pD_rounds h1 h2).nearF f64 p1.fin
  · have : ¬ f64.feq y 0#f64.w = true := by
      rw [hq]
      intro hc
      have h3 := hzv.valQ
      rw [← hc, hy.valQ] at h3
      exact h0 h3
    rw [if_neg this]
    have hpr := ln10D_fv.mulR N hy
    have hab : |7480317065143153 / 2 ^ 51 * Y| ≤ 3.33 := by
      rw [abs_mul, abs_of_pos (by norm_num)]
      norm_num
      linarith
    obtain ⟨W, w1, w2⟩ := GFv.rnd big64 hpr (hab.trans (by norm_num))
    rw [s64] at w2
    have w3 : |W - 7480317065143153 / 2 ^ 51 * Y| ≤ 3.331 / 2 ^ 53 := by
      refine w2.trans ?_
      norm_num at hab ⊢
      linarith
    have w4 : |W| ≤ 4 := by
      have := abs_add_le (W - 7480317065143153 / 2 ^ 51 * Y) (7480317065143153 / 2 ^ 51 * Y)
      rw [sub_add_cancel] at this
      norm_num at *
      linarith
    obtain ⟨z, z1, Z, z2, z3⟩ := exp2_mid N w1 w4
    rw [z1, pow10_eq hn hv h1 h2]
    simp only [bind, Except.bind, pure, Except.pure]
    have hl0 := Poly.log2_pos
    have hl7 := Poly.log2_lt
    have hEW1 : Real.exp (W * Real.log 2) ≤ 17 := by
      rw [abs_le] at w4
      have : W * Real.log 2 ≤ 0 + ((4 : ℤ) : ℝ) * Real.log 2 := by push_cast; nlinarith [w4.2]
      have := Real.exp_le_exp.mpr this
      rw [Exp.exp_add_log, Real.exp_zero] at this
      norm_num at this ⊢; linarith
    have hEW0 : 1 / 16 ≤ Real.exp (W * Real.log 2) := by
      rw [abs_le] at w4
      have : 0 + ((-4 : ℤ) : ℝ) * Real.log 2 ≤ W * Real.log 2 := by push_cast; nlinarith [w4.1]
      have := Real.exp_le_exp.mpr this
      rw [Exp.exp_add_log, Real.exp_zero] at this
      norm_num at this ⊢; exact this
    have hm := z2.mulR N p1
    have z3' := z3
    have p2' := p2
    rw [abs_le] at z3' p2'
    have Z0 : 1 / 32 ≤ Z ∧ Z ≤ 32 := by
      generalize Real.exp (W * Real.log 2) = E at *
      constructor <;> linarith [z3'.1, z3'.2]
    have P0 : 2 ^ (-51 : ℤ) ≤ P ∧ P ≤ 2 ^ (51 : ℤ) := by
      generalize (10 : ℝ) ^ k = t at *
      norm_num at *
      constructor <;> linarith [p2'.1, p2'.2]
    have Pp : 0 < P := lt_of_lt_of_le (by positivity) P0.1
    have ZP : |Z * P| = Z * P := abs_of_pos (mul_pos (by linarith [Z0.1]) Pp)
    have ZP0 : 2 ^ (-56 : ℤ) ≤ Z * P := by
      calc (2 : ℝ) ^ (-56 : ℤ) = 1 / 32 * 2 ^ (-51 : ℤ) := by norm_num
        _ ≤ _ := mul_le_mul Z0.1 P0.1 (by positivity) (by linarith [Z0.1])
    have ZP1 : Z * P ≤ 2 ^ (56 : ℤ) := by
      calc Z * P ≤ 32 * 2 ^ (51 : ℤ) := mul_le_mul Z0.2 P0.2 Pp.le (by norm_num)
        _ = _ := by norm_num
    have hr := hm.rel f64 (by rw [ZP, b64]; exact le_trans (zpow_le_zpow_right₀ (by norm_num) (by norm_num)) ZP0)
      (by rw [ZP, b64]; exact ZP1.trans (zpow_le_zpow_right₀ (by norm_num) (by norm_num)))
    rw [s64, show (2 : ℝ) ^ (-((52 : ℕ) : ℤ) - 1) = 1 / 2 ^ 53 by norm_num] at hr
    refine ⟨_, rfl, hm.fin100 big64 (by rw [ZP]; exact ZP1.trans (zpow_le_zpow_right₀ (by norm_num) (by norm_num))), ?_, fun h => absurd h h0⟩
    refine combine10 (δ := Y * Real.log 10 - W * Real.log 2) (Real.exp_pos _) hp z3 p2
      (hr.trans (mul_le_mul_of_nonneg_right (by norm_num) (abs_nonneg _))) ?_ ?_
    · have e : Y * Real.log 10 - W * Real.log 2 = -((7480317065143153 / 2 ^ 51 * Real.log 2 - Real.log 10) * Y) - (W - 7480317065143153 / 2 ^ 51 * Y) * Real.log 2 := by ring
      rw [e]
      have a1 : |(7480317065143153 / 2 ^ 51 * Real.log 2 - Real.log 10) * Y| ≤ 2 / 2 ^ 53 * 1 := by
        rw [abs_mul]; exact mul_le_mul dD' hY.le (abs_nonneg _) (by norm_num)
      have a2 : |(W - 7480317065143153 / 2 ^ 51 * Y) * Real.log 2| ≤ 3.331 / 2 ^ 53 * 0.6932 := by
        rw [abs_mul, abs_of_pos hl0]
        have := ln2_near
        rw [abs_le] at this
        exact mul_le_mul w3 (by norm_num at this ⊢; linarith [this.2]) hl0.le (by norm_num)
      have := abs_sub (-((7480317065143153 / 2 ^ 51 * Real.log 2 - Real.log 10) * Y)) ((W - 7480317065143153 / 2 ^ 51 * Y) * Real.log 2)
      rw [abs_neg] at this
      norm_num at *
      linarith
    · rw [← Real.exp_add, ← e10, ← Real.exp_add]; congr 1; ring

/-! ### The result -/

/-- the branch -/
theorem branch (n : D) : (n.toNat >>> 52) &&& 0x7ff < 0x3ff + 4 ↔ f64.mag n < 0x4030000000000000 := by
  have h : n.toNat < 2 ^ 64 := n.isLt
  have h2 := f64.toNat_eq n
  rw [show f64.e + f64.s = 63 from rfl] at h2
  have h3 : f64.mag n < 2 ^ 63 := by unfold Fmt.mag; exact Nat.mod_lt _ (by decide)
  rw [show 0x7ff = 2 ^ 11 - 1 from rfl, Nat.and_two_pow_sub_one_eq_mod, Nat.shiftRight_eq_div_pow]
  cases hs : f64.sign n <;> rw [hs] at h2 <;> simp at h2 <;> omega

theorem exp10_split (N : FPU f64) {x : D} {X : ℝ} (hx : GFv f64 x X) :
    (16 ≤ |X| → exp10 N x = Power.pow N ten x) ∧
    (|X| < 16 → ∃ (y n : D) (Y : ℝ) (k : ℤ), exp10 N x = small N y n ∧ GFv f64 y Y ∧ f64.IsFin n ∧ f64.val n = k ∧ |Y| < 1 ∧ -15 ≤ k ∧ k ≤ 15 ∧
      X = Y + k ∧ (∀ j : ℤ, X = j → Y = 0)) := by
  obtain ⟨y, n, h1, h2, h3, h4, h5, h6, h7⟩ := Props.C45_modf_finite f64 N hx.fin
  have hq := hx.valQ
  obtain ⟨k, hk⟩ : ∃ k, k = Props.towardZero (f64.val x) := ⟨_, rfl⟩
  rw [← hk] at h6
  have hyv : f64.val y = f64.val x - k := by rw [← h7, h6]; ring
  have gy : GFv f64 y (X - k) := by
    refine ⟨h2, ?_⟩
    rw [← f64.valK_cast, hyv]; push_cast; rw [hq]
  have gn : GFv f64 n k := ⟨h3, by rw [← f64.valK_cast, h6]; push_cast; rfl⟩
  have hy1 : |X - k| < 1 ∧ |(k : ℝ)| ≤ |X| ∧ (∀ j : ℤ, X = j → X - k = 0) := by
    rw [← hq]
    have q1 : |f64.val x - k| < 1 ∧ |(k : ℚ)| ≤ |f64.val x| ∧ (∀ j : ℤ, f64.val x = j → f64.val x - k = 0) := by
      generalize f64.val x = q at *
      unfold Props.towardZero at hk
      split at hk <;> rename_i hs
      · have a := Int.le_ceil q
        have b := Int.ceil_lt_add_one q
        rw [← hk] at a b
        have c : (k : ℚ) ≤ 0 := by
          have : k ≤ 0 := by rw [hk]; exact Int.ceil_le.mpr (by push_cast; linarith)
          exact_mod_cast this
        refine ⟨by rw [abs_lt]; constructor <;> linarith, by rw [abs_of_nonpos c, abs_of_neg hs]; linarith, fun j hj => ?_⟩
        rw [hk, hj, Int.ceil_intCast, sub_self]
      · rw [not_lt] at hs
        have a := Int.floor_le q
        have b := Int.lt_floor_add_one q
        rw [← hk] at a b
        have c : (0 : ℚ) ≤ k := by
          have : 0 ≤ k := by rw [hk]; exact Int.le_floor.mpr (by push_cast; linarith)
          exact_mod_cast this
        refine ⟨by rw [abs_lt]; constructor <;> linarith, by rw [abs_of_nonneg c, abs_of_nonneg hs]; linarith, fun j hj => ?_⟩
        rw [hk, hj, Int.floor_intCast, sub_self]
    obtain ⟨a, b, c⟩ := q1
    refine ⟨by exact_mod_cast a, by exact_mod_cast b, fun j hj => ?_⟩
    have := c j (by exact_mod_cast hj)
    exact_mod_cast this
  have m1 := gn.mag_lt (c := 0x4030000000000000) (q := 16) (by decide +kernel)
  push_cast at m1
  unfold exp10
  rw [h1]
  simp only [bind, Except.bind]
  simp only [branch, m1]
  constructor
  · intro h8
    rw [if_neg]
    intro hc
    have hc3 : |(k : ℝ)| < 16 := hc
    have hc' : |k| < 16 := by exact_mod_cast hc3
    have hc2 : |(k : ℝ)| ≤ 15 := by
      have : |k| ≤ 15 := by omega
      exact_mod_cast this
    have := abs_add_le (X - k) (k : ℝ)
    rw [sub_add_cancel] at this
    linarith [hy1.1]
  · intro h8
    have hc : |(k : ℝ)| < 16 := lt_of_le_of_lt hy1.2.1 h8
    have hc' : |k| < 16 := by exact_mod_cast hc
    rw [abs_lt] at hc'
    rw [if_pos hc]
    exact ⟨y, n, X - k, k, rfl, gy, h3, h6, hy1.1, by omega, by omega, by ring, hy1.2.2⟩

end Exp10
end Verif
