import Verif.Libm.Expm1Red
import Verif.Libm.Expm1Inst
import Verif.Libm.ExpMain
/-! # Accuracy of `expm1` -/
namespace Verif
open Fmt
namespace Expm1
open Pio2
open Exp (ln2_lo ln2_hi kpick sign_bit toFv exp_add_log)

/-- `f64` value as a real -/
local notation "V" => Fmt.valK f64 ℝ

theorem thr_fv : GFv f64 O_THRESHOLD (f64.val O_THRESHOLD : ℚ) := GFv.const (by decide +kernel) rfl

theorem no_over {X : ℝ} (h : X ≤ (f64.val O_THRESHOLD : ℚ)) : Real.exp X * (1 + 2 * (1 / 2 ^ 53)) < 2 ^ (1024 : ℤ) := by
  have c : f64.val O_THRESHOLD ≤ 1024 * Poly.ln2L - 2 / 10 ^ 14 := by decide +kernel
  have c' : ((f64.val O_THRESHOLD : ℚ) : ℝ) ≤ 1024 * (Poly.ln2L : ℚ) - 2 / 10 ^ 14 := by
    have := Rat.cast_le (K := ℝ).mpr c; push_cast at this; exact this
  have h2 := Poly.ln2_gt
  have hX : X ≤ - (2 / 10 ^ 14) + ((1024 : ℤ) : ℝ) * Real.log 2 := by push_cast; linarith
  have h3 : Real.exp X ≤ Real.exp (-(2 / 10 ^ 14)) * 2 ^ (1024 : ℤ) := by
    rw [← exp_add_log]; exact Real.exp_le_exp.mpr hX
  have h4 : Real.exp (-(2 / 10 ^ 14)) ≤ 1 - 1 / 10 ^ 14 := by
    have := Real.abs_exp_sub_one_sub_id_le (x := -(2 / 10 ^ 14)) (by rw [abs_neg, abs_of_pos] <;> norm_num)
    rw [abs_le] at this
    norm_num at *
    linarith [this.2]
  have hp : (0 : ℝ) < 2 ^ (1024 : ℤ) := by positivity
  generalize (2 : ℝ) ^ (1024 : ℤ) = T at *
  have h5 : Real.exp X ≤ (1 - 1 / 10 ^ 14) * T := h3.trans (mul_le_mul_of_nonneg_right h4 hp.le)
  norm_num at *
  nlinarith

theorem small_res {F : Fmt} {s : ℕ} (hs : F.s = s) {X : ℝ} (h : |X| ≤ 1 / 2 ^ (s + 2)) : |X - (Real.exp X - 1)| ≤ 2 * (1 / 2 ^ (F.s + 1)) * |Real.exp X - 1| := by
  rw [hs, show (2 : ℝ) ^ (s + 2) = 2 ^ (s + 1) * 2 by ring] at *
  have hu : (1 : ℝ) / 2 ^ (s + 1) ≤ 1 / 2 := by
    refine one_div_le_one_div_of_le (by norm_num) ?_
    calc (2 : ℝ) = 2 ^ 1 := by norm_num
      _ ≤ 2 ^ (s + 1) := pow_le_pow_right₀ (by norm_num) (by omega)
  have hu0 : (0 : ℝ) < 1 / 2 ^ (s + 1) := by positivity
  have e : (1 : ℝ) / (2 ^ (s + 1) * 2) = 1 / 2 ^ (s + 1) / 2 := by rw [div_div]
  rw [e] at h
  generalize (1 : ℝ) / 2 ^ (s + 1) = u at *
  have hη := Real.abs_exp_sub_one_sub_id_le (x := X) (by linarith)
  rw [abs_sub_comm] at hη
  rw [← sq_abs] at hη
  have h2 := abs_sub_abs_le_abs_sub X (Real.exp X - 1)
  have h3 : |X| ^ 2 ≤ u / 2 * |X| := by rw [sq]; exact mul_le_mul_of_nonneg_right h (abs_nonneg _)
  have h4 : |X| / 2 ≤ |Real.exp X - 1| := by nlinarith [abs_nonneg X]
  have h5 := mul_le_mul_of_nonneg_left h4 hu0.le
  nlinarith

/-- facts on the constants -/
theorem hi_val : f64.val LN2_HI = 2977044471 / 2 ^ 32 := by decide +kernel
theorem lo_bd : 0 ≤ ((f64.val LN2_LO : ℚ) : ℝ) ∧ ((f64.val LN2_LO : ℚ) : ℝ) ≤ 2 / 10 ^ 10 := by
  have c2 : 0 ≤ f64.val LN2_LO ∧ f64.val LN2_LO ≤ 2 / 10 ^ 10 := by decide +kernel
  have := Rat.cast_le (K := ℝ).mpr c2.2
  push_cast at this
  exact ⟨by exact_mod_cast c2.1, this⟩
theorem ln2_sum : |((f64.val LN2_HI : ℚ) : ℝ) + (f64.val LN2_LO : ℚ) - Real.log 2| ≤ 2 / 10 ^ 25 := by
  have c3 : |f64.val LN2_HI + f64.val LN2_LO - Poly.ln2L| ≤ 1 / 10 ^ 25 := by decide +kernel
  have h1 : ((|f64.val LN2_HI + f64.val LN2_LO - Poly.ln2L| : ℚ) : ℝ) ≤ ((1 / 10 ^ 25 : ℚ) : ℝ) := Rat.cast_le.mpr c3
  push_cast at h1
  have h2 := Poly.ln2_gt
  have h3 := Poly.ln2_lt
  have h4 : ((Poly.ln2H : ℚ) : ℝ) - (Poly.ln2L : ℚ) ≤ 1 / 10 ^ 26 := by unfold Poly.ln2H Poly.ln2L; push_cast; norm_num
  rw [abs_le] at h1 ⊢
  norm_num at *
  constructor <;> linarith [h1.1, h1.2]

/-- the reduction, given `hi` and `lo` -/
theorem rd64 (N : FPU f64) {x hi lo : D} {X : ℝ} {k : ℤ} (hx : GFv f64 x X) (hX : 0.3465 ≤ |X|) (hX2 : |X| ≤ 746)
    (hk : |X - k * Real.log 2| ≤ 0.34665) (hhi : f64.Rounds (X - k * (f64.val LN2_HI : ℚ)) hi) (hlo : ∃ L, GFv f64 lo L ∧ |L - k * (f64.val LN2_LO : ℚ)| ≤ 1 / 2 ^ (f64.s + 1) * |(k : ℝ) * (f64.val LN2_LO : ℚ)| + 1 / 2 ^ 150) :
    (∃ X' γ, Rd f64 (N.sub hi lo) (N.sub (N.sub hi (N.sub hi lo)) lo) X' γ (X - k * Real.log 2)) := by
  have hk2 : |(k : ℝ)| ≤ 1077 := by
    have l1 := ln2_lo
    have h1 : |k * Real.log 2| ≤ 746.35 := by
      have := abs_sub_abs_le_abs_sub (k * Real.log 2) X
      rw [abs_sub_comm (k * Real.log 2)] at this
      norm_num at *; linarith
    rw [abs_mul, abs_of_pos (show 0 < Real.log 2 by linarith)] at h1
    norm_num at *
    nlinarith [abs_nonneg (k : ℝ)]
  obtain ⟨c2a, c2b⟩ := lo_bd
  have hkl : |k * ((f64.val LN2_LO : ℚ) : ℝ)| ≤ 1 / 4000 := by
    rw [abs_mul, abs_of_nonneg c2a]
    have := mul_le_mul hk2 c2b c2a (by norm_num)
    refine this.trans (by norm_num)
  obtain ⟨L, gL, eL⟩ := hlo
  have hgk : Mul2 (-32) (k * ((f64.val LN2_HI : ℚ) : ℝ)) := by
    have h0 : Mul2 0 (k : ℝ) := ⟨k, by simp⟩
    have h1 : Mul2 (-32) ((f64.val LN2_HI : ℚ) : ℝ) := ⟨2977044471, by rw [hi_val]; push_cast; norm_num⟩
    have := h0.mul h1
    rwa [zero_add] at this
  refine rd_mk big64 (le_refl _) N hx (by norm_num at hX ⊢; linarith) hhi gL hgk (by rw [s64]; norm_num) hk (hkl.trans (by norm_num)) (eL.trans ?_) ?_
  · rw [s64] at *
    norm_num at hkl ⊢
    linarith
  · rw [s64]
    have := mul_le_mul hk2 ln2_sum (abs_nonneg _) (by norm_num)
    refine this.trans ?_
    norm_num

theorem half_fv : GFv f64 K64.half (1 / 2) := ok64.half

theorem red_spec (N : FPU f64) {x : D} {X : ℝ} (hx : GFv f64 x X) (h1 : 0x3fd62e42 < Pio2.hi x) (hX2 : |X| ≤ 746) :
    ∃ hi lo k, red N x (Pio2.hi x) (if f64.sign x then 1 else 0) = .ok (hi, lo, k) ∧ k ≠ 0 ∧ |X - k * Real.log 2| ≤ 0.34665 ∧
      ∃ X' γ, Rd f64 (N.sub hi lo) (N.sub (N.sub hi (N.sub hi lo)) lo) X' γ (X - k * Real.log 2) := by
  have l1 := ln2_lo
  have l2 := ln2_hi
  have hfv := toFv hx
  have hh := GFv.const (F := f64) (b := LN2_HI) (q := _) (by decide +kernel) rfl
  have hl := GFv.const (F := f64) (b := LN2_LO) (q := _) (by decide +kernel) rfl
  have hX1 : 0.3465 ≤ |X| := by
    by_contra hc
    have := (hi_lt hfv (c := 0x3fd62e42) (q := 0x162e42 / 2 ^ 22) (by decide +kernel)).mpr (by
      push_cast; norm_num at hc ⊢; linarith)
    omega
  unfold red
  by_cases h2 : Pio2.hi x < 0x3FF0A2B2
  · rw [if_pos h2]
    have hX3 := (hi_lt hfv (c := 0x3ff0a2b2) (q := 0x10a2b2 / 2 ^ 20) (by decide +kernel)).mp (by omega)
    push_cast at hX3
    cases hsg : f64.sign x
    · have h0 := hx.nonneg hsg
      have hX1' := hX1
      rw [abs_of_nonneg h0] at hX1' hX3
      have hk : |X - ((1 : ℤ) : ℝ) * Real.log 2| ≤ 0.34665 := by
        push_cast
        rw [abs_le]
        norm_num at *
        constructor <;> linarith
      simp only [Bool.false_eq_true, if_false, if_true]
      refine ⟨_, _, _, rfl, by norm_num, hk, rd64 N hx hX1 hX2 hk ?_ ?_⟩
      · simpa using hx.subR N hh
      · exact ⟨_, hl, by simp; positivity⟩
    · have h0 := hx.nonpos hsg
      have hX1' := hX1
      rw [abs_of_nonpos h0] at hX1' hX3
      have hk : |X - ((-1 : ℤ) : ℝ) * Real.log 2| ≤ 0.34665 := by
        push_cast
        rw [abs_le]
        norm_num at *
        constructor <;> linarith
      simp only [if_true, one_ne_zero, if_false]
      refine ⟨_, _, _, rfl, by norm_num, hk, rd64 N hx hX1 hX2 hk ?_ ?_⟩
      · simpa using hx.addR N hh
      · exact ⟨_, hl.neg, by simp; positivity⟩
  · rw [if_neg h2]
    have hi' := GFv.const (F := f64) (b := INVLN2) (q := _) (by decide +kernel) rfl
    have c1 : 0 ≤ f64.val INVLN2 ∧ f64.val INVLN2 ≤ 3 / 2 := by decide +kernel
    have c2 : |f64.val INVLN2 * Poly.ln2L - 1| ≤ 1 / 10 ^ 9 := by decide +kernel
    have c1a : (0 : ℝ) ≤ (f64.val INVLN2 : ℚ) := by exact_mod_cast c1.1
    have c1b : ((f64.val INVLN2 : ℚ) : ℝ) ≤ 3 / 2 := by
      have : ((f64.val INVLN2 : ℚ) : ℝ) ≤ ((3 / 2 : ℚ) : ℝ) := Rat.cast_le.mpr c1.2
      push_cast at this; exact this
    have c2' : |((f64.val INVLN2 : ℚ) : ℝ) * Real.log 2 - 1| ≤ 2 / 10 ^ 9 := by
      have h1 : ((|f64.val INVLN2 * Poly.ln2L - 1| : ℚ) : ℝ) ≤ ((1 / 10 ^ 9 : ℚ) : ℝ) := Rat.cast_le.mpr c2
      push_cast at h1
      have h2 := Poly.ln2_gt
      have h3 := Poly.ln2_lt
      have h4 : ((Poly.ln2H : ℚ) : ℝ) - (Poly.ln2L : ℚ) ≤ 1 / 10 ^ 26 := by unfold Poly.ln2H Poly.ln2L; push_cast; norm_num
      rw [abs_le] at h1 ⊢
      norm_num at *
      constructor <;> nlinarith [h1.1, h1.2]
    have hv1 : |((f64.val INVLN2 : ℚ) : ℝ) * X * Real.log 2 - X| ≤ 1 / 100000 := by
      rw [show ((f64.val INVLN2 : ℚ) : ℝ) * X * Real.log 2 - X = (((f64.val INVLN2 : ℚ) : ℝ) * Real.log 2 - 1) * X by ring, abs_mul]
      have := mul_le_mul c2' hX2 (abs_nonneg _) (by norm_num)
      refine this.trans ?_
      norm_num
    have hv2 : |X| * (1 / 2 ^ (f64.s + 1)) ≤ 1 / 100000 := by
      rw [s64]; norm_num; linarith
    have hX3 : 1.03 ≤ |X| := by
      by_contra hc
      have := (hi_lt hfv (c := 0x3ff0a2b2) (q := 0x10a2b2 / 2 ^ 20) (by decide +kernel)).mpr (by
        push_cast; norm_num at hc ⊢; linarith)
      omega
    have hk : ∃ k : ℤ, toI32 (N.add (N.mul INVLN2 x) (if (if f64.sign x then 1 else 0) ≠ 0 then f64.neg K64.half else K64.half)) = .ok k ∧
        |X - k * Real.log 2| ≤ 0.34665 := by
      cases hsg : f64.sign x
      · obtain ⟨r, hr, hr2⟩ := kpick big64 N ⟨by simp, by simp⟩ hx hi' half_fv (Or.inl ⟨hx.nonneg hsg, rfl⟩) (by linarith) c1a c1b hv1 hv2
        refine ⟨r.toInt, ?_, hr2⟩
        simp only [Bool.false_eq_true, if_false, ne_eq, not_true_eq_false]
        unfold toI32
        rw [hr]; rfl
      · obtain ⟨r, hr, hr2⟩ := kpick big64 N ⟨by simp, by simp⟩ hx hi' half_fv.neg (Or.inr ⟨hx.nonpos hsg, rfl⟩) (by linarith) c1a c1b hv1 hv2
        refine ⟨r.toInt, ?_, hr2⟩
        simp only [if_true, one_ne_zero, ne_eq, not_false_eq_true]
        unfold toI32
        rw [hr]; rfl
    obtain ⟨k, hk1, hk2⟩ := hk
    have hkb : |(k : ℝ)| ≤ 1077 := by
      have h1 : |k * Real.log 2| ≤ 746.35 := by
        have := abs_sub_abs_le_abs_sub (k * Real.log 2) X
        rw [abs_sub_comm (k * Real.log 2)] at this
        norm_num at *; linarith
      rw [abs_mul, abs_of_pos (show 0 < Real.log 2 by linarith)] at h1
      norm_num at *
      nlinarith [abs_nonneg (k : ℝ)]
    have hkZ : |k| ≤ 1077 := by exact_mod_cast hkb
    rw [abs_le] at hkZ
    obtain ⟨kd, hkd, hkd2⟩ := ofI32_spec (k := k) (by omega) (by omega)
    have gk : GFv f64 kd k := ⟨hkd2.fin, hkd2.val⟩
    rw [hk1, ok_bind, hkd, ok_bind]
    refine ⟨_, _, _, rfl, ?_, hk2, rd64 N hx hX1 hX2 hk2 ?_ (GFv.rnd big64 (gk.mulR N hl) ?_)⟩
    · rintro rfl
      rw [Int.cast_zero, zero_mul, sub_zero] at hk2
      norm_num at hk2 hX3
      linarith
    · have hgk : Mul2 (-32) (k * ((f64.val LN2_HI : ℚ) : ℝ)) := by
        have h0 : Mul2 0 (k : ℝ) := ⟨k, by simp⟩
        have h1 : Mul2 (-32) ((f64.val LN2_HI : ℚ) : ℝ) := ⟨2977044471, by rw [hi_val]; push_cast; norm_num⟩
        have := h0.mul h1
        rwa [zero_add] at this
      have hkh : |(k : ℝ) * (f64.val LN2_HI : ℚ)| ≤ 1077 := by
        rw [abs_mul, hi_val]
        have : |(((2977044471 / 2 ^ 32 : ℚ)) : ℝ)| ≤ 1 := by rw [abs_of_nonneg (by positivity)]; push_cast; norm_num
        nlinarith [abs_nonneg (k : ℝ), abs_nonneg (((2977044471 / 2 ^ 32 : ℚ)) : ℝ)]
      have p1 : GFv f64 (N.mul kd LN2_HI) (k * (f64.val LN2_HI : ℚ)) :=
        GFv.of_rounds big64 (gk.mulR N hh) hgk (by rw [s64]; refine hkh.trans ?_; norm_num) (by rw [b64, s64]; norm_num) (hkh.trans (by norm_num))
      exact hx.subR N p1
    · obtain ⟨c2a, c2b⟩ := lo_bd
      rw [abs_mul, abs_of_nonneg c2a]
      have := mul_le_mul hkb c2b c2a (by norm_num)
      refine this.trans (by norm_num)

/-- `expm1` of a finite number that is not too large -/
theorem expm1_fin (N : FPU f64) {x : D} {X : ℝ} (hx : GFv f64 x X) (h1 : X ≤ (f64.val O_THRESHOLD : ℚ)) :
    Ok (expm1 N x) fun z => Res f64 z (Real.exp X - 1) ∧ (X = 0 → z = x) := by
  have l1 := ln2_lo
  have l2 := ln2_hi
  have hfv := toFv hx
  have hnan : f64.isNan x = false := by
    rw [← Bool.not_eq_true, f64.isNan_iff]; exact hx.not_nan
  have hgt : f64.gt x O_THRESHOLD = false := by
    rw [← Bool.not_eq_true, hx.gt_iff thr_fv]; linarith
  have c1 : f64.val O_THRESHOLD ≤ 709.8 := by decide +kernel
  have c1a : ((f64.val O_THRESHOLD : ℚ) : ℝ) ≤ 709.8 := by
    have := Rat.cast_le (K := ℝ).mpr c1; push_cast at this; exact this
  have hdef : (x.toNat >>> 32 &&& 0x7fffffff) = Pio2.hi x := rfl
  have hsb : x.toNat >>> 63 = if f64.sign x then 1 else 0 := by rw [← sign_bit, ← Nat.shiftRight_add]
  unfold expm1
  simp only [hdef, hsb]
  by_cases hh : Pio2.hi x ≥ 0x4043687A ∧ f64.sign x = true
  · obtain ⟨hh, hsg⟩ := hh
    have hneg : X ≤ -38.8 := by
      have h0 := hx.nonpos hsg
      have := mt (hi_lt hfv (c := 0x4043687A) (q := 0x13687A / 2 ^ 15) (by decide +kernel)).mpr (by omega)
      rw [abs_of_nonpos h0] at this
      push_cast at this
      norm_num at this ⊢
      linarith
    have hs : special N x (Pio2.hi x) (if f64.sign x then 1 else 0) = some (f64.neg K64.one) := by
      unfold special; simp [hh, hnan, hsg]
    simp only [hs]
    refine ⟨_, rfl, ⟨-1, ok64.one.neg, ?_, le_refl _⟩, fun h => by norm_num at hneg; linarith⟩
    have hX : X ≤ 0 + ((-55 : ℤ) : ℝ) * Real.log 2 := by push_cast; norm_num at *; linarith
    have hE := Real.exp_le_exp.mpr hX
    rw [exp_add_log, Real.exp_zero] at hE
    have hE0 := Real.exp_pos X
    norm_num at hE
    rw [s64, show -1 - (Real.exp X - 1) = -Real.exp X by ring, abs_neg, abs_of_pos hE0, abs_of_nonpos (by linarith)]
    norm_num
    linarith
  · have hs : special N x (Pio2.hi x) (if f64.sign x then 1 else 0) = none := by
      unfold special
      rw [not_and_or] at hh
      rcases hh with hh | hh
      · simp [hh]
      · simp only [Bool.not_eq_true] at hh
        simp [hnan, hh, hgt]
    have hlow : -38.9 ≤ X := by
      rw [not_and_or] at hh
      rcases hh with hh | hh
      · have := (hi_lt hfv (c := 0x4043687A) (q := 0x13687A / 2 ^ 15) (by decide +kernel)).mp (by omega)
        rw [abs_lt] at this
        push_cast at this
        norm_num at this ⊢
        linarith [this.1]
      · have := hx.nonneg (by simpa using hh)
        norm_num; linarith
    have hX2 : |X| ≤ 746 := by rw [abs_le]; norm_num at *; constructor <;> linarith
    simp only [hs]
    by_cases h2 : Pio2.hi x > 0x3fd62e42
    · rw [if_pos h2]
      obtain ⟨hi, lo, k, hr, hk0, hk, X', γ, hR⟩ := red_spec N hx h2 hX2
      rw [hr, ok_bind]
      simp only
      have hkl := abs_le.mp hk
      have hk1 : -60 ≤ k := by
        by_contra hc
        have : (k : ℝ) ≤ -61 := by have : k ≤ -61 := by omega
                                   exact_mod_cast this
        norm_num at *
        nlinarith
      have hk2 : k ≤ 1024 := by
        by_contra hc
        have : (1025 : ℝ) ≤ k := by have : 1025 ≤ k := by omega
                                    exact_mod_cast this
        norm_num at *
        nlinarith
      obtain ⟨z, hz, hz2⟩ := tail_red big64 (le_refl _) (by rw [b64]; norm_num) ok64 N hR hk1 (by rw [b64]; exact hk2) hk0 (T := X) (by ring) (by
        rw [b64, s64]; exact no_over h1)
      refine ⟨z, hz, hz2, ?_⟩
      rintro rfl
      have : Pio2.hi x < 0x3fd62e42 := (hi_lt hfv (c := 0x3fd62e42) (q := 0x162e42 / 2 ^ 22) (by decide +kernel)).mpr (by rw [abs_zero]; positivity)
      omega
    · rw [if_neg h2]
      have hX3 := (hi_lt hfv (c := 0x3fd62e43) (q := 0x162e43 / 2 ^ 22) (by decide +kernel)).mp (by omega)
      push_cast at hX3
      by_cases h3 : Pio2.hi x < 0x3c900000
      · rw [if_pos h3]
        have hX4 := (hi_lt hfv (c := 0x3c900000) (q := 1 / 2 ^ 54) (by decide +kernel)).mp h3
        push_cast at hX4
        refine ⟨x, rfl, ⟨X, hx, small_res s64 hX4.le, ?_⟩, fun _ => rfl⟩
        rw [abs_lt] at hX4
        norm_num at hX4
        linarith [hX4.1]
      · rw [if_neg h3]
        have hX4 := mt (hi_lt hfv (c := 0x3c900000) (q := 1 / 2 ^ 54) (by decide +kernel)).mpr h3
        push_cast at hX4
        obtain ⟨z, hz, hz2⟩ := tail_zero (c := 0#f64.w) big64 (le_refl _) ok64 N hx (by norm_num at *; linarith) (by norm_num at *; linarith)
        refine ⟨z, hz, hz2, ?_⟩
        rintro rfl
        rw [abs_zero] at hX4
        norm_num at hX4

/-- `expm1` of a larger number -/
theorem expm1_big (N : FPU f64) {x : D} {X : ℝ} (hx : GFv f64 x X) (h1 : ((f64.val O_THRESHOLD : ℚ) : ℝ) < X) :
    (Ok (expm1 N x) fun z => f64.IsInf z ∧ f64.sign z = false) ∧ 2 ^ (1024 : ℤ) ≤ Real.exp X := by
  have c1 : 709 ≤ f64.val O_THRESHOLD := by decide +kernel
  have c1' : (709 : ℝ) ≤ (f64.val O_THRESHOLD : ℚ) := by exact_mod_cast c1
  have hX0 : 0 < X := by linarith
  have hsg := hx.sign_of_pos hX0
  constructor
  · have hnan : f64.isNan x = false := by
      rw [← Bool.not_eq_true, f64.isNan_iff]; exact hx.not_nan
    have hgt : f64.gt x O_THRESHOLD = true := (hx.gt_iff thr_fv).mpr h1
    have hh : Pio2.hi x ≥ 0x4043687A := by
      by_contra hc
      have := (hi_lt (toFv hx) (c := 0x4043687A) (q := 0x13687A / 2 ^ 15) (by decide +kernel)).mp (by omega)
      rw [abs_of_pos hX0] at this
      push_cast at this
      norm_num at this
      linarith
    have hdef : (x.toNat >>> 32 &&& 0x7fffffff) = Pio2.hi x := rfl
    have hsb : x.toNat >>> 63 = if f64.sign x then 1 else 0 := by rw [← sign_bit, ← Nat.shiftRight_add]
    have hs : special N x (Pio2.hi x) (if f64.sign x then 1 else 0) = some (N.mul x K64.pmax) := by
      unfold special; simp [hh, hnan, hsg, hgt]
    unfold expm1
    simp only [hdef, hsb, hs]
    refine ⟨_, rfl, (hx.mulR N ok64.pmax).over ?_⟩
    have h2 : (2 : ℝ) ≤ X := by linarith
    have hp : (0 : ℝ) < 2 ^ (f64.bias : ℤ) := by positivity
    rw [zpow_add₀ (by norm_num), zpow_one, mul_comm]
    exact mul_le_mul_of_nonneg_right h2 hp.le
  · have hg : ((f64.val O_THRESHOLD : ℚ) : ℝ) + 1 / 2 ^ 43 ≤ X := by
      have := f64.gap_ge (b := O_THRESHOLD) (c := x) (k := 9) (by
        rw [thr_fv.val]; norm_num; linarith) (by rw [thr_fv.val, hx.val]; exact h1)
      rw [thr_fv.val, hx.val, s64] at this
      norm_num at this ⊢
      linarith
    have c3 : 1024 * Poly.ln2H ≤ f64.val O_THRESHOLD + 1 / 2 ^ 43 := by decide +kernel
    have c3' : 1024 * ((Poly.ln2H : ℚ) : ℝ) ≤ (f64.val O_THRESHOLD : ℚ) + 1 / 2 ^ 43 := by
      have := Rat.cast_le (K := ℝ).mpr c3; push_cast at this; exact this
    have h3 := Poly.ln2_lt
    have : 0 + ((1024 : ℤ) : ℝ) * Real.log 2 ≤ X := by push_cast; linarith
    have := Real.exp_le_exp.mpr this
    rwa [exp_add_log, Real.exp_zero, one_mul] at this

/-- infinities and NaN -/
theorem expm1_special (N : FPU f64) (x : D) :
    (f64.IsNaN x → expm1 N x = .ok x) ∧ (f64.IsInf x → f64.sign x = false → Ok (expm1 N x) fun z => f64.IsInf z ∧ f64.sign z = false) ∧
    (f64.IsInf x → f64.sign x = true → expm1 N x = .ok (f64.neg K64.one)) := by
  have hhi : f64.infRep ≤ f64.mag x → 0x4043687A ≤ Pio2.hi x := by
    intro h
    rw [Pio2.hi_eq]
    have : f64.infRep = 0x7ff0000000000000 := by decide
    omega
  have hdef : (x.toNat >>> 32 &&& 0x7fffffff) = Pio2.hi x := rfl
  have hsb : x.toNat >>> 63 = if f64.sign x then 1 else 0 := by rw [← sign_bit, ← Nat.shiftRight_add]
  unfold expm1 special
  simp only [hdef, hsb]
  refine ⟨fun h => ?_, fun h hs => ?_, fun h hs => ?_⟩
  · have h4 := hhi (le_of_lt h)
    simp [h4, (f64.isNan_iff x).mpr h]
  · have h4 := hhi (le_of_eq h.symm)
    have e1 : f64.isNan x = false := by
      rw [← Bool.not_eq_true, f64.isNan_iff]; unfold Fmt.IsNaN; unfold Fmt.IsInf at h; omega
    have hsm : f64.smag x = f64.infRep := by unfold Fmt.smag; rw [hs]; unfold Fmt.IsInf at h; simp [h]
    have e2 : f64.gt x O_THRESHOLD = true := by
      rw [f64.gt_iff, hsm]
      exact ⟨by rw [← f64.isNan_iff, e1]; simp, thr_fv.not_nan, by decide +kernel⟩
    simp only [hs, h4, e1, e2, if_true, Bool.false_eq_true, if_false, ne_eq, not_true_eq_false]
    refine ⟨_, rfl, ?_⟩
    have := (N.mul_spec x K64.pmax).2.2 (by rw [← f64.isNan_iff, e1]; simp) (by rw [← f64.isNan_iff]; decide +kernel) (Or.inl h)
    rw [if_neg] at this
    · rw [hs] at this; exact ⟨this.1, this.2.trans (by decide +kernel)⟩
    · rintro (h5 | h5)
      · unfold Fmt.IsZero at h5; unfold Fmt.IsInf at h; rw [h5] at h; exact absurd h (by decide)
      · revert h5; unfold Fmt.IsZero; decide +kernel
  · have h4 := hhi (le_of_eq h.symm)
    have e1 : f64.isNan x = false := by
      rw [← Bool.not_eq_true, f64.isNan_iff]; unfold Fmt.IsNaN; unfold Fmt.IsInf at h; omega
    simp [h4, e1, hs]
end Expm1
end Verif
