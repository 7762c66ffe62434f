import Verif.Libm.Expm1Main
import Verif.Libm.ExpFMain
/-! # Accuracy of `expm1f` -/
namespace Verif
open Fmt
namespace Expm1
namespace F32
open Exp (ln2_lo ln2_hi kpick exp_add_log)
open Exp.F32 (toI32 ofI32 ofI32_spec below over_val over_val')

theorem no_over {X : ℝ} (h : X ≤ 88.7228318) : Real.exp X * (1 + 2 * (1 / 2 ^ 24)) < 2 ^ (128 : ℤ) := by
  have h2 := Poly.ln2_gt
  have c : (88.722839 : ℝ) ≤ 128 * (Poly.ln2L : ℚ) := by unfold Poly.ln2L; push_cast; norm_num
  have hX : X ≤ - (7 / 10 ^ 6) + ((128 : ℤ) : ℝ) * Real.log 2 := by push_cast; norm_num at *; linarith
  have h3 : Real.exp X ≤ Real.exp (-(7 / 10 ^ 6)) * 2 ^ (128 : ℤ) := by
    rw [← exp_add_log]; exact Real.exp_le_exp.mpr hX
  have h4 : Real.exp (-(7 / 10 ^ 6)) ≤ 1 - 6 / 10 ^ 6 := by
    have := Real.abs_exp_sub_one_sub_id_le (x := -(7 / 10 ^ 6)) (by rw [abs_neg, abs_of_pos] <;> norm_num)
    rw [abs_le] at this
    norm_num at *
    linarith [this.2]
  have hp : (0 : ℝ) < 2 ^ (128 : ℤ) := by positivity
  generalize (2 : ℝ) ^ (128 : ℤ) = T at *
  have h5 : Real.exp X ≤ (1 - 6 / 10 ^ 6) * T := h3.trans (mul_le_mul_of_nonneg_right h4 hp.le)
  norm_num at *
  nlinarith

theorem hi_val : f32.val LN2_HI = 90851 / 2 ^ 17 := by decide +kernel
theorem lo_bd : 0 ≤ ((f32.val LN2_LO : ℚ) : ℝ) ∧ ((f32.val LN2_LO : ℚ) : ℝ) ≤ 90581 / 10 ^ 10 := by
  have c2 : 0 ≤ f32.val LN2_LO ∧ f32.val LN2_LO ≤ 90581 / 10 ^ 10 := by decide +kernel
  have := Rat.cast_le (K := ℝ).mpr c2.2
  push_cast at this
  exact ⟨by exact_mod_cast c2.1, this⟩
theorem ln2_sum : |((f32.val LN2_HI : ℚ) : ℝ) + (f32.val LN2_LO : ℚ) - Real.log 2| ≤ 75 / 10 ^ 14 := by
  have c3 : |f32.val LN2_HI + f32.val LN2_LO - Poly.ln2L| ≤ 74 / 10 ^ 14 := by decide +kernel
  have h1 : ((|f32.val LN2_HI + f32.val LN2_LO - Poly.ln2L| : ℚ) : ℝ) ≤ ((74 / 10 ^ 14 : ℚ) : ℝ) := Rat.cast_le.mpr c3
  push_cast at h1
  have h2 := Poly.ln2_gt
  have h3 := Poly.ln2_lt
  have h4 : ((Poly.ln2H : ℚ) : ℝ) - (Poly.ln2L : ℚ) ≤ 1 / 10 ^ 26 := by unfold Poly.ln2H Poly.ln2L; push_cast; norm_num
  rw [abs_le] at h1 ⊢
  norm_num at *
  constructor <;> linarith [h1.1, h1.2]

/-- the multiple of `ln 2` is bounded -/
theorem k_bd {X : ℝ} {k : ℤ} (hX2 : |X| ≤ 88.723) (hk : |X - k * Real.log 2| ≤ 0.34665) : |(k : ℝ)| ≤ 128 := by
  have h1 : |k| < 129 := by
    by_contra hc
    have hc' : (129 : ℝ) ≤ |(k : ℝ)| := by
      have : (129 : ℤ) ≤ |k| := by omega
      exact_mod_cast this
    have l1 := ln2_lo
    have h1 : |k * Real.log 2| ≤ 89.1 := by
      have := abs_sub_abs_le_abs_sub (k * Real.log 2) X
      rw [abs_sub_comm (k * Real.log 2)] at this
      norm_num at *; linarith
    rw [abs_mul, abs_of_pos (show 0 < Real.log 2 by linarith)] at h1
    norm_num at *
    nlinarith
  have : |k| ≤ 128 := by omega
  exact_mod_cast this

/-- the reduction, given `hi` and `lo` -/
theorem rd32 (N : FPU f32) {x hi lo : S} {X : ℝ} {k : ℤ} (hx : GFv f32 x X) (hX : 0.3465 ≤ |X|) (hX2 : |X| ≤ 88.723)
    (hk : |X - k * Real.log 2| ≤ 0.34665) (hhi : f32.Rounds (X - k * (f32.val LN2_HI : ℚ)) hi) (hlo : ∃ L, GFv f32 lo L ∧ |L - k * (f32.val LN2_LO : ℚ)| ≤ 1 / 2 ^ (f32.s + 1) * |(k : ℝ) * (f32.val LN2_LO : ℚ)| + 1 / 2 ^ 150) :
    (∃ X' γ, Rd f32 (N.sub hi lo) (N.sub (N.sub hi (N.sub hi lo)) lo) X' γ (X - k * Real.log 2)) := by
  have hk2 := k_bd hX2 hk
  obtain ⟨c2a, c2b⟩ := lo_bd
  have hkl : |k * ((f32.val LN2_LO : ℚ) : ℝ)| ≤ 1 / 860 := by
    rw [abs_mul, abs_of_nonneg c2a]
    have := mul_le_mul hk2 c2b c2a (by norm_num)
    refine this.trans (by norm_num)
  obtain ⟨L, gL, eL⟩ := hlo
  have hgk : Mul2 (-17) (k * ((f32.val LN2_HI : ℚ) : ℝ)) := by
    have h0 : Mul2 0 (k : ℝ) := ⟨k, by simp⟩
    have h1 : Mul2 (-17) ((f32.val LN2_HI : ℚ) : ℝ) := ⟨90851, by rw [hi_val]; push_cast; norm_num⟩
    have := h0.mul h1
    rwa [zero_add] at this
  refine rd_mk big32 (by decide) N hx (by norm_num at hX ⊢; linarith) hhi gL hgk (by rw [s32]; norm_num) hk (hkl.trans (by norm_num)) (eL.trans ?_) ?_
  · rw [s32] at *
    norm_num at hkl ⊢
    linarith
  · rw [s32]
    have := mul_le_mul hk2 ln2_sum (abs_nonneg _) (by norm_num)
    refine this.trans ?_
    norm_num

theorem half_fv : GFv f32 K32.half (1 / 2) := ok32.half

theorem red_spec (N : FPU f32) {x : S} {X : ℝ} (hx : GFv f32 x X) (h1 : 0x3eb17218 < f32.mag x) (hX2 : |X| ≤ 88.723) :
    ∃ hi lo k, red N x (f32.mag x) (f32.sign x) = .ok (hi, lo, k) ∧ k ≠ 0 ∧ |X - k * Real.log 2| ≤ 0.34665 ∧
      ∃ X' γ, Rd f32 (N.sub hi lo) (N.sub (N.sub hi (N.sub hi lo)) lo) X' γ (X - k * Real.log 2) := by
  have l1 := ln2_lo
  have l2 := ln2_hi
  have hh := GFv.const (F := f32) (b := LN2_HI) (q := _) (by decide +kernel) rfl
  have hl := GFv.const (F := f32) (b := LN2_LO) (q := _) (by decide +kernel) rfl
  have hX1 : 0.3465 ≤ |X| := by
    by_contra hc
    have := (hx.mag_lt (c := 0x3eb17218) (q := 0xb17218 / 2 ^ 25) (by decide +kernel)).mpr (by
      push_cast; norm_num at hc ⊢; linarith)
    omega
  unfold red
  by_cases h2 : f32.mag x < 0x3F851592
  · rw [if_pos h2]
    have hX3 := (hx.mag_lt (c := 0x3F851592) (q := 0x851592 / 2 ^ 23) (by decide +kernel)).mp (by omega)
    push_cast at hX3
    cases hsg : f32.sign x
    · have h0 := hx.nonneg hsg
      have hX1' := hX1
      rw [abs_of_nonneg h0] at hX1' hX3
      have hk : |X - ((1 : ℤ) : ℝ) * Real.log 2| ≤ 0.34665 := by
        push_cast
        rw [abs_le]
        norm_num at *
        constructor <;> linarith
      simp only [if_true]
      refine ⟨_, _, _, rfl, by norm_num, hk, rd32 N hx hX1 hX2 hk ?_ ?_⟩
      · simpa using hx.subR N hh
      · exact ⟨_, hl, by simp; positivity⟩
    · have h0 := hx.nonpos hsg
      have hX1' := hX1
      rw [abs_of_nonpos h0] at hX1' hX3
      have hk : |X - ((-1 : ℤ) : ℝ) * Real.log 2| ≤ 0.34665 := by
        push_cast
        rw [abs_le]
        norm_num at *
        constructor <;> linarith
      simp only [Bool.true_eq_false, if_false]
      refine ⟨_, _, _, rfl, by norm_num, hk, rd32 N hx hX1 hX2 hk ?_ ?_⟩
      · simpa using hx.addR N hh
      · exact ⟨_, hl.neg, by simp; positivity⟩
  · rw [if_neg h2]
    have hi' := GFv.const (F := f32) (b := INV_LN2) (q := _) (by decide +kernel) rfl
    have c1 : 0 ≤ f32.val INV_LN2 ∧ f32.val INV_LN2 ≤ 3 / 2 := by decide +kernel
    have c2 : |f32.val INV_LN2 * Poly.ln2L - 1| ≤ 4 / 10 ^ 8 := by decide +kernel
    have c1a : (0 : ℝ) ≤ (f32.val INV_LN2 : ℚ) := by exact_mod_cast c1.1
    have c1b : ((f32.val INV_LN2 : ℚ) : ℝ) ≤ 3 / 2 := by
      have : ((f32.val INV_LN2 : ℚ) : ℝ) ≤ ((3 / 2 : ℚ) : ℝ) := Rat.cast_le.mpr c1.2
      push_cast at this; exact this
    have c2' : |((f32.val INV_LN2 : ℚ) : ℝ) * Real.log 2 - 1| ≤ 5 / 10 ^ 8 := by
      have h1 : ((|f32.val INV_LN2 * Poly.ln2L - 1| : ℚ) : ℝ) ≤ ((4 / 10 ^ 8 : ℚ) : ℝ) := Rat.cast_le.mpr c2
      push_cast at h1
      have h2 := Poly.ln2_gt
      have h3 := Poly.ln2_lt
      have h4 : ((Poly.ln2H : ℚ) : ℝ) - (Poly.ln2L : ℚ) ≤ 1 / 10 ^ 26 := by unfold Poly.ln2H Poly.ln2L; push_cast; norm_num
      rw [abs_le] at h1 ⊢
      norm_num at *
      constructor <;> nlinarith [h1.1, h1.2]
    have hv1 : |((f32.val INV_LN2 : ℚ) : ℝ) * X * Real.log 2 - X| ≤ 1 / 100000 := by
      rw [show ((f32.val INV_LN2 : ℚ) : ℝ) * X * Real.log 2 - X = (((f32.val INV_LN2 : ℚ) : ℝ) * Real.log 2 - 1) * X by ring, abs_mul]
      have := mul_le_mul c2' hX2 (abs_nonneg _) (by norm_num)
      refine this.trans ?_
      norm_num
    have hv2 : |X| * (1 / 2 ^ (f32.s + 1)) ≤ 1 / 100000 := by
      rw [s32]; norm_num; linarith
    have hX3 : 1.03 ≤ |X| := by
      by_contra hc
      have := (hx.mag_lt (c := 0x3F851592) (q := 0x851592 / 2 ^ 23) (by decide +kernel)).mpr (by
        push_cast; norm_num at hc ⊢; linarith)
      omega
    have hk : ∃ k : ℤ, toI32 (N.add (N.mul INV_LN2 x) (if f32.sign x then f32.neg K32.half else K32.half)) = .ok k ∧
        |X - k * Real.log 2| ≤ 0.34665 := by
      cases hsg : f32.sign x
      · obtain ⟨r, hr, hr2⟩ := kpick big32 N ⟨by simp, by simp⟩ hx hi' half_fv (Or.inl ⟨hx.nonneg hsg, rfl⟩) (by linarith) c1a c1b hv1 hv2
        refine ⟨r.toInt, ?_, hr2⟩
        simp only [Bool.false_eq_true, if_false]
        unfold toI32
        rw [hr]; rfl
      · obtain ⟨r, hr, hr2⟩ := kpick big32 N ⟨by simp, by simp⟩ hx hi' half_fv.neg (Or.inr ⟨hx.nonpos hsg, rfl⟩) (by linarith) c1a c1b hv1 hv2
        refine ⟨r.toInt, ?_, hr2⟩
        simp only [if_true]
        unfold toI32
        rw [hr]; rfl
    obtain ⟨k, hk1, hk2⟩ := hk
    have hkb := k_bd hX2 hk2
    have hkZ : |k| ≤ 128 := by exact_mod_cast hkb
    rw [abs_le] at hkZ
    obtain ⟨kd, hkd, hkd2⟩ := ofI32_spec (k := k) (by omega) (by omega)
    have gk := hkd2
    rw [hk1, ok_bind, hkd, ok_bind]
    refine ⟨_, _, _, rfl, ?_, hk2, rd32 N hx hX1 hX2 hk2 ?_ (GFv.rnd big32 (gk.mulR N hl) ?_)⟩
    · rintro rfl
      rw [Int.cast_zero, zero_mul, sub_zero] at hk2
      norm_num at hk2 hX3
      linarith
    · have hgk : Mul2 (-17) (k * ((f32.val LN2_HI : ℚ) : ℝ)) := by
        have h0 : Mul2 0 (k : ℝ) := ⟨k, by simp⟩
        have h1 : Mul2 (-17) ((f32.val LN2_HI : ℚ) : ℝ) := ⟨90851, by rw [hi_val]; push_cast; norm_num⟩
        have := h0.mul h1
        rwa [zero_add] at this
      have hkh : |(k : ℝ) * (f32.val LN2_HI : ℚ)| ≤ 128 := by
        rw [abs_mul, hi_val]
        have : |(((90851 / 2 ^ 17 : ℚ)) : ℝ)| ≤ 1 := by rw [abs_of_nonneg (by positivity)]; push_cast; norm_num
        nlinarith [abs_nonneg (k : ℝ), abs_nonneg (((90851 / 2 ^ 17 : ℚ)) : ℝ)]
      have p1 : GFv f32 (N.mul kd LN2_HI) (k * (f32.val LN2_HI : ℚ)) :=
        GFv.of_rounds big32 (gk.mulR N hh) hgk (by rw [s32]; refine hkh.trans ?_; norm_num) (by rw [b32, s32]; norm_num) (hkh.trans (by norm_num))
      exact hx.subR N p1
    · obtain ⟨c2a, c2b⟩ := lo_bd
      rw [abs_mul, abs_of_nonneg c2a]
      have := mul_le_mul hkb c2b c2a (by norm_num)
      refine this.trans (by norm_num)

/-- `expm1f` of a finite number that is not too large -/
theorem expm1f_fin (N : FPU f32) {x : S} {X : ℝ} (hx : GFv f32 x X) (h1 : X < 88.72283935546875) :
    Ok (expm1f N x) fun z => Res f32 z (Real.exp X - 1) ∧ (X = 0 → z = x) := by
  have l1 := ln2_lo
  have l2 := ln2_hi
  have hnan : ¬ 0x7f800000 < f32.mag x := by
    have := hx.fin
    have h3 : f32.infRep = 0x7f800000 := by decide
    unfold Fmt.IsFin at this; omega
  have hsb : (x.toNat >>> 31 != 0) = f32.sign x := by rw [sign32]; cases f32.sign x <;> rfl
  have hgt : f32.sign x = false → ¬ 0x42b17217 < f32.mag x := by
    intro h hc
    have h0 := hx.nonneg h
    have := mt (hx.mag_lt over_val).mpr (by omega)
    rw [abs_of_nonneg h0] at this
    push_cast at this
    exact this h1
  unfold expm1f
  simp only [mag32, hsb]
  by_cases hh : f32.mag x ≥ 0x4195b844 ∧ f32.sign x = true
  · obtain ⟨hh, hsg⟩ := hh
    have hneg : X ≤ -18.71 := by
      have h0 := hx.nonpos hsg
      have := mt (hx.mag_lt (c := 0x4195b844) (q := 0x95b844 / 2 ^ 19) (by decide +kernel)).mpr (by omega)
      rw [abs_of_nonpos h0] at this
      push_cast at this
      norm_num at this ⊢
      linarith
    have hs : special N x (f32.mag x) (f32.sign x) = some (f32.neg K32.one) := by
      unfold special; simp [hh, hnan, hsg]
    simp only [hs]
    refine ⟨_, rfl, ⟨-1, ok32.one.neg, ?_, le_refl _⟩, fun h => by norm_num at hneg; linarith⟩
    have hX : X ≤ 0 + ((-26 : ℤ) : ℝ) * Real.log 2 := by push_cast; norm_num at *; linarith
    have hE := Real.exp_le_exp.mpr hX
    rw [exp_add_log, Real.exp_zero] at hE
    have hE0 := Real.exp_pos X
    norm_num at hE
    rw [s32, show -1 - (Real.exp X - 1) = -Real.exp X by ring, abs_neg, abs_of_pos hE0, abs_of_nonpos (by linarith)]
    norm_num
    linarith
  · have hs : special N x (f32.mag x) (f32.sign x) = none := by
      unfold special
      rw [not_and_or] at hh
      rcases hh with hh | hh
      · simp [hh]
      · simp only [Bool.not_eq_true] at hh
        simp [hnan, hh, hgt hh]
    have hlow : -18.8 ≤ X := by
      rw [not_and_or] at hh
      rcases hh with hh | hh
      · have := (hx.mag_lt (c := 0x4195b844) (q := 0x95b844 / 2 ^ 19) (by decide +kernel)).mp (by omega)
        rw [abs_lt] at this
        push_cast at this
        norm_num at this ⊢
        linarith [this.1]
      · have := hx.nonneg (by simpa using hh)
        norm_num; linarith
    have hX2 : |X| ≤ 88.723 := by rw [abs_le]; norm_num at *; constructor <;> linarith
    simp only [hs]
    by_cases h2 : f32.mag x > 0x3eb17218
    · rw [if_pos h2]
      obtain ⟨hi, lo, k, hr, hk0, hk, X', γ, hR⟩ := red_spec N hx h2 hX2
      rw [hr, ok_bind]
      simp only
      have hkl := abs_le.mp hk
      have hk1 : -60 ≤ k := by
        by_contra hc
        have : (k : ℝ) ≤ -61 := by have : k ≤ -61 := by omega
                                   exact_mod_cast this
        norm_num at *
        nlinarith
      have hk2 : k ≤ 128 := by
        by_contra hc
        have : (129 : ℝ) ≤ k := by exact_mod_cast (by omega : 129 ≤ k)
        norm_num at *
        nlinarith
      obtain ⟨z, hz, hz2⟩ := tail_red big32 (by decide) (by rw [b32]; norm_num) ok32 N hR hk1 (by rw [b32]; exact hk2) hk0 (T := X) (by ring) (by
        rw [b32, s32]; exact no_over (below hx h1))
      refine ⟨z, hz, hz2, ?_⟩
      rintro rfl
      have : f32.mag x < 0x3eb17218 := (hx.mag_lt (c := 0x3eb17218) (q := 0xb17218 / 2 ^ 25) (by decide +kernel)).mpr (by rw [abs_zero]; positivity)
      omega
    · rw [if_neg h2]
      have hX3 := (hx.mag_lt (c := 0x3eb17219) (q := 0xb17219 / 2 ^ 25) (by decide +kernel)).mp (by omega)
      push_cast at hX3
      by_cases h3 : f32.mag x < 0x33000000
      · rw [if_pos h3]
        have hX4 := (hx.mag_lt (c := 0x33000000) (q := 1 / 2 ^ 25) (by decide +kernel)).mp h3
        push_cast at hX4
        refine ⟨x, rfl, ⟨X, hx, small_res s32 hX4.le, ?_⟩, fun _ => rfl⟩
        rw [abs_lt] at hX4
        norm_num at hX4
        linarith [hX4.1]
      · rw [if_neg h3]
        have hX4 := mt (hx.mag_lt (c := 0x33000000) (q := 1 / 2 ^ 25) (by decide +kernel)).mpr h3
        push_cast at hX4
        obtain ⟨z, hz, hz2⟩ := tail_zero (c := 0#f32.w) big32 (by decide) ok32 N hx (by norm_num at *; linarith) (by norm_num at *; linarith)
        refine ⟨z, hz, hz2, ?_⟩
        rintro rfl
        rw [abs_zero] at hX4
        norm_num at hX4

/-- `expm1f` of a larger number -/
theorem expm1f_big (N : FPU f32) {x : S} {X : ℝ} (hx : GFv f32 x X) (h1 : 88.72283935546875 ≤ X) :
    (Ok (expm1f N x) fun z => f32.IsInf z ∧ f32.sign z = false) ∧ 2 ^ (128 : ℤ) ≤ Real.exp X := by
  have hX0 : 0 < X := by norm_num at h1; linarith
  refine ⟨?_, (Exp.F32.expf_big N hx h1).2⟩
  have hsg := hx.sign_of_pos hX0
  have hnan : ¬ 0x7f800000 < f32.mag x := by
    have := hx.fin
    have h3 : f32.infRep = 0x7f800000 := by decide
    unfold Fmt.IsFin at this; omega
  have hsb : (x.toNat >>> 31 != 0) = f32.sign x := by rw [sign32]; cases f32.sign x <;> rfl
  have h2 : 0x42b17217 < f32.mag x := by
    by_contra hc
    have := (hx.mag_lt over_val).mp (by omega)
    rw [abs_of_pos hX0] at this
    push_cast at this
    linarith
  have hh : 0x4195b844 ≤ f32.mag x := by omega
  have hs : special N x (f32.mag x) (f32.sign x) = some (N.mul x K32.pmax) := by
    unfold special; simp [hh, hnan, hsg, h2]
  unfold expm1f
  simp only [mag32, hsb, hs]
  refine ⟨_, rfl, (hx.mulR N ok32.pmax).over ?_⟩
  have h2 : (2 : ℝ) ≤ X := by norm_num at h1; linarith
  have hp : (0 : ℝ) < 2 ^ (f32.bias : ℤ) := by positivity
  rw [zpow_add₀ (by norm_num), zpow_one, mul_comm]
  exact mul_le_mul_of_nonneg_right h2 hp.le

/-- infinities and NaN -/
theorem expm1f_special (N : FPU f32) (x : S) :
    (f32.IsNaN x → expm1f N x = .ok x) ∧ (f32.IsInf x → f32.sign x = false → Ok (expm1f N x) fun z => f32.IsInf z ∧ f32.sign z = false) ∧
    (f32.IsInf x → f32.sign x = true → expm1f N x = .ok (f32.neg K32.one)) := by
  have hinf : f32.infRep = 0x7f800000 := by decide
  have hsb : (x.toNat >>> 31 != 0) = f32.sign x := by rw [sign32]; cases f32.sign x <;> rfl
  unfold expm1f special
  simp only [mag32, hsb]
  refine ⟨fun h => ?_, fun h hs => ?_, fun h hs => ?_⟩
  · unfold Fmt.IsNaN at h
    rw [hinf] at h
    have h4 : 0x4195b844 ≤ f32.mag x := by omega
    simp [h4, h]
  · have h' := h
    unfold Fmt.IsInf at h'
    rw [hinf] at h'
    simp only [hs, h', ge_iff_le, gt_iff_lt, Bool.false_eq_true]
    refine ⟨_, rfl, ?_⟩
    have hn : ¬ f32.IsNaN x := by unfold Fmt.IsNaN; unfold Fmt.IsInf at h; omega
    have := (N.mul_spec x K32.pmax).2.2 hn (by rw [← f32.isNan_iff]; decide +kernel) (Or.inl h)
    rw [if_neg] at this
    · rw [hs] at this; exact ⟨this.1, this.2.trans (by decide +kernel)⟩
    · rintro (h5 | h5)
      · unfold Fmt.IsZero at h5; unfold Fmt.IsInf at h; rw [h5] at h; exact absurd h (by decide)
      · revert h5; unfold Fmt.IsZero; decide +kernel
  · unfold Fmt.IsInf at h
    rw [hinf] at h
    simp [h, hs]
end F32
end Expm1
end Verif
