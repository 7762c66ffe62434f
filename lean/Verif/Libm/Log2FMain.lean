import Verif.Libm.Log2Main
import Verif.Libm.LogFMain
import Verif.Libm.AsinFMain
/-! # Accuracy of `log2f` and `log10f` -/
namespace Verif
open Fmt
namespace Log2
namespace F32
open Exp.F32 (S)
open Log.F32

theorem iv2 : Iv f32 12 IVLN2HI IVLN2LO (1 / Real.log 2) (f32.val IVLN2HI : ℚ) (f32.val IVLN2LO : ℚ) := by
  have c1 : f32.val IVLN2HI = 2955 / 2 ^ 11 := by decide +kernel
  have c2 : |f32.val IVLN2LO| ≤ 2 / 10 ^ 4 := by decide +kernel
  have c3 : |(f32.val IVLN2HI + f32.val IVLN2LO) * (693147180559945309417 / 10 ^ 21) - 1| ≤ 5 / 10 ^ 12 := by decide +kernel
  have c4 : |f32.val IVLN2HI + f32.val IVLN2LO| ≤ 2 := by decide +kernel
  have l1 := ln2_lo
  have l2 := ln2_hi
  have l0 : 0 < Real.log 2 := by linarith
  have C0 : 0.43 ≤ 1 / Real.log 2 := by rw [le_div_iff₀ l0]; linarith
  have C1 : 1 / Real.log 2 ≤ 1.45 := by rw [div_le_iff₀ l0]; linarith
  have d2 : |((f32.val IVLN2LO : ℚ) : ℝ)| ≤ 2 / 10 ^ 4 := by
    have := Rat.cast_le (K := ℝ).mpr c2; push_cast at this; exact this
  have d3 : |(((f32.val IVLN2HI : ℚ) : ℝ) + (f32.val IVLN2LO : ℚ)) * 0.693147180559945309417 - 1| ≤ 5 / 10 ^ 12 := by
    have := Rat.cast_le (K := ℝ).mpr c3; push_cast at this; norm_num at this ⊢; exact this
  have d4 : |((f32.val IVLN2HI : ℚ) : ℝ) + (f32.val IVLN2LO : ℚ)| ≤ 2 := by
    have := Rat.cast_le (K := ℝ).mpr c4; push_cast at this; exact this
  refine ⟨GFv.const (by decide +kernel) rfl, GFv.const (by decide +kernel) rfl, C0, C1, by
    have : 1.44 ≤ 1 / Real.log 2 := by rw [le_div_iff₀ l0]; linarith
    linarith, ?_, -11, ⟨2955, by rw [c1]; push_cast; norm_num⟩, ?_, by norm_num⟩
  · refine (inv_of ln2_near (by norm_num) (by norm_num) d3 d4).trans (mul_le_mul_of_nonneg_right ?_ (by positivity))
    rw [s32]; norm_num
  · rw [c1]; push_cast; rw [abs_of_pos (by norm_num)]; norm_num

theorem iv10 : Iv f32 12 IVLN10HI IVLN10LO (1 / Real.log 10) (f32.val IVLN10HI : ℚ) (f32.val IVLN10LO : ℚ) := by
  have c1 : f32.val IVLN10HI = 3558 / 2 ^ 13 := by decide +kernel
  have c2 : |f32.val IVLN10LO| ≤ 4 / 10 ^ 5 := by decide +kernel
  have c3 : |(f32.val IVLN10HI + f32.val IVLN10LO) * (230258509299404568402 / 10 ^ 20) - 1| ≤ 5 / 10 ^ 12 := by decide +kernel
  have c4 : |f32.val IVLN10HI + f32.val IVLN10LO| ≤ 2 := by decide +kernel
  have l := ln10_near
  rw [abs_le] at l
  have l0 : 2.3025 ≤ Real.log 10 := by linarith [l.1]
  have l0' : Real.log 10 ≤ 2.303 := by linarith [l.2]
  have l1 : 0 < Real.log 10 := by linarith
  have C0 : 0.43 ≤ 1 / Real.log 10 := by rw [le_div_iff₀ l1]; linarith
  have C1 : 1 / Real.log 10 ≤ 1.45 := by rw [div_le_iff₀ l1]; linarith
  have d2 : |((f32.val IVLN10LO : ℚ) : ℝ)| ≤ 4 / 10 ^ 5 := by
    have := Rat.cast_le (K := ℝ).mpr c2; push_cast at this; exact this
  have d3 : |(((f32.val IVLN10HI : ℚ) : ℝ) + (f32.val IVLN10LO : ℚ)) * 2.30258509299404568402 - 1| ≤ 5 / 10 ^ 12 := by
    have := Rat.cast_le (K := ℝ).mpr c3; push_cast at this; norm_num at this ⊢; exact this
  have d4 : |((f32.val IVLN10HI : ℚ) : ℝ) + (f32.val IVLN10LO : ℚ)| ≤ 2 := by
    have := Rat.cast_le (K := ℝ).mpr c4; push_cast at this; exact this
  refine ⟨GFv.const (by decide +kernel) rfl, GFv.const (by decide +kernel) rfl, C0, C1, by linarith, ?_, -13, ⟨3558, by rw [c1]; push_cast; norm_num⟩, ?_, by norm_num⟩
  · refine (inv_of ln10_near (by norm_num) (by norm_num) d3 d4).trans (mul_le_mul_of_nonneg_right ?_ (by positivity))
    rw [s32]; norm_num
  · rw [c1]; push_cast; rw [abs_of_pos (by norm_num)]; norm_num

theorem hilo32 (N : FPU f32) {x : S} {X : ℝ} (hx : GFv f32 x X) (hX0 : 7071 / 10000 ≤ X) (hX1 : X ≤ 141422 / 100000) :
    HL f32 12 (hilo N one two half (polyR N) Asin.F32.clearLow x).1 (hilo N one two half (polyR N) Asin.F32.clearLow x).2 |X - 1| (Real.log X) ∧ 0.828 * |X - 1| ≤ |Real.log X| ∧
      |Real.log X| ≤ 0.34665 ∧ (X ≠ 1 → (1 : ℝ) / 2 ^ 150 ≤ 1 / 1000000 * (1 / 2 ^ (f32.s + 1) * |X - 1|)) :=
  hilo_spec big32 (Or.inl rfl) N (by rw [s32]; norm_num) (by norm_num) Asin.F32.clear_mag hx one_fv half_fv two_fv hX0 hX1 (fun s v h => polyR_spec N s v h) (by decide +kernel)
    (B := 3 / 100 / 2 ^ 24) (n := 8) (by decide +kernel) (by rw [s32]; push_cast; norm_num)


/-- what is claimed of a result -/
def Good (z : S) (T : ℝ) : Prop := ∃ W, GFv f32 z W ∧ |W - T| ≤ 3 / 2 ^ 24 * |T|

/-- the final sums; `K1`, `K2` are the multiples of the two parts of a constant -/
theorem fin32 (N : FPU f32) {y vh vl : S} {X C K1 K2 : ℝ} {k : ℤ} (hX0 : 7071 / 10000 ≤ X) (hX1 : X ≤ 141422 / 100000) (hk : |(k : ℝ)| ≤ 150) (hne : k = 0 → X ≠ 1) (C0 : 0.43 ≤ C) (C1 : C ≤ 1.45)
    (hp : ∀ a, |X - 1| ≤ a → a ≤ 0.41422 → (1 : ℝ) / 2 ^ 150 ≤ 1 / 1000000 * (1 / 2 ^ (f32.s + 1) * a) → Parts f32 vh vl a C (Real.log X) K2)
    (hl : 0.828 * |X - 1| ≤ |Real.log X|) (hl2 : |Real.log X| ≤ 0.34665) (ht : X ≠ 1 → (1 : ℝ) / 2 ^ 150 ≤ 1 / 1000000 * (1 / 2 ^ (f32.s + 1) * |X - 1|))
    (hy : GFv f32 y K1) (hK1 : |K1| ≤ 2000) (hK10 : k = 0 → K1 = 0) (hK2 : |K2| ≤ 0.000002 * (C * |(k : ℝ)|))
    (hK : |K1 + K2 - C * (k * Real.log 2)| ≤ 0.001 * (1 / 2 ^ (f32.s + 1) * (C * |(k : ℝ)|))) :
    Good (N.add (N.add vl vh) y) (C * (Real.log X + k * Real.log 2)) := by
  have hX9 : |X - 1| ≤ 0.41422 := by rw [abs_le]; constructor <;> linarith
  have hu0 : (0 : ℝ) < 1 / 2 ^ (f32.s + 1) := by positivity
  have hu := u_le (F := f32) (Or.inl rfl)
  have e2 : (3 : ℝ) / 2 ^ 24 = 3 * (1 / 2 ^ (f32.s + 1)) := by rw [s32]; norm_num
  have h32 : ∀ v : ℝ, 1 / 2 ^ (f32.s + 1) * |v| ≤ 1 / 1000000 * |v| := fun v => mul_le_mul_of_nonneg_right hu (abs_nonneg v)
  have t3 : (1 : ℝ) / 2 ^ 150 ≤ 1 := by norm_num
  by_cases hk0 : k = 0
  · obtain ⟨V, W, gV, gW, h1, h2, h3⟩ := hp _ (le_refl _) hX9 (ht (hne hk0))
    have hK20 : K2 = 0 := by
      rw [hk0] at hK2; simp at hK2; exact hK2
    rw [hK10 hk0] at hy
    rw [hK20, abs_zero, mul_zero, mul_zero, add_zero, add_zero] at h1
    rw [hK20, abs_zero, mul_zero, add_zero] at h2
    have hCa : C * |X - 1| ≤ 0.7 := by nlinarith [abs_nonneg (X - 1)]
    have hWV : |W + V| ≤ 2 := by have := abs_add_le W V; linarith
    obtain ⟨Z, gZ, eZ⟩ := GFv.rnd big32 (gW.addR N gV) (hWV.trans (by norm_num))
    have hZ : |Z| ≤ 2000 := by
      have := abs_sub_abs_le_abs_sub Z (W + V); have := h32 (W + V); linarith
    refine ⟨Z, rself big32 gZ hZ (by have := gZ.addR N hy; rwa [add_zero] at this), ?_⟩
    rw [e2, hk0, Int.cast_zero, zero_mul, add_zero]
    rw [add_comm W V] at eZ
    refine (zero_real hu0 (abs_nonneg _) hu (ht (hne hk0)) C0 hl h1 eZ).trans (mul_le_mul_of_nonneg_right (by linarith) (abs_nonneg _))
  · have t1 : (1 : ℝ) / 2 ^ 150 ≤ 1 / 1000000 * (1 / 2 ^ (f32.s + 1) * 0.41422) := by rw [s32]; norm_num
    have t2 : (1 : ℝ) / 2 ^ 150 ≤ 1 / 1000000 * (1 / 2 ^ (f32.s + 1)) := by rw [s32]; norm_num
    obtain ⟨V, W, gV, gW, h1, h2, h3⟩ := hp _ hX9 (le_refl _) t1
    have hk1 : 1 ≤ |(k : ℝ)| := by
      have : 1 ≤ |k| := Int.one_le_abs hk0
      exact_mod_cast this
    have hK2b : |K2| ≤ 0.0003 * C := by nlinarith
    have hWV : |W + V| ≤ 2 := by have := abs_add_le W V; linarith
    obtain ⟨g, gg, eg⟩ := GFv.rnd big32 (gW.addR N gV) (hWV.trans (by norm_num))
    have hg : |g| ≤ 4 := by
      have := abs_sub_abs_le_abs_sub g (W + V); have := h32 (W + V); linarith
    have hs := abs_add_le g K1
    obtain ⟨Z, gZ, eZ⟩ := GFv.rnd big32 (gg.addR N hy) (le_trans (show _ ≤ (2004 : ℝ) by linarith) (by norm_num))
    refine ⟨Z, gZ, ?_⟩
    rw [e2]
    exact plain_real hu0 hu t2 C0 rfl hk1 hl2 hK2 hK2b hK h1 eg eZ

theorem main2_spec (N : FPU f32) {x : S} {X : ℝ} {k : ℤ} (hx : GFv f32 x X) (hX0 : 7071 / 10000 ≤ X) (hX1 : X ≤ 141422 / 100000)
    (hk : |k| ≤ 150) (hne : k = 0 → X ≠ 1) : Ok (main2 N x k) fun z => Good z (1 / Real.log 2 * (Real.log X + k * Real.log 2)) := by
  have hkR : |(k : ℝ)| ≤ 150 := by exact_mod_cast hk
  rw [abs_le] at hk
  obtain ⟨dk, d1, d2⟩ := ofI32_spec (k := k) (by omega) (by omega)
  obtain ⟨h1, h2, h3, h4⟩ := hilo32 N hx hX0 hX1
  unfold main2
  simp only [d1]
  have C0 := iv2.C0
  have C1 := iv2.C1
  have l0 : Real.log 2 ≠ 0 := (Real.log_pos (by norm_num)).ne'
  refine ⟨_, rfl, fin32 N (K1 := k) (K2 := 0) hX0 hX1 hkR hne C0 C1 (fun a ha ha1 ht => ?_) h2 h3 h4 ⟨d2.1, d2.2⟩ (by linarith) (by rintro rfl; simp) (by simp; positivity) ?_⟩
  · have ha0 : 0 ≤ a := (abs_nonneg _).trans ha
    exact parts2 big32 (Or.inl rfl) N (prods_spec big32 (Or.inl rfl) N (h1.mono ha) ha0 ha1 ht iv2) C0 C1 ha0 ha1 ht
  · rw [show (k : ℝ) + 0 - 1 / Real.log 2 * (k * Real.log 2) = 0 by field_simp; ring, abs_zero]; positivity

/-- a power of two -/
theorem main2_one (N : FPU f32) {x : S} {k : ℤ} (hx : GFv f32 x 1) (hk : |k| ≤ 150) : Ok (main2 N x k) fun z => GFv f32 z k := by
  have hkR : |(k : ℝ)| ≤ 2000 := by
    have : |(k : ℝ)| ≤ 150 := by exact_mod_cast hk
    linarith
  rw [abs_le] at hk
  obtain ⟨dk, d1, d2⟩ := ofI32_spec (k := k) (by omega) (by omega)
  have h1 := (hilo32 N hx (by norm_num) (by norm_num)).1
  rw [sub_self, abs_zero] at h1
  obtain ⟨z1, z2⟩ := prods_zero big32 N h1 iv2.hA iv2.hB
  have gk : GFv f32 dk k := ⟨d2.1, d2.2⟩
  unfold main2
  simp only [d1]
  refine ⟨_, rfl, ?_⟩
  have g1 := rself big32 z1 (by simp) (by have := z2.addR N z1; rwa [add_zero] at this)
  exact rself big32 gk hkR (by have := g1.addR N gk; rwa [zero_add] at this)

theorem main10_spec (N : FPU f32) {x : S} {X : ℝ} {k : ℤ} (hx : GFv f32 x X) (hX0 : 7071 / 10000 ≤ X) (hX1 : X ≤ 141422 / 100000)
    (hk : |k| ≤ 150) (hne : k = 0 → X ≠ 1) : Ok (main10 N x k) fun z => Good z (1 / Real.log 10 * (Real.log X + k * Real.log 2)) := by
  have hkR : |(k : ℝ)| ≤ 150 := by exact_mod_cast hk
  rw [abs_le] at hk
  obtain ⟨dk, d1, d2⟩ := ofI32_spec (k := k) (by omega) (by omega)
  obtain ⟨h1, h2, h3, h4⟩ := hilo32 N hx hX0 hX1
  have C0 := iv10.C0
  have C1 := iv10.C1
  have hhi := GFv.const (F := f32) (b := LOG10_2HI) (q := _) (by decide +kernel) rfl
  have hlo := GFv.const (F := f32) (b := LOG10_2LO) (q := _) (by decide +kernel) rfl
  have c1 : f32.val LOG10_2HI = 78913 / 2 ^ 18 := by decide +kernel
  have c2 : |f32.val LOG10_2LO| ≤ 8 / 10 ^ 7 := by decide +kernel
  have c3 : |(f32.val LOG10_2HI + f32.val LOG10_2LO) * (230258509299404568402 / 10 ^ 20) - 693147180559945309417 / 10 ^ 21| ≤ 4 / 10 ^ 12 := by decide +kernel
  have c4 : |f32.val LOG10_2HI + f32.val LOG10_2LO| ≤ 1 := by decide +kernel
  have e2 : |((f32.val LOG10_2LO : ℚ) : ℝ)| ≤ 8 / 10 ^ 7 := by
    have := Rat.cast_le (K := ℝ).mpr c2; push_cast at this; exact this
  have e3 : |(((f32.val LOG10_2HI : ℚ) : ℝ) + (f32.val LOG10_2LO : ℚ)) * 2.30258509299404568402 - 0.693147180559945309417| ≤ 4 / 10 ^ 12 := by
    have := Rat.cast_le (K := ℝ).mpr c3; push_cast at this; norm_num at this ⊢; exact this
  have e4 : |((f32.val LOG10_2HI : ℚ) : ℝ) + (f32.val LOG10_2LO : ℚ)| ≤ 1 := by
    have := Rat.cast_le (K := ℝ).mpr c4; push_cast at this; exact this
  have e5 : |(((f32.val LOG10_2HI : ℚ) : ℝ) + (f32.val LOG10_2LO : ℚ)) * Real.log 10 - Real.log 2| ≤ 5 / 10 ^ 12 := by
    have a1 := ln10_near
    have a2 := ln2_near
    generalize ((f32.val LOG10_2HI : ℚ) : ℝ) + (f32.val LOG10_2LO : ℚ) = q at *
    have a3 : |q * (Real.log 10 - 2.30258509299404568402)| ≤ 1 / 10 ^ 20 := by
      rw [abs_mul]
      have := mul_le_mul e4 a1 (abs_nonneg _) (by norm_num)
      linarith
    have a4 := abs_add_le (q * (Real.log 10 - 2.30258509299404568402) + (q * 2.30258509299404568402 - 0.693147180559945309417)) (-(Real.log 2 - 0.693147180559945309417))
    have a5 := abs_add_le (q * (Real.log 10 - 2.30258509299404568402)) (q * 2.30258509299404568402 - 0.693147180559945309417)
    rw [abs_neg] at a4
    rw [show q * Real.log 10 - Real.log 2 = q * (Real.log 10 - 2.30258509299404568402) + (q * 2.30258509299404568402 - 0.693147180559945309417) + -(Real.log 2 - 0.693147180559945309417) by ring]
    linarith
  have hd : |((f32.val LOG10_2HI : ℚ) : ℝ)| ≤ 0.302 ∧ 0.3 ≤ |((f32.val LOG10_2HI : ℚ) : ℝ)| := by rw [c1]; push_cast; rw [abs_of_pos (by norm_num)]; norm_num
  have hl10 : 0 < Real.log 10 := Real.log_pos (by norm_num)
  have hC : 1 / Real.log 10 ≤ 0.4344 := by
    rw [div_le_iff₀ hl10]
    have := ln10_near
    rw [abs_le] at this
    linarith [this.1]
  have hkh : |(k : ℝ) * (f32.val LOG10_2HI : ℚ)| ≤ 60 := by
    rw [abs_mul]
    have := mul_le_mul hkR hd.1 (abs_nonneg _) (by norm_num)
    linarith
  have hkl : |(k : ℝ) * (f32.val LOG10_2LO : ℚ)| ≤ |(k : ℝ)| * (8 / 10 ^ 7) := by
    rw [abs_mul]; exact mul_le_mul_of_nonneg_left e2 (abs_nonneg _)
  have gy : GFv f32 (N.mul dk LOG10_2HI) (k * (f32.val LOG10_2HI : ℚ)) := GFv.of_rounds big32 (GFv.mulR N ⟨d2.1, d2.2⟩ hhi) (j := -18) ⟨k * 78913, by rw [c1]; push_cast; norm_num; ring⟩
    (by rw [s32]; refine hkh.trans ?_; norm_num) (by rw [b32, s32]; norm_num) (hkh.trans (by norm_num))
  unfold main10
  simp only [d1]
  refine ⟨_, rfl, fin32 N (K1 := k * (f32.val LOG10_2HI : ℚ)) (K2 := k * (f32.val LOG10_2LO : ℚ)) hX0 hX1 hkR hne C0 C1 (fun a ha ha1 ht => ?_) h2 h3 h4 gy (by linarith) (by rintro rfl; simp) ?_ ?_⟩
  · have ha0 : 0 ≤ a := (abs_nonneg _).trans ha
    exact parts10 big32 (Or.inl rfl) N (prods_spec big32 (Or.inl rfl) N (h1.mono ha) ha0 ha1 ht iv10) C0 C1 ha0 ha1 ht ⟨d2.1, d2.2⟩ hlo (by
      refine hkl.trans ((mul_le_mul_of_nonneg_right hkR (by norm_num)).trans (by norm_num)))
  · refine hkl.trans ?_
    have := mul_le_mul_of_nonneg_right C0 (abs_nonneg (k : ℝ))
    nlinarith [abs_nonneg (k : ℝ)]
  · have e : (k : ℝ) * (f32.val LOG10_2HI : ℚ) + k * (f32.val LOG10_2LO : ℚ) - 1 / Real.log 10 * (k * Real.log 2) =
        k * (1 / Real.log 10) * ((((f32.val LOG10_2HI : ℚ) : ℝ) + (f32.val LOG10_2LO : ℚ)) * Real.log 10 - Real.log 2) := by field_simp
    rw [e, abs_mul, abs_mul, abs_of_pos (show 0 < 1 / Real.log 10 by positivity)]
    refine (mul_le_mul_of_nonneg_left e5 (by positivity)).trans ?_
    rw [s32]
    have : 0 ≤ 1 / Real.log 10 * |(k : ℝ)| := by positivity
    nlinarith

/-- `log2f` of a positive number -/
theorem log2f_spec (N : FPU f32) {x : S} {X : ℝ} (hx : GFv f32 x X) (hX : 0 < X) (h1 : X ≠ 1) :
    Ok (log2f N x) fun z => Good z (Real.logb 2 X) ∧ ∀ m : ℤ, X = 2 ^ m → GFv f32 z m := by
  have hm : MainOk (main2 N) fun z T => Good z (Real.logb 2 T) ∧ ∀ m : ℤ, T = 2 ^ m → GFv f32 z m := fun x X k a b c d e => by
    obtain ⟨z, hz, h⟩ := main2_spec N a b c d e
    refine ⟨z, hz, ?_, fun m hm => ?_⟩
    · rwa [← logb_eq (by linarith)]
    · obtain ⟨e1, e2⟩ := pow_one b c hm
      rw [e1] at a
      obtain ⟨z', hz', h'⟩ := main2_one N a d
      rw [hz] at hz'
      rw [← e2, Except.ok.inj hz']
      exact h'
  exact skel_spec N (P := fun z T => Good z (Real.logb 2 T) ∧ ∀ m : ℤ, T = 2 ^ m → GFv f32 z m) hm hx hX h1

/-- `log10f` of a positive number -/
theorem log10f_spec (N : FPU f32) {x : S} {X : ℝ} (hx : GFv f32 x X) (hX : 0 < X) (h1 : X ≠ 1) : Ok (log10f N x) fun z => Good z (Real.logb 10 X) := by
  have hm : MainOk (main10 N) fun z T => Good z (Real.logb 10 T) := fun x X k a b c d e => by
    have := main10_spec N a b c d e
    dsimp only
    rwa [← logb_eq (by linarith)]
  exact skel_spec N (P := fun z T => Good z (Real.logb 10 T)) hm hx hX h1
end F32
end Log2
end Verif
