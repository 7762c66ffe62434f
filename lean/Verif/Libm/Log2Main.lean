import Verif.Libm.Log2Scale
import Verif.Libm.LogSkel
import Verif.Libm.LogMain
import Verif.Libm.AsinMain
import Mathlib.Analysis.SpecialFunctions.Log.Base
/-! # Accuracy of `log2` and `log10` -/
namespace Verif
open Fmt
namespace Log2
open Pio2 Log

/-- 22 digits of `ln 10` -/
theorem ln10_near : |Real.log 10 - 2.30258509299404568402| ≤ 1 / 10 ^ 20 := by
  have h := Poly.log_rat (P := Poly.logL) (B := 0) (n := 0) (by decide +kernel) (f := 1 / 4) (s := 1 / 9) (by norm_num) (by norm_num) (by rw [abs_of_pos (by norm_num)]; norm_num)
  have e : Real.log 10 = 3 * Real.log 2 + Real.log (1 + 1 / 4) := by
    rw [show (10 : ℝ) = 2 ^ 3 * (1 + 1 / 4) by norm_num, Real.log_mul (by norm_num) (by norm_num), Real.log_pow]; push_cast; ring
  have h2 := Poly.ln2_gt
  have h3 := Poly.ln2_lt
  rw [e]
  unfold Poly.ln2L at h2
  unfold Poly.ln2H at h3
  push_cast at h2 h3
  simp only [Poly.logL, Poly.ev] at h
  rw [abs_of_pos (show (0 : ℝ) < 1 / 9 by norm_num)] at h
  push_cast at h
  rw [abs_le] at h ⊢
  norm_num at h h2 h3 ⊢
  constructor <;> linarith [h.1, h.2]

theorem ln2_near : |Real.log 2 - 0.693147180559945309417| ≤ 1 / 10 ^ 20 := by
  have h2 := Poly.ln2_gt
  have h3 := Poly.ln2_lt
  unfold Poly.ln2L at h2
  unfold Poly.ln2H at h3
  push_cast at h2 h3
  rw [abs_le]
  norm_num at h2 h3 ⊢
  constructor <;> linarith

/-- the reciprocal of a logarithm from an enclosure -/
theorem inv_of {l c e q δ : ℝ} (h : |l - c| ≤ e) (hc : 0.5 ≤ c) (he : e ≤ 0.001) (hq : |q * c - 1| ≤ δ) (hq2 : |q| ≤ 2) : |q - 1 / l| ≤ (δ + 2 * e) * (1 / l) := by
  have hl : 0 < l := by rw [abs_le] at h; linarith [h.1]
  have e1 : q - 1 / l = (q * l - 1) * (1 / l) := by field_simp
  rw [e1, abs_mul, abs_of_pos (show 0 < 1 / l by positivity)]
  refine mul_le_mul_of_nonneg_right ?_ (by positivity)
  have := abs_add_le (q * c - 1) (q * (l - c))
  rw [show q * c - 1 + q * (l - c) = q * l - 1 by ring, abs_mul] at this
  have := mul_le_mul hq2 h (abs_nonneg _) (by norm_num)
  linarith

theorem iv2 : Iv f64 32 IVLN2HI IVLN2LO (1 / Real.log 2) (f64.val IVLN2HI : ℚ) (f64.val IVLN2LO : ℚ) := by
  have c1 : f64.val IVLN2HI = 3098164009 / 2 ^ 31 := by decide +kernel
  have c2 : |f64.val IVLN2LO| ≤ 2 / 10 ^ 10 := by decide +kernel
  have c3 : |(f64.val IVLN2HI + f64.val IVLN2LO) * (693147180559945309417 / 10 ^ 21) - 1| ≤ 1 / 10 ^ 20 := by decide +kernel
  have c4 : |f64.val IVLN2HI + f64.val IVLN2LO| ≤ 2 := by decide +kernel
  have l1 := ln2_lo
  have l2 := ln2_hi
  have l0 : 0 < Real.log 2 := by linarith
  have C0 : 0.43 ≤ 1 / Real.log 2 := by rw [le_div_iff₀ l0]; linarith
  have C1 : 1 / Real.log 2 ≤ 1.45 := by rw [div_le_iff₀ l0]; linarith
  have d2 : |((f64.val IVLN2LO : ℚ) : ℝ)| ≤ 2 / 10 ^ 10 := by
    have := Rat.cast_le (K := ℝ).mpr c2; push_cast at this; exact this
  have d3 : |(((f64.val IVLN2HI : ℚ) : ℝ) + (f64.val IVLN2LO : ℚ)) * 0.693147180559945309417 - 1| ≤ 1 / 10 ^ 20 := by
    have := Rat.cast_le (K := ℝ).mpr c3; push_cast at this; norm_num at this ⊢; exact this
  have d4 : |((f64.val IVLN2HI : ℚ) : ℝ) + (f64.val IVLN2LO : ℚ)| ≤ 2 := by
    have := Rat.cast_le (K := ℝ).mpr c4; push_cast at this; exact this
  refine ⟨GFv.const (by decide +kernel) rfl, GFv.const (by decide +kernel) rfl, C0, C1, by linarith, ?_, -31, ⟨3098164009, by rw [c1]; push_cast; norm_num⟩, ?_, by norm_num⟩
  · refine (inv_of ln2_near (by norm_num) (by norm_num) d3 d4).trans (mul_le_mul_of_nonneg_right ?_ (by positivity))
    rw [s64]; norm_num
  · rw [c1]; push_cast; rw [abs_of_pos (by norm_num)]; norm_num

theorem iv10 : Iv f64 32 IVLN10HI IVLN10LO (1 / Real.log 10) (f64.val IVLN10HI : ℚ) (f64.val IVLN10LO : ℚ) := by
  have c1 : f64.val IVLN10HI = 3730561193 / 2 ^ 33 := by decide +kernel
  have c2 : |f64.val IVLN10LO| ≤ 2 / 10 ^ 10 := by decide +kernel
  have c3 : |(f64.val IVLN10HI + f64.val IVLN10LO) * (230258509299404568402 / 10 ^ 20) - 1| ≤ 5 / 10 ^ 20 := by decide +kernel
  have c4 : |f64.val IVLN10HI + f64.val IVLN10LO| ≤ 2 := by decide +kernel
  have l := ln10_near
  rw [abs_le] at l
  have l0 : 2.3025 ≤ Real.log 10 := by linarith [l.1]
  have l0' : Real.log 10 ≤ 2.303 := by linarith [l.2]
  have l1 : 0 < Real.log 10 := by linarith
  have C0 : 0.43 ≤ 1 / Real.log 10 := by rw [le_div_iff₀ l1]; linarith
  have C1 : 1 / Real.log 10 ≤ 1.45 := by rw [div_le_iff₀ l1]; linarith
  have d2 : |((f64.val IVLN10LO : ℚ) : ℝ)| ≤ 2 / 10 ^ 10 := by
    have := Rat.cast_le (K := ℝ).mpr c2; push_cast at this; exact this
  have d3 : |(((f64.val IVLN10HI : ℚ) : ℝ) + (f64.val IVLN10LO : ℚ)) * 2.30258509299404568402 - 1| ≤ 5 / 10 ^ 20 := by
    have := Rat.cast_le (K := ℝ).mpr c3; push_cast at this; norm_num at this ⊢; exact this
  have d4 : |((f64.val IVLN10HI : ℚ) : ℝ) + (f64.val IVLN10LO : ℚ)| ≤ 2 := by
    have := Rat.cast_le (K := ℝ).mpr c4; push_cast at this; exact this
  refine ⟨GFv.const (by decide +kernel) rfl, GFv.const (by decide +kernel) rfl, C0, C1, by linarith, ?_, -33, ⟨3730561193, by rw [c1]; push_cast; norm_num⟩, ?_, by norm_num⟩
  · refine (inv_of ln10_near (by norm_num) (by norm_num) d3 d4).trans (mul_le_mul_of_nonneg_right ?_ (by positivity))
    rw [s64]; norm_num
  · rw [c1]; push_cast; rw [abs_of_pos (by norm_num)]; norm_num

theorem hilo64 (N : FPU f64) {x : D} {X : ℝ} (hx : GFv f64 x X) (hX0 : 7071 / 10000 ≤ X) (hX1 : X ≤ 141422 / 100000) :
    HL f64 32 (hilo N one two half (polyR N) Asin.clearLow x).1 (hilo N one two half (polyR N) Asin.clearLow x).2 |X - 1| (Real.log X) ∧ 0.828 * |X - 1| ≤ |Real.log X| ∧
      |Real.log X| ≤ 0.34665 ∧ (X ≠ 1 → (1 : ℝ) / 2 ^ 150 ≤ 1 / 1000000 * (1 / 2 ^ (f64.s + 1) * |X - 1|)) :=
  hilo_spec big64 (Or.inr rfl) N (by rw [s64]; norm_num) (by norm_num) Asin.clear_mag hx one_fv half_fv two_fv hX0 hX1 (fun s S h => polyR_spec N s S h) (by decide +kernel)
    (B := 3 / 100 / 2 ^ 53) (n := 8) (by decide +kernel) (by rw [s64]; push_cast; norm_num)

/-- a number rounded to itself -/
theorem rself {F : Fmt} (hF : F.Big) {r b : BitVec F.w} {v : ℝ} (hb : GFv F b v) (h1 : |v| ≤ 2000) (hr : F.Rounds v r) : GFv F r v :=
  ⟨hr.fin100 hF (h1.trans (by norm_num)), hr.exactR F (by have := F.rp_val b; rwa [hb.val] at this) (h1.trans (by
    have := hF.bias
    exact le_trans (show (2000 : ℝ) ≤ 2 ^ (11 : ℤ) by norm_num) (zpow_le_zpow_right₀ (by norm_num) (by omega))))⟩

theorem HL.zero {F : Fmt} {c : ℕ} {hi lo : BitVec F.w} {T : ℝ} (h : HL F c hi lo 0 T) : GFv F hi 0 ∧ GFv F lo 0 := by
  obtain ⟨H, L, j, g1, g2, -, -, -, -, h1, h2⟩ := h
  rw [mul_zero] at h1 h2
  exact ⟨g1.cast (abs_nonpos_iff.mp h2), g2.cast (abs_nonpos_iff.mp h1)⟩

theorem prods_zero {F : Fmt} (hF : F.Big) (N : FPU F) {c : ℕ} {hi lo ivhi ivlo : BitVec F.w} {T A B : ℝ} (h : HL F c hi lo 0 T) (hA : GFv F ivhi A) (hB : GFv F ivlo B) :
    GFv F (N.mul hi ivhi) 0 ∧ GFv F (N.add (N.mul (N.add lo hi) ivlo) (N.mul lo ivhi)) 0 := by
  obtain ⟨h1, h2⟩ := h.zero
  have z : ∀ {r : BitVec F.w}, F.Rounds (0 : ℝ) r → GFv F r 0 := fun h => rself hF h1 (by simp) h
  have g1 := z (by have := h1.mulR N hA; rwa [zero_mul] at this)
  have g2 := z (by have := h2.addR N h1; rwa [add_zero] at this)
  have g3 := z (by have := g2.mulR N hB; rwa [zero_mul] at this)
  have g4 := z (by have := h2.mulR N hA; rwa [zero_mul] at this)
  exact ⟨g1, z (by have := g3.addR N g4; rwa [add_zero] at this)⟩

/-- what is claimed of a result -/
def Good (z : D) (T : ℝ) : Prop := ∃ W, GFv f64 z W ∧ |W - T| ≤ 1 / 2 ^ 52 * |T|

/-- the final sums; `K1`, `K2` are the multiples of the two parts of a constant -/
theorem fin64 (N : FPU f64) {y vh vl : D} {X C K1 K2 : ℝ} {k : ℤ} (hX0 : 7071 / 10000 ≤ X) (hX1 : X ≤ 141422 / 100000) (hk : |(k : ℝ)| ≤ 1100) (hne : k = 0 → X ≠ 1) (C0 : 0.43 ≤ C) (C1 : C ≤ 1.45)
    (hp : ∀ a, |X - 1| ≤ a → a ≤ 0.41422 → (1 : ℝ) / 2 ^ 150 ≤ 1 / 1000000 * (1 / 2 ^ (f64.s + 1) * a) → Parts f64 vh vl a C (Real.log X) K2)
    (hl : 0.828 * |X - 1| ≤ |Real.log X|) (hl2 : |Real.log X| ≤ 0.34665) (ht : X ≠ 1 → (1 : ℝ) / 2 ^ 150 ≤ 1 / 1000000 * (1 / 2 ^ (f64.s + 1) * |X - 1|))
    (hy : GFv f64 y K1) (hK1 : |K1| ≤ 2000) (hK10 : k = 0 → K1 = 0) (hK1b : k ≠ 0 → 0.65 * C ≤ |K1|) (hK2 : |K2| ≤ 0.00000001 * (C * |(k : ℝ)|))
    (hK : |K1 + K2 - C * (k * Real.log 2)| ≤ 0.001 * (1 / 2 ^ (f64.s + 1) * (C * |(k : ℝ)|))) :
    Good (spadd N y vh vl) (C * (Real.log X + k * Real.log 2)) := by
  have hX9 : |X - 1| ≤ 0.41422 := by rw [abs_le]; constructor <;> linarith
  have hu0 : (0 : ℝ) < 1 / 2 ^ (f64.s + 1) := by positivity
  have hu := u_le (F := f64) (Or.inr rfl)
  have e2 : (1 : ℝ) / 2 ^ 52 = 2 * (1 / 2 ^ (f64.s + 1)) := by rw [s64]; norm_num
  by_cases hk0 : k = 0
  · obtain ⟨V, W, gV, gW, h1, h2, h3⟩ := hp _ (le_refl _) hX9 (ht (hne hk0))
    have hK20 : K2 = 0 := by
      rw [hk0] at hK2; simp at hK2; exact hK2
    rw [hK10 hk0] at hy
    rw [hK20, abs_zero, mul_zero, mul_zero, add_zero, add_zero] at h1
    rw [hK20, abs_zero, mul_zero, add_zero] at h2
    have hCa : C * |X - 1| ≤ 0.7 := by nlinarith [abs_nonneg (X - 1)]
    obtain ⟨Z, gZ, eZ⟩ := sp0 big64 N hy gV gW (by linarith) (by linarith)
    refine ⟨Z, gZ, ?_⟩
    rw [e2, hk0, Int.cast_zero, zero_mul, add_zero]
    exact zero_real hu0 (abs_nonneg _) hu (ht (hne hk0)) C0 hl h1 eZ
  · have t1 : (1 : ℝ) / 2 ^ 150 ≤ 1 / 1000000 * (1 / 2 ^ (f64.s + 1) * 0.41422) := by rw [s64]; norm_num
    have t2 : (1 : ℝ) / 2 ^ 150 ≤ 1 / 1000000 * (1 / 2 ^ (f64.s + 1)) := by rw [s64]; norm_num
    obtain ⟨V, W, gV, gW, h1, h2, h3⟩ := hp _ hX9 (le_refl _) t1
    have hk1 : 1 ≤ |(k : ℝ)| := by
      have : 1 ≤ |k| := Int.one_le_abs hk0
      exact_mod_cast this
    have hb := hK1b hk0
    have hK2a : |K2| ≤ 0.000002 * (C * |(k : ℝ)|) := hK2.trans (mul_le_mul_of_nonneg_right (by norm_num) (by positivity))
    have hK2b : |K2| ≤ 0.0003 * C := by nlinarith
    have hV : |V| ≤ |K1| := by linarith
    obtain ⟨w, e, v, Z, gZ, ew, ee, ev, eZ⟩ := spK big64 N hy gV gW hK1 hV (by linarith)
    refine ⟨Z, gZ, ?_⟩
    rw [e2]
    exact spK_real hu0 hu t2 C0 rfl hk1 (by rw [s64]; refine (mul_le_mul_of_nonneg_left hk (by positivity)).trans ?_; norm_num) hl2 hK2a hK2b hK hV h1 h2 ew ee ev eZ

theorem main2_spec (N : FPU f64) {x : D} {X : ℝ} {k : ℤ} (hx : GFv f64 x X) (hX0 : 7071 / 10000 ≤ X) (hX1 : X ≤ 141422 / 100000)
    (hk : |k| ≤ 1100) (hne : k = 0 → X ≠ 1) : Ok (main2 N x k) fun z => Good z (1 / Real.log 2 * (Real.log X + k * Real.log 2)) := by
  have hkR : |(k : ℝ)| ≤ 1100 := by exact_mod_cast hk
  rw [abs_le] at hk
  obtain ⟨dk, d1, d2⟩ := ofI32_spec (k := k) (by omega) (by omega)
  obtain ⟨h1, h2, h3, h4⟩ := hilo64 N hx hX0 hX1
  unfold main2
  simp only [d1]
  have C0 := iv2.C0
  have C1 := iv2.C1
  have l0 : Real.log 2 ≠ 0 := (Real.log_pos (by norm_num)).ne'
  refine ⟨_, rfl, fin64 N (K1 := k) (K2 := 0) hX0 hX1 hkR hne C0 C1 (fun a ha ha1 ht => ?_) h2 h3 h4 ⟨d2.1, d2.2⟩ (by linarith) (by rintro rfl; simp) ?_ (by simp; positivity) ?_⟩
  · have ha0 : 0 ≤ a := (abs_nonneg _).trans ha
    exact parts2 big64 (Or.inr rfl) N (prods_spec big64 (Or.inr rfl) N (h1.mono ha) ha0 ha1 ht iv2) C0 C1 ha0 ha1 ht
  · intro hk0
    have : 1 ≤ |k| := Int.one_le_abs hk0
    have : (1 : ℝ) ≤ |(k : ℝ)| := by exact_mod_cast this
    linarith
  · rw [show (k : ℝ) + 0 - 1 / Real.log 2 * (k * Real.log 2) = 0 by field_simp; ring, abs_zero]; positivity

/-- a power of two -/
theorem main2_one (N : FPU f64) {x : D} {k : ℤ} (hx : GFv f64 x 1) (hk : |k| ≤ 1100) : Ok (main2 N x k) fun z => GFv f64 z k := by
  have hkR : |(k : ℝ)| ≤ 2000 := by
    have : |(k : ℝ)| ≤ 1100 := by exact_mod_cast hk
    linarith
  rw [abs_le] at hk
  obtain ⟨dk, d1, d2⟩ := ofI32_spec (k := k) (by omega) (by omega)
  have h1 := (hilo64 N hx (by norm_num) (by norm_num)).1
  rw [sub_self, abs_zero] at h1
  obtain ⟨z1, z2⟩ := prods_zero big64 N h1 iv2.hA iv2.hB
  have gk : GFv f64 dk k := ⟨d2.1, d2.2⟩
  unfold main2
  simp only [d1]
  refine ⟨_, rfl, ?_⟩
  unfold spadd
  dsimp only
  have g1 := rself big64 gk hkR (by have := gk.addR N z1; rwa [add_zero] at this)
  have g2 := rself big64 z1 (by simp) (by have := gk.subR N g1; rwa [sub_self] at this)
  have g3 := rself big64 z1 (by simp) (by have := g2.addR N z1; rwa [add_zero] at this)
  have g4 := rself big64 z1 (by simp) (by have := z2.addR N g3; rwa [add_zero] at this)
  exact rself big64 gk hkR (by have := g4.addR N g1; rwa [zero_add] at this)

theorem main10_spec (N : FPU f64) {x : D} {X : ℝ} {k : ℤ} (hx : GFv f64 x X) (hX0 : 7071 / 10000 ≤ X) (hX1 : X ≤ 141422 / 100000)
    (hk : |k| ≤ 1100) (hne : k = 0 → X ≠ 1) : Ok (main10 N x k) fun z => Good z (1 / Real.log 10 * (Real.log X + k * Real.log 2)) := by
  have hkR : |(k : ℝ)| ≤ 1100 := by exact_mod_cast hk
  rw [abs_le] at hk
  obtain ⟨dk, d1, d2⟩ := ofI32_spec (k := k) (by omega) (by omega)
  obtain ⟨h1, h2, h3, h4⟩ := hilo64 N hx hX0 hX1
  have C0 := iv10.C0
  have C1 := iv10.C1
  have hhi := GFv.const (F := f64) (b := LOG10_2HI) (q := _) (by decide +kernel) rfl
  have hlo := GFv.const (F := f64) (b := LOG10_2LO) (q := _) (by decide +kernel) rfl
  have c1 : f64.val LOG10_2HI = 661971961083 / 2 ^ 41 := by decide +kernel
  have c2 : |f64.val LOG10_2LO| ≤ 1 / 10 ^ 12 := by decide +kernel
  have c3 : |(f64.val LOG10_2HI + f64.val LOG10_2LO) * (230258509299404568402 / 10 ^ 20) - 693147180559945309417 / 10 ^ 21| ≤ 1 / 10 ^ 20 := by decide +kernel
  have c4 : |f64.val LOG10_2HI + f64.val LOG10_2LO| ≤ 1 := by decide +kernel
  have e2 : |((f64.val LOG10_2LO : ℚ) : ℝ)| ≤ 1 / 10 ^ 12 := by
    have := Rat.cast_le (K := ℝ).mpr c2; push_cast at this; exact this
  have e3 : |(((f64.val LOG10_2HI : ℚ) : ℝ) + (f64.val LOG10_2LO : ℚ)) * 2.30258509299404568402 - 0.693147180559945309417| ≤ 1 / 10 ^ 20 := by
    have := Rat.cast_le (K := ℝ).mpr c3; push_cast at this; norm_num at this ⊢; exact this
  have e4 : |((f64.val LOG10_2HI : ℚ) : ℝ) + (f64.val LOG10_2LO : ℚ)| ≤ 1 := by
    have := Rat.cast_le (K := ℝ).mpr c4; push_cast at this; exact this
  have e5 : |(((f64.val LOG10_2HI : ℚ) : ℝ) + (f64.val LOG10_2LO : ℚ)) * Real.log 10 - Real.log 2| ≤ 3 / 10 ^ 20 := by
    have a1 := ln10_near
    have a2 := ln2_near
    generalize ((f64.val LOG10_2HI : ℚ) : ℝ) + (f64.val LOG10_2LO : ℚ) = q at *
    have a3 : |q * (Real.log 10 - 2.30258509299404568402)| ≤ 1 / 10 ^ 20 := by
      rw [abs_mul]
      have := mul_le_mul e4 a1 (abs_nonneg _) (by norm_num)
      linarith
    have a4 := abs_add_le (q * (Real.log 10 - 2.30258509299404568402) + (q * 2.30258509299404568402 - 0.693147180559945309417)) (-(Real.log 2 - 0.693147180559945309417))
    have a5 := abs_add_le (q * (Real.log 10 - 2.30258509299404568402)) (q * 2.30258509299404568402 - 0.693147180559945309417)
    rw [abs_neg] at a4
    rw [show q * Real.log 10 - Real.log 2 = q * (Real.log 10 - 2.30258509299404568402) + (q * 2.30258509299404568402 - 0.693147180559945309417) + -(Real.log 2 - 0.693147180559945309417) by ring]
    linarith
  have hd : |((f64.val LOG10_2HI : ℚ) : ℝ)| ≤ 0.302 ∧ 0.3 ≤ |((f64.val LOG10_2HI : ℚ) : ℝ)| := by rw [c1]; push_cast; rw [abs_of_pos (by norm_num)]; norm_num
  have hl10 : 0 < Real.log 10 := Real.log_pos (by norm_num)
  have hC : 1 / Real.log 10 ≤ 0.4344 := by
    rw [div_le_iff₀ hl10]
    have := ln10_near
    rw [abs_le] at this
    linarith [this.1]
  have hkh : |(k : ℝ) * (f64.val LOG10_2HI : ℚ)| ≤ 2000 := by
    rw [abs_mul]
    have := mul_le_mul hkR hd.1 (abs_nonneg _) (by norm_num)
    linarith
  have hkl : |(k : ℝ) * (f64.val LOG10_2LO : ℚ)| ≤ |(k : ℝ)| * (1 / 10 ^ 12) := by
    rw [abs_mul]; exact mul_le_mul_of_nonneg_left e2 (abs_nonneg _)
  have gy : GFv f64 (N.mul dk LOG10_2HI) (k * (f64.val LOG10_2HI : ℚ)) := GFv.of_rounds big64 (GFv.mulR N ⟨d2.1, d2.2⟩ hhi) (j := -41) ⟨k * 661971961083, by rw [c1]; push_cast; norm_num; ring⟩
    (by rw [s64]; refine hkh.trans ?_; norm_num) (by rw [b64, s64]; norm_num) (hkh.trans (by norm_num))
  unfold main10
  simp only [d1]
  refine ⟨_, rfl, fin64 N (K1 := k * (f64.val LOG10_2HI : ℚ)) (K2 := k * (f64.val LOG10_2LO : ℚ)) hX0 hX1 hkR hne C0 C1 (fun a ha ha1 ht => ?_) h2 h3 h4 gy hkh (by rintro rfl; simp) ?_ ?_ ?_⟩
  · have ha0 : 0 ≤ a := (abs_nonneg _).trans ha
    exact parts10 big64 (Or.inr rfl) N (prods_spec big64 (Or.inr rfl) N (h1.mono ha) ha0 ha1 ht iv10) C0 C1 ha0 ha1 ht ⟨d2.1, d2.2⟩ hlo (by
      refine hkl.trans ((mul_le_mul_of_nonneg_right hkR (by norm_num)).trans (by norm_num)))
  · intro hk0
    have : 1 ≤ |k| := Int.one_le_abs hk0
    have : (1 : ℝ) ≤ |(k : ℝ)| := by exact_mod_cast this
    rw [abs_mul]
    have := mul_le_mul this hd.2 (by norm_num) (abs_nonneg _)
    linarith
  · refine hkl.trans ?_
    have := mul_le_mul_of_nonneg_right C0 (abs_nonneg (k : ℝ))
    nlinarith [abs_nonneg (k : ℝ)]
  · have e : (k : ℝ) * (f64.val LOG10_2HI : ℚ) + k * (f64.val LOG10_2LO : ℚ) - 1 / Real.log 10 * (k * Real.log 2) =
        k * (1 / Real.log 10) * ((((f64.val LOG10_2HI : ℚ) : ℝ) + (f64.val LOG10_2LO : ℚ)) * Real.log 10 - Real.log 2) := by field_simp
    rw [e, abs_mul, abs_mul, abs_of_pos (show 0 < 1 / Real.log 10 by positivity)]
    refine (mul_le_mul_of_nonneg_left e5 (by positivity)).trans ?_
    rw [s64]
    have : 0 ≤ 1 / Real.log 10 * |(k : ℝ)| := by positivity
    nlinarith

theorem logb_eq {b X : ℝ} {k : ℤ} (hX : 0 < X) : 1 / Real.log b * (Real.log X + k * Real.log 2) = Real.logb b (X * 2 ^ k) := by
  unfold Real.logb
  rw [Real.log_mul hX.ne' (by positivity), Real.log_zpow]; ring

/-- a power of two between the limits of the reduced argument -/
theorem pow_one {X : ℝ} {k m : ℤ} (h0 : 7071 / 10000 ≤ X) (h1 : X ≤ 141422 / 100000) (h : X * 2 ^ k = 2 ^ m) : X = 1 ∧ k = m := by
  have e : X = 2 ^ (m - k) := by
    rw [zpow_sub₀ (by norm_num), ← h]; field_simp
  have hz : m - k = 0 := by
    by_contra hc
    rcases lt_or_gt_of_ne hc with h | h
    · have : (2 : ℝ) ^ (m - k) ≤ 2 ^ (-1 : ℤ) := zpow_le_zpow_right₀ (by norm_num) (by omega)
      norm_num at this h0
      linarith
    · have : (2 : ℝ) ^ (1 : ℤ) ≤ 2 ^ (m - k) := zpow_le_zpow_right₀ (by norm_num) (by omega)
      norm_num at this h1
      linarith
  rw [hz, zpow_zero] at e
  exact ⟨e, by omega⟩

/-- `log2` of a positive number -/
theorem log2_spec (N : FPU f64) {x : D} {X : ℝ} (hx : GFv f64 x X) (hX : 0 < X) (h1 : X ≠ 1) :
    Ok (log2 N x) fun z => Good z (Real.logb 2 X) ∧ ∀ m : ℤ, X = 2 ^ m → GFv f64 z m := by
  have hm : MainOk (main2 N) fun z T => Good z (Real.logb 2 T) ∧ ∀ m : ℤ, T = 2 ^ m → GFv f64 z m := fun x X k a b c d e => by
    obtain ⟨z, hz, h⟩ := main2_spec N a b c d e
    refine ⟨z, hz, ?_, fun m hm => ?_⟩
    · rwa [← logb_eq (by linarith)]
    · obtain ⟨e1, e2⟩ := pow_one b c hm
      rw [e1] at a
      obtain ⟨z', hz', h'⟩ := main2_one N a d
      rw [hz] at hz'
      rw [← e2, Except.ok.inj hz']
      exact h'
  exact skel_spec N (P := fun z T => Good z (Real.logb 2 T) ∧ ∀ m : ℤ, T = 2 ^ m → GFv f64 z m) hm hx hX h1

/-- `log10` of a positive number -/
theorem log10_spec (N : FPU f64) {x : D} {X : ℝ} (hx : GFv f64 x X) (hX : 0 < X) (h1 : X ≠ 1) : Ok (log10 N x) fun z => Good z (Real.logb 10 X) := by
  have hm : MainOk (main10 N) fun z T => Good z (Real.logb 10 T) := fun x X k a b c d e => by
    have := main10_spec N a b c d e
    dsimp only
    rwa [← logb_eq (by linarith)]
  exact skel_spec N (P := fun z T => Good z (Real.logb 10 T)) hm hx hX h1
end Log2
end Verif
