import Verif.Libm.TrigK
/-! # Errors of the kernel `k_sin` -/
namespace Verif
open Fmt

/-- `f64` value as a real -/
local notation "V" => Fmt.valK f64 ℝ

namespace Trig
open Pio2 Hypot

/-- the coefficients -/
def sinP : List ℚ := [1, f64.val S1, f64.val S2, f64.val S3, f64.val S4, f64.val S5, f64.val S6]

theorem sinP_near : Poly.chk (Poly.sub Poly.sinL sinP) (35 / 1000 / 2 ^ 53) 8 0 (617 / 1000) = true := by decide +kernel
theorem sinP_lip : Poly.lip (617 / 1000) sinP ≤ 178 / 1000 := by decide +kernel

/-- the numbers of the correction: `x y z 0.5 S1 ... S6` -/
def sinLeaf (x y z : D) : ℕ → D
  | 0 => x | 1 => y | 2 => z | 3 => chalf | 4 => S1 | 5 => S2 | 6 => S3 | 7 => S4 | 8 => S5 | _ => S6
def sinVal (X Y ζ : ℝ) : ℕ → ℝ
  | 0 => X | 1 => Y | 2 => ζ | 3 => (f64.val chalf : ℚ) | 4 => (f64.val S1 : ℚ) | 5 => (f64.val S2 : ℚ) | 6 => (f64.val S3 : ℚ)
  | 7 => (f64.val S4 : ℚ) | 8 => (f64.val S5 : ℚ) | _ => (f64.val S6 : ℚ)
def sinInfo (Z : ℚ) : ℕ → Ex.Bd
  | 0 => ⟨1, 0, true⟩ | 1 => ⟨1502 / 1000 / 2 ^ 53, 0, true⟩ | 2 => ⟨Z, 0, false⟩ | 3 => ⟨|f64.val chalf|, 0, false⟩
  | 4 => ⟨|f64.val S1|, 0, false⟩ | 5 => ⟨|f64.val S2|, 0, false⟩ | 6 => ⟨|f64.val S3|, 0, false⟩ | 7 => ⟨|f64.val S4|, 0, false⟩
  | 8 => ⟨|f64.val S5|, 0, false⟩ | _ => ⟨|f64.val S6|, 0, false⟩

/-- `r`, `v` -/
def sinR : Ex :=
  let z := Ex.leaf 2
  .add (.add (.leaf 5) (z.mul (.add (.leaf 6) (z.mul (.leaf 7))))) ((z.mul (z.mul z)).mul (.add (.leaf 8) (z.mul (.leaf 9))))
def sinV : Ex := .mul (.leaf 2) (.leaf 0)

/-- the corrections for `iy = 0` and for `iy = 1` -/
def sinCorr0 : Ex := .mul sinV (.add (.leaf 4) (.mul (.leaf 2) sinR))
def sinCorr1 : Ex := .sub (.sub (.mul (.leaf 2) (.sub (.mul (.leaf 3) (.leaf 1)) (.mul sinV sinR))) (.leaf 1)) (.mul sinV (.leaf 4))

theorem sinCorr0_err : sinCorr0.errLe f64.s (1 / 2 ^ 75) (sinInfo (61687 / 100000)) true 1 (334 / 1000 / 2 ^ 53) = true := by decide +kernel
theorem sinCorr1_err : sinCorr1.errLe f64.s (1 / 2 ^ 75) (sinInfo (61687 / 100000)) true 1 (334 / 1000 / 2 ^ 53) = true := by decide +kernel
theorem sinCorr0_err' : sinCorr0.errLe f64.s (1 / 2 ^ 75) (sinInfo (34 / 100)) true 1 (178 / 1000 / 2 ^ 53) = true := by decide +kernel
theorem sinCorr1_err' : sinCorr1.errLe f64.s (1 / 2 ^ 75) (sinInfo (34 / 100)) true 1 (178 / 1000 / 2 ^ 53) = true := by decide +kernel

theorem half_q : ((f64.val chalf : ℚ) : ℝ) = 1 / 2 := by
  rw [show f64.val chalf = 1 / 2 by decide +kernel]; norm_num

theorem sinCorr0_ideal (X Y ζ : ℝ) : X + sinCorr0.ideal (sinVal X Y ζ) = X * Poly.ev sinP ζ := by
  simp only [sinCorr0, sinR, sinV, Ex.ideal, sinVal, sinP, Poly.ev]
  push_cast
  ring
theorem sinCorr1_ideal (X Y ζ : ℝ) : X - sinCorr1.ideal (sinVal X Y ζ) = X * Poly.ev sinP ζ + Y * (1 - ζ / 2) := by
  simp only [sinCorr1, sinR, sinV, Ex.ideal, sinVal, sinP, Poly.ev, half_q]
  push_cast
  ring

/-- the sum that `k_sin` rounds -/
noncomputable def sinPre (N : FPU f64) (x y : D) (iy : Int) : ℝ :=
  if iy = 0 then V x + V (sinCorr0.flt N (sinLeaf x y (N.mul x x))) else V x - V (sinCorr1.flt N (sinLeaf x y (N.mul x x)))

theorem kSin_pre {N : FPU f64} {x y : D} {X Y : ℝ} (hx : Fv x X) (hy : Fv y Y) (h0 : 2 ^ (-70 : ℤ) ≤ |X|) (h1 : |X| ≤ 0.78541)
    (hY : |Y| ≤ 1.502 / 2 ^ 53 * |X|) {iy : Int} (hiy : iy = 0 → Y = 0) {ζ : ℝ} (fz : Fv (N.mul x x) ζ) (z0 : 0 ≤ ζ) {Z e : ℚ} (z1 : ζ ≤ Z) (he1 : e ≤ 1)
    (c0 : sinCorr0.errLe f64.s (1 / 2 ^ 75) (sinInfo Z) true 1 e = true) (c1 : sinCorr1.errLe f64.s (1 / 2 ^ 75) (sinInfo Z) true 1 e = true) :
    f64.Near (sinPre N x y iy) (kSin N x y iy) ∧ |sinPre N x y iy - (X * Poly.ev sinP ζ + Y * (1 - ζ / 2))| ≤ e * |X| := by
  have hX0 : 0 < |X| := lt_of_lt_of_le (by positivity) h0
  have hX1 : |X| ≤ 1 := h1.trans (by norm_num)
  have hsv : Ex.sv |X| true = |X| := if_pos rfl
  have ht : (1 : ℝ) / 2 ^ 150 ≤ ((1 / 2 ^ 75 : ℚ) : ℝ) * |X| := by
    push_cast
    calc (1 : ℝ) / 2 ^ 150 ≤ 1 / 2 ^ 75 * 2 ^ (-70 : ℤ) := by norm_num
      _ ≤ _ := mul_le_mul_of_nonneg_left h0 (by positivity)
  have hl : ∀ i, Ex.Holds f64 |X| (sinLeaf x y (N.mul x x) i) (sinVal X Y ζ i) (sinInfo Z i) := by
    intro i
    match i with
    | 0 => exact Ex.holds_exact hx.fin hx.val (by rw [hsv]; push_cast; rw [one_mul]; exact le_refl _)
    | 1 => exact Ex.holds_exact hy.fin hy.val (by rw [hsv]; push_cast; norm_num at hY ⊢; exact hY)
    | 2 => exact Ex.holds_exact fz.fin fz.val (by unfold Ex.sv; rw [if_neg (by simp), mul_one]; show |ζ| ≤ _; rw [abs_of_nonneg z0]; exact z1)
    | 3 => exact Ex.holds_const (b := chalf) (by decide +kernel)
    | 4 => exact Ex.holds_const (b := S1) (by decide +kernel)
    | 5 => exact Ex.holds_const (b := S2) (by decide +kernel)
    | 6 => exact Ex.holds_const (b := S3) (by decide +kernel)
    | 7 => exact Ex.holds_const (b := S4) (by decide +kernel)
    | 8 => exact Ex.holds_const (b := S5) (by decide +kernel)
    | (n + 9) => exact Ex.holds_const (b := S6) (by decide +kernel)
  have heR : (e : ℝ) ≤ 1 := by exact_mod_cast he1
  have hfin : ∀ {c I : ℝ}, |I| ≤ ((1 : ℚ) : ℝ) * |X| → |c - I| ≤ e * |X| → |c| ≤ 2 := by
    intro c I hI hc
    have := abs_add_le (c - I) I
    rw [sub_add_cancel] at this
    have h3 : (e : ℝ) * |X| ≤ 1 * |X| := mul_le_mul_of_nonneg_right heR hX0.le
    push_cast at hI
    linarith
  unfold sinPre
  by_cases hi : iy = 0
  · rw [if_pos hi]
    obtain ⟨fc, ac, ec⟩ := Ex.errLe_sound big64 N hX0 hX1 ht hl c0
    rw [hsv] at ac ec
    have hdef : kSin N x y iy = N.add x (sinCorr0.flt N (sinLeaf x y (N.mul x x))) := by unfold kSin; rw [if_pos hi]; rfl
    rw [hdef]
    have rr := Fmt.addR N hx.fin fc
    refine ⟨rr.nearF f64 (rr.fin100 big64 ((abs_add_le _ _).trans ?_)), ?_⟩
    · have := hfin ac ec
      rw [hx.val]; norm_num; linarith
    · rw [hx.val, hiy hi, zero_mul, add_zero, ← sinCorr0_ideal X Y ζ, add_sub_add_left_eq_sub]; exact ec
  · rw [if_neg hi]
    obtain ⟨fc, ac, ec⟩ := Ex.errLe_sound big64 N hX0 hX1 ht hl c1
    rw [hsv] at ac ec
    have hdef : kSin N x y iy = N.sub x (sinCorr1.flt N (sinLeaf x y (N.mul x x))) := by unfold kSin; rw [if_neg hi]; rfl
    rw [hdef]
    have rr := Fmt.subR N hx.fin fc
    refine ⟨rr.nearF f64 (rr.fin100 big64 ((abs_sub _ _).trans ?_)), ?_⟩
    · have := hfin ac ec
      rw [hx.val]; norm_num; linarith
    · rw [hx.val, ← sinCorr1_ideal X Y ζ, sub_sub_sub_cancel_left, abs_sub_comm]; exact ec

set_option maxHeartbeats 1000000 in
theorem kSin_spec {N : FPU f64} {x y : D} {X Y : ℝ} (hx : Fv x X) (hy : Fv y Y) (h0 : 2 ^ (-70 : ℤ) ≤ |X|) (h1 : |X| ≤ 0.78541)
    (hY : |Y| ≤ 1.502 / 2 ^ 53 * |X|) {iy : Int} (hiy : iy = 0 → Y = 0) : ∃ v, f64.Near v (kSin N x y iy) ∧
      |v - Real.sin (X + Y)| ≤ 0.51 / 2 ^ 53 * |X| ∧ (X * X ≤ 0.339 → |v - Real.sin (X + Y)| ≤ 0.29 / 2 ^ 53 * |X|) := by
  obtain ⟨ζ, fz, er, ez, z0, z1⟩ := sq_fv (N := N) hx h0 h1
  have hUv : U = 1 / 2 ^ 53 := rfl
  have hζ0 : 0 < ζ := lt_of_lt_of_le (by positivity) z0
  have hX0 : 0 < |X| := lt_of_lt_of_le (by positivity) h0
  have hX1 : |X| ≤ 1 := h1.trans (by norm_num)
  have hXX : X * X = |X| * |X| := (abs_mul_abs_self X).symm
  have hXX0 : 0 ≤ X * X := mul_self_nonneg X
  have hXX1 : X * X ≤ 0.616869 := by rw [hXX]; norm_num at h1 ⊢; nlinarith
  have hXY : |Y| ≤ 12 / 10 / 2 ^ 53 := by norm_num at hY h1 ⊢; linarith
  -- everything but the rounding errors
  have main : |X * Poly.ev sinP ζ + Y * (1 - ζ / 2) - Real.sin (X + Y)| ≤ (0.178 * (X * X) + 0.036 + 0.066 * (X * X * (X * X))) / 2 ^ 53 * |X| := by
    have hL : |X * (Poly.ev sinP ζ - Poly.ev sinP (X * X))| ≤ 0.178 * (X * X) / 2 ^ 53 * |X| := by
      have := Poly.ev_lip (h := 617 / 1000) (by norm_num) sinP (s := ζ) (t := X * X) (by
        push_cast; rw [abs_of_pos hζ0]; norm_num at z1 ⊢; linarith) (by push_cast; rw [abs_of_nonneg hXX0]; norm_num at hXX1 ⊢; linarith)
      have hl : ((Poly.lip (617 / 1000) sinP : ℚ) : ℝ) ≤ ((178 / 1000 : ℚ) : ℝ) := Rat.cast_le.mpr sinP_lip
      rw [abs_mul, mul_comm]
      refine mul_le_mul_of_nonneg_right ?_ hX0.le
      rw [hUv] at er
      calc _ ≤ _ := this
        _ ≤ ((178 / 1000 : ℚ) : ℝ) * (1 / 2 ^ 53 * (X * X)) := mul_le_mul hl er (abs_nonneg _) (by push_cast; norm_num)
        _ = _ := by push_cast; ring
    have hP : |X * (Poly.ev Poly.sinL (X * X) - Poly.ev sinP (X * X))| ≤ 0.035 / 2 ^ 53 * |X| := by
      have := Poly.chk_sound sinP_near (t := X * X) (by simpa using hXX0) (by push_cast; norm_num at hXX1 ⊢; linarith)
      rw [Poly.ev_sub] at this
      push_cast at this
      rw [abs_mul, mul_comm]
      refine mul_le_mul_of_nonneg_right (this.trans (by norm_num)) hX0.le
    have hT : |Real.sin X - X * Poly.ev Poly.sinL (X * X)| ≤ 0.0005 / 2 ^ 53 * |X| := by
      refine (Poly.sin_near hX1).trans ?_
      have : |X| ^ 20 = |X| ^ 19 * |X| := by ring
      rw [this, mul_div_right_comm]
      refine mul_le_mul_of_nonneg_right ?_ hX0.le
      have : |X| ^ 19 ≤ 0.78541 ^ 19 := pow_le_pow_left₀ (abs_nonneg _) h1 19
      norm_num at this ⊢
      linarith
    have hA := sin_add_small X (hXY.trans (by norm_num))
    have hYY : Y * Y ≤ 0.0001 / 2 ^ 53 * |X| := by
      rw [← abs_mul_abs_self]
      calc |Y| * |Y| ≤ 12 / 10 / 2 ^ 53 * (1.502 / 2 ^ 53 * |X|) := mul_le_mul hXY hY (abs_nonneg _) (by norm_num)
        _ = (12 / 10 / 2 ^ 53 * (1.502 / 2 ^ 53)) * |X| := by ring
        _ ≤ _ := mul_le_mul_of_nonneg_right (by norm_num) hX0.le
    have hC : |Y * (Real.cos X - (1 - ζ / 2))| ≤ (0.066 * (X * X * (X * X)) + 0.0001) / 2 ^ 53 * |X| := by
      have hq := cos_quartic hX1
      have h4 : |X| ^ 4 = X * X * (X * X) := by rw [hXX]; ring
      have h6 : |X| ^ 6 = X * X * (X * X) * (X * X) := by rw [hXX]; ring
      have h46 : X * X * (X * X) * (X * X) ≤ X * X * (X * X) * 0.616869 := mul_le_mul_of_nonneg_left hXX1 (by positivity)
      rw [h4, h6] at hq
      have hb : |Real.cos X - (1 - ζ / 2)| ≤ 0.0429009 * (X * X * (X * X)) + 1 / 2 ^ 53 := by
        have := abs_add_le (Real.cos X - (1 - X * X / 2)) ((ζ - X * X) / 2)
        rw [show Real.cos X - (1 - X * X / 2) + (ζ - X * X) / 2 = Real.cos X - (1 - ζ / 2) by ring, abs_div, abs_of_pos (show (0 : ℝ) < 2 by norm_num)] at this
        rw [hUv] at ez
        have : 0 ≤ X * X * (X * X) := by positivity
        norm_num at *
        linarith
      rw [abs_mul]
      have h4p : 0 ≤ X * X * (X * X) := by positivity
      calc _ ≤ 1.502 / 2 ^ 53 * |X| * (0.0429009 * (X * X * (X * X)) + 1 / 2 ^ 53) := mul_le_mul hY hb (abs_nonneg _) (by positivity)
        _ = (1.502 / 2 ^ 53 * (0.0429009 * (X * X * (X * X)) + 1 / 2 ^ 53)) * |X| := by ring
        _ ≤ _ := mul_le_mul_of_nonneg_right (by norm_num; linarith) hX0.le
    have e0 : X * Poly.ev sinP ζ + Y * (1 - ζ / 2) - Real.sin (X + Y) = X * (Poly.ev sinP ζ - Poly.ev sinP (X * X))
        - X * (Poly.ev Poly.sinL (X * X) - Poly.ev sinP (X * X)) - (Real.sin X - X * Poly.ev Poly.sinL (X * X))
        - (Real.sin (X + Y) - (Real.sin X + Y * Real.cos X)) - Y * (Real.cos X - (1 - ζ / 2)) := by ring
    rw [e0]
    refine (abs_sub _ _).trans ?_
    have t1 := abs_sub (X * (Poly.ev sinP ζ - Poly.ev sinP (X * X)) - X * (Poly.ev Poly.sinL (X * X) - Poly.ev sinP (X * X))
      - (Real.sin X - X * Poly.ev Poly.sinL (X * X))) (Real.sin (X + Y) - (Real.sin X + Y * Real.cos X))
    have t2 := abs_sub (X * (Poly.ev sinP ζ - Poly.ev sinP (X * X)) - X * (Poly.ev Poly.sinL (X * X) - Poly.ev sinP (X * X)))
      (Real.sin X - X * Poly.ev Poly.sinL (X * X))
    have t3 := abs_sub (X * (Poly.ev sinP ζ - Poly.ev sinP (X * X))) (X * (Poly.ev Poly.sinL (X * X) - Poly.ev sinP (X * X)))
    have e1 : (0.178 * (X * X) + 0.036 + 0.066 * (X * X * (X * X))) / 2 ^ 53 * |X| = 0.178 * (X * X) / 2 ^ 53 * |X| + 0.035 / 2 ^ 53 * |X| +
      0.0005 / 2 ^ 53 * |X| + 0.0001 / 2 ^ 53 * |X| + (0.066 * (X * X * (X * X)) + 0.0001) / 2 ^ 53 * |X| + 0.0003 / 2 ^ 53 * |X| := by ring
    have : 0 ≤ 0.0003 / 2 ^ 53 * |X| := by positivity
    rw [e1]
    linarith [hA.trans hYY]
  have hX4 : ∀ B : ℝ, X * X ≤ B → X * X * (X * X) ≤ B * B := fun B h => mul_le_mul h h hXX0 (hXX0.trans h)
  refine ⟨sinPre N x y iy, ?_, ?_, fun h34 => ?_⟩
  · exact (kSin_pre hx hy h0 h1 hY hiy fz hζ0.le (Z := 61687 / 100000) (by push_cast; norm_num at z1 ⊢; exact z1) (by norm_num) sinCorr0_err sinCorr1_err).1
  · obtain ⟨-, h3⟩ := kSin_pre hx hy h0 h1 hY hiy fz hζ0.le (Z := 61687 / 100000) (by push_cast; norm_num at z1 ⊢; exact z1) (by norm_num) sinCorr0_err sinCorr1_err
    have := abs_add_le (sinPre N x y iy - (X * Poly.ev sinP ζ + Y * (1 - ζ / 2))) (X * Poly.ev sinP ζ + Y * (1 - ζ / 2) - Real.sin (X + Y))
    rw [sub_add_sub_cancel] at this
    refine this.trans ((add_le_add h3 main).trans ?_)
    rw [← add_mul]
    refine mul_le_mul_of_nonneg_right ?_ hX0.le
    have := hX4 _ hXX1
    push_cast
    norm_num at *
    linarith
  · have z2 : ζ ≤ 0.34 := by
      rw [abs_le, hUv] at ez
      have := ez.2
      norm_num at *
      linarith
    obtain ⟨-, h3⟩ := kSin_pre hx hy h0 h1 hY hiy fz hζ0.le (Z := 34 / 100) (by push_cast; norm_num at z2 ⊢; exact z2) (by norm_num) sinCorr0_err' sinCorr1_err'
    have := abs_add_le (sinPre N x y iy - (X * Poly.ev sinP ζ + Y * (1 - ζ / 2))) (X * Poly.ev sinP ζ + Y * (1 - ζ / 2) - Real.sin (X + Y))
    rw [sub_add_sub_cancel] at this
    refine this.trans ((add_le_add h3 main).trans ?_)
    rw [← add_mul]
    refine mul_le_mul_of_nonneg_right ?_ hX0.le
    have := hX4 _ h34
    push_cast
    norm_num at *
    linarith

end Trig
end Verif
