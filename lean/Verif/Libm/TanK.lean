import Verif.Libm.TanF
/-! # Errors of the kernel `k_tan` -/
namespace Verif
open Fmt

/-- `f64` value as a real -/
local notation "V" => Fmt.valK f64 ℝ

namespace Trig
open Pio2 Hypot

/-! ### The tail of the polynomial -/

def tanP : List ℚ := [1, f64.val T0, f64.val T1, f64.val T2, f64.val T3, f64.val T4, f64.val T5, f64.val T6, f64.val T7, f64.val T8, f64.val T9,
  f64.val T10, f64.val T11, f64.val T12]

def tanLeaf (x z y : D) : ℕ → D
  | 0 => x | 1 => z | 2 => y | 3 => T0 | 4 => T1 | 5 => T2 | 6 => T3 | 7 => T4 | 8 => T5 | 9 => T6 | 10 => T7 | 11 => T8 | 12 => T9 | 13 => T10
  | 14 => T11 | _ => T12
def tanVal (X Z Y : ℝ) : ℕ → ℝ
  | 0 => X | 1 => Z | 2 => Y | 3 => (f64.val T0 : ℚ) | 4 => (f64.val T1 : ℚ) | 5 => (f64.val T2 : ℚ) | 6 => (f64.val T3 : ℚ) | 7 => (f64.val T4 : ℚ)
  | 8 => (f64.val T5 : ℚ) | 9 => (f64.val T6 : ℚ) | 10 => (f64.val T7 : ℚ) | 11 => (f64.val T8 : ℚ) | 12 => (f64.val T9 : ℚ)
  | 13 => (f64.val T10 : ℚ) | 14 => (f64.val T11 : ℚ) | _ => (f64.val T12 : ℚ)
def tanInfo (X Z eZ Y : ℚ) (sc : Bool) : ℕ → Ex.Bd
  | 0 => ⟨X, 0, sc⟩ | 1 => ⟨Z, eZ, false⟩ | 2 => ⟨Y, 0, sc⟩
  | 3 => ⟨|f64.val T0|, 0, false⟩ | 4 => ⟨|f64.val T1|, 0, false⟩ | 5 => ⟨|f64.val T2|, 0, false⟩ | 6 => ⟨|f64.val T3|, 0, false⟩
  | 7 => ⟨|f64.val T4|, 0, false⟩ | 8 => ⟨|f64.val T5|, 0, false⟩ | 9 => ⟨|f64.val T6|, 0, false⟩ | 10 => ⟨|f64.val T7|, 0, false⟩
  | 11 => ⟨|f64.val T8|, 0, false⟩ | 12 => ⟨|f64.val T9|, 0, false⟩ | 13 => ⟨|f64.val T10|, 0, false⟩ | 14 => ⟨|f64.val T11|, 0, false⟩
  | _ => ⟨|f64.val T12|, 0, false⟩
def tanE : Ex :=
  let z := Ex.leaf 1
  let w := z.mul z
  let r := Ex.add (.leaf 4) (w.mul (.add (.leaf 6) (w.mul (.add (.leaf 8) (w.mul (.add (.leaf 10) (w.mul (.add (.leaf 12) (w.mul (.leaf 14))))))))))
  let v := z.mul (.add (.leaf 5) (w.mul (.add (.leaf 7) (w.mul (.add (.leaf 9) (w.mul (.add (.leaf 11) (w.mul (.add (.leaf 13) (w.mul (.leaf 15)))))))))))
  let s := z.mul (.leaf 0)
  .add (.add (.leaf 2) (z.mul (.add (s.mul (.add r v)) (.leaf 2)))) (s.mul (.leaf 3))

theorem tanE_ideal (X Y Z : ℝ) : tanE.ideal (tanVal X Z Y) = X * (Poly.ev tanP Z - 1) + Y * (1 + Z) := by
  simp only [tanE, Ex.ideal, tanVal, tanP, Poly.ev]
  push_cast
  ring

theorem tanR_err {N : FPU f64} {x y : D} {X Y σ : ℝ} {sc : Bool} {A0 Z ez Yb A c : ℚ} (hx : Fv x X) (hy : Fv y Y) (h0 : 2 ^ (-70 : ℤ) ≤ σ) (h1 : σ ≤ 1)
    (hX : |X| ≤ A0 * Ex.sv σ sc) (hY : |Y| ≤ Yb * Ex.sv σ sc) (hZ : Ex.Holds f64 σ (N.mul x x) (X * X) ⟨Z, ez, false⟩)
    (h : tanE.errLe f64.s (1 / 2 ^ 75) (tanInfo A0 Z ez Yb sc) sc A c = true) :
    ∃ R, Fv (tanR N x y) R ∧ |X * (Poly.ev tanP (X * X) - 1) + Y * (1 + X * X)| ≤ A * Ex.sv σ sc ∧
      |R - (X * (Poly.ev tanP (X * X) - 1) + Y * (1 + X * X))| ≤ c * Ex.sv σ sc := by
  have hσ : 0 < σ := lt_of_lt_of_le (by positivity) h0
  have ht : (1 : ℝ) / 2 ^ 150 ≤ ((1 / 2 ^ 75 : ℚ) : ℝ) * σ := by
    push_cast
    calc (1 : ℝ) / 2 ^ 150 ≤ 1 / 2 ^ 75 * 2 ^ (-70 : ℤ) := by norm_num
      _ ≤ _ := mul_le_mul_of_nonneg_left h0 (by positivity)
  have hl : ∀ i, Ex.Holds f64 σ (tanLeaf x (N.mul x x) y i) (tanVal X (X * X) Y i) (tanInfo A0 Z ez Yb sc i) := by
    intro i
    match i with
    | 0 => exact Ex.holds_exact hx.fin hx.val hX
    | 1 => exact hZ
    | 2 => exact Ex.holds_exact hy.fin hy.val hY
    | 3 => exact Ex.holds_const (b := T0) (by decide +kernel)
    | 4 => exact Ex.holds_const (b := T1) (by decide +kernel)
    | 5 => exact Ex.holds_const (b := T2) (by decide +kernel)
    | 6 => exact Ex.holds_const (b := T3) (by decide +kernel)
    | 7 => exact Ex.holds_const (b := T4) (by decide +kernel)
    | 8 => exact Ex.holds_const (b := T5) (by decide +kernel)
    | 9 => exact Ex.holds_const (b := T6) (by decide +kernel)
    | 10 => exact Ex.holds_const (b := T7) (by decide +kernel)
    | 11 => exact Ex.holds_const (b := T8) (by decide +kernel)
    | 12 => exact Ex.holds_const (b := T9) (by decide +kernel)
    | 13 => exact Ex.holds_const (b := T10) (by decide +kernel)
    | 14 => exact Ex.holds_const (b := T11) (by decide +kernel)
    | (n + 15) => exact Ex.holds_const (b := T12) (by decide +kernel)
  obtain ⟨f, a, e⟩ := Ex.errLe_sound big64 N hσ h1 ht hl h
  rw [tanE_ideal] at a e
  exact ⟨V (tanE.flt N (tanLeaf x (N.mul x x) y)), ⟨f, rfl⟩, a, e⟩

/-- the square with its rounding error -/
theorem holds_sq' {N : FPU f64} {x : D} {X : ℝ} (hx : Fv x X) {k : ℤ} (hk : -1021 ≤ k) (hk' : k ≤ 0) {h Z ez : ℚ} (hX : |X| ≤ h) (hZ : h * h ≤ Z)
    (hZ' : Z ≤ 2 ^ k) (he : 2 ^ (k - 54) ≤ ez) (σ : ℝ) : Ex.Holds f64 σ (N.mul x x) (X * X) ⟨Z, ez, false⟩ := by
  have hh : |X * X| ≤ (Z : ℝ) := by
    rw [abs_mul]
    have h2 : ((h * h : ℚ) : ℝ) ≤ (Z : ℝ) := Rat.cast_le.mpr hZ
    push_cast at h2
    exact (mul_le_mul hX hX (abs_nonneg _) ((abs_nonneg _).trans hX)).trans h2
  have hZR : (Z : ℝ) ≤ 2 ^ k := by
    have : ((Z : ℚ) : ℝ) ≤ ((2 ^ k : ℚ) : ℝ) := Rat.cast_le.mpr hZ'
    push_cast at this; exact this
  have heR : (2 : ℝ) ^ (k - 54) ≤ ez := by
    have : ((2 ^ (k - 54) : ℚ) : ℝ) ≤ ((ez : ℚ) : ℝ) := Rat.cast_le.mpr he
    push_cast at this; exact this
  have hr := hx.mulR (N := N) hx
  have hk1 : |X * X| ≤ 2 ^ k := hh.trans hZR
  refine ⟨fin64 hr (hk1.trans (zpow_le_zpow_right₀ (by norm_num) (by omega))), ?_, ?_⟩ <;> unfold Ex.sv <;> rw [if_neg (by simp), mul_one]
  · exact hh
  · exact (err64 hr hk1 hk (by omega)).trans heR

theorem tanE_1 : tanE.errLe f64.s (1 / 2 ^ 75) (tanInfo 1 (2304 / 10000) (1 / 2 ^ 56) (1502 / 1000 / 2 ^ 53) true) true (1 / 8) (345 / 1000 / 2 ^ 53) = true := by decide +kernel
theorem tanE_2 : tanE.errLe f64.s (1 / 2 ^ 75) (tanInfo 1 (3364 / 10000) (1 / 2 ^ 55) (1502 / 1000 / 2 ^ 53) true) true (1 / 4) (586 / 1000 / 2 ^ 53) = true := by decide +kernel
theorem tanE_3 : tanE.errLe f64.s (1 / 2 ^ 75) (tanInfo (1414184 / 2 ^ 21) (45472834 / 10 ^ 8) (1 / 2 ^ 55) (1014 / 1000 / 2 ^ 53) false) false (1 / 4) (413 / 1000 / 2 ^ 53) = true := by
  decide +kernel
theorem tanE_4 : tanE.errLe f64.s (1 / 2 ^ 75) (tanInfo (1112 / 10000) (124 / 10000) (1 / 2 ^ 60) 0 false) false (1 / 2 ^ 11) (2 / 1000 / 2 ^ 53) = true := by decide +kernel

theorem tanP_near : Poly.chk (Poly.sub (Poly.mul Poly.cosL tanP) Poly.sinL) (2 / 100 / 2 ^ 53) 14 0 (4548 / 10000) = true := by decide +kernel
theorem tanP_low : Poly.chk (Poly.sub tanP [1135 / 1000]) (1351 / 10000) 6 0 (4548 / 10000) = true := by decide +kernel
theorem tanP_y1 : Poly.chkLe (0 :: Poly.sub (Poly.mul Poly.sinL tanP) Poly.cosL) (Poly.scale (407 / 10000) Poly.cosL) 1 8 0 (2304 / 10000) = true := by decide +kernel
theorem tanP_y2 : Poly.chkLe (0 :: Poly.sub (Poly.mul Poly.sinL tanP) Poly.cosL) (Poly.scale (93 / 1000) Poly.cosL) 1 8 0 (3364 / 10000) = true := by decide +kernel
theorem tanP_y3 : Poly.chkLe (0 :: Poly.sub (Poly.mul Poly.sinL tanP) Poly.cosL) (Poly.scale (1845 / 10000) Poly.cosL) 1 8 0 (454729 / 10 ^ 6) = true := by decide +kernel
theorem tanP_l2 : Poly.chk (Poly.sub (Poly.sub tanP [1, 1 / 3]) [1 / 4]) (1 / 4) 8 (23 / 100) (4548 / 10000) = true := by decide +kernel

/-! ### The tangent of `x + y` -/

theorem tanP_bounds {z : ℝ} (h0 : 0 ≤ z) (h1 : z ≤ 0.4548) : 0.9999 ≤ Poly.ev tanP z ∧ Poly.ev tanP z ≤ 1.3 := by
  have := Poly.chk_sound tanP_low (t := z) (by simpa using h0) (by push_cast; norm_num at h1 ⊢; exact h1)
  rw [Poly.ev_sub] at this
  have e : Poly.ev [1135 / 1000] z = 1.135 := by simp only [Poly.ev]; push_cast; norm_num
  rw [e, abs_le] at this
  push_cast at this
  norm_num at this ⊢
  constructor <;> linarith [this.1, this.2]

theorem tanP_third {z : ℝ} (h0 : 0.23 ≤ z) (h1 : z ≤ 0.4548) : 1 + z / 3 ≤ Poly.ev tanP z := by
  have := Poly.chk_sound tanP_l2 (t := z) (by push_cast; norm_num at h0 ⊢; exact h0) (by push_cast; norm_num at h1 ⊢; exact h1)
  rw [Poly.ev_sub, Poly.ev_sub] at this
  have e : Poly.ev [1 / 4] z = 1 / 4 := by simp only [Poly.ev]; push_cast; norm_num
  have e' : Poly.ev [1, 1 / 3] z = 1 + z / 3 := by simp only [Poly.ev]; push_cast; ring
  rw [e, e', abs_le] at this
  push_cast at this
  norm_num at this ⊢
  linarith [this.1]

/-- the polynomial is the tangent -/
theorem tanP_def {X : ℝ} (h1 : |X| ≤ 0.67434) : |X * Poly.ev tanP (X * X) * Real.cos X - Real.sin X| ≤ 0.025 / 2 ^ 53 * |X| := by
  have hX0 := abs_nonneg X
  have hX1 : |X| ≤ 1 := h1.trans (by norm_num)
  have hXX0 : 0 ≤ X * X := mul_self_nonneg X
  have hXX1 : X * X ≤ 0.4548 := by
    rw [← abs_mul_abs_self]
    have := mul_le_mul h1 h1 hX0 (by norm_num)
    norm_num at this ⊢
    linarith
  obtain ⟨hP0, hP1⟩ := tanP_bounds hXX0 hXX1
  have hq := Poly.chk_sound tanP_near (t := X * X) (by simpa using hXX0) (by push_cast; norm_num at hXX1 ⊢; linarith)
  rw [Poly.ev_sub, Poly.ev_mul] at hq
  push_cast at hq
  have h19 : |X| ^ 19 ≤ 1 / 1000 := by
    have : |X| ^ 19 ≤ 0.67434 ^ 19 := pow_le_pow_left₀ hX0 h1 19
    norm_num at this ⊢
    linarith
  have hS : |Real.sin X - X * Poly.ev Poly.sinL (X * X)| ≤ 1 / 1000 / 2 ^ 61 * |X| := (Poly.sin_near hX1).trans (by
    have h20 : |X| ^ 20 = |X| ^ 19 * |X| := by ring
    rw [h20, mul_div_right_comm]
    refine mul_le_mul_of_nonneg_right ?_ hX0
    gcongr)
  have hC : |Real.cos X - Poly.ev Poly.cosL (X * X)| ≤ 1 / 1000 / 2 ^ 61 := (Poly.cos_near hX1).trans (by
    have : |X| ^ 20 ≤ 1 / 1000 := by
      have h20 : |X| ^ 20 = |X| ^ 19 * |X| := by ring
      rw [h20]
      nlinarith
    gcongr)
  generalize Poly.ev tanP (X * X) = P at *
  generalize Poly.ev Poly.cosL (X * X) = CL at *
  generalize Poly.ev Poly.sinL (X * X) = SL at *
  have hdec : X * P * Real.cos X - Real.sin X = X * P * (Real.cos X - CL) + X * (CL * P - SL) - (Real.sin X - X * SL) := by ring
  have m2 : |X * P * (Real.cos X - CL)| ≤ |X| * 1.3 * (1 / 1000 / 2 ^ 61) := by
    rw [abs_mul, abs_mul, abs_of_nonneg (show 0 ≤ P by norm_num at *; linarith)]
    exact mul_le_mul (mul_le_mul_of_nonneg_left hP1 hX0) hC (abs_nonneg _) (by positivity)
  have m3 : |X * (CL * P - SL)| ≤ |X| * (2 / 100 / 2 ^ 53) := by
    rw [abs_mul]; exact mul_le_mul_of_nonneg_left hq hX0
  rw [hdec]
  have t1 := abs_sub (X * P * (Real.cos X - CL) + X * (CL * P - SL)) (Real.sin X - X * SL)
  have t2 := abs_add_le (X * P * (Real.cos X - CL)) (X * (CL * P - SL))
  norm_num at *
  linarith [abs_nonneg X]

/-- how the sensitivity to `y` is checked -/
def YChk (B Z : ℚ) : Prop := Poly.chkLe (0 :: Poly.sub (Poly.mul Poly.sinL tanP) Poly.cosL) (Poly.scale B Poly.cosL) 1 8 0 Z = true

theorem tan_sens {X : ℝ} (h1 : |X| ≤ 0.67434) {B Z : ℚ} (hB : YChk B Z) (hB1 : B ≤ 1) (hZ : X * X ≤ Z) :
    |X * X * Real.cos X - X * Poly.ev tanP (X * X) * Real.sin X| ≤ B * Real.cos X + 1 / 2 ^ 60 := by
  have hX0 := abs_nonneg X
  have hX1 : |X| ≤ 1 := h1.trans (by norm_num)
  have hXX0 : 0 ≤ X * X := mul_self_nonneg X
  have hXX1 : X * X ≤ 0.4548 := by
    rw [← abs_mul_abs_self]
    have := mul_le_mul h1 h1 hX0 (by norm_num)
    norm_num at this ⊢
    linarith
  obtain ⟨hP0, hP1⟩ := tanP_bounds hXX0 hXX1
  have hq := Poly.chkLe_sound hB (t := X * X) (by simpa using hXX0) hZ
  rw [Poly.ev, Poly.ev_sub, Poly.ev_mul, Poly.ev_scale] at hq
  push_cast at hq
  have hB1R : (B : ℝ) ≤ 1 := by exact_mod_cast hB1
  have p20 : |X| ^ 20 / 2 ^ 61 ≤ 1 / 1000 / 2 ^ 61 := by
    have : |X| ^ 20 ≤ 0.67434 ^ 20 := pow_le_pow_left₀ hX0 h1 20
    have : |X| ^ 20 ≤ 1 / 1000 := this.trans (by norm_num)
    gcongr
  have hS := (Poly.sin_near hX1).trans p20
  have hC := (Poly.cos_near hX1).trans p20
  generalize Poly.ev tanP (X * X) = P at *
  generalize Poly.ev Poly.cosL (X * X) = CL at *
  generalize Poly.ev Poly.sinL (X * X) = SL at *
  have hdec : X * X * Real.cos X - X * P * Real.sin X = X * X * (Real.cos X - CL) - X * P * (Real.sin X - X * SL) - (0 + X * X * (SL * P - CL)) := by ring
  have m1 : |X * X * (Real.cos X - CL)| ≤ 1 * (1 / 1000 / 2 ^ 61) := by
    rw [abs_mul, abs_of_nonneg hXX0]
    exact mul_le_mul (by norm_num at *; linarith) hC (abs_nonneg _) (by norm_num)
  have m2 : |X * P * (Real.sin X - X * SL)| ≤ 2 * (1 / 1000 / 2 ^ 61) := by
    rw [abs_mul, abs_mul, abs_of_nonneg (show 0 ≤ P by norm_num at *; linarith)]
    refine mul_le_mul ?_ hS (abs_nonneg _) (by norm_num)
    calc |X| * P ≤ 1 * 1.3 := mul_le_mul hX1 hP1 (by norm_num at *; linarith) (by norm_num)
      _ ≤ 2 := by norm_num
  have hCL0 : 0 < CL := by
    have := cos_low (T := X) (by norm_num at *; linarith)
    rw [abs_le] at hC
    norm_num at *
    linarith [hC.2]
  have hB0 : 0 ≤ (B : ℝ) := by
    by_contra hc
    rw [not_le] at hc
    have := mul_neg_of_neg_of_pos hc hCL0
    have := (abs_nonneg _).trans hq
    linarith
  have m3 : (B : ℝ) * CL ≤ B * Real.cos X + 1 * (1 / 1000 / 2 ^ 61) := by
    have : (B : ℝ) * (CL - Real.cos X) ≤ 1 * (1 / 1000 / 2 ^ 61) := by
      refine (le_abs_self _).trans ?_
      rw [abs_mul, abs_of_nonneg hB0, abs_sub_comm]
      exact mul_le_mul hB1R hC (abs_nonneg _) (by norm_num)
    linarith
  rw [hdec]
  have t1 := abs_sub (X * X * (Real.cos X - CL) - X * P * (Real.sin X - X * SL)) (0 + X * X * (SL * P - CL))
  have t2 := abs_sub (X * X * (Real.cos X - CL)) (X * P * (Real.sin X - X * SL))
  norm_num at *
  linarith

/-- the error of `v` as the tangent of an angle near `X + Y` -/
theorem tan_defect {X Y T e : ℝ} (h1 : |X| ≤ 0.67434) (hY : |Y| ≤ 1.502 / 2 ^ 53 * |X|) (hT : |T - (X + Y)| ≤ 1 / 2 ^ 64 * |X|)
    (he : |e| ≤ 1 / 2 ^ 52 * |X|) {B Z : ℚ} (hB : YChk B Z) (hB1 : B ≤ 1) (hZ : X * X ≤ Z) :
    |(X * Poly.ev tanP (X * X) + Y * (1 + X * X) + e) * Real.cos T - Real.sin T| ≤ Real.cos X * (|e| + |Y| * B) + 0.03 / 2 ^ 53 * |X| := by
  have hX0 := abs_nonneg X
  have hXX0 : 0 ≤ X * X := mul_self_nonneg X
  have hXX1 : X * X ≤ 0.4548 := by
    rw [← abs_mul_abs_self]
    have := mul_le_mul h1 h1 hX0 (by norm_num)
    norm_num at this ⊢
    linarith
  obtain ⟨hP0, hP1⟩ := tanP_bounds hXX0 hXX1
  have hd := tanP_def h1
  have hs := tan_sens h1 hB hB1 hZ
  have hcX := cos_low (T := X) (h1.trans (by norm_num))
  have hc1 := Real.cos_le_one X
  have hsX : |Real.sin X| ≤ |X| := Real.abs_sin_le_abs
  generalize Poly.ev tanP (X * X) = P at *
  obtain ⟨τ, hτ⟩ : ∃ τ, τ = T - X := ⟨_, rfl⟩
  obtain ⟨v, hv⟩ : ∃ v, v = X * P + Y * (1 + X * X) + e := ⟨_, rfl⟩
  have hTX : T = X + τ := by rw [hτ]; ring
  have hτY : |τ - Y| ≤ 1 / 2 ^ 64 * |X| := by rw [hτ, show T - X - Y = T - (X + Y) by ring]; exact hT
  have hτ1 : |τ| ≤ 2 / 2 ^ 53 * |X| := by
    have := abs_add_le (τ - Y) Y
    rw [sub_add_cancel] at this
    norm_num at *
    linarith [abs_nonneg X]
  have hτ2 : |τ| ≤ 1 / 2 ^ 52 := hτ1.trans (by norm_num at *; linarith)
  have hcos : |Real.cos τ - 1| ≤ 1 / 2 ^ 104 := by
    have := cos_lip τ 0
    rw [Real.cos_zero, mul_zero, sub_zero, abs_mul] at this
    have := mul_le_mul hτ2 hτ2 (abs_nonneg _) (by norm_num)
    norm_num at *
    linarith
  have hsin : |Real.sin τ - τ| ≤ 1 / 2 ^ 70 * |X| := by
    have h := sin_cubic (x := τ) (hτ2.trans (by norm_num))
    rw [abs_sub_comm] at h
    have hτ0 := abs_nonneg τ
    have p2 : |τ| ^ 2 ≤ 1 / 2 ^ 104 := by
      calc |τ| ^ 2 ≤ (1 / 2 ^ 52) ^ 2 := pow_le_pow_left₀ hτ0 hτ2 2
        _ = _ := by norm_num
    have p5 : |τ| ^ 5 ≤ 1 / 2 ^ 104 := by
      calc |τ| ^ 5 ≤ (1 / 2 ^ 52) ^ 5 := pow_le_pow_left₀ hτ0 hτ2 5
        _ ≤ _ := by norm_num
    have e3 : |τ| ^ 3 ≤ 1 / 2 ^ 104 * |τ| := by rw [show |τ| ^ 3 = |τ| ^ 2 * |τ| by ring]; exact mul_le_mul_of_nonneg_right p2 hτ0
    have e6 : |τ| ^ 6 ≤ 1 / 2 ^ 104 * |τ| := by rw [show |τ| ^ 6 = |τ| ^ 5 * |τ| by ring]; exact mul_le_mul_of_nonneg_right p5 hτ0
    norm_num at *
    linarith [abs_nonneg X]
  have hsY : |Real.sin τ - Y| ≤ 2 / 2 ^ 64 * |X| := by
    have := abs_add_le (Real.sin τ - τ) (τ - Y)
    rw [sub_add_sub_cancel] at this
    norm_num at *
    linarith [abs_nonneg X]
  rw [← hv]
  have hvX : |v - X * P| ≤ 5 / 2 ^ 53 * |X| ∧ |v| ≤ 2 := by
    have a1 : |Y * (1 + X * X)| ≤ 1.502 / 2 ^ 53 * |X| * 1.46 := by
      rw [abs_mul, abs_of_nonneg (show 0 ≤ 1 + X * X by linarith)]
      exact mul_le_mul hY (by norm_num at *; linarith) (by linarith) (by positivity)
    have a2 := abs_add_le (Y * (1 + X * X)) e
    have a3 : |v - X * P| ≤ 5 / 2 ^ 53 * |X| := by
      rw [hv, show X * P + Y * (1 + X * X) + e - X * P = Y * (1 + X * X) + e by ring]
      norm_num at *
      linarith [abs_nonneg X]
    refine ⟨a3, ?_⟩
    have a4 := abs_add_le (v - X * P) (X * P)
    rw [sub_add_cancel] at a4
    have a5 : |X * P| ≤ 1 * 1.3 := by
      rw [abs_mul, abs_of_nonneg (show 0 ≤ P by norm_num at *; linarith)]
      exact mul_le_mul (h1.trans (by norm_num)) hP1 (by norm_num at *; linarith) (by norm_num)
    norm_num at *
    linarith
  obtain ⟨hvX, hv2⟩ := hvX
  have hdec : v * Real.cos T - Real.sin T = Real.cos τ * (X * P * Real.cos X - Real.sin X) + Real.cos τ * (e * Real.cos X) +
      (Y * (X * X * Real.cos X - X * P * Real.sin X) - Y * ((v - X * P) * Real.sin X)) + Y * (1 + X * X) * Real.cos X * (Real.cos τ - 1) -
      (Real.sin τ - Y) * (v * Real.sin X + Real.cos X) := by
    rw [hTX, Real.cos_add, Real.sin_add, hv]
    ring
  have hct : |Real.cos τ| ≤ 1 := Real.abs_cos_le_one τ
  have b1 : |Real.cos τ * (X * P * Real.cos X - Real.sin X)| ≤ 0.025 / 2 ^ 53 * |X| := by
    rw [abs_mul]; calc _ ≤ 1 * (0.025 / 2 ^ 53 * |X|) := mul_le_mul hct hd (abs_nonneg _) (by norm_num)
      _ = _ := one_mul _
  have b2 : |Real.cos τ * (e * Real.cos X)| ≤ |e| * Real.cos X := by
    rw [abs_mul, abs_mul, abs_of_nonneg (show 0 ≤ Real.cos X by norm_num at *; linarith)]
    calc _ ≤ 1 * (|e| * Real.cos X) := mul_le_mul_of_nonneg_right hct (mul_nonneg (abs_nonneg _) (by norm_num at *; linarith))
      _ = _ := one_mul _
  have b3 : |Y * (X * X * Real.cos X - X * P * Real.sin X)| ≤ |Y| * (B * Real.cos X) + 1 / 2 ^ 60 * |Y| := by
    rw [abs_mul]
    calc _ ≤ |Y| * (B * Real.cos X + 1 / 2 ^ 60) := mul_le_mul_of_nonneg_left hs (abs_nonneg _)
      _ = _ := by ring
  have b4 : |Y * ((v - X * P) * Real.sin X)| ≤ |Y| * (5 / 2 ^ 53) := by
    rw [abs_mul, abs_mul]
    refine mul_le_mul_of_nonneg_left ?_ (abs_nonneg _)
    have hX1 : |X| ≤ 1 := h1.trans (by norm_num)
    calc _ ≤ 5 / 2 ^ 53 * |X| * |X| := mul_le_mul hvX hsX (abs_nonneg _) (by positivity)
      _ ≤ 5 / 2 ^ 53 * 1 * 1 := by gcongr
      _ = _ := by norm_num
  have b5 : |Y * (1 + X * X) * Real.cos X * (Real.cos τ - 1)| ≤ |Y| * 2 * 1 * (1 / 2 ^ 104) := by
    rw [abs_mul, abs_mul, abs_mul]
    refine mul_le_mul (mul_le_mul (mul_le_mul_of_nonneg_left ?_ (abs_nonneg _)) (Real.abs_cos_le_one X) (abs_nonneg _) (by positivity)) hcos (abs_nonneg _) (by positivity)
    rw [abs_of_nonneg (by linarith)]
    norm_num at *
    linarith
  have b6 : |(Real.sin τ - Y) * (v * Real.sin X + Real.cos X)| ≤ 2 / 2 ^ 64 * |X| * 3 := by
    rw [abs_mul]
    refine mul_le_mul hsY ?_ (abs_nonneg _) (mul_nonneg (by norm_num) hX0)
    refine (abs_add_le _ _).trans ?_
    rw [abs_mul]
    have := mul_le_mul hv2 (Real.abs_sin_le_one X) (abs_nonneg _) (by norm_num)
    have := Real.abs_cos_le_one X
    linarith
  rw [hdec]
  have t1 := abs_sub (Real.cos τ * (X * P * Real.cos X - Real.sin X) + Real.cos τ * (e * Real.cos X) +
      (Y * (X * X * Real.cos X - X * P * Real.sin X) - Y * ((v - X * P) * Real.sin X)) + Y * (1 + X * X) * Real.cos X * (Real.cos τ - 1))
      ((Real.sin τ - Y) * (v * Real.sin X + Real.cos X))
  have t2 := abs_add_le (Real.cos τ * (X * P * Real.cos X - Real.sin X) + Real.cos τ * (e * Real.cos X) +
      (Y * (X * X * Real.cos X - X * P * Real.sin X) - Y * ((v - X * P) * Real.sin X))) (Y * (1 + X * X) * Real.cos X * (Real.cos τ - 1))
  have t3 := abs_add_le (Real.cos τ * (X * P * Real.cos X - Real.sin X) + Real.cos τ * (e * Real.cos X))
      (Y * (X * X * Real.cos X - X * P * Real.sin X) - Y * ((v - X * P) * Real.sin X))
  have t4 := abs_add_le (Real.cos τ * (X * P * Real.cos X - Real.sin X)) (Real.cos τ * (e * Real.cos X))
  have t5 := abs_sub (Y * (X * X * Real.cos X - X * P * Real.sin X)) (Y * ((v - X * P) * Real.sin X))
  have hfin : ∀ a1 a2 a3 a4 a5 a6 : ℝ, a1 ≤ 0.025 / 2 ^ 53 * |X| → a2 ≤ |e| * Real.cos X → a3 ≤ |Y| * (B * Real.cos X) + 1 / 2 ^ 60 * |Y| →
      a4 ≤ |Y| * (5 / 2 ^ 53) → a5 ≤ |Y| * 2 * 1 * (1 / 2 ^ 104) → a6 ≤ 2 / 2 ^ 64 * |X| * 3 →
      a1 + a2 + (a3 + a4) + a5 + a6 ≤ Real.cos X * (|e| + |Y| * B) + 0.03 / 2 ^ 53 * |X| := by
    intro a1 a2 a3 a4 a5 a6 c1 c2 c3 c4 c5 c6
    have hm : Real.cos X * (|e| + |Y| * B) = |e| * Real.cos X + |Y| * (B * Real.cos X) := by ring
    rw [hm]
    generalize |Y| * (B * Real.cos X) = q at *
    generalize |e| * Real.cos X = q' at *
    generalize |Y| = y at *
    generalize |X| = x at *
    norm_num at hY c1 c3 c4 c5 c6 ⊢
    linarith
  have := hfin _ _ _ _ _ _ b1 b2 b3 b4 b5 b6
  linarith

end Trig
end Verif
