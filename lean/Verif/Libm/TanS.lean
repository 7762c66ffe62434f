import Verif.Libm.TanK
/-! # `k_tan` of reduced arguments below 0.6743 -/
namespace Verif
open Fmt

/-- `f64` value as a real -/
local notation "V" => Fmt.valK f64 ℝ

namespace Trig
open Pio2 Hypot

theorem cos_low' {T : ℝ} (hT : |T| ≤ 0.67434) : 0.7726 ≤ Real.cos T := by
  refine le_trans ?_ (Real.one_sub_sq_div_two_le_cos (x := T))
  have : T ^ 2 ≤ 0.67434 ^ 2 := by rw [← sq_abs]; exact pow_le_pow_left₀ (abs_nonneg _) hT 2
  norm_num at *
  linarith

/-- the relative form of `tan_defect` -/
theorem tan_case {X Y T e : ℝ} (h0 : 0 < |X|) (h1 : |X| ≤ 0.67434) (hY : |Y| ≤ 1.502 / 2 ^ 53 * |X|) (hT : |T - (X + Y)| ≤ 1 / 2 ^ 64 * |X|)
    {c : ℝ} (hc : c ≤ 1 / 2 ^ 52) (he : |e| ≤ c * |X|) {B Z : ℚ} (hB : YChk B Z) (hB0 : 0 ≤ B) (hB1 : B ≤ 1) (hZ : X * X ≤ Z) {p η : ℝ} (hp : p ≤ Poly.ev tanP (X * X))
    (hp0 : 0.9 ≤ p) (hη0 : 0 ≤ η) (hη : c + 1.502 / 2 ^ 53 * B + 0.039 / 2 ^ 53 ≤ η * (p - 1 / 2 ^ 40)) :
    TanNear T η (X * Poly.ev tanP (X * X) + Y * (1 + X * X) + e) := by
  have he' : |e| ≤ 1 / 2 ^ 52 * |X| := he.trans (mul_le_mul_of_nonneg_right hc h0.le)
  have hD := tan_defect h1 hY hT he' hB hB1 hZ
  have hcX := cos_low' h1
  have hcX1 := Real.cos_le_one X
  have hXX0 : 0 ≤ X * X := mul_self_nonneg X
  have hXX1 : X * X ≤ 0.4548 := by
    rw [← abs_mul_abs_self]
    have := mul_le_mul h1 h1 h0.le (by norm_num)
    norm_num at this ⊢
    linarith
  obtain ⟨hP0, hP1⟩ := tanP_bounds hXX0 hXX1
  have hd := tanP_def h1
  generalize Poly.ev tanP (X * X) = P at *
  have hB0R : (0 : ℝ) ≤ B := by exact_mod_cast hB0
  have hDX : |T - X| ≤ 2 / 2 ^ 53 * |X| := by
    have := abs_add_le (T - (X + Y)) Y
    rw [show T - (X + Y) + Y = T - X by ring] at this
    norm_num at *
    linarith [abs_nonneg X]
  have hsd := (Real.abs_sin_sub_sin_le T X).trans hDX
  have hcd := (Real.abs_cos_sub_cos_le T X).trans hDX
  have hcT : 0.77 ≤ Real.cos T := by
    rw [abs_le] at hcd
    norm_num at *
    linarith [hcd.1]
  have hsin : Real.cos X * |X| * (p - 1 / 2 ^ 40) ≤ |Real.sin T| := by
    have a1 := abs_sub_abs_le_abs_sub (X * P * Real.cos X) (Real.sin X)
    have a2 := abs_sub_abs_le_abs_sub (Real.sin X) (Real.sin T)
    rw [abs_sub_comm (Real.sin X)] at a2
    rw [abs_mul, abs_mul, abs_of_nonneg (show 0 ≤ P by norm_num at *; linarith), abs_of_nonneg (show 0 ≤ Real.cos X by norm_num at *; linarith)] at a1
    have a3 : Real.cos X * |X| * p ≤ |X| * P * Real.cos X := by
      calc Real.cos X * |X| * p ≤ Real.cos X * |X| * P := mul_le_mul_of_nonneg_left hp (mul_nonneg (by norm_num at *; linarith) h0.le)
        _ = _ := by ring
    have a4 : 0.7726 * |X| ≤ Real.cos X * |X| := mul_le_mul_of_nonneg_right hcX h0.le
    have a5 : Real.cos X * |X| * (p - 1 / 2 ^ 40) = Real.cos X * |X| * p - Real.cos X * |X| / 2 ^ 40 := by ring
    rw [a5]
    generalize Real.cos X * |X| * p = q at *
    generalize |X| * P * Real.cos X = q' at *
    generalize Real.cos X * |X| = q'' at *
    norm_num at *
    linarith [abs_nonneg X]
  have hcx0 : 0 < Real.cos X * |X| := mul_pos (by norm_num at *; linarith) h0
  have hp1 : 0 < p - 1 / 2 ^ 40 := by norm_num at *; linarith
  refine ⟨?_, by norm_num at *; linarith, ?_⟩
  · intro hz
    rw [hz, abs_zero] at hsin
    have := mul_pos hcx0 hp1
    linarith
  · refine hD.trans ?_
    have b1 : |Y| * B ≤ 1.502 / 2 ^ 53 * |X| * B := mul_le_mul_of_nonneg_right hY hB0R
    have b2 : 0.03 / 2 ^ 53 * |X| ≤ Real.cos X * |X| * (0.039 / 2 ^ 53) := by
      have a4 : 0.7726 * |X| ≤ Real.cos X * |X| := mul_le_mul_of_nonneg_right hcX h0.le
      generalize Real.cos X * |X| = q'' at *
      norm_num at *
      linarith
    have b3 : Real.cos X * (|e| + |Y| * B) ≤ Real.cos X * (c * |X| + 1.502 / 2 ^ 53 * |X| * B) :=
      mul_le_mul_of_nonneg_left (add_le_add he b1) (by norm_num at *; linarith)
    calc _ ≤ Real.cos X * (c * |X| + 1.502 / 2 ^ 53 * |X| * B) + Real.cos X * |X| * (0.039 / 2 ^ 53) := add_le_add b3 b2
      _ = Real.cos X * |X| * (c + 1.502 / 2 ^ 53 * B + 0.039 / 2 ^ 53) := by ring
      _ ≤ Real.cos X * |X| * (η * (p - 1 / 2 ^ 40)) := mul_le_mul_of_nonneg_left hη hcx0.le
      _ = η * (Real.cos X * |X| * (p - 1 / 2 ^ 40)) := by ring
      _ ≤ _ := mul_le_mul_of_nonneg_left hsin hη0

/-- what is known of the tail -/
structure Tail (N : FPU f64) (x y : D) (X T R : ℝ) : Prop where
  fv : Fv (tanR N x y) R
  small : |R| ≤ 0.31 * |X|
  near : TanNear T (0.98 / 2 ^ 53) (X + R)
  near' : |X| ≤ 0.48 → TanNear T (0.47 / 2 ^ 53) (X + R)

theorem tan_tail {N : FPU f64} {x y : D} {X Y T : ℝ} (hx : Fv x X) (hy : Fv y Y) (h0 : 2 ^ (-70 : ℤ) ≤ |X|) (h1 : |X| ≤ 1414184 / 2 ^ 21)
    (hY : |Y| ≤ 1.502 / 2 ^ 53 * |X|) (hT : |T - (X + Y)| ≤ 1 / 2 ^ 64 * |X|) :
    ∃ R, Tail N x y X T R ∧ (|X| ≥ 0.48 → |X + R - (X * Poly.ev tanP (X * X) + Y * (1 + X * X))| ≤ 0.413 / 2 ^ 53) := by
  have hX0 : 0 < |X| := lt_of_lt_of_le (by positivity) h0
  have h1' : |X| ≤ 0.67434 := h1.trans (by norm_num)
  have hXX : X * X = |X| * |X| := (abs_mul_abs_self X).symm
  have hXX0 : 0 ≤ X * X := mul_self_nonneg X
  have hXX1 : X * X ≤ 0.4548 := by
    rw [hXX]
    have := mul_le_mul h1' h1' hX0.le (by norm_num)
    norm_num at this ⊢
    linarith
  have sv1 : Ex.sv |X| true = |X| := if_pos rfl
  have sv0 : Ex.sv |X| false = 1 := if_neg (by simp)
  have hX1 : |X| ≤ 1 := h1'.trans (by norm_num)
  have hA : |X| ≤ ((1 : ℚ) : ℝ) * Ex.sv |X| true := by rw [sv1]; push_cast; linarith
  have hYA : |Y| ≤ ((1502 / 1000 / 2 ^ 53 : ℚ) : ℝ) * Ex.sv |X| true := by rw [sv1]; push_cast; norm_num at hY ⊢; linarith
  have hid : X * (Poly.ev tanP (X * X) - 1) + Y * (1 + X * X) = X * Poly.ev tanP (X * X) + Y * (1 + X * X) - X := by ring
  have hsm : ∀ R : ℝ, |R - (X * Poly.ev tanP (X * X) + Y * (1 + X * X) - X)| ≤ 1 / 2 ^ 50 * |X| → |R| ≤ 0.31 * |X| := by
    intro R he
    obtain ⟨hP0, hP1⟩ := tanP_bounds hXX0 hXX1
    have a1 := abs_add_le (R - (X * Poly.ev tanP (X * X) + Y * (1 + X * X) - X)) (X * (Poly.ev tanP (X * X) - 1) + Y * (1 + X * X))
    rw [show R - (X * Poly.ev tanP (X * X) + Y * (1 + X * X) - X) + (X * (Poly.ev tanP (X * X) - 1) + Y * (1 + X * X)) = R by ring] at a1
    have a2 := abs_add_le (X * (Poly.ev tanP (X * X) - 1)) (Y * (1 + X * X))
    have a3 : |X * (Poly.ev tanP (X * X) - 1)| ≤ |X| * 0.3 := by
      rw [abs_mul]
      refine mul_le_mul_of_nonneg_left ?_ hX0.le
      rw [abs_le]
      norm_num at *
      constructor <;> linarith
    have a4 : |Y * (1 + X * X)| ≤ 1.502 / 2 ^ 53 * |X| * 2 := by
      rw [abs_mul, abs_of_nonneg (show 0 ≤ 1 + X * X by linarith)]
      exact mul_le_mul hY (by norm_num at *; linarith) (by linarith) (by positivity)
    generalize |X * (Poly.ev tanP (X * X) - 1)| = q1 at *
    generalize |Y * (1 + X * X)| = q2 at *
    norm_num at *
    linarith [abs_nonneg X]
  rcases le_or_gt |X| 0.48 with hc | hc
  · obtain ⟨R, fR, ha, he⟩ := tanR_err (N := N) hx hy h0 hX1 hA hYA
      (holds_sq' (k := -2) hx (by norm_num) (by norm_num) (h := 48 / 100) (by push_cast; norm_num at hc ⊢; exact hc) (by norm_num) (by norm_num) (by norm_num) _) tanE_1
    rw [sv1, hid] at ha he
    push_cast at ha he
    have hR4 := hsm R (he.trans (mul_le_mul_of_nonneg_right (by norm_num) hX0.le))
    have hZ : X * X ≤ 0.2304 := by
      rw [hXX]
      have := mul_le_mul hc hc hX0.le (by norm_num)
      norm_num at this ⊢
      linarith
    have hn : TanNear T (0.47 / 2 ^ 53) (X + R) := by
      have := tan_case hX0 h1' hY hT (c := 345 / 1000 / 2 ^ 53) (by norm_num) he (B := 407 / 10000) (Z := 2304 / 10000) tanP_y1 (by norm_num) (by norm_num)
        (by push_cast; norm_num at hZ ⊢; exact hZ) (tanP_bounds hXX0 hXX1).1 (by norm_num) (η := 0.47 / 2 ^ 53) (by norm_num) (by push_cast; norm_num)
      rwa [show X * Poly.ev tanP (X * X) + Y * (1 + X * X) + (R - (X * Poly.ev tanP (X * X) + Y * (1 + X * X) - X)) = X + R by ring] at this
    refine ⟨R, ⟨fR, hR4, ⟨hn.1, hn.2.1, hn.2.2.trans (mul_le_mul_of_nonneg_right (by norm_num) (abs_nonneg _))⟩, fun _ => hn⟩, fun hc' => ?_⟩
    rw [show X + R - (X * Poly.ev tanP (X * X) + Y * (1 + X * X)) = R - (X * Poly.ev tanP (X * X) + Y * (1 + X * X) - X) by ring]
    refine he.trans ?_
    norm_num at *
    linarith
  · have hZ0 : 0.2304 ≤ X * X := by
      rw [hXX]
      have := mul_le_mul hc.le hc.le (by norm_num) hX0.le
      norm_num at this ⊢
      linarith
    obtain ⟨R, fR, ha, he⟩ := tanR_err (N := N) hx hy h0 hX1 (A0 := 1414184 / 2 ^ 21) (Yb := 1014 / 1000 / 2 ^ 53) (by rw [sv0]; push_cast; norm_num at h1 ⊢; exact h1)
      (by rw [sv0]; push_cast; norm_num at *; linarith)
      (holds_sq' (k := -1) hx (by norm_num) (by norm_num) (h := 1414184 / 2 ^ 21) (by push_cast; exact h1) (by norm_num) (by norm_num) (by norm_num) _) tanE_3
    rw [sv0, hid] at ha he
    push_cast at ha he
    have hE : |X + R - (X * Poly.ev tanP (X * X) + Y * (1 + X * X))| ≤ 0.413 / 2 ^ 53 := by
      rw [show X + R - (X * Poly.ev tanP (X * X) + Y * (1 + X * X)) = R - (X * Poly.ev tanP (X * X) + Y * (1 + X * X) - X) by ring]
      norm_num at *
      linarith
    rcases le_or_gt |X| 0.58 with hc2 | hc2
    · clear ha he
      obtain ⟨R', fR', ha, he⟩ := tanR_err (N := N) hx hy h0 hX1 hA hYA
        (holds_sq' (k := -1) hx (by norm_num) (by norm_num) (h := 58 / 100) (by push_cast; norm_num at hc2 ⊢; exact hc2) (by norm_num) (by norm_num) (by norm_num) _) tanE_2
      obtain rfl : R = R' := fR.val.symm.trans fR'.val
      rw [sv1, hid] at ha he
      push_cast at ha he
      have hR4 := hsm R (he.trans (mul_le_mul_of_nonneg_right (by norm_num) hX0.le))
      have hZ : X * X ≤ 0.3364 := by
        rw [hXX]
        have := mul_le_mul hc2 hc2 hX0.le (by norm_num)
        norm_num at this ⊢
        linarith
      refine ⟨R, ⟨fR, hR4, ?_, fun h => absurd h (not_le.mpr hc)⟩, fun _ => hE⟩
      have := tan_case hX0 h1' hY hT (c := 586 / 1000 / 2 ^ 53) (by norm_num) he (B := 93 / 1000) (Z := 3364 / 10000) tanP_y2 (by norm_num) (by norm_num)
        (by push_cast; norm_num at hZ ⊢; exact hZ) (p := 0.9999) (tanP_bounds hXX0 hXX1).1 (by norm_num) (η := 0.98 / 2 ^ 53) (by norm_num) (by push_cast; norm_num)
      rwa [show X * Poly.ev tanP (X * X) + Y * (1 + X * X) + (R - (X * Poly.ev tanP (X * X) + Y * (1 + X * X) - X)) = X + R by ring] at this
    · have hZ1 : 0.3364 ≤ X * X := by
        rw [hXX]
        have := mul_le_mul hc2.le hc2.le (by norm_num) hX0.le
        norm_num at this ⊢
        linarith
      have hR4 := hsm R (by norm_num at *; linarith)
      have hP := tanP_third (z := X * X) (by norm_num at *; linarith) hXX1
      refine ⟨R, ⟨fR, hR4, ?_, fun h => absurd h (not_le.mpr hc)⟩, fun _ => hE⟩
      have := tan_case hX0 h1' hY hT (c := 0.7121 / 2 ^ 53) (by norm_num) (e := R - (X * Poly.ev tanP (X * X) + Y * (1 + X * X) - X)) (by norm_num at *; linarith) (B := 1845 / 10000) (Z := 454729 / 10 ^ 6) tanP_y3 (by norm_num) (by norm_num)
        (by push_cast; rw [hXX]; have := mul_le_mul h1 h1 hX0.le (by norm_num); norm_num at this ⊢; linarith) (p := 1.112) (by norm_num at *; linarith) (by norm_num) (η := 0.98 / 2 ^ 53) (by norm_num) (by push_cast; norm_num)
      rwa [show X * Poly.ev tanP (X * X) + Y * (1 + X * X) + (R - (X * Poly.ev tanP (X * X) + Y * (1 + X * X) - X)) = X + R by ring] at this

end Trig
end Verif
