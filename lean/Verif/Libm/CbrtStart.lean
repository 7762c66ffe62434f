import Verif.Libm.Cbrt
import Verif.Libm.GFv
import Verif.Libm.PolyBound
import Verif.Libm.PolyMul
/-! # `cbrt`: the polynomial and the cubic step -/
namespace Verif
open Fmt
namespace CbrtD

theorem big64 : f64.Big := ⟨by decide, by decide⟩
theorem sv1 : Ex.sv 1 false = 1 := if_neg (by simp)

theorem holds1 {b : D} {v a : ℝ} {A e : ℚ} (h : GFv f64 b v) (ha : |a| ≤ A) (he : |v - a| ≤ e) : Ex.Holds f64 1 b a ⟨A, e, false⟩ :=
  ⟨h.fin, by rw [sv1, mul_one]; exact ha, by rw [sv1, mul_one, h.val]; exact he⟩

/-- the polynomial -/
def pl : List ℚ := [4979390682230684 / 2 ^ 53, 5288255411789221 / 2 ^ 53, -5871601230929338 / 2 ^ 55, 6659552496622343 / 2 ^ 58]

def p3 : List ℚ := Poly.mul pl (Poly.mul pl pl)

/-- the cube of the polynomial is between `(1 - h) z` and `(1 + h) z` -/
theorem pl_hi : Poly.chk (Poly.sub p3 [-(1 / 2000), 1 + 23 / 100000]) (1 / 2000) 12 1 2 = true := by decide +kernel
theorem pl_lo : Poly.chk (Poly.sub p3 [1 / 2000, 1 - 23 / 100000]) (1 / 2000) 12 1 2 = true := by decide +kernel

theorem pl_cube {z : ℝ} (h1 : 1 ≤ z) (h2 : z ≤ 2) : |Poly.ev pl z ^ 3 - z| ≤ 23 / 100000 * z := by
  have a := Poly.chk_sound pl_hi (t := z) (by push_cast; exact h1) (by push_cast; exact h2)
  have b := Poly.chk_sound pl_lo (t := z) (by push_cast; exact h1) (by push_cast; exact h2)
  rw [Poly.ev_sub] at a b
  have e : Poly.ev p3 z = Poly.ev pl z ^ 3 := by unfold p3; rw [Poly.ev_mul, Poly.ev_mul]; ring
  rw [e] at a b
  simp only [Poly.ev] at a b
  push_cast at a b
  rw [abs_le] at a b ⊢
  constructor <;> linarith [a.1, a.2, b.1, b.2]

/-- the polynomial is between 0.9 and 1.3 -/
theorem pl_bd {z : ℝ} (h1 : 1 ≤ z) (h2 : z ≤ 2) : |Poly.ev pl z - 1.1| ≤ 0.2 := by
  have h : Poly.chk (Poly.sub pl [11 / 10]) (2 / 10) 12 1 2 = true := by decide +kernel
  have a := Poly.chk_sound h (t := z) (by push_cast; exact h1) (by push_cast; exact h2)
  rw [Poly.ev_sub] at a
  simp only [Poly.ev] at a ⊢
  push_cast at a
  norm_num at a ⊢
  exact a

/-- a number whose cube is near that of `c` is near `c` -/
theorem root_near {c y : ℝ} (hc : 0 < c) (hy : 0 < y) (h : |y ^ 3 - c ^ 3| ≤ 2.31e-4 * c ^ 3) : |y - c| ≤ 7.72e-5 * c := by
  have e : y ^ 3 - c ^ 3 = (y - c) * (y ^ 2 + y * c + c ^ 2) := by ring
  have hp : 0 < y ^ 2 + y * c + c ^ 2 := by positivity
  rw [e, abs_mul, abs_of_pos hp] at h
  have hcc : 0 < c ^ 2 := by positivity
  have h1 : |y - c| ≤ 2.31e-4 * c := by
    have : |y - c| * c ^ 2 ≤ |y - c| * (y ^ 2 + y * c + c ^ 2) := mul_le_mul_of_nonneg_left (by nlinarith [mul_pos hy hc]) (abs_nonneg _)
    have : |y - c| * c ^ 2 ≤ (2.31e-4 * c) * c ^ 2 := by nlinarith
    exact le_of_mul_le_mul_right this hcc
  have h2 : 0.999 * c ≤ y := by
    have := (abs_le.mp h1).1
    norm_num at this ⊢
    linarith
  have h3 : 2.997 * c ^ 2 ≤ y ^ 2 + y * c + c ^ 2 := by nlinarith [mul_le_mul h2 h2 (by positivity) hy.le, mul_le_mul_of_nonneg_right h2 hc.le]
  have h4 : |y - c| * (2.997 * c ^ 2) ≤ 2.31e-4 * c ^ 3 := (mul_le_mul_of_nonneg_left h3 (abs_nonneg _)).trans h
  have h5 : |y - c| * c ^ 2 ≤ (7.72e-5 * c) * c ^ 2 := by
    have : 0 < c ^ 3 := by positivity
    norm_num at h4 ⊢
    nlinarith
  exact le_of_mul_le_mul_right h5 hcc

/-- the cubic step -/
theorem cubic {c y : ℝ} (hc : 0 < c) (h : |y - c| ≤ 7.72e-5 * c) :
    |y - (y ^ 3 / c ^ 3 - 1) * y * (1 / 3 - 2 / 9 * (y ^ 3 / c ^ 3 - 1)) - c| ≤ 2.15e-12 * c := by
  obtain ⟨η, hη⟩ : ∃ η, η = y / c - 1 := ⟨_, rfl⟩
  have hy : y = c * (1 + η) := by rw [hη]; field_simp; ring
  have hb : |η| ≤ 7.72e-5 := by
    have : y - c = c * η := by rw [hy]; ring
    rw [this, abs_mul, abs_of_pos hc] at h
    by_contra hh
    rw [not_le] at hh
    nlinarith
  have e : y ^ 3 / c ^ 3 - 1 = 3 * η + 3 * η ^ 2 + η ^ 3 := by rw [hy]; field_simp; ring
  have e2 : y - (y ^ 3 / c ^ 3 - 1) * y * (1 / 3 - 2 / 9 * (y ^ 3 / c ^ 3 - 1)) - c
      = c * (η ^ 3 * (14 / 3 + η * (7 + η * (14 / 3 + η * (14 / 9 + 2 / 9 * η))))) := by
    rw [e, hy]; ring
  rw [e2, abs_mul, abs_of_pos hc, mul_comm]
  refine mul_le_mul_of_nonneg_right ?_ hc.le
  rw [abs_mul, abs_pow]
  have h3 : |η| ^ 3 ≤ (7.72e-5 : ℝ) ^ 3 := pow_le_pow_left₀ (abs_nonneg _) hb 3
  have hm : ∀ {a b : ℝ} {B : ℝ}, |b| ≤ B → B ≤ 10 → |η * b| ≤ 1e-3 := by
    intro a b B h1 h2
    rw [abs_mul]
    calc |η| * |b| ≤ 7.72e-5 * 10 := mul_le_mul hb (h1.trans h2) (abs_nonneg _) (by norm_num)
      _ ≤ 1e-3 := by norm_num
  have h4 : |14 / 3 + η * (7 + η * (14 / 3 + η * (14 / 9 + 2 / 9 * η)))| ≤ 4.668 := by
    have a1 : |14 / 9 + 2 / 9 * η| ≤ 2 := by rw [abs_le] at hb ⊢; norm_num at hb; constructor <;> linarith [hb.1, hb.2]
    have a2 := hm (a := 0) a1 (by norm_num)
    have a3 : |14 / 3 + η * (14 / 9 + 2 / 9 * η)| ≤ 5 := by rw [abs_le] at a2 ⊢; norm_num at a2; constructor <;> linarith [a2.1, a2.2]
    have a4 := hm (a := 0) a3 (by norm_num)
    have a5 : |7 + η * (14 / 3 + η * (14 / 9 + 2 / 9 * η))| ≤ 8 := by rw [abs_le] at a4 ⊢; norm_num at a4; constructor <;> linarith [a4.1, a4.2]
    have a6 := hm (a := 0) a5 (by norm_num)
    rw [abs_le] at a6 ⊢; norm_num at a6 ⊢; constructor <;> linarith [a6.1, a6.2]
  calc |η| ^ 3 * _ ≤ (7.72e-5 : ℝ) ^ 3 * 4.668 := mul_le_mul h3 h4 (abs_nonneg _) (by norm_num)
    _ ≤ 2.15e-12 := by norm_num

section
variable (N : FPU f64)

/-! ### The polynomial -/
def ex1 : Ex := .add (.add (.leaf 1) (.mul (.leaf 0) (.leaf 2))) (.mul (.mul (.leaf 0) (.leaf 0)) (.add (.leaf 3) (.mul (.leaf 0) (.leaf 4))))
def cs1 : List D := [C0, C1, C2, C3]
def y0 (z : D) : D := N.add (N.add C0 (N.mul z C1)) (N.mul (N.mul z z) (N.add C2 (N.mul z C3)))

theorem y0_spec {z : D} {Z : ℝ} (hz : GFv f64 z Z) (h1 : 1 ≤ Z) (h2 : Z ≤ 2) : ∃ Y, GFv f64 (y0 N z) Y ∧ |Y - Poly.ev pl Z| ≤ 1 / 2 ^ 49 := by
  have herr : ex1.errLe 52 (1 / 2 ^ 150) (Ex.cInfo ⟨2, 0, false⟩ cs1) false 4 (1 / 2 ^ 49) = true := by decide +kernel
  obtain ⟨f, -, e⟩ := Ex.errLe_sound big64 N (σ := 1) (by norm_num) (le_refl _) (tiny := 1 / 2 ^ 150) (by push_cast; norm_num)
    (Ex.cHolds (cs := cs1) (hz.holds (σ := 1) (A := 2) (sc := false) (by rw [sv1, abs_of_pos (by linarith)]; push_cast; linarith)) (by decide +kernel)) herr
  refine ⟨_, ⟨f, rfl⟩, ?_⟩
  rw [sv1] at e
  have q0 : f64.val C0 = 4979390682230684 / 2 ^ 53 := by decide +kernel
  have q1 : f64.val C1 = 5288255411789221 / 2 ^ 53 := by decide +kernel
  have q2 : f64.val C2 = -5871601230929338 / 2 ^ 55 := by decide +kernel
  have q3 : f64.val C3 = 6659552496622343 / 2 ^ 58 := by decide +kernel
  have hi : ex1.ideal (Ex.cVal Z cs1) = Poly.ev pl Z := by
    simp only [ex1, Ex.ideal, Ex.cVal, cs1, List.getD_cons_zero, List.getD_cons_succ, pl, Poly.ev, q0, q1, q2, q3]
    ring
  rw [hi] at e
  refine e.trans ?_
  push_cast; norm_num

/-! ### The distance to the cube root -/
def ex2 : Ex := .sub (.mul (.mul (.leaf 0) (.leaf 0)) (.mul (.leaf 0) (.leaf 1))) (.leaf 2)
def lf2 (y r : D) : ℕ → D
  | 0 => y
  | 1 => r
  | _ => one
noncomputable def vl2 (Y R : ℝ) : ℕ → ℝ
  | 0 => Y
  | 1 => R
  | _ => 1
def in2 : ℕ → Ex.Bd
  | 0 => ⟨1.31, 0, false⟩
  | 1 => ⟨1, 1 / 2 ^ 53, false⟩
  | _ => ⟨1, 0, false⟩
def h0 (y r : D) : D := N.sub (N.mul (N.mul y y) (N.mul y r)) one

theorem one_fv : GFv f64 one 1 := by
  have := GFv.const (F := f64) (b := one) (q := 1) (by decide) (by decide +kernel)
  exact this.cast (by norm_num)

theorem r_spec {z : D} {Z : ℝ} (hz : GFv f64 z Z) (h1 : 1 ≤ Z) : ∃ R, GFv f64 (N.div one z) R ∧ |R - 1 / Z| ≤ 1 / 2 ^ 53 * (1 / Z) + 1 / 2 ^ 150 := by
  have hp : 0 < 1 / Z := by positivity
  have hl : 1 / Z ≤ 1 := by rw [div_le_one (by linarith)]; exact h1
  obtain ⟨R, g, e⟩ := GFv.rnd big64 (one_fv.divR N hz (by linarith)) (by
    rw [abs_of_pos hp]; exact hl.trans (by norm_num))
  rw [abs_of_pos hp] at e
  exact ⟨R, g, e⟩

theorem h0_spec {y r : D} {Y R Q : ℝ} (hy : GFv f64 y Y) (hr : GFv f64 r R) (hY : |Y| ≤ 1.31) (hQ : |Q| ≤ 1) (hR : |R - Q| ≤ 1 / 2 ^ 53) :
    ∃ H, GFv f64 (h0 N y r) H ∧ |H - (Y ^ 3 * Q - 1)| ≤ 1 / 2 ^ 48 := by
  have hl : ∀ i, Ex.Holds f64 1 (lf2 y r i) (vl2 Y Q i) (in2 i) := by
    intro i
    match i with
    | 0 => exact hy.holds (by rw [sv1]; push_cast; norm_num at hY ⊢; exact hY)
    | 1 => exact holds1 hr (by push_cast; exact hQ) (by push_cast; exact hR)
    | (n + 2) => exact one_fv.holds (by rw [sv1]; simp)
  have herr : ex2.errLe 52 (1 / 2 ^ 150) in2 false 4 (1 / 2 ^ 48) = true := by decide +kernel
  obtain ⟨f, -, e⟩ := Ex.errLe_sound big64 N (σ := 1) (by norm_num) (le_refl _) (tiny := 1 / 2 ^ 150) (by push_cast; norm_num) hl herr
  refine ⟨_, ⟨f, rfl⟩, ?_⟩
  rw [sv1] at e
  have hi : ex2.ideal (vl2 Y Q) = Y ^ 3 * Q - 1 := by simp only [ex2, Ex.ideal, vl2]; ring
  rw [hi] at e
  refine e.trans ?_
  push_cast; norm_num

/-! ### The step -/
def ex3 : Ex := .mul (.sub (.leaf 0) (.mul (.mul (.leaf 1) (.leaf 0)) (.sub (.leaf 2) (.mul (.leaf 3) (.leaf 1))))) (.leaf 4)
def lf3 (y h s : D) : ℕ → D
  | 0 => y
  | 1 => h
  | 2 => u0
  | 3 => u1
  | _ => s
noncomputable def vl3 (Y H S : ℝ) : ℕ → ℝ
  | 0 => Y
  | 1 => H
  | 2 => 1 / 3
  | 3 => 2 / 9
  | _ => S
def in3 : ℕ → Ex.Bd
  | 0 => ⟨1.31, 0, false⟩
  | 1 => ⟨1 / 1000, 1 / 2 ^ 48, false⟩
  | 2 => ⟨1 / 3, 1 / 2 ^ 53, false⟩
  | 3 => ⟨2 / 9, 1 / 2 ^ 53, false⟩
  | _ => ⟨2, 0, false⟩
def y1 (y h s : D) : D := N.mul (N.sub y (N.mul (N.mul h y) (N.sub u0 (N.mul u1 h)))) s

theorem u0_fv : GFv f64 u0 (6004799503160661 / 2 ^ 54) := by
  have := GFv.const (F := f64) (b := u0) (q := 6004799503160661 / 2 ^ 54) (by decide) (by decide +kernel)
  exact this.cast (by push_cast; norm_num)
theorem u1_fv : GFv f64 u1 (8006399337547548 / 2 ^ 55) := by
  have := GFv.const (F := f64) (b := u1) (q := 8006399337547548 / 2 ^ 55) (by decide) (by decide +kernel)
  exact this.cast (by push_cast; norm_num)

theorem y1_spec {y h s : D} {Y H Q S : ℝ} (hy : GFv f64 y Y) (hh : GFv f64 h H) (hs : GFv f64 s S) (hY : |Y| ≤ 1.31) (hQ : |Q| ≤ 1 / 1000) (hH : |H - Q| ≤ 1 / 2 ^ 48)
    (hS : |S| ≤ 2) : ∃ T, GFv f64 (y1 N y h s) T ∧ |T - (Y - Q * Y * (1 / 3 - 2 / 9 * Q)) * S| ≤ 1 / 2 ^ 46 := by
  have hl : ∀ i, Ex.Holds f64 1 (lf3 y h s i) (vl3 Y Q S i) (in3 i) := by
    intro i
    match i with
    | 0 => exact hy.holds (by rw [sv1]; push_cast; norm_num at hY ⊢; exact hY)
    | 1 => exact holds1 hh (by push_cast; exact hQ) (by push_cast; exact hH)
    | 2 => exact holds1 (a := 1 / 3) u0_fv (by push_cast; norm_num [abs_of_pos]) (by push_cast; rw [abs_le]; norm_num)
    | 3 => exact holds1 (a := 2 / 9) u1_fv (by push_cast; norm_num [abs_of_pos]) (by push_cast; rw [abs_le]; norm_num)
    | (n + 4) => exact hs.holds (by rw [sv1]; push_cast; linarith)
  have herr : ex3.errLe 52 (1 / 2 ^ 150) in3 false 4 (1 / 2 ^ 46) = true := by decide +kernel
  obtain ⟨f, -, e⟩ := Ex.errLe_sound big64 N (σ := 1) (by norm_num) (le_refl _) (tiny := 1 / 2 ^ 150) (by push_cast; norm_num) hl herr
  refine ⟨_, ⟨f, rfl⟩, ?_⟩
  rw [sv1] at e
  have hi : ex3.ideal (vl3 Y Q S) = (Y - Q * Y * (1 / 3 - 2 / 9 * Q)) * S := by simp only [ex3, Ex.ideal, vl3]
  rw [hi] at e
  refine e.trans ?_
  push_cast; norm_num

theorem start_eq (z r s : D) : start N z r s = y1 N (y0 N z) (h0 N (y0 N z) r) s := rfl

/-- the first approximation -/
theorem start_spec {z s : D} {c S : ℝ} (hc1 : 1 ≤ c) (hz : GFv f64 z (c ^ 3)) (h1 : 1 ≤ c ^ 3) (h2 : c ^ 3 ≤ 2) (hs : GFv f64 s S) (hS : |S| ≤ 2) (hS1 : 1 ≤ |S|) :
    ∃ T, GFv f64 (start N z (N.div one z) s) T ∧ |T - c * S| ≤ 2.17e-12 * (c * |S|) := by
  obtain ⟨R, gR, eR⟩ := r_spec N hz h1
  obtain ⟨Y, gY, eY⟩ := y0_spec N hz h1 h2
  have hc : 0 < c := by linarith
  have hb := pl_bd h1 h2
  have hq := pl_cube h1 h2
  generalize Poly.ev pl (c ^ 3) = P at *
  have hY : |Y - 1.1| ≤ 0.201 := by
    rw [abs_le] at hb eY ⊢; norm_num at hb eY ⊢; constructor <;> linarith [hb.1, hb.2, eY.1, eY.2]
  have hY' := abs_le.mp hY
  have hb' := abs_le.mp hb
  norm_num at hY' hb'
  have hYp : 0 < Y := by linarith [hY'.1]
  have hcu : |Y ^ 3 - c ^ 3| ≤ 2.31e-4 * c ^ 3 := by
    have e : Y ^ 3 - P ^ 3 = (Y - P) * (Y ^ 2 + Y * P + P ^ 2) := by ring
    have : |Y ^ 3 - P ^ 3| ≤ 1 / 2 ^ 49 * 6 := by
      rw [e, abs_mul]
      refine mul_le_mul eY ?_ (abs_nonneg _) (by norm_num)
      have hPp : 0 < P := by linarith [hb'.1]
      rw [abs_of_pos (by positivity)]
      nlinarith [hY'.2, hb'.2]
    have h3 := abs_sub_le (Y ^ 3) (P ^ 3) (c ^ 3)
    norm_num at this hq h3 ⊢
    linarith
  have hn := root_near hc hYp hcu
  have hcub := cubic hc hn
  have hc3 : 0 < c ^ 3 := by positivity
  have hQ1 : 1 / c ^ 3 ≤ 1 := by rw [div_le_one hc3]; exact h1
  have hQ0 : 0 < 1 / c ^ 3 := by positivity
  obtain ⟨H, gH, eH⟩ := h0_spec N gY gR (Q := 1 / c ^ 3) (by rw [abs_le]; norm_num; constructor <;> linarith [hY'.1, hY'.2])
    (by rw [abs_of_pos hQ0]; exact hQ1) (by
      have : |R - 1 / c ^ 3| ≤ 1 / 2 ^ 53 := by
        have hr := gR
        -- the error of a quotient up to 1
        have := (one_fv.divR N hz (by linarith)).err f64 (k := 0) (by rw [abs_of_pos hQ0, zpow_zero]; exact hQ1) (by decide) (by decide)
        rw [gR.val] at this
        refine this.trans ?_
        rw [show (0 : ℤ) - (f64.s : ℤ) - 2 = -54 by decide, zpow_neg]; norm_num
      exact this)
  have hQb : |Y ^ 3 / c ^ 3 - 1| ≤ 1 / 1000 := by
    have : Y ^ 3 / c ^ 3 - 1 = (Y ^ 3 - c ^ 3) / c ^ 3 := by field_simp
    rw [this, abs_div, abs_of_pos hc3, div_le_iff₀ hc3]
    norm_num at hcu ⊢
    linarith
  obtain ⟨T, gT, eT⟩ := y1_spec N gY gH hs (Q := Y ^ 3 / c ^ 3 - 1) (by rw [abs_le]; norm_num; constructor <;> linarith [hY'.1, hY'.2]) hQb
    (by rw [div_eq_mul_one_div]; exact eH) hS
  refine ⟨T, by rw [start_eq]; exact gT, ?_⟩
  generalize hw : Y - (Y ^ 3 / c ^ 3 - 1) * Y * (1 / 3 - 2 / 9 * (Y ^ 3 / c ^ 3 - 1)) = W at *
  have e1 : |W * S - c * S| ≤ 2.15e-12 * c * |S| := by
    rw [← sub_mul, abs_mul]
    exact mul_le_mul_of_nonneg_right hcub (abs_nonneg _)
  have h3 := abs_sub_le T (W * S) (c * S)
  have h4 : 1 ≤ c * |S| := by nlinarith
  norm_num at e1 eT ⊢
  linarith
end
end CbrtD
end Verif
