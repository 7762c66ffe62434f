import Verif.Libm.Trig
import Verif.Libm.ErrCalc
import Verif.Libm.FaithfulTo
import Verif.Libm.PolyBound
import Verif.Libm.RemPio2Cw
import Mathlib.Analysis.SpecialFunctions.Trigonometric.Bounds
/-! # Errors of the kernels `k_sin` and `k_cos` -/
namespace Verif
open Fmt

/-- `f64` value as a real -/
local notation "V" => Fmt.valK f64 ℝ

namespace Trig
open Pio2 Hypot

theorem big64 : f64.Big := ⟨by rw [b64]; norm_num, by rw [s64]; norm_num⟩

theorem pow_big {k : ℤ} (hk : k ≤ 1024) : |(2 : ℝ) ^ k| ≤ 2 ^ ((f64.bias : ℤ) + 1) := by
  rw [abs_of_pos (by positivity), b64]; exact zpow_le_zpow_right₀ (by norm_num) hk

/-! ### Real analysis -/

theorem cos_lip (a b : ℝ) : |Real.cos a - Real.cos b| ≤ |a * a - b * b| / 2 := by
  rw [Real.cos_sub_cos, abs_mul, abs_mul]
  have h1 : |Real.sin ((a + b) / 2)| ≤ |(a + b) / 2| := Real.abs_sin_le_abs
  have h2 : |Real.sin ((a - b) / 2)| ≤ |(a - b) / 2| := Real.abs_sin_le_abs
  have h3 := mul_le_mul h1 h2 (abs_nonneg _) (abs_nonneg _)
  have e : |(a + b) / 2 * ((a - b) / 2)| = |a * a - b * b| / 4 := by
    rw [show (a + b) / 2 * ((a - b) / 2) = (a * a - b * b) / 4 by ring, abs_div]; norm_num
  rw [abs_mul] at e
  rw [e] at h3
  rw [mul_assoc, show |(-2 : ℝ)| = 2 by norm_num]
  linarith

theorem sin_cubic {x : ℝ} (hx : |x| ≤ 1) : |x - Real.sin x| ≤ |x| ^ 3 / 6 + |x| ^ 6 / 500 := by
  have h := (Poly.taylor 3 (by norm_num) hx).2
  have e : Poly.sinT 3 x = x - x ^ 3 / 6 + x ^ 5 / 120 := by
    simp only [Poly.sinT, Finset.sum_range_succ, Finset.sum_range_zero, Nat.factorial]; push_cast; ring
  rw [e] at h
  have h1 : |x| ^ (2 * 3) * ((2 * ((3 : ℕ) : ℝ) + 1) / ((2 * 3).factorial * (2 * ((3 : ℕ) : ℝ)))) ≤ |x| ^ 6 / 500 := by
    rw [div_eq_mul_one_div (|x| ^ 6)]
    refine mul_le_mul_of_nonneg_left ?_ (by positivity)
    norm_num [Nat.factorial]
  have h2 : |x - (x - x ^ 3 / 6 + x ^ 5 / 120)| ≤ |x| ^ 3 / 6 := by
    have hx2 : x * x ≤ 1 := by rw [← abs_mul_abs_self]; nlinarith [abs_nonneg x]
    rw [show x - (x - x ^ 3 / 6 + x ^ 5 / 120) = x ^ 3 * ((1 - x * x / 20) / 6) by ring, abs_mul, abs_pow,
      abs_of_nonneg (show 0 ≤ (1 - x * x / 20) / 6 by linarith)]
    have : 0 ≤ x * x := mul_self_nonneg x
    calc |x| ^ 3 * ((1 - x * x / 20) / 6) ≤ |x| ^ 3 * (1 / 6) := mul_le_mul_of_nonneg_left (by linarith) (by positivity)
      _ = _ := by ring
  have h3 := abs_sub_le x (x - x ^ 3 / 6 + x ^ 5 / 120) (Real.sin x)
  rw [abs_sub_comm (x - x ^ 3 / 6 + x ^ 5 / 120)] at h3
  linarith [h.trans h1]

theorem cos_quartic {x : ℝ} (hx : |x| ≤ 1) : |Real.cos x - (1 - x * x / 2)| ≤ |x| ^ 4 / 24 + |x| ^ 6 / 500 := by
  have h := (Poly.taylor 3 (by norm_num) hx).1
  have e : Poly.cosT 3 x = 1 - x * x / 2 + x ^ 4 / 24 := by
    simp only [Poly.cosT, Finset.sum_range_succ, Finset.sum_range_zero, Nat.factorial]; push_cast; ring
  rw [e] at h
  have h1 : |x| ^ (2 * 3) * ((2 * ((3 : ℕ) : ℝ) + 1) / ((2 * 3).factorial * (2 * ((3 : ℕ) : ℝ)))) ≤ |x| ^ 6 / 500 := by
    rw [div_eq_mul_one_div (|x| ^ 6)]
    refine mul_le_mul_of_nonneg_left ?_ (by positivity)
    norm_num [Nat.factorial]
  have h3 := abs_add_le (Real.cos x - (1 - x * x / 2 + x ^ 4 / 24)) (x ^ 4 / 24)
  rw [show Real.cos x - (1 - x * x / 2 + x ^ 4 / 24) + x ^ 4 / 24 = Real.cos x - (1 - x * x / 2) by ring, abs_div, abs_pow,
    abs_of_pos (show (0 : ℝ) < 24 by norm_num)] at h3
  linarith [h.trans h1]

/-- `cos (x + y)` for a small `y` -/
theorem cos_add_small (x : ℝ) {y : ℝ} (h : |y| ≤ 1) : |Real.cos (x + y) - (Real.cos x - y * Real.sin x)| ≤ y * y := by
  rw [Real.cos_add, show Real.cos x * Real.cos y - Real.sin x * Real.sin y - (Real.cos x - y * Real.sin x) =
    Real.cos x * (Real.cos y - 1) + Real.sin x * (y - Real.sin y) by ring]
  have h1 : |Real.cos y - 1| ≤ y * y / 2 := by
    have := cos_lip y 0
    rw [Real.cos_zero, mul_zero, sub_zero, abs_of_nonneg (mul_self_nonneg y)] at this
    exact this
  have h2 : |y - Real.sin y| ≤ y * y / 2 := by
    have := sin_cubic h
    have e : y * y = |y| ^ 2 := by rw [sq_abs]; ring
    rw [e]
    refine this.trans ?_
    have h0 := abs_nonneg y
    have h3 : |y| ^ 3 ≤ |y| ^ 2 := pow_le_pow_of_le_one h0 h (by norm_num)
    have h6 : |y| ^ 6 ≤ |y| ^ 2 := pow_le_pow_of_le_one h0 h (by norm_num)
    have h7 : 0 ≤ |y| ^ 2 := by positivity
    linarith
  refine (abs_add_le _ _).trans ?_
  rw [abs_mul, abs_mul]
  have := mul_le_mul (Real.abs_cos_le_one x) h1 (abs_nonneg _) (by norm_num)
  have := mul_le_mul (Real.abs_sin_le_one x) h2 (abs_nonneg _) (by norm_num)
  linarith

/-- `sin (x + y)` for a small `y` -/
theorem sin_add_small (x : ℝ) {y : ℝ} (h : |y| ≤ 1) : |Real.sin (x + y) - (Real.sin x + y * Real.cos x)| ≤ y * y := by
  have := cos_add_small (x - Real.pi / 2) h
  rw [show x - Real.pi / 2 + y = (x + y) - Real.pi / 2 by ring, Real.cos_sub_pi_div_two, Real.cos_sub_pi_div_two, Real.sin_sub_pi_div_two] at this
  rwa [show Real.sin x - y * -Real.cos x = Real.sin x + y * Real.cos x by ring] at this

/-! ### The square -/

/-- `z = x * x` -/
theorem sq_fv {N : FPU f64} {x : D} {X : ℝ} (hx : Fv x X) (h0 : 2 ^ (-70 : ℤ) ≤ |X|) (h1 : |X| ≤ 0.78541) :
    ∃ ζ, Fv (N.mul x x) ζ ∧ |ζ - X * X| ≤ U * (X * X) ∧ |ζ - X * X| ≤ U / 2 ∧ 2 ^ (-142 : ℤ) ≤ ζ ∧ ζ ≤ 0.61687 := by
  have hX2 : |X * X| ≤ 0.616869 := by
    rw [abs_mul]; nlinarith [abs_nonneg X]
  have hsq : 0 ≤ X * X := mul_self_nonneg X
  have hm : Mul2 (-244) (X * X) := (mul2_of_ge hx h0).mul (mul2_of_ge hx h0)
  obtain ⟨ζ, f, e, _⟩ := Pio2.rnd (hx.mulR (N := N) hx) hm (by norm_num) (hX2.trans (by norm_num))
  rw [abs_of_nonneg hsq] at e hX2
  have e2 := err64 (hx.mulR (N := N) hx) (k := 0) (by rw [abs_of_nonneg hsq]; norm_num; linarith) (by norm_num) (by norm_num)
  rw [f.val] at e2
  have hUv : U = 1 / 2 ^ 53 := rfl
  have h3 : (2 : ℝ) ^ (-140 : ℤ) ≤ X * X := by
    rw [← abs_mul_abs_self, show (-140 : ℤ) = -70 + -70 by norm_num, zpow_add₀ (by norm_num)]
    exact mul_le_mul h0 h0 (by positivity) (abs_nonneg _)
  refine ⟨ζ, f, e, e2.trans (by rw [hUv]; norm_num), ?_, ?_⟩
  · rw [abs_le] at e
    have : U * (X * X) ≤ 1 / 2 * (X * X) := mul_le_mul_of_nonneg_right (by rw [hUv]; norm_num) hsq
    have h5 : 1 / 2 * (X * X) ≤ ζ := by linarith [e.1]
    refine le_trans ?_ ((mul_le_mul_of_nonneg_left h3 (by norm_num)).trans h5)
    norm_num
  · rw [abs_le] at e
    have : U * (X * X) ≤ U * 0.616869 := mul_le_mul_of_nonneg_left hX2 (by rw [hUv]; positivity)
    rw [hUv] at this e
    norm_num at this e ⊢
    linarith [e.2]

/-! ### `k_cos` -/

/-- the coefficients -/
def cosP : List ℚ := [1, -1 / 2, f64.val C1, f64.val C2, f64.val C3, f64.val C4, f64.val C5, f64.val C6]

theorem cosP_near : Poly.chk (Poly.sub Poly.cosL cosP) (9 / 1000 / 2 ^ 53) 8 0 (617 / 1000) = true := by decide +kernel

/-- the numbers of the correction: `x y z q C1 ... C6` -/
def cosLeaf (x y z q : D) : ℕ → D
  | 0 => x | 1 => y | 2 => z | 3 => q | 4 => C1 | 5 => C2 | 6 => C3 | 7 => C4 | 8 => C5 | _ => C6
def cosVal (X Y ζ Q : ℝ) : ℕ → ℝ
  | 0 => X | 1 => Y | 2 => ζ | 3 => Q | 4 => (f64.val C1 : ℚ) | 5 => (f64.val C2 : ℚ) | 6 => (f64.val C3 : ℚ) | 7 => (f64.val C4 : ℚ)
  | 8 => (f64.val C5 : ℚ) | _ => (f64.val C6 : ℚ)
def cosInfo : ℕ → Ex.Bd
  | 0 => ⟨78541 / 100000, 0, false⟩ | 1 => ⟨12 / 10 / 2 ^ 53, 0, false⟩ | 2 => ⟨61687 / 100000, 0, false⟩ | 3 => ⟨1 / 2 ^ 54, 1 / 2 ^ 100, false⟩
  | 4 => ⟨|f64.val C1|, 0, false⟩ | 5 => ⟨|f64.val C2|, 0, false⟩ | 6 => ⟨|f64.val C3|, 0, false⟩ | 7 => ⟨|f64.val C4|, 0, false⟩
  | 8 => ⟨|f64.val C5|, 0, false⟩ | _ => ⟨|f64.val C6|, 0, false⟩

/-- `z * r` -/
def cosZR : Ex :=
  let z := Ex.leaf 2
  let w := z.mul z
  z.mul (.add (z.mul (.add (.leaf 4) (z.mul (.add (.leaf 5) (z.mul (.leaf 6))))))
    ((w.mul w).mul (.add (.leaf 7) (z.mul (.add (.leaf 8) (z.mul (.leaf 9)))))))

/-- `((1.0 - w) - hz) + (z * r - x * y)` -/
def cosCorr : Ex := .add (.leaf 3) (.sub cosZR (.mul (.leaf 0) (.leaf 1)))

theorem cosCorr_err : cosCorr.errLe f64.s (1 / 2 ^ 75) cosInfo false (1 / 32) (79 / 1000 / 2 ^ 53) = true := by decide +kernel

theorem cosCorr_ideal (X Y ζ Q : ℝ) : 1 - ζ / 2 - Q + cosCorr.ideal (cosVal X Y ζ Q) = Poly.ev cosP ζ - X * Y := by
  simp only [cosCorr, cosZR, Ex.ideal, cosVal, cosP, Poly.ev]
  push_cast
  ring

set_option maxHeartbeats 1000000 in
theorem kCos_spec {N : FPU f64} {x y : D} {X Y : ℝ} (hx : Fv x X) (hy : Fv y Y) (h0 : 2 ^ (-70 : ℤ) ≤ |X|) (h1 : |X| ≤ 0.78541)
    (hY : |Y| ≤ 1.502 / 2 ^ 53 * |X|) : ∃ v, f64.Near v (kCos N x y) ∧ |v - Real.cos (X + Y)| ≤ 0.45 / 2 ^ 53 := by
  obtain ⟨ζ, fz, -, ez, z0, z1⟩ := sq_fv (N := N) hx h0 h1
  have hUv : U = 1 / 2 ^ 53 := rfl
  have hζ0 : 0 < ζ := lt_of_lt_of_le (by positivity) z0
  -- the half
  obtain ⟨e, -, e1, e2, e3, e4, em⟩ := norm_fv fz (by
    rw [abs_of_pos hζ0]; exact le_trans (zpow_le_zpow_right₀ (by norm_num) (by norm_num)) z0)
  have fh : Fv (N.mul chalf (N.mul x x)) (1 / 2 * ζ) := by
    have hh : Mul2 (-1) (1 / 2 : ℝ) := ⟨1, by norm_num⟩
    have he0 : e < 0 := by
      by_contra hc
      have : (1 : ℝ) ≤ 2 ^ e := one_le_zpow₀ (by norm_num) (by omega)
      rw [abs_of_pos hζ0] at e3
      norm_num at z1
      linarith
    have he1 : -142 < e + 1 := by
      rw [abs_of_pos hζ0] at e4
      exact (zpow_lt_zpow_iff_right₀ (by norm_num)).mp (z0.trans_lt e4)
    refine fv_chalf.mul N fz (j := -1 + (e - 52)) (hh.mul em) ?_ (by omega) (by omega)
    rw [abs_mul, show -1 + (e - 52) + 53 = e by ring, abs_of_pos (show (0 : ℝ) < 1 / 2 by norm_num)]
    rw [zpow_add_one₀ (by norm_num)] at e4
    linarith
  -- 1 - hz
  have rw1 := fv_cone.subR (N := N) fh
  have hz31 : 1 - 1 / 2 * ζ ≤ 1 := by linarith
  have hz69 : (2 : ℝ) ^ (-1 : ℤ) ≤ 1 - 1 / 2 * ζ := by norm_num; linarith
  have habs : |1 - 1 / 2 * ζ| ≤ 1 := by rw [abs_of_pos (by linarith)]; exact hz31
  have fw : f64.IsFin (N.sub cone (N.mul chalf (N.mul x x))) := rw1.fin100 big64 (habs.trans (by norm_num))
  obtain ⟨ω, hω⟩ : ∃ ω, ω = V (N.sub cone (N.mul chalf (N.mul x x))) := ⟨_, rfl⟩
  have fvw : Fv (N.sub cone (N.mul chalf (N.mul x x))) ω := ⟨fw, hω.symm⟩
  have ew := err64 rw1 (k := 0) (by simpa using habs) (by norm_num) (by norm_num)
  rw [← hω] at ew
  have w0 : (2 : ℝ) ^ (-1 : ℤ) ≤ ω := by
    rw [hω]; exact rw1.ge_of f64 (f64.rp_pow (by rw [b64, s64]; norm_num)) (pow_big (by norm_num)) hz69
  have w1 : ω ≤ 1 := by
    have := rw1.le_of f64 (g := 2 ^ (0 : ℤ)) (f64.rp_pow (by rw [b64, s64]; norm_num)) (pow_big (by norm_num)) (by simpa using hz31)
    rw [← hω] at this; simpa using this
  have wm : Mul2 (-53) ω := by
    have := mul2_of_ge fvw (k := -1) (w0.trans (le_abs_self _))
    exact this
  -- 1 - w is exact
  have f1w : Fv (N.sub cone (N.sub cone (N.mul chalf (N.mul x x)))) (1 - ω) := by
    refine fv_cone.sub N fvw (j := -53) ((Mul2.mono (j := 0) ⟨1, by norm_num⟩ (by norm_num)).sub wm) ?_ (by norm_num) (by norm_num)
    have : (0 : ℝ) < 2 ^ (-1 : ℤ) := by positivity
    rw [abs_of_nonneg (by linarith)]
    norm_num
    linarith
  -- (1 - w) - hz
  have rq := f1w.subR (N := N) fh
  obtain ⟨Q, hQ⟩ : ∃ Q, Q = 1 - ω - 1 / 2 * ζ := ⟨_, rfl⟩
  rw [← hQ] at rq
  have hQ1 : |Q| ≤ 1 / 2 ^ 54 := by
    rw [hQ, show 1 - ω - 1 / 2 * ζ = -(ω - (1 - 1 / 2 * ζ)) by ring, abs_neg]
    refine ew.trans (by norm_num)
  have hq := rq.rel_abs big64 (hQ1.trans (by norm_num))
  have fq := rq.fin100 big64 (hQ1.trans (by norm_num))
  have hXY : |Y| ≤ 12 / 10 / 2 ^ 53 := by norm_num at hY h1 ⊢; linarith
  have key := Ex.errLe_sound big64 N (σ := 1) (by norm_num) (le_refl _) (tiny := 1 / 2 ^ 75) (by norm_num)
    (b := cosLeaf x y (N.mul x x) (N.sub (N.sub cone (N.sub cone (N.mul chalf (N.mul x x)))) (N.mul chalf (N.mul x x))))
    (a := cosVal X Y ζ Q) (info := cosInfo) (by
      have hsv : ∀ b, Ex.sv 1 b = 1 := fun b => by unfold Ex.sv; simp
      intro i
      match i with
      | 0 => exact Ex.holds_exact hx.fin hx.val (by rw [hsv]; push_cast; norm_num at h1 ⊢; exact h1)
      | 1 => exact Ex.holds_exact hy.fin hy.val (by rw [hsv]; push_cast; norm_num at hXY ⊢; exact hXY)
      | 2 => exact Ex.holds_exact fz.fin fz.val (by rw [hsv]; push_cast; show |ζ| ≤ _; rw [abs_of_pos hζ0]; norm_num at z1 ⊢; exact z1)
      | 3 =>
        refine ⟨fq, ?_, ?_⟩
        · rw [hsv]; show |Q| ≤ ((1 / 2 ^ 54 : ℚ) : ℝ) * 1; push_cast; linarith
        · rw [hsv]
          show |V (N.sub (N.sub cone (N.sub cone (N.mul chalf (N.mul x x)))) (N.mul chalf (N.mul x x))) - Q| ≤ ((1 / 2 ^ 100 : ℚ) : ℝ) * 1
          refine hq.trans ?_
          rw [s64]
          have : 1 / 2 ^ (52 + 1) * |Q| ≤ 1 / 2 ^ (52 + 1) * (1 / 2 ^ 54) := mul_le_mul_of_nonneg_left hQ1 (by positivity)
          push_cast
          norm_num at this ⊢
          linarith
      | 4 => exact Ex.holds_const (b := C1) (by decide +kernel)
      | 5 => exact Ex.holds_const (b := C2) (by decide +kernel)
      | 6 => exact Ex.holds_const (b := C3) (by decide +kernel)
      | 7 => exact Ex.holds_const (b := C4) (by decide +kernel)
      | 8 => exact Ex.holds_const (b := C5) (by decide +kernel)
      | (n + 9) => exact Ex.holds_const (b := C6) (by decide +kernel)) cosCorr_err
  obtain ⟨fc, ac, ec⟩ := key
  have hsv : Ex.sv 1 false = 1 := if_neg (by simp)
  rw [hsv, mul_one] at ac ec
  have hdef : kCos N x y = N.add (N.sub cone (N.mul chalf (N.mul x x))) (cosCorr.flt N (cosLeaf x y (N.mul x x)
    (N.sub (N.sub cone (N.sub cone (N.mul chalf (N.mul x x)))) (N.mul chalf (N.mul x x))))) := rfl
  rw [hdef]
  obtain ⟨c, hc⟩ : ∃ c, c = V (cosCorr.flt N (cosLeaf x y (N.mul x x)
    (N.sub (N.sub cone (N.sub cone (N.mul chalf (N.mul x x)))) (N.mul chalf (N.mul x x))))) := ⟨_, rfl⟩
  have rr := Fmt.addR N fw fc
  rw [← hω, ← hc] at rr
  rw [← hc] at ec
  have hid := cosCorr_ideal X Y ζ Q
  obtain ⟨I, hI⟩ : ∃ I, I = cosCorr.ideal (cosVal X Y ζ Q) := ⟨_, rfl⟩
  rw [← hI] at ec ac hid
  push_cast at ec ac
  refine ⟨ω + c, rr.nearF f64 (rr.fin100 big64 ?_), ?_⟩
  · have : |c| ≤ 1 := by
      have := abs_add_le (c - I) I
      rw [sub_add_cancel] at this
      norm_num at *
      linarith
    refine (abs_add_le _ _).trans ?_
    have hpos : (0 : ℝ) < 2 ^ (-1 : ℤ) := by positivity
    rw [abs_of_pos (hpos.trans_le w0)]
    norm_num
    linarith
  · -- the polynomial
    have hP := Poly.chk_sound cosP_near (t := ζ) (by simpa using hζ0.le) (by push_cast; norm_num at z1 ⊢; linarith)
    rw [Poly.ev_sub] at hP
    push_cast at hP
    have hs : Real.sqrt ζ * Real.sqrt ζ = ζ := Real.mul_self_sqrt hζ0.le
    have hs1 : |Real.sqrt ζ| ≤ 0.8 := by
      rw [abs_of_nonneg (Real.sqrt_nonneg _), Real.sqrt_le_left (by norm_num)]; norm_num at z1 ⊢; linarith
    have hT := Poly.cos_near (x := Real.sqrt ζ) (hs1.trans (by norm_num))
    rw [hs] at hT
    have hT2 : |Real.sqrt ζ| ^ 20 / 2 ^ 61 ≤ 0.001 / 2 ^ 53 := by
      have : |Real.sqrt ζ| ^ 20 ≤ 0.8 ^ 20 := pow_le_pow_left₀ (abs_nonneg _) hs1 20
      norm_num at this ⊢
      linarith
    have hL := cos_lip (Real.sqrt ζ) X
    rw [hs] at hL
    -- the tail
    have hYs : |Y| ≤ 1 := hXY.trans (by norm_num)
    have hA := cos_add_small X hYs
    have hX1 : |X| ≤ 1 := h1.trans (by norm_num)
    have hS := sin_cubic hX1
    have hYS : |Y * (X - Real.sin X)| ≤ 0.097 / 2 ^ 53 := by
      rw [abs_mul]
      have a3 : |X| ^ 3 ≤ 0.78541 ^ 3 := pow_le_pow_left₀ (abs_nonneg _) h1 3
      have a6 : |X| ^ 6 ≤ 0.78541 ^ 6 := pow_le_pow_left₀ (abs_nonneg _) h1 6
      have hb : |X - Real.sin X| ≤ 0.0813 := by norm_num at a3 a6 ⊢; linarith
      have hc : |Y| ≤ 1.1797 / 2 ^ 53 := by norm_num at hY h1 ⊢; linarith
      calc _ ≤ 1.1797 / 2 ^ 53 * 0.0813 := mul_le_mul hc hb (abs_nonneg _) (by norm_num)
        _ ≤ _ := by norm_num
    have hYY : Y * Y ≤ 0.001 / 2 ^ 53 := by
      rw [← abs_mul_abs_self]
      calc _ ≤ 12 / 10 / 2 ^ 53 * (12 / 10 / 2 ^ 53) := mul_le_mul hXY hXY (abs_nonneg _) (by norm_num)
        _ ≤ _ := by norm_num
    have e0 : ω + c - Real.cos (X + Y) = (c - I) - (Poly.ev Poly.cosL ζ - Poly.ev cosP ζ) - (Real.cos (Real.sqrt ζ) - Poly.ev Poly.cosL ζ)
        + (Real.cos (Real.sqrt ζ) - Real.cos X) - (Real.cos (X + Y) - (Real.cos X - Y * Real.sin X)) - Y * (X - Real.sin X) := by
      have : ω + I = Poly.ev cosP ζ - X * Y := by rw [← hid, hQ]; ring
      linarith
    rw [e0]
    rw [hUv] at ez
    refine (abs_sub _ _).trans ?_
    have t1 := abs_sub ((c - I) - (Poly.ev Poly.cosL ζ - Poly.ev cosP ζ) - (Real.cos (Real.sqrt ζ) - Poly.ev Poly.cosL ζ)
        + (Real.cos (Real.sqrt ζ) - Real.cos X)) (Real.cos (X + Y) - (Real.cos X - Y * Real.sin X))
    have t2 := abs_add_le ((c - I) - (Poly.ev Poly.cosL ζ - Poly.ev cosP ζ) - (Real.cos (Real.sqrt ζ) - Poly.ev Poly.cosL ζ))
      (Real.cos (Real.sqrt ζ) - Real.cos X)
    have t3 := abs_sub ((c - I) - (Poly.ev Poly.cosL ζ - Poly.ev cosP ζ)) (Real.cos (Real.sqrt ζ) - Poly.ev Poly.cosL ζ)
    have t4 := abs_sub (c - I) (Poly.ev Poly.cosL ζ - Poly.ev cosP ζ)
    norm_num at *
    linarith

end Trig
end Verif
