import Verif.Libm.Log
import Verif.Libm.LogRed
import Verif.Libm.LogSkel
import Verif.Libm.ExpRed
import Verif.Libm.HypotFast
/-! # Accuracy of `log` -/
namespace Verif
open Fmt
namespace Log
open Pio2 Hypot

theorem big64 : f64.Big := ⟨by rw [b64]; norm_num, by rw [s64]; norm_num⟩

def cs : List D := [LG1, LG2, LG3, LG4, LG5, LG6, LG7]
def pl : List ℚ := [f64.val LG1, f64.val LG2, f64.val LG3, f64.val LG4, f64.val LG5, f64.val LG6, f64.val LG7]
open Ex in
def rEx : Ex :=
  let z := mul (leaf 0) (leaf 0)
  let w := mul z z
  let t1 := mul w (add (leaf 2) (mul w (add (leaf 4) (mul w (leaf 6)))))
  let t2 := mul z (add (leaf 1) (mul w (add (leaf 3) (mul w (add (leaf 5) (mul w (leaf 7)))))))
  add t2 t1

theorem polyR_spec (N : FPU f64) (s : D) (S : ℝ) (hs : Ex.Holds f64 1 s S ⟨1716 / 10000, 33 / 100 / 2 ^ (f64.s + 1), false⟩) :
    Ex.Holds f64 1 (polyR N s) (S * S * Poly.ev pl (S * S)) ⟨2 / 100, 14 / 100 / 2 ^ (f64.s + 1), false⟩ := by
  have ht : (1 : ℝ) / 2 ^ 150 ≤ ((1 / 2 ^ 150 : ℚ) : ℝ) * 1 := by push_cast; norm_num
  have hl := Ex.cHolds hs (cs := cs) (by decide +kernel)
  have h1 := Ex.holds_of_errLe big64 N one_pos (le_refl 1) ht hl (p := rEx) (sc := false) (A := 2 / 100) (c := 14 / 100 / 2 ^ (f64.s + 1))
    (by decide +kernel)
  have hC : rEx.ideal (Ex.cVal S cs) = S * S * Poly.ev pl (S * S) := by
    simp only [rEx, Ex.ideal, Ex.cVal, cs, pl, Poly.ev, List.getD_cons_zero, List.getD_cons_succ]
    ring
  rw [hC] at h1
  exact h1

theorem one_fv : GFv f64 one 1 := by
  have := GFv.const (F := f64) (b := one) (q := 1) (by decide +kernel) (by decide +kernel); simpa using this
theorem two_fv : GFv f64 two 2 := by
  have := GFv.const (F := f64) (b := two) (q := 2) (by decide +kernel) (by decide +kernel); simpa using this
theorem half_fv : GFv f64 half (1 / 2) := by
  have := GFv.const (F := f64) (b := half) (q := 1 / 2) (by decide +kernel) (by decide +kernel); push_cast at this; exact this

/-- what is claimed of a result -/
def Good (z : D) (T : ℝ) : Prop := ∃ W, GFv f64 z W ∧ |W - T| ≤ 1 / 2 ^ 52 * |T|

theorem main_spec (N : FPU f64) {x : D} {X : ℝ} {k : ℤ} (hx : GFv f64 x X) (hX0 : 7071 / 10000 ≤ X) (hX1 : X ≤ 141422 / 100000)
    (hk : |k| ≤ 1100) (hne : k = 0 → X ≠ 1) : Ok (main N x k) fun z => Good z (Real.log X + k * Real.log 2) := by
  have hkR : |(k : ℝ)| ≤ 1100 := by exact_mod_cast hk
  rw [abs_le] at hk
  obtain ⟨dk, d1, d2⟩ := ofI32_spec (k := k) (by omega) (by omega)
  have hhi := GFv.const (F := f64) (b := LN2_HI) (q := _) (by decide +kernel) rfl
  have hlo := GFv.const (F := f64) (b := LN2_LO) (q := _) (by decide +kernel) rfl
  have c1 : f64.val LN2_HI = 2977044471 / 2 ^ 32 := by decide +kernel
  have c2 : 0 ≤ f64.val LN2_LO ∧ f64.val LN2_LO ≤ 2 / 10 ^ 10 := by decide +kernel
  have c3 : |f64.val LN2_HI + f64.val LN2_LO - Poly.ln2L| ≤ 1 / 10 ^ 25 := by decide +kernel
  have c2a : (0 : ℝ) ≤ (f64.val LN2_LO : ℚ) := by exact_mod_cast c2.1
  have c2b : ((f64.val LN2_LO : ℚ) : ℝ) ≤ 2 / 10 ^ 10 := by
    have : ((f64.val LN2_LO : ℚ) : ℝ) ≤ ((2 / 10 ^ 10 : ℚ) : ℝ) := Rat.cast_le.mpr c2.2
    push_cast at this; exact this
  have c3' : |((f64.val LN2_HI : ℚ) : ℝ) + (f64.val LN2_LO : ℚ) - Real.log 2| ≤ 2 / 10 ^ 25 := by
    have h1 : ((|f64.val LN2_HI + f64.val LN2_LO - Poly.ln2L| : ℚ) : ℝ) ≤ ((1 / 10 ^ 25 : ℚ) : ℝ) := Rat.cast_le.mpr c3
    push_cast at h1
    have h2 := Poly.ln2_gt
    have h3 := Poly.ln2_lt
    have h4 : ((Poly.ln2H : ℚ) : ℝ) - (Poly.ln2L : ℚ) ≤ 1 / 10 ^ 26 := by unfold Poly.ln2H Poly.ln2L; push_cast; norm_num
    rw [abs_le] at h1 ⊢
    constructor <;> linarith [h1.1, h1.2]
  have hkh : |(k : ℝ) * (f64.val LN2_HI : ℚ)| ≤ 1100 := by
    rw [abs_mul, c1]
    have : |(((2977044471 / 2 ^ 32 : ℚ)) : ℝ)| ≤ 1 := by rw [abs_of_nonneg (by positivity)]; push_cast; norm_num
    nlinarith [abs_nonneg (k : ℝ), abs_nonneg (((2977044471 / 2 ^ 32 : ℚ)) : ℝ)]
  obtain ⟨W, w1, w2⟩ := whole big64 (Or.inr rfl) N hx one_fv half_fv two_fv (dk := dk) (k := k) ⟨d2.1, d2.2⟩ hhi hlo hX0 hX1 (r := polyR N)
    (fun s S h => polyR_spec N s S h) (by decide +kernel) (B := 3 / 100 / 2 ^ 53) (n := 8) (by decide +kernel) (by rw [s64]; push_cast; norm_num) (jh := -32)
    ⟨2977044471, by rw [c1]; push_cast; norm_num⟩ (by rw [s64]; norm_num) (by norm_num) (by rw [s64]; refine hkh.trans ?_; norm_num) (by linarith)
    (by
      rw [abs_mul, abs_of_nonneg c2a]
      have := mul_le_mul hkR c2b c2a (by norm_num)
      linarith) (by
      have := mul_le_mul hkR c3' (abs_nonneg _) (by norm_num)
      refine this.trans ?_
      rw [s64]; norm_num) hne
  unfold main
  rw [d1]
  refine ⟨_, rfl, W, w1, ?_⟩
  rw [s64] at w2
  refine w2.trans (le_of_eq ?_)
  norm_num

/-- `log` of a positive number -/
theorem log_spec (N : FPU f64) {x : D} {X : ℝ} (hx : GFv f64 x X) (hX : 0 < X) (h1 : X ≠ 1) : Ok (log N x) fun z => Good z (Real.log X) := by
  have hm : Log2.MainOk (main N) fun z T => Good z (Real.log T) := fun x X k a b c d e => by
    have := main_spec N a b c d e
    dsimp only
    rwa [Real.log_mul (by linarith) (by positivity), Real.log_zpow]
  exact Log2.skel_spec N (P := fun z T => Good z (Real.log T)) hm hx hX h1
end Log
end Verif
