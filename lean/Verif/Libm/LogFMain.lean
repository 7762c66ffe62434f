import Verif.Libm.Log
import Verif.Libm.LogRed
import Verif.Libm.LogSkel
/-! # Accuracy of `logf` -/
namespace Verif
open Fmt
namespace Log
namespace F32
open Exp.F32 (S)

theorem b32 : f32.bias = 127 := by decide
theorem s32 : f32.s = 23 := rfl
theorem big32 : f32.Big := ⟨by rw [b32], by rw [s32]⟩

def cs : List S := [LG1, LG2, LG3, LG4]
def pl : List ℚ := [f32.val LG1, f32.val LG2, f32.val LG3, f32.val LG4]
open Ex in
def rEx : Ex :=
  let z := mul (leaf 0) (leaf 0)
  let w := mul z z
  let t1 := mul w (add (leaf 2) (mul w (leaf 4)))
  let t2 := mul z (add (leaf 1) (mul w (leaf 3)))
  add t2 t1

theorem polyR_spec (N : FPU f32) (s : S) (v : ℝ) (hs : Ex.Holds f32 1 s v ⟨1716 / 10000, 33 / 100 / 2 ^ (f32.s + 1), false⟩) :
    Ex.Holds f32 1 (polyR N s) (v * v * Poly.ev pl (v * v)) ⟨2 / 100, 14 / 100 / 2 ^ (f32.s + 1), false⟩ := by
  have ht : (1 : ℝ) / 2 ^ 150 ≤ ((1 / 2 ^ 150 : ℚ) : ℝ) * 1 := by push_cast; norm_num
  have hl := Ex.cHolds hs (cs := cs) (by decide +kernel)
  have h1 := Ex.holds_of_errLe big32 N one_pos (le_refl 1) ht hl (p := rEx) (sc := false) (A := 2 / 100) (c := 14 / 100 / 2 ^ (f32.s + 1))
    (by decide +kernel)
  have hC : rEx.ideal (Ex.cVal v cs) = v * v * Poly.ev pl (v * v) := by
    simp only [rEx, Ex.ideal, Ex.cVal, cs, pl, Poly.ev, List.getD_cons_zero, List.getD_cons_succ]
    ring
  rw [hC] at h1
  exact h1

theorem ofI32_spec {k : ℤ} (h0 : -2 ^ 20 ≤ k) (h1 : k < 2 ^ 20) : ∃ r, Exp.F32.ofI32 k = .ok r ∧ GFv f32 r k := by
  obtain ⟨r, h2, h3, _⟩ := Props.C31_signed.1 (BitVec.ofInt 32 k)
  refine ⟨r, h2, ?_⟩
  have e : (BitVec.ofInt 32 k).toInt = k := by
    rw [BitVec.toInt_ofInt, Int.bmod_def]; split <;> omega
  have := h3.cast f32
  rw [e, Rat.cast_intCast] at this
  have hk : |k| ≤ 2 ^ 20 := by rw [abs_le]; constructor <;> omega
  have hk' : |(k : ℝ)| ≤ 2 ^ 20 := by exact_mod_cast hk
  refine GFv.of_rounds big32 (j := 0) this ⟨k, by simp⟩ ?_ (by rw [b32, s32]; norm_num) (hk'.trans (by norm_num))
  rw [s32]
  refine hk'.trans ?_
  norm_num

theorem one_fv : GFv f32 one 1 := by
  have := GFv.const (F := f32) (b := one) (q := 1) (by decide +kernel) (by decide +kernel); simpa using this
theorem two_fv : GFv f32 two 2 := by
  have := GFv.const (F := f32) (b := two) (q := 2) (by decide +kernel) (by decide +kernel); simpa using this
theorem half_fv : GFv f32 half (1 / 2) := by
  have := GFv.const (F := f32) (b := half) (q := 1 / 2) (by decide +kernel) (by decide +kernel); push_cast at this; exact this

/-- what is claimed of a result -/
def Good (z : S) (T : ℝ) : Prop := ∃ W, GFv f32 z W ∧ |W - T| ≤ 1 / 2 ^ 23 * |T|

theorem main_spec (N : FPU f32) {x : S} {X : ℝ} {k : ℤ} (hx : GFv f32 x X) (hX0 : 7071 / 10000 ≤ X) (hX1 : X ≤ 141422 / 100000)
    (hk : |k| ≤ 150) (hne : k = 0 → X ≠ 1) : Ok (main N x k) fun z => Good z (Real.log X + k * Real.log 2) := by
  have hkR : |(k : ℝ)| ≤ 150 := by exact_mod_cast hk
  rw [abs_le] at hk
  obtain ⟨dk, d1, d2⟩ := ofI32_spec (k := k) (by omega) (by omega)
  have hhi := GFv.const (F := f32) (b := LN2_HI) (q := _) (by decide +kernel) rfl
  have hlo := GFv.const (F := f32) (b := LN2_LO) (q := _) (by decide +kernel) rfl
  have c1 : f32.val LN2_HI = 90851 / 2 ^ 17 := by decide +kernel
  have c2 : 0 ≤ f32.val LN2_LO ∧ f32.val LN2_LO ≤ 91 / 10 ^ 7 := by decide +kernel
  have c3 : |f32.val LN2_HI + f32.val LN2_LO - Poly.ln2L| ≤ 1 / 10 ^ 12 := by decide +kernel
  have c2a : (0 : ℝ) ≤ (f32.val LN2_LO : ℚ) := by exact_mod_cast c2.1
  have c2b : ((f32.val LN2_LO : ℚ) : ℝ) ≤ 91 / 10 ^ 7 := by
    have : ((f32.val LN2_LO : ℚ) : ℝ) ≤ ((91 / 10 ^ 7 : ℚ) : ℝ) := Rat.cast_le.mpr c2.2
    push_cast at this; exact this
  have c3' : |((f32.val LN2_HI : ℚ) : ℝ) + (f32.val LN2_LO : ℚ) - Real.log 2| ≤ 11 / 10 ^ 13 := by
    have h1 : ((|f32.val LN2_HI + f32.val LN2_LO - Poly.ln2L| : ℚ) : ℝ) ≤ ((1 / 10 ^ 12 : ℚ) : ℝ) := Rat.cast_le.mpr c3
    push_cast at h1
    have h2 := Poly.ln2_gt
    have h3 := Poly.ln2_lt
    have h4 : ((Poly.ln2H : ℚ) : ℝ) - (Poly.ln2L : ℚ) ≤ 1 / 10 ^ 26 := by unfold Poly.ln2H Poly.ln2L; push_cast; norm_num
    rw [abs_le] at h1 ⊢
    constructor <;> linarith [h1.1, h1.2]
  have hkh : |(k : ℝ) * (f32.val LN2_HI : ℚ)| ≤ 105 := by
    rw [abs_mul, c1]
    have : |(((90851 / 2 ^ 17 : ℚ)) : ℝ)| ≤ 1 := by rw [abs_of_nonneg (by positivity)]; push_cast; norm_num
    nlinarith [abs_nonneg (k : ℝ), abs_nonneg (((90851 / 2 ^ 17 : ℚ)) : ℝ)]
  obtain ⟨W, w1, w2⟩ := whole big32 (Or.inl rfl) N hx one_fv half_fv two_fv (dk := dk) (k := k) d2 hhi hlo hX0 hX1 (r := polyR N)
    (fun s v h => polyR_spec N s v h) (by decide +kernel) (B := 3 / 100 / 2 ^ 24) (n := 8) (by decide +kernel) (by rw [s32]; push_cast; norm_num) (jh := -17)
    ⟨90851, by rw [c1]; push_cast; norm_num⟩ (by rw [s32]; norm_num) (by norm_num) (by rw [s32]; refine hkh.trans ?_; norm_num) (by linarith)
    (by
      rw [abs_mul, abs_of_nonneg c2a]
      have := mul_le_mul hkR c2b c2a (by norm_num)
      linarith) (by
      have := mul_le_mul hkR c3' (abs_nonneg _) (by norm_num)
      refine this.trans ?_
      rw [s32]; norm_num) hne
  unfold main
  rw [d1]
  refine ⟨_, rfl, W, w1, ?_⟩
  rw [s32] at w2
  refine w2.trans (le_of_eq ?_)
  norm_num

/-- `logf` of a positive number -/
theorem logf_spec (N : FPU f32) {x : S} {X : ℝ} (hx : GFv f32 x X) (hX : 0 < X) (h1 : X ≠ 1) : Ok (logf N x) fun z => Good z (Real.log X) := by
  have hm : Log2.F32.MainOk (main N) fun z T => Good z (Real.log T) := fun x X k a b c d e => by
    have := main_spec N a b c d e
    dsimp only
    rwa [Real.log_mul (by linarith) (by positivity), Real.log_zpow]
  exact Log2.F32.skel_spec N (P := fun z T => Good z (Real.log T)) hm hx hX h1
end F32
end Log
end Verif
