import Verif.Libm.Log2Main
import Verif.Libm.Log2FMain
import Verif.Libm.LogSpec
/-! # Special arguments of `log2`, `log10`, `log2f`, `log10f` -/
namespace Verif
open Fmt
namespace Log2
/-- bits of `1` -/
theorem one_bits {x : BitVec f64.w} (hv : GFv f64 x 1) : x = 0x3ff0000000000000#f64.w := by
  obtain ⟨-, b2, -⟩ := Log.pos_bits hv one_pos
  have : f64.magVal ℚ 0x3ff0000000000000 = 1 := by decide +kernel
  rw [← f64.magVal_cast] at b2
  have b3 : (1 : ℚ) = f64.magVal ℚ x.toNat := by exact_mod_cast b2
  rw [← this, f64.magVal_inj] at b3
  exact BitVec.eq_of_toNat_eq b3.symm

/-- both zeros -/
theorem skel_zero (N : FPU f64) {main : Pio2.D → Int → M Pio2.D} {x : BitVec f64.w} (h : f64.mag x = 0) : ∃ r, skel N main x = .ok r ∧ f64.IsInf r ∧ f64.sign r = true := by
  have hm : GFv f64 Log.mone (-1) := (GFv.const (q := -1) (by decide +kernel) (by decide +kernel)).cast (by norm_num)
  have hz := Log.div_zero_inf N h hm
  refine ⟨_, ?_, hz⟩
  have hxlt : x.toNat < 2 ^ 64 := x.isLt
  have hs2 : f64.sign x = true ↔ 2 ^ 64 ≤ 2 * x.toNat := by
    show x.msb = true ↔ _
    rw [BitVec.msb_eq_true_iff_two_mul_ge]; rfl
  have hmg : f64.mag x = x.toNat % 2 ^ 63 := rfl
  unfold skel
  simp only [Nat.shiftRight_eq_div_pow, Nat.shiftLeft_eq]
  rw [if_pos (by omega), if_pos (by omega)]

/-- negative numbers, `-∞`, NaN -/
theorem skel_nan (N : FPU f64) {main : Pio2.D → Int → M Pio2.D} {x : BitVec f64.w} (h : f64.IsNaN x ∨ (f64.sign x = true ∧ f64.mag x ≠ 0)) :
    ∃ r, skel N main x = .ok r ∧ f64.IsNaN r := by
  have hxlt : x.toNat < 2 ^ 64 := x.isLt
  have hs2 : f64.sign x = true ↔ 2 ^ 64 ≤ 2 * x.toNat := by
    show x.msb = true ↔ _
    rw [BitVec.msb_eq_true_iff_two_mul_ge]; rfl
  have hmg : f64.mag x = x.toNat % 2 ^ 63 := rfl
  have hinf : f64.infRep = 0x7ff0000000000000 := by decide +kernel
  by_cases hs : f64.sign x = true
  · refine ⟨_, ?_, Log.sub_div_nan N (x := x)⟩
    have h2 := hs2.mp hs
    have h3 : f64.mag x ≠ 0 := by
      rcases h with h | h
      · unfold Fmt.IsNaN at h; omega
      · exact h.2
    unfold skel
    simp only [Nat.shiftRight_eq_div_pow, Nat.shiftLeft_eq]
    rw [if_pos (by omega), if_neg (by omega), if_pos (by omega)]
  · have h1 : f64.IsNaN x := by
      rcases h with h | h
      · exact h
      · exact absurd h.1 hs
    refine ⟨x, ?_, h1⟩
    have h2 := mt hs2.mpr hs
    unfold Fmt.IsNaN at h1
    unfold skel
    simp only [Nat.shiftRight_eq_div_pow, Nat.shiftLeft_eq]
    rw [if_neg (by omega), if_pos (by omega)]

namespace F32
/-- bits of `1` -/
theorem one_bits {x : BitVec f32.w} (hv : GFv f32 x 1) : x = 0x3f800000#f32.w := by
  obtain ⟨-, b2, -⟩ := Log.pos_bits hv one_pos
  have : f32.magVal ℚ 0x3f800000 = 1 := by decide +kernel
  rw [← f32.magVal_cast] at b2
  have b3 : (1 : ℚ) = f32.magVal ℚ x.toNat := by exact_mod_cast b2
  rw [← this, f32.magVal_inj] at b3
  exact BitVec.eq_of_toNat_eq b3.symm

/-- both zeros -/
theorem skel_zero (N : FPU f32) {main : Exp.F32.S → Int → M Exp.F32.S} {x : BitVec f32.w} (h : f32.mag x = 0) : ∃ r, skel N main x = .ok r ∧ f32.IsInf r ∧ f32.sign r = true := by
  have hm : GFv f32 Log.F32.mone (-1) := (GFv.const (q := -1) (by decide +kernel) (by decide +kernel)).cast (by norm_num)
  have hz := Log.div_zero_inf N h hm
  refine ⟨_, ?_, hz⟩
  have hxlt : x.toNat < 2 ^ 32 := x.isLt
  have hs2 : f32.sign x = true ↔ 2 ^ 32 ≤ 2 * x.toNat := by
    show x.msb = true ↔ _
    rw [BitVec.msb_eq_true_iff_two_mul_ge]; rfl
  have hmg : f32.mag x = x.toNat % 2 ^ 31 := rfl
  unfold skel
  simp only [Nat.shiftRight_eq_div_pow, Nat.shiftLeft_eq]
  rw [if_pos (by omega), if_pos (by omega)]

/-- negative numbers, `-∞`, NaN -/
theorem skel_nan (N : FPU f32) {main : Exp.F32.S → Int → M Exp.F32.S} {x : BitVec f32.w} (h : f32.IsNaN x ∨ (f32.sign x = true ∧ f32.mag x ≠ 0)) :
    ∃ r, skel N main x = .ok r ∧ f32.IsNaN r := by
  have hxlt : x.toNat < 2 ^ 32 := x.isLt
  have hs2 : f32.sign x = true ↔ 2 ^ 32 ≤ 2 * x.toNat := by
    show x.msb = true ↔ _
    rw [BitVec.msb_eq_true_iff_two_mul_ge]; rfl
  have hmg : f32.mag x = x.toNat % 2 ^ 31 := rfl
  have hinf : f32.infRep = 0x7f800000 := by decide +kernel
  by_cases hs : f32.sign x = true
  · refine ⟨_, ?_, Log.sub_div_nan N (x := x)⟩
    have h2 := hs2.mp hs
    have h3 : f32.mag x ≠ 0 := by
      rcases h with h | h
      · unfold Fmt.IsNaN at h; omega
      · exact h.2
    unfold skel
    simp only [Nat.shiftRight_eq_div_pow, Nat.shiftLeft_eq]
    rw [if_pos (by omega), if_neg (by omega), if_pos (by omega)]
  · have h1 : f32.IsNaN x := by
      rcases h with h | h
      · exact h
      · exact absurd h.1 hs
    refine ⟨x, ?_, h1⟩
    have h2 := mt hs2.mpr hs
    unfold Fmt.IsNaN at h1
    unfold skel
    simp only [Nat.shiftRight_eq_div_pow, Nat.shiftLeft_eq]
    rw [if_neg (by omega), if_pos (by omega)]

end F32
end Log2
end Verif
