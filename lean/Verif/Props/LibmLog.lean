import Verif.Libm.LogMain
import Verif.Libm.LogFMain
import Verif.Libm.LogSpec
/-! # Properties C66 and C67: `log` and `logf` -/
namespace Verif.Props
open Fmt

/-- C66: `log` of every finite positive number `x` is finite and within `2^-52` of the natural logarithm of `x` relatively; computing it does not panic. -/
theorem C66_log (N : FPU f64) {x : BitVec f64.w} (hx : f64.IsFin x) (h : 0 < f64.val x) :
    ∃ r, Log.log N x = .ok r ∧ f64.IsFin r ∧
      |((f64.val r : ℚ) : ℝ) - Real.log ((f64.val x : ℚ) : ℝ)| ≤ 1 / 2 ^ 52 * |Real.log ((f64.val x : ℚ) : ℝ)| := by
  have hv : GFv f64 x ((f64.val x : ℚ) : ℝ) := ⟨hx, (f64.valK_cast x).symm⟩
  have h0 : (0 : ℝ) < ((f64.val x : ℚ) : ℝ) := by exact_mod_cast h
  by_cases h1 : ((f64.val x : ℚ) : ℝ) = 1
  · obtain ⟨-, b2, -⟩ := Log.pos_bits hv h0
    have e : x.toNat = 0x3ff0000000000000 := by
      have : f64.magVal ℚ 0x3ff0000000000000 = 1 := by decide +kernel
      rw [h1, ← f64.magVal_cast] at b2
      have b3 : (1 : ℚ) = f64.magVal ℚ x.toNat := by exact_mod_cast b2
      rw [← this, f64.magVal_inj] at b3
      exact b3.symm
    refine ⟨0#f64.w, ?_, by decide, ?_⟩
    · unfold Log.log
      simp only [e]
      rfl
    · rw [h1, show f64.val 0#f64.w = 0 by decide +kernel]; simp
  · obtain ⟨r, h2, W, w1, w2⟩ := Log.log_spec N hv h0 h1
    refine ⟨r, h2, w1.fin, ?_⟩
    rw [w1.valQ]
    exact w2

/-- C66: `log(1)` is `+0`. -/
theorem C66_log_one (N : FPU f64) : Log.log N 0x3ff0000000000000#f64.w = .ok 0#f64.w := rfl

/-- C66: `log` of both zeros is `-∞`. -/
theorem C66_log_zero (N : FPU f64) {x : BitVec f64.w} (h : f64.mag x = 0) : ∃ r, Log.log N x = .ok r ∧ f64.IsInf r ∧ f64.sign r = true := by
  have hm : GFv f64 Log.mone (-1) := (GFv.const (q := -1) (by decide +kernel) (by decide +kernel)).cast (by norm_num)
  have hz := Log.div_zero_inf N h hm
  refine ⟨_, ?_, hz⟩
  have hxlt : x.toNat < 2 ^ 64 := x.isLt
  have hs2 : f64.sign x = true ↔ 2 ^ 64 ≤ 2 * x.toNat := by
    show x.msb = true ↔ _
    rw [BitVec.msb_eq_true_iff_two_mul_ge]; rfl
  have hmg : f64.mag x = x.toNat % 2 ^ 63 := rfl
  unfold Log.log
  simp only [Nat.shiftRight_eq_div_pow, Nat.shiftLeft_eq]
  rw [if_pos (by omega), if_pos (by omega)]

/-- C66: of a negative number, `-∞` or a NaN `log` is a NaN. -/
theorem C66_log_nan (N : FPU f64) {x : BitVec f64.w} (h : f64.IsNaN x ∨ (f64.sign x = true ∧ f64.mag x ≠ 0)) :
    ∃ r, Log.log N x = .ok r ∧ f64.IsNaN r := by
  have hxlt : x.toNat < 2 ^ 64 := x.isLt
  have hs2 : f64.sign x = true ↔ 2 ^ 64 ≤ 2 * x.toNat := by
    show x.msb = true ↔ _
    rw [BitVec.msb_eq_true_iff_two_mul_ge]; rfl
  have hmg : f64.mag x = x.toNat % 2 ^ 63 := rfl
  have hinf : f64.infRep = 0x7ff0000000000000 := by decide +kernel
  by_cases hs : f64.sign x = true
  · refine ⟨_, ?_, Log.sub_div_nan N (x := x)⟩
    have h2 := hs2.mp hs
    have h3 : f64.mag x ≠ 0 := by
      rcases h with h | h
      · unfold Fmt.IsNaN at h; omega
      · exact h.2
    unfold Log.log
    simp only [Nat.shiftRight_eq_div_pow, Nat.shiftLeft_eq]
    rw [if_pos (by omega), if_neg (by omega), if_pos (by omega)]
  · have h1 : f64.IsNaN x := by
      rcases h with h | h
      · exact h
      · exact absurd h.1 hs
    refine ⟨x, ?_, h1⟩
    have h2 := mt hs2.mpr hs
    unfold Fmt.IsNaN at h1
    unfold Log.log
    simp only [Nat.shiftRight_eq_div_pow, Nat.shiftLeft_eq]
    rw [if_neg (by omega), if_pos (by omega)]

/-- C66: `log(+∞)` is `+∞`. -/
theorem C66_log_inf (N : FPU f64) : Log.log N 0x7ff0000000000000#f64.w = .ok 0x7ff0000000000000#f64.w := rfl

/-- Concrete cases: `2`, `1/2`, `10`, the successor of `1`, the least subnormal, the largest number; `-0`, `-1`, `-∞`. -/
example : Log.log FPU.softF64 0x4000000000000000#64 = .ok 0x3fe62e42fefa39ef#64 ∧
    Log.log FPU.softF64 0x3fe0000000000000#64 = .ok 0xbfe62e42fefa39ef#64 ∧
    Log.log FPU.softF64 0x4024000000000000#64 = .ok 0x40026bb1bbb55516#64 ∧
    Log.log FPU.softF64 0x3ff0000000000001#64 = .ok 0x3cafffffffffffff#64 ∧
    Log.log FPU.softF64 0x0000000000000001#64 = .ok 0xc0874385446d71c3#64 ∧
    Log.log FPU.softF64 0x7fefffffffffffff#64 = .ok 0x40862e42fefa39ef#64 ∧
    Log.log FPU.softF64 0x8000000000000000#64 = .ok 0xfff0000000000000#64 ∧
    Log.log FPU.softF64 0xbff0000000000000#64 = .ok 0x7ff8000000000000#64 ∧
    Log.log FPU.softF64 0xfff0000000000000#64 = .ok 0x7ff8000000000000#64 := by decide +kernel
example : f64.IsFin 0x4024000000000000#f64.w ∧ 0 < f64.val 0x4024000000000000#f64.w ∧ f64.mag 0x8000000000000000#f64.w = 0 ∧
    f64.sign 0xbff0000000000000#f64.w = true ∧ f64.mag 0xbff0000000000000#f64.w ≠ 0 := by decide +kernel

/-- C67: `logf` of every finite positive number `x` is finite and within `2^-23` of the natural logarithm of `x` relatively; computing it does not panic. -/
theorem C67_logf (N : FPU f32) {x : BitVec f32.w} (hx : f32.IsFin x) (h : 0 < f32.val x) :
    ∃ r, Log.F32.logf N x = .ok r ∧ f32.IsFin r ∧
      |((f32.val r : ℚ) : ℝ) - Real.log ((f32.val x : ℚ) : ℝ)| ≤ 1 / 2 ^ 23 * |Real.log ((f32.val x : ℚ) : ℝ)| := by
  have hv : GFv f32 x ((f32.val x : ℚ) : ℝ) := ⟨hx, (f32.valK_cast x).symm⟩
  have h0 : (0 : ℝ) < ((f32.val x : ℚ) : ℝ) := by exact_mod_cast h
  by_cases h1 : ((f32.val x : ℚ) : ℝ) = 1
  · obtain ⟨-, b2, -⟩ := Log.pos_bits hv h0
    have e : x.toNat = 0x3f800000 := by
      have : f32.magVal ℚ 0x3f800000 = 1 := by decide +kernel
      rw [h1, ← f32.magVal_cast] at b2
      have b3 : (1 : ℚ) = f32.magVal ℚ x.toNat := by exact_mod_cast b2
      rw [← this, f32.magVal_inj] at b3
      exact b3.symm
    refine ⟨0#f32.w, ?_, by decide, ?_⟩
    · unfold Log.F32.logf
      simp only [e]
      rfl
    · rw [h1, show f32.val 0#f32.w = 0 by decide +kernel]; simp
  · obtain ⟨r, h2, W, w1, w2⟩ := Log.F32.logf_spec N hv h0 h1
    refine ⟨r, h2, w1.fin, ?_⟩
    rw [w1.valQ]
    exact w2

/-- C67: `logf(1)` is `+0`. -/
theorem C67_logf_one (N : FPU f32) : Log.F32.logf N 0x3f800000#f32.w = .ok 0#f32.w := rfl

/-- C67: `logf` of both zeros is `-∞`. -/
theorem C67_logf_zero (N : FPU f32) {x : BitVec f32.w} (h : f32.mag x = 0) : ∃ r, Log.F32.logf N x = .ok r ∧ f32.IsInf r ∧ f32.sign r = true := by
  have hm : GFv f32 Log.F32.mone (-1) := (GFv.const (q := -1) (by decide +kernel) (by decide +kernel)).cast (by norm_num)
  have hz := Log.div_zero_inf N h hm
  refine ⟨_, ?_, hz⟩
  have hxlt : x.toNat < 2 ^ 32 := x.isLt
  have hs2 : f32.sign x = true ↔ 2 ^ 32 ≤ 2 * x.toNat := by
    show x.msb = true ↔ _
    rw [BitVec.msb_eq_true_iff_two_mul_ge]; rfl
  have hmg : f32.mag x = x.toNat % 2 ^ 31 := rfl
  unfold Log.F32.logf
  simp only [Nat.shiftRight_eq_div_pow, Nat.shiftLeft_eq]
  rw [if_pos (by omega), if_pos (by omega)]

/-- C67: of a negative number, `-∞` or a NaN `logf` is a NaN. -/
theorem C67_logf_nan (N : FPU f32) {x : BitVec f32.w} (h : f32.IsNaN x ∨ (f32.sign x = true ∧ f32.mag x ≠ 0)) :
    ∃ r, Log.F32.logf N x = .ok r ∧ f32.IsNaN r := by
  have hxlt : x.toNat < 2 ^ 32 := x.isLt
  have hs2 : f32.sign x = true ↔ 2 ^ 32 ≤ 2 * x.toNat := by
    show x.msb = true ↔ _
    rw [BitVec.msb_eq_true_iff_two_mul_ge]; rfl
  have hmg : f32.mag x = x.toNat % 2 ^ 31 := rfl
  have hinf : f32.infRep = 0x7f800000 := by decide +kernel
  by_cases hs : f32.sign x = true
  · refine ⟨_, ?_, Log.sub_div_nan N (x := x)⟩
    have h2 := hs2.mp hs
    have h3 : f32.mag x ≠ 0 := by
      rcases h with h | h
      · unfold Fmt.IsNaN at h; omega
      · exact h.2
    unfold Log.F32.logf
    simp only [Nat.shiftRight_eq_div_pow, Nat.shiftLeft_eq]
    rw [if_pos (by omega), if_neg (by omega), if_pos (by omega)]
  · have h1 : f32.IsNaN x := by
      rcases h with h | h
      · exact h
      · exact absurd h.1 hs
    refine ⟨x, ?_, h1⟩
    have h2 := mt hs2.mpr hs
    unfold Fmt.IsNaN at h1
    unfold Log.F32.logf
    simp only [Nat.shiftRight_eq_div_pow, Nat.shiftLeft_eq]
    rw [if_neg (by omega), if_pos (by omega)]

/-- C67: `logf(+∞)` is `+∞`. -/
theorem C67_logf_inf (N : FPU f32) : Log.F32.logf N 0x7f800000#f32.w = .ok 0x7f800000#f32.w := rfl

/-- Concrete cases: `2`, `1/2`, `10`, the successor of `1`, the least subnormal, the largest number. -/
example : Log.F32.logf FPU.softF32 0x40000000#32 = .ok 0x3f317218#32 ∧
    Log.F32.logf FPU.softF32 0x3f000000#32 = .ok 0xbf317218#32 ∧
    Log.F32.logf FPU.softF32 0x41200000#32 = .ok 0x40135d8e#32 ∧
    Log.F32.logf FPU.softF32 0x3f800001#32 = .ok 0x33ffffff#32 ∧
    Log.F32.logf FPU.softF32 0x00000001#32 = .ok 0xc2ce8ed0#32 ∧
    Log.F32.logf FPU.softF32 0x7f7fffff#32 = .ok 0x42b17218#32 := by decide +kernel
example : f32.IsFin 0x41200000#f32.w ∧ 0 < f32.val 0x41200000#f32.w ∧ f32.mag 0x80000000#f32.w = 0 ∧
    f32.sign 0xbf800000#f32.w = true ∧ f32.mag 0xbf800000#f32.w ≠ 0 := by decide +kernel

end Verif.Props
