import Verif.Libm.Log1pMain
import Verif.Libm.Log1pFMain
import Verif.Libm.LogSpec
/-! # Properties C85 and C86: `log1p` and `log1pf` -/
namespace Verif.Props
open Fmt

/-- C85: for every finite `x` above `-1`, `log1p` is finite, has the sign of `x`, and is within `2^-52` of the natural logarithm of `1 + x` relatively;
computing it does not panic. -/
theorem C85_log1p (N : FPU f64) {x : BitVec f64.w} (hx : f64.IsFin x) (h : -1 < f64.val x) :
    ∃ r, Log1p.log1p N x = .ok r ∧ f64.IsFin r ∧ f64.sign r = f64.sign x ∧
      |((f64.val r : ℚ) : ℝ) - Real.log (1 + ((f64.val x : ℚ) : ℝ))| ≤ 1 / 2 ^ 52 * |Real.log (1 + ((f64.val x : ℚ) : ℝ))| := by
  have hv : GFv f64 x ((f64.val x : ℚ) : ℝ) := ⟨hx, (f64.valK_cast x).symm⟩
  have h0 : (-1 : ℝ) < ((f64.val x : ℚ) : ℝ) := by exact_mod_cast h
  obtain ⟨r, h2, W, w1, w2⟩ := Log1p.log1p_spec N hv h0
  refine ⟨r, h2, w1.fin, ?_, by rw [w1.valQ]; exact w2⟩
  by_cases hz : f64.mag x = 0
  · have hxlt : x.toNat < 2 ^ 64 := x.isLt
    have e : Log1p.log1p N x = .ok x := by
      have hmg : f64.mag x = x.toNat % 2 ^ 63 := rfl
      unfold Log1p.log1p
      simp only [Nat.shiftRight_eq_div_pow, Nat.shiftLeft_eq]
      by_cases h3 : x.toNat = 0
      · rw [if_pos (by omega), if_neg (by omega), if_pos (by omega)]
      · rw [if_pos (by omega), if_neg (by omega), if_pos (by omega)]
    rw [e] at h2
    cases h2
    rfl
  · have hX0 : ((f64.val x : ℚ) : ℝ) ≠ 0 := by
      intro hc
      have := hv.abs_eq
      rw [hc, abs_zero, ← f64.magVal_cast] at this
      have h3 : f64.magVal ℚ (f64.mag x) = 0 := by exact_mod_cast this.symm
      rw [← f64.magVal_zero, f64.magVal_inj] at h3
      exact hz h3
    generalize ((f64.val x : ℚ) : ℝ) = X at *
    cases hs : f64.sign x
    · have hp : 0 < X := lt_of_le_of_ne (hv.nonneg hs) (Ne.symm hX0)
      have hl := Real.log_pos (show 1 < 1 + X by linarith)
      rw [abs_of_pos hl] at w2
      exact w1.sign_of_pos (by
        rw [abs_le] at w2
        norm_num at w2
        linarith [w2.1])
    · have hp : X < 0 := lt_of_le_of_ne (hv.nonpos hs) hX0
      have hl := Real.log_neg (show 0 < 1 + X by linarith) (show 1 + X < 1 by linarith)
      rw [abs_of_neg hl] at w2
      by_contra hc
      have := w1.nonneg (by simpa using hc)
      rw [abs_le] at w2
      norm_num at w2
      linarith [w2.2]

/-- C85: an argument below `2^-53` in magnitude is returned unchanged, also both zeros. -/
theorem C85_log1p_tiny (N : FPU f64) {x : BitVec f64.w} (h : |f64.val x| < 1 / 2 ^ 53) : Log1p.log1p N x = .ok x := by
  have hxlt : x.toNat < 2 ^ 64 := x.isLt
  have hmg : f64.mag x = x.toNat % 2 ^ 63 := rfl
  have hm : f64.mag x < 0x3ca0000000000000 := by
    have h1 : f64.magVal ℚ (0x3ca0000000000000) = 1 / 2 ^ 53 := by decide +kernel
    rw [← h1] at h
    have h2 := Rat.cast_lt (K := ℝ).mpr h
    rw [Rat.cast_abs, f64.valK_cast, f64.absvR, f64.magVal_cast, f64.magValR_lt_iff] at h2
    exact h2
  unfold Log1p.log1p
  simp only [Nat.shiftRight_eq_div_pow, Nat.shiftLeft_eq]
  by_cases h3 : x.toNat < 2 ^ 63
  · rw [if_pos (by omega), if_neg (by omega), if_pos (by omega)]
  · rw [if_pos (by omega), if_neg (by omega), if_pos (by omega)]

/-- C85: `log1p(-1)` is `-∞`. -/
theorem C85_log1p_neg_one (N : FPU f64) : ∃ r, Log1p.log1p N 0xbff0000000000000#f64.w = .ok r ∧ f64.IsInf r ∧ f64.sign r = true := by
  refine ⟨N.div 0xbff0000000000000#f64.w 0#f64.w, by unfold Log1p.log1p; rw [if_pos (by decide +kernel), if_pos (by decide +kernel), if_pos (by decide +kernel)], ?_⟩
  have := (N.div_spec 0xbff0000000000000#f64.w 0#f64.w).2.2 (by decide +kernel) (by decide +kernel) (Or.inr (Or.inr (by decide +kernel)))
  rw [if_neg (by decide +kernel), if_neg (by decide +kernel)] at this
  exact ⟨this.2, this.1.trans (by decide +kernel)⟩

/-- C85: of a number below `-1`, of `-∞` and of a NaN, `log1p` is a NaN. -/
theorem C85_log1p_nan (N : FPU f64) {x : BitVec f64.w} (h : f64.IsNaN x ∨ (f64.IsInf x ∧ f64.sign x = true) ∨ (f64.IsFin x ∧ f64.val x < -1)) :
    ∃ r, Log1p.log1p N x = .ok r ∧ f64.IsNaN r := by
  have hinf : f64.infRep = 0x7ff0000000000000 := by decide +kernel
  have hb := f64.toNat_eq x
  have he : 2 ^ (f64.e + f64.s) = 2 ^ 63 := rfl
  rw [he] at hb
  have hmlt : f64.mag x < 2 ^ 63 := Nat.mod_lt _ (by norm_num)
  by_cases hs : f64.sign x = true
  · have hm : 0x3ff0000000000000 < f64.mag x := by
      rcases h with h | h | h
      · unfold Fmt.IsNaN at h; omega
      · have := h.1; unfold Fmt.IsInf at this; omega
      · have h1 : f64.magVal ℚ (0x3ff0000000000000) = 1 := by decide +kernel
        have h2 : ((1 : ℚ) : ℝ) < |f64.valK ℝ x| := by
          rw [← f64.valK_cast, ← Rat.cast_abs, Rat.cast_lt]
          rw [abs_of_neg (by linarith [h.2])]; linarith [h.2]
        rw [f64.absvR, ← h1, f64.magVal_cast, f64.magValR_lt_iff] at h2
        exact h2
    rw [if_pos hs] at hb
    have hne : f64.feq x Log.mone = false := by
      have h1 : f64.smag Log.mone = -0x3ff0000000000000 := by decide +kernel
      have h2 : f64.smag x = -(f64.mag x : ℤ) := by unfold Fmt.smag; rw [hs]; rfl
      rw [← Bool.not_eq_true, f64.feq_iff, h1, h2]
      rintro ⟨-, -, hc⟩
      omega
    refine ⟨_, ?_, Log.sub_div_nan N (x := x)⟩
    unfold Log1p.log1p
    simp only [Nat.shiftRight_eq_div_pow, Nat.shiftLeft_eq]
    rw [if_pos (by omega), if_pos (by omega), if_neg (by rw [hne]; simp)]
  · have h1 : f64.IsNaN x := by
      rcases h with h | h | h
      · exact h
      · exact absurd h.2 hs
      · have hv : GFv f64 x ((f64.val x : ℚ) : ℝ) := ⟨h.1, (f64.valK_cast x).symm⟩
        have h2 := hv.nonneg (by simpa using hs)
        have h3 : (0 : ℚ) ≤ f64.val x := by exact_mod_cast h2
        linarith [h.2]
    refine ⟨x, ?_, h1⟩
    rw [if_neg hs] at hb
    unfold Fmt.IsNaN at h1
    unfold Log1p.log1p
    simp only [Nat.shiftRight_eq_div_pow, Nat.shiftLeft_eq]
    rw [if_neg (by omega), if_pos (by omega)]

/-- C85: `log1p(+∞)` is `+∞`. -/
theorem C85_log1p_inf (N : FPU f64) : Log1p.log1p N 0x7ff0000000000000#f64.w = .ok 0x7ff0000000000000#f64.w := by
  unfold Log1p.log1p; rw [if_neg (by decide +kernel), if_pos (by decide +kernel)]

/-- Concrete cases: `1`, `-1/2`, `10`, `0.1`, the successor of `-1`, the largest number, the least negative subnormal; `-1`, `-2`. -/
example : Log1p.log1p FPU.softF64 0x3ff0000000000000#64 = .ok 0x3fe62e42fefa39ef#64 ∧
    Log1p.log1p FPU.softF64 0xbfe0000000000000#64 = .ok 0xbfe62e42fefa39ef#64 ∧
    Log1p.log1p FPU.softF64 0x4024000000000000#64 = .ok 0x40032ee3b77f374c#64 ∧
    Log1p.log1p FPU.softF64 0x3fb999999999999a#64 = .ok 0x3fb8663f793c46c7#64 ∧
    Log1p.log1p FPU.softF64 0xbfefffffffffffff#64 = .ok 0xc0425e4f7b2737fa#64 ∧
    Log1p.log1p FPU.softF64 0x7fefffffffffffff#64 = .ok 0x40862e42fefa39ef#64 ∧
    Log1p.log1p FPU.softF64 0x8000000000000001#64 = .ok 0x8000000000000001#64 ∧
    Log1p.log1p FPU.softF64 0xbff0000000000000#64 = .ok 0xfff0000000000000#64 ∧
    Log1p.log1p FPU.softF64 0xc000000000000000#64 = .ok 0x7ff8000000000000#64 := by decide +kernel
example : f64.IsFin 0x3fb999999999999a#f64.w ∧ -1 < f64.val 0x3fb999999999999a#f64.w ∧ |f64.val 0x8000000000000001#f64.w| < 1 / 2 ^ 53 ∧
    f64.IsFin 0xc000000000000000#f64.w ∧ f64.val 0xc000000000000000#f64.w < -1 := by decide +kernel

/-- C86: for every finite `x` above `-1`, `log1pf` is finite, has the sign of `x`, and is within `2^-23` of the natural logarithm of `1 + x` relatively;
computing it does not panic. -/
theorem C86_log1pf (N : FPU f32) {x : BitVec f32.w} (hx : f32.IsFin x) (h : -1 < f32.val x) :
    ∃ r, Log1p.F32.log1pf N x = .ok r ∧ f32.IsFin r ∧ f32.sign r = f32.sign x ∧
      |((f32.val r : ℚ) : ℝ) - Real.log (1 + ((f32.val x : ℚ) : ℝ))| ≤ 1 / 2 ^ 23 * |Real.log (1 + ((f32.val x : ℚ) : ℝ))| := by
  have hv : GFv f32 x ((f32.val x : ℚ) : ℝ) := ⟨hx, (f32.valK_cast x).symm⟩
  have h0 : (-1 : ℝ) < ((f32.val x : ℚ) : ℝ) := by exact_mod_cast h
  obtain ⟨r, h2, W, w1, w2⟩ := Log1p.F32.log1pf_spec N hv h0
  refine ⟨r, h2, w1.fin, ?_, by rw [w1.valQ]; exact w2⟩
  by_cases hz : f32.mag x = 0
  · have hxlt : x.toNat < 2 ^ 32 := x.isLt
    have e : Log1p.F32.log1pf N x = .ok x := by
      have hmg : f32.mag x = x.toNat % 2 ^ 31 := rfl
      unfold Log1p.F32.log1pf
      simp only [Nat.shiftRight_eq_div_pow, Nat.shiftLeft_eq]
      by_cases h3 : x.toNat = 0
      · rw [if_pos (by omega), if_neg (by omega), if_pos (by omega)]
      · rw [if_pos (by omega), if_neg (by omega), if_pos (by omega)]
    rw [e] at h2
    cases h2
    rfl
  · have hX0 : ((f32.val x : ℚ) : ℝ) ≠ 0 := by
      intro hc
      have := hv.abs_eq
      rw [hc, abs_zero, ← f32.magVal_cast] at this
      have h3 : f32.magVal ℚ (f32.mag x) = 0 := by exact_mod_cast this.symm
      rw [← f32.magVal_zero, f32.magVal_inj] at h3
      exact hz h3
    generalize ((f32.val x : ℚ) : ℝ) = X at *
    cases hs : f32.sign x
    · have hp : 0 < X := lt_of_le_of_ne (hv.nonneg hs) (Ne.symm hX0)
      have hl := Real.log_pos (show 1 < 1 + X by linarith)
      rw [abs_of_pos hl] at w2
      exact w1.sign_of_pos (by
        rw [abs_le] at w2
        norm_num at w2
        linarith [w2.1])
    · have hp : X < 0 := lt_of_le_of_ne (hv.nonpos hs) hX0
      have hl := Real.log_neg (show 0 < 1 + X by linarith) (show 1 + X < 1 by linarith)
      rw [abs_of_neg hl] at w2
      by_contra hc
      have := w1.nonneg (by simpa using hc)
      rw [abs_le] at w2
      norm_num at w2
      linarith [w2.2]

/-- C86: an argument below `2^-24` in magnitude is returned unchanged, also both zeros. -/
theorem C86_log1pf_tiny (N : FPU f32) {x : BitVec f32.w} (h : |f32.val x| < 1 / 2 ^ 24) : Log1p.F32.log1pf N x = .ok x := by
  have hxlt : x.toNat < 2 ^ 32 := x.isLt
  have hmg : f32.mag x = x.toNat % 2 ^ 31 := rfl
  have hm : f32.mag x < 0x33800000 := by
    have h1 : f32.magVal ℚ (0x33800000) = 1 / 2 ^ 24 := by decide +kernel
    rw [← h1] at h
    have h2 := Rat.cast_lt (K := ℝ).mpr h
    rw [Rat.cast_abs, f32.valK_cast, f32.absvR, f32.magVal_cast, f32.magValR_lt_iff] at h2
    exact h2
  unfold Log1p.F32.log1pf
  simp only [Nat.shiftRight_eq_div_pow, Nat.shiftLeft_eq]
  by_cases h3 : x.toNat < 2 ^ 31
  · rw [if_pos (by omega), if_neg (by omega), if_pos (by omega)]
  · rw [if_pos (by omega), if_neg (by omega), if_pos (by omega)]

/-- C86: `log1pf(-1)` is `-∞`. -/
theorem C86_log1pf_neg_one (N : FPU f32) : ∃ r, Log1p.F32.log1pf N 0xbf800000#f32.w = .ok r ∧ f32.IsInf r ∧ f32.sign r = true := by
  refine ⟨N.div 0xbf800000#f32.w 0#f32.w, by unfold Log1p.F32.log1pf; rw [if_pos (by decide +kernel), if_pos (by decide +kernel), if_pos (by decide +kernel)], ?_⟩
  have := (N.div_spec 0xbf800000#f32.w 0#f32.w).2.2 (by decide +kernel) (by decide +kernel) (Or.inr (Or.inr (by decide +kernel)))
  rw [if_neg (by decide +kernel), if_neg (by decide +kernel)] at this
  exact ⟨this.2, this.1.trans (by decide +kernel)⟩

/-- C86: of a number below `-1`, of `-∞` and of a NaN, `log1pf` is a NaN. -/
theorem C86_log1pf_nan (N : FPU f32) {x : BitVec f32.w} (h : f32.IsNaN x ∨ (f32.IsInf x ∧ f32.sign x = true) ∨ (f32.IsFin x ∧ f32.val x < -1)) :
    ∃ r, Log1p.F32.log1pf N x = .ok r ∧ f32.IsNaN r := by
  have hinf : f32.infRep = 0x7f800000 := by decide +kernel
  have hb := f32.toNat_eq x
  have he : 2 ^ (f32.e + f32.s) = 2 ^ 31 := rfl
  rw [he] at hb
  have hmlt : f32.mag x < 2 ^ 31 := Nat.mod_lt _ (by norm_num)
  by_cases hs : f32.sign x = true
  · have hm : 0x3f800000 < f32.mag x := by
      rcases h with h | h | h
      · unfold Fmt.IsNaN at h; omega
      · have := h.1; unfold Fmt.IsInf at this; omega
      · have h1 : f32.magVal ℚ (0x3f800000) = 1 := by decide +kernel
        have h2 : ((1 : ℚ) : ℝ) < |f32.valK ℝ x| := by
          rw [← f32.valK_cast, ← Rat.cast_abs, Rat.cast_lt]
          rw [abs_of_neg (by linarith [h.2])]; linarith [h.2]
        rw [f32.absvR, ← h1, f32.magVal_cast, f32.magValR_lt_iff] at h2
        exact h2
    rw [if_pos hs] at hb
    have hne : f32.feq x Log.F32.mone = false := by
      have h1 : f32.smag Log.F32.mone = -0x3f800000 := by decide +kernel
      have h2 : f32.smag x = -(f32.mag x : ℤ) := by unfold Fmt.smag; rw [hs]; rfl
      rw [← Bool.not_eq_true, f32.feq_iff, h1, h2]
      rintro ⟨-, -, hc⟩
      omega
    refine ⟨_, ?_, Log.sub_div_nan N (x := x)⟩
    unfold Log1p.F32.log1pf
    simp only [Nat.shiftRight_eq_div_pow, Nat.shiftLeft_eq]
    rw [if_pos (by omega), if_pos (by omega), if_neg (by rw [hne]; simp)]
  · have h1 : f32.IsNaN x := by
      rcases h with h | h | h
      · exact h
      · exact absurd h.2 hs
      · have hv : GFv f32 x ((f32.val x : ℚ) : ℝ) := ⟨h.1, (f32.valK_cast x).symm⟩
        have h2 := hv.nonneg (by simpa using hs)
        have h3 : (0 : ℚ) ≤ f32.val x := by exact_mod_cast h2
        linarith [h.2]
    refine ⟨x, ?_, h1⟩
    rw [if_neg hs] at hb
    unfold Fmt.IsNaN at h1
    unfold Log1p.F32.log1pf
    simp only [Nat.shiftRight_eq_div_pow, Nat.shiftLeft_eq]
    rw [if_neg (by omega), if_pos (by omega)]

/-- C86: `log1pf(+∞)` is `+∞`. -/
theorem C86_log1pf_inf (N : FPU f32) : Log1p.F32.log1pf N 0x7f800000#f32.w = .ok 0x7f800000#f32.w := by
  unfold Log1p.F32.log1pf; rw [if_neg (by decide +kernel), if_pos (by decide +kernel)]


/-- Concrete cases: `1`, `-1/2`, `10`, `0.1`, the successor of `-1`, the largest number, the least negative subnormal; the argument `0xbe95f61a`, which is
reduced with `k = 0`; `-1`, `-2`. -/
example : Log1p.F32.log1pf FPU.softF32 0x3f800000#32 = .ok 0x3f317218#32 ∧
    Log1p.F32.log1pf FPU.softF32 0xbf000000#32 = .ok 0xbf317218#32 ∧
    Log1p.F32.log1pf FPU.softF32 0x41200000#32 = .ok 0x4019771e#32 ∧
    Log1p.F32.log1pf FPU.softF32 0x3dcccccd#32 = .ok 0x3dc331fc#32 ∧
    Log1p.F32.log1pf FPU.softF32 0xbf7fffff#32 = .ok 0xc1851592#32 ∧
    Log1p.F32.log1pf FPU.softF32 0x7f7fffff#32 = .ok 0x42b17218#32 ∧
    Log1p.F32.log1pf FPU.softF32 0x80000001#32 = .ok 0x80000001#32 ∧
    Log1p.F32.log1pf FPU.softF32 0xbe95f61a#32 = .ok 0xbeb17219#32 ∧
    Log1p.F32.log1pf FPU.softF32 0xbf800000#32 = .ok 0xff800000#32 ∧
    Log1p.F32.log1pf FPU.softF32 0xc0000000#32 = .ok 0x7fc00000#32 := by decide +kernel
example : f32.IsFin 0x3dcccccd#f32.w ∧ -1 < f32.val 0x3dcccccd#f32.w ∧ |f32.val 0x80000001#f32.w| < 1 / 2 ^ 24 ∧
    f32.IsFin 0xc0000000#f32.w ∧ f32.val 0xc0000000#f32.w < -1 := by decide +kernel

end Verif.Props
