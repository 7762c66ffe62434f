import Verif.Libm.Log2Spec
/-! # Properties C93 to C96: `log2`, `log2f`, `log10`, `log10f` -/
namespace Verif.Props
open Fmt

/-- C93: `log2` of every finite positive number `x` is finite and within `2^-52` of the logarithm of `x` to base 2 relatively; computing it does not panic. -/
theorem C93_log2 (N : FPU f64) {x : BitVec f64.w} (hx : f64.IsFin x) (h : 0 < f64.val x) :
    ∃ r, Log2.log2 N x = .ok r ∧ f64.IsFin r ∧
      |((f64.val r : ℚ) : ℝ) - Real.logb 2 ((f64.val x : ℚ) : ℝ)| ≤ 1 / 2 ^ 52 * |Real.logb 2 ((f64.val x : ℚ) : ℝ)| := by
  have hv : GFv f64 x ((f64.val x : ℚ) : ℝ) := ⟨hx, (f64.valK_cast x).symm⟩
  have h0 : (0 : ℝ) < ((f64.val x : ℚ) : ℝ) := by exact_mod_cast h
  by_cases h1 : ((f64.val x : ℚ) : ℝ) = 1
  · refine ⟨0#f64.w, ?_, by decide, ?_⟩
    · rw [h1] at hv
      rw [Log2.one_bits hv]
      rfl
    · rw [h1, show f64.val 0#f64.w = 0 by decide +kernel]; simp
  · obtain ⟨r, h2, ⟨W, w1, w2⟩, -⟩ := Log2.log2_spec N hv h0 h1
    refine ⟨r, h2, w1.fin, ?_⟩
    rw [w1.valQ]
    exact w2

/-- C93: `log2` is exact at powers of two, also below the normal range. -/
theorem C93_log2_pow (N : FPU f64) {x : BitVec f64.w} {k : ℤ} (hx : f64.IsFin x) (h : f64.val x = 2 ^ k) :
    ∃ r, Log2.log2 N x = .ok r ∧ f64.IsFin r ∧ f64.val r = k := by
  have hv : GFv f64 x (2 ^ k) := ⟨hx, by rw [← f64.valK_cast, h]; push_cast; rfl⟩
  by_cases h1 : (2 : ℝ) ^ k = 1
  · have hk : k = 0 := (Log2.pow_one (X := 1) (k := k) (m := 0) (by norm_num) (by norm_num) (by rw [h1]; norm_num)).2
    refine ⟨0#f64.w, ?_, by decide, ?_⟩
    · rw [h1] at hv
      rw [Log2.one_bits hv]
      rfl
    · rw [hk, show f64.val 0#f64.w = 0 by decide +kernel]; simp
  · obtain ⟨r, h2, -, h3⟩ := Log2.log2_spec N hv (by positivity) h1
    have g := h3 k rfl
    refine ⟨r, h2, g.fin, ?_⟩
    have := g.valQ
    exact_mod_cast this

/-- C93: `log2(1)` is `+0`. -/
theorem C93_log2_one (N : FPU f64) : Log2.log2 N 0x3ff0000000000000#f64.w = .ok 0#f64.w := rfl

/-- C93: `log2` of both zeros is `-∞`. -/
theorem C93_log2_zero (N : FPU f64) {x : BitVec f64.w} (h : f64.mag x = 0) : ∃ r, Log2.log2 N x = .ok r ∧ f64.IsInf r ∧ f64.sign r = true :=
  Log2.skel_zero N h

/-- C93: of a negative number, `-∞` or a NaN `log2` is a NaN. -/
theorem C93_log2_nan (N : FPU f64) {x : BitVec f64.w} (h : f64.IsNaN x ∨ (f64.sign x = true ∧ f64.mag x ≠ 0)) :
    ∃ r, Log2.log2 N x = .ok r ∧ f64.IsNaN r := Log2.skel_nan N h

/-- C93: `log2(+∞)` is `+∞`. -/
theorem C93_log2_inf (N : FPU f64) : Log2.log2 N 0x7ff0000000000000#f64.w = .ok 0x7ff0000000000000#f64.w := rfl

/-- Concrete cases: `2`, `1/2`, `10`, `100`, the successor of `1`, the least subnormal, the largest number, `-0`, `-1`. -/
example : Log2.log2 FPU.softF64 0x4000000000000000#64 = .ok 0x3ff0000000000000#64 ∧
    Log2.log2 FPU.softF64 0x3fe0000000000000#64 = .ok 0xbff0000000000000#64 ∧
    Log2.log2 FPU.softF64 0x4024000000000000#64 = .ok 0x400a934f0979a371#64 ∧
    Log2.log2 FPU.softF64 0x4059000000000000#64 = .ok 0x401a934f0979a371#64 ∧
    Log2.log2 FPU.softF64 0x3ff0000000000001#64 = .ok 0x3cb71547652b82fd#64 ∧
    Log2.log2 FPU.softF64 0x0000000000000001#64 = .ok 0xc090c80000000000#64 ∧
    Log2.log2 FPU.softF64 0x7fefffffffffffff#64 = .ok 0x4090000000000000#64 ∧
    Log2.log2 FPU.softF64 0x8000000000000000#64 = .ok 0xfff0000000000000#64 ∧
    Log2.log2 FPU.softF64 0xbff0000000000000#64 = .ok 0x7ff8000000000000#64 := by decide +kernel

/-- C94: `log2f` of every finite positive number `x` is finite and within `3 * 2^-24` of the logarithm of `x` to base 2 relatively; computing it does not panic. -/
theorem C94_log2f (N : FPU f32) {x : BitVec f32.w} (hx : f32.IsFin x) (h : 0 < f32.val x) :
    ∃ r, Log2.F32.log2f N x = .ok r ∧ f32.IsFin r ∧
      |((f32.val r : ℚ) : ℝ) - Real.logb 2 ((f32.val x : ℚ) : ℝ)| ≤ 3 / 2 ^ 24 * |Real.logb 2 ((f32.val x : ℚ) : ℝ)| := by
  have hv : GFv f32 x ((f32.val x : ℚ) : ℝ) := ⟨hx, (f32.valK_cast x).symm⟩
  have h0 : (0 : ℝ) < ((f32.val x : ℚ) : ℝ) := by exact_mod_cast h
  by_cases h1 : ((f32.val x : ℚ) : ℝ) = 1
  · refine ⟨0#f32.w, ?_, by decide, ?_⟩
    · rw [h1] at hv
      rw [Log2.F32.one_bits hv]
      rfl
    · rw [h1, show f32.val 0#f32.w = 0 by decide +kernel]; simp
  · obtain ⟨r, h2, ⟨W, w1, w2⟩, -⟩ := Log2.F32.log2f_spec N hv h0 h1
    refine ⟨r, h2, w1.fin, ?_⟩
    rw [w1.valQ]
    exact w2

/-- C94: `log2f` is exact at powers of two, also below the normal range. -/
theorem C94_log2f_pow (N : FPU f32) {x : BitVec f32.w} {k : ℤ} (hx : f32.IsFin x) (h : f32.val x = 2 ^ k) :
    ∃ r, Log2.F32.log2f N x = .ok r ∧ f32.IsFin r ∧ f32.val r = k := by
  have hv : GFv f32 x (2 ^ k) := ⟨hx, by rw [← f32.valK_cast, h]; push_cast; rfl⟩
  by_cases h1 : (2 : ℝ) ^ k = 1
  · have hk : k = 0 := (Log2.pow_one (X := 1) (k := k) (m := 0) (by norm_num) (by norm_num) (by rw [h1]; norm_num)).2
    refine ⟨0#f32.w, ?_, by decide, ?_⟩
    · rw [h1] at hv
      rw [Log2.F32.one_bits hv]
      rfl
    · rw [hk, show f32.val 0#f32.w = 0 by decide +kernel]; simp
  · obtain ⟨r, h2, -, h3⟩ := Log2.F32.log2f_spec N hv (by positivity) h1
    have g := h3 k rfl
    refine ⟨r, h2, g.fin, ?_⟩
    have := g.valQ
    exact_mod_cast this

/-- C94: `log2f(1)` is `+0`. -/
theorem C94_log2f_one (N : FPU f32) : Log2.F32.log2f N 0x3f800000#f32.w = .ok 0#f32.w := rfl

/-- C94: `log2f` of both zeros is `-∞`. -/
theorem C94_log2f_zero (N : FPU f32) {x : BitVec f32.w} (h : f32.mag x = 0) : ∃ r, Log2.F32.log2f N x = .ok r ∧ f32.IsInf r ∧ f32.sign r = true :=
  Log2.F32.skel_zero N h

/-- C94: of a negative number, `-∞` or a NaN `log2f` is a NaN. -/
theorem C94_log2f_nan (N : FPU f32) {x : BitVec f32.w} (h : f32.IsNaN x ∨ (f32.sign x = true ∧ f32.mag x ≠ 0)) :
    ∃ r, Log2.F32.log2f N x = .ok r ∧ f32.IsNaN r := Log2.F32.skel_nan N h

/-- C94: `log2f(+∞)` is `+∞`. -/
theorem C94_log2f_inf (N : FPU f32) : Log2.F32.log2f N 0x7f800000#f32.w = .ok 0x7f800000#f32.w := rfl

/-- Concrete cases: `2`, `1/2`, `10`, `100`, the successor of `1`, the least subnormal, the largest number, `-0`, `-1`. -/
example : Log2.F32.log2f FPU.softF32 0x40000000#32 = .ok 0x3f800000#32 ∧
    Log2.F32.log2f FPU.softF32 0x3f000000#32 = .ok 0xbf800000#32 ∧
    Log2.F32.log2f FPU.softF32 0x41200000#32 = .ok 0x40549a78#32 ∧
    Log2.F32.log2f FPU.softF32 0x42c80000#32 = .ok 0x40d49a78#32 ∧
    Log2.F32.log2f FPU.softF32 0x3f800001#32 = .ok 0x3438aa3a#32 ∧
    Log2.F32.log2f FPU.softF32 0x00000001#32 = .ok 0xc3150000#32 ∧
    Log2.F32.log2f FPU.softF32 0x7f7fffff#32 = .ok 0x43000000#32 ∧
    Log2.F32.log2f FPU.softF32 0x80000000#32 = .ok 0xff800000#32 ∧
    Log2.F32.log2f FPU.softF32 0xbf800000#32 = .ok 0x7fc00000#32 := by decide +kernel

/-- C95: `log10` of every finite positive number `x` is finite and within `2^-52` of the logarithm of `x` to base 10 relatively; computing it does not panic. -/
theorem C95_log10 (N : FPU f64) {x : BitVec f64.w} (hx : f64.IsFin x) (h : 0 < f64.val x) :
    ∃ r, Log2.log10 N x = .ok r ∧ f64.IsFin r ∧
      |((f64.val r : ℚ) : ℝ) - Real.logb 10 ((f64.val x : ℚ) : ℝ)| ≤ 1 / 2 ^ 52 * |Real.logb 10 ((f64.val x : ℚ) : ℝ)| := by
  have hv : GFv f64 x ((f64.val x : ℚ) : ℝ) := ⟨hx, (f64.valK_cast x).symm⟩
  have h0 : (0 : ℝ) < ((f64.val x : ℚ) : ℝ) := by exact_mod_cast h
  by_cases h1 : ((f64.val x : ℚ) : ℝ) = 1
  · refine ⟨0#f64.w, ?_, by decide, ?_⟩
    · rw [h1] at hv
      rw [Log2.one_bits hv]
      rfl
    · rw [h1, show f64.val 0#f64.w = 0 by decide +kernel]; simp
  · obtain ⟨r, h2, W, w1, w2⟩ := Log2.log10_spec N hv h0 h1
    refine ⟨r, h2, w1.fin, ?_⟩
    rw [w1.valQ]
    exact w2

/-- C95: `log10(1)` is `+0`. -/
theorem C95_log10_one (N : FPU f64) : Log2.log10 N 0x3ff0000000000000#f64.w = .ok 0#f64.w := rfl

/-- C95: `log10` of both zeros is `-∞`. -/
theorem C95_log10_zero (N : FPU f64) {x : BitVec f64.w} (h : f64.mag x = 0) : ∃ r, Log2.log10 N x = .ok r ∧ f64.IsInf r ∧ f64.sign r = true :=
  Log2.skel_zero N h

/-- C95: of a negative number, `-∞` or a NaN `log10` is a NaN. -/
theorem C95_log10_nan (N : FPU f64) {x : BitVec f64.w} (h : f64.IsNaN x ∨ (f64.sign x = true ∧ f64.mag x ≠ 0)) :
    ∃ r, Log2.log10 N x = .ok r ∧ f64.IsNaN r := Log2.skel_nan N h

/-- C95: `log10(+∞)` is `+∞`. -/
theorem C95_log10_inf (N : FPU f64) : Log2.log10 N 0x7ff0000000000000#f64.w = .ok 0x7ff0000000000000#f64.w := rfl

/-- Concrete cases: `2`, `1/2`, `10`, `100`, the successor of `1`, the least subnormal, the largest number, `-0`, `-1`. -/
example : Log2.log10 FPU.softF64 0x4000000000000000#64 = .ok 0x3fd34413509f79ff#64 ∧
    Log2.log10 FPU.softF64 0x3fe0000000000000#64 = .ok 0xbfd34413509f79ff#64 ∧
    Log2.log10 FPU.softF64 0x4024000000000000#64 = .ok 0x3ff0000000000000#64 ∧
    Log2.log10 FPU.softF64 0x4059000000000000#64 = .ok 0x4000000000000000#64 ∧
    Log2.log10 FPU.softF64 0x3ff0000000000001#64 = .ok 0x3c9bcb7b1526e50d#64 ∧
    Log2.log10 FPU.softF64 0x0000000000000001#64 = .ok 0xc07434e6420f4374#64 ∧
    Log2.log10 FPU.softF64 0x7fefffffffffffff#64 = .ok 0x40734413509f79ff#64 ∧
    Log2.log10 FPU.softF64 0x8000000000000000#64 = .ok 0xfff0000000000000#64 ∧
    Log2.log10 FPU.softF64 0xbff0000000000000#64 = .ok 0x7ff8000000000000#64 := by decide +kernel

/-- C96: `log10f` of every finite positive number `x` is finite and within `3 * 2^-24` of the logarithm of `x` to base 10 relatively; computing it does not panic. -/
theorem C96_log10f (N : FPU f32) {x : BitVec f32.w} (hx : f32.IsFin x) (h : 0 < f32.val x) :
    ∃ r, Log2.F32.log10f N x = .ok r ∧ f32.IsFin r ∧
      |((f32.val r : ℚ) : ℝ) - Real.logb 10 ((f32.val x : ℚ) : ℝ)| ≤ 3 / 2 ^ 24 * |Real.logb 10 ((f32.val x : ℚ) : ℝ)| := by
  have hv : GFv f32 x ((f32.val x : ℚ) : ℝ) := ⟨hx, (f32.valK_cast x).symm⟩
  have h0 : (0 : ℝ) < ((f32.val x : ℚ) : ℝ) := by exact_mod_cast h
  by_cases h1 : ((f32.val x : ℚ) : ℝ) = 1
  · refine ⟨0#f32.w, ?_, by decide, ?_⟩
    · rw [h1] at hv
      rw [Log2.F32.one_bits hv]
      rfl
    · rw [h1, show f32.val 0#f32.w = 0 by decide +kernel]; simp
  · obtain ⟨r, h2, W, w1, w2⟩ := Log2.F32.log10f_spec N hv h0 h1
    refine ⟨r, h2, w1.fin, ?_⟩
    rw [w1.valQ]
    exact w2

/-- C96: `log10f(1)` is `+0`. -/
theorem C96_log10f_one (N : FPU f32) : Log2.F32.log10f N 0x3f800000#f32.w = .ok 0#f32.w := rfl

/-- C96: `log10f` of both zeros is `-∞`. -/
theorem C96_log10f_zero (N : FPU f32) {x : BitVec f32.w} (h : f32.mag x = 0) : ∃ r, Log2.F32.log10f N x = .ok r ∧ f32.IsInf r ∧ f32.sign r = true :=
  Log2.F32.skel_zero N h

/-- C96: of a negative number, `-∞` or a NaN `log10f` is a NaN. -/
theorem C96_log10f_nan (N : FPU f32) {x : BitVec f32.w} (h : f32.IsNaN x ∨ (f32.sign x = true ∧ f32.mag x ≠ 0)) :
    ∃ r, Log2.F32.log10f N x = .ok r ∧ f32.IsNaN r := Log2.F32.skel_nan N h

/-- C96: `log10f(+∞)` is `+∞`. -/
theorem C96_log10f_inf (N : FPU f32) : Log2.F32.log10f N 0x7f800000#f32.w = .ok 0x7f800000#f32.w := rfl

/-- Concrete cases: `2`, `1/2`, `10`, `100`, the successor of `1`, the least subnormal, the largest number, `-0`, `-1`. -/
example : Log2.F32.log10f FPU.softF32 0x40000000#32 = .ok 0x3e9a209b#32 ∧
    Log2.F32.log10f FPU.softF32 0x3f000000#32 = .ok 0xbe9a209b#32 ∧
    Log2.F32.log10f FPU.softF32 0x41200000#32 = .ok 0x3f800000#32 ∧
    Log2.F32.log10f FPU.softF32 0x42c80000#32 = .ok 0x40000000#32 ∧
    Log2.F32.log10f FPU.softF32 0x3f800001#32 = .ok 0x335e5bd8#32 ∧
    Log2.F32.log10f FPU.softF32 0x00000001#32 = .ok 0xc23369f4#32 ∧
    Log2.F32.log10f FPU.softF32 0x7f7fffff#32 = .ok 0x421a209b#32 ∧
    Log2.F32.log10f FPU.softF32 0x80000000#32 = .ok 0xff800000#32 ∧
    Log2.F32.log10f FPU.softF32 0xbf800000#32 = .ok 0x7fc00000#32 := by decide +kernel

/-- The hypotheses are met. -/
example : f64.IsFin 0x4024000000000000#f64.w ∧ 0 < f64.val 0x4024000000000000#f64.w ∧ f64.mag 0x8000000000000000#f64.w = 0 ∧
    f64.sign 0xbff0000000000000#f64.w = true ∧ f64.mag 0xbff0000000000000#f64.w ≠ 0 ∧ f64.val 0x1#f64.w = 2 ^ (-1074 : ℤ) := by decide +kernel
example : f32.IsFin 0x41200000#f32.w ∧ 0 < f32.val 0x41200000#f32.w ∧ f32.mag 0x80000000#f32.w = 0 ∧
    f32.sign 0xbf800000#f32.w = true ∧ f32.mag 0xbf800000#f32.w ≠ 0 ∧ f32.val 0x1#f32.w = 2 ^ (-149 : ℤ) := by decide +kernel

end Verif.Props
