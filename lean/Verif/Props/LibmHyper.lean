import Verif.Libm.HyperMain
import Verif.Libm.HyperFMain
/-! # Properties C79 to C84: the hyperbolic functions -/
namespace Verif.Props
open Fmt

/-- the hyperbolic sine against the cosine -/
theorem sinh_le_cosh (X : ℝ) : |Real.sinh X| ≤ Real.cosh X := by
  rw [abs_le, Real.sinh_eq, Real.cosh_eq]
  have h1 := Real.exp_pos X
  have h2 := Real.exp_pos (-X)
  constructor <;> linarith

/-- the sign of an accurate result -/
theorem sinh_sign {F : Fmt} {x z : BitVec F.w} {X V : ℝ} (hx : GFv F x X) (hV : GFv F z V) (e : |V - Real.sinh X| ≤ 1 / 2 * |Real.sinh X|) (h0 : X = 0 → z = x) :
    F.sign z = F.sign x := by
  rcases lt_trichotomy X 0 with hX | hX | hX
  · have h1 : F.sign x = true := by
      by_contra hc
      have := hx.nonneg (by simpa using hc); linarith
    have h2 := Real.sinh_neg_iff.mpr hX
    rw [abs_of_neg h2] at e
    have h3 : V < 0 := by linarith [(abs_le.mp e).2]
    rw [h1]
    by_contra hc
    have := hV.nonneg (by simpa using hc); linarith
  · rw [h0 hX]
  · have h2 := Real.sinh_pos_iff.mpr hX
    rw [abs_of_pos h2] at e
    rw [hV.sign_of_pos (by linarith [(abs_le.mp e).1]), hx.sign_of_pos hX]

/-- C79: if `cosh x` is below `2^1024`, `cosh` of a finite `x` is finite, not below `1`, and within `1.6 * 2^-52` of the hyperbolic cosine relatively;
computing it does not panic. -/
theorem C79_cosh (N : FPU f64) {x : BitVec f64.w} (hx : f64.IsFin x) (h : Real.cosh ((f64.val x : ℚ) : ℝ) < 2 ^ (1024 : ℤ)) :
    ∃ r, Hyper.cosh N x = .ok r ∧ f64.IsFin r ∧ 1 ≤ f64.val r ∧
      |((f64.val r : ℚ) : ℝ) - Real.cosh ((f64.val x : ℚ) : ℝ)| ≤ 1.6 / 2 ^ 52 * Real.cosh ((f64.val x : ℚ) : ℝ) := by
  have hv : GFv f64 x ((f64.val x : ℚ) : ℝ) := ⟨hx, (f64.valK_cast x).symm⟩
  have h1 : |((f64.val x : ℚ) : ℝ)| ≤ (f64.val Hyper.LIM : ℚ) := by
    by_contra hc
    exact absurd (Hyper.cosh_big N hv (not_le.mp hc)).2 (not_le.mpr h)
  obtain ⟨r, h2, V, hV, e, g⟩ := Hyper.cosh_fin N hv h1
  have hc : ((f64.val r : ℚ) : ℝ) = V := by rw [f64.valK_cast r, hV.val]
  refine ⟨r, h2, hV.fin, ?_, ?_⟩
  · rw [← hc] at g; exact_mod_cast g
  · rw [hc]
    refine e.trans (le_of_eq ?_)
    rw [Expm1.s64]; norm_num

/-- C79: `cosh` of a finite number is `+∞` if the hyperbolic cosine is `2^1024` or more. -/
theorem C79_cosh_overflow (N : FPU f64) {x : BitVec f64.w} (hx : f64.IsFin x) (h : 2 ^ (1024 : ℤ) ≤ Real.cosh ((f64.val x : ℚ) : ℝ)) :
    ∃ r, Hyper.cosh N x = .ok r ∧ f64.IsInf r ∧ f64.sign r = false := by
  have hv : GFv f64 x ((f64.val x : ℚ) : ℝ) := ⟨hx, (f64.valK_cast x).symm⟩
  refine (Hyper.cosh_big N hv ?_).1
  by_contra hc
  exact absurd h (not_le.mpr (Hyper.cosh_lim (not_lt.mp hc)))

/-- C79: a NaN gives a NaN, and both infinities give `+∞`. -/
theorem C79_cosh_special (N : FPU f64) (x : BitVec f64.w) :
    (f64.IsNaN x → ∃ r, Hyper.cosh N x = .ok r ∧ f64.IsNaN r) ∧ (f64.IsInf x → ∃ r, Hyper.cosh N x = .ok r ∧ f64.IsInf r ∧ f64.sign r = false) :=
  Hyper.cosh_special N x

/-- Concrete cases: `1`, `-2`, `1/4`, `2^-10`, minus the largest number without overflow, the next number, a tiny number, `20`. -/
example : Hyper.cosh FPU.softF64 0x3ff0000000000000#64 = .ok 0x3ff8b07551d9f551#64 ∧
    Hyper.cosh FPU.softF64 0xc000000000000000#64 = .ok 0x400e18fa0df2d9bc#64 ∧
    Hyper.cosh FPU.softF64 0x3fd0000000000000#64 = .ok 0x3ff080ab05ca6146#64 ∧
    Hyper.cosh FPU.softF64 0x3f50000000000000#64 = .ok 0x3ff00000800000ab#64 ∧
    Hyper.cosh FPU.softF64 0xc08633ce8fb9f87d#64 = .ok 0x7feffffffffffd3b#64 ∧
    Hyper.cosh FPU.softF64 0x408633ce8fb9f87e#64 = .ok 0x7ff0000000000000#64 ∧
    Hyper.cosh FPU.softF64 0x3e40000000000000#64 = .ok 0x3ff0000000000000#64 ∧
    Hyper.cosh FPU.softF64 0x4034000000000000#64 = .ok 0x41aceb088b68e804#64 := by decide +kernel
example : f64.IsFin 0x3ff0000000000000#f64.w ∧ Real.cosh ((f64.val 0x3ff0000000000000#f64.w : ℚ) : ℝ) < 2 ^ (1024 : ℤ) := by
  refine ⟨by decide, Hyper.cosh_lim ?_⟩
  rw [show f64.val 0x3ff0000000000000#f64.w = 1 by decide +kernel, Rat.cast_one, abs_one]
  have := Hyper.lim_small.1
  linarith
example : f64.IsFin 0x4090000000000000#f64.w ∧ 2 ^ (1024 : ℤ) ≤ Real.cosh ((f64.val 0x4090000000000000#f64.w : ℚ) : ℝ) := by
  refine ⟨by decide, (Hyper.cosh_big FPU.softF64 ⟨by decide, (f64.valK_cast _).symm⟩ ?_).2⟩
  rw [show f64.val 0x4090000000000000#f64.w = 1024 by decide +kernel]
  have := Hyper.lim_small.2
  refine lt_of_le_of_lt this ?_
  norm_num

/-- C81: if `|sinh x|` is below `2^1024`, `sinh` of a finite `x` is finite, has the sign bit of `x`, and is within `2.25 * 2^-52` of the hyperbolic sine relatively;
computing it does not panic. -/
theorem C81_sinh (N : FPU f64) {x : BitVec f64.w} (hx : f64.IsFin x) (h : |Real.sinh ((f64.val x : ℚ) : ℝ)| < 2 ^ (1024 : ℤ)) :
    ∃ r, Hyper.sinh N x = .ok r ∧ f64.IsFin r ∧ f64.sign r = f64.sign x ∧
      |((f64.val r : ℚ) : ℝ) - Real.sinh ((f64.val x : ℚ) : ℝ)| ≤ 2.25 / 2 ^ 52 * |Real.sinh ((f64.val x : ℚ) : ℝ)| := by
  have hv : GFv f64 x ((f64.val x : ℚ) : ℝ) := ⟨hx, (f64.valK_cast x).symm⟩
  have h1 : |((f64.val x : ℚ) : ℝ)| ≤ (f64.val Hyper.LIM : ℚ) := by
    by_contra hc
    exact absurd (Hyper.sinh_big N hv (not_le.mp hc)).2 (not_le.mpr h)
  obtain ⟨r, h2, V, hV, e, g⟩ := Hyper.sinh_fin N hv h1
  have hc : ((f64.val r : ℚ) : ℝ) = V := by rw [f64.valK_cast r, hV.val]
  refine ⟨r, h2, hV.fin, sinh_sign hv hV (e.trans (mul_le_mul_of_nonneg_right (by rw [Expm1.s64]; norm_num) (abs_nonneg _))) g, ?_⟩
  rw [hc]
  refine e.trans (le_of_eq ?_)
  rw [Expm1.s64]; norm_num

/-- C81: `sinh` of a finite number is the infinity with its sign if `|sinh x|` is `2^1024` or more. -/
theorem C81_sinh_overflow (N : FPU f64) {x : BitVec f64.w} (hx : f64.IsFin x) (h : 2 ^ (1024 : ℤ) ≤ |Real.sinh ((f64.val x : ℚ) : ℝ)|) :
    ∃ r, Hyper.sinh N x = .ok r ∧ f64.IsInf r ∧ f64.sign r = f64.sign x := by
  have hv : GFv f64 x ((f64.val x : ℚ) : ℝ) := ⟨hx, (f64.valK_cast x).symm⟩
  refine (Hyper.sinh_big N hv ?_).1
  by_contra hc
  exact absurd (h.trans (sinh_le_cosh _)) (not_le.mpr (Hyper.cosh_lim (not_lt.mp hc)))

/-- C81: a NaN gives a NaN, and an infinity gives itself. -/
theorem C81_sinh_special (N : FPU f64) (x : BitVec f64.w) :
    (f64.IsNaN x → ∃ r, Hyper.sinh N x = .ok r ∧ f64.IsNaN r) ∧ (f64.IsInf x → Hyper.sinh N x = .ok x) := by
  refine ⟨(Hyper.sinh_special N x).1, fun h => ?_⟩
  obtain ⟨r, h1, h2, h3⟩ := (Hyper.sinh_special N x).2 h
  rw [h1, f64.ext_sign_mag h3 (h2.trans h.symm)]

/-- C81: both zeros are returned as they are. -/
theorem C81_sinh_zero (N : FPU f64) {x : BitVec f64.w} (h : f64.mag x = 0) : Hyper.sinh N x = .ok x := by
  have hx : f64.IsFin x := by unfold Fmt.IsFin; rw [h]; decide
  have hv0 : GFv f64 x 0 := by
    refine ⟨hx, ?_⟩
    unfold Fmt.valK; rw [h, ← f64.magVal_cast, f64.magVal_zero]; simp
  obtain ⟨r, h2, V, -, -, h4⟩ := Hyper.sinh_fin N hv0 (by rw [abs_zero]; have := Hyper.lim_small.1; linarith)
  rw [h2, h4 rfl]

/-- Concrete cases: `1`, `-2`, `1/4`, `2^-10`, minus the largest number without overflow, the next number, a tiny number, `20`. -/
example : Hyper.sinh FPU.softF64 0x3ff0000000000000#64 = .ok 0x3ff2cd9fc44eb982#64 ∧
    Hyper.sinh FPU.softF64 0xc000000000000000#64 = .ok 0xc00d03cf63b6e1a0#64 ∧
    Hyper.sinh FPU.softF64 0x3fd0000000000000#64 = .ok 0x3fd02accd9d08102#64 ∧
    Hyper.sinh FPU.softF64 0x3f50000000000000#64 = .ok 0x3f5000002aaaaacc#64 ∧
    Hyper.sinh FPU.softF64 0xc08633ce8fb9f87d#64 = .ok 0xffeffffffffffd3b#64 ∧
    Hyper.sinh FPU.softF64 0x408633ce8fb9f87e#64 = .ok 0x7ff0000000000000#64 ∧
    Hyper.sinh FPU.softF64 0x3e40000000000000#64 = .ok 0x3e40000000000000#64 ∧
    Hyper.sinh FPU.softF64 0x4034000000000000#64 = .ok 0x41aceb088b68e804#64 := by decide +kernel
example : f64.IsFin 0x3ff0000000000000#f64.w ∧ |Real.sinh ((f64.val 0x3ff0000000000000#f64.w : ℚ) : ℝ)| < 2 ^ (1024 : ℤ) := by
  refine ⟨by decide, lt_of_le_of_lt (sinh_le_cosh _) (Hyper.cosh_lim ?_)⟩
  rw [show f64.val 0x3ff0000000000000#f64.w = 1 by decide +kernel, Rat.cast_one, abs_one]
  have := Hyper.lim_small.1
  linarith
example : f64.IsFin 0xc090000000000000#f64.w ∧ 2 ^ (1024 : ℤ) ≤ |Real.sinh ((f64.val 0xc090000000000000#f64.w : ℚ) : ℝ)| := by
  refine ⟨by decide, (Hyper.sinh_big FPU.softF64 ⟨by decide, (f64.valK_cast _).symm⟩ ?_).2⟩
  rw [show f64.val 0xc090000000000000#f64.w = -1024 by decide +kernel]
  have := Hyper.lim_small.2
  refine lt_of_le_of_lt this ?_
  norm_num

/-- C83: `tanh` of a finite `x` is finite, at most `1` in magnitude, has the sign bit of `x`, and is within `2.3 * 2^-52` of the hyperbolic tangent relatively;
computing it does not panic. -/
theorem C83_tanh (N : FPU f64) {x : BitVec f64.w} (hx : f64.IsFin x) :
    ∃ r, Hyper.tanh N x = .ok r ∧ f64.IsFin r ∧ f64.sign r = f64.sign x ∧ |f64.val r| ≤ 1 ∧
      |((f64.val r : ℚ) : ℝ) - Real.tanh ((f64.val x : ℚ) : ℝ)| ≤ 2.3 / 2 ^ 52 * |Real.tanh ((f64.val x : ℚ) : ℝ)| := by
  have hv : GFv f64 x ((f64.val x : ℚ) : ℝ) := ⟨hx, (f64.valK_cast x).symm⟩
  obtain ⟨r, h2, V, hV, e, g, hs⟩ := Hyper.tanh_fin N hv
  have hc : ((f64.val r : ℚ) : ℝ) = V := by rw [f64.valK_cast r, hV.val]
  refine ⟨r, h2, hV.fin, hs, ?_, ?_⟩
  · rw [← hc] at g; exact_mod_cast g
  · rw [hc]
    refine e.trans (le_of_eq ?_)
    rw [Expm1.s64]; norm_num

/-- C83: a NaN gives a NaN, and an infinity gives `1` with its sign exactly. -/
theorem C83_tanh_special (N : FPU f64) (x : BitVec f64.w) :
    (f64.IsNaN x → ∃ r, Hyper.tanh N x = .ok r ∧ f64.IsNaN r) ∧ (f64.IsInf x → ∃ r, Hyper.tanh N x = .ok r ∧ f64.val r = if f64.sign x then -1 else 1) :=
  Hyper.tanh_special N x

/-- Concrete cases: `1`, `-2`, `1/4`, `2^-10`, minus the largest number without overflow of `sinh`, the next number, a tiny number, `20`. -/
example : Hyper.tanh FPU.softF64 0x3ff0000000000000#64 = .ok 0x3fe85efab514f394#64 ∧
    Hyper.tanh FPU.softF64 0xc000000000000000#64 = .ok 0xbfeed9505e1bc3d4#64 ∧
    Hyper.tanh FPU.softF64 0x3fd0000000000000#64 = .ok 0x3fcf597ea69a1c86#64 ∧
    Hyper.tanh FPU.softF64 0x3f50000000000000#64 = .ok 0x3f4fffff5555599a#64 ∧
    Hyper.tanh FPU.softF64 0xc08633ce8fb9f87d#64 = .ok 0xbff0000000000000#64 ∧
    Hyper.tanh FPU.softF64 0x408633ce8fb9f87e#64 = .ok 0x3ff0000000000000#64 ∧
    Hyper.tanh FPU.softF64 0x3e40000000000000#64 = .ok 0x3e40000000000000#64 ∧
    Hyper.tanh FPU.softF64 0x4034000000000000#64 = .ok 0x3ff0000000000000#64 := by decide +kernel
example : f64.IsFin 0x3ff0000000000000#f64.w := by decide

/-- C80: if `cosh x` is below `2^128`, `coshf` of a finite `x` is finite, not below `1`, and within `1.6 * 2^-23` of the hyperbolic cosine relatively;
computing it does not panic. -/
theorem C80_coshf (N : FPU f32) {x : BitVec f32.w} (hx : f32.IsFin x) (h : Real.cosh ((f32.val x : ℚ) : ℝ) < 2 ^ (128 : ℤ)) :
    ∃ r, Hyper.F32.coshf N x = .ok r ∧ f32.IsFin r ∧ 1 ≤ f32.val r ∧
      |((f32.val r : ℚ) : ℝ) - Real.cosh ((f32.val x : ℚ) : ℝ)| ≤ 1.6 / 2 ^ 23 * Real.cosh ((f32.val x : ℚ) : ℝ) := by
  have hv : GFv f32 x ((f32.val x : ℚ) : ℝ) := ⟨hx, (f32.valK_cast x).symm⟩
  have h1 : |((f32.val x : ℚ) : ℝ)| ≤ (f32.val Hyper.F32.LIM : ℚ) := by
    by_contra hc
    exact absurd (Hyper.F32.coshf_big N hv (not_le.mp hc)).2 (not_le.mpr h)
  obtain ⟨r, h2, V, hV, e, g⟩ := Hyper.F32.coshf_fin N hv h1
  have hc : ((f32.val r : ℚ) : ℝ) = V := by rw [f32.valK_cast r, hV.val]
  refine ⟨r, h2, hV.fin, ?_, ?_⟩
  · rw [← hc] at g; exact_mod_cast g
  · rw [hc]
    refine e.trans (le_of_eq ?_)
    rw [Expm1.s32]; norm_num

/-- C80: `coshf` of a finite number is `+∞` if the hyperbolic cosine is `2^128` or more. -/
theorem C80_coshf_overflow (N : FPU f32) {x : BitVec f32.w} (hx : f32.IsFin x) (h : 2 ^ (128 : ℤ) ≤ Real.cosh ((f32.val x : ℚ) : ℝ)) :
    ∃ r, Hyper.F32.coshf N x = .ok r ∧ f32.IsInf r ∧ f32.sign r = false := by
  have hv : GFv f32 x ((f32.val x : ℚ) : ℝ) := ⟨hx, (f32.valK_cast x).symm⟩
  refine (Hyper.F32.coshf_big N hv ?_).1
  by_contra hc
  exact absurd h (not_le.mpr (Hyper.F32.cosh_lim (not_lt.mp hc)))

/-- C80: a NaN gives a NaN, and both infinities give `+∞`. -/
theorem C80_coshf_special (N : FPU f32) (x : BitVec f32.w) :
    (f32.IsNaN x → ∃ r, Hyper.F32.coshf N x = .ok r ∧ f32.IsNaN r) ∧ (f32.IsInf x → ∃ r, Hyper.F32.coshf N x = .ok r ∧ f32.IsInf r ∧ f32.sign r = false) :=
  Hyper.F32.coshf_special N x

/-- Concrete cases: `1`, `-2`, `1/4`, `2^-7`, minus the largest number without overflow, the next number, a tiny number, `10`. -/
example : Hyper.F32.coshf FPU.softF32 0x3f800000#32 = .ok 0x3fc583aa#32 ∧
    Hyper.F32.coshf FPU.softF32 0xc0000000#32 = .ok 0x4070c7d1#32 ∧
    Hyper.F32.coshf FPU.softF32 0x3e800000#32 = .ok 0x3f840558#32 ∧
    Hyper.F32.coshf FPU.softF32 0x3c000000#32 = .ok 0x3f800100#32 ∧
    Hyper.F32.coshf FPU.softF32 0xc2b2d4fc#32 = .ok 0x7f7fffed#32 ∧
    Hyper.F32.coshf FPU.softF32 0x42b2d4fd#32 = .ok 0x7f800000#32 ∧
    Hyper.F32.coshf FPU.softF32 0x38000000#32 = .ok 0x3f800000#32 ∧
    Hyper.F32.coshf FPU.softF32 0x41200000#32 = .ok 0x462c14ee#32 := by decide +kernel
example : f32.IsFin 0x3f800000#f32.w ∧ Real.cosh ((f32.val 0x3f800000#f32.w : ℚ) : ℝ) < 2 ^ (128 : ℤ) := by
  refine ⟨by decide, Hyper.F32.cosh_lim ?_⟩
  rw [show f32.val 0x3f800000#f32.w = 1 by decide +kernel, Rat.cast_one, abs_one]
  have := Hyper.F32.lim_small.1
  linarith
example : f32.IsFin 0x43000000#f32.w ∧ 2 ^ (128 : ℤ) ≤ Real.cosh ((f32.val 0x43000000#f32.w : ℚ) : ℝ) := by
  refine ⟨by decide, (Hyper.F32.coshf_big FPU.softF32 ⟨by decide, (f32.valK_cast _).symm⟩ ?_).2⟩
  rw [show f32.val 0x43000000#f32.w = 128 by decide +kernel]
  have := Hyper.F32.lim_small.2
  refine lt_of_le_of_lt this ?_
  norm_num

/-- C82: if `|sinh x|` is below `2^128`, `sinhf` of a finite `x` is finite, has the sign bit of `x`, and is within `2.25 * 2^-23` of the hyperbolic sine relatively;
computing it does not panic. -/
theorem C82_sinhf (N : FPU f32) {x : BitVec f32.w} (hx : f32.IsFin x) (h : |Real.sinh ((f32.val x : ℚ) : ℝ)| < 2 ^ (128 : ℤ)) :
    ∃ r, Hyper.F32.sinhf N x = .ok r ∧ f32.IsFin r ∧ f32.sign r = f32.sign x ∧
      |((f32.val r : ℚ) : ℝ) - Real.sinh ((f32.val x : ℚ) : ℝ)| ≤ 2.25 / 2 ^ 23 * |Real.sinh ((f32.val x : ℚ) : ℝ)| := by
  have hv : GFv f32 x ((f32.val x : ℚ) : ℝ) := ⟨hx, (f32.valK_cast x).symm⟩
  have h1 : |((f32.val x : ℚ) : ℝ)| ≤ (f32.val Hyper.F32.LIM : ℚ) := by
    by_contra hc
    exact absurd (Hyper.F32.sinhf_big N hv (not_le.mp hc)).2 (not_le.mpr h)
  obtain ⟨r, h2, V, hV, e, g⟩ := Hyper.F32.sinhf_fin N hv h1
  have hc : ((f32.val r : ℚ) : ℝ) = V := by rw [f32.valK_cast r, hV.val]
  refine ⟨r, h2, hV.fin, sinh_sign hv hV (e.trans (mul_le_mul_of_nonneg_right (by rw [Expm1.s32]; norm_num) (abs_nonneg _))) g, ?_⟩
  rw [hc]
  refine e.trans (le_of_eq ?_)
  rw [Expm1.s32]; norm_num

/-- C82: `sinhf` of a finite number is the infinity with its sign if `|sinh x|` is `2^128` or more. -/
theorem C82_sinhf_overflow (N : FPU f32) {x : BitVec f32.w} (hx : f32.IsFin x) (h : 2 ^ (128 : ℤ) ≤ |Real.sinh ((f32.val x : ℚ) : ℝ)|) :
    ∃ r, Hyper.F32.sinhf N x = .ok r ∧ f32.IsInf r ∧ f32.sign r = f32.sign x := by
  have hv : GFv f32 x ((f32.val x : ℚ) : ℝ) := ⟨hx, (f32.valK_cast x).symm⟩
  refine (Hyper.F32.sinhf_big N hv ?_).1
  by_contra hc
  exact absurd (h.trans (sinh_le_cosh _)) (not_le.mpr (Hyper.F32.cosh_lim (not_lt.mp hc)))

/-- C82: a NaN gives a NaN, and an infinity gives itself. -/
theorem C82_sinhf_special (N : FPU f32) (x : BitVec f32.w) :
    (f32.IsNaN x → ∃ r, Hyper.F32.sinhf N x = .ok r ∧ f32.IsNaN r) ∧ (f32.IsInf x → Hyper.F32.sinhf N x = .ok x) := by
  refine ⟨(Hyper.F32.sinhf_special N x).1, fun h => ?_⟩
  obtain ⟨r, h1, h2, h3⟩ := (Hyper.F32.sinhf_special N x).2 h
  rw [h1, f32.ext_sign_mag h3 (h2.trans h.symm)]

/-- C82: both zeros are returned as they are. -/
theorem C82_sinhf_zero (N : FPU f32) {x : BitVec f32.w} (h : f32.mag x = 0) : Hyper.F32.sinhf N x = .ok x := by
  have hx : f32.IsFin x := by unfold Fmt.IsFin; rw [h]; decide
  have hv0 : GFv f32 x 0 := by
    refine ⟨hx, ?_⟩
    unfold Fmt.valK; rw [h, ← f32.magVal_cast, f32.magVal_zero]; simp
  obtain ⟨r, h2, V, -, -, h4⟩ := Hyper.F32.sinhf_fin N hv0 (by rw [abs_zero]; have := Hyper.F32.lim_small.1; linarith)
  rw [h2, h4 rfl]

/-- Concrete cases: `1`, `-2`, `1/4`, `2^-7`, minus the largest number without overflow, the next number, a tiny number, `10`. -/
example : Hyper.F32.sinhf FPU.softF32 0x3f800000#32 = .ok 0x3f966cfe#32 ∧
    Hyper.F32.sinhf FPU.softF32 0xc0000000#32 = .ok 0xc0681e7b#32 ∧
    Hyper.F32.sinhf FPU.softF32 0x3e800000#32 = .ok 0x3e815667#32 ∧
    Hyper.F32.sinhf FPU.softF32 0x3c000000#32 = .ok 0x3c000056#32 ∧
    Hyper.F32.sinhf FPU.softF32 0xc2b2d4fc#32 = .ok 0xff7fffed#32 ∧
    Hyper.F32.sinhf FPU.softF32 0x42b2d4fd#32 = .ok 0x7f800000#32 ∧
    Hyper.F32.sinhf FPU.softF32 0x38000000#32 = .ok 0x38000000#32 ∧
    Hyper.F32.sinhf FPU.softF32 0x41200000#32 = .ok 0x462c14ee#32 := by decide +kernel
example : f32.IsFin 0x3f800000#f32.w ∧ |Real.sinh ((f32.val 0x3f800000#f32.w : ℚ) : ℝ)| < 2 ^ (128 : ℤ) := by
  refine ⟨by decide, lt_of_le_of_lt (sinh_le_cosh _) (Hyper.F32.cosh_lim ?_)⟩
  rw [show f32.val 0x3f800000#f32.w = 1 by decide +kernel, Rat.cast_one, abs_one]
  have := Hyper.F32.lim_small.1
  linarith
example : f32.IsFin 0xc3000000#f32.w ∧ 2 ^ (128 : ℤ) ≤ |Real.sinh ((f32.val 0xc3000000#f32.w : ℚ) : ℝ)| := by
  refine ⟨by decide, (Hyper.F32.sinhf_big FPU.softF32 ⟨by decide, (f32.valK_cast _).symm⟩ ?_).2⟩
  rw [show f32.val 0xc3000000#f32.w = -128 by decide +kernel]
  have := Hyper.F32.lim_small.2
  refine lt_of_le_of_lt this ?_
  norm_num

/-- C84: `tanhf` of a finite `x` is finite, at most `1` in magnitude, has the sign bit of `x`, and is within `2.3 * 2^-23` of the hyperbolic tangent relatively;
computing it does not panic. -/
theorem C84_tanhf (N : FPU f32) {x : BitVec f32.w} (hx : f32.IsFin x) :
    ∃ r, Hyper.F32.tanhf N x = .ok r ∧ f32.IsFin r ∧ f32.sign r = f32.sign x ∧ |f32.val r| ≤ 1 ∧
      |((f32.val r : ℚ) : ℝ) - Real.tanh ((f32.val x : ℚ) : ℝ)| ≤ 2.3 / 2 ^ 23 * |Real.tanh ((f32.val x : ℚ) : ℝ)| := by
  have hv : GFv f32 x ((f32.val x : ℚ) : ℝ) := ⟨hx, (f32.valK_cast x).symm⟩
  obtain ⟨r, h2, V, hV, e, g, hs⟩ := Hyper.F32.tanhf_fin N hv
  have hc : ((f32.val r : ℚ) : ℝ) = V := by rw [f32.valK_cast r, hV.val]
  refine ⟨r, h2, hV.fin, hs, ?_, ?_⟩
  · rw [← hc] at g; exact_mod_cast g
  · rw [hc]
    refine e.trans (le_of_eq ?_)
    rw [Expm1.s32]; norm_num

/-- C84: a NaN gives a NaN, and an infinity gives `1` with its sign exactly. -/
theorem C84_tanhf_special (N : FPU f32) (x : BitVec f32.w) :
    (f32.IsNaN x → ∃ r, Hyper.F32.tanhf N x = .ok r ∧ f32.IsNaN r) ∧ (f32.IsInf x → ∃ r, Hyper.F32.tanhf N x = .ok r ∧ f32.val r = if f32.sign x then -1 else 1) :=
  Hyper.F32.tanhf_special N x

/-- Concrete cases: `1`, `-2`, `1/4`, `2^-7`, minus the largest number without overflow of `sinh`, the next number, a tiny number, `10`. -/
example : Hyper.F32.tanhf FPU.softF32 0x3f800000#32 = .ok 0x3f42f7d6#32 ∧
    Hyper.F32.tanhf FPU.softF32 0xc0000000#32 = .ok 0xbf76ca83#32 ∧
    Hyper.F32.tanhf FPU.softF32 0x3e800000#32 = .ok 0x3e7acbf5#32 ∧
    Hyper.F32.tanhf FPU.softF32 0x3c000000#32 = .ok 0x3bfffeaa#32 ∧
    Hyper.F32.tanhf FPU.softF32 0xc2b2d4fc#32 = .ok 0xbf800000#32 ∧
    Hyper.F32.tanhf FPU.softF32 0x42b2d4fd#32 = .ok 0x3f800000#32 ∧
    Hyper.F32.tanhf FPU.softF32 0x38000000#32 = .ok 0x38000000#32 ∧
    Hyper.F32.tanhf FPU.softF32 0x41200000#32 = .ok 0x3f800000#32 := by decide +kernel
example : f32.IsFin 0x3f800000#f32.w := by decide

end Verif.Props
