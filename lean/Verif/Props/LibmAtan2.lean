import Verif.Libm.Atan2Main
import Verif.Libm.Atan2FMain
import Verif.Props.LibmAtan
/-! # Properties C70 and C71: `atan2` and `atan2f` -/
namespace Verif.Props
open Fmt

/-- C70: for finite `y ≠ 0` and `x`, the result of `atan2(y, x)` is finite and differs from the angle of the point `(x, y)` by at most `2^-51` times that angle plus
`2^-1074`, the least positive number; it has the sign of `y`, and its absolute value is not greater than the constant `PI` (which is less than `π`). Computing it does not panic. -/
theorem C70_atan2 (N : FPU f64) {y x : BitVec f64.w} (hy : f64.IsFin y) (hx : f64.IsFin x) (h0 : f64.val y ≠ 0) :
    ∃ r, Atan2.atan2 N y x = .ok r ∧ f64.IsFin r ∧
      |((f64.val r : ℚ) : ℝ) - Complex.arg ⟨((f64.val x : ℚ) : ℝ), ((f64.val y : ℚ) : ℝ)⟩| ≤
        1 / 2 ^ 51 * |Complex.arg ⟨((f64.val x : ℚ) : ℝ), ((f64.val y : ℚ) : ℝ)⟩| + 1 / 2 ^ 1074 ∧
      |f64.val r| ≤ f64.val 0x400921fb54442d18#f64.w ∧ f64.sign r = f64.sign y := by
  have hx' : GFv f64 x ((f64.val x : ℚ) : ℝ) := ⟨hx, (f64.valK_cast x).symm⟩
  have hy' : GFv f64 y ((f64.val y : ℚ) : ℝ) := ⟨hy, (f64.valK_cast y).symm⟩
  obtain ⟨r, h, R, r1, r2, r3, r4⟩ := Atan2.atan2_spec N hx' hy' (by exact_mod_cast h0)
  refine ⟨r, h, r1.fin, ?_, ?_, r4⟩
  · rw [r1.valQ]
    have e1 : 4 * (1 / 2 ^ (f64.s + 1)) = (1 : ℝ) / 2 ^ 51 := by rw [show f64.s = 52 from rfl]; norm_num
    have e2 : 2 * (1 / 2 ^ (f64.bias + f64.s)) = (1 : ℝ) / 2 ^ 1074 := by
      rw [show f64.s = 52 from rfl, show f64.bias = 1023 by decide, show (2 : ℝ) ^ (1023 + 52) = 2 ^ 1074 * 2 by rw [← pow_succ]]; field_simp
    rw [e1, e2] at r2; exact r2
  · rw [← r1.valQ, ← f64.valK_cast] at r3
    exact_mod_cast r3

/-- C70: the results are between `-π` and `π`. -/
theorem C70_atan2_range (N : FPU f64) {y x r : BitVec f64.w} (hy : f64.IsFin y) (hx : f64.IsFin x) (h0 : f64.val y ≠ 0) (h : Atan2.atan2 N y x = .ok r) :
    |((f64.val r : ℚ) : ℝ)| < Real.pi := by
  obtain ⟨r', h1, -, -, h2, -⟩ := C70_atan2 N hy hx h0
  obtain rfl : r = r' := by rw [h] at h1; cases h1; rfl
  have h3 : f64.val 0x400921fb54442d18#f64.w ≤ 314159265358979323846 / 10 ^ 20 - 1 / 10 ^ 17 := by decide +kernel
  have h4 := Rat.cast_le (K := ℝ).mpr (h2.trans h3)
  have hp := Poly.pi_near
  push_cast at h4 hp
  rw [abs_le] at hp
  have : (2 : ℝ) / 10 ^ 20 < 1 / 10 ^ 17 := by norm_num
  linarith [hp.1]

/-- C70: a NaN gives a NaN. -/
theorem C70_atan2_nan (N : FPU f64) {y x : BitVec f64.w} (h : f64.IsNaN y ∨ f64.IsNaN x) : ∃ r, Atan2.atan2 N y x = .ok r ∧ f64.IsNaN r := by
  unfold Atan2.atan2
  rw [if_pos (by rw [f64.isNan_iff, f64.isNan_iff]; exact h.symm)]
  exact ⟨_, rfl, (N.add_spec x y).2.1 h.symm⟩

/-- C70: if `y` is zero, the result is `y` when the sign bit of `x` is clear (for `x = +0` too), and `PI` with the sign of `y` when it is set (for `x = -0` too). -/
theorem C70_atan2_zero (N : FPU f64) {y x : BitVec f64.w} (h0 : f64.IsZero y) (hx : ¬ f64.IsNaN x) :
    Atan2.atan2 N y x = .ok (if f64.sign x then (if f64.sign y then 0xc00921fb54442d18#f64.w else 0x400921fb54442d18#f64.w) else y) := by
  have hy : y = 0#f64.w ∨ y = 0x8000000000000000#f64.w := by
    have h0 : f64.mag y = 0 := h0
    cases hs : f64.sign y
    · left; exact f64.ext_sign_mag (by rw [hs]; decide) (by rw [h0]; decide)
    · right; exact f64.ext_sign_mag (by rw [hs]; decide) (by rw [h0]; decide)
  have hnx : f64.isNan x = false := by
    by_contra hc
    exact hx ((f64.isNan_iff x).mp (by simpa using hc))
  have hny : f64.isNan y = false := by rcases hy with h | h <;> rw [h] <;> decide +kernel
  have hm : f64.mag y = 0 := h0
  unfold Atan2.atan2
  rw [hnx, hny, if_neg (by simp)]
  simp only [Atan2.signs64, hi64, Atan2.zero64, Atan2.one64]
  split
  · rename_i h
    rw [h]
    rcases hy with h | h <;> rw [h] <;> rfl
  · rcases hy with h | h <;> rw [h] <;> cases f64.sign x <;> rfl

/-- C70: the infinities. With `x` infinite: `±π/4` and `±3π/4` for infinite `y`, `±0` and `±PI` for finite `y`; with only `y` infinite: `±PI/2`. -/
theorem C70_atan2_inf (N : FPU f64) {y x : BitVec f64.w} (hy : ¬ f64.IsNaN y) (hx : ¬ f64.IsNaN x) (hy0 : ¬ f64.IsZero y) :
    (f64.IsInf x → Atan2.atan2 N y x = .ok (
      if f64.mag y = f64.infRep then
        (if f64.sign x then (if f64.sign y then 0xc002d97c7f3321d2#f64.w else 0x4002d97c7f3321d2#f64.w) else (if f64.sign y then 0xbfe921fb54442d18#f64.w else 0x3fe921fb54442d18#f64.w))
      else
        (if f64.sign x then (if f64.sign y then 0xc00921fb54442d18#f64.w else 0x400921fb54442d18#f64.w) else (if f64.sign y then 0x8000000000000000#f64.w else 0#f64.w)))) ∧
    (f64.IsInf y → f64.IsFin x → Atan2.atan2 N y x = .ok (if f64.sign y then 0xbff921fb54442d18#f64.w else 0x3ff921fb54442d18#f64.w)) := by
  have hnx : f64.isNan x = false := by
    by_contra hc
    exact hx ((f64.isNan_iff x).mp (by simpa using hc))
  have hny : f64.isNan y = false := by
    by_contra hc
    exact hy ((f64.isNan_iff y).mp (by simpa using hc))
  have hm : ¬ f64.mag y = 0 := hy0
  have hinf : f64.infRep = 0x7ff0000000000000 := by decide +kernel
  have hyl : f64.mag y ≤ 0x7ff0000000000000 := by have : ¬ f64.infRep < f64.mag y := hy; omega
  have q4 : N.div Atan2.PI Atan2.four = 0x3fe921fb54442d18#f64.w := by
    rw [Atan2.div_eq N FPU.softF64 (by decide +kernel) (by decide +kernel) (by decide +kernel)]; decide +kernel
  have q4n : N.div (f64.neg Atan2.PI) Atan2.four = 0xbfe921fb54442d18#f64.w := by
    rw [Atan2.div_eq N FPU.softF64 (by decide +kernel) (by decide +kernel) (by decide +kernel)]; decide +kernel
  have m3 : N.mul Atan2.three Atan2.PI = FPU.softF64.mul Atan2.three Atan2.PI := Atan2.mul_eq N _ (by decide +kernel) (by decide +kernel)
  have m3n : N.mul Atan2.mthree Atan2.PI = FPU.softF64.mul Atan2.mthree Atan2.PI := Atan2.mul_eq N _ (by decide +kernel) (by decide +kernel)
  have q34 : N.div (N.mul Atan2.three Atan2.PI) Atan2.four = 0x4002d97c7f3321d2#f64.w := by
    rw [m3, Atan2.div_eq N FPU.softF64 (by decide +kernel) (by decide +kernel) (by decide +kernel)]; decide +kernel
  have q34n : N.div (N.mul Atan2.mthree Atan2.PI) Atan2.four = 0xc002d97c7f3321d2#f64.w := by
    rw [m3n, Atan2.div_eq N FPU.softF64 (by decide +kernel) (by decide +kernel) (by decide +kernel)]; decide +kernel
  constructor
  · intro hxi
    have hxi : f64.mag x = 0x7ff0000000000000 := by have : f64.mag x = f64.infRep := hxi; omega
    unfold Atan2.atan2
    rw [hnx, hny, if_neg (by simp)]
    simp only [Atan2.signs64, hi64, Atan2.zero64, Atan2.one64, hinf]
    rw [if_neg (by rintro rfl; revert hxi; decide +kernel), if_neg hm, if_neg (by omega), if_pos (by omega)]
    by_cases hyi : f64.mag y = 0x7ff0000000000000
    · rw [if_pos (by omega), if_pos hyi]
      cases f64.sign y <;> cases f64.sign x <;> simp [q4, q4n, q34, q34n]
    · rw [if_neg (by omega), if_neg hyi]
      cases f64.sign y <;> cases f64.sign x <;> simp only [Bool.false_eq_true, if_true, if_false] <;> rfl
  · intro hyi hxf
    have hyi : f64.mag y = 0x7ff0000000000000 := by have : f64.mag y = f64.infRep := hyi; omega
    have hxf : f64.mag x < 0x7ff0000000000000 := by have : f64.mag x < f64.infRep := hxf; omega
    unfold Atan2.atan2
    rw [hnx, hny, if_neg (by simp)]
    simp only [Atan2.signs64, hi64, Atan2.zero64, Atan2.one64]
    split
    · have : y = 0x7ff0000000000000#f64.w ∨ y = 0xfff0000000000000#f64.w := by
        cases hs : f64.sign y
        · left; exact f64.ext_sign_mag (by rw [hs]; decide) (by rw [hyi]; decide +kernel)
        · right; exact f64.ext_sign_mag (by rw [hs]; decide) (by rw [hyi]; decide +kernel)
      rcases this with h | h
      · rw [h, (C68_atan_inf N).1]; rfl
      · rw [h, (C68_atan_inf N).2.1]; rfl
    · split
      · rw [Atan2.half_pos, Atan2.half_neg]
        cases f64.sign y <;> cases f64.sign x <;> rfl
      · rw [if_neg (by omega)]
        unfold Atan2.general
        rw [if_pos (Or.inr (by omega))]
        rw [Atan2.half_pos, Atan2.half_neg]
        cases f64.sign y <;> cases f64.sign x <;> rfl

/-- Concrete cases: `(1, 2)`, `(1, -2)`, `(-1, -3)`, an underflow, `-2^-1074/4`, `2^1023/2^-1074`, `(-∞, -∞)`. -/
example : Atan2.atan2 FPU.softF64 0x3ff0000000000000#64 0x4000000000000000#64 = .ok 0x3fddac670561bb4f#64 ∧
    Atan2.atan2 FPU.softF64 0x3ff0000000000000#64 0xc000000000000000#64 = .ok 0x40056c6e7397f5ae#64 ∧
    Atan2.atan2 FPU.softF64 0xbff0000000000000#64 0xc008000000000000#64 = .ok 0xc0068f095fdf593c#64 ∧
    Atan2.atan2 FPU.softF64 0x0000000000000001#64 0x4000000000000000#64 = .ok 0x0000000000000000#64 ∧
    Atan2.atan2 FPU.softF64 0x8000000000000001#64 0x4010000000000000#64 = .ok 0x8000000000000000#64 ∧
    Atan2.atan2 FPU.softF64 0x7fe0000000000000#64 0x0000000000000001#64 = .ok 0x3ff921fb54442d18#64 ∧
    Atan2.atan2 FPU.softF64 0xfff0000000000000#64 0xfff0000000000000#64 = .ok 0xc002d97c7f3321d2#64 := by decide +kernel
example : f64.IsFin 0x3ff0000000000000#f64.w ∧ f64.IsFin 0xc008000000000000#f64.w ∧ f64.val 0x3ff0000000000000#f64.w ≠ 0 ∧ f64.IsZero 0x8000000000000000#f64.w ∧
    f64.IsInf 0x7ff0000000000000#f64.w ∧ f64.IsNaN 0x7ff8000000000000#f64.w := by decide +kernel

/-- C71: for finite `y ≠ 0` and `x`, the result of `atan2f(y, x)` is finite and differs from the angle of the point `(x, y)` by at most `2^-22` times that angle plus
`2^-149`, the least positive number; it has the sign of `y`, and its absolute value is not greater than the constant `PI` (the number nearest to `π`). Computing it does not panic. -/
theorem C71_atan2f (N : FPU f32) {y x : BitVec f32.w} (hy : f32.IsFin y) (hx : f32.IsFin x) (h0 : f32.val y ≠ 0) :
    ∃ r, Atan2.F32.atan2f N y x = .ok r ∧ f32.IsFin r ∧
      |((f32.val r : ℚ) : ℝ) - Complex.arg ⟨((f32.val x : ℚ) : ℝ), ((f32.val y : ℚ) : ℝ)⟩| ≤
        1 / 2 ^ 22 * |Complex.arg ⟨((f32.val x : ℚ) : ℝ), ((f32.val y : ℚ) : ℝ)⟩| + 1 / 2 ^ 149 ∧
      |f32.val r| ≤ f32.val 0x40490fdb#f32.w ∧ f32.sign r = f32.sign y := by
  have hx' : GFv f32 x ((f32.val x : ℚ) : ℝ) := ⟨hx, (f32.valK_cast x).symm⟩
  have hy' : GFv f32 y ((f32.val y : ℚ) : ℝ) := ⟨hy, (f32.valK_cast y).symm⟩
  obtain ⟨r, h, R, r1, r2, r3, r4⟩ := Atan2.F32.atan2f_spec N hx' hy' (by exact_mod_cast h0)
  refine ⟨r, h, r1.fin, ?_, ?_, r4⟩
  · rw [r1.valQ]
    have e1 : 4 * (1 / 2 ^ (f32.s + 1)) = (1 : ℝ) / 2 ^ 22 := by rw [show f32.s = 23 from rfl]; norm_num
    have e2 : 2 * (1 / 2 ^ (f32.bias + f32.s)) = (1 : ℝ) / 2 ^ 149 := by
      rw [show f32.s = 23 from rfl, show f32.bias = 127 by decide, show (2 : ℝ) ^ (127 + 23) = 2 ^ 149 * 2 by rw [← pow_succ]]; field_simp
    rw [e1, e2] at r2; exact r2
  · rw [← r1.valQ, ← f32.valK_cast] at r3
    exact_mod_cast r3

/-- C71: a NaN gives a NaN. -/
theorem C71_atan2f_nan (N : FPU f32) {y x : BitVec f32.w} (h : f32.IsNaN y ∨ f32.IsNaN x) : ∃ r, Atan2.F32.atan2f N y x = .ok r ∧ f32.IsNaN r := by
  unfold Atan2.F32.atan2f
  rw [if_pos (by rw [f32.isNan_iff, f32.isNan_iff]; exact h.symm)]
  exact ⟨_, rfl, (N.add_spec x y).2.1 h.symm⟩

/-- C71: if `y` is zero, the result is `y` when the sign bit of `x` is clear (for `x = +0` too), and `PI` with the sign of `y` when it is set (for `x = -0` too). -/
theorem C71_atan2f_zero (N : FPU f32) {y x : BitVec f32.w} (h0 : f32.IsZero y) (hx : ¬ f32.IsNaN x) :
    Atan2.F32.atan2f N y x = .ok (if f32.sign x then (if f32.sign y then 0xc0490fdb#f32.w else 0x40490fdb#f32.w) else y) := by
  have hy : y = 0#f32.w ∨ y = 0x80000000#f32.w := by
    have h0 : f32.mag y = 0 := h0
    cases hs : f32.sign y
    · left; exact f32.ext_sign_mag (by rw [hs]; decide) (by rw [h0]; decide)
    · right; exact f32.ext_sign_mag (by rw [hs]; decide) (by rw [h0]; decide)
  have hnx : f32.isNan x = false := by
    by_contra hc
    exact hx ((f32.isNan_iff x).mp (by simpa using hc))
  have hny : f32.isNan y = false := by rcases hy with h | h <;> rw [h] <;> decide +kernel
  have hm : f32.mag y = 0 := h0
  unfold Atan2.F32.atan2f
  rw [hnx, hny, if_neg (by simp)]
  simp only [Atan2.F32.signs32, mag32, Atan2.F32.one32]
  split
  · rename_i h
    rw [h]
    rcases hy with h | h <;> rw [h] <;> rfl
  · rcases hy with h | h <;> rw [h] <;> cases f32.sign x <;> rfl

/-- C71: the infinities. With `x` infinite: `±π/4` and `±3π/4` for infinite `y`, `±0` and `±PI` for finite `y`; with only `y` infinite: `±PI/2` (the nearest number to `±π/2`), but the predecessor of that for `x = 1`. -/
theorem C71_atan2f_inf (N : FPU f32) {y x : BitVec f32.w} (hy : ¬ f32.IsNaN y) (hx : ¬ f32.IsNaN x) (hy0 : ¬ f32.IsZero y) :
    (f32.IsInf x → Atan2.F32.atan2f N y x = .ok (
      if f32.mag y = f32.infRep then
        (if f32.sign x then (if f32.sign y then 0xc016cbe4#f32.w else 0x4016cbe4#f32.w) else (if f32.sign y then 0xbf490fdb#f32.w else 0x3f490fdb#f32.w))
      else
        (if f32.sign x then (if f32.sign y then 0xc0490fdb#f32.w else 0x40490fdb#f32.w) else (if f32.sign y then 0x80000000#f32.w else 0#f32.w)))) ∧
    (f32.IsInf y → f32.IsFin x → Atan2.F32.atan2f N y x = .ok (
      if x = 0x3f800000#f32.w then (if f32.sign y then 0xbfc90fda#f32.w else 0x3fc90fda#f32.w)
      else (if f32.sign y then 0xbfc90fdb#f32.w else 0x3fc90fdb#f32.w))) := by
  have hnx : f32.isNan x = false := by
    by_contra hc
    exact hx ((f32.isNan_iff x).mp (by simpa using hc))
  have hny : f32.isNan y = false := by
    by_contra hc
    exact hy ((f32.isNan_iff y).mp (by simpa using hc))
  have hm : ¬ f32.mag y = 0 := hy0
  have hinf : f32.infRep = 0x7f800000 := by decide +kernel
  have hyl : f32.mag y ≤ 0x7f800000 := by have : ¬ f32.infRep < f32.mag y := hy; omega
  have q4 : N.div Atan2.F32.PI Atan2.F32.four = 0x3f490fdb#f32.w := by
    rw [Atan2.div_eq N FPU.softF32 (by decide +kernel) (by decide +kernel) (by decide +kernel)]; decide +kernel
  have q4n : N.div (f32.neg Atan2.F32.PI) Atan2.F32.four = 0xbf490fdb#f32.w := by
    rw [Atan2.div_eq N FPU.softF32 (by decide +kernel) (by decide +kernel) (by decide +kernel)]; decide +kernel
  have m3 : N.mul Atan2.F32.three Atan2.F32.PI = FPU.softF32.mul Atan2.F32.three Atan2.F32.PI := Atan2.mul_eq N _ (by decide +kernel) (by decide +kernel)
  have m3n : N.mul Atan2.F32.mthree Atan2.F32.PI = FPU.softF32.mul Atan2.F32.mthree Atan2.F32.PI := Atan2.mul_eq N _ (by decide +kernel) (by decide +kernel)
  have q34 : N.div (N.mul Atan2.F32.three Atan2.F32.PI) Atan2.F32.four = 0x4016cbe4#f32.w := by
    rw [m3, Atan2.div_eq N FPU.softF32 (by decide +kernel) (by decide +kernel) (by decide +kernel)]; decide +kernel
  have q34n : N.div (N.mul Atan2.F32.mthree Atan2.F32.PI) Atan2.F32.four = 0xc016cbe4#f32.w := by
    rw [m3n, Atan2.div_eq N FPU.softF32 (by decide +kernel) (by decide +kernel) (by decide +kernel)]; decide +kernel
  constructor
  · intro hxi
    have hxi : f32.mag x = 0x7f800000 := by have : f32.mag x = f32.infRep := hxi; omega
    unfold Atan2.F32.atan2f
    rw [hnx, hny, if_neg (by simp)]
    simp only [Atan2.F32.signs32, mag32, Atan2.F32.one32, hinf]
    rw [if_neg (by rintro rfl; revert hxi; decide +kernel), if_neg hm, if_neg (by omega), if_pos (by omega)]
    by_cases hyi : f32.mag y = 0x7f800000
    · rw [if_pos (by omega), if_pos hyi]
      cases f32.sign y <;> cases f32.sign x <;> simp [q4, q4n, q34, q34n]
    · rw [if_neg (by omega), if_neg hyi]
      cases f32.sign y <;> cases f32.sign x <;> simp only [Bool.false_eq_true, if_true, if_false] <;> rfl
  · intro hyi hxf
    have hyi : f32.mag y = 0x7f800000 := by have : f32.mag y = f32.infRep := hyi; omega
    have hxf : f32.mag x < 0x7f800000 := by have : f32.mag x < f32.infRep := hxf; omega
    unfold Atan2.F32.atan2f
    rw [hnx, hny, if_neg (by simp)]
    simp only [Atan2.F32.signs32, mag32, Atan2.F32.one32]
    split
    · rename_i h1
      rw [if_pos (show x = 0x3f800000#f32.w from h1)]
      have : y = 0x7f800000#f32.w ∨ y = 0xff800000#f32.w := by
        cases hs : f32.sign y
        · left; exact f32.ext_sign_mag (by rw [hs]; decide) (by rw [hyi]; decide +kernel)
        · right; exact f32.ext_sign_mag (by rw [hs]; decide) (by rw [hyi]; decide +kernel)
      rcases this with h | h
      · rw [h, (C69_atanf_inf N).1]; rfl
      · rw [h, (C69_atanf_inf N).2.1]; rfl
    · rename_i hne
      rw [if_neg (show ¬ x = 0x3f800000#f32.w from hne)]
      split
      · rw [Atan2.F32.half_pos, Atan2.F32.half_neg]
        cases f32.sign y <;> cases f32.sign x <;> rfl
      · rw [if_neg (by omega)]
        unfold Atan2.F32.general
        unfold Log.u32C
        rw [if_pos (by omega), ok_bind, if_pos (Or.inr (by omega))]
        rw [Atan2.F32.half_pos, Atan2.F32.half_neg]
        cases f32.sign y <;> cases f32.sign x <;> rfl

/-- Concrete cases: `(1, 2)`, `(1, -2)`, `(-1, -3)`, an underflow, `-2^-149/4`, `2^127/2^-149`, `(-∞, -∞)`. -/
example : Atan2.F32.atan2f FPU.softF32 0x3f800000#32 0x40000000#32 = .ok 0x3eed6338#32 ∧
    Atan2.F32.atan2f FPU.softF32 0x3f800000#32 0xc0000000#32 = .ok 0x402b6374#32 ∧
    Atan2.F32.atan2f FPU.softF32 0xbf800000#32 0xc0400000#32 = .ok 0xc034784b#32 ∧
    Atan2.F32.atan2f FPU.softF32 0x00000001#32 0x40000000#32 = .ok 0x00000000#32 ∧
    Atan2.F32.atan2f FPU.softF32 0x80000001#32 0x40800000#32 = .ok 0x80000000#32 ∧
    Atan2.F32.atan2f FPU.softF32 0x7f000000#32 0x00000001#32 = .ok 0x3fc90fdb#32 ∧
    Atan2.F32.atan2f FPU.softF32 0xff800000#32 0xff800000#32 = .ok 0xc016cbe4#32 := by decide +kernel
example : f32.IsFin 0x3f800000#f32.w ∧ f32.IsFin 0xc0400000#f32.w ∧ f32.val 0x3f800000#f32.w ≠ 0 ∧ f32.IsZero 0x80000000#f32.w ∧
    f32.IsInf 0x7f800000#f32.w ∧ f32.IsNaN 0x7fc00000#f32.w := by decide +kernel

end Verif.Props
