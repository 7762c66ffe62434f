import Verif.Libm.TanF
import Verif.Libm.TanMain
import Verif.Props.LibmTrig
/-! # Properties C62 and C63: `tanf` and `tan` -/
namespace Verif.Props
open Fmt Pio2 Trig

/-- C62: `tanf` of every finite `f32` is finite and faithfully rounded, and computing it does not panic. -/
theorem C62_tanf (N : FPU f64) (p64 : Bool) (N32 : FPU f32) {x : BitVec f32.w} (hx : f32.IsFin x) :
    ∃ r, Trig.tanf N p64 N32 x = .ok r ∧ f32.FaithfulTo (Real.tan ((f32.val x : ℚ) : ℝ)) r := tanf_spec N p64 N32 hx

/-- C62: `tanf` keeps zeros, with their signs, and all tiny arguments unchanged. -/
theorem C62_tanf_tiny (N : FPU f64) (p64 : Bool) (N32 : FPU f32) {x : BitVec f32.w} (h : f32.mag x < 0x39800000) :
    Trig.tanf N p64 N32 x = .ok x := by
  obtain ⟨r, h1, -⟩ := ext_fv (x := x) (by show f32.mag x < 0x7f800000; omega)
  unfold Trig.tanf
  rw [h1, ok_bind]
  simp only [bits32]
  rw [if_pos (by omega), if_pos h]
  rfl

/-- C62: of infinities and NaN, `tanf` gives NaN. -/
theorem C62_tanf_special (N : FPU f64) (p64 : Bool) (N32 : FPU f32) {x : BitVec f32.w} (hx : ¬ f32.IsFin x) :
    ∃ r, f32.IsNaN r ∧ Trig.tanf N p64 N32 x = .ok r := by
  have hm : 0x7f800000 ≤ f32.mag x := not_lt.1 hx
  obtain ⟨e, h1, _⟩ := extend_special wider_32_64 (a := x) hm
  refine ⟨N32.sub x x, sub_self_nan32 N32 hx, ?_⟩
  unfold Trig.tanf
  rw [h1, ok_bind]
  have a1 : ¬ f32.mag x ≤ 0x3f490fda := by omega
  have a2 : ¬ f32.mag x ≤ 0x407b53d1 := by omega
  have a3 : ¬ f32.mag x ≤ 0x40e231d5 := by omega
  simp only [bits32, ge_iff_le, if_neg a1, if_neg a2, if_neg a3, if_pos hm]
  rfl

/-- Concrete cases: `1`, the nearest `f32` to `π / 2`, and `f32::MAX`. -/
example : Trig.tanf FPU.softF64 true FPU.softF32 0x3f800000#32 = .ok 0x3fc75923#32 ∧
    Trig.tanf FPU.softF64 true FPU.softF32 0x3fc90fdb#32 = .ok 0xcbae8a4a#32 ∧
    Trig.tanf FPU.softF64 true FPU.softF32 0x7f7fffff#32 = .ok 0xbf1c9eca#32 := by decide +kernel
example : ¬ f32.IsFin 0x7f800000#f32.w ∧ f32.mag 0x80000000#f32.w < 0x39800000 := by decide +kernel

/-! ### C63: double precision -/

theorem tan_in_range {x : BitVec f64.w} : f64.mag x < 0x3fe921fc00000000 ↔ Pio2.hi x ≤ 0x3fe921fb := by
  rw [hi_eq, ← Nat.lt_succ_iff, Nat.div_lt_iff_lt_mul (by positivity)]
  show _ ↔ _ < 0x3fe921fc * 2 ^ 32
  norm_num

/-- C63: `tan` of every finite `f64` is finite, with a relative error of at most `2^-52`, and computing it does not panic. -/
theorem C63_tan (N : FPU f64) (p64 : Bool) {x : BitVec f64.w} (hx : f64.IsFin x) :
    ∃ r, Trig.tan N p64 x = .ok r ∧ f64.IsFin r ∧
      |((f64.val r : ℚ) : ℝ) - Real.tan ((f64.val x : ℚ) : ℝ)| ≤ 1 / 2 ^ 52 * |Real.tan ((f64.val x : ℚ) : ℝ)| := by
  obtain ⟨r, h1, h2, h3, -⟩ := tan_spec N p64 (x := x) ⟨hx, (f64.valK_cast x).symm⟩
  exact ⟨r, h1, h2, by rw [f64.valK_cast r]; exact h3⟩

/-- C63: `tan` is faithfully rounded for every argument up to `π / 4` (to the upper half of its bits). -/
theorem C63_tan_direct (N : FPU f64) (p64 : Bool) {x : BitVec f64.w} (hx : f64.mag x < 0x3fe921fc00000000) :
    ∃ r, Trig.tan N p64 x = .ok r ∧ f64.FaithfulTo (Real.tan ((f64.val x : ℚ) : ℝ)) r := by
  have hfin : f64.IsFin x := lt_trans hx (by decide)
  obtain ⟨r, h1, -, -, h4⟩ := tan_spec N p64 (x := x) ⟨hfin, (f64.valK_cast x).symm⟩
  exact ⟨r, h1, h4 (Or.inl (tan_in_range.mp hx))⟩

/-- C63: beyond that, `tan` is faithfully rounded if the distance of the argument to the nearest multiple of `π / 2` is at most `0.47` or at least `0.675`;
in particular near its zeros and poles. -/
theorem C63_tan_reduced (N : FPU f64) (p64 : Bool) {x : BitVec f64.w} (hx : f64.IsFin x)
    (h : (∃ k : ℤ, |((f64.val x : ℚ) : ℝ) - k * (Real.pi / 2)| ≤ 0.47) ∨ (∀ k : ℤ, 0.675 ≤ |((f64.val x : ℚ) : ℝ) - k * (Real.pi / 2)|)) :
    ∃ r, Trig.tan N p64 x = .ok r ∧ f64.FaithfulTo (Real.tan ((f64.val x : ℚ) : ℝ)) r := by
  obtain ⟨r, h1, -, -, h4⟩ := tan_spec N p64 (x := x) ⟨hx, (f64.valK_cast x).symm⟩
  exact ⟨r, h1, h4 (Or.inr h)⟩

/-- C63: `tan` keeps zeros, with their signs, and all tiny arguments unchanged. -/
theorem C63_tan_tiny (N : FPU f64) (p64 : Bool) {x : BitVec f64.w} (h : f64.mag x < 0x3e40000000000000) : Trig.tan N p64 x = .ok x := by
  have hh : Pio2.hi x < 0x3e400000 := by rw [hi_eq, Nat.div_lt_iff_lt_mul (by positivity)]; exact h
  have hdef : (x.toNat >>> 32) &&& 0x7fffffff = Pio2.hi x := rfl
  unfold Trig.tan
  simp only [hdef]
  rw [if_pos (by omega), if_pos hh]
  rfl

/-- C63: of infinities and NaN, `tan` gives NaN. -/
theorem C63_tan_special (N : FPU f64) (p64 : Bool) {x : BitVec f64.w} (hx : ¬ f64.IsFin x) : ∃ r, f64.IsNaN r ∧ Trig.tan N p64 x = .ok r := by
  have hm : f64.infRep ≤ f64.mag x := not_lt.1 hx
  have hh : 0x7ff00000 ≤ Pio2.hi x := by
    rw [hi_eq, Nat.le_div_iff_mul_le (by positivity)]
    exact hm
  have hdef : (x.toNat >>> 32) &&& 0x7fffffff = Pio2.hi x := rfl
  refine ⟨N.sub x x, sub_self_nan N hx, ?_⟩
  unfold Trig.tan
  simp only [hdef]
  have hl : ¬ Pio2.hi x ≤ 0x3fe921fb := by omega
  simp only [ge_iff_le, if_neg hl, if_pos hh]
  rfl

/-- Concrete cases: `0.7`, `1`, the nearest `f64` to `π / 2`, and `10^22`. -/
example : Trig.tan FPU.softF64 true 0x3fe6666666666666#64 = .ok 0x3feaf406c2fc78ae#64 ∧
    Trig.tan FPU.softF64 true 0x3ff0000000000000#64 = .ok 0x3ff8eb245cbee3a6#64 ∧
    Trig.tan FPU.softF64 true 0x3ff921fb54442d18#64 = .ok 0x434d02967c31cdb5#64 ∧
    Trig.tan FPU.softF64 true 0x4480f0cf064dd592#64 = .ok 0xbffa0f79c1b6b258#64 := by decide +kernel
example : f64.IsFin 0x4480f0cf064dd592#f64.w ∧ f64.mag 0x3fe6666666666666#f64.w < 0x3fe921fc00000000 ∧
    f64.mag 0x8000000000000000#f64.w < 0x3e40000000000000 ∧ ¬ f64.IsFin 0x7ff0000000000000#f64.w := by decide +kernel
/-- `3` is within `0.47` of `2 * (π / 2)`. -/
example : |((f64.val 0x4008000000000000#f64.w : ℚ) : ℝ) - (2 : ℤ) * (Real.pi / 2)| ≤ 0.47 := by
  rw [show f64.val 0x4008000000000000#f64.w = 3 by decide +kernel, abs_le]
  have := pi_gt20
  have := pi_lt20
  push_cast
  norm_num at *
  constructor <;> linarith

end Verif.Props
