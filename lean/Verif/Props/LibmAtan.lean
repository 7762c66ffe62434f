import Verif.Libm.AtanMain
import Verif.Libm.AtanFMain
/-! # Properties C68 and C69: `atan` and `atanf` -/
namespace Verif.Props
open Fmt

/-- C68: `atan` of every finite number `x` is finite, within `2^-52` of the arc tangent of `x` relatively, and in `[-π/2, π/2]`; computing it does not
panic. -/
theorem C68_atan (N : FPU f64) {x : BitVec f64.w} (hx : f64.IsFin x) :
    ∃ r, Atan.atan N x = .ok r ∧ f64.IsFin r ∧
      |((f64.val r : ℚ) : ℝ) - Real.arctan ((f64.val x : ℚ) : ℝ)| ≤ 1 / 2 ^ 52 * |Real.arctan ((f64.val x : ℚ) : ℝ)| ∧
      |((f64.val r : ℚ) : ℝ)| ≤ Real.pi / 2 := by
  obtain ⟨r, h, W, w1, w2, w3⟩ := Atan.atan_spec N (⟨hx, (f64.valK_cast x).symm⟩ : GFv f64 x ((f64.val x : ℚ) : ℝ))
  refine ⟨r, h, w1.fin, ?_⟩
  rw [w1.valQ]
  exact ⟨w2, w3.trans Atan.hi3_lt.1⟩

/-- C68: `atan(±∞)` is the number nearest to `±π/2`. -/
theorem C68_atan_inf (N : FPU f64) : Atan.atan N 0x7ff0000000000000#f64.w = .ok 0x3ff921fb54442d18#f64.w ∧
    Atan.atan N 0xfff0000000000000#f64.w = .ok 0xbff921fb54442d18#f64.w ∧
    ∀ c, f64.IsFin c → |Real.pi / 2 - ((f64.val 0x3ff921fb54442d18#f64.w : ℚ) : ℝ)| ≤ |Real.pi / 2 - ((f64.val c : ℚ) : ℝ)| := by
  have key : ∀ x : BitVec f64.w, (Atan.atan N x) = if (x.toNat >>> 32) &&& 0x7fffffff ≥ 0x44100000 ∧ f64.isNan x = false then
      .ok (if (x.toNat >>> 32) >>> 31 ≠ 0 then f64.neg (Atan.HI 3) else Atan.HI 3) else Atan.atan N x := by
    intro x
    split
    · rename_i h
      unfold Atan.atan
      simp only
      rw [if_pos h.1, h.2, if_neg (by simp), Atan.add_tiny]
    · rfl
  refine ⟨by rw [key, if_pos (by decide +kernel)]; decide +kernel, by rw [key, if_pos (by decide +kernel)]; decide +kernel, fun c hc => ?_⟩
  have h3 : |f64.valK ℝ (Atan.HI 3) - Real.pi / 2| ≤ 7 / 10 ^ 17 := by
    have h1 : |f64.val (Atan.HI 3) - 314159265358979323846 / 10 ^ 20 / 2| ≤ 65 / 10 ^ 18 := by decide +kernel
    have h1' := Rat.cast_le (K := ℝ).mpr h1
    have := Atan.pi2_near
    push_cast at h1' this
    rw [f64.valK_cast] at h1'
    rw [abs_le] at this h1' ⊢
    constructor <;> linarith [h1'.1, h1'.2, this.1, this.2]
  rw [f64.valK_cast, f64.valK_cast]
  show |Real.pi / 2 - f64.valK ℝ (Atan.HI 3)| ≤ _
  rw [abs_sub_comm]
  by_contra hcc
  rw [not_le] at hcc
  have h4 := Atan.hi3_lt.2
  have hne : f64.valK ℝ (Atan.HI 3) ≠ f64.valK ℝ c := by
    intro e; rw [e, abs_sub_comm] at hcc; exact lt_irrefl _ hcc
  have h6 : (15707 / 10000 : ℝ) / 2 ^ (f64.s + 1) > 2 * (7 / 10 ^ 17) := by rw [show f64.s = 52 from rfl]; norm_num
  have h7 := hcc.trans_le h3
  rw [abs_le] at h3
  rw [abs_lt] at h7
  rcases lt_or_gt_of_ne hne with h | h
  · have g := f64.gap_rel (b := Atan.HI 3) (c := c) (by linarith) h
    have h5 : (15707 / 10000 : ℝ) / 2 ^ (f64.s + 1) ≤ f64.valK ℝ c / 2 ^ (f64.s + 1) := by gcongr; linarith
    linarith [h3.1, h3.2, h7.1, h7.2]
  · have g := f64.gap_rel (b := c) (c := Atan.HI 3) (by linarith) h
    have h5 : (15707 / 10000 : ℝ) / 2 ^ (f64.s + 1) ≤ f64.valK ℝ (Atan.HI 3) / 2 ^ (f64.s + 1) := by gcongr
    linarith [h3.1, h3.2, h7.1, h7.2]

/-- C68: `atan` of a NaN is that NaN. -/
theorem C68_atan_nan (N : FPU f64) {x : BitVec f64.w} (h : f64.IsNaN x) : Atan.atan N x = .ok x := by
  have h1 : f64.infRep < f64.mag x := h
  have hinf : f64.infRep = 0x7ff0000000000000 := by decide +kernel
  unfold Atan.atan
  simp only [hi64]
  rw [if_pos (by omega), if_pos ((f64.isNan_iff x).mpr h)]

/-- C68: the zeros keep their signs. -/
theorem C68_atan_zero (N : FPU f64) : Atan.atan N 0x0000000000000000#f64.w = .ok 0x0000000000000000#f64.w ∧
    Atan.atan N 0x8000000000000000#f64.w = .ok 0x8000000000000000#f64.w := ⟨rfl, rfl⟩

/-- Concrete cases: `1/2`, `-1`, `2`, `10`, `1/3`, the least subnormal, the largest number. -/
example : Atan.atan FPU.softF64 0x3fe0000000000000#64 = .ok 0x3fddac670561bb4f#64 ∧
    Atan.atan FPU.softF64 0xbff0000000000000#64 = .ok 0xbfe921fb54442d18#64 ∧
    Atan.atan FPU.softF64 0x4000000000000000#64 = .ok 0x3ff1b6e192ebbe44#64 ∧
    Atan.atan FPU.softF64 0x4024000000000000#64 = .ok 0x3ff789bd2c160054#64 ∧
    Atan.atan FPU.softF64 0x3fd5555555555555#64 = .ok 0x3fd4978fa3269ee1#64 ∧
    Atan.atan FPU.softF64 0x0000000000000001#64 = .ok 0x0000000000000001#64 ∧
    Atan.atan FPU.softF64 0x7fefffffffffffff#64 = .ok 0x3ff921fb54442d18#64 := by decide +kernel
example : f64.IsFin 0x4024000000000000#f64.w ∧ f64.IsNaN 0x7ff8000000000000#f64.w := by decide +kernel

/-- C69: `atanf` of every finite number `x` is finite, within `2^-23` of the arc tangent of `x` relatively, and its absolute value is not greater than the
number nearest to `π/2`; computing it does not panic. -/
theorem C69_atanf (N : FPU f32) {x : BitVec f32.w} (hx : f32.IsFin x) :
    ∃ r, Atan.F32.atanf N x = .ok r ∧ f32.IsFin r ∧
      |((f32.val r : ℚ) : ℝ) - Real.arctan ((f32.val x : ℚ) : ℝ)| ≤ 1 / 2 ^ 23 * |Real.arctan ((f32.val x : ℚ) : ℝ)| ∧
      |f32.val r| ≤ f32.val 0x3fc90fdb#f32.w := by
  obtain ⟨r, h, W, w1, w2, w3⟩ := Atan.F32.atanf_spec N (⟨hx, (f32.valK_cast x).symm⟩ : GFv f32 x ((f32.val x : ℚ) : ℝ))
  refine ⟨r, h, w1.fin, by rw [w1.valQ]; exact w2, ?_⟩
  rw [← w1.valQ, ← f32.valK_cast] at w3
  exact_mod_cast w3

/-- C69: `atanf(±∞)` is within `2^-23` of `±π/2`, and in `[-π/2, π/2]`. -/
theorem C69_atanf_inf (N : FPU f32) : Atan.F32.atanf N 0x7f800000#f32.w = .ok 0x3fc90fda#f32.w ∧
    Atan.F32.atanf N 0xff800000#f32.w = .ok 0xbfc90fda#f32.w ∧
    ((f32.val 0x3fc90fda#f32.w : ℚ) : ℝ) < Real.pi / 2 ∧ Real.pi / 2 - ((f32.val 0x3fc90fda#f32.w : ℚ) : ℝ) ≤ 1 / 2 ^ 23 := by
  have key : ∀ x : BitVec f32.w, (Atan.F32.atanf N x) = if x.toNat &&& 0x7fffffff ≥ 0x4c800000 ∧ f32.isNan x = false then
      .ok (if x.toNat >>> 31 ≠ 0 then f32.neg (Atan.F32.HI 3) else Atan.F32.HI 3) else Atan.F32.atanf N x := by
    intro x
    split
    · rename_i h
      unfold Atan.F32.atanf
      simp only
      rw [if_pos h.1, h.2, if_neg (by simp), show Pio2.rd 4 Atan.F32.HI 3 = .ok (Atan.F32.HI 3) from rfl, ok_bind, Atan.F32.add_tiny]
      rfl
    · rfl
  refine ⟨by rw [key, if_pos (by decide +kernel)]; decide +kernel, by rw [key, if_pos (by decide +kernel)]; decide +kernel, ?_⟩
  have h1 : f32.val 0x3fc90fda#f32.w ≤ 314159265358979323846 / 10 ^ 20 / 2 - 1 / 10 ^ 9 ∧
      314159265358979323846 / 10 ^ 20 / 2 - 1 / 10 ^ 7 ≤ f32.val 0x3fc90fda#f32.w := by decide +kernel
  have h1' := Rat.cast_le (K := ℝ).mpr h1.1
  have h2' := Rat.cast_le (K := ℝ).mpr h1.2
  have := Atan.pi2_near
  push_cast at h1' h2' this
  rw [abs_le] at this
  have h3 : (1 : ℝ) / 10 ^ 7 + 2 / 10 ^ 20 ≤ 1 / 2 ^ 23 := by norm_num
  have h4 : (2 : ℝ) / 10 ^ 20 < 1 / 10 ^ 9 := by norm_num
  exact ⟨by linarith [this.1], by linarith [this.2]⟩

/-- C69: `atanf` of a NaN is that NaN. -/
theorem C69_atanf_nan (N : FPU f32) {x : BitVec f32.w} (h : f32.IsNaN x) : Atan.F32.atanf N x = .ok x := by
  have h1 : f32.infRep < f32.mag x := h
  have hinf : f32.infRep = 0x7f800000 := by decide +kernel
  unfold Atan.F32.atanf
  simp only [mag32]
  rw [if_pos (by omega), if_pos ((f32.isNan_iff x).mpr h)]

/-- C69: the zeros keep their signs. -/
theorem C69_atanf_zero (N : FPU f32) : Atan.F32.atanf N 0x00000000#f32.w = .ok 0x00000000#f32.w ∧
    Atan.F32.atanf N 0x80000000#f32.w = .ok 0x80000000#f32.w := ⟨rfl, rfl⟩

/-- Concrete cases: `1/2`, `-1`, `2`, `10`, `1/3`, the least subnormal, the largest number, and the predecessor of `2^26`, whose result is greater than `π/2`. -/
example : Atan.F32.atanf FPU.softF32 0x3f000000#32 = .ok 0x3eed6338#32 ∧
    Atan.F32.atanf FPU.softF32 0xbf800000#32 = .ok 0xbf490fdb#32 ∧
    Atan.F32.atanf FPU.softF32 0x40000000#32 = .ok 0x3f8db70d#32 ∧
    Atan.F32.atanf FPU.softF32 0x41200000#32 = .ok 0x3fbc4de9#32 ∧
    Atan.F32.atanf FPU.softF32 0x3eaaaaab#32 = .ok 0x3ea4bc7d#32 ∧
    Atan.F32.atanf FPU.softF32 0x00000001#32 = .ok 0x00000001#32 ∧
    Atan.F32.atanf FPU.softF32 0x7f7fffff#32 = .ok 0x3fc90fda#32 ∧
    Atan.F32.atanf FPU.softF32 0x4c7fffff#32 = .ok 0x3fc90fdb#32 := by decide +kernel
example : f32.IsFin 0x41200000#f32.w ∧ f32.IsNaN 0x7fc00000#f32.w := by decide +kernel

end Verif.Props
