import Verif.Libm.AsinEnds
/-! # Properties C72 to C75: `asin`, `acos`, `asinf` and `acosf` -/
namespace Verif.Props
open Fmt

/-- the numbers outside the domain `[-1, 1]` -/
theorem out_mag {F : Fmt} {x one : BitVec F.w} (h1 : F.val one = 1) (hf : F.IsFin one) (h : F.IsNaN x ∨ F.IsInf x ∨ F.IsFin x ∧ 1 < |F.val x|) : F.mag one < F.mag x := by
  have h1' : F.mag one < F.infRep := hf
  rcases h with h | h | ⟨hx, h⟩
  · have : F.infRep < F.mag x := h
    omega
  · have : F.mag x = F.infRep := h
    omega
  · rw [F.absv] at h
    have h2 := F.absv one
    rw [h1, abs_one] at h2
    rw [h2, F.magVal_lt_iff] at h
    exact h

/-- C72: `asin` of every `x` in `[-1, 1]` is finite, within `5 / 2^54` of the arcsine of `x` relatively, and in `[-π/2, π/2]`; computing it does not panic. -/
theorem C72_asin (N : FPU f64) {x : BitVec f64.w} (hx : f64.IsFin x) (h1 : |f64.val x| ≤ 1) :
    ∃ r, Asin.asin N x = .ok r ∧ f64.IsFin r ∧
      |((f64.val r : ℚ) : ℝ) - Real.arcsin ((f64.val x : ℚ) : ℝ)| ≤ 5 / 2 ^ 54 * |Real.arcsin ((f64.val x : ℚ) : ℝ)| ∧
      |((f64.val r : ℚ) : ℝ)| ≤ Real.pi / 2 := by
  have g : GFv f64 x ((f64.val x : ℚ) : ℝ) := ⟨hx, (f64.valK_cast x).symm⟩
  generalize hX : ((f64.val x : ℚ) : ℝ) = X at *
  have h1 : |X| ≤ 1 := by rw [← hX]; exact_mod_cast h1
  have hp := Real.pi_pos
  have hh := Asin.hi_near
  have hpi := Real.pi_lt_d2
  have hpi3 := Real.pi_gt_three
  norm_num at hpi
  rcases lt_or_eq_of_le h1 with h | h
  · obtain ⟨r, e, V, gV, eV⟩ := Asin.asin_spec N g h
    refine ⟨r, e, gV.fin, by rw [gV.valQ]; exact eV, ?_⟩
    rw [gV.valQ]
    have hg := Asin.gap Asin.big64 N Asin.one_fv Asin.half_fv g h (ε := 1 / 2 ^ 27) (by positivity) (by norm_num) (by rw [Asin.s64]; norm_num)
    refine Asin.range_asin eV ?_ hg ?_ (by positivity)
    · refine hg.trans ?_; norm_num; linarith
    · norm_num; linarith
  · have hb : (5 : ℝ) / 2 ^ 54 ≥ 1 / 10 ^ 16 := by norm_num
    rcases Asin.sgn_one g Asin.one_fv h with rfl | rfl
    · rw [Asin.one_fv.valQ] at hX
      refine ⟨_, (Asin.asin_one N).1, by decide +kernel, ?_⟩
      rw [← hX, Real.arcsin_one, f64.valK_cast, abs_of_pos (by linarith : 0 < Real.pi / 2)]
      refine ⟨?_, ?_⟩
      · rw [abs_le]; norm_num at hh ⊢; constructor <;> linarith [hh.1, hh.2]
      · rw [abs_le]; constructor <;> linarith [hh.1, hh.2]
    · rw [Asin.one_fv.neg.valQ] at hX
      refine ⟨_, (Asin.asin_one N).2, by decide +kernel, ?_⟩
      rw [← hX, Real.arcsin_neg, Real.arcsin_one, f64.val_neg, Rat.cast_neg, f64.valK_cast, abs_neg, abs_of_pos (by linarith : 0 < Real.pi / 2)]
      refine ⟨?_, ?_⟩
      · rw [abs_le]; norm_num at hh ⊢; constructor <;> linarith [hh.1, hh.2]
      · rw [abs_le]; constructor <;> linarith [hh.1, hh.2]

/-- C72: `asin(±1)` is the number nearest to `±π/2`, and the zeros are kept. -/
theorem C72_asin_ends (N : FPU f64) :
    Asin.asin N 0x3ff0000000000000#f64.w = .ok 0x3ff921fb54442d18#f64.w ∧ Asin.asin N 0xbff0000000000000#f64.w = .ok 0xbff921fb54442d18#f64.w ∧
    Asin.asin N 0x0000000000000000#f64.w = .ok 0x0000000000000000#f64.w ∧ Asin.asin N 0x8000000000000000#f64.w = .ok 0x8000000000000000#f64.w :=
  ⟨(Asin.asin_one N).1, (Asin.asin_one N).2, (Asin.asin_zero N).1, (Asin.asin_zero N).2⟩

/-- C72: outside `[-1, 1]`, and for NaN, the result is NaN. -/
theorem C72_asin_nan (N : FPU f64) {x : BitVec f64.w} (h : f64.IsNaN x ∨ f64.IsInf x ∨ f64.IsFin x ∧ 1 < |f64.val x|) : ∃ r, Asin.asin N x = .ok r ∧ f64.IsNaN r :=
  Asin.asin_out N (out_mag (one := Asin.one) (by decide +kernel) (by decide +kernel) h)

/-- Concrete cases: `1/2`, `-1/2`, `0.95`, `0.99`, `0.3`, the predecessor of 1, the least subnormal. -/
example : Asin.asin FPU.softF64 0x3fe0000000000000#f64.w = .ok 0x3fe0c152382d7366#f64.w ∧
    Asin.asin FPU.softF64 0xbfe0000000000000#f64.w = .ok 0xbfe0c152382d7366#f64.w ∧
    Asin.asin FPU.softF64 0x3fee666666666666#f64.w = .ok 0x3ff40d41159f3409#f64.w ∧
    Asin.asin FPU.softF64 0x3fefae147ae147ae#f64.w = .ok 0x3ff6de3c6f33d51d#f64.w ∧
    Asin.asin FPU.softF64 0x3fd3333333333333#f64.w = .ok 0x3fd380159e14f6ff#f64.w ∧
    Asin.asin FPU.softF64 0x3fefffffffffffff#f64.w = .ok 0x3ff921fb50442d18#f64.w ∧
    Asin.asin FPU.softF64 0x0000000000000001#f64.w = .ok 0x0000000000000001#f64.w := by decide +kernel
example : f64.IsFin 0x3fee666666666666#f64.w ∧ |f64.val 0x3fee666666666666#f64.w| ≤ 1 ∧ f64.IsFin 0x4000000000000000#f64.w ∧ 1 < |f64.val 0x4000000000000000#f64.w| := by decide +kernel

/-- C73: `acos` of every `x` in `[-1, 1]` is finite, within `2^-52` of the arccosine of `x` relatively, and in `[0, π]`; computing it does not panic. -/
theorem C73_acos (N : FPU f64) {x : BitVec f64.w} (hx : f64.IsFin x) (h1 : |f64.val x| ≤ 1) :
    ∃ r, Asin.acos N x = .ok r ∧ f64.IsFin r ∧
      |((f64.val r : ℚ) : ℝ) - Real.arccos ((f64.val x : ℚ) : ℝ)| ≤ 1 / 2 ^ 52 * Real.arccos ((f64.val x : ℚ) : ℝ) ∧
      0 ≤ f64.val r ∧ ((f64.val r : ℚ) : ℝ) ≤ Real.pi := by
  have g : GFv f64 x ((f64.val x : ℚ) : ℝ) := ⟨hx, (f64.valK_cast x).symm⟩
  generalize hX : ((f64.val x : ℚ) : ℝ) = X at *
  have h1 : |X| ≤ 1 := by rw [← hX]; exact_mod_cast h1
  have hp := Real.pi_pos
  have hh := Asin.hi_near
  have hpi := Real.pi_lt_d2
  have hpi3 := Real.pi_gt_three
  norm_num at hpi
  rcases lt_or_eq_of_le h1 with h | h
  · obtain ⟨r, e, V, gV, eV⟩ := Asin.acos_spec N g h
    have hg := Asin.gap Asin.big64 N Asin.one_fv Asin.half_fv g h (ε := 1 / 2 ^ 27) (by positivity) (by norm_num) (by rw [Asin.s64]; norm_num)
    have hg := abs_le.mp hg
    have h0 := Real.arccos_nonneg X
    have hd : Real.arccos X = Real.pi / 2 - Real.arcsin X := rfl
    have hle := abs_le.mp eV
    refine ⟨r, e, gV.fin, by rw [gV.valQ]; exact eV, ?_, ?_⟩
    · have : (0 : ℝ) ≤ ((f64.val r : ℚ) : ℝ) := by
        rw [gV.valQ]
        have : 1 / 2 ^ 52 * Real.arccos X ≤ 1 * Real.arccos X := mul_le_mul_of_nonneg_right (by norm_num) h0
        linarith [hle.1]
      exact_mod_cast this
    · rw [gV.valQ]
      have : 1 / 2 ^ 52 * Real.arccos X ≤ 1 / 2 ^ 52 * 4 := mul_le_mul_of_nonneg_left (by norm_num at hg ⊢; linarith [hg.1]) (by norm_num)
      have h2 : (1 : ℝ) / 2 ^ 52 * 4 ≤ 2 * (1 / 2 ^ 27) := by norm_num
      linarith [hle.2, hg.1]
  · rcases Asin.sgn_one g Asin.one_fv h with rfl | rfl
    · rw [Asin.one_fv.valQ] at hX
      refine ⟨_, (Asin.acos_one N).1, by decide +kernel, ?_⟩
      have hz : f64.val Asin.zero = 0 := by decide +kernel
      rw [← hX, Real.arccos_one, hz]
      simp [hp.le]
    · rw [Asin.one_fv.neg.valQ] at hX
      refine ⟨_, (Asin.acos_one N).2, by decide +kernel, ?_⟩
      rw [← hX, Real.arccos_neg, Real.arccos_one, sub_zero, f64.valK_cast, Asin.pi_eq]
      refine ⟨?_, by decide +kernel, by linarith [hh.1]⟩
      rw [abs_le]; norm_num at hh ⊢; constructor <;> linarith [hh.1, hh.2]

/-- C73: `acos(1)` is `+0`, `acos(-1)` is the number nearest to `π`. -/
theorem C73_acos_ends (N : FPU f64) :
    Asin.acos N 0x3ff0000000000000#f64.w = .ok 0x0000000000000000#f64.w ∧ Asin.acos N 0xbff0000000000000#f64.w = .ok 0x400921fb54442d18#f64.w :=
  Asin.acos_one N

/-- C73: outside `[-1, 1]`, and for NaN, the result is NaN. -/
theorem C73_acos_nan (N : FPU f64) {x : BitVec f64.w} (h : f64.IsNaN x ∨ f64.IsInf x ∨ f64.IsFin x ∧ 1 < |f64.val x|) : ∃ r, Asin.acos N x = .ok r ∧ f64.IsNaN r :=
  Asin.acos_out N (out_mag (one := Asin.one) (by decide +kernel) (by decide +kernel) h)

/-- Concrete cases: `1/2`, `-1/2`, `0.95`, `0.99`, `0.3`, the predecessor of 1, the least subnormal. -/
example : Asin.acos FPU.softF64 0x3fe0000000000000#f64.w = .ok 0x3ff0c152382d7366#f64.w ∧
    Asin.acos FPU.softF64 0xbfe0000000000000#f64.w = .ok 0x4000c152382d7366#f64.w ∧
    Asin.acos FPU.softF64 0x3fee666666666666#f64.w = .ok 0x3fd452e8fa93e43c#f64.w ∧
    Asin.acos FPU.softF64 0x3fefae147ae147ae#f64.w = .ok 0x3fc21df72882bfd8#f64.w ∧
    Asin.acos FPU.softF64 0x3fd3333333333333#f64.w = .ok 0x3ff441f5ecbeef59#f64.w ∧
    Asin.acos FPU.softF64 0x3fefffffffffffff#f64.w = .ok 0x3e50000000000000#f64.w ∧
    Asin.acos FPU.softF64 0x0000000000000001#f64.w = .ok 0x3ff921fb54442d18#f64.w := by decide +kernel

/-- C74: `asinf` of every `x` in `[-1, 1]` is finite, within `2^-23` of the arcsine of `x` relatively, and its absolute value is not greater than the number
nearest to `π/2`; computing it does not panic. -/
theorem C74_asinf (N : FPU f32) (N64 : FPU f64) (C : FloatCast f32 f64) {x : BitVec f32.w} (hx : f32.IsFin x) (h1 : |f32.val x| ≤ 1) :
    ∃ r, Asin.F32.asinf N N64 C x = .ok r ∧ f32.IsFin r ∧
      |((f32.val r : ℚ) : ℝ) - Real.arcsin ((f32.val x : ℚ) : ℝ)| ≤ 1 / 2 ^ 23 * |Real.arcsin ((f32.val x : ℚ) : ℝ)| ∧
      |f32.val r| ≤ f32.val 0x3fc90fdb#f32.w := by
  have g : GFv f32 x ((f32.val x : ℚ) : ℝ) := ⟨hx, (f32.valK_cast x).symm⟩
  generalize hX : ((f32.val x : ℚ) : ℝ) = X at *
  have h1 : |X| ≤ 1 := by rw [← hX]; exact_mod_cast h1
  have hp := Real.pi_pos
  have hh := Asin.F32.hn_near
  have hpi := Real.pi_lt_d2
  have hpi3 := Real.pi_gt_three
  norm_num at hpi
  rcases lt_or_eq_of_le h1 with h | h
  · obtain ⟨r, e, V, gV, eV⟩ := Asin.F32.asinf_spec N N64 C g h
    refine ⟨r, e, gV.fin, by rw [gV.valQ]; exact eV, ?_⟩
    have hg := Asin.gap Asin.F32.big32 N Asin.F32.one_fv Asin.F32.half_fv g h (ε := 1 / 2 ^ 13) (by positivity) (by norm_num) (by rw [Asin.F32.s32]; norm_num)
    have := Asin.range_asin eV (H := f32.valK ℝ Asin.F32.HN) (by refine hg.trans ?_; norm_num; linarith) hg (by norm_num at hh ⊢; linarith [hh.2]) (by positivity)
    rw [← gV.valQ, ← f32.valK_cast] at this
    exact_mod_cast this
  · have hs := abs_le.mp hh.1
    rcases Asin.sgn_one g Asin.F32.one_fv h with rfl | rfl
    · rw [Asin.F32.one_fv.valQ] at hX
      refine ⟨_, (Asin.F32.asinf_one N N64 C).1, by decide +kernel, ?_, by decide +kernel⟩
      rw [← hX, Real.arcsin_one, f32.valK_cast, abs_of_pos (by linarith : 0 < Real.pi / 2), abs_le]
      norm_num at hs ⊢; constructor <;> linarith [hs.1, hs.2]
    · rw [Asin.F32.one_fv.neg.valQ] at hX
      refine ⟨_, (Asin.F32.asinf_one N N64 C).2, by decide +kernel, ?_, by decide +kernel⟩
      rw [← hX, Real.arcsin_neg, Real.arcsin_one, f32.val_neg, Rat.cast_neg, f32.valK_cast, abs_neg, abs_of_pos (by linarith : 0 < Real.pi / 2), abs_le]
      norm_num at hs ⊢; constructor <;> linarith [hs.1, hs.2]

/-- C74: `asinf(±1)` is the number nearest to `±π/2`, and the zeros are kept. -/
theorem C74_asinf_ends (N : FPU f32) (N64 : FPU f64) (C : FloatCast f32 f64) :
    Asin.F32.asinf N N64 C 0x3f800000#f32.w = .ok 0x3fc90fdb#f32.w ∧ Asin.F32.asinf N N64 C 0xbf800000#f32.w = .ok 0xbfc90fdb#f32.w ∧
    Asin.F32.asinf N N64 C 0x00000000#f32.w = .ok 0x00000000#f32.w ∧ Asin.F32.asinf N N64 C 0x80000000#f32.w = .ok 0x80000000#f32.w :=
  ⟨(Asin.F32.asinf_one N N64 C).1, (Asin.F32.asinf_one N N64 C).2, (Asin.F32.asinf_zero N N64 C).1, (Asin.F32.asinf_zero N N64 C).2⟩

/-- C74: outside `[-1, 1]`, and for NaN, the result is NaN. -/
theorem C74_asinf_nan (N : FPU f32) (N64 : FPU f64) (C : FloatCast f32 f64) {x : BitVec f32.w} (h : f32.IsNaN x ∨ f32.IsInf x ∨ f32.IsFin x ∧ 1 < |f32.val x|) :
    ∃ r, Asin.F32.asinf N N64 C x = .ok r ∧ f32.IsNaN r :=
  Asin.F32.asinf_out N N64 C (out_mag (one := Asin.F32.one) (by decide +kernel) (by decide +kernel) h)

/-- Concrete cases: `1/2`, `-1/2`, `0.95`, `0.99`, `0.3`, the predecessor of 1, the least subnormal. -/
example : Asin.F32.asinf FPU.softF32 FPU.softF64 (softCast wider_32_64) 0x3f000000#f32.w = .ok 0x3f060a92#f32.w ∧
    Asin.F32.asinf FPU.softF32 FPU.softF64 (softCast wider_32_64) 0xbf000000#f32.w = .ok 0xbf060a92#f32.w ∧
    Asin.F32.asinf FPU.softF32 FPU.softF64 (softCast wider_32_64) 0x3f733333#f32.w = .ok 0x3fa06a08#f32.w ∧
    Asin.F32.asinf FPU.softF32 FPU.softF64 (softCast wider_32_64) 0x3f7d70a4#f32.w = .ok 0x3fb6f1e4#f32.w ∧
    Asin.F32.asinf FPU.softF32 FPU.softF64 (softCast wider_32_64) 0x3e99999a#f32.w = .ok 0x3e9c00ad#f32.w ∧
    Asin.F32.asinf FPU.softF32 FPU.softF64 (softCast wider_32_64) 0x3f7fffff#f32.w = .ok 0x3fc9048a#f32.w ∧
    Asin.F32.asinf FPU.softF32 FPU.softF64 (softCast wider_32_64) 0x00000001#f32.w = .ok 0x00000001#f32.w := by decide +kernel
example : f32.IsFin 0x3f733333#f32.w ∧ |f32.val 0x3f733333#f32.w| ≤ 1 ∧ f32.IsFin 0x40000000#f32.w ∧ 1 < |f32.val 0x40000000#f32.w| := by decide +kernel

/-- C75: `acosf` of every `x` in `[-1, 1]` is finite, within `2^-23` of the arccosine of `x` relatively, and in `[0, acosf(-1)]`; computing it does not panic. -/
theorem C75_acosf (N : FPU f32) {x : BitVec f32.w} (hx : f32.IsFin x) (h1 : |f32.val x| ≤ 1) :
    ∃ r, Asin.F32.acosf N x = .ok r ∧ f32.IsFin r ∧
      |((f32.val r : ℚ) : ℝ) - Real.arccos ((f32.val x : ℚ) : ℝ)| ≤ 1 / 2 ^ 23 * Real.arccos ((f32.val x : ℚ) : ℝ) ∧
      0 ≤ f32.val r ∧ f32.val r ≤ f32.val 0x40490fda#f32.w := by
  have g : GFv f32 x ((f32.val x : ℚ) : ℝ) := ⟨hx, (f32.valK_cast x).symm⟩
  generalize hX : ((f32.val x : ℚ) : ℝ) = X at *
  have h1 : |X| ≤ 1 := by rw [← hX]; exact_mod_cast h1
  have hp := Real.pi_pos
  have hh := abs_le.mp Asin.F32.pi_near32
  have hpi := Real.pi_lt_d2
  have hpi3 := Real.pi_gt_three
  norm_num at hpi
  rcases lt_or_eq_of_le h1 with h | h
  · obtain ⟨r, e, V, gV, eV⟩ := Asin.F32.acosf_spec N g h
    have hg := Asin.gap Asin.F32.big32 N Asin.F32.one_fv Asin.F32.half_fv g h (ε := 1 / 2 ^ 13) (by positivity) (by norm_num) (by rw [Asin.F32.s32]; norm_num)
    have hg := abs_le.mp hg
    have h0 := Real.arccos_nonneg X
    have hd : Real.arccos X = Real.pi / 2 - Real.arcsin X := rfl
    have hle := abs_le.mp eV
    refine ⟨r, e, gV.fin, by rw [gV.valQ]; exact eV, ?_, ?_⟩
    · have : (0 : ℝ) ≤ ((f32.val r : ℚ) : ℝ) := by
        rw [gV.valQ]
        have : 1 / 2 ^ 23 * Real.arccos X ≤ 1 * Real.arccos X := mul_le_mul_of_nonneg_right (by norm_num) h0
        linarith [hle.1]
      exact_mod_cast this
    · have : V ≤ f32.valK ℝ Asin.F32.PI := by
        have : 1 / 2 ^ 23 * Real.arccos X ≤ 1 / 2 ^ 23 * 4 := mul_le_mul_of_nonneg_left (by norm_num at hg ⊢; linarith [hg.1]) (by norm_num)
        have h2 : (1 : ℝ) / 2 ^ 23 * 4 + 16 / 10 ^ 8 ≤ 2 * (1 / 2 ^ 13) := by norm_num
        linarith [hle.2, hg.1, hh.1]
      rw [← gV.valQ, ← f32.valK_cast] at this
      exact_mod_cast this
  · rcases Asin.sgn_one g Asin.F32.one_fv h with rfl | rfl
    · rw [Asin.F32.one_fv.valQ] at hX
      refine ⟨_, (Asin.F32.acosf_one N).1, by decide +kernel, ?_, by decide +kernel, by decide +kernel⟩
      have hz : f32.val Asin.F32.zero = 0 := by decide +kernel
      rw [← hX, Real.arccos_one, hz]
      simp
    · rw [Asin.F32.one_fv.neg.valQ] at hX
      refine ⟨_, (Asin.F32.acosf_one N).2, by decide +kernel, ?_, by decide +kernel, by decide +kernel⟩
      rw [← hX, Real.arccos_neg, Real.arccos_one, sub_zero, f32.valK_cast, abs_le]
      norm_num at hh ⊢; constructor <;> linarith [hh.1, hh.2]

/-- C75: `acosf(1)` is `+0`, `acosf(-1)` is the number below the one nearest to `π`. -/
theorem C75_acosf_ends (N : FPU f32) :
    Asin.F32.acosf N 0x3f800000#f32.w = .ok 0x00000000#f32.w ∧ Asin.F32.acosf N 0xbf800000#f32.w = .ok 0x40490fda#f32.w :=
  Asin.F32.acosf_one N

/-- C75: outside `[-1, 1]`, and for NaN, the result is NaN. -/
theorem C75_acosf_nan (N : FPU f32) {x : BitVec f32.w} (h : f32.IsNaN x ∨ f32.IsInf x ∨ f32.IsFin x ∧ 1 < |f32.val x|) : ∃ r, Asin.F32.acosf N x = .ok r ∧ f32.IsNaN r :=
  Asin.F32.acosf_out N (out_mag (one := Asin.F32.one) (by decide +kernel) (by decide +kernel) h)
/-- Concrete cases: `1/2`, `-1/2`, `0.95`, `0.99`, `0.3`, the predecessor of 1, the least subnormal. -/
example : Asin.F32.acosf FPU.softF32 0x3f000000#f32.w = .ok 0x3f860a92#f32.w ∧
    Asin.F32.acosf FPU.softF32 0xbf000000#f32.w = .ok 0x40060a92#f32.w ∧
    Asin.F32.acosf FPU.softF32 0x3f733333#f32.w = .ok 0x3ea29749#f32.w ∧
    Asin.F32.acosf FPU.softF32 0x3f7d70a4#f32.w = .ok 0x3e10efb5#f32.w ∧
    Asin.F32.acosf FPU.softF32 0x3e99999a#f32.w = .ok 0x3fa20faf#f32.w ∧
    Asin.F32.acosf FPU.softF32 0x3f7fffff#f32.w = .ok 0x39b504f3#f32.w ∧
    Asin.F32.acosf FPU.softF32 0x00000001#f32.w = .ok 0x3fc90fda#f32.w := by decide +kernel
end Verif.Props
