import Verif.Libm.InvHypMain
import Verif.Libm.InvHypFMain
import Verif.Libm.NativeEq
/-! # Properties C87 to C92: `asinh`, `acosh`, `atanh` and the `f32` versions -/
namespace Verif.Props
open Fmt

/-- C87: for every finite `x`, `asinh` is finite, has the sign of `x`, and is within `3 / 2^52` of the inverse hyperbolic sine of `x` relatively;
computing it does not panic. -/
theorem C87_asinh (N : FPU f64) {x : BitVec f64.w} (hx : f64.IsFin x) :
    ∃ r, InvHyp.asinh N x = .ok r ∧ f64.IsFin r ∧ f64.sign r = f64.sign x ∧
      |((f64.val r : ℚ) : ℝ) - Real.arsinh ((f64.val x : ℚ) : ℝ)| ≤ 3 / 2 ^ 52 * |Real.arsinh ((f64.val x : ℚ) : ℝ)| := by
  have hv : GFv f64 x ((f64.val x : ℚ) : ℝ) := ⟨hx, (f64.valK_cast x).symm⟩
  obtain ⟨r, e, ⟨W, w1, w2⟩, hs⟩ := InvHyp.asinh_fin N hv
  refine ⟨r, e, w1.fin, hs, ?_⟩
  rw [w1.valQ]
  unfold Rl at w2
  rw [Expm1.s64] at w2
  refine w2.trans (le_of_eq ?_)
  norm_num

/-- C87: an argument below `2^-26` in magnitude is returned unchanged, also both zeros. -/
theorem C87_asinh_tiny (N : FPU f64) {x : BitVec f64.w} (hx : f64.IsFin x) (h : |f64.val x| < 1 / 2 ^ 26) : InvHyp.asinh N x = .ok x := by
  have hv : GFv f64 x ((f64.val x : ℚ) : ℝ) := ⟨hx, (f64.valK_cast x).symm⟩
  have c3 := (InvHyp.e_lt hv (0x3ff - 26) (1 / 2 ^ 26) (by decide +kernel)).mpr (by exact_mod_cast h)
  unfold InvHyp.asinh
  simp only [InvHyp.abs_fab64]
  rw [InvHyp.e64]
  unfold InvHyp.asinhAbs
  rw [if_neg (by omega), if_neg (by omega), if_neg (by omega)]
  exact congrArg Except.ok (InvHyp.unabs x (InvHyp.sgn64 x))

/-- C87: `asinh` of an infinity is the same infinity. -/
theorem C87_asinh_inf (N : FPU f64) {x : BitVec f64.w} (h : f64.IsInf x) : InvHyp.asinh N x = .ok x := by
  obtain ⟨f1, f2⟩ := f64.fabs_facts x
  have hinf : f64.infRep = 0x7ff0000000000000 := by decide +kernel
  have hm : f64.mag x = 0x7ff0000000000000 := by rw [← hinf]; exact h
  obtain ⟨z, e, g1, g2⟩ := InvHyp.big_inf (InvHyp.fn64 N) (InvHyp.fnX64 N) N (x := f64.fabs x) (f2.trans h) f1
  have hz : z = f64.fabs x := f64.ext_sign_mag (g2.trans f1.symm) (by unfold Fmt.IsInf at g1; rw [g1, f2]; exact h.symm)
  unfold InvHyp.asinh
  simp only [InvHyp.abs_fab64]
  rw [InvHyp.e64]
  unfold InvHyp.asinhAbs
  rw [if_pos (by omega), e, hz]
  exact congrArg Except.ok (InvHyp.unabs x (InvHyp.sgn64 x))

/-- C87: `asinh` of a NaN is a NaN. -/
theorem C87_asinh_nan (N : FPU f64) {x : BitVec f64.w} (h : f64.IsNaN x) : ∃ r, InvHyp.asinh N x = .ok r ∧ f64.IsNaN r := by
  obtain ⟨f1, f2⟩ := f64.fabs_facts x
  have hinf : f64.infRep = 0x7ff0000000000000 := by decide +kernel
  have hm : 0x7ff0000000000000 < f64.mag x := by rw [← hinf]; exact h
  obtain ⟨z, e, g⟩ := InvHyp.big_nan (ln2 := InvHyp.LN2) (InvHyp.fnX64 N) N (x := f64.fabs x) (Or.inl (by unfold Fmt.IsNaN; rw [f2]; exact h))
  unfold InvHyp.asinh
  simp only [InvHyp.abs_fab64]
  rw [InvHyp.e64]
  unfold InvHyp.asinhAbs
  rw [if_pos (by omega), e]
  refine ⟨_, rfl, ?_⟩
  split
  · rwa [f64.isNaN_neg]
  · exact g

/-- Concrete cases: `1`, `-0.1`, `10`, the largest number, `2^27` (`2^15` for `f32`), the least negative subnormal, `-0`. -/
example : InvHyp.asinh FPU.softF64 0x3ff0000000000000#64 = .ok 0x3fec34366179d427#64 ∧
    InvHyp.asinh FPU.softF64 0xbfb999999999999a#64 = .ok 0xbfb98eb9e7e5fc3f#64 ∧
    InvHyp.asinh FPU.softF64 0x4024000000000000#64 = .ok 0x4007fc5c506d2bdb#64 ∧
    InvHyp.asinh FPU.softF64 0x7fefffffffffffff#64 = .ok 0x408633ce8fb9f87d#64 ∧
    InvHyp.asinh FPU.softF64 0x41a0000000000000#64 = .ok 0x4033687a9f1af2b1#64 ∧
    InvHyp.asinh FPU.softF64 0x8000000000000001#64 = .ok 0x8000000000000001#64 ∧
    InvHyp.asinh FPU.softF64 0x8000000000000000#64 = .ok 0x8000000000000000#64 := by decide +kernel
example : f64.IsFin 0x3ff0000000000000#f64.w ∧ f64.IsFin 0x8000000000000001#f64.w ∧ |f64.val 0x8000000000000001#f64.w| < 1 / 2 ^ 26 ∧ f64.IsInf 0xfff0000000000000#f64.w ∧ f64.IsNaN 0x7ff8000000000000#f64.w := by decide +kernel

/-- C89: `acosh(1)` is `+0`. -/
theorem C89_acosh_one (N : FPU f64) : InvHyp.acosh N 0x3ff0000000000000#f64.w = .ok 0#f64.w := by
  unfold InvHyp.acosh
  rw [if_pos (by decide +kernel)]
  unfold InvHyp.acSmall
  dsimp only
  have a0 : N.sub 0x3ff0000000000000#f64.w Expm1.K64.one = 0#f64.w := N.sub_eq FPU.softF64 (by decide +kernel) (by decide +kernel)
  have a1 : N.mul 0#f64.w 0#f64.w = 0#f64.w := N.mul_eq FPU.softF64 (by decide +kernel) (by decide +kernel) (by decide +kernel)
  have a2 : N.mul Expm1.K64.two 0#f64.w = 0#f64.w := N.mul_eq FPU.softF64 (by decide +kernel) (by decide +kernel) (by decide +kernel)
  have a3 : N.add 0#f64.w 0#f64.w = 0#f64.w := N.add_eq FPU.softF64 (by decide +kernel) (by decide +kernel)
  rw [a0, a1, a2, a3]
  obtain ⟨r, st, e, hs⟩ := C43_sqrt N 0#f64.w
  obtain ⟨a, b, -⟩ := hs.1 (by decide +kernel) (by decide +kernel)
  have hr : r = 0#f64.w := by
    apply f64.ext_sign_mag
    · rw [b]
    · rw [show f64.val 0#f64.w = 0 by decide +kernel, Rat.cast_zero, Real.sqrt_zero] at a
      rw [show f64.mag 0#f64.w = 0 by decide +kernel]
      have hR : f64.Rounds (0 : ℝ) r := ⟨by rw [abs_zero]; exact a, fun hc => absurd rfl hc⟩
      exact InvHyp.zero_of_val ⟨hR.fin100 Expm1.big64 (by rw [abs_zero]; positivity), hR.exactR f64 f64.rp_zero (by rw [abs_zero]; positivity)⟩
  rw [hr] at e
  rw [show Asin.sqrtD N 0#f64.w = .ok 0#f64.w by unfold Asin.sqrtD; rw [e]; rfl]
  show Log1p.log1p N (N.add 0#f64.w 0#f64.w) = _
  rw [a3]
  exact C85_log1p_tiny N (by decide +kernel)

/-- C89: for every finite `x` that is at least `1`, `acosh` is finite, does not have the sign bit, and is within `3 / 2^52` of the inverse hyperbolic cosine of `x` relatively;
computing it does not panic. -/
theorem C89_acosh (N : FPU f64) {x : BitVec f64.w} (hx : f64.IsFin x) (h : 1 ≤ f64.val x) :
    ∃ r, InvHyp.acosh N x = .ok r ∧ f64.IsFin r ∧ f64.sign r = false ∧
      |((f64.val r : ℚ) : ℝ) - Real.arcosh ((f64.val x : ℚ) : ℝ)| ≤ 3 / 2 ^ 52 * |Real.arcosh ((f64.val x : ℚ) : ℝ)| := by
  have hv : GFv f64 x ((f64.val x : ℚ) : ℝ) := ⟨hx, (f64.valK_cast x).symm⟩
  rcases h.lt_or_eq with h1 | h1
  · obtain ⟨r, e, ⟨W, w1, w2⟩, hs⟩ := InvHyp.acosh_fin N hv (by exact_mod_cast h1)
    refine ⟨r, e, w1.fin, hs, ?_⟩
    rw [w1.valQ]
    unfold Rl at w2
    rw [Expm1.s64] at w2
    refine w2.trans (le_of_eq ?_)
    norm_num
  · have hx1 : x = 0x3ff0000000000000#f64.w := by
      rw [← h1] at hv
      apply f64.ext_sign_mag
      · rw [hv.sign_of_pos (by norm_num)]; decide +kernel
      · have := hv.abs_eq
        rw [Rat.cast_one, abs_one, ← f64.magVal_cast] at this
        have h3 : f64.magVal ℚ (f64.mag x) = 1 := by exact_mod_cast this.symm
        rw [← show f64.magVal ℚ (f64.mag 0x3ff0000000000000#f64.w) = 1 by decide +kernel, f64.magVal_inj] at h3
        exact h3
    refine ⟨_, by rw [hx1]; exact C89_acosh_one N, by decide +kernel, by decide +kernel, ?_⟩
    rw [← h1, Rat.cast_one, Real.arcosh_zero, show f64.val 0#f64.w = 0 by decide +kernel]
    simp

/-- C89: of a number below `1`, of `-∞` and of a NaN, `acosh` is a NaN. -/
theorem C89_acosh_nan (N : FPU f64) {x : BitVec f64.w} (h : f64.IsNaN x ∨ (f64.IsInf x ∧ f64.sign x = true) ∨ (f64.IsFin x ∧ f64.val x < 1)) :
    ∃ r, InvHyp.acosh N x = .ok r ∧ f64.IsNaN r := by
  have hinf : f64.infRep = 0x7ff0000000000000 := by decide +kernel
  have hb := f64.toNat_eq x
  have he : 2 ^ (f64.e + f64.s) = 2 ^ 63 := rfl
  rw [he] at hb
  have hma : x.toNat &&& 0x7fffffffffffffff = f64.mag x := by
    rw [show (0x7fffffffffffffff : ℕ) = 2 ^ 63 - 1 from rfl, Nat.and_two_pow_sub_one_eq_mod]; rfl
  unfold InvHyp.acosh
  simp only
  rw [hma]
  by_cases h1 : f64.mag x < 0x4000000000000000
  · rw [if_pos h1]
    have h2 : f64.IsFin x ∧ f64.val x < 1 := by
      rcases h with h | h | h
      · unfold Fmt.IsNaN at h; omega
      · have := h.1; unfold Fmt.IsInf at this; omega
      · exact h
    have hv : GFv f64 x ((f64.val x : ℚ) : ℝ) := ⟨h2.1, (f64.valK_cast x).symm⟩
    have h3 := (hv.mag_lt (c := 0x4000000000000000) (q := 2) (by decide +kernel)).mp h1
    rw [abs_lt] at h3
    push_cast at h3
    exact InvHyp.acSmall_nan (InvHyp.fn64 N) (InvHyp.fnX64 N) N (by rw [Expm1.s64]) hv h3.1.le (by exact_mod_cast h2.2)
  · rw [if_neg h1]
    have h2 : f64.IsNaN x ∨ f64.sign x = true ∧ f64.mag x ≠ 0 := by
      rcases h with h | h | h
      · exact Or.inl h
      · exact Or.inr ⟨h.2, by omega⟩
      · refine Or.inr ⟨?_, by omega⟩
        have hv : GFv f64 x ((f64.val x : ℚ) : ℝ) := ⟨h.1, (f64.valK_cast x).symm⟩
        by_contra hc
        have h4 := hv.nonneg (by simpa using hc)
        have h3 := mt (hv.mag_lt (c := 0x4000000000000000) (q := 2) (by decide +kernel)).mpr h1
        rw [abs_of_nonneg h4, not_lt] at h3
        have : (2 : ℚ) ≤ f64.val x := by exact_mod_cast h3
        linarith [h.2]
    rw [if_neg (by
      rcases h2 with h2 | h2
      · unfold Fmt.IsNaN at h2; split at hb <;> omega
      · rw [if_pos h2.1] at hb; omega)]
    exact InvHyp.big_nan (InvHyp.fnX64 N) N h2

/-- C89: `acosh(+∞)` is `+∞`. -/
theorem C89_acosh_inf (N : FPU f64) : InvHyp.acosh N 0x7ff0000000000000#f64.w = .ok 0x7ff0000000000000#f64.w := by
  obtain ⟨z, e, g1, g2⟩ := InvHyp.big_inf (InvHyp.fn64 N) (InvHyp.fnX64 N) N (x := 0x7ff0000000000000#f64.w) (by decide +kernel) (by decide +kernel)
  unfold InvHyp.acosh
  rw [if_neg (by decide +kernel), if_neg (by decide +kernel), e, InvHyp.inf_eq64 g1 g2]

/-- Concrete cases: `1`, its successor, `1.5`, `10`, the largest number, `0`, `-10`. -/
example : InvHyp.acosh FPU.softF64 0x3ff0000000000000#64 = .ok 0x0#64 ∧
    InvHyp.acosh FPU.softF64 0x3ff0000000000001#64 = .ok 0x3e56a09e667f3bcd#64 ∧
    InvHyp.acosh FPU.softF64 0x3ff8000000000000#64 = .ok 0x3feecc2caec5160a#64 ∧
    InvHyp.acosh FPU.softF64 0x4024000000000000#64 = .ok 0x4007f21ed1ce05d4#64 ∧
    InvHyp.acosh FPU.softF64 0x7fefffffffffffff#64 = .ok 0x408633ce8fb9f87d#64 ∧
    InvHyp.acosh FPU.softF64 0#64 = .ok 0x7ff8000000000000#64 ∧
    InvHyp.acosh FPU.softF64 0xc024000000000000#64 = .ok 0x7ff8000000000000#64 := by decide +kernel
example : f64.IsFin 0x4000000000000000#f64.w ∧ 1 ≤ f64.val 0x4000000000000000#f64.w ∧ f64.IsFin 0x3fe0000000000000#f64.w ∧ f64.val 0x3fe0000000000000#f64.w < 1 := by decide +kernel

/-- C91: for every finite `x` strictly between `-1` and `1`, `atanh` is finite, has the sign of `x`, and is within `3 / 2^52` of the inverse hyperbolic tangent of `x` relatively;
computing it does not panic. -/
theorem C91_atanh (N : FPU f64) {x : BitVec f64.w} (hx : f64.IsFin x) (h : |f64.val x| < 1) :
    ∃ r, InvHyp.atanh N x = .ok r ∧ f64.IsFin r ∧ f64.sign r = f64.sign x ∧
      |((f64.val r : ℚ) : ℝ) - Real.artanh ((f64.val x : ℚ) : ℝ)| ≤ 3 / 2 ^ 52 * |Real.artanh ((f64.val x : ℚ) : ℝ)| := by
  have hv : GFv f64 x ((f64.val x : ℚ) : ℝ) := ⟨hx, (f64.valK_cast x).symm⟩
  obtain ⟨r, e, ⟨W, w1, w2⟩, hs⟩ := InvHyp.atanh_fin N hv (by exact_mod_cast h)
  refine ⟨r, e, w1.fin, hs, ?_⟩
  rw [w1.valQ]
  unfold Rl at w2
  rw [Expm1.s64] at w2
  refine w2.trans (le_of_eq ?_)
  norm_num

/-- C91: an argument below `2^-32` in magnitude is returned unchanged, also both zeros. -/
theorem C91_atanh_tiny (N : FPU f64) {x : BitVec f64.w} (hx : f64.IsFin x) (h : |f64.val x| < 1 / 2 ^ 32) : InvHyp.atanh N x = .ok x := by
  have hv : GFv f64 x ((f64.val x : ℚ) : ℝ) := ⟨hx, (f64.valK_cast x).symm⟩
  have c3 := (InvHyp.e_lt hv (0x3ff - 32) (1 / 2 ^ 32) (by decide +kernel)).mpr (by exact_mod_cast h)
  unfold InvHyp.atanh
  simp only [InvHyp.abs_fab64]
  rw [InvHyp.e64]
  unfold InvHyp.atanhAbs
  rw [if_pos (by omega), if_pos (by omega)]
  exact congrArg Except.ok (InvHyp.unabs x (InvHyp.sgn64 x))

/-- C91: `atanh(1)` is `+∞` and `atanh(-1)` is `-∞`. -/
theorem C91_atanh_one (N : FPU f64) : InvHyp.atanh N 0x3ff0000000000000#f64.w = .ok 0x7ff0000000000000#f64.w ∧
    InvHyp.atanh N 0xbff0000000000000#f64.w = .ok 0xfff0000000000000#f64.w := by
  obtain ⟨z, e, g1, g2⟩ := InvHyp.atBig_one (InvHyp.fn64 N) (InvHyp.fnX64 N) N (GFv.const (b := 0x3ff0000000000000#f64.w) (by decide +kernel) (show _ = 1 by decide +kernel) |>.cast (by norm_num))
  rw [InvHyp.inf_eq64 g1 g2] at e
  constructor
  · unfold InvHyp.atanh
    simp only [InvHyp.abs_fab64]
    rw [InvHyp.e64, show f64.fabs 0x3ff0000000000000#f64.w = 0x3ff0000000000000#f64.w by decide +kernel]
    unfold InvHyp.atanhAbs
    rw [if_neg (by decide +kernel), e]
    decide +kernel
  · unfold InvHyp.atanh
    simp only [InvHyp.abs_fab64]
    rw [InvHyp.e64, show f64.fabs 0xbff0000000000000#f64.w = 0x3ff0000000000000#f64.w by decide +kernel]
    unfold InvHyp.atanhAbs
    rw [if_neg (by decide +kernel), e]
    decide +kernel

/-- C91: of a number above `1` in magnitude, of an infinity and of a NaN, `atanh` is a NaN. -/
theorem C91_atanh_nan (N : FPU f64) {x : BitVec f64.w} (h : f64.IsNaN x ∨ f64.IsInf x ∨ (f64.IsFin x ∧ 1 < |f64.val x|)) :
    ∃ r, InvHyp.atanh N x = .ok r ∧ f64.IsNaN r := by
  obtain ⟨f1, f2⟩ := f64.fabs_facts x
  have hinf : f64.infRep = 0x7ff0000000000000 := by decide +kernel
  have hm : 0x3ff0000000000000 ≤ f64.mag x := by
    rcases h with h | h | h
    · unfold Fmt.IsNaN at h; omega
    · unfold Fmt.IsInf at h; omega
    · have hv : GFv f64 x ((f64.val x : ℚ) : ℝ) := ⟨h.1, (f64.valK_cast x).symm⟩
      by_contra hc
      have := (hv.mag_lt (c := 0x3ff0000000000000) (q := 1) (by decide +kernel)).mp (not_le.mp hc)
      have h5 : |f64.val x| < 1 := by exact_mod_cast this
      linarith [h.2]
  have key : Ok (InvHyp.atBig N Expm1.K64 (Log1p.log1p N) (f64.fabs x)) f64.IsNaN := by
    rcases h with h | h | h
    · exact InvHyp.atBig_special (InvHyp.fn64 N) (InvHyp.fnX64 N) N (Or.inl (by unfold Fmt.IsNaN; rw [f2]; exact h))
    · exact InvHyp.atBig_special (InvHyp.fn64 N) (InvHyp.fnX64 N) N (Or.inr (by unfold Fmt.IsInf; rw [f2]; exact h))
    · have hv : GFv f64 x ((f64.val x : ℚ) : ℝ) := ⟨h.1, (f64.valK_cast x).symm⟩
      exact InvHyp.atBig_nan (InvHyp.fn64 N) (InvHyp.fnX64 N) N (by rw [Expm1.s64]) hv.fabs (by exact_mod_cast h.2)
  obtain ⟨z, e, g⟩ := key
  unfold InvHyp.atanh
  simp only [InvHyp.abs_fab64]
  rw [InvHyp.e64]
  unfold InvHyp.atanhAbs
  rw [if_neg (by omega), e]
  refine ⟨_, rfl, ?_⟩
  split
  · rwa [f64.isNaN_neg]
  · exact g

/-- Concrete cases: `1/2`, `-0.1`, the predecessor of `1`, `-3/4`, the least negative subnormal, `-1`, `2`. -/
example : InvHyp.atanh FPU.softF64 0x3fe0000000000000#64 = .ok 0x3fe193ea7aad030a#64 ∧
    InvHyp.atanh FPU.softF64 0xbfb999999999999a#64 = .ok 0xbfb9af93cd234412#64 ∧
    InvHyp.atanh FPU.softF64 0x3fefffffffffffff#64 = .ok 0x4032b708872320e2#64 ∧
    InvHyp.atanh FPU.softF64 0xbfe8000000000000#64 = .ok 0xbfef2272ae325a57#64 ∧
    InvHyp.atanh FPU.softF64 0x8000000000000001#64 = .ok 0x8000000000000001#64 ∧
    InvHyp.atanh FPU.softF64 0xbff0000000000000#64 = .ok 0xfff0000000000000#64 ∧
    InvHyp.atanh FPU.softF64 0x4000000000000000#64 = .ok 0x7ff8000000000000#64 := by decide +kernel
example : f64.IsFin 0x3fe0000000000000#f64.w ∧ |f64.val 0x3fe0000000000000#f64.w| < 1 ∧ |f64.val 0x8000000000000001#f64.w| < 1 / 2 ^ 32 ∧ f64.IsFin 0x4000000000000000#f64.w ∧ 1 < |f64.val 0x4000000000000000#f64.w| := by decide +kernel

/-- C88: for every finite `x`, `asinhf` is finite, has the sign of `x`, and is within `3 / 2^23` of the inverse hyperbolic sine of `x` relatively;
computing it does not panic. -/
theorem C88_asinhf (N : FPU f32) {x : BitVec f32.w} (hx : f32.IsFin x) :
    ∃ r, InvHyp.F32.asinhf N x = .ok r ∧ f32.IsFin r ∧ f32.sign r = f32.sign x ∧
      |((f32.val r : ℚ) : ℝ) - Real.arsinh ((f32.val x : ℚ) : ℝ)| ≤ 3 / 2 ^ 23 * |Real.arsinh ((f32.val x : ℚ) : ℝ)| := by
  have hv : GFv f32 x ((f32.val x : ℚ) : ℝ) := ⟨hx, (f32.valK_cast x).symm⟩
  obtain ⟨r, e, ⟨W, w1, w2⟩, hs⟩ := InvHyp.F32.asinhf_fin N hv
  refine ⟨r, e, w1.fin, hs, ?_⟩
  rw [w1.valQ]
  unfold Rl at w2
  rw [Expm1.s32] at w2
  refine w2.trans (le_of_eq ?_)
  norm_num

/-- C88: an argument below `2^-12` in magnitude is returned unchanged, also both zeros. -/
theorem C88_asinhf_tiny (N : FPU f32) {x : BitVec f32.w} (hx : f32.IsFin x) (h : |f32.val x| < 1 / 2 ^ 12) : InvHyp.F32.asinhf N x = .ok x := by
  have hv : GFv f32 x ((f32.val x : ℚ) : ℝ) := ⟨hx, (f32.valK_cast x).symm⟩
  have c3 := (InvHyp.F32.e_lt hv (0x3f800000 - (12 <<< 23)) (1 / 2 ^ 12) (by decide +kernel)).mpr (by exact_mod_cast h)
  unfold InvHyp.F32.asinhf
  dsimp only
  rw [InvHyp.F32.magN32, InvHyp.F32.abs_fab32]
  unfold InvHyp.F32.asinhfAbs
  rw [if_neg (by omega), if_neg (by omega), if_neg (by omega)]
  exact congrArg Except.ok (InvHyp.unabs x (InvHyp.F32.sgn32 x))

/-- C88: `asinhf` of an infinity is the same infinity. -/
theorem C88_asinhf_inf (N : FPU f32) {x : BitVec f32.w} (h : f32.IsInf x) : InvHyp.F32.asinhf N x = .ok x := by
  obtain ⟨f1, f2⟩ := f32.fabs_facts x
  have hinf : f32.infRep = 0x7f800000 := by decide +kernel
  have hm : f32.mag x = 0x7f800000 := by rw [← hinf]; exact h
  obtain ⟨z, e, g1, g2⟩ := InvHyp.big_inf (InvHyp.F32.fn32 N) (InvHyp.F32.fnX32 N) N (x := f32.fabs x) (f2.trans h) f1
  have hz : z = f32.fabs x := f32.ext_sign_mag (g2.trans f1.symm) (by unfold Fmt.IsInf at g1; rw [g1, f2]; exact h.symm)
  unfold InvHyp.F32.asinhf
  dsimp only
  rw [InvHyp.F32.magN32, InvHyp.F32.abs_fab32]
  unfold InvHyp.F32.asinhfAbs
  rw [if_pos (by omega), e, hz]
  exact congrArg Except.ok (InvHyp.unabs x (InvHyp.F32.sgn32 x))

/-- C88: `asinhf` of a NaN is a NaN. -/
theorem C88_asinhf_nan (N : FPU f32) {x : BitVec f32.w} (h : f32.IsNaN x) : ∃ r, InvHyp.F32.asinhf N x = .ok r ∧ f32.IsNaN r := by
  obtain ⟨f1, f2⟩ := f32.fabs_facts x
  have hinf : f32.infRep = 0x7f800000 := by decide +kernel
  have hm : 0x7f800000 < f32.mag x := by rw [← hinf]; exact h
  obtain ⟨z, e, g⟩ := InvHyp.big_nan (ln2 := InvHyp.F32.LN2) (InvHyp.F32.fnX32 N) N (x := f32.fabs x) (Or.inl (by unfold Fmt.IsNaN; rw [f2]; exact h))
  unfold InvHyp.F32.asinhf
  dsimp only
  rw [InvHyp.F32.magN32, InvHyp.F32.abs_fab32]
  unfold InvHyp.F32.asinhfAbs
  rw [if_pos (by omega), e]
  refine ⟨_, rfl, ?_⟩
  split
  · rwa [f32.isNaN_neg]
  · exact g

/-- Concrete cases: `1`, `-0.1`, `10`, the largest number, `2^27` (`2^15` for `f32`), the least negative subnormal, `-0`. -/
example : InvHyp.F32.asinhf FPU.softF32 0x3f800000#32 = .ok 0x3f61a1b3#32 ∧
    InvHyp.F32.asinhf FPU.softF32 0xbdcccccd#32 = .ok 0xbdcc75cf#32 ∧
    InvHyp.F32.asinhf FPU.softF32 0x41200000#32 = .ok 0x403fe2e2#32 ∧
    InvHyp.F32.asinhf FPU.softF32 0x7f7fffff#32 = .ok 0x42b2d4fc#32 ∧
    InvHyp.F32.asinhf FPU.softF32 0x47000000#32 = .ok 0x41317218#32 ∧
    InvHyp.F32.asinhf FPU.softF32 0x80000001#32 = .ok 0x80000001#32 ∧
    InvHyp.F32.asinhf FPU.softF32 0x80000000#32 = .ok 0x80000000#32 := by decide +kernel
example : f32.IsFin 0x3f800000#f32.w ∧ f32.IsFin 0x80000001#f32.w ∧ |f32.val 0x80000001#f32.w| < 1 / 2 ^ 12 ∧ f32.IsInf 0xff800000#f32.w ∧ f32.IsNaN 0x7fc00000#f32.w := by decide +kernel

/-- C90: `acoshf(1)` is `+0`. -/
theorem C90_acoshf_one (N : FPU f32) : InvHyp.F32.acoshf N 0x3f800000#f32.w = .ok 0#f32.w := by
  unfold InvHyp.F32.acoshf
  rw [if_pos (by decide +kernel)]
  unfold InvHyp.acSmall
  dsimp only
  have a0 : N.sub 0x3f800000#f32.w Expm1.F32.K32.one = 0#f32.w := N.sub_eq FPU.softF32 (by decide +kernel) (by decide +kernel)
  have a1 : N.mul 0#f32.w 0#f32.w = 0#f32.w := N.mul_eq FPU.softF32 (by decide +kernel) (by decide +kernel) (by decide +kernel)
  have a2 : N.mul Expm1.F32.K32.two 0#f32.w = 0#f32.w := N.mul_eq FPU.softF32 (by decide +kernel) (by decide +kernel) (by decide +kernel)
  have a3 : N.add 0#f32.w 0#f32.w = 0#f32.w := N.add_eq FPU.softF32 (by decide +kernel) (by decide +kernel)
  rw [a0, a1, a2, a3]
  obtain ⟨r, st, e, hs⟩ := C43_sqrtf N 0#f32.w
  obtain ⟨a, b, -⟩ := hs.1 (by decide +kernel) (by decide +kernel)
  have hr : r = 0#f32.w := by
    apply f32.ext_sign_mag
    · rw [b]
    · rw [show f32.val 0#f32.w = 0 by decide +kernel, Rat.cast_zero, Real.sqrt_zero] at a
      rw [show f32.mag 0#f32.w = 0 by decide +kernel]
      have hR : f32.Rounds (0 : ℝ) r := ⟨by rw [abs_zero]; exact a, fun hc => absurd rfl hc⟩
      exact InvHyp.zero_of_val ⟨hR.fin100 Expm1.big32 (by rw [abs_zero]; positivity), hR.exactR f32 f32.rp_zero (by rw [abs_zero]; positivity)⟩
  rw [hr] at e
  rw [show Asin.F32.sqrtS N 0#f32.w = .ok 0#f32.w by unfold Asin.F32.sqrtS; rw [e]; rfl]
  show Log1p.F32.log1pf N (N.add 0#f32.w 0#f32.w) = _
  rw [a3]
  exact C86_log1pf_tiny N (by decide +kernel)

/-- C90: for every finite `x` that is at least `1`, `acoshf` is finite, does not have the sign bit, and is within `3 / 2^23` of the inverse hyperbolic cosine of `x` relatively;
computing it does not panic. -/
theorem C90_acoshf (N : FPU f32) {x : BitVec f32.w} (hx : f32.IsFin x) (h : 1 ≤ f32.val x) :
    ∃ r, InvHyp.F32.acoshf N x = .ok r ∧ f32.IsFin r ∧ f32.sign r = false ∧
      |((f32.val r : ℚ) : ℝ) - Real.arcosh ((f32.val x : ℚ) : ℝ)| ≤ 3 / 2 ^ 23 * |Real.arcosh ((f32.val x : ℚ) : ℝ)| := by
  have hv : GFv f32 x ((f32.val x : ℚ) : ℝ) := ⟨hx, (f32.valK_cast x).symm⟩
  rcases h.lt_or_eq with h1 | h1
  · obtain ⟨r, e, ⟨W, w1, w2⟩, hs⟩ := InvHyp.F32.acoshf_fin N hv (by exact_mod_cast h1)
    refine ⟨r, e, w1.fin, hs, ?_⟩
    rw [w1.valQ]
    unfold Rl at w2
    rw [Expm1.s32] at w2
    refine w2.trans (le_of_eq ?_)
    norm_num
  · have hx1 : x = 0x3f800000#f32.w := by
      rw [← h1] at hv
      apply f32.ext_sign_mag
      · rw [hv.sign_of_pos (by norm_num)]; decide +kernel
      · have := hv.abs_eq
        rw [Rat.cast_one, abs_one, ← f32.magVal_cast] at this
        have h3 : f32.magVal ℚ (f32.mag x) = 1 := by exact_mod_cast this.symm
        rw [← show f32.magVal ℚ (f32.mag 0x3f800000#f32.w) = 1 by decide +kernel, f32.magVal_inj] at h3
        exact h3
    refine ⟨_, by rw [hx1]; exact C90_acoshf_one N, by decide +kernel, by decide +kernel, ?_⟩
    rw [← h1, Rat.cast_one, Real.arcosh_zero, show f32.val 0#f32.w = 0 by decide +kernel]
    simp

/-- C90: of a number below `1`, of `-∞` and of a NaN, `acoshf` is a NaN. -/
theorem C90_acoshf_nan (N : FPU f32) {x : BitVec f32.w} (h : f32.IsNaN x ∨ (f32.IsInf x ∧ f32.sign x = true) ∨ (f32.IsFin x ∧ f32.val x < 1)) :
    ∃ r, InvHyp.F32.acoshf N x = .ok r ∧ f32.IsNaN r := by
  have hinf : f32.infRep = 0x7f800000 := by decide +kernel
  have hb := f32.toNat_eq x
  have he : 2 ^ (f32.e + f32.s) = 2 ^ 31 := rfl
  rw [he] at hb
  have hma : x.toNat &&& 0x7fffffff = f32.mag x := by
    rw [show (0x7fffffff : ℕ) = 2 ^ 31 - 1 from rfl, Nat.and_two_pow_sub_one_eq_mod]; rfl
  unfold InvHyp.F32.acoshf
  simp only
  rw [hma]
  by_cases h1 : f32.mag x < 0x40000000
  · rw [if_pos h1]
    have h2 : f32.IsFin x ∧ f32.val x < 1 := by
      rcases h with h | h | h
      · unfold Fmt.IsNaN at h; omega
      · have := h.1; unfold Fmt.IsInf at this; omega
      · exact h
    have hv : GFv f32 x ((f32.val x : ℚ) : ℝ) := ⟨h2.1, (f32.valK_cast x).symm⟩
    have h3 := (hv.mag_lt (c := 0x40000000) (q := 2) (by decide +kernel)).mp h1
    rw [abs_lt] at h3
    push_cast at h3
    exact InvHyp.acSmall_nan (InvHyp.F32.fn32 N) (InvHyp.F32.fnX32 N) N (by rw [Expm1.s32]; norm_num) hv h3.1.le (by exact_mod_cast h2.2)
  · rw [if_neg h1]
    have h2 : f32.IsNaN x ∨ f32.sign x = true ∧ f32.mag x ≠ 0 := by
      rcases h with h | h | h
      · exact Or.inl h
      · exact Or.inr ⟨h.2, by omega⟩
      · refine Or.inr ⟨?_, by omega⟩
        have hv : GFv f32 x ((f32.val x : ℚ) : ℝ) := ⟨h.1, (f32.valK_cast x).symm⟩
        by_contra hc
        have h4 := hv.nonneg (by simpa using hc)
        have h3 := mt (hv.mag_lt (c := 0x40000000) (q := 2) (by decide +kernel)).mpr h1
        rw [abs_of_nonneg h4, not_lt] at h3
        have : (2 : ℚ) ≤ f32.val x := by exact_mod_cast h3
        linarith [h.2]
    rw [if_neg (by
      rcases h2 with h2 | h2
      · unfold Fmt.IsNaN at h2; split at hb <;> omega
      · rw [if_pos h2.1] at hb; omega)]
    exact InvHyp.big_nan (InvHyp.F32.fnX32 N) N h2

/-- C90: `acoshf(+∞)` is `+∞`. -/
theorem C90_acoshf_inf (N : FPU f32) : InvHyp.F32.acoshf N 0x7f800000#f32.w = .ok 0x7f800000#f32.w := by
  obtain ⟨z, e, g1, g2⟩ := InvHyp.big_inf (InvHyp.F32.fn32 N) (InvHyp.F32.fnX32 N) N (x := 0x7f800000#f32.w) (by decide +kernel) (by decide +kernel)
  unfold InvHyp.F32.acoshf
  rw [if_neg (by decide +kernel), if_neg (by decide +kernel), e, InvHyp.F32.inf_eq32 g1 g2]

/-- Concrete cases: `1`, its successor, `1.5`, `10`, the largest number, `0`, `-10`. -/
example : InvHyp.F32.acoshf FPU.softF32 0x3f800000#32 = .ok 0x0#32 ∧
    InvHyp.F32.acoshf FPU.softF32 0x3f800001#32 = .ok 0x39ffffff#32 ∧
    InvHyp.F32.acoshf FPU.softF32 0x3fc00000#32 = .ok 0x3f766166#32 ∧
    InvHyp.F32.acoshf FPU.softF32 0x41200000#32 = .ok 0x403f90f7#32 ∧
    InvHyp.F32.acoshf FPU.softF32 0x7f7fffff#32 = .ok 0x42b2d4fc#32 ∧
    InvHyp.F32.acoshf FPU.softF32 0#32 = .ok 0x7fc00000#32 ∧
    InvHyp.F32.acoshf FPU.softF32 0xc1200000#32 = .ok 0x7fc00000#32 := by decide +kernel
example : f32.IsFin 0x40000000#f32.w ∧ 1 ≤ f32.val 0x40000000#f32.w ∧ f32.IsFin 0x3f000000#f32.w ∧ f32.val 0x3f000000#f32.w < 1 := by decide +kernel

/-- C92: for every finite `x` strictly between `-1` and `1`, `atanhf` is finite, has the sign of `x`, and is within `3 / 2^23` of the inverse hyperbolic tangent of `x` relatively;
computing it does not panic. -/
theorem C92_atanhf (N : FPU f32) {x : BitVec f32.w} (hx : f32.IsFin x) (h : |f32.val x| < 1) :
    ∃ r, InvHyp.F32.atanhf N x = .ok r ∧ f32.IsFin r ∧ f32.sign r = f32.sign x ∧
      |((f32.val r : ℚ) : ℝ) - Real.artanh ((f32.val x : ℚ) : ℝ)| ≤ 3 / 2 ^ 23 * |Real.artanh ((f32.val x : ℚ) : ℝ)| := by
  have hv : GFv f32 x ((f32.val x : ℚ) : ℝ) := ⟨hx, (f32.valK_cast x).symm⟩
  obtain ⟨r, e, ⟨W, w1, w2⟩, hs⟩ := InvHyp.F32.atanhf_fin N hv (by exact_mod_cast h)
  refine ⟨r, e, w1.fin, hs, ?_⟩
  rw [w1.valQ]
  unfold Rl at w2
  rw [Expm1.s32] at w2
  refine w2.trans (le_of_eq ?_)
  norm_num

/-- C92: an argument below `2^-32` in magnitude is returned unchanged, also both zeros. -/
theorem C92_atanhf_tiny (N : FPU f32) {x : BitVec f32.w} (hx : f32.IsFin x) (h : |f32.val x| < 1 / 2 ^ 32) : InvHyp.F32.atanhf N x = .ok x := by
  have hv : GFv f32 x ((f32.val x : ℚ) : ℝ) := ⟨hx, (f32.valK_cast x).symm⟩
  have c3 := (InvHyp.F32.e_lt hv (0x3f800000 - (32 <<< 23)) (1 / 2 ^ 32) (by decide +kernel)).mpr (by exact_mod_cast h)
  unfold InvHyp.F32.atanhf
  dsimp only
  rw [InvHyp.F32.magN32, InvHyp.F32.abs_fab32]
  unfold InvHyp.F32.atanhfAbs
  rw [if_pos (by omega), if_pos (by omega)]
  exact congrArg Except.ok (InvHyp.unabs x (InvHyp.F32.sgn32 x))

/-- C92: `atanhf(1)` is `+∞` and `atanhf(-1)` is `-∞`. -/
theorem C92_atanhf_one (N : FPU f32) : InvHyp.F32.atanhf N 0x3f800000#f32.w = .ok 0x7f800000#f32.w ∧
    InvHyp.F32.atanhf N 0xbf800000#f32.w = .ok 0xff800000#f32.w := by
  obtain ⟨z, e, g1, g2⟩ := InvHyp.atBig_one (InvHyp.F32.fn32 N) (InvHyp.F32.fnX32 N) N (GFv.const (b := 0x3f800000#f32.w) (by decide +kernel) (show _ = 1 by decide +kernel) |>.cast (by norm_num))
  rw [InvHyp.F32.inf_eq32 g1 g2] at e
  constructor
  · unfold InvHyp.F32.atanhf
    dsimp only
    rw [InvHyp.F32.magN32, InvHyp.F32.abs_fab32, show f32.fabs 0x3f800000#f32.w = 0x3f800000#f32.w by decide +kernel]
    unfold InvHyp.F32.atanhfAbs
    rw [if_neg (by decide +kernel), e]
    decide +kernel
  · unfold InvHyp.F32.atanhf
    dsimp only
    rw [InvHyp.F32.magN32, InvHyp.F32.abs_fab32, show f32.fabs 0xbf800000#f32.w = 0x3f800000#f32.w by decide +kernel]
    unfold InvHyp.F32.atanhfAbs
    rw [if_neg (by decide +kernel), e]
    decide +kernel

/-- C92: of a number above `1` in magnitude, of an infinity and of a NaN, `atanhf` is a NaN. -/
theorem C92_atanhf_nan (N : FPU f32) {x : BitVec f32.w} (h : f32.IsNaN x ∨ f32.IsInf x ∨ (f32.IsFin x ∧ 1 < |f32.val x|)) :
    ∃ r, InvHyp.F32.atanhf N x = .ok r ∧ f32.IsNaN r := by
  obtain ⟨f1, f2⟩ := f32.fabs_facts x
  have hinf : f32.infRep = 0x7f800000 := by decide +kernel
  have hm : 0x3f800000 ≤ f32.mag x := by
    rcases h with h | h | h
    · unfold Fmt.IsNaN at h; omega
    · unfold Fmt.IsInf at h; omega
    · have hv : GFv f32 x ((f32.val x : ℚ) : ℝ) := ⟨h.1, (f32.valK_cast x).symm⟩
      by_contra hc
      have := (hv.mag_lt (c := 0x3f800000) (q := 1) (by decide +kernel)).mp (not_le.mp hc)
      have h5 : |f32.val x| < 1 := by exact_mod_cast this
      linarith [h.2]
  have key : Ok (InvHyp.atBig N Expm1.F32.K32 (Log1p.F32.log1pf N) (f32.fabs x)) f32.IsNaN := by
    rcases h with h | h | h
    · exact InvHyp.atBig_special (InvHyp.F32.fn32 N) (InvHyp.F32.fnX32 N) N (Or.inl (by unfold Fmt.IsNaN; rw [f2]; exact h))
    · exact InvHyp.atBig_special (InvHyp.F32.fn32 N) (InvHyp.F32.fnX32 N) N (Or.inr (by unfold Fmt.IsInf; rw [f2]; exact h))
    · have hv : GFv f32 x ((f32.val x : ℚ) : ℝ) := ⟨h.1, (f32.valK_cast x).symm⟩
      exact InvHyp.atBig_nan (InvHyp.F32.fn32 N) (InvHyp.F32.fnX32 N) N (by rw [Expm1.s32]; norm_num) hv.fabs (by exact_mod_cast h.2)
  obtain ⟨z, e, g⟩ := key
  unfold InvHyp.F32.atanhf
  dsimp only
  rw [InvHyp.F32.magN32, InvHyp.F32.abs_fab32]
  unfold InvHyp.F32.atanhfAbs
  rw [if_neg (by omega), e]
  refine ⟨_, rfl, ?_⟩
  split
  · rwa [f32.isNaN_neg]
  · exact g

/-- Concrete cases: `1/2`, `-0.1`, the predecessor of `1`, `-3/4`, the least negative subnormal, `-1`, `2`. -/
example : InvHyp.F32.atanhf FPU.softF32 0x3f000000#32 = .ok 0x3f0c9f54#32 ∧
    InvHyp.F32.atanhf FPU.softF32 0xbdcccccd#32 = .ok 0xbdcd7c9e#32 ∧
    InvHyp.F32.atanhf FPU.softF32 0x3f7fffff#32 = .ok 0x410aa123#32 ∧
    InvHyp.F32.atanhf FPU.softF32 0xbf400000#32 = .ok 0xbf791396#32 ∧
    InvHyp.F32.atanhf FPU.softF32 0x80000001#32 = .ok 0x80000001#32 ∧
    InvHyp.F32.atanhf FPU.softF32 0xbf800000#32 = .ok 0xff800000#32 ∧
    InvHyp.F32.atanhf FPU.softF32 0x40000000#32 = .ok 0x7fc00000#32 := by decide +kernel
example : f32.IsFin 0x3f000000#f32.w ∧ |f32.val 0x3f000000#f32.w| < 1 ∧ |f32.val 0x80000001#f32.w| < 1 / 2 ^ 32 ∧ f32.IsFin 0x40000000#f32.w ∧ 1 < |f32.val 0x40000000#f32.w| := by decide +kernel
end Verif.Props
