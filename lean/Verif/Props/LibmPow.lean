import Verif.Libm.PowNeg
import Verif.Libm.RoundErr
import Verif.Props.LibmSqrt
/-! # Properties C101 and C102: `pow`, `powf` -/
namespace Verif.Props
open Fmt Power

theorem f64_ne_one {x : BitVec f64.w} (h : x ≠ 0x3ff0000000000000#f64.w) : ¬ (f64.sign x = false ∧ f64.mag x = f64.bias * 2 ^ f64.s) :=
  fun h' => h (f64.ext_sign_mag (by rw [h'.1]; decide +kernel) (by rw [h'.2]; decide +kernel))
theorem f32_ne_one {x : BitVec f32.w} (h : x ≠ 0x3f800000#f32.w) : ¬ (f32.sign x = false ∧ f32.mag x = f32.bias * 2 ^ f32.s) :=
  fun h' => h (f32.ext_sign_mag (by rw [h'.1]; decide +kernel) (by rw [h'.2]; decide +kernel))

/-- odd integers of binary64 are below `2^53`, so their high word is below the limit of pow.rs 229 -/
theorem odd_word {y : BitVec f64.w} (h : OddInt f64 y) : f64.mag y / 2 ^ 32 ≤ 0x43f00000 := by
  by_contra hc
  have := (intKind_big (F := f64) (y := y) (by
    rw [show (f64.bias + f64.s + 1) * 2 ^ f64.s = 0x4340000000000000 by decide +kernel]
    omega)).odd_iff.mpr h
  omega

/-! ## C101 -/

/-- C101: `x^0 = 1` and `1^y = 1` for every other argument, NaN included. -/
theorem C101_pow_one (N : FPU f64) (x y : BitVec f64.w) (h : f64.IsZero y ∨ x = 0x3ff0000000000000#f64.w) : Power.pow N x y = .ok 0x3ff0000000000000#f64.w := by
  rw [Power.pow_eq]
  rcases h with h | h
  · exact gen_y0 N kd_ok h
  · subst h
    exact gen_x1 N kd_ok (by decide +kernel) (by decide +kernel)

/-- C101: a NaN argument gives a NaN (the exponent not 0, the base not 1). -/
theorem C101_pow_nan (N : FPU f64) {x y : BitVec f64.w} (h0 : ¬ f64.IsZero y) (h1 : x ≠ 0x3ff0000000000000#f64.w) (h : f64.IsNaN x ∨ f64.IsNaN y) :
    ∃ r, Power.pow N x y = .ok r ∧ f64.IsNaN r := by
  rw [Power.pow_eq]
  exact gen_nan N kd_ok h0 (f64_ne_one h1) h

/-- C101: infinite exponent: 1 for `|x| = 1`; `+∞` for `|x| > 1` and `y = +∞` and for `|x| < 1` and `y = -∞`; `+0` in the other two cases. -/
theorem C101_pow_yinf (N : FPU f64) {x y : BitVec f64.w} (hx : ¬ f64.IsNaN x) (hy : f64.IsInf y) :
    (|f64.val x| = 1 → Power.pow N x y = .ok 0x3ff0000000000000#f64.w) ∧
    (|f64.val x| > 1 → Power.pow N x y = .ok (if f64.sign y then 0#f64.w else 0x7ff0000000000000#f64.w)) ∧
    (|f64.val x| < 1 → Power.pow N x y = .ok (if f64.sign y then 0x7ff0000000000000#f64.w else 0#f64.w)) := by
  have h0 : f64.mag y ≠ 0 := by unfold IsInf at hy; rw [hy]; decide
  have hyn : ¬ f64.IsNaN y := by unfold IsInf at hy; unfold IsNaN; omega
  have hfy : f64.fabs y = 0x7ff0000000000000#f64.w :=
    f64.ext_sign_mag (by rw [(f64.fabs_facts y).1]; decide +kernel) (by rw [(f64.fabs_facts y).2, hy]; decide +kernel)
  rw [Power.pow_eq, gen_yinf N kd_ok (yisint_spec h0) hx hyn h0 hy, hfy, f64.absv]
  have m1 := Power.magVal_one (F := f64)
  refine ⟨fun h => ?_, fun h => ?_, fun h => ?_⟩
  · rw [if_pos (f64.magVal_inj.mp (by rw [h, m1]))]; rfl
  · rw [← m1, gt_iff_lt, f64.magVal_lt_iff] at h
    rw [if_neg h.ne']
    have : ¬ f64.mag x < f64.bias * 2 ^ f64.s := not_lt.mpr h.le
    cases f64.sign y <;> simp [this]
  · rw [← m1, f64.magVal_lt_iff] at h
    rw [if_neg h.ne]
    cases f64.sign y <;> simp [h]

/-- C101: `x^1 = x`, `x^-1` is the correctly rounded reciprocal, `x^2` the correctly rounded square, `x^(1/2)` the correctly rounded square root of a non-negative `x`. -/
theorem C101_pow_simple (N : FPU f64) {x y : BitVec f64.w} (hy : f64.IsFin y) :
    (f64.val y = 1 → ¬ f64.IsNaN x → Power.pow N x y = .ok x) ∧
    (f64.val y = -1 → f64.IsFin x → f64.val x ≠ 0 → ∃ r, Power.pow N x y = .ok r ∧ f64.Rounds (1 / f64.val x) r ∧ f64.sign r = f64.sign x) ∧
    (f64.val y = 2 → f64.IsFin x → ∃ r, Power.pow N x y = .ok r ∧ f64.Rounds (f64.val x ^ 2) r ∧ f64.sign r = false) ∧
    (f64.val y = 1 / 2 → f64.IsFin x → f64.sign x = false → ∃ r, Power.pow N x y = .ok r ∧ f64.IsRNE (Real.sqrt (f64.val x : ℝ)) (f64.mag r) ∧ f64.sign r = false) := by
  have hyn : ¬ f64.IsNaN y := by unfold IsFin at hy; unfold IsNaN; omega
  have h0 : ∀ q : ℚ, f64.val y = q → q ≠ 0 → f64.mag y ≠ 0 := fun q h hq h' => hq (by rw [← h]; exact val_zero_iff.mpr h')
  have hxn : f64.IsFin x → ¬ f64.IsNaN x := fun h => by unfold IsFin at h; unfold IsNaN; omega
  rw [Power.pow_eq]
  refine ⟨fun h hx => ?_, fun h hx hx0 => ?_, fun h hx => ?_, fun h hx hs => ?_⟩
  · have h0 := h0 _ h (by norm_num)
    exact gen_y1 N kd_ok (yisint_spec h0) hx hyn h0 h
  · have h0 := h0 _ h (by norm_num)
    exact gen_ym1 N kd_ok (yisint_spec h0) (hxn hx) hyn h0 h hx hx0
  · have h0 := h0 _ h (by norm_num)
    exact gen_y2 N kd_ok (yisint_spec h0) (hxn hx) hyn h0 h hx
  · have h0 := h0 _ h (by norm_num)
    by_cases h1 : f64.mag x = f64.bias * 2 ^ f64.s
    · rw [gen_x1 N kd_ok hs h1]
      refine ⟨_, rfl, ?_, by decide +kernel⟩
      have hv : f64.val x = 1 := by rw [f64.val_sign, hs, h1, Power.magVal_one]; norm_num
      have hr := (f64.rounds_self (K := ℝ) (b := KD.one) (by decide +kernel)).1
      have hv2 : f64.valK ℝ KD.one = 1 := by
        rw [← f64.valK_cast]
        have : f64.val KD.one = 1 := by rw [f64.val_sign, kd_ok.o1, kd_ok.o2, Power.magVal_one]; norm_num
        rw [this]; norm_num
      rw [hv2, abs_one] at hr
      rw [hv, Rat.cast_one, Real.sqrt_one]
      exact hr
    · rw [gen_yhalf N kd_ok (yisint_spec h0) (hxn hx) hyn h0 h hs h1]
      obtain ⟨r, st, e, sp⟩ := C43_sqrt N x
      have hv0 : 0 ≤ f64.val x := by
        rw [f64.val_sign, hs]
        have := f64.magVal_nonneg ℚ (f64.mag x)
        simpa using this
      obtain ⟨s1, s2, -⟩ := sp.1 hx hv0
      refine ⟨r, ?_, s1, by rw [s2, hs]⟩
      unfold Asin.sqrtD
      rw [e]
      rfl

/-- C101: base `±0` or `±∞`, finite nonzero exponent: the magnitude is 0 or `∞` as usual, the sign is that of `x` for an odd integer `y` and `+` for every other `y`. -/
theorem C101_pow_x0inf (N : FPU f64) {x y : BitVec f64.w} (hy : f64.IsFin y) (h0 : ¬ f64.IsZero y) (h : f64.IsZero x ∨ f64.IsInf x) :
    ∃ r, Power.pow N x y = .ok r ∧ (OddInt f64 y → f64.sign r = f64.sign x) ∧ (¬ OddInt f64 y → f64.sign r = false) ∧
      (0 < f64.val y → f64.mag r = f64.mag x) ∧ (f64.val y < 0 → (f64.IsZero x → f64.IsInf r) ∧ (f64.IsInf x → f64.IsZero r)) := by
  have hyn : ¬ f64.IsNaN y := by unfold IsFin at hy; unfold IsNaN; omega
  have hip : 0 < f64.infRep := by decide
  have hxn : ¬ f64.IsNaN x := by unfold IsZero IsInf at h; unfold IsNaN; omega
  rw [Power.pow_eq]
  obtain ⟨r, r1, r2, r3, r4, r5⟩ := gen_x0inf N kd_ok (sq := Asin.sqrtD N x)
    (core := fun s => coreD N s (f64.fabs x) y (f64.mag x / 2 ^ 32) (y.toNat >>> 32) (f64.mag y / 2 ^ 32)) (yisint_spec h0) hxn hyn h0 hy h (fun hs => by
      obtain ⟨r, st, e, sp⟩ := C43_sqrt N x
      refine ⟨r, by unfold Asin.sqrtD; rw [e]; rfl, ?_⟩
      rcases h with h | h
      · have hv : f64.val x = 0 := val_zero_iff.mpr h
        obtain ⟨s1, s2, -⟩ := sp.1 (by unfold IsFin; unfold IsZero at h; omega) (by rw [hv])
        rw [hv, Rat.cast_zero, Real.sqrt_zero] at s1
        have h3 := (f64.rounds_self (K := ℝ) (b := 0#f64.w) (by decide +kernel)).1
        have hv2 : f64.valK ℝ 0#f64.w = 0 := by
          rw [← f64.valK_cast, val_zero_iff.mpr (show f64.mag 0#f64.w = 0 by decide +kernel), Rat.cast_zero]
        rw [hv2, abs_zero] at h3
        refine ⟨by rw [s2, hs], ?_⟩
        rw [IsRNE.unique f64 s1 h3, show f64.mag x = 0 from h]
        decide +kernel
      · obtain ⟨s1, -⟩ := sp.2.1 h hs
        rw [s1]
        exact ⟨hs, rfl⟩)
  exact ⟨r, r1, r2, r3, fun h => r4 (sign_of_pos h), fun h => r5 (sign_of_neg h)⟩

/-- C101: base `-1`, finite nonzero exponent: `1` for an even integer, `-1` for an odd one, a NaN otherwise. -/
theorem C101_pow_m1 (N : FPU f64) {y : BitVec f64.w} (hy : f64.IsFin y) (h0 : ¬ f64.IsZero y) :
    ∃ r, Power.pow N 0xbff0000000000000#f64.w y = .ok r ∧ (¬ IsInteger f64 y → f64.IsNaN r) ∧
      (IsInteger f64 y → (¬ OddInt f64 y → r = 0x3ff0000000000000#f64.w) ∧ (OddInt f64 y → r = 0xbff0000000000000#f64.w)) := by
  have hyn : ¬ f64.IsNaN y := by unfold IsFin at hy; unfold IsNaN; omega
  rw [Power.pow_eq]
  exact gen_xm1 N kd_ok (yisint_spec h0) (by unfold IsNaN; decide +kernel) hyn h0 hy (by decide +kernel) (by decide +kernel)

/-- C101: a negative finite base and an exponent that is not an integer: a NaN. -/
theorem C101_pow_nonint (N : FPU f64) {x y : BitVec f64.w} (hx : f64.IsFin x) (hx0 : f64.val x < 0) (hy : f64.IsFin y) (h : ¬ IsInteger f64 y) :
    ∃ r, Power.pow N x y = .ok r ∧ f64.IsNaN r := by
  have hyn : ¬ f64.IsNaN y := by unfold IsFin at hy; unfold IsNaN; omega
  have hxn : ¬ f64.IsNaN x := by unfold IsFin at hx; unfold IsNaN; omega
  have h0 : f64.mag y ≠ 0 := fun h' => h ⟨0, by rw [val_zero_iff.mpr h']; norm_num⟩
  rw [Power.pow_eq]
  exact gen_nonint N kd_ok (yisint_spec h0) hxn hyn h0 hy (sign_of_neg hx0) hx (fun h => hx0.ne (val_zero_iff.mpr h)) h

/-- C101: a negative finite base and an integer exponent: the result for `|x|`, negated exactly if the exponent is odd. -/
theorem C101_pow_neg (N : FPU f64) {x y r' : BitVec f64.w} (hx : f64.IsFin x) (hx0 : f64.val x < 0) (hy : f64.IsFin y) (h0 : ¬ f64.IsZero y) (h : IsInteger f64 y)
    (hr : Power.pow N (f64.neg x) y = .ok r') :
    ∃ r, Power.pow N x y = .ok r ∧ (f64.IsNaN r' → f64.IsNaN r) ∧
      (¬ f64.IsNaN r' → (OddInt f64 y → r = f64.neg r') ∧ (¬ OddInt f64 y → r = r')) := by
  have hs := sign_of_neg hx0
  obtain ⟨f1, f2⟩ := f64.fabs_facts x
  have hn : f64.neg x = f64.fabs x := f64.ext_sign_mag (by rw [f64.sign_neg, hs, f1]; rfl) (by rw [f64.mag_neg, f2])
  have hff : f64.fabs (f64.fabs x) = f64.fabs x := by
    obtain ⟨g1, g2⟩ := f64.fabs_facts (f64.fabs x)
    exact f64.ext_sign_mag (by rw [g1, f1]) g2
  rw [hn, Power.pow_eq, hff, f2] at hr
  rw [Power.pow_eq]
  have key := gen_neg N kd_ok (sq := Asin.sqrtD N x) (sq' := Asin.sqrtD N (f64.fabs x)) (core := fun s => coreD N s (f64.fabs x) y (f64.mag x / 2 ^ 32) (y.toNat >>> 32) (f64.mag y / 2 ^ 32))
    (yisint_spec h0) hy h0 hs hx (fun h => hx0.ne (val_zero_iff.mpr h)) h (fun hodd => coreD_neg N _ _ (odd_word hodd))
  by_cases ho : OddInt f64 y
  · obtain ⟨r, r1, r2, r3⟩ := key.1 ho r' hr
    exact ⟨r, r1, r2, fun hn => ⟨fun _ => r3 hn, fun h => absurd ho h⟩⟩
  · obtain ⟨r, r1, r2, r3⟩ := key.2 ho r' hr
    exact ⟨r, r1, r2, fun hn => ⟨fun h => absurd h ho, fun _ => r3 hn⟩⟩

/-! ## C102 -/

/-- C102: `x^0 = 1` and `1^y = 1` for every other argument, NaN included. -/
theorem C102_powf_one (N : FPU f32) (x y : BitVec f32.w) (h : f32.IsZero y ∨ x = 0x3f800000#f32.w) : Power.powf N x y = .ok 0x3f800000#f32.w := by
  rw [Power.powf_eq]
  rcases h with h | h
  · exact gen_y0 N ks_ok h
  · subst h
    exact gen_x1 N ks_ok (by decide +kernel) (by decide +kernel)

/-- C102: a NaN argument gives a NaN (the exponent not 0, the base not 1). -/
theorem C102_powf_nan (N : FPU f32) {x y : BitVec f32.w} (h0 : ¬ f32.IsZero y) (h1 : x ≠ 0x3f800000#f32.w) (h : f32.IsNaN x ∨ f32.IsNaN y) :
    ∃ r, Power.powf N x y = .ok r ∧ f32.IsNaN r := by
  rw [Power.powf_eq]
  exact gen_nan N ks_ok h0 (f32_ne_one h1) h

/-- C102: infinite exponent: 1 for `|x| = 1`; `+∞` for `|x| > 1` and `y = +∞` and for `|x| < 1` and `y = -∞`; `+0` in the other two cases. -/
theorem C102_powf_yinf (N : FPU f32) {x y : BitVec f32.w} (hx : ¬ f32.IsNaN x) (hy : f32.IsInf y) :
    (|f32.val x| = 1 → Power.powf N x y = .ok 0x3f800000#f32.w) ∧
    (|f32.val x| > 1 → Power.powf N x y = .ok (if f32.sign y then 0#f32.w else 0x7f800000#f32.w)) ∧
    (|f32.val x| < 1 → Power.powf N x y = .ok (if f32.sign y then 0x7f800000#f32.w else 0#f32.w)) := by
  have h0 : f32.mag y ≠ 0 := by unfold IsInf at hy; rw [hy]; decide
  have hyn : ¬ f32.IsNaN y := by unfold IsInf at hy; unfold IsNaN; omega
  have hfy : f32.fabs y = 0x7f800000#f32.w :=
    f32.ext_sign_mag (by rw [(f32.fabs_facts y).1]; decide +kernel) (by rw [(f32.fabs_facts y).2, hy]; decide +kernel)
  rw [Power.powf_eq, gen_yinf N ks_ok (yisintS_spec h0) hx hyn h0 hy, hfy, f32.absv]
  have m1 := Power.magVal_one (F := f32)
  refine ⟨fun h => ?_, fun h => ?_, fun h => ?_⟩
  · rw [if_pos (f32.magVal_inj.mp (by rw [h, m1]))]; rfl
  · rw [← m1, gt_iff_lt, f32.magVal_lt_iff] at h
    rw [if_neg h.ne']
    have : ¬ f32.mag x < f32.bias * 2 ^ f32.s := not_lt.mpr h.le
    cases f32.sign y <;> simp [this]
  · rw [← m1, f32.magVal_lt_iff] at h
    rw [if_neg h.ne]
    cases f32.sign y <;> simp [h]

/-- C102: `x^1 = x`, `x^-1` is the correctly rounded reciprocal, `x^2` the correctly rounded square, `x^(1/2)` the correctly rounded square root of a non-negative `x`. -/
theorem C102_powf_simple (N : FPU f32) {x y : BitVec f32.w} (hy : f32.IsFin y) :
    (f32.val y = 1 → ¬ f32.IsNaN x → Power.powf N x y = .ok x) ∧
    (f32.val y = -1 → f32.IsFin x → f32.val x ≠ 0 → ∃ r, Power.powf N x y = .ok r ∧ f32.Rounds (1 / f32.val x) r ∧ f32.sign r = f32.sign x) ∧
    (f32.val y = 2 → f32.IsFin x → ∃ r, Power.powf N x y = .ok r ∧ f32.Rounds (f32.val x ^ 2) r ∧ f32.sign r = false) ∧
    (f32.val y = 1 / 2 → f32.IsFin x → f32.sign x = false → ∃ r, Power.powf N x y = .ok r ∧ f32.IsRNE (Real.sqrt (f32.val x : ℝ)) (f32.mag r) ∧ f32.sign r = false) := by
  have hyn : ¬ f32.IsNaN y := by unfold IsFin at hy; unfold IsNaN; omega
  have h0 : ∀ q : ℚ, f32.val y = q → q ≠ 0 → f32.mag y ≠ 0 := fun q h hq h' => hq (by rw [← h]; exact val_zero_iff.mpr h')
  have hxn : f32.IsFin x → ¬ f32.IsNaN x := fun h => by unfold IsFin at h; unfold IsNaN; omega
  rw [Power.powf_eq]
  refine ⟨fun h hx => ?_, fun h hx hx0 => ?_, fun h hx => ?_, fun h hx hs => ?_⟩
  · have h0 := h0 _ h (by norm_num)
    exact gen_y1 N ks_ok (yisintS_spec h0) hx hyn h0 h
  · have h0 := h0 _ h (by norm_num)
    exact gen_ym1 N ks_ok (yisintS_spec h0) (hxn hx) hyn h0 h hx hx0
  · have h0 := h0 _ h (by norm_num)
    exact gen_y2 N ks_ok (yisintS_spec h0) (hxn hx) hyn h0 h hx
  · have h0 := h0 _ h (by norm_num)
    by_cases h1 : f32.mag x = f32.bias * 2 ^ f32.s
    · rw [gen_x1 N ks_ok hs h1]
      refine ⟨_, rfl, ?_, by decide +kernel⟩
      have hv : f32.val x = 1 := by rw [f32.val_sign, hs, h1, Power.magVal_one]; norm_num
      have hr := (f32.rounds_self (K := ℝ) (b := KS.one) (by decide +kernel)).1
      have hv2 : f32.valK ℝ KS.one = 1 := by
        rw [← f32.valK_cast]
        have : f32.val KS.one = 1 := by rw [f32.val_sign, ks_ok.o1, ks_ok.o2, Power.magVal_one]; norm_num
        rw [this]; norm_num
      rw [hv2, abs_one] at hr
      rw [hv, Rat.cast_one, Real.sqrt_one]
      exact hr
    · rw [gen_yhalf N ks_ok (yisintS_spec h0) (hxn hx) hyn h0 h hs h1]
      obtain ⟨r, st, e, sp⟩ := C43_sqrtf N x
      have hv0 : 0 ≤ f32.val x := by
        rw [f32.val_sign, hs]
        have := f32.magVal_nonneg ℚ (f32.mag x)
        simpa using this
      obtain ⟨s1, s2, -⟩ := sp.1 hx hv0
      refine ⟨r, ?_, s1, by rw [s2, hs]⟩
      unfold Asin.F32.sqrtS
      rw [e]
      rfl

/-- C102: base `±0` or `±∞`, finite nonzero exponent: the magnitude is 0 or `∞` as usual, the sign is that of `x` for an odd integer `y` and `+` for every other `y`. -/
theorem C102_powf_x0inf (N : FPU f32) {x y : BitVec f32.w} (hy : f32.IsFin y) (h0 : ¬ f32.IsZero y) (h : f32.IsZero x ∨ f32.IsInf x) :
    ∃ r, Power.powf N x y = .ok r ∧ (OddInt f32 y → f32.sign r = f32.sign x) ∧ (¬ OddInt f32 y → f32.sign r = false) ∧
      (0 < f32.val y → f32.mag r = f32.mag x) ∧ (f32.val y < 0 → (f32.IsZero x → f32.IsInf r) ∧ (f32.IsInf x → f32.IsZero r)) := by
  have hyn : ¬ f32.IsNaN y := by unfold IsFin at hy; unfold IsNaN; omega
  have hip : 0 < f32.infRep := by decide
  have hxn : ¬ f32.IsNaN x := by unfold IsZero IsInf at h; unfold IsNaN; omega
  rw [Power.powf_eq]
  obtain ⟨r, r1, r2, r3, r4, r5⟩ := gen_x0inf N ks_ok (sq := Asin.F32.sqrtS N x)
    (core := fun s => coreS N s (f32.fabs x) y (f32.mag x) y.toNat (f32.mag y)) (yisintS_spec h0) hxn hyn h0 hy h (fun hs => by
      obtain ⟨r, st, e, sp⟩ := C43_sqrtf N x
      refine ⟨r, by unfold Asin.F32.sqrtS; rw [e]; rfl, ?_⟩
      rcases h with h | h
      · have hv : f32.val x = 0 := val_zero_iff.mpr h
        obtain ⟨s1, s2, -⟩ := sp.1 (by unfold IsFin; unfold IsZero at h; omega) (by rw [hv])
        rw [hv, Rat.cast_zero, Real.sqrt_zero] at s1
        have h3 := (f32.rounds_self (K := ℝ) (b := 0#f32.w) (by decide +kernel)).1
        have hv2 : f32.valK ℝ 0#f32.w = 0 := by
          rw [← f32.valK_cast, val_zero_iff.mpr (show f32.mag 0#f32.w = 0 by decide +kernel), Rat.cast_zero]
        rw [hv2, abs_zero] at h3
        refine ⟨by rw [s2, hs], ?_⟩
        rw [IsRNE.unique f32 s1 h3, show f32.mag x = 0 from h]
        decide +kernel
      · obtain ⟨s1, -⟩ := sp.2.1 h hs
        rw [s1]
        exact ⟨hs, rfl⟩)
  exact ⟨r, r1, r2, r3, fun h => r4 (sign_of_pos h), fun h => r5 (sign_of_neg h)⟩

/-- C102: base `-1`, finite nonzero exponent: `1` for an even integer, `-1` for an odd one, a NaN otherwise. -/
theorem C102_powf_m1 (N : FPU f32) {y : BitVec f32.w} (hy : f32.IsFin y) (h0 : ¬ f32.IsZero y) :
    ∃ r, Power.powf N 0xbf800000#f32.w y = .ok r ∧ (¬ IsInteger f32 y → f32.IsNaN r) ∧
      (IsInteger f32 y → (¬ OddInt f32 y → r = 0x3f800000#f32.w) ∧ (OddInt f32 y → r = 0xbf800000#f32.w)) := by
  have hyn : ¬ f32.IsNaN y := by unfold IsFin at hy; unfold IsNaN; omega
  rw [Power.powf_eq]
  exact gen_xm1 N ks_ok (yisintS_spec h0) (by unfold IsNaN; decide +kernel) hyn h0 hy (by decide +kernel) (by decide +kernel)

/-- C102: a negative finite base and an exponent that is not an integer: a NaN. -/
theorem C102_powf_nonint (N : FPU f32) {x y : BitVec f32.w} (hx : f32.IsFin x) (hx0 : f32.val x < 0) (hy : f32.IsFin y) (h : ¬ IsInteger f32 y) :
    ∃ r, Power.powf N x y = .ok r ∧ f32.IsNaN r := by
  have hyn : ¬ f32.IsNaN y := by unfold IsFin at hy; unfold IsNaN; omega
  have hxn : ¬ f32.IsNaN x := by unfold IsFin at hx; unfold IsNaN; omega
  have h0 : f32.mag y ≠ 0 := fun h' => h ⟨0, by rw [val_zero_iff.mpr h']; norm_num⟩
  rw [Power.powf_eq]
  exact gen_nonint N ks_ok (yisintS_spec h0) hxn hyn h0 hy (sign_of_neg hx0) hx (fun h => hx0.ne (val_zero_iff.mpr h)) h

/-- C102: a negative finite base and an integer exponent: the result for `|x|`, negated exactly if the exponent is odd. -/
theorem C102_powf_neg (N : FPU f32) {x y r' : BitVec f32.w} (hx : f32.IsFin x) (hx0 : f32.val x < 0) (hy : f32.IsFin y) (h0 : ¬ f32.IsZero y) (h : IsInteger f32 y)
    (hr : Power.powf N (f32.neg x) y = .ok r') :
    ∃ r, Power.powf N x y = .ok r ∧ (f32.IsNaN r' → f32.IsNaN r) ∧
      (¬ f32.IsNaN r' → (OddInt f32 y → r = f32.neg r') ∧ (¬ OddInt f32 y → r = r')) := by
  have hs := sign_of_neg hx0
  obtain ⟨f1, f2⟩ := f32.fabs_facts x
  have hn : f32.neg x = f32.fabs x := f32.ext_sign_mag (by rw [f32.sign_neg, hs, f1]; rfl) (by rw [f32.mag_neg, f2])
  have hff : f32.fabs (f32.fabs x) = f32.fabs x := by
    obtain ⟨g1, g2⟩ := f32.fabs_facts (f32.fabs x)
    exact f32.ext_sign_mag (by rw [g1, f1]) g2
  rw [hn, Power.powf_eq, hff, f2] at hr
  rw [Power.powf_eq]
  have key := gen_neg N ks_ok (sq := Asin.F32.sqrtS N x) (sq' := Asin.F32.sqrtS N (f32.fabs x)) (core := fun s => coreS N s (f32.fabs x) y (f32.mag x) y.toNat (f32.mag y))
    (yisintS_spec h0) hy h0 hs hx (fun h => hx0.ne (val_zero_iff.mpr h)) h (fun hodd => coreS_neg N _ _)
  by_cases ho : OddInt f32 y
  · obtain ⟨r, r1, r2, r3⟩ := key.1 ho r' hr
    exact ⟨r, r1, r2, fun hn => ⟨fun _ => r3 hn, fun h => absurd ho h⟩⟩
  · obtain ⟨r, r1, r2, r3⟩ := key.2 ho r' hr
    exact ⟨r, r1, r2, fun hn => ⟨fun h => absurd h ho, fun _ => r3 hn⟩⟩

/-- Concrete cases: `2^10`, `2^-1074`, `2^1024`, `(-2)^3`, `(-8)^(1/3)` in binary64, `10^0.5`, `0^-3`, `(-0)^-3`, `NaN^0`. -/
example : Power.pow FPU.softF64 0x4000000000000000#64 0x4024000000000000#64 = .ok 0x4090000000000000#64 ∧
    Power.pow FPU.softF64 0x4000000000000000#64 0xc090c80000000000#64 = .ok 0x0000000000000001#64 ∧
    Power.pow FPU.softF64 0x4000000000000000#64 0x4090000000000000#64 = .ok 0x7ff0000000000000#64 ∧
    Power.pow FPU.softF64 0xc000000000000000#64 0x4008000000000000#64 = .ok 0xc020000000000000#64 ∧
    (match Power.pow FPU.softF64 0xc020000000000000#64 0x3fd5555555555555#64 with | .ok r => decide (f64.infRep < f64.mag r) | _ => false) = true ∧
    Power.pow FPU.softF64 0x4024000000000000#64 0x3fe0000000000000#64 = .ok 0x40094c583ada5b53#64 ∧
    Power.pow FPU.softF64 0x0000000000000000#64 0xc008000000000000#64 = .ok 0x7ff0000000000000#64 ∧
    Power.pow FPU.softF64 0x8000000000000000#64 0xc008000000000000#64 = .ok 0xfff0000000000000#64 ∧
    Power.pow FPU.softF64 0x7ff8000000000000#64 0x8000000000000000#64 = .ok 0x3ff0000000000000#64 := by decide +kernel
example : Power.powf FPU.softF32 0x40000000#32 0x41200000#32 = .ok 0x44800000#32 ∧
    Power.powf FPU.softF32 0xc0000000#32 0x40400000#32 = .ok 0xc1000000#32 ∧
    Power.powf FPU.softF32 0x80000000#32 0xc0400000#32 = .ok 0xff800000#32 ∧
    Power.powf FPU.softF32 0x40000000#32 0x43000000#32 = .ok 0x7f800000#32 := by decide +kernel
/-- The hypotheses are met: `-2` is finite and negative, 3 an odd integer, `-1/2` not an integer. -/
example : f64.IsFin 0xc000000000000000#64 ∧ f64.val 0xc000000000000000#64 < 0 ∧ OddInt f64 0x4008000000000000#64 ∧ ¬ IsInteger f64 0xbfe0000000000000#64 := by
  refine ⟨by unfold Fmt.IsFin; decide +kernel, by decide +kernel, ⟨3, by decide +kernel, by decide⟩, ?_⟩
  rintro ⟨n, hn⟩
  rw [show f64.val 0xbfe0000000000000#64 = -1 / 2 by decide +kernel] at hn
  have h2 : ((-1 : ℤ) : ℚ) = ((2 * n : ℤ) : ℚ) := by push_cast; rw [← hn]; norm_num
  have : (-1 : ℤ) = 2 * n := by exact_mod_cast h2
  omega

end Verif.Props
