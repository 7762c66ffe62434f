import Verif.Libm.Exp10D
import Verif.Props.LibmExp2
import Verif.Props.LibmPowAcc
/-! # Property C104: `exp10` -/
namespace Verif.Props
open Fmt

/-- C104: for `|x| < 16` `exp10(x)` is finite and within `7.4 * 2^-53` of `10^x` relatively; at the integers it is a float nearest to `10^x`. -/
theorem C104_exp10_small (N : FPU f64) {x : BitVec f64.w} (hx : f64.IsFin x) (h : |f64.val x| < 16) :
    ∃ r, Exp10.exp10 N x = .ok r ∧ f64.IsFin r ∧
      |((f64.val r : ℚ) : ℝ) - 10 ^ ((f64.val x : ℚ) : ℝ)| ≤ 7.4 / 2 ^ 53 * 10 ^ ((f64.val x : ℚ) : ℝ) ∧
      (∀ k : ℤ, f64.val x = k → f64.Near ((10 : ℝ) ^ k) r) := by
  have hv : GFv f64 x ((f64.val x : ℚ) : ℝ) := ⟨hx, (f64.valK_cast x).symm⟩
  obtain ⟨y, n, Y, k, e, gy, gn, hn, hY, h1, h2, hX, hi⟩ := (Exp10.exp10_split N hv).2 (by exact_mod_cast h)
  obtain ⟨r, r1, r2, r3, r4⟩ := Exp10.small_spec N gy gn hn hY h1 h2
  rw [← hX] at r3 r4
  refine ⟨r, e.trans r1, r2, by rw [ten_rpow, f64.valK_cast]; exact r3, fun j hj => ?_⟩
  have hj' : ((f64.val x : ℚ) : ℝ) = j := by rw [hj]; norm_cast
  have := r4 (hi j hj')
  rwa [hj', ← ten_rpow, Real.rpow_intCast] at this

theorem val_ten : f64.IsFin Exp10.ten ∧ f64.val Exp10.ten = 10 := ⟨by unfold Fmt.IsFin; decide +kernel, by decide +kernel⟩

theorem logb_ten : 3.3219280948 ≤ Real.logb 2 10 ∧ Real.logb 2 10 ≤ 3.3219280949 := by
  have a := Exp2.ln10_near
  have b := Exp2.ln2_near
  have hl0 := Poly.log2_pos
  rw [abs_le] at a b
  norm_num at a b
  rw [Real.logb, le_div_iff₀ hl0, div_le_iff₀ hl0]
  norm_num
  constructor <;> linarith [a.1, a.2, b.1, b.2]

/-- C104: for `|x| ≥ 16` `exp10(x)` is `pow(10, x)`: finite and within `(9 + 44 |x|) 2^-53` relative plus `2^-1074` absolute of `10^x` up to
`x = 308.2547155`, and `+∞` from `x = 308.2547156` on (the exact limit of the range is `308.25471555991...`). -/
theorem C104_exp10_large (N : FPU f64) {x : BitVec f64.w} (hx : f64.IsFin x) (h : 16 ≤ |f64.val x|) :
    ∃ r, Exp10.exp10 N x = .ok r ∧
      (f64.val x ≤ 308.2547155 → f64.IsFin r ∧ f64.sign r = false ∧
        |((f64.val r : ℚ) : ℝ) - 10 ^ ((f64.val x : ℚ) : ℝ)| ≤ (9 + 44 * |((f64.val x : ℚ) : ℝ)|) / 2 ^ 53 * 10 ^ ((f64.val x : ℚ) : ℝ) + 2 ^ (-1074 : ℤ)) ∧
      (308.2547156 ≤ f64.val x → f64.IsInf r ∧ f64.sign r = false) := by
  have hv : GFv f64 x ((f64.val x : ℚ) : ℝ) := ⟨hx, (f64.valK_cast x).symm⟩
  obtain ⟨r, e, s1, s2⟩ := C103_pow_accuracy N val_ten.1 (by rw [val_ten.2]; norm_num) hx
  rw [val_ten.2, Rat.cast_ofNat] at s1 s2
  obtain ⟨l1, l2⟩ := logb_ten
  refine ⟨r, ((Exp10.exp10_split N hv).1 (by exact_mod_cast h)).trans e, fun hle => ?_, fun hge => ?_⟩
  · have hle' : ((f64.val x : ℚ) : ℝ) ≤ 308.2547155 := by
      have : ((f64.val x : ℚ) : ℝ) ≤ ((308.2547155 : ℚ) : ℝ) := by exact_mod_cast hle
      norm_num at this ⊢; exact this
    obtain ⟨a, b, c⟩ := s1 (by
      rcases le_or_gt ((f64.val x : ℚ) : ℝ) 0 with h0 | h0
      · have : ((f64.val x : ℚ) : ℝ) * Real.logb 2 10 ≤ 0 := mul_nonpos_of_nonpos_of_nonneg h0 (by linarith)
        norm_num; linarith
      · have : ((f64.val x : ℚ) : ℝ) * Real.logb 2 10 ≤ 308.2547155 * 3.3219280949 := mul_le_mul hle' l2 (by linarith) (by norm_num)
        norm_num at this ⊢; linarith)
    refine ⟨a, b, ?_⟩
    rw [f64.valK_cast]
    refine c.trans ?_
    refine add_le_add_left (mul_le_mul_of_nonneg_right ?_ (by positivity)) _
    rw [div_le_div_iff_of_pos_right (by norm_num), abs_mul, abs_of_pos (show 0 < Real.logb 2 10 by linarith)]
    have := mul_le_mul_of_nonneg_left l2 (abs_nonneg ((f64.val x : ℚ) : ℝ))
    have h0 := abs_nonneg ((f64.val x : ℚ) : ℝ)
    generalize |((f64.val x : ℚ) : ℝ)| = X at *
    norm_num at this
    linarith
  · refine s2 ?_
    have hge' : (308.2547156 : ℝ) ≤ ((f64.val x : ℚ) : ℝ) := by
      have : ((308.2547156 : ℚ) : ℝ) ≤ ((f64.val x : ℚ) : ℝ) := by exact_mod_cast hge
      norm_num at this ⊢; exact this
    have : (308.2547156 : ℝ) * 3.3219280948 ≤ ((f64.val x : ℚ) : ℝ) * Real.logb 2 10 := mul_le_mul hge' l1 (by norm_num) (by linarith)
    norm_num at this ⊢; linarith

/-- C104: `exp10(NaN)` is a NaN, `exp10(+∞) = +∞`, `exp10(-∞) = +0`. -/
theorem C104_exp10_special (N : FPU f64) (x : BitVec f64.w) :
    (f64.IsNaN x → ∃ r, Exp10.exp10 N x = .ok r ∧ f64.IsNaN r) ∧
    (f64.IsInf x → Exp10.exp10 N x = .ok (if f64.sign x then 0#f64.w else 0x7ff0000000000000#f64.w)) := by
  have hi : f64.infRep = 0x7ff0000000000000 := by decide +kernel
  have hbr : f64.infRep ≤ f64.mag x → ¬ (x.toNat >>> 52) &&& 0x7ff < 0x3ff + 4 := fun h => by rw [Exp10.branch]; omega
  refine ⟨fun h => ?_, fun h => ?_⟩
  · unfold Exp10.exp10
    rw [(C45_modf_special f64 N x).1 h]
    simp only [bind, Except.bind]
    rw [if_neg (hbr (by unfold Fmt.IsNaN at h; omega))]
    exact C101_pow_nan N (by unfold Fmt.IsZero; unfold Fmt.IsNaN at h; omega) (by decide) (Or.inr h)
  · obtain ⟨w, hm, -⟩ := (C45_modf_special f64 N x).2 h
    unfold Exp10.exp10
    rw [hm]
    simp only [bind, Except.bind]
    rw [if_neg (hbr (by unfold Fmt.IsInf at h; omega))]
    exact (C101_pow_yinf N (by unfold Fmt.IsNaN; decide +kernel) h).2.1 (by rw [val_ten.2]; norm_num)

/-! Concrete values: 1/2, 3, -14, 20, 20.0625, -323 (the subnormal 2), 308.25, 309. -/
example : Exp10.exp10 FPU.softF64 0x3fe0000000000000#64 = .ok 0x40094c583ada5b52#64 ∧
    Exp10.exp10 FPU.softF64 0x4008000000000000#64 = .ok 0x408f400000000000#64 ∧
    Exp10.exp10 FPU.softF64 0xc02c000000000000#64 = .ok 0x3d06849b86a12b9b#64 ∧
    Exp10.exp10 FPU.softF64 0x4034000000000000#64 = .ok 0x4415af1d78b58c40#64 ∧
    Exp10.exp10 FPU.softF64 0x4034100000000000#64 = .ok 0x44190a53e6b60e4b#64 ∧
    Exp10.exp10 FPU.softF64 0xc074300000000000#64 = .ok 0x0000000000000002#64 ∧
    Exp10.exp10 FPU.softF64 0x4073440000000000#64 = .ok 0x7fefa788589d81d3#64 ∧
    Exp10.exp10 FPU.softF64 0x4073500000000000#64 = .ok 0x7ff0000000000000#64 := by decide +kernel
/-- The hypotheses are met: 1/2 is finite and below 16, 20 and -323 are finite and not below 16 in magnitude, 308.25 is below the limit and 309 above. -/
example : f64.IsFin 0x3fe0000000000000#64 ∧ |f64.val 0x3fe0000000000000#64| < 16 ∧ f64.IsFin 0xc074300000000000#64 ∧ 16 ≤ |f64.val 0xc074300000000000#64| ∧
    f64.val 0x4073440000000000#64 ≤ 308.2547155 ∧ 308.2547156 ≤ f64.val 0x4073500000000000#64 := by
  refine ⟨by unfold Fmt.IsFin; decide +kernel, ?_, by unfold Fmt.IsFin; decide +kernel, ?_, ?_, ?_⟩
  · rw [show f64.val 0x3fe0000000000000#64 = 1 / 2 by decide +kernel]; norm_num [abs_of_pos]
  · rw [show f64.val 0xc074300000000000#64 = -323 by decide +kernel]; norm_num
  · rw [show f64.val 0x4073440000000000#64 = 308.25 by decide +kernel]; norm_num
  · rw [show f64.val 0x4073500000000000#64 = 309 by decide +kernel]; norm_num
end Verif.Props
