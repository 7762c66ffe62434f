import Verif.Libm.FmaTop
import Verif.Libm.FmaWideProofs
import Verif.Libm.Fmaf16Proofs
import Verif.Props.Conv
import Verif.Props.FloatMul
/-! # Property C44: fused multiply-add -/
namespace Verif.Props
open Fmt

/-- `f64::cast_from(i64)` done in software (`__floatdidf`) -/
def castI64 : IntCast f64 where
  cast := fun i => get! (signedConv f64 u64ToF64 i)
  spec := fun i => (get!_spec (C31_signed.2.2.2.2.1 i)).1

/-- `f128::cast_from(i128)` done in software (`__floattitf`) -/
def castI128 : IntCast f128 where
  cast := fun i => get! (signedConv f128 u128ToF128 i)
  spec := fun i => (get!_spec (C31_signed.2.2.2.2.2.2.2.2 i)).1

/-- C44, generic `fma` (f64): correctly rounded unless `FmaLost`. The full claim (no `hb`) is false, see
`C44_fma_f64_fails`. -/
theorem C44_fma_f64_partial (N : FPU f64) (C : IntCast f64) (x y z : BitVec f64.w) (hb : ¬ f64.FmaLost x y z) :
    ∃ r, f64.fmaRound N C (DOps.prim f64.w) x y z = .ok r ∧ f64.FmaSpec x y z r :=
  f64.fmaRound_spec N C (DOps.prim_lawful _) fmaCfg_f64 x y z hb

/-- C44, generic `fma` (f128): correctly rounded unless `FmaLost`. -/
theorem C44_fma_f128_partial (N : FPU f128) (C : IntCast f128) (x y z : BitVec f128.w) (hb : ¬ f128.FmaLost x y z) :
    ∃ r, f128.fmaRound N C (DOps.wide 64) x y z = .ok r ∧ f128.FmaSpec x y z r :=
  f128.fmaRound_spec N C wide128_lawful fmaCfg_f128 x y z hb

/-- The defect needs an addend exceeding the product by more than `2^(e-1)`. -/
theorem fmaLost_big (F : Fmt) {x y z : BitVec F.w} (h : F.FmaLost x y z) :
    2 ^ (F.e - 1) * |F.val x * F.val y| < |F.val z| := by
  obtain ⟨mx, my, mz, ex, ey, ez, ⟨_, hx, vx⟩, ⟨_, hy, vy⟩, ⟨hz, _, vz⟩, k, hk, _, hd, _⟩ := h
  have h5 := F.he
  have hw : F.w = F.e + F.s + 1 := rfl
  rw [abs_mul, vx, vy, vz, show ez = F.w + k + ex + ey by omega]
  have hxq : (mx : ℚ) < 2 ^ (F.s + 2) := by exact_mod_cast hx
  have hyq : (my : ℚ) < 2 ^ (F.s + 2) := by exact_mod_cast hy
  have hzq : (2 : ℚ) ^ (F.s + 1) ≤ mz := by exact_mod_cast hz
  have hxy : (mx : ℚ) * my < 2 ^ (F.s + 2) * 2 ^ (F.s + 2) :=
    lt_of_le_of_lt (mul_le_mul_of_nonneg_right hxq.le (by positivity))
      (mul_lt_mul_of_pos_left hyq (by positivity))
  have hp : (0 : ℚ) < 2 ^ (ex + ey) := by positivity
  calc (2 : ℚ) ^ (F.e - 1) * (mx * 2 ^ ex * (my * 2 ^ ey)) = 2 ^ (F.e - 1) * (mx * my) * 2 ^ (ex + ey) := by
        rw [zpow_add₀ (by norm_num)]; ring
    _ < 2 ^ (F.e - 1) * (2 ^ (F.s + 2) * 2 ^ (F.s + 2)) * 2 ^ (ex + ey) :=
        mul_lt_mul_of_pos_right (mul_lt_mul_of_pos_left hxy (by positivity)) hp
    _ = 2 ^ (F.s + 1) * 2 ^ (F.w + 1 + ex + ey : ℤ) := by
        simp only [← zpow_natCast, ← zpow_add₀ (show (2 : ℚ) ≠ 0 by norm_num)]
        congr 1; omega
    _ ≤ mz * 2 ^ (F.w + k + ex + ey : ℤ) := by
        refine mul_le_mul hzq (zpow_le_zpow_right₀ (by norm_num) (by omega)) (by positivity) (by positivity)

/-- C44, generic `fma`: correctly rounded whenever the addend is at most `2^(e-1)` times the product
(`2^10` for f64, `2^14` for f128), in particular under cancellation. -/
theorem C44_fma_balanced_partial (N : FPU f64) (C : IntCast f64) (N' : FPU f128) (C' : IntCast f128) :
    (∀ x y z, |f64.val z| ≤ 2 ^ 10 * |f64.val x * f64.val y| →
      ∃ r, f64.fmaRound N C (DOps.prim f64.w) x y z = .ok r ∧ f64.FmaSpec x y z r) ∧
    (∀ x y z, |f128.val z| ≤ 2 ^ 14 * |f128.val x * f128.val y| →
      ∃ r, f128.fmaRound N' C' (DOps.wide 64) x y z = .ok r ∧ f128.FmaSpec x y z r) :=
  ⟨fun x y z h => C44_fma_f64_partial N C x y z (fun hl => absurd h (not_le.mpr (fmaLost_big f64 hl))),
   fun x y z h => C44_fma_f128_partial N' C' x y z (fun hl => absurd h (not_le.mpr (fmaLost_big f128 hl)))⟩

-- 1.5 * 2 + 1 = 4; 1.5 * 2 - 3 = +0; (1 + 2^-52)^2 - (1 + 2^-51) = 2^-104 (cancellation, exact);
-- the least subnormal times one half plus the least subnormal ties to even
example : f64.fmaRound FPU.softF64 castI64 (DOps.prim f64.w) 0x3ff8000000000000#f64.w 0x4000000000000000#f64.w
      0x3ff0000000000000#f64.w = .ok 0x4010000000000000#f64.w ∧
    f64.fmaRound FPU.softF64 castI64 (DOps.prim f64.w) 0x3ff8000000000000#f64.w 0x4000000000000000#f64.w
      0xc008000000000000#f64.w = .ok 0#f64.w ∧
    f64.fmaRound FPU.softF64 castI64 (DOps.prim f64.w) 0x3ff0000000000001#f64.w 0x3ff0000000000001#f64.w
      0xbff0000000000002#f64.w = .ok 0x3970000000000000#f64.w ∧
    f64.fmaRound FPU.softF64 castI64 (DOps.prim f64.w) 1#f64.w 0x3fe0000000000000#f64.w 1#f64.w = .ok 2#f64.w := by
  decide +kernel

-- a case meeting the hypotheses: 1.5, 2, 1
example : |f64.val 0x3ff0000000000000#f64.w| ≤ 2 ^ 10 * |f64.val 0x3ff8000000000000#f64.w * f64.val 0x4000000000000000#f64.w| := by
  rw [abs_mul, abs_val, abs_val, abs_val,
    show f64.mag 0x3ff0000000000000#f64.w = (1023 - 1) * 2 ^ f64.s + 2 ^ 52 by decide +kernel,
    show f64.mag 0x3ff8000000000000#f64.w = (1023 - 1) * 2 ^ f64.s + 3 * 2 ^ 51 by decide +kernel,
    show f64.mag 0x4000000000000000#f64.w = (1024 - 1) * 2 ^ f64.s + 2 ^ 52 by decide +kernel,
    magVal_at f64 (by decide) (by decide) (Or.inl (by decide)), magVal_at f64 (by decide) (by decide) (Or.inl (by decide)),
    magVal_at f64 (by decide) (by decide) (Or.inl (by decide)),
    show ((1023 : Nat) : ℤ) - f64.bias - f64.s = -52 by decide, show ((1024 : Nat) : ℤ) - f64.bias - f64.s = -51 by decide]
  norm_num

/-- C44 fails for f64: with `x * y` slightly above one half and `z = 2^52` the exact sum is nearest `2^52 + 1`, but `fma`
returns `2^52`: the sticky bit of the alignment step (generic/fma.rs 73-76) is computed from the low word after it has been
overwritten. -/
theorem C44_fma_f64_fails :
    ∃ x y z r, f64.fmaRound FPU.softF64 castI64 (DOps.prim f64.w) x y z = .ok r ∧ ¬ f64.FmaSpec x y z r := by
  refine ⟨0x3fe6a09e620ee71c#f64.w, 0x3fe6a09e6aef907e#f64.w, 0x4330000000000000#f64.w, 0x4330000000000000#f64.w,
    by decide +kernel, ?_⟩
  intro h
  have hf : ∀ b : BitVec f64.w, f64.mag b < f64.infRep → f64.IsFin b := fun _ h => h
  have h1 := (h.1 (hf _ (by decide +kernel)) (hf _ (by decide +kernel)) (hf _ (by decide +kernel))).1.1.2
    0x4330000000000001 (by decide +kernel)
  have vx : f64.val 0x3fe6a09e620ee71c#f64.w = 6369051598055196 / 2 ^ 53 := by
    rw [val_sign, show f64.sign 0x3fe6a09e620ee71c#f64.w = false by decide +kernel,
      show f64.mag 0x3fe6a09e620ee71c#f64.w = (1022 - 1) * 2 ^ f64.s + 6369051598055196 by decide +kernel,
      magVal_at f64 (by decide) (by decide) (Or.inl (by decide)), show ((1022 : Nat) : ℤ) - f64.bias - f64.s = -53 by decide]
    norm_num
  have vy : f64.val 0x3fe6a09e6aef907e#f64.w = 6369051746996350 / 2 ^ 53 := by
    rw [val_sign, show f64.sign 0x3fe6a09e6aef907e#f64.w = false by decide +kernel,
      show f64.mag 0x3fe6a09e6aef907e#f64.w = (1022 - 1) * 2 ^ f64.s + 6369051746996350 by decide +kernel,
      magVal_at f64 (by decide) (by decide) (Or.inl (by decide)), show ((1022 : Nat) : ℤ) - f64.bias - f64.s = -53 by decide]
    norm_num
  have mz : f64.magVal ℚ (f64.mag 0x4330000000000000#f64.w) = 2 ^ 52 := by
    rw [show f64.mag 0x4330000000000000#f64.w = (1075 - 1) * 2 ^ f64.s + 2 ^ 52 by decide +kernel,
      magVal_at f64 (by decide) (by decide) (Or.inl (by decide)), show ((1075 : Nat) : ℤ) - f64.bias - f64.s = 0 by decide]
    norm_num
  have m1 : f64.magVal ℚ 0x4330000000000001 = 2 ^ 52 + 1 := by
    rw [show 0x4330000000000001 = (1075 - 1) * 2 ^ f64.s + (2 ^ 52 + 1) by decide +kernel,
      magVal_at f64 (by decide) (by decide) (Or.inl (by decide)), show ((1075 : Nat) : ℤ) - f64.bias - f64.s = 0 by decide]
    norm_num
  have vz : f64.val 0x4330000000000000#f64.w = 2 ^ 52 := by
    rw [val_sign, show f64.sign 0x4330000000000000#f64.w = false by decide +kernel, mz]; norm_num
  rw [vx, vy, vz, mz, m1] at h1
  have := h1.1
  rw [abs_of_pos (by norm_num : (0 : ℚ) < 6369051598055196 / 2 ^ 53 * (6369051746996350 / 2 ^ 53) + 2 ^ 52)] at this
  revert this
  norm_num [abs_of_pos, abs_of_neg]

/-! ## fmaf -/

/-- C44, `fmaf` (through f64): a fused multiply-add except where a subnormal result is rounded twice (`FmaWideLost`). The
full claim is false, see `C44_fmaf_fails`. -/
theorem C44_fmaf_partial (N : FPU f64) (C : FloatCast f32 f64) (x y z : BitVec f32.w)
    (hb : f32.IsFin x → f32.IsFin y → f32.IsFin z → ¬ FmaWideLost f32 f64 x y z) :
    ∃ r, fmaWide N C x y z = .ok r ∧ f32.FmaSpec x y z r :=
  fmaWide_spec wideOk_32_64 N C x y z hb

/-- C44, `fmaf`: correctly rounded whenever the exact result is zero or at least the smallest normal number, or is a number
of f64; and for all infinite and NaN operands. -/
theorem C44_fmaf_normal_partial (N : FPU f64) (C : FloatCast f32 f64) (x y z : BitVec f32.w)
    (h : f32.IsFin x → f32.IsFin y → f32.IsFin z → 2 ^ (-126 : ℤ) ≤ |f32.val x * f32.val y + f32.val z| ∨
      ∃ n, n ≤ f64.infRep ∧ |f32.val x * f32.val y + f32.val z| = f64.magVal ℚ n) :
    ∃ r, fmaWide N C x y z = .ok r ∧ f32.FmaSpec x y z r := by
  refine fmaWide_spec wideOk_32_64 N C x y z (fun hx hy hz => ?_)
  rintro ⟨h1, W, h2, h3, _⟩
  rcases h hx hy hz with h | ⟨n, hn, he⟩
  · rw [show (1 - (f32.bias : ℤ)) = -126 by decide] at h1
    exact absurd h (not_le.mpr h1)
  · rw [he] at h2 h3
    exact h3 (by rw [IsRNE.unique f64 h2 (f64.isRNE_self hn)])

-- exact cases; 1 + 2^-24 (tie) plus a tiny product is rounded up, minus it down (double rounding avoided)
example : fmaWide FPU.softF64 (softCast wider_32_64) 0x3fc00000#f32.w 0x40000000#f32.w 0x3f800000#f32.w =
      .ok 0x40800000#f32.w ∧
    fmaWide FPU.softF64 (softCast wider_32_64) 0x3f800001#f32.w 0x0d800000#f32.w 0x3f800001#f32.w = .ok 0x3f800001#f32.w ∧
    fmaWide FPU.softF64 (softCast wider_32_64) 0x33800001#f32.w 0x3f7ffffe#f32.w 0x3f800000#f32.w = .ok 0x3f800000#f32.w ∧
    fmaWide FPU.softF64 (softCast wider_32_64) 0x33800800#f32.w 0x3f7ff001#f32.w 0x3f800000#f32.w = .ok 0x3f800001#f32.w := by
  decide +kernel
example : f32.IsFin 0x3fc00000#f32.w ∧ f32.IsInf 0x7f800000#f32.w := by
  unfold IsFin IsInf; decide +kernel

/-- C44 fails for f32: `x * y` is slightly above half the smallest subnormal; added to an even multiple `z` of the smallest
subnormal the result should be the next number, but rounding to f64 first gives a tie and `fmaf` returns `z`. The halfway test
of fma_wide.rs 31-36 looks at the bits that are discarded only when the result is normal. -/
theorem C44_fmaf_fails :
    ∃ x y z r, fmaWide FPU.softF64 (softCast wider_32_64) x y z = .ok r ∧ ¬ f32.FmaSpec x y z r := by
  refine ⟨0x190007ff#f32.w, 0x1afff003#f32.w, 0x00400002#f32.w, 0x00400002#f32.w, by decide +kernel, ?_⟩
  intro h
  have hf : ∀ b : BitVec f32.w, f32.mag b < f32.infRep → f32.IsFin b := fun _ h => h
  have h1 := (h.1 (hf _ (by decide +kernel)) (hf _ (by decide +kernel)) (hf _ (by decide +kernel))).1.1.2
    0x00400003 (by decide +kernel)
  have vx : f32.val 0x190007ff#f32.w = 8390655 / 2 ^ 100 := by
    rw [val_sign, show f32.sign 0x190007ff#f32.w = false by decide +kernel,
      show f32.mag 0x190007ff#f32.w = (50 - 1) * 2 ^ f32.s + 8390655 by decide +kernel,
      magVal_at f32 (by decide) (by decide) (Or.inl (by decide)), show ((50 : Nat) : ℤ) - f32.bias - f32.s = -100 by decide]
    norm_num
  have vy : f32.val 0x1afff003#f32.w = 16773123 / 2 ^ 97 := by
    rw [val_sign, show f32.sign 0x1afff003#f32.w = false by decide +kernel,
      show f32.mag 0x1afff003#f32.w = (53 - 1) * 2 ^ f32.s + 16773123 by decide +kernel,
      magVal_at f32 (by decide) (by decide) (Or.inl (by decide)), show ((53 : Nat) : ℤ) - f32.bias - f32.s = -97 by decide]
    norm_num
  have mz : f32.magVal ℚ (f32.mag 0x00400002#f32.w) = 0x400002 / 2 ^ 149 := by
    rw [show f32.mag 0x00400002#f32.w = (1 - 1) * 2 ^ f32.s + 0x400002 by decide +kernel,
      magVal_at f32 (by decide) (by decide) (Or.inr rfl), show ((1 : Nat) : ℤ) - f32.bias - f32.s = -149 by decide]
    norm_num
  have m1 : f32.magVal ℚ 0x00400003 = 0x400003 / 2 ^ 149 := by
    rw [show 0x00400003 = (1 - 1) * 2 ^ f32.s + 0x400003 by decide +kernel,
      magVal_at f32 (by decide) (by decide) (Or.inr rfl), show ((1 : Nat) : ℤ) - f32.bias - f32.s = -149 by decide]
    norm_num
  have vz : f32.val 0x00400002#f32.w = 0x400002 / 2 ^ 149 := by
    rw [val_sign, show f32.sign 0x00400002#f32.w = false by decide +kernel, mz]; norm_num
  rw [vx, vy, vz, mz, m1] at h1
  have := h1.1
  rw [abs_of_pos (by norm_num : (0 : ℚ) < 8390655 / 2 ^ 100 * (16773123 / 2 ^ 97) + 0x400002 / 2 ^ 149),
    abs_of_pos (by norm_num), abs_of_neg (by norm_num)] at this
  revert this
  norm_num

/-! ## fmaf16 -/

/-- C44, `fmaf16`: a fused multiply-add for all inputs, with no overflow, shift or assertion failure. -/
theorem C44_fmaf16 (N : FPU f16) (x y z : BitVec f16.w) : ∃ r, fmaf16 N x y z = .ok r ∧ f16.FmaSpec x y z r :=
  fmaf16_spec N x y z

-- 1.5 * 2 + 1 = 4; (1 + 2^-10)^2 - (1 + 2^-9) = 2^-20; least subnormal: 1/2 + 1 ties to 2, 0.5005 + 2 rounds to 3;
-- 65504 * 1 + 65504 overflows; 1 - 1 = +0
example : fmaf16 (FPU.ideal f16) 0x3e00#f16.w 0x4000#f16.w 0x3c00#f16.w = .ok 0x4400#f16.w ∧
    fmaf16 (FPU.ideal f16) 0x3c01#f16.w 0x3c01#f16.w 0xbc02#f16.w = .ok 0x0010#f16.w ∧
    fmaf16 (FPU.ideal f16) 0x0001#f16.w 0x3800#f16.w 0x0001#f16.w = .ok 0x0002#f16.w ∧
    fmaf16 (FPU.ideal f16) 0x0001#f16.w 0x3801#f16.w 0x0002#f16.w = .ok 0x0003#f16.w ∧
    fmaf16 (FPU.ideal f16) 0x7bff#f16.w 0x3c00#f16.w 0x7bff#f16.w = .ok 0x7c00#f16.w ∧
    fmaf16 (FPU.ideal f16) 0x3c00#f16.w 0xbc00#f16.w 0x3c00#f16.w = .ok 0#f16.w := by
  decide +kernel

end Verif.Props
