import Verif.Libm.Exp10F
import Verif.Libm.FmaWideProofs
import Mathlib.Analysis.SpecialFunctions.Pow.Real
/-! # Properties C97 to C99: `exp2f`, `exp2`, `exp10f` -/
namespace Verif.Props
open Fmt

theorem two_rpow (x : ℝ) : (2 : ℝ) ^ x = Real.exp (x * Real.log 2) := by rw [Real.rpow_def_of_pos (by norm_num), mul_comm]
theorem ten_rpow (x : ℝ) : (10 : ℝ) ^ x = Real.exp (x * Real.log 10) := by rw [Real.rpow_def_of_pos (by norm_num), mul_comm]

/-! ## C97 -/

/-- C97: for every finite `x < 128` `exp2f(x)` is the float nearest to a real within `2^-32` of `2^x` relatively (also where it is subnormal or zero); computing it does not panic. -/
theorem C97_exp2f (N : FPU f32) (N64 : FPU f64) (C : FloatCast f32 f64) {x : BitVec f32.w} (hx : f32.IsFin x) (h : f32.val x < 128) :
    ∃ r, Exp2.exp2f N N64 C x = .ok r ∧
      ∃ v : ℝ, |v - 2 ^ ((f32.val x : ℚ) : ℝ)| ≤ 1 / 2 ^ 32 * 2 ^ ((f32.val x : ℚ) : ℝ) ∧ f32.Near v r := by
  have hv : GFv f32 x ((f32.val x : ℚ) : ℝ) := ⟨hx, (f32.valK_cast x).symm⟩
  rw [two_rpow]
  exact Exp2.exp2f_fin N N64 C hv (by exact_mod_cast h)

/-- C97: `exp2f` is exact at the integers from `-149` to `127`. -/
theorem C97_exp2f_int (N : FPU f32) (N64 : FPU f64) (C : FloatCast f32 f64) {x : BitVec f32.w} {k : ℤ} (hx : f32.IsFin x) (h : f32.val x = k)
    (h1 : -149 ≤ k) (h2 : k ≤ 127) : ∃ r, Exp2.exp2f N N64 C x = .ok r ∧ f32.IsFin r ∧ f32.val r = 2 ^ k := by
  obtain ⟨r, e, v, v1, v2, v3⟩ := C97_exp2f N N64 C hx (by rw [h]; exact_mod_cast (by omega : k < 128))
  refine ⟨r, e, v2, ?_⟩
  rw [h] at v1
  push_cast at v1
  rw [Real.rpow_intCast] at v1
  have hp : (0 : ℝ) < 2 ^ k := by positivity
  obtain ⟨c, hc⟩ := f32.rp_pow (j := k) (by rw [Exp2.b32, Exp2.s32]; omega)
  rw [abs_of_pos hp] at hc
  have hci : c < f32.infRep := by
    rw [← f32.magValR_lt_iff, f32.magValR_infRep, ← hc, Exp2.b32]
    exact zpow_lt_zpow_right₀ (by norm_num) (by omega)
  have g := (Log.of_nat (F := f32) hci).1.cast hc.symm
  have hn := v3 _ g.fin
  rw [g.val] at hn
  have key : |f32.valK ℝ r - 2 ^ k| ≤ 1 / 2 ^ 31 * 2 ^ k := by
    have := abs_sub (v - 2 ^ k) (v - f32.valK ℝ r)
    rw [sub_sub_sub_cancel_left] at this
    generalize (2 : ℝ) ^ k = t at *
    linarith
  have hr : f32.valK ℝ r = 2 ^ k := by
    rw [abs_le] at key
    rcases lt_trichotomy (f32.valK ℝ r) (2 ^ k) with hl | hl | hl
    · have q := f32.gap_rel (b := r) (c := BitVec.ofNat f32.w c) (by rw [g.val]; exact hp) (by rw [g.val]; exact hl)
      rw [g.val, Exp2.s32] at q
      generalize (2 : ℝ) ^ k = t at *
      norm_num at q key
      linarith [key.1]
    · exact hl
    · have q := f32.gap_rel (b := BitVec.ofNat f32.w c) (c := r) (hp.trans hl) (by rw [g.val]; exact hl)
      rw [g.val, Exp2.s32] at q
      generalize (2 : ℝ) ^ k = t at *
      norm_num at q key
      linarith [key.2]
  have := f32.valK_cast r
  rw [hr] at this
  exact Rat.cast_injective (α := ℝ) (by rw [this]; push_cast; rfl)

/-- C97: from `128` on `exp2f` overflows to `+∞`. -/
theorem C97_exp2f_overflow (N : FPU f32) (N64 : FPU f64) (C : FloatCast f32 f64) {x : BitVec f32.w} (hx : f32.IsFin x) (h : 128 ≤ f32.val x) :
    ∃ r, Exp2.exp2f N N64 C x = .ok r ∧ f32.IsInf r ∧ f32.sign r = false := by
  have hv : GFv f32 x ((f32.val x : ℚ) : ℝ) := ⟨hx, (f32.valK_cast x).symm⟩
  exact Exp2.exp2f_big N N64 C hv (by exact_mod_cast h)

/-- C97: `exp2f(NaN)` is the argument, `exp2f(+∞) = +∞`, `exp2f(-∞) = +0`. -/
theorem C97_exp2f_special (N : FPU f32) (N64 : FPU f64) (C : FloatCast f32 f64) (x : BitVec f32.w) :
    (f32.IsNaN x → Exp2.exp2f N N64 C x = .ok x) ∧
    (f32.IsInf x → f32.sign x = false → ∃ r, Exp2.exp2f N N64 C x = .ok r ∧ f32.IsInf r ∧ f32.sign r = false) ∧
    (f32.IsInf x → f32.sign x = true → Exp2.exp2f N N64 C x = .ok 0#f32.w) := Exp2.exp2f_special N N64 C x

/-- Concrete cases: `1/2`, `-149`, `-150`, the predecessor of `128`, `128`. -/
example : Exp2.exp2f FPU.softF32 FPU.softF64 (Fmt.softCast wider_32_64) 0x3f000000#32 = .ok 0x3fb504f3#32 ∧
    Exp2.exp2f FPU.softF32 FPU.softF64 (Fmt.softCast wider_32_64) 0xc3150000#32 = .ok 0x00000001#32 ∧
    Exp2.exp2f FPU.softF32 FPU.softF64 (Fmt.softCast wider_32_64) 0xc3160000#32 = .ok 0x00000000#32 ∧
    Exp2.exp2f FPU.softF32 FPU.softF64 (Fmt.softCast wider_32_64) 0x42ffffff#32 = .ok 0x7f7fffa7#32 ∧
    Exp2.exp2f FPU.softF32 FPU.softF64 (Fmt.softCast wider_32_64) 0x43000000#32 = .ok 0x7f800000#32 := by decide +kernel
example : f32.IsFin 0x42ffffff#32 ∧ f32.val 0x42ffffff#32 < 128 ∧ f32.val 0xc3150000#32 = ((-149 : ℤ) : ℚ) ∧ 128 ≤ f32.val 0x43000000#32 := by
  unfold Fmt.IsFin; decide +kernel

/-! ## C98 -/

/-- C98: for every finite `x < 1024` `exp2(x)` is finite, not negative and within `1.04 * 2^-53` of `2^x` relatively plus half of the least subnormal; computing it does not panic. -/
theorem C98_exp2 (N : FPU f64) {x : BitVec f64.w} (hx : f64.IsFin x) (h : f64.val x < 1024) :
    ∃ r, Exp2.exp2 N x = .ok r ∧ f64.IsFin r ∧ f64.sign r = false ∧
      |((f64.val r : ℚ) : ℝ) - 2 ^ ((f64.val x : ℚ) : ℝ)| ≤ 1.04 / 2 ^ 53 * 2 ^ ((f64.val x : ℚ) : ℝ) + 2 ^ (-1075 : ℤ) := by
  have hv : GFv f64 x ((f64.val x : ℚ) : ℝ) := ⟨hx, (f64.valK_cast x).symm⟩
  rw [two_rpow]
  obtain ⟨r, r1, r2, r3, r4, -⟩ := Exp2.exp2_fin N hv (by exact_mod_cast h)
  exact ⟨r, r1, r2, r3, by rw [f64.valK_cast]; exact r4⟩

/-- C98: `exp2` is exact at the integers from `-1074` to `1023`. -/
theorem C98_exp2_int (N : FPU f64) {x : BitVec f64.w} {k : ℤ} (hx : f64.IsFin x) (h : f64.val x = k) (h1 : -1074 ≤ k) (h2 : k ≤ 1023) :
    ∃ r, Exp2.exp2 N x = .ok r ∧ f64.IsFin r ∧ f64.val r = 2 ^ k := by
  have hv : GFv f64 x ((f64.val x : ℚ) : ℝ) := ⟨hx, (f64.valK_cast x).symm⟩
  obtain ⟨r, r1, r2, -, -, r5⟩ := Exp2.exp2_fin N hv (by rw [h]; exact_mod_cast (by omega : k < 1024))
  refine ⟨r, r1, r2, ?_⟩
  have := r5 k h1 (by rw [h]; norm_cast)
  rw [← f64.valK_cast] at this
  exact Rat.cast_injective (α := ℝ) (by rw [this]; push_cast; rfl)

/-- C98: from `1024` on `exp2` overflows to `+∞`. -/
theorem C98_exp2_overflow (N : FPU f64) {x : BitVec f64.w} (hx : f64.IsFin x) (h : 1024 ≤ f64.val x) :
    ∃ r, Exp2.exp2 N x = .ok r ∧ f64.IsInf r ∧ f64.sign r = false := by
  have hv : GFv f64 x ((f64.val x : ℚ) : ℝ) := ⟨hx, (f64.valK_cast x).symm⟩
  exact Exp2.exp2_big N hv (by exact_mod_cast h)

/-- C98: `exp2(NaN)` is a NaN, `exp2(+∞) = +∞`, `exp2(-∞) = +0`. -/
theorem C98_exp2_special (N : FPU f64) (x : BitVec f64.w) :
    (f64.IsNaN x → ∃ r, Exp2.exp2 N x = .ok r ∧ f64.IsNaN r) ∧
    (f64.IsInf x → f64.sign x = false → ∃ r, Exp2.exp2 N x = .ok r ∧ f64.IsInf r ∧ f64.sign r = false) ∧
    (f64.IsInf x → f64.sign x = true → ∃ r, Exp2.exp2 N x = .ok r ∧ f64.IsZero r ∧ f64.sign r = false) := Exp2.exp2_special N x

/-- Concrete cases: `1/2`, `-1074`, `-1075`, the predecessor of `1024`, `1024`, `-∞`. -/
example : Exp2.exp2 FPU.softF64 0x3fe0000000000000#64 = .ok 0x3ff6a09e667f3bcd#64 ∧
    Exp2.exp2 FPU.softF64 0xc090c80000000000#64 = .ok 0x0000000000000001#64 ∧
    Exp2.exp2 FPU.softF64 0xc090cc0000000000#64 = .ok 0x0000000000000000#64 ∧
    Exp2.exp2 FPU.softF64 0x408fffffffffffff#64 = .ok 0x7feffffffffffd3a#64 ∧
    Exp2.exp2 FPU.softF64 0x4090000000000000#64 = .ok 0x7ff0000000000000#64 ∧
    Exp2.exp2 FPU.softF64 0xfff0000000000000#64 = .ok 0x0000000000000000#64 := by decide +kernel
example : f64.IsFin 0x408fffffffffffff#64 ∧ f64.val 0x408fffffffffffff#64 < 1024 ∧ f64.val 0xc090c80000000000#64 = ((-1074 : ℤ) : ℚ) ∧
    1024 ≤ f64.val 0x4090000000000000#64 := by
  unfold Fmt.IsFin; decide +kernel

/-! ## C99 -/

/-- C99: for `|x| < 8` `exp10f(x)` is finite and within `6.2 * 2^-24` of `10^x` relatively; at the integers it is the float nearest to `10^x`. -/
theorem C99_exp10f_small (N : FPU f32) (N64 : FPU f64) (C : FloatCast f32 f64) {x : BitVec f32.w} (hx : f32.IsFin x) (h : |f32.val x| < 8) :
    ∃ r, Exp2.exp10f N N64 C x = .ok r ∧ f32.IsFin r ∧
      |((f32.val r : ℚ) : ℝ) - 10 ^ ((f32.val x : ℚ) : ℝ)| ≤ 6.2 / 2 ^ 24 * 10 ^ ((f32.val x : ℚ) : ℝ) ∧
      (∀ k : ℤ, f32.val x = k → f32.Near ((10 : ℝ) ^ k) r) := by
  have hv : GFv f32 x ((f32.val x : ℚ) : ℝ) := ⟨hx, (f32.valK_cast x).symm⟩
  obtain ⟨y, n, Y, k, e, gy, gn, hn, hY, h1, h2, hX, hi⟩ := (Exp2.exp10f_split N N64 C hv).2 (by exact_mod_cast h)
  obtain ⟨r, r1, r2, r3, r4⟩ := Exp2.small_spec N N64 C gy gn hn hY h1 h2
  rw [← hX] at r3 r4
  refine ⟨r, e.trans r1, r2, by rw [ten_rpow, f32.valK_cast]; exact r3, fun j hj => ?_⟩
  have hj' : ((f32.val x : ℚ) : ℝ) = j := by rw [hj]; norm_cast
  have := r4 (hi j hj')
  rwa [← ten_rpow, hj', Real.rpow_intCast] at this

/-- C99: for `|x| ≥ 8` and `10^x < 2^128` `exp10f(x)` is the float nearest to a real within `2^-40` of `10^x` relatively. -/
theorem C99_exp10f_large (N : FPU f32) (N64 : FPU f64) (C : FloatCast f32 f64) {x : BitVec f32.w} (hx : f32.IsFin x) (h : 8 ≤ |f32.val x|)
    (h2 : (10 : ℝ) ^ ((f32.val x : ℚ) : ℝ) < 2 ^ (128 : ℤ)) :
    ∃ r, Exp2.exp10f N N64 C x = .ok r ∧
      ∃ v : ℝ, |v - 10 ^ ((f32.val x : ℚ) : ℝ)| ≤ 1 / 2 ^ 40 * 10 ^ ((f32.val x : ℚ) : ℝ) ∧ f32.Near v r := by
  have hv : GFv f32 x ((f32.val x : ℚ) : ℝ) := ⟨hx, (f32.valK_cast x).symm⟩
  have h8 : (8 : ℝ) ≤ |((f32.val x : ℚ) : ℝ)| := by exact_mod_cast h
  rw [(Exp2.exp10f_split N N64 C hv).1 h8]
  rw [ten_rpow] at h2 ⊢
  exact Exp2.large_fin N64 C hv h8 h2

/-- C99: `exp10f` overflows to `+∞` exactly where `10^x ≥ 2^128`. -/
theorem C99_exp10f_overflow (N : FPU f32) (N64 : FPU f64) (C : FloatCast f32 f64) {x : BitVec f32.w} (hx : f32.IsFin x)
    (h : 2 ^ (128 : ℤ) ≤ (10 : ℝ) ^ ((f32.val x : ℚ) : ℝ)) : ∃ r, Exp2.exp10f N N64 C x = .ok r ∧ f32.IsInf r ∧ f32.sign r = false := by
  have hv : GFv f32 x ((f32.val x : ℚ) : ℝ) := ⟨hx, (f32.valK_cast x).symm⟩
  rw [ten_rpow] at h
  have hX := (Exp2.limit hv).2 h
  have h8 : (8 : ℝ) ≤ |((f32.val x : ℚ) : ℝ)| := le_trans (le_trans (by norm_num) hX) (le_abs_self _)
  rw [(Exp2.exp10f_split N N64 C hv).1 h8]
  exact Exp2.large_big N64 C hv h

/-- C99: `exp10f(NaN)` is a NaN, `exp10f(+∞) = +∞`, `exp10f(-∞) = +0`. -/
theorem C99_exp10f_special (N : FPU f32) (N64 : FPU f64) (C : FloatCast f32 f64) (x : BitVec f32.w) :
    (f32.IsNaN x → ∃ r, Exp2.exp10f N N64 C x = .ok r ∧ f32.IsNaN r) ∧
    (f32.IsInf x → f32.sign x = false → ∃ r, Exp2.exp10f N N64 C x = .ok r ∧ f32.IsInf r ∧ f32.sign r = false) ∧
    (f32.IsInf x → f32.sign x = true → ∃ r, Exp2.exp10f N N64 C x = .ok r ∧ f32.IsZero r ∧ f32.sign r = false) := Exp2.exp10f_special N N64 C x

/-- The limit of C99 in floats: `0x421a209a` (about 38.5318) is below it, the next float is above. -/
theorem C99_limit {x : BitVec f32.w} (hx : f32.IsFin x) :
    ((10 : ℝ) ^ ((f32.val x : ℚ) : ℝ) < 2 ^ (128 : ℤ) → f32.val x ≤ f32.val 0x421a209a#32) ∧
    (2 ^ (128 : ℤ) ≤ (10 : ℝ) ^ ((f32.val x : ℚ) : ℝ) → f32.val 0x421a209b#32 ≤ f32.val x) := by
  have hv : GFv f32 x ((f32.val x : ℚ) : ℝ) := ⟨hx, (f32.valK_cast x).symm⟩
  rw [ten_rpow, show f32.val 0x421a209a#32 = 10100890 / 2 ^ 18 by decide +kernel, show f32.val 0x421a209b#32 = 10100891 / 2 ^ 18 by decide +kernel]
  refine ⟨fun h => ?_, fun h => ?_⟩
  · have := (Exp2.limit hv).1 h
    have e : (10100890 / 2 ^ 18 : ℝ) = ((10100890 / 2 ^ 18 : ℚ) : ℝ) := by push_cast; rfl
    rw [e] at this
    exact Rat.cast_le.mp this
  · have := (Exp2.limit hv).2 h
    have e : (10100891 / 2 ^ 18 : ℝ) = ((10100891 / 2 ^ 18 : ℚ) : ℝ) := by push_cast; rfl
    rw [e] at this
    exact Rat.cast_le.mp this

/-- Concrete cases: `-3`, `1/2`, `-44`, `0x421a209a`, `0x421a209b`, `-0`. -/
example : Exp2.exp10f FPU.softF32 FPU.softF64 (Fmt.softCast wider_32_64) 0xc0400000#32 = .ok 0x3a83126f#32 ∧
    Exp2.exp10f FPU.softF32 FPU.softF64 (Fmt.softCast wider_32_64) 0x3f000000#32 = .ok 0x404a62c2#32 ∧
    Exp2.exp10f FPU.softF32 FPU.softF64 (Fmt.softCast wider_32_64) 0xc2300000#32 = .ok 0x00000007#32 ∧
    Exp2.exp10f FPU.softF32 FPU.softF64 (Fmt.softCast wider_32_64) 0x421a209a#32 = .ok 0x7f7fffb3#32 ∧
    Exp2.exp10f FPU.softF32 FPU.softF64 (Fmt.softCast wider_32_64) 0x421a209b#32 = .ok 0x7f800000#32 ∧
    Exp2.exp10f FPU.softF32 FPU.softF64 (Fmt.softCast wider_32_64) 0x80000000#32 = .ok 0x3f800000#32 := by decide +kernel
example : f32.IsFin 0xc2300000#32 ∧ 8 ≤ |f32.val 0xc2300000#32| ∧ |f32.val 0xc0400000#32| < 8 ∧ f32.val 0xc0400000#32 = ((-3 : ℤ) : ℚ) := by
  unfold Fmt.IsFin; decide +kernel

end Verif.Props
