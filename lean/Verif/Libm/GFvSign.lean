import Verif.Libm.GFv
import Verif.Libm.RoundNearest
/-! # Signs, absolute values and the upper half of a pattern -/
namespace Verif
open Fmt
namespace GFv
variable {F : Fmt} {b : BitVec F.w} {v : ℝ}

theorem neg (h : GFv F b v) : GFv F (F.neg b) (-v) := ⟨F.isFin_neg.mpr h.fin, by rw [F.valK_neg, h.val]⟩

theorem fabs (h : GFv F b v) : GFv F (F.fabs b) |v| := by
  obtain ⟨h1, h2⟩ := F.fabs_facts b
  refine ⟨by unfold IsFin; rw [h2]; exact h.fin, ?_⟩
  rw [h.abs_eq, valK, h1, h2]; simp

/-- the value by the sign bit and the absolute value -/
theorem eq_abs (h : GFv F b v) : v = if F.sign b then -|v| else |v| := by
  split
  · rename_i hs; rw [abs_of_nonpos (h.nonpos hs), _root_.neg_neg]
  · rename_i hs; rw [abs_of_nonneg (h.nonneg (by simpa using hs))]
end GFv

/-- the upper half without the sign -/
theorem hi64 (x : BitVec f64.w) : (x.toNat >>> 32) &&& 0x7fffffff = f64.mag x / 2 ^ 32 := by
  rw [show 0x7fffffff = 2 ^ 31 - 1 from rfl, Nat.and_two_pow_sub_one_eq_mod, Nat.shiftRight_eq_div_pow]
  have : f64.mag x = x.toNat % 2 ^ 63 := rfl
  rw [this]; omega
theorem sign64 (x : BitVec f64.w) : (x.toNat >>> 32) >>> 31 = if f64.sign x then 1 else 0 := by
  have hxlt : x.toNat < 2 ^ 64 := x.isLt
  have : f64.sign x = true ↔ 2 ^ 64 ≤ 2 * x.toNat := by
    show x.msb = true ↔ _
    rw [BitVec.msb_eq_true_iff_two_mul_ge]; rfl
  rw [Nat.shiftRight_eq_div_pow, Nat.shiftRight_eq_div_pow]
  split <;> rename_i h
  · have := this.mp h; omega
  · have := mt this.mpr h; omega

/-- comparing the upper half -/
theorem GFv.hi_lt {x : BitVec f64.w} {v : ℝ} (h : GFv f64 x v) {c : ℕ} {q : ℚ} (hc : f64.magVal ℚ (c * 2 ^ 32) = q) :
    f64.mag x / 2 ^ 32 < c ↔ |v| < q := by
  rw [← h.mag_lt hc, Nat.div_lt_iff_lt_mul (by norm_num)]
end Verif
