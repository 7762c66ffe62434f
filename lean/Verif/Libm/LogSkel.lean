import Verif.Libm.Log2
import Verif.Libm.LogRed
import Verif.Libm.ExpRed
/-! # The reduction in `log`, `log2`, `log10` and the `f32` versions -/
namespace Verif
open Fmt
namespace Log2
open Pio2 Log

theorem big64 : f64.Big := ⟨by rw [b64]; norm_num, by rw [s64]; norm_num⟩

/-- what is shown of the computation from the reduced argument -/
def MainOk (main : D → ℤ → M D) (P : D → ℝ → Prop) : Prop := ∀ (x : D) (X : ℝ) (k : ℤ), GFv f64 x X → 7071 / 10000 ≤ X → X ≤ 141422 / 100000 → |k| ≤ 1100 →
  (k = 0 → X ≠ 1) → Ok (main x k) fun z => P z (X * 2 ^ k)

/-- the reduction -/
theorem reduce_spec {main : D → ℤ → M D} {P : D → ℝ → Prop} (hmain : MainOk main P) {x : D} {X : ℝ} {k : ℤ} (hx : GFv f64 x X) (hX : 0 < X) (hn : 2 ^ 52 ≤ x.toNat) (hk : k = 0 ∨ k = -54)
    (hne : X * 2 ^ k ≠ 1) : Ok (reduce main x k) fun z => P z (X * 2 ^ k) := by
  obtain ⟨b1, b2, -⟩ := pos_bits hx hX
  have b1' : x.toNat < 0x7ff * 2 ^ 52 := b1
  generalize hnd : x.toNat = n at *
  have e0 : (2 : ℕ) ^ 32 = 4294967296 := by norm_num
  have m1 : n >>> 32 + (0x3ff00000 - 0x3fe6a09e) < 2 ^ 32 := by rw [Nat.shiftRight_eq_div_pow]; omega
  set j : ℤ := ((n / 2 ^ 32 + 0x95f62) / 2 ^ 20 : ℕ) - 0x3ff with hj
  set n' : ℕ := ((n / 2 ^ 32 + 0x95f62) % 2 ^ 20 + 0x3fe6a09e) * 2 ^ 32 + n % 2 ^ 32 with hn'
  have r1 : reduce main x k = main (BitVec.ofNat f64.w n') (k + j) := by
    unfold reduce
    rw [hnd]
    simp only
    unfold u32C
    rw [if_pos m1, ok_bind]
    have q1 : (n >>> 32 + (0x3ff00000 - 0x3fe6a09e)) >>> 20 = (n / 2 ^ 32 + 0x95f62) / 2 ^ 20 := by
      rw [Nat.shiftRight_eq_div_pow, Nat.shiftRight_eq_div_pow]
    have q2 : (n >>> 32 + (0x3ff00000 - 0x3fe6a09e)) &&& 0x000fffff = (n / 2 ^ 32 + 0x95f62) % 2 ^ 20 := by
      rw [show 0x000fffff = 2 ^ 20 - 1 from rfl, Nat.and_two_pow_sub_one_eq_mod, Nat.shiftRight_eq_div_pow]
    rw [q1, q2]
    unfold i32C
    rw [if_pos (by omega), ok_bind, if_pos (by omega), ok_bind]
    rw [show 0xffffffff = 2 ^ 32 - 1 from rfl, Nat.and_two_pow_sub_one_eq_mod, ← Nat.shiftLeft_add_eq_or_of_lt (Nat.mod_lt _ (by norm_num)), Nat.shiftLeft_eq]
  have hnn : (n : ℤ) = n' + j * 2 ^ 52 := by rw [hn', hj]; push_cast; omega
  have hl : 0x3fe6a09e * 2 ^ 32 ≤ n' := by omega
  have hu : n' < 0x3ff6a09e * 2 ^ 32 := by omega
  obtain ⟨o1, o2⟩ := of_nat (F := f64) (n := n') (hu.trans (by decide +kernel))
  have hsh : f64.magVal ℝ n = f64.magVal ℝ n' * 2 ^ j := magVal_shift (by rw [s64]; omega) (by rw [s64]; omega) (by rw [s64]; exact hnn)
  have v1 : (7071 / 10000 : ℝ) ≤ f64.magVal ℝ n' := by
    refine le_trans ?_ (f64.magValR_le_iff.mpr hl)
    have : (7071 / 10000 : ℚ) ≤ f64.magVal ℚ (0x3fe6a09e * 2 ^ 32) := by decide +kernel
    have := Rat.cast_le (K := ℝ).mpr this
    rw [f64.magVal_cast] at this
    push_cast at this; exact this
  have v2 : f64.magVal ℝ n' ≤ 141422 / 100000 := by
    refine le_trans (f64.magValR_le_iff.mpr hu.le) ?_
    have : f64.magVal ℚ (0x3ff6a09e * 2 ^ 32) ≤ 141422 / 100000 := by decide +kernel
    have := Rat.cast_le (K := ℝ).mpr this
    rw [f64.magVal_cast] at this
    push_cast at this; exact this
  have eX : X * 2 ^ k = f64.magVal ℝ n' * 2 ^ (k + j) := by
    rw [b2, hsh, zpow_add₀ (by norm_num)]; ring
  have hjb : |k + j| ≤ 1100 := by rw [abs_le]; omega
  rw [r1]
  have := hmain _ _ _ o1 v1 v2 hjb (by
    intro h0 h1
    rw [eX, h0, h1] at hne
    simp at hne)
  rw [eX]
  exact this

theorem x1p54_fv : GFv f64 x1p54 (2 ^ 54) := by
  have := GFv.const (F := f64) (b := x1p54) (q := 2 ^ 54) (by decide +kernel) (by decide +kernel); push_cast at this; exact this

/-- the result for a positive number -/
theorem skel_spec (N : FPU f64) {main : D → ℤ → M D} {P : D → ℝ → Prop} (hmain : MainOk main P) {x : D} {X : ℝ} (hx : GFv f64 x X) (hX : 0 < X) (h1 : X ≠ 1) : Ok (skel N main x) fun z => P z X := by
  obtain ⟨b1, b2, -⟩ := pos_bits hx hX
  have b1' : x.toNat < 0x7ff * 2 ^ 52 := b1
  have n0 : x.toNat ≠ 0 := by
    intro h
    rw [h] at b2
    rw [f64.magVal_eq, f64.valU_zero] at b2
    simp at b2
    linarith
  have s1 : (x.toNat >>> 32) >>> 31 = 0 := by rw [Nat.shiftRight_eq_div_pow, Nat.shiftRight_eq_div_pow]; omega
  have s2 : ¬ (x.toNat <<< 1) % 2 ^ 64 = 0 := by rw [Nat.shiftLeft_eq]; omega
  unfold skel
  simp only [s1, ne_eq, not_true_eq_false, or_false, if_neg s2, if_false]
  rw [Nat.shiftRight_eq_div_pow]
  split
  case isTrue h =>
    have hn : x.toNat < 2 ^ 52 := by omega
    have hv : X = x.toNat * 2 ^ (-1074 : ℤ) := by
      rw [b2, f64.magVal_eq, f64.valU_small (by rw [s64]; omega)]
      unfold ulp0
      rw [s64, b64]
      norm_num
    have hv2 : X * 2 ^ 54 = x.toNat * 2 ^ (-1020 : ℤ) := by
      rw [hv, mul_assoc]
      congr 1
      rw [← zpow_natCast, ← zpow_add₀ (by norm_num)]; norm_num
    have hnR : (x.toNat : ℝ) ≤ 2 ^ 52 := by exact_mod_cast hn.le
    have hX2 : |X * 2 ^ 54| ≤ 2 ^ (-968 : ℤ) := by
      rw [abs_of_pos (by positivity), hv2, show (-968 : ℤ) = 52 + -1020 by norm_num, zpow_add₀ (by norm_num)]
      exact mul_le_mul_of_nonneg_right (by exact_mod_cast hnR) (by positivity)
    have hy : GFv f64 (N.mul x x1p54) (X * 2 ^ 54) := GFv.of_rounds big64 (hx.mulR N x1p54_fv) (j := -1020) ⟨x.toNat, by rw [hv2]; push_cast; rfl⟩
      (hX2.trans (zpow_le_zpow_right₀ (by norm_num) (by rw [s64]; norm_num))) (by rw [b64, s64]; norm_num)
      (hX2.trans (zpow_le_zpow_right₀ (by norm_num) (by norm_num)))
    have hp : 0 < X * 2 ^ 54 := by positivity
    obtain ⟨y1, y2, -⟩ := pos_bits hy hp
    have e : X * 2 ^ 54 * 2 ^ (-54 : ℤ) = X := by rw [mul_assoc, ← zpow_natCast, ← zpow_add₀ (by norm_num)]; norm_num
    have := reduce_spec hmain hy hp (k := -54) (by
      rw [← not_lt]
      intro hc
      have h3 : f64.magVal ℝ (N.mul x x1p54).toNat < f64.magVal ℝ (2 ^ 52) := f64.magValR_lt_iff.mpr hc
      rw [← y2, f64.magVal_eq, f64.valU_small (by rw [s64]; norm_num)] at h3
      unfold ulp0 at h3
      rw [s64, b64, hv2] at h3
      have h4 : (1 : ℝ) ≤ x.toNat := by exact_mod_cast Nat.one_le_iff_ne_zero.mpr n0
      have h5 : ((2 ^ 52 : ℕ) : ℝ) * 2 ^ (1 - ((1023 : ℕ) : ℤ) - (52 : ℕ)) = 2 ^ (-1022 : ℤ) := by
        rw [Nat.cast_pow, Nat.cast_ofNat, ← zpow_natCast, ← zpow_add₀ (by norm_num)]; norm_num
      rw [h5] at h3
      have h6 : (2 : ℝ) ^ (-1022 : ℤ) ≤ 2 ^ (-1020 : ℤ) := zpow_le_zpow_right₀ (by norm_num) (by norm_num)
      have h7 : (0 : ℝ) < 2 ^ (-1020 : ℤ) := by positivity
      generalize (2 : ℝ) ^ (-1022 : ℤ) = A at *
      generalize (2 : ℝ) ^ (-1020 : ℤ) = B at *
      nlinarith) (Or.inr rfl) (by rw [e]; exact h1)
    rw [e] at this
    exact this
  case isFalse h =>
    rw [if_neg (by omega)]
    split
    case isTrue h2 =>
      exfalso
      rw [Nat.shiftLeft_eq] at h2
      have : x.toNat = 0x3ff * 2 ^ 52 := by omega
      rw [this] at b2
      have : f64.magVal ℚ (0x3ff * 2 ^ 52) = 1 := by decide +kernel
      rw [← f64.magVal_cast, this] at b2
      simp at b2
      exact h1 b2
    case isFalse h2 =>
      have := reduce_spec hmain hx hX (k := 0) (by omega) (Or.inl rfl) (by simpa using h1)
      simpa using this

namespace F32
open Exp.F32 (S)
open Log.F32

theorem b32 : f32.bias = 127 := by decide
theorem s32 : f32.s = 23 := rfl
theorem big32 : f32.Big := ⟨by rw [b32], by rw [s32]⟩

/-- what is shown of the computation from the reduced argument -/
def MainOk (main : S → ℤ → M S) (P : S → ℝ → Prop) : Prop := ∀ (x : S) (X : ℝ) (k : ℤ), GFv f32 x X → 7071 / 10000 ≤ X → X ≤ 141422 / 100000 → |k| ≤ 150 →
  (k = 0 → X ≠ 1) → Ok (main x k) fun z => P z (X * 2 ^ k)

/-- the reduction -/
theorem reduce_spec {main : S → ℤ → M S} {P : S → ℝ → Prop} (hmain : MainOk main P) {x : S} {X : ℝ} {k : ℤ} (hx : GFv f32 x X) (hX : 0 < X) (hn : 2 ^ 23 ≤ x.toNat) (hk : k = 0 ∨ k = -25)
    (hk2 : k ≠ 0 → 2 ^ 23 * 2 ≤ x.toNat)
    (hne : X * 2 ^ k ≠ 1) : Ok (reduce main x k) fun z => P z (X * 2 ^ k) := by
  obtain ⟨b1, b2, -⟩ := pos_bits hx hX
  have b1' : x.toNat < 0xff * 2 ^ 23 := b1
  generalize hnd : x.toNat = n at *
  have m1 : n + (0x3f800000 - 0x3f3504f3) < 2 ^ 32 := by omega
  set j : ℤ := ((n + 0x4afb0d) / 2 ^ 23 : ℕ) - 0x7f with hj
  set n' : ℕ := (n + 0x4afb0d) % 2 ^ 23 + 0x3f3504f3 with hn'
  have r1 : reduce main x k = main (BitVec.ofNat f32.w n') (k + j) := by
    unfold reduce
    rw [hnd]
    unfold u32C
    rw [if_pos m1, ok_bind]
    have q1 : (n + (0x3f800000 - 0x3f3504f3)) >>> 23 = (n + 0x4afb0d) / 2 ^ 23 := by
      rw [Nat.shiftRight_eq_div_pow]
    have q2 : (n + (0x3f800000 - 0x3f3504f3)) &&& 0x007fffff = (n + 0x4afb0d) % 2 ^ 23 := by
      rw [show 0x007fffff = 2 ^ 23 - 1 from rfl, Nat.and_two_pow_sub_one_eq_mod]
    rw [q1, q2]
    unfold i32C
    rw [if_pos (by omega), ok_bind, if_pos (by omega), ok_bind]
  have hnn : (n : ℤ) = n' + j * 2 ^ 23 := by rw [hn', hj]; push_cast; omega
  have hl : 0x3f3504f3 ≤ n' := by omega
  have hu : n' < 0x3fb504f3 := by omega
  obtain ⟨o1, o2⟩ := of_nat (F := f32) (n := n') (hu.trans (by decide +kernel))
  have hsh : f32.magVal ℝ n = f32.magVal ℝ n' * 2 ^ j := magVal_shift (by rw [s32]; omega) (by rw [s32]; omega) (by rw [s32]; exact hnn)
  have v1 : (7071 / 10000 : ℝ) ≤ f32.magVal ℝ n' := by
    refine le_trans ?_ (f32.magValR_le_iff.mpr hl)
    have : (7071 / 10000 : ℚ) ≤ f32.magVal ℚ 0x3f3504f3 := by decide +kernel
    have := Rat.cast_le (K := ℝ).mpr this
    rw [f32.magVal_cast] at this
    push_cast at this; exact this
  have v2 : f32.magVal ℝ n' ≤ 141422 / 100000 := by
    refine le_trans (f32.magValR_le_iff.mpr hu.le) ?_
    have : f32.magVal ℚ 0x3fb504f3 ≤ 141422 / 100000 := by decide +kernel
    have := Rat.cast_le (K := ℝ).mpr this
    rw [f32.magVal_cast] at this
    push_cast at this; exact this
  have eX : X * 2 ^ k = f32.magVal ℝ n' * 2 ^ (k + j) := by
    rw [b2, hsh, zpow_add₀ (by norm_num)]; ring
  have hjb : |k + j| ≤ 150 := by
    rw [abs_le]
    rcases hk with h | h
    · omega
    · have := hk2 (by omega); omega
  rw [r1]
  have := hmain _ _ _ o1 v1 v2 hjb (by
    intro h0 h1
    rw [eX, h0, h1] at hne
    simp at hne)
  rw [eX]
  exact this

theorem x1p25_fv : GFv f32 x1p25 (2 ^ 25) := by
  have := GFv.const (F := f32) (b := x1p25) (q := 2 ^ 25) (by decide +kernel) (by decide +kernel); push_cast at this; exact this

/-- the result for a positive number -/
theorem skel_spec (N : FPU f32) {main : S → ℤ → M S} {P : S → ℝ → Prop} (hmain : MainOk main P) {x : S} {X : ℝ} (hx : GFv f32 x X) (hX : 0 < X) (h1 : X ≠ 1) : Ok (skel N main x) fun z => P z X := by
  obtain ⟨b1, b2, -⟩ := pos_bits hx hX
  have b1' : x.toNat < 0xff * 2 ^ 23 := b1
  have n0 : x.toNat ≠ 0 := by
    intro h
    rw [h] at b2
    rw [f32.magVal_eq, f32.valU_zero] at b2
    simp at b2
    linarith
  have s1 : x.toNat >>> 31 = 0 := by rw [Nat.shiftRight_eq_div_pow]; omega
  have s2 : ¬ (x.toNat <<< 1) % 2 ^ 32 = 0 := by rw [Nat.shiftLeft_eq]; omega
  unfold skel
  simp only [s1, ne_eq, not_true_eq_false, or_false, if_neg s2, if_false]
  split
  case isTrue h =>
    have hn : x.toNat < 2 ^ 23 := by omega
    have hv : X = x.toNat * 2 ^ (-149 : ℤ) := by
      rw [b2, f32.magVal_eq, f32.valU_small (by rw [s32]; omega)]
      unfold ulp0
      rw [s32, b32]
      norm_num
    have hv2 : X * 2 ^ 25 = x.toNat * 2 ^ (-124 : ℤ) := by
      rw [hv, mul_assoc]
      congr 1
      rw [← zpow_natCast, ← zpow_add₀ (by norm_num)]; norm_num
    have hnR : (x.toNat : ℝ) ≤ 2 ^ 23 := by exact_mod_cast hn.le
    have hX2 : |X * 2 ^ 25| ≤ 2 ^ (-101 : ℤ) := by
      rw [abs_of_pos (by positivity), hv2, show (-101 : ℤ) = 23 + -124 by norm_num, zpow_add₀ (by norm_num)]
      exact mul_le_mul_of_nonneg_right (by exact_mod_cast hnR) (by positivity)
    have hy : GFv f32 (N.mul x x1p25) (X * 2 ^ 25) := GFv.of_rounds big32 (hx.mulR N x1p25_fv) (j := -124) ⟨x.toNat, by rw [hv2]; push_cast; rfl⟩
      (hX2.trans (zpow_le_zpow_right₀ (by norm_num) (by rw [s32]; norm_num))) (by rw [b32, s32]; norm_num)
      (hX2.trans (zpow_le_zpow_right₀ (by norm_num) (by norm_num)))
    have hp : 0 < X * 2 ^ 25 := by positivity
    obtain ⟨y1, y2, -⟩ := pos_bits hy hp
    have e : X * 2 ^ 25 * 2 ^ (-25 : ℤ) = X := by rw [mul_assoc, ← zpow_natCast, ← zpow_add₀ (by norm_num)]; norm_num
    have hb : 2 ^ 23 * 2 ≤ (N.mul x x1p25).toNat := by
      rw [← not_lt]
      intro hc
      have h3 : f32.magVal ℝ (N.mul x x1p25).toNat < f32.magVal ℝ (2 ^ 24) := f32.magValR_lt_iff.mpr hc
      rw [← y2, f32.magVal_eq, f32.valU_small (by rw [s32])] at h3
      unfold ulp0 at h3
      rw [s32, b32, hv2] at h3
      have h4 : (1 : ℝ) ≤ x.toNat := by exact_mod_cast Nat.one_le_iff_ne_zero.mpr n0
      have h5 : ((2 ^ 24 : ℕ) : ℝ) * 2 ^ (1 - ((127 : ℕ) : ℤ) - (23 : ℕ)) = 2 ^ (-125 : ℤ) := by
        rw [Nat.cast_pow, Nat.cast_ofNat, ← zpow_natCast, ← zpow_add₀ (by norm_num)]; norm_num
      rw [h5] at h3
      have h6 : (2 : ℝ) ^ (-125 : ℤ) ≤ 2 ^ (-124 : ℤ) := zpow_le_zpow_right₀ (by norm_num) (by norm_num)
      have h7 : (0 : ℝ) < 2 ^ (-124 : ℤ) := by positivity
      generalize (2 : ℝ) ^ (-125 : ℤ) = A at *
      generalize (2 : ℝ) ^ (-124 : ℤ) = B at *
      nlinarith
    have := reduce_spec hmain hy hp (k := -25) (by omega) (Or.inr rfl) (fun _ => hb) (by rw [e]; exact h1)
    rw [e] at this
    exact this
  case isFalse h =>
    rw [if_neg (by omega)]
    split
    case isTrue h2 =>
      exfalso
      rw [h2] at b2
      have : f32.magVal ℚ 0x3f800000 = 1 := by decide +kernel
      rw [← f32.magVal_cast, this] at b2
      simp at b2
      exact h1 b2
    case isFalse h2 =>
      have := reduce_spec hmain hx hX (k := 0) (by omega) (Or.inl rfl) (by simp) (by simpa using h1)
      simpa using this
end F32
end Log2
end Verif
