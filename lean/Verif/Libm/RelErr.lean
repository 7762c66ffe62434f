import Verif.Libm.GFvSign
/-! # Relative errors: an approximation within a multiple of the exact value -/
namespace Verif
open Fmt

/-- `x` is within `a |X|` of `X` -/
def Rl (a x X : ℝ) : Prop := |x - X| ≤ a * |X|

namespace Rl
variable {a b x y X Y : ℝ}

theorem refl (x : ℝ) : Rl 0 x x := by unfold Rl; simp

theorem mono (h : Rl a x X) (hab : a ≤ b) : Rl b x X :=
  le_trans h (mul_le_mul_of_nonneg_right hab (abs_nonneg _))

theorem mul (h : Rl a x X) (h' : Rl b y Y) (ha : 0 ≤ a) : Rl (a + b + a * b) (x * y) (X * Y) := by
  unfold Rl at *
  have e : x * y - X * Y = (x - X) * Y + X * (y - Y) + (x - X) * (y - Y) := by ring
  rw [e, abs_mul X Y]
  have h1 : |(x - X) * Y| ≤ a * |X| * |Y| := by rw [abs_mul]; exact mul_le_mul_of_nonneg_right h (abs_nonneg _)
  have h2 : |X * (y - Y)| ≤ |X| * (b * |Y|) := by rw [abs_mul]; exact mul_le_mul_of_nonneg_left h' (abs_nonneg _)
  have h3 : |(x - X) * (y - Y)| ≤ a * |X| * (b * |Y|) := by
    rw [abs_mul]; exact mul_le_mul h h' (abs_nonneg _) (mul_nonneg ha (abs_nonneg _))
  have := abs_add_three ((x - X) * Y) (X * (y - Y)) ((x - X) * (y - Y))
  nlinarith

theorem ne (h : Rl b y Y) (hb : b ≤ 1 / 1000) (hY : Y ≠ 0) : y ≠ 0 := by
  intro e
  unfold Rl at h
  rw [e, zero_sub, abs_neg] at h
  have := abs_pos.mpr hY
  nlinarith

theorem div (h : Rl a x X) (h' : Rl b y Y) (ha : 0 ≤ a) (hb0 : 0 ≤ b) (hb : b ≤ 1 / 1000) (hY : Y ≠ 0) : Rl ((a + b) * 1.002) (x / y) (X / Y) := by
  have hy := h'.ne hb hY
  unfold Rl at *
  have hYp := abs_pos.mpr hY
  have hyp := abs_pos.mpr hy
  have e : x / y - X / Y = ((x - X) - (X / Y) * (y - Y)) / y := by field_simp; ring
  rw [e, abs_div, div_le_iff₀ hyp, abs_div X Y]
  have h1 : |(X / Y) * (y - Y)| ≤ |X| * b := by
    rw [abs_mul, abs_div, div_mul_eq_mul_div, div_le_iff₀ hYp, mul_assoc]
    exact mul_le_mul_of_nonneg_left h' (abs_nonneg _)
  have h2 := abs_sub (x - X) (X / Y * (y - Y))
  have h3 : |Y| * (999 / 1000) ≤ |y| := by
    have := abs_sub_abs_le_abs_sub Y y
    rw [abs_sub_comm] at this
    nlinarith
  have h4 : |X| ≤ 1.002 * (|X| / |Y|) * |y| := by
    have : |X| = |X| / |Y| * |Y| := by field_simp
    have h5 : 0 ≤ |X| / |Y| := by positivity
    nlinarith
  nlinarith [abs_nonneg X, mul_le_mul_of_nonneg_left h4 (add_nonneg ha hb0)]

/-- after a rounding -/
theorem trans {c : ℝ} {z : ℝ} (h : Rl a x X) (h' : Rl c z x) (hc : 0 ≤ c) : Rl (a + c * (1 + a)) z X := by
  unfold Rl at *
  have h1 : |x| ≤ |X| + a * |X| := by
    have := abs_sub_abs_le_abs_sub x X
    linarith
  have := abs_sub_le z x X
  nlinarith

theorem pos (h : Rl a x X) (ha : a < 1) (hX : 0 < X) : 0 < x := by
  unfold Rl at h
  rw [abs_of_pos hX, abs_le] at h
  nlinarith [h.1]

theorem neg (h : Rl a x X) : Rl a (-x) (-X) := by
  unfold Rl at *
  rw [show -x - -X = -(x - X) by ring, abs_neg, abs_neg]; exact h
end Rl

variable {F : Fmt}

/-- the error of a rounding relative to the exact value, for values neither tiny nor too large -/
theorem rrBig (hF : F.Big) {v : ℝ} {r : BitVec F.w} (h : F.Rounds v r) (lo : 1 / 2 ^ 100 ≤ |v|)
    (hi : |v| * (1 + 1 / 2 ^ (F.s + 1)) < 2 ^ ((F.bias : ℤ) + 1)) : ∃ V, GFv F r V ∧ Rl (1 / 2 ^ (F.s + 1)) V v := by
  have h127 := hF.bias
  have hu : (0 : ℝ) < 1 / 2 ^ (F.s + 1) := by positivity
  have hue : (2 : ℝ) ^ (-(F.s : ℤ) - 1) = 1 / 2 ^ (F.s + 1) := by
    rw [show -(F.s : ℤ) - 1 = -((F.s + 1 : ℕ) : ℤ) by push_cast; ring, zpow_neg, zpow_natCast, one_div]
  have hR : Rl (1 / 2 ^ (F.s + 1)) (F.valK ℝ r) v := by
    unfold Rl
    by_cases hb : |v| ≤ 2 ^ (F.bias : ℤ)
    · have hlo : (2 : ℝ) ^ (1 - (F.bias : ℤ)) ≤ |v| := by
        refine le_trans ?_ lo
        rw [show (1 : ℝ) / 2 ^ 100 = 2 ^ (-100 : ℤ) by rw [zpow_neg, one_div]; norm_cast]
        exact zpow_le_zpow_right₀ (by norm_num) (by omega)
      have := h.rel F hlo hb
      rwa [hue] at this
    · rw [not_le] at hb
      have hv0 := abs_nonneg v
      have := h.err F (k := (F.bias : ℤ) + 1) (by nlinarith) (by omega) le_rfl
      refine this.trans ?_
      rw [show (F.bias : ℤ) + 1 - F.s - 2 = (-(F.s : ℤ) - 1) + F.bias by ring, zpow_add₀ (by norm_num), hue]
      exact mul_le_mul_of_nonneg_left hb.le hu.le
  refine ⟨_, ⟨?_, rfl⟩, hR⟩
  have h1 : |F.valK ℝ r| < 2 ^ ((F.bias : ℤ) + 1) := by
    have := abs_sub_abs_le_abs_sub (F.valK ℝ r) v
    unfold Rl at hR
    nlinarith
  rwa [F.absvR, ← F.magValR_infRep, F.magValR_lt_iff] at h1

theorem rr (hF : F.Big) {v : ℝ} {r : BitVec F.w} (h : F.Rounds v r) (lo : 1 / 2 ^ 100 ≤ |v|) (hi : |v| ≤ 2 ^ 100) :
    ∃ V, GFv F r V ∧ Rl (1 / 2 ^ (F.s + 1)) V v := by
  refine rrBig hF h lo ?_
  have h127 := hF.bias
  have h1 : (1 : ℝ) / 2 ^ (F.s + 1) ≤ 1 := by
    rw [div_le_one (by positivity)]; exact one_le_pow₀ (by norm_num)
  have h2 : (2 : ℝ) ^ 102 ≤ 2 ^ ((F.bias : ℤ) + 1) := by
    rw [← zpow_natCast]; exact zpow_le_zpow_right₀ (by norm_num) (by push_cast; omega)
  have h3 := abs_nonneg v
  have h4 : (2 : ℝ) ^ 102 = 4 * 2 ^ 100 := by norm_num
  have h5 : (0 : ℝ) < 2 ^ 100 := by positivity
  nlinarith

/-- scaling up by a power of two is exact unless the result is too large -/
theorem up_ex {y z : BitVec F.w} {Y : ℝ} (hy : GFv F y Y) {k : ℤ} (hk : 0 ≤ k) (h : F.Rounds (Y * 2 ^ k) z)
    (hb : |Y * 2 ^ k| < 2 ^ ((F.bias : ℤ) + 1)) : GFv F z (Y * 2 ^ k) := by
  obtain ⟨m, j, e, hm1, hj1, _⟩ := F.val_dec y
  rw [hy.val] at e
  have hrp : F.Rp (Y * 2 ^ k) := by
    refine F.rp_of (m := m) (j := j + k) ?_ hm1.le (by omega)
    rw [e, zpow_add₀ (by norm_num)]; ring
  have hv := h.exactR F hrp hb.le
  refine ⟨?_, hv⟩
  rw [← hv, F.absvR, ← F.magValR_infRep, F.magValR_lt_iff] at hb
  exact hb

/-- the value is at most a number of the format -/
theorem GFv.le_of_rounds {v V g : ℝ} {r : BitVec F.w} (hV : GFv F r V) (h : F.Rounds v r) (hg : F.Rp g) (hgb : |g| ≤ 2 ^ ((F.bias : ℤ) + 1)) (hv : v ≤ g) : V ≤ g := by
  rw [← hV.val]; exact h.le_of F hg hgb hv
theorem GFv.ge_of_rounds {v V g : ℝ} {r : BitVec F.w} (hV : GFv F r V) (h : F.Rounds v r) (hg : F.Rp g) (hgb : |g| ≤ 2 ^ ((F.bias : ℤ) + 1)) (hv : g ≤ v) : g ≤ V := by
  rw [← hV.val]; exact h.ge_of F hg hgb hv
end Verif
