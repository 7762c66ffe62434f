import Verif.Libm.Hypot
import Verif.Libm.HypotReal
import Verif.Libm.RoundErr
import Mathlib.Analysis.Real.Sqrt
/-! # The double-double part of `hypot` -/
namespace Verif

theorem b64 : f64.bias = 1023 := by decide
theorem s64 : f64.s = 52 := rfl

/-- `2^-53` -/
noncomputable def U : ℝ := 1 / 2 ^ 53

theorem U_pos : 0 < U := by unfold U; positivity
theorem U_le : U ≤ 1 / 2 ^ 40 := by unfold U; norm_num

/-- `f64` value as a real -/
local notation "V" => Fmt.valK f64 ℝ

namespace Hypot

/-- correctness of what `hypot` calls -/
structure _root_.Verif.HypotOps.Lawful (H : HypotOps) : Prop where
  /-- `fma` is correctly rounded except possibly where `fma_round` is not (`C44`) -/
  fma : ∀ x y z, ¬ f64.FmaLost x y z → ∃ r, H.fma x y z = .ok r ∧ f64.FmaSpec x y z r
  sqrt : ∀ x, f64.IsFin x → 0 ≤ f64.val x → ∃ r, H.sqrt x = .ok r ∧ f64.IsRNE (Real.sqrt (f64.val x : ℝ)) (f64.mag r) ∧
    f64.sign r = f64.sign x
  toU64 : ∀ x, f64.IsFin x → 0 ≤ f64.val x → f64.val x < 2 ^ 64 → ∃ r, H.toU64 x = .ok r ∧ (r.toNat : ℤ) = ⌊f64.val x⌋

theorem err64 {v : ℝ} {r : BitVec f64.w} (h : f64.Rounds v r) {k : ℤ} (hv : |v| ≤ 2 ^ k) (hk : -1021 ≤ k) (hk' : k ≤ 1024) :
    |V r - v| ≤ 2 ^ (k - 54) := by
  have := h.err f64 hv (by rw [b64]; omega) (by rw [b64]; omega)
  rw [s64, show k - (52 : ℕ) - 2 = k - 54 by push_cast; ring] at this
  exact this

theorem rel64 {v : ℝ} {r : BitVec f64.w} (h : f64.Rounds v r) (h0 : 2 ^ (-1022 : ℤ) ≤ |v|) (h1 : |v| ≤ 2 ^ (1023 : ℤ)) :
    |V r - v| ≤ U * |v| := by
  have := h.rel f64 (by rw [b64]; exact h0) (by rw [b64]; exact h1)
  rw [s64] at this
  have e : (2 : ℝ) ^ (-((52 : ℕ) : ℤ) - 1) = U := by unfold U; norm_num
  rwa [e] at this

theorem fin64 {v : ℝ} {r : BitVec f64.w} (h : f64.Rounds v r) (hv : |v| ≤ 2 ^ (1000 : ℤ)) : f64.IsFin r := by
  have hb : |(2 : ℝ) ^ (1000 : ℤ)| ≤ 2 ^ ((f64.bias : ℤ) + 1) := by
    rw [abs_of_pos (by positivity), b64]; exact zpow_le_zpow_right₀ (by norm_num) (by norm_num)
  have hrp := f64.rp_pow (j := 1000) (by rw [b64, s64]; norm_num)
  have h1 := h.le_of f64 hrp hb ((le_abs_self _).trans hv)
  have h2 := h.ge_of f64 (hrp.neg f64) (by rwa [abs_neg]) (neg_le.mp ((neg_le_abs _).trans hv))
  have h3 : |f64.valK ℝ r| ≤ 2 ^ (1000 : ℤ) := abs_le.mpr ⟨h2, h1⟩
  rw [f64.absvR] at h3
  unfold Fmt.IsFin
  rw [← f64.magValR_lt_iff, f64.magValR_infRep, b64]
  exact lt_of_le_of_lt h3 (zpow_lt_zpow_right₀ (by norm_num) (by norm_num))

variable (N : FPU f64)

theorem addR {a b : BitVec f64.w} (ha : f64.IsFin a) (hb : f64.IsFin b) : f64.Rounds (V a + V b) (N.add a b) := by
  have := ((N.add_spec a b).1 ha hb).1.cast f64
  rwa [Rat.cast_add, f64.valK_cast, f64.valK_cast] at this
theorem negR (b : BitVec f64.w) : V (f64.neg b) = - V b := by
  rw [← f64.valK_cast, f64.val_neg, Rat.cast_neg, f64.valK_cast]
theorem subR {a b : BitVec f64.w} (ha : f64.IsFin a) (hb : f64.IsFin b) : f64.Rounds (V a - V b) (N.sub a b) := by
  have := ((N.sub_spec a b).1 ha (f64.isFin_neg.mpr hb)).1.cast f64
  rwa [Rat.cast_add, f64.valK_cast, f64.valK_cast, negR, ← sub_eq_add_neg] at this
theorem mulR {a b : BitVec f64.w} (ha : f64.IsFin a) (hb : f64.IsFin b) : f64.Rounds (V a * V b) (N.mul a b) := by
  have := ((N.mul_spec a b).1 ha hb).1.cast f64
  rwa [Rat.cast_mul, f64.valK_cast, f64.valK_cast] at this
theorem divR {a b : BitVec f64.w} (ha : f64.IsFin a) (hb : f64.IsFin b) (h0 : V b ≠ 0) : f64.Rounds (V a / V b) (N.div a b) := by
  have hz : ¬ f64.IsZero b := by
    intro h
    apply h0
    rw [← f64.valK_cast, f64.val_eq_zero_iff.mpr h, Rat.cast_zero]
  have := ((N.div_spec a b).1 ha hb hz).1.cast f64
  rwa [Rat.cast_div, f64.valK_cast, f64.valK_cast] at this

variable {N}
variable {H : HypotOps}

theorem sqrtR (hH : H.Lawful) {x : BitVec f64.w} (hx : f64.IsFin x) (h0 : 0 < V x) :
    ∃ r, H.sqrt x = .ok r ∧ f64.Rounds (Real.sqrt (V x)) r := by
  have hq : 0 < f64.val x := by rw [← f64.valK_cast] at h0; exact_mod_cast h0
  obtain ⟨r, h1, h2, h3⟩ := hH.sqrt x hx hq.le
  have hs : f64.sign x = false := by
    by_contra hc
    have : f64.val x < 0 := f64.val_neg_iff.mpr ⟨by simpa using hc, fun h => hq.ne' (f64.val_eq_zero_iff.mpr h)⟩
    linarith
  refine ⟨r, h1, ?_, fun _ => ?_⟩
  · rw [f64.valK_cast] at h2
    rwa [abs_of_nonneg (Real.sqrt_nonneg _)]
  · rw [h3, hs]
    have := Real.sqrt_nonneg (V x)
    simp [this]

/-- `fma` is exact when the exact result is a number -/
theorem fma_exact (hH : H.Lawful) {a b c : BitVec f64.w} (ha : f64.IsFin a) (hb : f64.IsFin b) (hc : f64.IsFin c)
    (hbal : |V c| ≤ 2 * |V a * V b|) (hrp : f64.Rp (V a * V b + V c)) (hbd : |V a * V b + V c| ≤ 2 ^ (1000 : ℤ)) :
    ∃ r, H.fma a b c = .ok r ∧ f64.IsFin r ∧ V r = V a * V b + V c := by
  have hl : ¬ f64.FmaLost a b c := by
    rintro ⟨mx, my, mz, ex, ey, ez, ⟨_, hx, vx⟩, ⟨_, hy, vy⟩, ⟨hz, _, vz⟩, k, hk, _, hd, _⟩
    rw [← f64.valK_cast, ← f64.valK_cast, ← f64.valK_cast, ← Rat.cast_mul, ← Rat.cast_abs, ← Rat.cast_abs, abs_mul, vx, vy, vz] at hbal
    have hb' : (mz : ℚ) * 2 ^ ez ≤ 2 * (mx * 2 ^ ex * (my * 2 ^ ey)) := by exact_mod_cast hbal
    have hxq : (mx : ℚ) < 2 ^ (54 : ℕ) := by exact_mod_cast hx
    have hyq : (my : ℚ) < 2 ^ (54 : ℕ) := by exact_mod_cast hy
    have hzq : (2 : ℚ) ^ (53 : ℕ) ≤ mz := by exact_mod_cast hz
    have hxy : (mx : ℚ) * my ≤ 2 ^ (54 : ℕ) * 2 ^ (54 : ℕ) :=
      mul_le_mul hxq.le hyq.le (by positivity) (by positivity)
    have hp : (0 : ℚ) < 2 ^ (ex + ey) := by positivity
    have hw : f64.w = 64 := rfl
    have e1 : (2 : ℚ) * (mx * 2 ^ ex * (my * 2 ^ ey)) ≤ 2 ^ (109 : ℤ) * 2 ^ (ex + ey) := by
      rw [zpow_add₀ (by norm_num)]
      have := mul_le_mul_of_nonneg_right hxy hp.le
      rw [zpow_add₀ (by norm_num)] at this
      have e : (2 : ℚ) ^ (109 : ℤ) = 2 * (2 ^ (54 : ℕ) * 2 ^ (54 : ℕ)) := by norm_num
      rw [e]
      linarith
    have e2 : (2 : ℚ) ^ (53 : ℤ) * 2 ^ (ex + ey + 65) ≤ mz * 2 ^ ez := by
      refine mul_le_mul (by exact_mod_cast hzq) (zpow_le_zpow_right₀ (by norm_num) (by omega)) (by positivity) (by positivity)
    have e3 : (2 : ℚ) ^ (53 : ℤ) * 2 ^ (ex + ey + 65) = 2 ^ (118 : ℤ) * 2 ^ (ex + ey) := by
      rw [← zpow_add₀ (by norm_num), ← zpow_add₀ (by norm_num)]; congr 1; ring
    have e4 : (2 : ℚ) ^ (109 : ℤ) * 2 ^ (ex + ey) < 2 ^ (118 : ℤ) * 2 ^ (ex + ey) :=
      mul_lt_mul_of_pos_right (zpow_lt_zpow_right₀ (by norm_num) (by norm_num)) hp
    linarith
  obtain ⟨r, h1, h2⟩ := hH.fma a b c hl
  have h3 := (h2.1 ha hb hc).1.cast f64
  rw [Rat.cast_add, Rat.cast_mul, f64.valK_cast, f64.valK_cast, f64.valK_cast] at h3
  refine ⟨r, h1, fin64 h3 hbd, h3.exactR f64 hrp (hbd.trans ?_)⟩
  rw [b64]; exact zpow_le_zpow_right₀ (by norm_num) (by norm_num)

/-- the error of a square is found by `fma` -/
theorem sq_err (hH : H.Lawful) {a : BitVec f64.w} (ha : f64.IsFin a) {j : ℤ} (hg : Fmt.Mul2 j (V a)) (hm : |V a| ≤ 2 ^ (j + 53))
    (hj : -500 ≤ j) (hj' : j ≤ 100) :
    f64.IsFin (H.N.mul a a) ∧ f64.Rounds (V a * V a) (H.N.mul a a) ∧
    ∃ r, H.fma a a (f64.neg (H.N.mul a a)) = .ok r ∧ f64.IsFin r ∧ V r = V a * V a - V (H.N.mul a a) := by
  have hr := mulR H.N ha ha
  have hsq : |V a * V a| ≤ 2 ^ (2 * j + 106) := by
    rw [abs_mul, show 2 * j + 106 = (j + 53) + (j + 53) by ring, zpow_add₀ (by norm_num)]
    exact mul_le_mul hm hm (abs_nonneg _) (by positivity)
  have hbig : |V a * V a| ≤ 2 ^ (1000 : ℤ) := hsq.trans (zpow_le_zpow_right₀ (by norm_num) (by omega))
  have hbig' : |V a * V a| ≤ 2 ^ ((f64.bias : ℤ) + 1) := hsq.trans (zpow_le_zpow_right₀ (by norm_num) (by rw [b64]; omega))
  have hf := fin64 hr hbig
  refine ⟨hf, hr, ?_⟩
  have g2 := hg.mul hg
  have g2' := hr.grid f64 g2 (by rw [b64, s64]; omega) hbig'
  have he := err64 hr hsq (by omega) (by omega)
  have hn := hr.near f64 f64.rp_zero (by rw [abs_zero]; positivity)
  rw [sub_zero] at hn
  have e : V a * V a + V (f64.neg (H.N.mul a a)) = V a * V a - V (H.N.mul a a) := by rw [negR]; ring
  obtain ⟨r, h1, h2, h3⟩ := fma_exact hH ha ha (f64.isFin_neg.mpr hf) (by
      rw [negR, abs_neg]
      have := abs_sub_abs_le_abs_sub (V (H.N.mul a a)) (V a * V a)
      rw [abs_sub_comm] at this
      linarith) (by
      rw [e]
      refine (g2.sub g2').rp f64 ?_ (by rw [b64, s64]; omega)
      rw [abs_sub_comm]
      exact he.trans (zpow_le_zpow_right₀ (by norm_num) (by rw [s64]; push_cast; omega))) (by
      rw [e]
      exact hn.trans hbig)
  exact ⟨r, h1, h2, by rw [h3, e]⟩

end Hypot
end Verif
