import Verif.Libm.RelErr
import Verif.Libm.Expm1Tail
import Mathlib.Analysis.SpecialFunctions.Log.Basic
import Mathlib.Analysis.SpecialFunctions.Pow.Real
/-! # Relative errors through the operations on positive numbers -/
namespace Verif
open Fmt

/-- the pattern `b` is finite, within `d` units of the rounding error of `V` -/
def Ap (F : Fmt) (b : BitVec F.w) (d V : ℝ) : Prop := ∃ v, GFv F b v ∧ Rl (d * (1 / 2 ^ (F.s + 1))) v V

/-- neither tiny nor large -/
def Mid (V : ℝ) : Prop := 1 / 2 ^ 110 ≤ V ∧ V ≤ 2 ^ 90

theorem Mid.pos {V : ℝ} (h : Mid V) : 0 < V := lt_of_lt_of_le (by positivity) h.1

namespace Rl
theorem bnd {a x X : ℝ} (h : Rl a x X) (hX : 0 < X) : X - a * X ≤ x ∧ x ≤ X + a * X := by
  unfold Rl at h
  rw [abs_of_pos hX, abs_le] at h
  constructor <;> linarith [h.1, h.2]

theorem sqrt {a z Z : ℝ} (h : Rl a z Z) (ha : a ≤ 1 / 1000) (hZ : 0 < Z) : Rl (0.51 * a) (Real.sqrt z) (Real.sqrt Z) := by
  obtain ⟨b1, b2⟩ := h.bnd hZ
  have hz : 0 < z := by nlinarith
  have a0 : 0 ≤ a := by
    unfold Rl at h
    by_contra hc
    have := abs_nonneg (z - Z)
    rw [abs_of_pos hZ] at h
    nlinarith
  obtain ⟨s, hs⟩ : ∃ s, s = Real.sqrt z := ⟨_, rfl⟩
  obtain ⟨t, ht⟩ : ∃ t, t = Real.sqrt Z := ⟨_, rfl⟩
  have s0 : 0 < s := hs ▸ Real.sqrt_pos.mpr hz
  have t0 : 0 < t := ht ▸ Real.sqrt_pos.mpr hZ
  have ss : s * s = z := by rw [hs]; exact Real.mul_self_sqrt hz.le
  have tt : t * t = Z := by rw [ht]; exact Real.mul_self_sqrt hZ.le
  rw [← hs, ← ht]
  have hst : 0.97 * t ≤ s := by
    by_contra hc
    rw [not_le] at hc
    nlinarith
  unfold Rl at *
  rw [abs_of_pos hZ] at h
  rw [abs_of_pos t0]
  have e : (s - t) * (s + t) = z - Z := by rw [← ss, ← tt]; ring
  have h2 : |s - t| * (s + t) ≤ a * (t * t) := by
    rw [← abs_of_pos (show 0 < s + t by linarith), ← abs_mul, e, tt]; exact h
  have h3 : |s - t| * (1.97 * t) ≤ a * t * t := by
    have := mul_le_mul_of_nonneg_left (show 1.97 * t ≤ s + t by linarith) (abs_nonneg (s - t))
    linarith
  have h4 : |s - t| * 1.97 ≤ a * t := by
    have : |s - t| * 1.97 * t ≤ a * t * t := by linarith
    exact le_of_mul_le_mul_right this t0
  nlinarith
end Rl

namespace Ap
variable {F : Fmt} {a b r : BitVec F.w} {d e D V W v : ℝ}

theorem exact (h : GFv F a v) : Ap F a 0 v := ⟨v, h, by rw [zero_mul]; exact Rl.refl v⟩

theorem mono (h : Ap F a d V) (hd : d ≤ e) : Ap F a e V := by
  obtain ⟨v, h1, h2⟩ := h
  exact ⟨v, h1, h2.mono (mul_le_mul_of_nonneg_right hd (Expm1.u_pos F).le)⟩

theorem eq (h : Ap F a d V) (e : V = W) : Ap F a d W := e ▸ h

/-- one rounding -/
theorem rnd (hF : F.Big) (h : F.Rounds v r) (hv : Rl (d * (1 / 2 ^ (F.s + 1))) v V) (hV : Mid V) (hd : d ≤ 30) (hD : d + 1.001 ≤ D) : Ap F r D V := by
  have hu0 := Expm1.u_pos F
  have hu := Expm1.u_le hF
  have hu' : (1 : ℝ) / 2 ^ (F.s + 1) ≤ 1 / 1000000 := hu.trans (by norm_num)
  have h127 := hF.bias
  obtain ⟨u, eu⟩ : ∃ u : ℝ, u = 1 / 2 ^ (F.s + 1) := ⟨_, rfl⟩
  have hV0 := hV.pos
  have hb := hv.bnd hV0
  rw [← eu] at hu0 hu' hb
  have hv1 : V / 2 ≤ v := by nlinarith [hb.1, mul_pos hu0 hV0]
  have hv2 : v ≤ 2 * V := by nlinarith [hb.2, mul_pos hu0 hV0]
  have hv0 : 0 < v := by linarith
  have hlo : (2 : ℝ) ^ (1 - (F.bias : ℤ)) ≤ |v| := by
    rw [abs_of_pos hv0]
    refine le_trans ?_ (show (1 : ℝ) / 2 ^ 111 ≤ v by
      have := hV.1
      rw [show (1 : ℝ) / 2 ^ 110 = 2 * (1 / 2 ^ 111) by norm_num] at this
      linarith)
    rw [show (1 : ℝ) / 2 ^ 111 = 2 ^ (-111 : ℤ) by rw [zpow_neg, one_div]; norm_cast]
    exact zpow_le_zpow_right₀ (by norm_num) (by omega)
  have hhi : |v| ≤ 2 ^ (F.bias : ℤ) := by
    rw [abs_of_pos hv0]
    refine le_trans (show v ≤ (2 : ℝ) ^ (91 : ℤ) by
      have := hV.2
      rw [show (2 : ℝ) ^ (91 : ℤ) = 2 * 2 ^ 90 by norm_num]
      linarith) ?_
    exact zpow_le_zpow_right₀ (by norm_num) (by omega)
  have hue : (2 : ℝ) ^ (-(F.s : ℤ) - 1) = u := by
    rw [eu, show -(F.s : ℤ) - 1 = -((F.s + 1 : ℕ) : ℤ) by push_cast; ring, zpow_neg, zpow_natCast, one_div]
  have hr := h.rel F hlo hhi
  rw [hue] at hr
  refine ⟨F.valK ℝ r, ⟨?_, rfl⟩, ?_⟩
  · have h1 : |F.valK ℝ r| < 2 ^ ((F.bias : ℤ) + 1) := by
      have h3 := abs_sub_abs_le_abs_sub (F.valK ℝ r) v
      rw [zpow_add₀ (by norm_num), zpow_one]
      have : 0 < |v| := abs_pos.mpr hv0.ne'
      nlinarith
    rwa [F.absvR, ← F.magValR_infRep, F.magValR_lt_iff] at h1
  · rw [← eu] at hv ⊢
    refine (hv.trans hr hu0.le).mono ?_
    have h1 : d * u ≤ 0.001 := by nlinarith
    have h2 := mul_le_mul_of_nonneg_left h1 hu0.le
    have h3 := mul_le_mul_of_nonneg_right hD hu0.le
    linarith

theorem mul (hF : F.Big) (N : FPU F) (ha : Ap F a d V) (hb : Ap F b e W) (d0 : 0 ≤ d) (e0 : 0 ≤ e) (hde : d + e ≤ 20) (hM : Mid (V * W)) (hD : d + e + 1.01 ≤ D) : Ap F (N.mul a b) D (V * W) := by
  obtain ⟨v, a1, a2⟩ := ha
  obtain ⟨w, b1, b2⟩ := hb
  have hu0 := Expm1.u_pos F
  have hu' : (1 : ℝ) / 2 ^ (F.s + 1) ≤ 1 / 1000000 := (Expm1.u_le hF).trans (by norm_num)
  refine rnd hF (a1.mulR N b1) ((a2.mul b2 (by positivity)).mono (b := (d + e + 0.001) * (1 / 2 ^ (F.s + 1))) ?_) hM (by linarith) (by linarith)
  generalize (1 : ℝ) / 2 ^ (F.s + 1) = u at *
  have h2 : d * e ≤ 100 := by nlinarith [sq_nonneg (d - e)]
  have : d * u * (e * u) ≤ 100 * u * u := by
    rw [show d * u * (e * u) = d * e * u * u by ring]
    exact mul_le_mul_of_nonneg_right (mul_le_mul_of_nonneg_right h2 hu0.le) hu0.le
  nlinarith

theorem div (hF : F.Big) (N : FPU F) (ha : Ap F a d V) (hb : Ap F b e W) (d0 : 0 ≤ d) (e0 : 0 ≤ e) (hde : d + e ≤ 10) (hW : 0 < W) (hM : Mid (V / W)) (hD : d + e + 1.03 ≤ D) : Ap F (N.div a b) D (V / W) := by
  obtain ⟨v, a1, a2⟩ := ha
  obtain ⟨w, b1, b2⟩ := hb
  have hu0 := Expm1.u_pos F
  have hu' : (1 : ℝ) / 2 ^ (F.s + 1) ≤ 1 / 1000000 := (Expm1.u_le hF).trans (by norm_num)
  have hb' : e * (1 / 2 ^ (F.s + 1)) ≤ 1 / 1000 := by nlinarith
  refine rnd hF (a1.divR N b1 (b2.ne hb' hW.ne')) ((a2.div b2 (by positivity) (by positivity) hb' hW.ne').mono (b := (d + e + 0.02) * (1 / 2 ^ (F.s + 1))) ?_) hM (by linarith) (by linarith)
  generalize (1 : ℝ) / 2 ^ (F.s + 1) = u at *
  nlinarith

/-- the error of a sum of positive numbers -/
theorem add (hF : F.Big) (N : FPU F) (ha : Ap F a d V) (hb : Ap F b e W) (hV : 0 < V) (hW : 0 < W) {c : ℝ} (hc : d * V + e * W ≤ c * (V + W)) (c1 : c ≤ 20) (hM : Mid (V + W)) (hD : c + 1.001 ≤ D) :
    Ap F (N.add a b) D (V + W) := by
  obtain ⟨v, a1, a2⟩ := ha
  obtain ⟨w, b1, b2⟩ := hb
  have hu0 := Expm1.u_pos F
  refine rnd hF (a1.addR N b1) (d := c) ?_ hM (by linarith) hD
  unfold Rl at *
  rw [abs_of_pos hV] at a2
  rw [abs_of_pos hW] at b2
  rw [abs_of_pos (show 0 < V + W by linarith), show v + w - (V + W) = (v - V) + (w - W) by ring]
  refine (abs_add_le _ _).trans ?_
  generalize (1 : ℝ) / 2 ^ (F.s + 1) = u at *
  nlinarith

/-- the error of a difference of positive numbers -/
theorem sub (hF : F.Big) (N : FPU F) (ha : Ap F a d V) (hb : Ap F b e W) (hV : 0 < V) (hW : 0 < W) (hlt : W < V) {c : ℝ} (hc : d * V + e * W ≤ c * (V - W)) (c1 : c ≤ 20) (hM : Mid (V - W)) (hD : c + 1.001 ≤ D) :
    Ap F (N.sub a b) D (V - W) := by
  obtain ⟨v, a1, a2⟩ := ha
  obtain ⟨w, b1, b2⟩ := hb
  have hu0 := Expm1.u_pos F
  refine rnd hF (a1.subR N b1) (d := c) ?_ hM (by linarith) hD
  unfold Rl at *
  rw [abs_of_pos hV] at a2
  rw [abs_of_pos hW] at b2
  rw [abs_of_pos (show 0 < V - W by linarith), show v - w - (V - W) = (v - V) - (w - W) by ring]
  refine (abs_sub _ _).trans ?_
  generalize (1 : ℝ) / 2 ^ (F.s + 1) = u at *
  nlinarith

/-- a rounded square root -/
theorem sqrt (hF : F.Big) {z s : BitVec F.w} (hz : Ap F z d V) (h : ∀ Z, GFv F z Z → 0 < Z → F.Rounds (Real.sqrt Z) s) (d1 : d ≤ 20) (hV : 0 < V) (hM : Mid (Real.sqrt V)) (hD : 0.51 * d + 1.001 ≤ D) :
    Ap F s D (Real.sqrt V) := by
  obtain ⟨Z, a1, a2⟩ := hz
  have hu0 := Expm1.u_pos F
  have hu' : (1 : ℝ) / 2 ^ (F.s + 1) ≤ 1 / 1000000 := (Expm1.u_le hF).trans (by norm_num)
  have hs : d * (1 / 2 ^ (F.s + 1)) ≤ 1 / 1000 := by nlinarith
  refine rnd hF (h Z a1 (a2.pos (by linarith) hV)) (d := 0.51 * d) ?_ hM (by linarith) hD
  have := a2.sqrt hs hV
  rwa [← mul_assoc] at this

/-- an exact multiple by a power of two -/
theorem scale (hF : F.Big) (ha : Ap F a d V) (d1 : d ≤ 20) (hV : 1 / 2 ^ 50 ≤ V) (hV2 : V ≤ 2 ^ 90) {k : ℤ} (hk : -2 ≤ k) (hk2 : k ≤ 2) (h : ∀ v, GFv F a v → F.Rounds (v * 2 ^ k) r) : Ap F r d (V * 2 ^ k) := by
  obtain ⟨v, a1, a2⟩ := ha
  have hu0 := Expm1.u_pos F
  have hu' : (1 : ℝ) / 2 ^ (F.s + 1) ≤ 1 / 1000000 := (Expm1.u_le hF).trans (by norm_num)
  have h127 := hF.bias
  have hV0 : 0 < V := lt_of_lt_of_le (by positivity) hV
  have hb := a2.bnd hV0
  obtain ⟨u, eu⟩ : ∃ u : ℝ, u = 1 / 2 ^ (F.s + 1) := ⟨_, rfl⟩
  rw [← eu] at hu0 hu' hb
  have hv1 : V / 2 ≤ v := by nlinarith [hb.1, mul_pos hu0 hV0]
  have hv2 : v ≤ 2 * V := by nlinarith [hb.2, mul_pos hu0 hV0]
  have hp : (0 : ℝ) < 2 ^ k := by positivity
  have hp4 : (2 : ℝ) ^ k ≤ 4 := by
    rw [show (4 : ℝ) = 2 ^ (2 : ℤ) by norm_num]; exact zpow_le_zpow_right₀ (by norm_num) hk2
  refine ⟨v * 2 ^ k, Expm1.dblX hF a1 ?_ (by omega) (h v a1) ?_, ?_⟩
  · rw [abs_of_pos (by linarith)]
    refine le_trans ?_ hv1
    have : (1 : ℝ) / 2 ^ 60 ≤ 1 / 2 ^ 50 / 2 := by norm_num
    linarith
  · rw [abs_of_pos (mul_pos (by linarith) hp)]
    have h2 : (2 : ℝ) ^ 94 ≤ 2 ^ ((F.bias : ℤ) + 1) := by
      rw [← zpow_natCast]; exact zpow_le_zpow_right₀ (by norm_num) (by push_cast; omega)
    have h3 : v * 2 ^ k ≤ 2 * 2 ^ 90 * 4 := mul_le_mul (by linarith) hp4 hp.le (by positivity)
    norm_num at h2 h3 ⊢
    linarith
  · unfold Rl at *
    rw [← sub_mul, abs_mul, abs_mul, abs_of_pos hp]
    have := mul_le_mul_of_nonneg_right a2 hp.le
    linarith

theorem two (hF : F.Big) (N : FPU F) {t : BitVec F.w} (ht : GFv F t 2) (ha : Ap F a d V) (d1 : d ≤ 20) (hV : 1 / 2 ^ 50 ≤ V) (hV2 : V ≤ 2 ^ 90) : Ap F (N.mul t a) d (2 * V) := by
  have := ha.scale hF d1 hV hV2 (k := 1) (r := N.mul t a) (by norm_num) (by norm_num) (fun v hv => by
    rw [zpow_one, mul_comm]; exact ht.mulR N hv)
  rwa [zpow_one, mul_comm] at this

theorem half (hF : F.Big) (N : FPU F) {t : BitVec F.w} (ht : GFv F t (1 / 2)) (ha : Ap F a d V) (d1 : d ≤ 20) (hV : 1 / 2 ^ 50 ≤ V) (hV2 : V ≤ 2 ^ 90) : Ap F (N.mul t a) d (1 / 2 * V) := by
  have h2 : (2 : ℝ) ^ (-1 : ℤ) = 1 / 2 := by norm_num
  have := ha.scale hF d1 hV hV2 (k := -1) (r := N.mul t a) (by norm_num) (by norm_num) (fun v hv => by
    rw [h2, mul_comm]; exact ht.mulR N hv)
  rwa [h2, mul_comm] at this
end Ap

/-- the effect of a relative error of the argument on the logarithm -/
theorem log_rel {a A δ : ℝ} (h : Rl δ a A) (hδ : δ ≤ 1 / 1000) (hA : 0 < A) : |Real.log a - Real.log A| ≤ 1.002 * δ := by
  obtain ⟨b1, b2⟩ := h.bnd hA
  have δ0 : 0 ≤ δ := by
    by_contra hc
    nlinarith
  have ha : 0 < a := by nlinarith
  rw [abs_le]
  have e1 := Real.log_le_sub_one_of_pos (div_pos ha hA)
  have e2 := Real.log_le_sub_one_of_pos (div_pos hA ha)
  rw [Real.log_div ha.ne' hA.ne'] at e1
  rw [Real.log_div hA.ne' ha.ne'] at e2
  have e3 : a / A ≤ 1 + δ := by rw [div_le_iff₀ hA]; linarith
  have e4 : A / a ≤ 1 + 1.002 * δ := by rw [div_le_iff₀ ha]; nlinarith
  constructor <;> linarith

/-- … and on the logarithm of `1 + y` -/
theorem log1p_rel {y Y δ : ℝ} (h : Rl δ y Y) (hδ : δ ≤ 1 / 1000) (hY : 0 < Y) : |Real.log (1 + y) - Real.log (1 + Y)| ≤ 1.002 * δ * Real.log (1 + Y) := by
  have h1Y : 0 < 1 + Y := by linarith
  have hr : Rl (δ * (Y / (1 + Y))) (1 + y) (1 + Y) := by
    unfold Rl at *
    rw [show 1 + y - (1 + Y) = y - Y by ring, abs_of_pos h1Y, mul_assoc, div_mul_cancel₀ _ h1Y.ne']
    rwa [abs_of_pos hY] at h
  have δ0 : 0 ≤ δ := by
    obtain ⟨b1, b2⟩ := h.bnd hY
    by_contra hc
    nlinarith
  have hq : Y / (1 + Y) ≤ 1 := by rw [div_le_one h1Y]; linarith
  have hq0 : 0 ≤ Y / (1 + Y) := by positivity
  have := log_rel hr (by nlinarith) h1Y
  refine this.trans ?_
  have hl := Real.one_sub_inv_le_log_of_pos h1Y
  have e : Y / (1 + Y) = 1 - (1 + Y)⁻¹ := by field_simp; ring
  rw [← e] at hl
  rw [← mul_assoc]
  exact mul_le_mul_of_nonneg_left hl (by positivity)
end Verif
