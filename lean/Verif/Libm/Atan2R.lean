import Verif.Libm.AtanRed
import Verif.Libm.GFvSign
import Mathlib.Analysis.SpecialFunctions.Complex.Arctan
/-! # The angle of a point, and the arctangent of a rounded quotient -/
namespace Verif
open Fmt
namespace Atan2

/-- `arctan t / t` decreases -/
theorem arctan_ratio {a k : ℝ} (ha : 0 ≤ a) (hk : 1 ≤ k) : Real.arctan (k * a) ≤ k * Real.arctan a := by
  have hd : ∀ t : ℝ, HasDerivAt (fun t => k * Real.arctan t - Real.arctan (k * t)) (k * (1 / (1 + t ^ 2)) - 1 / (1 + (k * t) ^ 2) * k) t := by
    intro t
    have h1 := (Real.hasDerivAt_arctan t).const_mul k
    have h2 : HasDerivAt (fun t => k * t) k t := by simpa using (hasDerivAt_id t).const_mul k
    exact h1.sub h2.arctan
  have hm : MonotoneOn (fun t => k * Real.arctan t - Real.arctan (k * t)) (Set.Ici 0) := by
    refine monotoneOn_of_deriv_nonneg (convex_Ici 0) (fun t _ => (hd t).continuousAt.continuousWithinAt) (fun t _ => (hd t).differentiableAt.differentiableWithinAt) ?_
    intro t ht
    rw [(hd t).deriv, mul_comm _ k, ← mul_sub]
    refine mul_nonneg (by linarith) (sub_nonneg.mpr (one_div_le_one_div_of_le (by positivity) ?_))
    have : t ^ 2 ≤ (k * t) ^ 2 := by
      rw [mul_pow]
      exact le_mul_of_one_le_left (sq_nonneg _) (one_le_pow₀ hk)
    linarith
  have := hm (Set.mem_Ici.mpr (le_refl (0 : ℝ))) (Set.mem_Ici.mpr ha) ha
  simp only [mul_zero, Real.arctan_zero, sub_zero] at this
  linarith

/-- a relative change of the argument -/
theorem near_rel {Q T : ℝ} (hT : 0 < T) (hQ : 0 ≤ Q) : |Real.arctan Q - Real.arctan T| ≤ |Q - T| / T * Real.arctan T := by
  rcases le_total T Q with h | h
  · have h1 := arctan_ratio hT.le (k := Q / T) (by rw [le_div_iff₀ hT]; linarith)
    rw [div_mul_cancel₀ _ hT.ne'] at h1
    rw [abs_of_nonneg (sub_nonneg.mpr (Real.arctan_strictMono.monotone h)), abs_of_nonneg (by linarith), sub_div, div_self hT.ne']
    linarith
  · rw [abs_of_nonpos (sub_nonpos.mpr (Real.arctan_strictMono.monotone h)), abs_of_nonpos (by linarith)]
    rcases hQ.eq_or_lt with rfl | h0
    · rw [Real.arctan_zero]; simp [div_self hT.ne']
    have h1 := arctan_ratio hQ (k := T / Q) (by rw [le_div_iff₀ h0]; linarith)
    rw [div_mul_cancel₀ _ h0.ne'] at h1
    have h2 : Q / T * Real.arctan T ≤ Real.arctan Q := by
      have := mul_le_mul_of_nonneg_left h1 (show 0 ≤ Q / T by positivity)
      rwa [← mul_assoc, div_mul_div_cancel₀ hT.ne', div_self h0.ne', one_mul] at this
    rw [neg_sub, neg_sub, sub_div, div_self hT.ne', sub_mul]
    linarith

/-- a change of the argument -/
theorem near_abs {Q T : ℝ} (hT : 0 < T) (hQ : 0 ≤ Q) : |Real.arctan Q - Real.arctan T| ≤ |Q - T| / (1 + Q * T) := by
  have h : Real.arctan Q - Real.arctan T = Real.arctan ((Q - T) / (1 + Q * T)) := by
    have := Real.arctan_add (x := Q) (y := -T) (by nlinarith)
    rw [Real.arctan_neg] at this
    rw [sub_eq_add_neg, this]
    congr 1
    ring
  have h2 := Poly.atan_lip ((Q - T) / (1 + Q * T)) 0
  rw [Real.arctan_zero, sub_zero, sub_zero] at h2
  rw [h]
  refine h2.trans (le_of_eq ?_)
  rw [abs_div, abs_of_nonneg (show 0 ≤ 1 + Q * T by positivity)]

/-- … by a rounding -/
theorem near_half {Q T u η : ℝ} (hT : 0 < T) (hQ : 0 ≤ Q) (hu0 : 0 < u) (hu : u ≤ 1 / 2 ^ 24) (hη : η ≤ u / 10 ^ 6) (h : |Q - T| ≤ u * T + η) :
    |Real.arctan Q - Real.arctan T| ≤ 51 / 100 * u := by
  rcases le_or_gt T (1 / 2) with h1 | h1
  · have := Poly.atan_lip Q T
    have : u * T ≤ u * (1 / 2) := mul_le_mul_of_nonneg_left h1 hu0.le
    linarith
  · refine (near_abs hT hQ).trans ?_
    rw [div_le_iff₀ (by positivity)]
    have h2 : 99 / 100 * T ≤ Q := by
      rw [abs_le] at h
      have : u * T ≤ 1 / 2 ^ 24 * T := mul_le_mul_of_nonneg_right hu hT.le
      have : η ≤ 1 / 10 ^ 6 * T := by
        have : u / 10 ^ 6 ≤ 1 / 10 ^ 6 * (1 / 2) := by linarith
        linarith
      have : (1 : ℝ) / 2 ^ 24 * T ≤ 1 / 10 ^ 6 * T := by gcongr; norm_num
      linarith [h.1]
    have h3 : 99 / 100 * T * T ≤ Q * T := mul_le_mul_of_nonneg_right h2 hT.le
    have h4 : 198 / 100 * T ≤ 1 + Q * T := by nlinarith [sq_nonneg (T - 1)]
    have h5 : 51 / 100 * u * (198 / 100 * T) ≤ 51 / 100 * u * (1 + Q * T) := mul_le_mul_of_nonneg_left h4 (by positivity)
    have h6 : u * (1 / 2) ≤ u * T := mul_le_mul_of_nonneg_left h1.le hu0.le
    linarith

/-- the angle to the right -/
theorem arg_right {X Y : ℝ} (hX : 0 < X) : Complex.arg ⟨X, Y⟩ = Real.arctan (Y / X) := by
  have h := Complex.tan_arg ⟨X, Y⟩
  have h2 : |Complex.arg ⟨X, Y⟩| < Real.pi / 2 := Complex.abs_arg_lt_pi_div_two_iff.mpr (Or.inl hX)
  rw [abs_lt] at h2
  rw [← h, Real.arctan_tan h2.1 h2.2]

/-- the angle by the absolute values -/
theorem arg_abs {X Y : ℝ} (hX : X ≠ 0) (hY : Y ≠ 0) :
    Complex.arg ⟨X, Y⟩ = (if Y < 0 then -1 else 1) * (if X < 0 then Real.pi - Real.arctan (|Y| / |X|) else Real.arctan (|Y| / |X|)) := by
  rcases lt_or_gt_of_ne hX with h | h
  · have e : (⟨X, Y⟩ : ℂ) = -⟨-X, -Y⟩ := by apply Complex.ext <;> simp
    rw [if_pos h, abs_of_neg h, e]
    rcases lt_or_gt_of_ne hY with h2 | h2
    · rw [if_pos h2, abs_of_neg h2, Complex.arg_neg_eq_arg_sub_pi_of_im_pos (by simpa using h2), arg_right (by linarith)]
      ring
    · rw [if_neg (by linarith), abs_of_pos h2, Complex.arg_neg_eq_arg_add_pi_of_im_neg (by simpa using h2), arg_right (by linarith), neg_div, Real.arctan_neg]
      ring
  · rw [if_neg (show ¬ X < 0 by linarith), arg_right h, abs_of_pos h]
    rcases lt_or_gt_of_ne hY with h2 | h2
    · rw [if_pos h2, abs_of_neg h2, neg_div, Real.arctan_neg]; ring
    · rw [if_neg (by linarith), abs_of_pos h2]; ring

theorem arg_up {Y : ℝ} (hY : Y ≠ 0) : Complex.arg ⟨0, Y⟩ = (if Y < 0 then -1 else 1) * (Real.pi / 2) := by
  rcases lt_or_gt_of_ne hY with h2 | h2
  · rw [if_pos h2, Complex.arg_eq_neg_pi_div_two_iff.mpr ⟨rfl, h2⟩]; ring
  · rw [if_neg (by linarith), Complex.arg_eq_pi_div_two_iff.mpr ⟨rfl, h2⟩]; ring

/-- rounding with the smallest numbers of the format -/
theorem rndT {F : Fmt} (hF : F.Big) {r : BitVec F.w} {v : ℝ} (h : F.Rounds v r) (hv : |v| ≤ 2 ^ (120 : ℤ)) :
    ∃ R, GFv F r R ∧ |R - v| ≤ 1 / 2 ^ (F.s + 1) * |v| + 1 / 2 ^ (F.bias + F.s) := by
  have h127 := hF.bias
  have h23 := hF.s
  refine ⟨_, ⟨?_, rfl⟩, ?_⟩
  · have hb : |(2 : ℝ) ^ (120 : ℤ)| ≤ 2 ^ ((F.bias : ℤ) + 1) := by
      rw [abs_of_pos (by positivity)]; exact zpow_le_zpow_right₀ (by norm_num) (by omega)
    have hrp := F.rp_pow (j := 120) (by omega)
    have h1 := h.le_of F hrp hb ((le_abs_self _).trans hv)
    have h2 := h.ge_of F (hrp.neg F) (by rwa [abs_neg]) (neg_le.mp ((neg_le_abs _).trans hv))
    have h3 : |F.valK ℝ r| ≤ 2 ^ (120 : ℤ) := abs_le.mpr ⟨h2, h1⟩
    rw [F.absvR] at h3
    unfold Fmt.IsFin
    rw [← F.magValR_lt_iff, F.magValR_infRep]
    exact lt_of_le_of_lt h3 (zpow_lt_zpow_right₀ (by norm_num) (by omega))
  · rcases le_or_gt ((2 : ℝ) ^ (1 - (F.bias : ℤ))) |v| with h0 | h0
    · have := h.rel F h0 (hv.trans (zpow_le_zpow_right₀ (by norm_num) (by omega)))
      rw [show -(F.s : ℤ) - 1 = -((F.s + 1 : ℕ) : ℤ) by push_cast; ring, zpow_neg, zpow_natCast, ← one_div] at this
      have : (0 : ℝ) < 1 / 2 ^ (F.bias + F.s) := by positivity
      linarith
    · have := h.err F (k := 2 - F.bias) (h0.le.trans (zpow_le_zpow_right₀ (by norm_num) (by omega))) (le_refl _) (by omega)
      rw [show (2 : ℤ) - F.bias - F.s - 2 = -((F.bias + F.s : ℕ) : ℤ) by push_cast; ring, zpow_neg, zpow_natCast, ← one_div] at this
      have : 0 ≤ 1 / 2 ^ (F.s + 1) * |v| := by positivity
      linarith

/-- a larger exponent gives at least the larger value -/
theorem magVal_up {F : Fmt} (n k : ℕ) : 2 ^ k * F.magVal ℝ n ≤ F.magVal ℝ (n + k * 2 ^ F.s) := by
  induction k with
  | zero => simp
  | succ k ih =>
    have h : 2 * F.magVal ℝ (n + k * 2 ^ F.s) ≤ F.magVal ℝ (n + (k + 1) * 2 ^ F.s) := by
      rw [add_one_mul, ← add_assoc]
      generalize n + k * 2 ^ F.s = m
      rcases le_or_gt (2 ^ F.s) m with hm | hm
      · rw [Log.magVal_shift (n := m + 2 ^ F.s) (n' := m) (k := 1) (by omega) hm (by push_cast; ring)]
        rw [zpow_one, mul_comm]
      · rw [F.magVal_eq, F.magVal_eq, F.valU_small (m := m) (by rw [pow_succ]; omega), F.valU_small (m := m + 2 ^ F.s) (by rw [pow_succ]; omega)]
        rw [← mul_assoc]
        refine mul_le_mul_of_nonneg_right ?_ (F.ulp0_pos ℝ).le
        have : (m : ℝ) ≤ 2 ^ F.s := by exact_mod_cast hm.le
        push_cast
        linarith
    rw [pow_succ, mul_assoc, mul_left_comm]
    have := mul_le_mul_of_nonneg_left ih (show (0 : ℝ) ≤ 2 by norm_num)
    linarith
/-- … and bounded by what the smallest normal number gives -/
theorem magVal_up_le {F : Fmt} {n : ℕ} (k : ℕ) (hn : 0 < n) : F.magVal ℝ (n + k * 2 ^ F.s) ≤ 2 ^ (k + F.s + 1) * F.magVal ℝ n := by
  rcases le_or_gt (2 ^ F.s) n with hm | hm
  · rw [Log.magVal_shift (n := n + k * 2 ^ F.s) (n' := n) (k := k) (by omega) hm (by push_cast; ring), zpow_natCast, mul_comm]
    exact mul_le_mul_of_nonneg_right (pow_le_pow_right₀ (by norm_num) (by omega)) (F.magVal_nonneg _ n)
  · have h1 : F.magVal ℝ (n + k * 2 ^ F.s) ≤ F.magVal ℝ (2 ^ F.s + k * 2 ^ F.s) := by
      rw [F.magValR_le_iff]; omega
    rw [Log.magVal_shift (n := 2 ^ F.s + k * 2 ^ F.s) (n' := 2 ^ F.s) (k := k) (by omega) (le_refl _) (by push_cast; ring), zpow_natCast] at h1
    refine h1.trans ?_
    rw [F.magVal_eq, F.magVal_eq, F.valU_small (m := n) (by rw [pow_succ]; omega), F.valU_small (m := 2 ^ F.s) (by rw [pow_succ]; omega)]
    have h2 : (1 : ℝ) ≤ n := by exact_mod_cast hn
    have hc0 : 0 < F.ulp0 ℝ := F.ulp0_pos ℝ
    generalize F.ulp0 ℝ = c at *
    rw [pow_succ, pow_add]
    push_cast
    have : (0 : ℝ) < 2 ^ k * 2 ^ F.s * c := by positivity
    have h3 : 2 ^ k * 2 ^ F.s * c * 1 ≤ 2 ^ k * 2 ^ F.s * c * n := mul_le_mul_of_nonneg_left h2 this.le
    linarith

/-- the arctangent of a rounded quotient -/
theorem posCase {W Q T u η : ℝ} (hT : 0 < T) (hQ : 0 ≤ Q) (hu0 : 0 < u) (hu : u ≤ 1 / 2 ^ 24) (hη0 : 0 ≤ η) (h : |Q - T| ≤ u * T + η)
    (hW : |W - Real.arctan Q| ≤ 2 * u * |Real.arctan Q|) : |W - Real.arctan T| ≤ 4 * u * Real.arctan T + 2 * η := by
  have h1 := near_rel hT hQ
  have hα : 0 < Real.arctan T := Real.arctan_pos.mpr hT
  have hαT : Real.arctan T ≤ T := by
    have := Poly.atan_lip T 0
    rw [Real.arctan_zero, sub_zero, sub_zero, abs_of_pos hα, abs_of_pos hT] at this
    exact this
  have h2 : |Q - T| / T * Real.arctan T ≤ u * Real.arctan T + η := by
    rw [div_mul_eq_mul_div, div_le_iff₀ hT]
    have e1 : |Q - T| * Real.arctan T ≤ (u * T + η) * Real.arctan T := mul_le_mul_of_nonneg_right h hα.le
    have e2 : η * Real.arctan T ≤ η * T := mul_le_mul_of_nonneg_left hαT hη0
    linarith
  have h3 := abs_sub_le W (Real.arctan Q) (Real.arctan T)
  have h4 : |Real.arctan Q| ≤ Real.arctan T + (u * Real.arctan T + η) := by
    have := abs_add_le (Real.arctan Q - Real.arctan T) (Real.arctan T)
    rw [sub_add_cancel, abs_of_pos hα] at this
    linarith
  have h5 : 2 * u * |Real.arctan Q| ≤ 2 * u * (Real.arctan T + (u * Real.arctan T + η)) := mul_le_mul_of_nonneg_left h4 (by positivity)
  have h6 : 2 * u * (u * Real.arctan T) ≤ 1 / 2 * (u * Real.arctan T) := mul_le_mul_of_nonneg_right (by linarith) (by positivity)
  have h7 : 2 * u * η ≤ 1 / 2 * η := mul_le_mul_of_nonneg_right (by linarith) hη0
  have h8 : 0 < u * Real.arctan T := by positivity
  linarith

theorem negCase' {W Q T u η : ℝ} (hT : 0 < T) (hQ : 0 ≤ Q) (hu0 : 0 < u) (hu : u ≤ 1 / 2 ^ 24) (hη : η ≤ u / 10 ^ 6) (h : |Q - T| ≤ u * T + η)
    (hW : |W - Real.arctan Q| ≤ 2 * u * |Real.arctan Q|) : |W - Real.arctan T| ≤ 2 * u * Real.arctan T + 52 / 100 * u := by
  have h1 := near_half hT hQ hu0 hu hη h
  have hα : 0 < Real.arctan T := Real.arctan_pos.mpr hT
  have h3 := abs_sub_le W (Real.arctan Q) (Real.arctan T)
  have h4 : |Real.arctan Q| ≤ Real.arctan T + 51 / 100 * u := by
    have := abs_add_le (Real.arctan Q - Real.arctan T) (Real.arctan T)
    rw [sub_add_cancel, abs_of_pos hα] at this
    linarith
  have h5 : 2 * u * |Real.arctan Q| ≤ 2 * u * (Real.arctan T + 51 / 100 * u) := mul_le_mul_of_nonneg_left h4 (by positivity)
  have h6 : 2 * u * (51 / 100 * u) ≤ 1 / 100 * u := by
    rw [← mul_assoc]
    exact mul_le_mul_of_nonneg_right (by linarith) hu0.le
  linarith

theorem rnd1 {F : Fmt} (hF : F.Big) {r : BitVec F.w} {v : ℝ} (h : F.Rounds v r) (hv : |v| ≤ 2) : ∃ R, GFv F r R ∧ |R - v| ≤ 1 / 2 ^ (F.s + 1) := by
  have h127 := hF.bias
  obtain ⟨R, r1, -⟩ := rndT hF h (hv.trans (by norm_num))
  refine ⟨R, r1, ?_⟩
  have := h.err F (k := 1) (by simpa using hv) (by omega) (by omega)
  rw [show (1 : ℤ) - F.s - 2 = -((F.s + 1 : ℕ) : ℤ) by push_cast; ring, zpow_neg, zpow_natCast, ← one_div, r1.val] at this
  exact this
theorem rnd2 {F : Fmt} (hF : F.Big) {r : BitVec F.w} {v : ℝ} (h : F.Rounds v r) (hv : |v| ≤ 4) : ∃ R, GFv F r R ∧ |R - v| ≤ 2 * (1 / 2 ^ (F.s + 1)) := by
  have h127 := hF.bias
  obtain ⟨R, r1, -⟩ := rndT hF h (hv.trans (by norm_num))
  refine ⟨R, r1, ?_⟩
  have := h.err F (k := 2) (hv.trans (by norm_num)) (by omega) (by omega)
  rw [show (2 : ℤ) - F.s - 2 = 1 + -((F.s + 1 : ℕ) : ℤ) by push_cast; ring, zpow_add₀ (by norm_num), zpow_neg, zpow_natCast, ← one_div, r1.val] at this
  simpa using this

theorem negR {F : Fmt} {x : ℝ} {r : BitVec F.w} (h : F.Rounds x r) : F.Rounds (-x) (F.neg r) := by
  refine ⟨by rw [abs_neg, F.mag_neg]; exact h.1, fun h0 => ?_⟩
  have h0' : x ≠ 0 := fun h => h0 (by rw [h, neg_zero])
  have := h.2 h0'
  rw [F.sign_neg, Bool.not_eq_true', ← Bool.not_eq_true, this, not_lt, neg_lt_zero]
  exact ⟨fun h => lt_of_le_of_ne h h0'.symm, le_of_lt⟩

/-- a rounded number is not above a number of the format near it -/
theorem top {F : Fmt} (hF : F.Big) {b r : BitVec F.w} {H v : ℝ} (hb : GFv F b H) (h : F.Rounds v r) (h0 : 0 < H) (h4 : H ≤ 4) (hv : v - H < 1 / 2 * (H / 2 ^ (F.s + 1))) : F.valK ℝ r ≤ H := by
  by_contra hc
  rw [not_le] at hc
  have h127 := hF.bias
  have h1 := F.gap_rel (b := b) (c := r) (by linarith) (by rw [hb.val]; exact hc)
  have h3 := h.near F (F.rp_val b) (by
    rw [hb.val, abs_of_pos h0]
    exact h4.trans ((show (4 : ℝ) = 2 ^ (2 : ℤ) by norm_num).le.trans (zpow_le_zpow_right₀ (by norm_num) (by omega))))
  rw [hb.val] at h1 h3
  have h5 : H / 2 ^ (F.s + 1) ≤ F.valK ℝ r / 2 ^ (F.s + 1) := by gcongr
  rcases le_total v H with h7 | h7
  · rw [abs_of_nonpos (by linarith), abs_of_nonpos (by linarith)] at h3; linarith
  · rw [abs_of_nonneg (a := v - H) (by linarith), abs_of_nonpos (by linarith)] at h3; linarith

/-- the errors of `pi - (z - lo)` -/
theorem negErr {W V R H L α u : ℝ} (hu0 : 0 < u) (hα : α ≤ Real.pi / 2) (hpl : |H + L - Real.pi| ≤ u / 1000)
    (hW : |W - α| ≤ 2 * u * α + 52 / 100 * u) (hV : |V - (W - L)| ≤ u) (hR : |R - (H - V)| ≤ 2 * u) (hR' : 12 / 10 ≤ α → |R - (H - V)| ≤ u) :
    |R - (Real.pi - α)| ≤ 4 * u * (Real.pi - α) := by
  have p1 := Real.pi_gt_d4
  have p2 := Real.pi_lt_d4
  norm_num at p1 p2
  have key : ∀ c, |R - (H - V)| ≤ c → |R - (Real.pi - α)| ≤ c + u + (2 * u * α + 52 / 100 * u) + u / 1000 := by
    intro c hc
    rw [abs_le] at *
    constructor <;> linarith [hc.1, hc.2, hV.1, hV.2, hW.1, hW.2, hpl.1, hpl.2]
  rcases le_or_gt (12 / 10) α with h | h
  · refine (key u (hR' h)).trans ?_
    have : u * α ≤ u * (15709 / 10000) := mul_le_mul_of_nonneg_left (by linarith) hu0.le
    have : u * (31415 / 10000) ≤ u * Real.pi := mul_le_mul_of_nonneg_left (by linarith) hu0.le
    linarith
  · refine (key _ hR).trans ?_
    have : u * α ≤ u * (12 / 10) := mul_le_mul_of_nonneg_left h.le hu0.le
    have : u * (31415 / 10000) ≤ u * Real.pi := mul_le_mul_of_nonneg_left (by linarith) hu0.le
    linarith

set_option maxHeartbeats 1000000 in
/-- `pi - (z - lo)` and `(z - lo) - pi` -/
theorem negCase {F : Fmt} (hF : F.Big) (hs : F.s = 23 ∨ F.s = 52) (N : FPU F) {pi lo z : BitVec F.w} {H L W α : ℝ} (hpi : GFv F pi H) (hlo : GFv F lo L)
    (hpl : |H + L - Real.pi| ≤ (1 / 2 ^ (F.s + 1)) / 1000) (hL : |L| ≤ 1 / 10 ^ 6) (hLt : L < 1 / 2 * (H / 2 ^ (F.s + 1))) (hz : GFv F z W) (hW0 : 0 ≤ W)
    (hα0 : 0 ≤ α) (hα : α ≤ Real.pi / 2) (hW : |W - α| ≤ 2 * (1 / 2 ^ (F.s + 1)) * α + 52 / 100 * (1 / 2 ^ (F.s + 1))) :
    (∃ R, GFv F (N.sub pi (N.sub z lo)) R ∧ |R - (Real.pi - α)| ≤ 4 * (1 / 2 ^ (F.s + 1)) * (Real.pi - α) ∧ R ≤ H) ∧
    ∃ R, GFv F (N.sub (N.sub z lo) pi) R ∧ |-R - (Real.pi - α)| ≤ 4 * (1 / 2 ^ (F.s + 1)) * (Real.pi - α) ∧ -R ≤ H := by
  have h127 := hF.bias
  have hu := Atan.u_le hs
  have hu0 : (0 : ℝ) < 1 / 2 ^ (F.s + 1) := by positivity
  have hq : H / 2 ^ (F.s + 1) = H * (1 / 2 ^ (F.s + 1)) := by ring
  rw [hq] at hLt
  have p1 := Real.pi_gt_d4
  have p2 := Real.pi_lt_d4
  norm_num at p1 p2
  have hu' : (1 : ℝ) / 2 ^ (F.s + 1) ≤ 1 / 10 ^ 6 := hu.trans (by norm_num)
  generalize hud : (1 : ℝ) / 2 ^ (F.s + 1) = u at *
  have hWα : W ≤ 158 / 100 := by
    have : u * α ≤ 1 / 10 ^ 6 * 2 := mul_le_mul hu' (by linarith) hα0 (by norm_num)
    rw [abs_le] at hW
    linarith [hW.2]
  have hWα' : α - 1 / 100 ≤ W := by
    have : u * α ≤ 1 / 10 ^ 6 * 2 := mul_le_mul hu' (by linarith) hα0 (by norm_num)
    rw [abs_le] at hW
    linarith [hW.1]
  rw [abs_le] at hL
  have hHL := hpl
  rw [abs_le] at hHL
  have r1 : F.Rounds (W - L) (N.sub z lo) := by have := subR N hz.fin hlo.fin; rwa [hz.val, hlo.val] at this
  obtain ⟨V, v1, v2⟩ := rnd1 hF r1 (by rw [abs_le]; constructor <;> linarith [hL.1, hL.2])
  rw [hud] at v2
  have v3 : -L ≤ V := by
    have := r1.ge_of F (g := -L) (by rw [← hlo.val]; exact (F.rp_val lo).neg F) (by
      rw [abs_neg]
      refine (abs_le.mpr hL).trans (le_trans (show (1 : ℝ) / 10 ^ 6 ≤ 2 ^ (0 : ℤ) by norm_num) (zpow_le_zpow_right₀ (by norm_num) (by omega)))) (by linarith)
    rwa [v1.val] at this
  have v2' := abs_le.mp v2
  have hH : |H - V| ≤ 4 := by rw [abs_le]; constructor <;> linarith [hL.1, hL.2, v2'.1, v2'.2, hHL.1, hHL.2]
  have hH2 : 12 / 10 ≤ α → |H - V| ≤ 2 := by intro h; rw [abs_le]; constructor <;> linarith [hL.1, hL.2, v2'.1, v2'.2, hHL.1, hHL.2]
  have hH0 : 0 < H := by linarith [hL.2, hHL.1]
  have hH4 : H ≤ 4 := by linarith [hL.1, hHL.2]
  constructor
  · have s1 : F.Rounds (H - V) (N.sub pi (N.sub z lo)) := by have := subR N hpi.fin v1.fin; rwa [hpi.val, v1.val] at this
    obtain ⟨R, g1, g2⟩ := rnd2 hF s1 hH
    rw [hud] at g2
    refine ⟨R, g1, negErr hu0 hα hpl hW v2 g2 (fun h => ?_), ?_⟩
    · obtain ⟨R', g1', g2'⟩ := rnd1 hF s1 (hH2 h)
      rw [← g1.val, g1'.val, ← hud]; exact g2'
    · have := top hF hpi s1 hH0 hH4 (by rw [hq]; linarith)
      rwa [g1.val] at this
  · have s1 : F.Rounds (V - H) (N.sub (N.sub z lo) pi) := by have := subR N v1.fin hpi.fin; rwa [hpi.val, v1.val] at this
    obtain ⟨R, g1, g2⟩ := rnd2 hF s1 (by rwa [abs_sub_comm])
    rw [hud] at g2
    have e : |-R - (H - V)| = |R - (V - H)| := by rw [← abs_neg]; congr 1; ring
    refine ⟨R, g1, negErr hu0 hα hpl hW v2 (by rw [e]; exact g2) (fun h => ?_), ?_⟩
    · obtain ⟨R', g1', g2'⟩ := rnd1 hF s1 (by rw [abs_sub_comm]; exact hH2 h)
      rw [e, ← g1.val, g1'.val, ← hud]; exact g2'
    · have s2 : F.Rounds (H - V) (F.neg (N.sub (N.sub z lo) pi)) := by have := negR s1; rwa [neg_sub] at this
      have := top hF hpi s2 hH0 hH4 (by rw [hq]; linarith)
      rwa [F.valK_neg, g1.val] at this
end Atan2
end Verif
