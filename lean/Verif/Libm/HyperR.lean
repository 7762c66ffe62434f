import Verif.Libm.RelErr
/-! # The formulas for the hyperbolic functions: how the errors of the parts add up -/
namespace Verif
namespace Hyper

variable {u T t q r s V : ℝ}

theorem Rl.bounds {a x X : ℝ} (h : Rl a x X) (hX : 0 < X) : X - a * X ≤ x ∧ x ≤ X + a * X := by
  unfold Rl at h
  rw [abs_of_pos hX, abs_le] at h
  constructor <;> linarith [h.1, h.2]

/-- `1 + t^2 / (2 (1 + t))` -/
theorem cSmall_real (hu0 : 0 < u) (hu : u ≤ 1 / 2 ^ 20) (hT0 : 0 < T) (hT : T ≤ 1.001) (ht : Rl (2 * u) t T) (hq : Rl (3.01 * u) q (t * t / (2 * (1 + t))))
    (hV : Rl u V (1 + q)) : |V - (1 + T * T / (2 * (1 + T)))| ≤ 3.2 * u * (1 + T * T / (2 * (1 + T))) := by
  have hu' : u ≤ 1 / 1000000 := hu.trans (by norm_num)
  obtain ⟨b1, b2⟩ := Rl.bounds ht hT0
  have t0 : 0 < t := by nlinarith
  have t1 : t ≤ 1.002 := by nlinarith
  obtain ⟨g, hg⟩ : ∃ g, g = t * t / (2 * (1 + t)) := ⟨_, rfl⟩
  obtain ⟨G, hG⟩ : ∃ G, G = T * T / (2 * (1 + T)) := ⟨_, rfl⟩
  rw [← hg] at hq
  rw [← hG]
  have hG0 : 0 ≤ G := by rw [hG]; positivity
  have hg0 : 0 < g := by rw [hg]; positivity
  have hg1 : g ≤ 0.26 := by
    rw [hg, div_le_iff₀ (by linarith)]; nlinarith
  have hgG : |g - G| ≤ 1.001 * u := by
    have e : g - G = (t - T) / 2 * (1 - 1 / ((1 + t) * (1 + T))) := by
      rw [hg, hG]; field_simp; ring
    have h1 : 0 ≤ 1 - 1 / ((1 + t) * (1 + T)) ∧ 1 - 1 / ((1 + t) * (1 + T)) ≤ 1 := by
      constructor
      · rw [sub_nonneg, div_le_one (by positivity)]; nlinarith
      · have : (0 : ℝ) ≤ 1 / ((1 + t) * (1 + T)) := by positivity
        linarith
    rw [e, abs_mul, abs_of_nonneg h1.1, abs_div, abs_of_pos (show (0 : ℝ) < 2 by norm_num)]
    unfold Rl at ht
    rw [abs_of_pos hT0] at ht
    have h3 := abs_nonneg (t - T)
    calc |t - T| / 2 * (1 - 1 / ((1 + t) * (1 + T))) ≤ |t - T| / 2 * 1 := mul_le_mul_of_nonneg_left h1.2 (by linarith)
      _ ≤ 1.001 * u := by nlinarith
  unfold Rl at hq hV
  rw [abs_of_pos hg0] at hq
  have hq' : |q - g| ≤ 0.783 * u := by nlinarith
  rw [abs_le] at hq' hgG
  have hq0 : 0 < 1 + q := by nlinarith [hq'.1]
  rw [abs_of_pos hq0, abs_le] at hV
  rw [abs_le]
  have k2 : u * (1 + q) ≤ u * (1.00001 * (1 + G)) := mul_le_mul_of_nonneg_left (by linarith [hq'.2, hgG.2]) hu0.le
  have k3 := mul_nonneg hu0.le hG0
  constructor <;> linarith [hq'.1, hq'.2, hgG.1, hgG.2, hV.1, hV.2]

/-- `(t + 1 / t) / 2` -/
theorem cMid_real (hu0 : 0 < u) (hu : u ≤ 1 / 2 ^ 20) (hT : 1.999 ≤ T) (ht : Rl (1.91 * u) t T) (hr : |r - 1 / t| ≤ u * (1 / t) + u / 2 ^ 20)
    (hs : Rl u s (t + r)) : |s / 2 - (T + 1 / T) / 2| ≤ 3.2 * u * ((T + 1 / T) / 2) := by
  have hu' : u ≤ 1 / 1000000 := hu.trans (by norm_num)
  have hT0 : 0 < T := by linarith
  obtain ⟨b1, b2⟩ := Rl.bounds ht hT0
  have t0 : 1.998 ≤ t := by nlinarith
  have hi : 1 / t ≤ 0.501 := by rw [div_le_iff₀ (by linarith)]; linarith
  have hi0 : 0 < 1 / t := by positivity
  have hI0 : 0 < 1 / T := by positivity
  have hd : |t + 1 / t - (T + 1 / T)| ≤ 1.91 * u * T := by
    have e : t + 1 / t - (T + 1 / T) = (t - T) * (1 - 1 / (t * T)) := by field_simp; ring
    have h1 : 0 ≤ 1 - 1 / (t * T) ∧ 1 - 1 / (t * T) ≤ 1 := by
      constructor
      · rw [sub_nonneg, div_le_one (by positivity)]; nlinarith
      · have : (0 : ℝ) ≤ 1 / (t * T) := by positivity
        linarith
    rw [e, abs_mul, abs_of_nonneg h1.1]
    unfold Rl at ht
    rw [abs_of_pos hT0] at ht
    calc |t - T| * (1 - 1 / (t * T)) ≤ |t - T| * 1 := mul_le_mul_of_nonneg_left h1.2 (abs_nonneg _)
      _ ≤ 1.91 * u * T := by linarith
  have hC : 2.499 ≤ T + 1 / T := by
    have : T + 1 / T - 2.499 = (T * T + 1 - 2.499 * T) / T := by field_simp
    have h2 : 0 ≤ (T * T + 1 - 2.499 * T) / T := div_nonneg (by nlinarith) hT0.le
    linarith
  have hTC' : T ≤ T + 1 / T := by linarith
  generalize T + 1 / T = C at *
  have hr' : |r - 1 / t| ≤ 0.502 * u := by
    refine hr.trans ?_
    have : u / 2 ^ 20 ≤ 0.0005 * u := by
      rw [div_le_iff₀ (by positivity)]; nlinarith
    nlinarith
  unfold Rl at hs
  rw [abs_le] at hr' hd
  have h0 : 0 < t + r := by nlinarith [hr'.1]
  rw [abs_of_pos h0, abs_le] at hs
  have hTC : 1.91 * u * T ≤ 1.91 * u * C := by
    nlinarith
  rw [abs_le]
  have hTu : u * T ≤ 1 / 1000000 * C := by nlinarith
  have k2 : u * (t + r) ≤ u * (1.00001 * C) := mul_le_mul_of_nonneg_left (by linarith [hr'.2, hd.2]) hu0.le
  have k3 := mul_le_mul_of_nonneg_left hC hu0.le
  constructor <;> linarith [hs.1, hs.2, hr'.1, hr'.2, hd.1, hd.2]

/-- how an error in `t` affects `t + t / (t + 1)` -/
theorem s_pert (hu0 : 0 < u) (hu : u ≤ 1 / 2 ^ 20) (hT0 : 0 < T) (ht : Rl (2 * u) t T) : |t + t / (t + 1) - (T + T / (T + 1))| ≤ 2 * u * (T + T / (T + 1)) * 1.0001 := by
  have hu' : u ≤ 1 / 1000000 := hu.trans (by norm_num)
  obtain ⟨b1, b2⟩ := Rl.bounds ht hT0
  have t0 : 0 < t := by nlinarith
  have e : t + t / (t + 1) - (T + T / (T + 1)) = (t - T) * (1 + 1 / ((t + 1) * (T + 1))) := by field_simp; ring
  have e2 : T + T / (T + 1) = T * (1 + 1 / (T + 1)) := by field_simp
  unfold Rl at ht
  rw [abs_of_pos hT0] at ht
  have h1 : 0 < 1 + 1 / ((t + 1) * (T + 1)) := by positivity
  rw [e, e2, abs_mul, abs_of_pos h1]
  have h2 : 1 + 1 / ((t + 1) * (T + 1)) ≤ 1 + 1 / (T + 1) := by
    have : 1 / ((t + 1) * (T + 1)) ≤ 1 / (T + 1) := one_div_le_one_div_of_le (by positivity) (by nlinarith)
    linarith
  have h3 : 0 < 1 + 1 / (T + 1) := by positivity
  calc |t - T| * (1 + 1 / ((t + 1) * (T + 1))) ≤ (2 * u * T) * (1 + 1 / (T + 1)) := mul_le_mul ht h2 h1.le (by positivity)
    _ ≤ _ := by
      have : 0 < (2 * u * T) * (1 + 1 / (T + 1)) := by positivity
      nlinarith

/-- `2 t - t^2 / (t + 1)` -/
theorem sSmall_real (hu0 : 0 < u) (hu : u ≤ 1 / 2 ^ 20) (hT0 : 0 < T) (hT : T ≤ 1.7184) (ht : Rl (2 * u) t T) (hq : Rl (3.01 * u) q (t * t / (t + 1)))
    (hV : Rl u V (2 * t - q)) : |V - (T + T / (T + 1))| ≤ 4.45 * u * (T + T / (T + 1)) := by
  have hu' : u ≤ 1 / 1000000 := hu.trans (by norm_num)
  obtain ⟨b1, b2⟩ := Rl.bounds ht hT0
  have t0 : 0 < t := by nlinarith
  have t1 : t ≤ 1.7185 := by nlinarith
  have hd := s_pert hu0 hu hT0 ht
  have e1 : 2 * t - t * t / (t + 1) = t + t / (t + 1) := by field_simp; ring
  have hS0 : 0 < T + T / (T + 1) := by positivity
  have hs0 : 0 < t + t / (t + 1) := by positivity
  have hg : t * t / (t + 1) ≤ 0.4622 * (t + t / (t + 1)) := by
    have : t + t / (t + 1) = t * (t + 2) / (t + 1) := by field_simp; ring
    rw [this, ← mul_div_assoc, div_le_div_iff_of_pos_right (by linarith)]
    nlinarith
  have hg0 : 0 < t * t / (t + 1) := by positivity
  generalize t * t / (t + 1) = g at *
  generalize T + T / (T + 1) = S at *
  generalize t + t / (t + 1) = s at *
  unfold Rl at hq hV
  rw [abs_of_pos hg0] at hq
  have hq' : |q - g| ≤ 1.392 * u * s := by nlinarith
  rw [abs_le] at hq' hd
  have hs1 : s ≤ 1.001 * S := by nlinarith [hd.2]
  have hs2 : 0.999 * S ≤ s := by nlinarith [hd.1]
  have h0 : 0 < 2 * t - q := by nlinarith [hq'.2]
  rw [abs_of_pos h0, abs_le] at hV
  have hus : u * s ≤ 1.00001 * (u * S) := by nlinarith [hd.2, mul_pos hu0 hS0]
  have huS := mul_pos hu0 hS0
  have hus0 := mul_pos hu0 hs0
  have k1 : 2 * t - q ≤ 1.00001 * S := by nlinarith [hq'.1, hd.2]
  have k2 : u * (2 * t - q) ≤ u * (1.00001 * S) := mul_le_mul_of_nonneg_left k1 hu0.le
  rw [abs_le]
  constructor <;> linarith [hq'.1, hq'.2, hd.1, hd.2, hV.1, hV.2]

/-- `t + t / (t + 1)` -/
theorem sMid_real (hu0 : 0 < u) (hu : u ≤ 1 / 2 ^ 20) (hT : 1.718 ≤ T) (ht : Rl (2 * u) t T) (hq : Rl (2.01 * u) q (t / (t + 1)))
    (hV : Rl u V (t + q)) : |V - (T + T / (T + 1))| ≤ 4.45 * u * (T + T / (T + 1)) := by
  have hu' : u ≤ 1 / 1000000 := hu.trans (by norm_num)
  have hT0 : 0 < T := by linarith
  obtain ⟨b1, b2⟩ := Rl.bounds ht hT0
  have t0 : 0 < t := by nlinarith
  have hd := s_pert hu0 hu hT0 ht
  have hS0 : 0 < T + T / (T + 1) := by positivity
  have hs0 : 0 < t + t / (t + 1) := by positivity
  have hg : t / (t + 1) ≤ 1 / 2 * (t + t / (t + 1)) := by
    have : t / (t + 1) ≤ t := by rw [div_le_iff₀ (by linarith)]; nlinarith
    linarith
  have hg0 : 0 < t / (t + 1) := by positivity
  generalize t / (t + 1) = g at *
  generalize T + T / (T + 1) = S at *
  unfold Rl at hq hV
  rw [abs_of_pos hg0] at hq
  obtain ⟨s, hs⟩ : ∃ s, s = t + g := ⟨_, rfl⟩
  rw [← hs] at hd hs0 hg
  have hq' : |q - g| ≤ 1.005 * u * s := by nlinarith
  rw [abs_le] at hq' hd
  have h0 : 0 < t + q := by nlinarith [hq'.1]
  rw [abs_of_pos h0, abs_le] at hV
  have hus : u * s ≤ 1.00001 * (u * S) := by nlinarith [hd.2, mul_pos hu0 hS0]
  have huS := mul_pos hu0 hS0
  have hus0 := mul_pos hu0 hs0
  have k1 : t + q ≤ 1.00001 * S := by nlinarith [hq'.2, hd.2]
  have k2 : u * (t + q) ≤ u * (1.00001 * S) := mul_le_mul_of_nonneg_left k1 hu0.le
  rw [abs_le]
  constructor <;> linarith [hq'.1, hq'.2, hd.1, hd.2, hV.1, hV.2]

/-- how an error in `t` affects `t / (t + 2)`: by the factor `2 / (t + 2)` -/
theorem t_pert {m : ℝ} (hm : 0 < m) (h1 : m ≤ t + 2) (h2 : m ≤ T + 2) (hu0 : 0 < u) (ht : Rl (2 * u) t T) : |t / (t + 2) - T / (T + 2)| ≤ 4 / m * u * |T / (T + 2)| := by
  have h1' : 0 < t + 2 := by linarith
  have h2' : 0 < T + 2 := by linarith
  have e : t / (t + 2) - T / (T + 2) = (t - T) * 2 / (t + 2) / (T + 2) := by field_simp; ring
  rw [e, abs_div, abs_div, abs_mul, abs_div T, abs_of_pos h1', abs_of_pos h2', ← mul_div_assoc, div_le_div_iff_of_pos_right h2',
    abs_of_pos (show (0 : ℝ) < 2 by norm_num)]
  unfold Rl at ht
  rw [div_le_iff₀ h1']
  have : (4 : ℝ) ≤ 4 / m * (t + 2) := by rw [div_mul_eq_mul_div, le_div_iff₀ hm]; linarith
  have h3 : 0 ≤ u * |T| := by positivity
  nlinarith

/-- `1 - 2 / (t + 2)` -/
theorem tA_real (hu0 : 0 < u) (hu : u ≤ 1 / 2 ^ 20) (hT : 1.99 ≤ T) (ht : Rl (2 * u) t T) (hq : Rl (2.01 * u) q (2 / (t + 2)))
    (hV : Rl u V (1 - q)) : |V - T / (T + 2)| ≤ 4.6 * u * (T / (T + 2)) := by
  have hu' : u ≤ 1 / 1000000 := hu.trans (by norm_num)
  have hT0 : 0 < T := by linarith
  obtain ⟨b1, b2⟩ := Rl.bounds ht hT0
  have t0 : 1.989 ≤ t := by nlinarith
  have hd := t_pert (m := 3.98) (by norm_num) (by linarith) (by linarith) hu0 ht
  have hS : 0.49 ≤ T / (T + 2) := by rw [le_div_iff₀ (by linarith)]; linarith
  have hg : 2 / (t + 2) = 1 - t / (t + 2) := by field_simp; ring
  rw [hg] at hq
  have hs : 0.498 ≤ t / (t + 2) := by rw [le_div_iff₀ (by linarith)]; linarith
  have hs1 : t / (t + 2) < 1 := by rw [div_lt_one (by linarith)]; linarith
  rw [abs_of_pos (show 0 < T / (T + 2) by linarith)] at hd
  generalize T / (T + 2) = S at *
  generalize t / (t + 2) = s at *
  unfold Rl at hq hV
  rw [abs_of_pos (show 0 < 1 - s by linarith)] at hq
  have hq' : |q - (1 - s)| ≤ 2.03 * u * s := by nlinarith
  rw [abs_le] at hq' hd
  norm_num at hd
  have h0 : 0 < 1 - q := by nlinarith [hq'.2]
  rw [abs_of_pos h0, abs_le] at hV
  have huS := mul_pos hu0 (show 0 < S by linarith)
  have hus : u * s ≤ 1.00001 * (u * S) := by nlinarith [hd.2]
  have k1 : 1 - q ≤ 1.00001 * S := by nlinarith [hq'.1, hd.2]
  have k2 : u * (1 - q) ≤ u * (1.00001 * S) := mul_le_mul_of_nonneg_left k1 hu0.le
  rw [abs_le]
  constructor <;> linarith [hq'.1, hq'.2, hd.1, hd.2, hV.1, hV.2]

/-- `t / (t + 2)`, as a positive and as a negative number -/
theorem tB_real (hu0 : 0 < u) (hu : u ≤ 1 / 2 ^ 20) (hT0 : T ≠ 0) (hT : -0.401 ≤ T) (hT2 : T ≤ 1000) (ht : Rl (2 * u) t T) (hV : Rl (2.01 * u) V (t / (t + 2))) :
    |V - T / (T + 2)| ≤ 4.6 * u * |T / (T + 2)| := by
  have hu' : u ≤ 1 / 1000000 := hu.trans (by norm_num)
  have htm : -0.4011 ≤ t := by
    unfold Rl at ht
    rcases le_total 0 T with h | h
    · rw [abs_of_nonneg h, abs_le] at ht; nlinarith [ht.1]
    · rw [abs_of_nonpos h, abs_le] at ht; nlinarith [ht.1]
  have hd := t_pert (m := 1.5989) (by norm_num) (by linarith) (by linarith) hu0 ht
  have hS : 0 < |T / (T + 2)| := abs_pos.mpr (div_ne_zero hT0 (by linarith))
  generalize T / (T + 2) = S at *
  generalize t / (t + 2) = s at *
  unfold Rl at hV
  norm_num at hd
  have h1 := abs_sub_abs_le_abs_sub s S
  have h2 := abs_sub_le V s S
  have huS := mul_pos hu0 hS
  have hus : u * |s| ≤ 1.00001 * (u * |S|) := by
    have : |s| ≤ 1.00001 * |S| := by nlinarith
    nlinarith
  nlinarith
end Hyper
end Verif
