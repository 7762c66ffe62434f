import Mathlib.Data.Real.Basic
import Mathlib.Tactic.Linarith
import Mathlib.Tactic.Positivity
import Mathlib.Tactic.FieldSimp
import Mathlib.Tactic.Ring
import Mathlib.Tactic.NormNum
/-! # The Newton step of `hypot` over the reals -/
namespace Verif.Hypot

/-- `(D - w)(D + 3w)` is at least `-4w²` and at most `4D²/3` -/
theorem quad {D w K : ℝ} (h1 : 4 * w ^ 2 ≤ K) (h2 : 4 * D ^ 2 ≤ 3 * K) : |(D - w) * (D + 3 * w)| ≤ K := by
  rw [abs_le]
  constructor
  · nlinarith [sq_nonneg (D + w)]
  · nlinarith [sq_nonneg (D - 3 * w)]

/-- the correction term is small -/
theorem tl_bound {u q th D σ rs dz κ d q0 ε1 : ℝ} (hu : 0 < u) (hu' : u ≤ 1 / 2 ^ 40) (hq0 : 1 ≤ q0) (hq : q0 ≤ q) (hq3 : q ≤ 3)
    (hκ0 : 0 ≤ κ) (hκ : κ ≤ 2) (hd0 : 0 ≤ d) (hd : d ≤ 8) (hth : |th - q| ≤ κ * u) (hD : |D| ≤ d * u) (hσ : 0 < σ)
    (hS : σ ^ 2 = q ^ 2 + D) (hrs : |rs - th / (2 * q ^ 2)| ≤ 2.001 * u * (th / (2 * q ^ 2)))
    (hdz : |dz - (σ ^ 2 - th ^ 2)| ≤ ε1) :
    |rs * dz| ≤ 1.001 * (d * u / (2 * q0) + κ * u) + ε1 := by
  have hq1 : 1 ≤ q := hq0.trans hq
  obtain ⟨t1, t2⟩ := abs_le.mp hth
  obtain ⟨d1, d2⟩ := abs_le.mp hD
  have hκu : κ * u ≤ 2 * u := mul_le_mul_of_nonneg_right hκ hu.le
  have hdu : d * u ≤ 8 * u := mul_le_mul_of_nonneg_right hd hu.le
  have hu8 : u ≤ 1 / 10 ^ 12 := hu'.trans (by norm_num)
  have hthp : 0 < th := by linarith
  have hε1 : 0 ≤ ε1 := (abs_nonneg _).trans hdz
  -- σ is near q
  have hσq : |σ - q| ≤ 8 * u := by
    have h1 : (σ - q) * (σ + q) = D := by nlinarith
    have h2 : |σ - q| * (σ + q) = |D| := by rw [← h1, abs_mul, abs_of_pos (show 0 < σ + q by linarith)]
    have h3 : |σ - q| * 1 ≤ |σ - q| * (σ + q) := mul_le_mul_of_nonneg_left (by linarith) (abs_nonneg _)
    linarith
  obtain ⟨s1, s2⟩ := abs_le.mp hσq
  have hsum : 1.999 * q ≤ σ + th := by linarith
  have hsp : 0 < σ + th := by linarith
  have hq2 : 0 < q ^ 2 := by positivity
  -- δ
  set δ := σ ^ 2 - th ^ 2 with hδ
  set w := th ^ 2 - q ^ 2 with hw
  have hδD : δ = D - w := by rw [hδ, hw, hS]; ring
  have hw1 : |w| ≤ 2.0001 * q * (κ * u) := by
    have : w = (th - q) * (th + q) := by rw [hw]; ring
    rw [this, abs_mul, abs_of_pos (show 0 < th + q by linarith)]
    calc |th - q| * (th + q) ≤ κ * u * (2.0001 * q) := by
          refine mul_le_mul hth ?_ (by linarith) (by positivity)
          linarith
      _ = _ := by ring
  have hδ1 : |δ| ≤ d * u + 2.0001 * q * (κ * u) := by
    rw [hδD]; exact (abs_sub _ _).trans (by linarith)
  have hδ2 : |δ| ≤ 21 * u := by
    refine hδ1.trans ?_
    have : q * (κ * u) ≤ 3 * (2 * u) := mul_le_mul hq3 hκu (by positivity) (by positivity)
    linarith
  -- ρ
  set ρ := th / (2 * q ^ 2) with hρ
  have hρ0 : 0 < ρ := by positivity
  have hρ1 : ρ * q ≤ 0.5001 := by
    rw [hρ, div_mul_eq_mul_div, div_le_iff₀ (by positivity)]
    have := mul_le_mul_of_nonneg_right (show th ≤ 1.0002 * q by linarith) (show 0 ≤ q by linarith)
    linarith
  have hρ2 : ρ ≤ 0.5001 / q0 := by
    rw [le_div_iff₀ (by linarith)]
    exact (mul_le_mul_of_nonneg_left hq hρ0.le).trans hρ1
  have hrs1 : |rs| ≤ 0.501 / q0 := by
    have h1 : |rs| ≤ |rs - ρ| + |ρ| := by
      have := abs_add_le (rs - ρ) ρ; rwa [sub_add_cancel] at this
    rw [abs_of_pos hρ0] at h1
    have h2 : 2.001 * u * ρ ≤ 0.001 * ρ := mul_le_mul_of_nonneg_right (by linarith) hρ0.le
    have h3 : 1.001 * (0.5001 / q0) ≤ 0.501 / q0 * 1 := by
      rw [← mul_div_assoc, mul_one, div_le_div_iff_of_pos_right (by linarith)]; norm_num
    linarith
  have hρδ : ρ * |δ| ≤ 1.0003 * (d * u / (2 * q0) + κ * u) := by
    have h1 : ρ * (d * u) ≤ 0.5001 / q0 * (d * u) := mul_le_mul_of_nonneg_right hρ2 (by positivity)
    have h2 : ρ * (2.0001 * q * (κ * u)) ≤ 1.0003 * (κ * u) := by
      have : ρ * (2.0001 * q * (κ * u)) = ρ * q * (2.0001 * (κ * u)) := by ring
      rw [this]
      calc ρ * q * (2.0001 * (κ * u)) ≤ 0.5001 * (2.0001 * (κ * u)) := mul_le_mul_of_nonneg_right hρ1 (by positivity)
        _ = (0.5001 * 2.0001) * (κ * u) := by ring
        _ ≤ _ := mul_le_mul_of_nonneg_right (by norm_num) (by positivity)
    have h3 : 0.5001 / q0 * (d * u) = 1.0002 * (d * u / (2 * q0)) := by field_simp; ring
    have h4 := mul_le_mul_of_nonneg_left hδ1 hρ0.le
    have h5 : 0 ≤ d * u / (2 * q0) := by positivity
    linarith
  have hrs2 : |rs| ≤ 1.0001 * ρ := by
    have h1 : |rs| ≤ |rs - ρ| + |ρ| := by
      have := abs_add_le (rs - ρ) ρ; rwa [sub_add_cancel] at this
    rw [abs_of_pos hρ0] at h1
    have h2 : 2.001 * u * ρ ≤ 0.0001 * ρ := mul_le_mul_of_nonneg_right (by linarith) hρ0.le
    linarith
  have hrs3 : |rs| ≤ 1 := by
    refine hrs1.trans ?_
    rw [div_le_iff₀ (by linarith)]; linarith
  have e : rs * dz = rs * (dz - δ) + rs * δ := by ring
  have h1 : |rs * (dz - δ)| ≤ ε1 := by
    rw [abs_mul]
    calc |rs| * |dz - δ| ≤ 1 * ε1 := mul_le_mul hrs3 hdz (abs_nonneg _) (by norm_num)
      _ = ε1 := one_mul _
  have h2 : |rs * δ| ≤ 1.001 * (d * u / (2 * q0) + κ * u) := by
    have hnn : 0 ≤ d * u / (2 * q0) + κ * u := by positivity
    rw [abs_mul]
    calc |rs| * |δ| ≤ 1.0001 * ρ * |δ| := mul_le_mul_of_nonneg_right hrs2 (abs_nonneg _)
      _ = 1.0001 * (ρ * |δ|) := by ring
      _ ≤ 1.0001 * (1.0003 * (d * u / (2 * q0) + κ * u)) := mul_le_mul_of_nonneg_left hρδ (by norm_num)
      _ ≤ _ := by linarith
  rw [e]
  exact (abs_add_le _ _).trans (by linarith)

set_option maxHeartbeats 800000 in
theorem newton {u q th D σ tl rs dz κ d q0 ε1 ε2 B : ℝ} (hu : 0 < u) (hu' : u ≤ 1 / 2 ^ 40) (hq0 : 1 ≤ q0) (hq : q0 ≤ q) (hq3 : q ≤ 3)
    (hκ0 : 0 ≤ κ) (hκ : κ ≤ 2) (hd0 : 0 ≤ d) (hd : d ≤ 8) (hth : |th - q| ≤ κ * u) (hD : |D| ≤ d * u) (hσ : 0 < σ)
    (hS : σ ^ 2 = q ^ 2 + D) (hrs : |rs - th / (2 * q ^ 2)| ≤ 2.001 * u * (th / (2 * q ^ 2)))
    (hdz : |dz - (σ ^ 2 - th ^ 2)| ≤ ε1) (htl : |tl - rs * dz| ≤ ε2)
    (hB1 : 2.01 * κ ^ 2 * u ^ 2 ≤ B * q0) (hB2 : 0.17 * d ^ 2 * u ^ 2 ≤ B * q0 ^ 3) (hB : u ^ 2 / 8 ≤ B) :
    |th + tl - σ| ≤ ε2 + 0.501 * (ε1 / q0) + 2.002 * u * (d * u / (2 * q0) + κ * u) + 1.001 * B := by
  have hq1 : 1 ≤ q := hq0.trans hq
  obtain ⟨t1, t2⟩ := abs_le.mp hth
  obtain ⟨d1, d2⟩ := abs_le.mp hD
  have hκu : κ * u ≤ 2 * u := mul_le_mul_of_nonneg_right hκ hu.le
  have hdu : d * u ≤ 8 * u := mul_le_mul_of_nonneg_right hd hu.le
  have hu8 : u ≤ 1 / 10 ^ 12 := hu'.trans (by norm_num)
  have hthp : 0 < th := by linarith
  have hε1 : 0 ≤ ε1 := (abs_nonneg _).trans hdz
  -- σ is near q
  have hσq : |σ - q| ≤ 8 * u := by
    have h1 : (σ - q) * (σ + q) = D := by nlinarith
    have h2 : |σ - q| * (σ + q) = |D| := by rw [← h1, abs_mul, abs_of_pos (show 0 < σ + q by linarith)]
    have h3 : |σ - q| * 1 ≤ |σ - q| * (σ + q) := mul_le_mul_of_nonneg_left (by linarith) (abs_nonneg _)
    linarith
  obtain ⟨s1, s2⟩ := abs_le.mp hσq
  have hsum : 1.999 * q ≤ σ + th := by linarith
  have hsp : 0 < σ + th := by linarith
  have hq2 : 0 < q ^ 2 := by positivity
  -- δ
  set δ := σ ^ 2 - th ^ 2 with hδ
  set w := th ^ 2 - q ^ 2 with hw
  have hδD : δ = D - w := by rw [hδ, hw, hS]; ring
  have hw1 : |w| ≤ 2.0001 * q * (κ * u) := by
    have : w = (th - q) * (th + q) := by rw [hw]; ring
    rw [this, abs_mul, abs_of_pos (show 0 < th + q by linarith)]
    calc |th - q| * (th + q) ≤ κ * u * (2.0001 * q) := by
          refine mul_le_mul hth ?_ (by linarith) (by positivity)
          linarith
      _ = _ := by ring
  have hδ1 : |δ| ≤ d * u + 2.0001 * q * (κ * u) := by
    rw [hδD]; exact (abs_sub _ _).trans (by linarith)
  have hδ2 : |δ| ≤ 21 * u := by
    refine hδ1.trans ?_
    have : q * (κ * u) ≤ 3 * (2 * u) := mul_le_mul hq3 hκu (by positivity) (by positivity)
    linarith
  -- ρ
  set ρ := th / (2 * q ^ 2) with hρ
  have hρ0 : 0 < ρ := by positivity
  have hρ1 : ρ * q ≤ 0.5001 := by
    rw [hρ, div_mul_eq_mul_div, div_le_iff₀ (by positivity)]
    have := mul_le_mul_of_nonneg_right (show th ≤ 1.0002 * q by linarith) (show 0 ≤ q by linarith)
    linarith
  have hρ2 : ρ ≤ 0.5001 / q0 := by
    rw [le_div_iff₀ (by linarith)]
    exact (mul_le_mul_of_nonneg_left hq hρ0.le).trans hρ1
  have hrs1 : |rs| ≤ 0.501 / q0 := by
    have h1 : |rs| ≤ |rs - ρ| + |ρ| := by
      have := abs_add_le (rs - ρ) ρ; rwa [sub_add_cancel] at this
    rw [abs_of_pos hρ0] at h1
    have h2 : 2.001 * u * ρ ≤ 0.001 * ρ := mul_le_mul_of_nonneg_right (by linarith) hρ0.le
    have h3 : 1.001 * (0.5001 / q0) ≤ 0.501 / q0 * 1 := by
      rw [← mul_div_assoc, mul_one, div_le_div_iff_of_pos_right (by linarith)]; norm_num
    linarith
  have hρδ : ρ * |δ| ≤ 1.0003 * (d * u / (2 * q0) + κ * u) := by
    have h1 : ρ * (d * u) ≤ 0.5001 / q0 * (d * u) := mul_le_mul_of_nonneg_right hρ2 (by positivity)
    have h2 : ρ * (2.0001 * q * (κ * u)) ≤ 1.0003 * (κ * u) := by
      have : ρ * (2.0001 * q * (κ * u)) = ρ * q * (2.0001 * (κ * u)) := by ring
      rw [this]
      calc ρ * q * (2.0001 * (κ * u)) ≤ 0.5001 * (2.0001 * (κ * u)) := mul_le_mul_of_nonneg_right hρ1 (by positivity)
        _ = (0.5001 * 2.0001) * (κ * u) := by ring
        _ ≤ _ := mul_le_mul_of_nonneg_right (by norm_num) (by positivity)
    have h3 : 0.5001 / q0 * (d * u) = 1.0002 * (d * u / (2 * q0)) := by field_simp; ring
    have h4 := mul_le_mul_of_nonneg_left hδ1 hρ0.le
    have h5 : 0 ≤ d * u / (2 * q0) := by positivity
    linarith
  -- the Newton error
  have hN : |ρ * δ - (σ - th)| ≤ 1.001 * B := by
    have hid : ρ * δ - (σ - th) = ((D - w) * (D + 3 * w) / 2 + δ ^ 2 * ((th - σ) / (2 * (σ + th)))) / (2 * q ^ 2 * (σ + th)) := by
      have e1 : δ = (σ - th) * (σ + th) := by rw [hδ]; ring
      have e2 : D = δ + w := by rw [hδD]; ring
      rw [e2, hρ]
      have e3 : (δ + w - w) * (δ + w + 3 * w) / 2 = δ * (2 * w + δ / 2) := by ring
      rw [e3, e1, hw]
      field_simp
      ring
    rw [hid, abs_div, abs_of_pos (show 0 < 2 * q ^ 2 * (σ + th) by positivity), div_le_iff₀ (by positivity)]
    have hden : 3.998 * q ^ 3 ≤ 2 * q ^ 2 * (σ + th) := by
      have := mul_le_mul_of_nonneg_left hsum (show 0 ≤ 2 * q ^ 2 by positivity)
      have e : 2 * q ^ 2 * (1.999 * q) = 3.998 * q ^ 3 := by ring
      linarith
    have hBp : 0 < B := lt_of_lt_of_le (by positivity) hB
    -- main part
    have hquad : |(D - w) * (D + 3 * w)| ≤ 8 * B * q ^ 3 * (0.9998 : ℝ) := by
      apply quad
      · have h1 : w ^ 2 ≤ (2.0001 * q * (κ * u)) ^ 2 := by
          rw [← sq_abs w]; exact pow_le_pow_left₀ (abs_nonneg _) hw1 2
        have h2 : 2.01 * κ ^ 2 * u ^ 2 * q ^ 2 ≤ B * q ^ 3 := by
          have a1 := mul_le_mul_of_nonneg_right hB1 hq2.le
          have a2 : B * q0 * q ^ 2 ≤ B * q * q ^ 2 :=
            mul_le_mul_of_nonneg_right (mul_le_mul_of_nonneg_left hq hBp.le) hq2.le
          have a3 : B * q * q ^ 2 = B * q ^ 3 := by ring
          linarith
        have h3 : 4 * (2.0001 * q * (κ * u)) ^ 2 = (4 * 2.0001 ^ 2) * (κ ^ 2 * u ^ 2 * q ^ 2) := by ring
        have h4 : 0 ≤ κ ^ 2 * u ^ 2 * q ^ 2 := by positivity
        have h5 : 2.01 * κ ^ 2 * u ^ 2 * q ^ 2 = 2.01 * (κ ^ 2 * u ^ 2 * q ^ 2) := by ring
        have h6 : (4 * 2.0001 ^ 2 : ℝ) ≤ 8 * 0.9998 * 2.01 := by norm_num
        have h7 := mul_le_mul_of_nonneg_right h6 h4
        linarith
      · have h1 : D ^ 2 ≤ (d * u) ^ 2 := by
          rw [← sq_abs D]; exact pow_le_pow_left₀ (abs_nonneg _) hD 2
        have h2 : B * q0 ^ 3 ≤ B * q ^ 3 :=
          mul_le_mul_of_nonneg_left (pow_le_pow_left₀ (by linarith) hq 3) hBp.le
        have h3 : (d * u) ^ 2 = d ^ 2 * u ^ 2 := by ring
        have h4 : 0 ≤ d ^ 2 * u ^ 2 := by positivity
        linarith
    have htiny : |δ ^ 2 * ((th - σ) / (2 * (σ + th)))| ≤ 0.001 * u ^ 2 / 8 := by
      rw [abs_mul, abs_of_nonneg (sq_nonneg δ), abs_div, abs_of_pos (show 0 < 2 * (σ + th) by linarith)]
      have h1 : δ ^ 2 ≤ (21 * u) ^ 2 := by
        rw [← sq_abs δ]; exact pow_le_pow_left₀ (abs_nonneg _) hδ2 2
      have h2 : |th - σ| ≤ 10 * u := by rw [abs_le]; constructor <;> linarith
      have h3 : |th - σ| / (2 * (σ + th)) ≤ 10 * u := by
        rw [div_le_iff₀ (by linarith)]
        exact h2.trans (le_mul_of_one_le_right (by linarith) (by linarith))
      calc δ ^ 2 * (|th - σ| / (2 * (σ + th))) ≤ (21 * u) ^ 2 * (10 * u) :=
            mul_le_mul h1 h3 (by positivity) (by positivity)
        _ = 4410 * u * u ^ 2 := by ring
        _ ≤ 0.000125 * u ^ 2 := mul_le_mul_of_nonneg_right (by linarith) (by positivity)
        _ = _ := by ring
    have hq3' : 1 ≤ q ^ 3 := one_le_pow₀ hq1
    have hBq : B ≤ B * q ^ 3 := le_mul_of_one_le_right hBp.le hq3'
    calc _ ≤ |(D - w) * (D + 3 * w) / 2| + |δ ^ 2 * ((th - σ) / (2 * (σ + th)))| := abs_add_le _ _
      _ ≤ 4 * B * q ^ 3 * 0.9998 + 0.001 * B := by
          rw [abs_div, abs_two]; linarith
      _ ≤ 1.001 * B * (3.998 * q ^ 3) := by linarith
      _ ≤ _ := mul_le_mul_of_nonneg_left hden (by linarith)
  -- assembling
  have e : th + tl - σ = (tl - rs * dz) + rs * (dz - δ) + (rs - ρ) * δ + (ρ * δ - (σ - th)) := by ring
  have h1 : |rs * (dz - δ)| ≤ 0.501 / q0 * ε1 := by
    rw [abs_mul]; exact mul_le_mul hrs1 hdz (abs_nonneg _) (by positivity)
  have h2 : |(rs - ρ) * δ| ≤ 2.002 * u * (d * u / (2 * q0) + κ * u) := by
    rw [abs_mul]
    have hnn : 0 ≤ d * u / (2 * q0) + κ * u := by positivity
    calc |rs - ρ| * |δ| ≤ 2.001 * u * ρ * |δ| := mul_le_mul_of_nonneg_right hrs (abs_nonneg _)
      _ = 2.001 * u * (ρ * |δ|) := by ring
      _ ≤ 2.001 * u * (1.0003 * (d * u / (2 * q0) + κ * u)) := mul_le_mul_of_nonneg_left hρδ (by positivity)
      _ = (2.001 * 1.0003) * (u * (d * u / (2 * q0) + κ * u)) := by ring
      _ ≤ 2.002 * (u * (d * u / (2 * q0) + κ * u)) := mul_le_mul_of_nonneg_right (by norm_num) (by positivity)
      _ = _ := by ring
  have h3 : 0.501 / q0 * ε1 = 0.501 * (ε1 / q0) := by ring
  rw [e]
  calc _ ≤ |(tl - rs * dz) + rs * (dz - δ) + (rs - ρ) * δ| + |ρ * δ - (σ - th)| := abs_add_le _ _
    _ ≤ |(tl - rs * dz) + rs * (dz - δ)| + |(rs - ρ) * δ| + |ρ * δ - (σ - th)| := by linarith [abs_add_le ((tl - rs * dz) + rs * (dz - δ)) ((rs - ρ) * δ)]
    _ ≤ |tl - rs * dz| + |rs * (dz - δ)| + |(rs - ρ) * δ| + |ρ * δ - (σ - th)| := by linarith [abs_add_le (tl - rs * dz) (rs * (dz - δ))]
    _ ≤ _ := by linarith

end Verif.Hypot
