import Verif.Libm.AtanR
import Verif.Libm.GFv
/-! # The common part of `atan` and `atanf`, in any format -/
namespace Verif
open Fmt
namespace Atan
variable {F : Fmt}

theorem u_le (hs : F.s = 23 ∨ F.s = 52) : (1 : ℝ) / 2 ^ (F.s + 1) ≤ 1 / 2 ^ 24 :=
  one_div_le_one_div_of_le (by norm_num) (pow_le_pow_right₀ (by norm_num) (by rcases hs with h | h <;> omega))
theorem u_ge (hs : F.s = 23 ∨ F.s = 52) : (1 : ℝ) / 2 ^ 53 ≤ 1 / 2 ^ (F.s + 1) :=
  one_div_le_one_div_of_le (by positivity) (pow_le_pow_right₀ (by norm_num) (by rcases hs with h | h <;> omega))

/-- a quotient of an exact numerator and a denominator of small relative error -/
theorem quot (hF : F.Big) (hs : F.s = 23 ∨ F.s = 52) (N : FPU F) {n d : BitVec F.w} {v w D c : ℝ} (hn : GFv F n v) (hd : GFv F d w) (hD : 1 ≤ D)
    (hc0 : 0 ≤ c) (hc : c ≤ 3) (hw : |w - D| ≤ c * (1 / 2 ^ (F.s + 1)) * D) (hv : |v| ≤ 100) :
    ∃ t, GFv F (N.div n d) t ∧ |t - v / D| ≤ (1001 / 1000) * (c + 1) * (1 / 2 ^ (F.s + 1)) * |v / D| + 1 / 2 ^ 150 := by
  have hu2 := u_le hs
  have hu0 : (0 : ℝ) < 1 / 2 ^ (F.s + 1) := by positivity
  set u : ℝ := 1 / 2 ^ (F.s + 1)
  have hcu : c * u ≤ 1 / 10 ^ 6 := by nlinarith
  have hw2 : D * (1 - c * u) ≤ w := by rw [abs_le] at hw; nlinarith [hw.1]
  have hwp : 0 < w := by nlinarith
  have hq : |v / w - v / D| ≤ (10001 / 10000) * (c * u) * |v / D| := by
    have e : v / w - v / D = -(v / D) * ((w - D) / w) := by field_simp; ring
    rw [e, abs_mul, abs_neg, mul_comm]
    refine mul_le_mul_of_nonneg_right ?_ (abs_nonneg _)
    rw [abs_div, abs_of_pos hwp, div_le_iff₀ hwp]
    refine hw.trans ?_
    have h0 : 0 ≤ c * u := by positivity
    nlinarith [mul_nonneg h0 (show 0 ≤ D by linarith)]
  have hq1 : |v / w| ≤ (10001 / 10000) * |v / D| := by
    have := abs_add_le (v / w - v / D) (v / D); rw [sub_add_cancel] at this
    nlinarith [abs_nonneg (v / D)]
  have hvD : |v / D| ≤ 100 := by
    rw [abs_div, abs_of_pos (show 0 < D by linarith), div_le_iff₀ (by linarith)]; linarith
  obtain ⟨t, ht, e⟩ := GFv.rnd hF (hn.divR N hd hwp.ne') (by
    refine (hq1.trans (b := _) ?_).trans (show (1000 : ℝ) ≤ 2 ^ (100 : ℤ) by norm_num); linarith)
  refine ⟨t, ht, ?_⟩
  have := abs_add_le (t - v / w) (v / w - v / D)
  rw [sub_add_sub_cancel] at this
  have h3 : u * |v / w| ≤ u * ((10001 / 10000) * |v / D|) := mul_le_mul_of_nonneg_left hq1 hu0.le
  have h4 : 0 ≤ u * |v / D| := by positivity
  have h5 : 0 ≤ c * (u * |v / D|) := by positivity
  linarith

theorem below {u T Sr L b H eS Sm : ℝ} (hu0 : 0 < u) (hu5 : u ≤ 1 / 10 ^ 7) (hT : T ≤ 0)
    (eb : |b - (T * Sr - L - T)| ≤ (1 + eS + 2 * Sm + 1 / 10 ^ 6) * (|T| * u) + 4 / 10000 * u) (hSr : |Sr| ≤ Sm) (hSm : Sm ≤ 1 / 10) (heS : eS ≤ 1 / 2) :
    H - b ≤ H + L + 4 / 10000 * u := by
  have h8 := (abs_le.mp eb).1
  rw [abs_of_nonpos hT] at h8
  have hT0 : 0 ≤ -T := by linarith
  have h7 : -T * Sr ≤ -T * (1 / 10) := mul_le_mul_of_nonneg_left (by linarith [le_abs_self Sr]) hT0
  have h6 : (1 + eS + 2 * Sm + 1 / 10 ^ 6) * (-T * u) ≤ 3 * (-T * u) := mul_le_mul_of_nonneg_right (by linarith) (by positivity)
  have h5 : -T * u ≤ -T * (1 / 10 ^ 7) := mul_le_mul_of_nonneg_left hu5 hT0
  linarith

set_option maxHeartbeats 1000000 in
/-- the result from the reduced argument `T` -/
theorem tail (hF : F.Big) (hs : F.s = 23 ∨ F.s = 52) (N : FPU F) {t S hi lo : BitVec F.w} {T Sr H L A Sm eS B : ℝ} (ht : GFv F t T) {Sv : ℝ}
    (hS : GFv F S Sv) (eSv : |Sv - Sr| ≤ eS * (1 / 2 ^ (F.s + 1))) (hSr : |Sr| ≤ Sm) (hSm : Sm ≤ 1 / 10) (heS : eS ≤ 1 / 2)
    (hhi : GFv F hi H) (hlo : GFv F lo L) (hHL : |H + L - A| ≤ 1 / 1000 * (1 / 2 ^ (F.s + 1))) (hL : |L| ≤ 1 / 10 ^ 6)
    (hap : |Real.arctan T - (T - T * Sr)| ≤ B * (1 / 2 ^ (F.s + 1)) * |T|) (hB : B ≤ 1 / 2) (hT : |T| ≤ 1 / 2) (hA : |A| ≤ 2) :
    ∃ W, GFv F (N.sub hi (N.sub (N.sub (N.mul t S) lo) t)) W ∧
      |W - (A + Real.arctan T)| ≤ 1 / 2 ^ (F.s + 1) * |A + Real.arctan T| + (1 + 2 * Sm + eS + B + 1 / 1000) * (1 / 2 ^ (F.s + 1)) * |T|
        + 3 / 1000 * (1 / 2 ^ (F.s + 1)) ∧
      (T ≤ 0 → ∃ v, F.Rounds v (N.sub hi (N.sub (N.sub (N.mul t S) lo) t)) ∧ v ≤ H + L + 4 / 10000 * (1 / 2 ^ (F.s + 1))) := by
  have hu2 := u_le hs
  have hu3 := u_ge hs
  have hu0 : (0 : ℝ) < 1 / 2 ^ (F.s + 1) := by positivity
  set u : ℝ := 1 / 2 ^ (F.s + 1)
  have hk : (1 : ℝ) / 2 ^ 150 ≤ 1 / 10000 * (1 / 2 ^ 53) := by norm_num
  have hk9 : (10 : ℝ) ≤ 2 ^ (100 : ℤ) := by norm_num
  have hu5 : u ≤ 1 / 10 ^ 7 := hu2.trans (by norm_num)
  have hT0 := abs_nonneg T
  have hSm0 : 0 ≤ Sm := (abs_nonneg _).trans hSr
  have heS0 : 0 ≤ eS * u := (abs_nonneg _).trans eSv
  have heS1 : eS * u ≤ 1 / 10 ^ 7 := by nlinarith
  have hTu : 0 ≤ |T| * u := by positivity
  -- the product
  have p1 : |T * Sv - T * Sr| ≤ eS * u * |T| := by
    rw [← mul_sub, abs_mul, mul_comm]; exact mul_le_mul_of_nonneg_right eSv hT0
  have p2 : |T * Sr| ≤ Sm * |T| := by rw [abs_mul, mul_comm]; exact mul_le_mul_of_nonneg_right hSr hT0
  have p3 : |T * Sv| ≤ (Sm + 1 / 10 ^ 7) * |T| := by
    have := abs_add_le (T * Sv - T * Sr) (T * Sr); rw [sub_add_cancel] at this
    nlinarith
  have p4 : |T * Sv| ≤ 1 := by nlinarith
  obtain ⟨m, hm, em⟩ := GFv.rnd hF (ht.mulR N hS) (by linarith)
  have em1 : |m - T * Sr| ≤ (eS + Sm + 1 / 10 ^ 7) * (|T| * u) + 1 / 10000 * u := by
    have := abs_add_le (m - T * Sv) (T * Sv - T * Sr); rw [sub_add_sub_cancel] at this
    have : u * |T * Sv| ≤ u * ((Sm + 1 / 10 ^ 7) * |T|) := mul_le_mul_of_nonneg_left p3 hu0.le
    linarith
  have bT : |T| * u ≤ 1 / 10 ^ 7 := by nlinarith
  have q0 : (eS + Sm + 1 / 10 ^ 7) * (|T| * u) ≤ 1 * (|T| * u) := mul_le_mul_of_nonneg_right (by linarith) hTu
  have q2 : |m| ≤ Sm * |T| + 2 / 10 ^ 7 := by
    have := abs_add_le (m - T * Sr) (T * Sr); rw [sub_add_cancel] at this
    linarith
  have hSmT : Sm * |T| ≤ 1 / 10 * |T| := mul_le_mul_of_nonneg_right hSm hT0
  have q3 : |m - L| ≤ Sm * |T| + 2 / 10 ^ 6 := by
    have := abs_sub m L
    linarith
  obtain ⟨a, ha, ea⟩ := GFv.rnd hF (hm.subR N hlo) (by linarith)
  have ea1 : |a - (T * Sr - L)| ≤ (eS + 2 * Sm + 1 / 10 ^ 7) * (|T| * u) + 3 / 10000 * u := by
    have := abs_add_le (a - (m - L)) (m - T * Sr)
    rw [show a - (m - L) + (m - T * Sr) = a - (T * Sr - L) by ring] at this
    have : u * |m - L| ≤ u * (Sm * |T| + 2 / 10 ^ 6) := mul_le_mul_of_nonneg_left q3 hu0.le
    linarith
  have q00 : (eS + 2 * Sm + 1 / 10 ^ 7) * (|T| * u) ≤ 1 * (|T| * u) := mul_le_mul_of_nonneg_right (by linarith) hTu
  have hb0 : |T * Sr - L - T| ≤ |T| + 2 / 10 ^ 7 * |T| + 1 / 10 ^ 6 + Sm * |T| := by
    have e1 := abs_sub (T * Sr - L) T
    have e2 := abs_sub (T * Sr) L
    linarith
  -- a better bound of `T S - T` is `arctan T`
  have hb1 : |T * Sr - T| ≤ (1 + 1 / 10 ^ 7) * |T| := by
    have h1 := Poly.atan_lip T 0
    rw [Real.arctan_zero, sub_zero, sub_zero] at h1
    have h2 := abs_add_le (Real.arctan T - (T - T * Sr)) (-Real.arctan T)
    rw [abs_neg, show Real.arctan T - (T - T * Sr) + -Real.arctan T = T * Sr - T by ring] at h2
    have : B * u * |T| ≤ 1 / 10 ^ 7 * |T| := mul_le_mul_of_nonneg_right (by nlinarith) hT0
    linarith
  have hat : |a - T| ≤ (1 + 2 / 10 ^ 7) * |T| + 2 / 10 ^ 6 := by
    have e := abs_add_le (a - (T * Sr - L)) (T * Sr - T - L)
    rw [show a - (T * Sr - L) + (T * Sr - T - L) = a - T by ring] at e
    have e2 := abs_sub (T * Sr - T) L
    have : u * |T| ≤ 1 / 10 ^ 7 * |T| := mul_le_mul_of_nonneg_right hu5 hT0
    linarith
  obtain ⟨b, hb, eb⟩ := GFv.rnd hF (ha.subR N ht) (by linarith)
  have eb1 : |b - (T * Sr - L - T)| ≤ (1 + eS + 2 * Sm + 1 / 10 ^ 6) * (|T| * u) + 4 / 10000 * u := by
    have := abs_add_le (b - (a - T)) (a - (T * Sr - L))
    rw [show b - (a - T) + (a - (T * Sr - L)) = b - (T * Sr - L - T) by ring] at this
    have : u * |a - T| ≤ u * ((1 + 2 / 10 ^ 7) * |T| + 2 / 10 ^ 6) := mul_le_mul_of_nonneg_left hat hu0.le
    linarith
  -- the final difference
  have hv : |H - b - (A + Real.arctan T)| ≤ (1 + eS + 2 * Sm + 1 / 10 ^ 6 + B) * (|T| * u) + 2 / 1000 * u := by
    have e : H - b - (A + Real.arctan T) = (H + L - A) - (b - (T * Sr - L - T)) - (Real.arctan T - (T - T * Sr)) := by ring
    rw [e]
    have e1 := abs_sub ((H + L - A) - (b - (T * Sr - L - T))) (Real.arctan T - (T - T * Sr))
    have e2 := abs_sub (H + L - A) (b - (T * Sr - L - T))
    linarith
  have hv1 : (1 + eS + 2 * Sm + 1 / 10 ^ 6 + B) * (|T| * u) ≤ 3 * (|T| * u) := mul_le_mul_of_nonneg_right (by linarith) hTu
  have hvu : |H - b - (A + Real.arctan T)| ≤ 4 / 10 ^ 7 := by linarith
  have hvb : |H - b| ≤ |A + Real.arctan T| + 4 / 10 ^ 7 := by
    have := abs_add_le (H - b - (A + Real.arctan T)) (A + Real.arctan T); rw [sub_add_cancel] at this; linarith
  have hAT : |A + Real.arctan T| ≤ 3 := by
    have h1 := Poly.atan_lip T 0
    rw [Real.arctan_zero, sub_zero, sub_zero] at h1
    have := abs_add_le A (Real.arctan T)
    linarith
  obtain ⟨W, hW, eW⟩ := GFv.rnd hF (hhi.subR N hb) (by linarith)
  refine ⟨W, hW, ?_, fun hT9 => ⟨H - b, hhi.subR N hb, ?_⟩⟩
  rotate_left
  · exact below hu0 hu5 hT9 eb1 hSr hSm heS
  have := abs_add_le (W - (H - b)) (H - b - (A + Real.arctan T))
  rw [sub_add_sub_cancel] at this
  have h9 : u * |H - b| ≤ u * (|A + Real.arctan T| + 4 / 10 ^ 7) := mul_le_mul_of_nonneg_left hvb hu0.le
  linarith

/-- the error as a relative one -/
theorem combine {u T t θ W κ τ A : ℝ} (hu0 : 0 < u) (hu : u ≤ 1 / 2 ^ 24) (hu3 : 1 / 2 ^ 53 ≤ u) (hθ : θ = A + Real.arctan t) (h1 : |T - t| ≤ τ * u * |t| + 1 / 2 ^ 150) (hτ0 : 0 ≤ τ) (hτ : τ ≤ 5)
    (h2 : |W - (A + Real.arctan T)| ≤ u * |A + Real.arctan T| + κ * u * |T| + 3 / 1000 * u) (hκ0 : 0 ≤ κ) (hκ : κ ≤ 3) (ht : |t| ≤ 1)
    (h3 : (τ + κ) * |t| + 5 / 1000 ≤ |θ|) : |W - θ| ≤ 2 * u * |θ| := by
  have hT : (1 : ℝ) / 2 ^ 150 ≤ 1 / 1000 * (1 / 2 ^ 53) := by norm_num
  have hu5 : u ≤ 1 / 10 ^ 7 := hu.trans (by norm_num)
  have l := Poly.atan_lip T t
  have ht0 := abs_nonneg t
  have b1 : |T - t| ≤ 6 * u := by nlinarith [mul_nonneg hτ0 hu0.le]
  have b2 : |T| ≤ |t| + 6 * u := by
    have := abs_add_le (T - t) t; rw [sub_add_cancel] at this; linarith
  have b3 : |A + Real.arctan T| ≤ |θ| + 6 * u := by
    have := abs_add_le (A + Real.arctan T - θ) θ; rw [sub_add_cancel] at this
    rw [hθ] at this
    rw [show A + Real.arctan T - (A + Real.arctan t) = Real.arctan T - Real.arctan t by ring] at this
    rw [hθ]
    linarith
  have b4 := abs_add_le (W - (A + Real.arctan T)) (Real.arctan T - Real.arctan t)
  rw [show W - (A + Real.arctan T) + (Real.arctan T - Real.arctan t) = W - θ by rw [hθ]; ring] at b4
  have c1 : u * |A + Real.arctan T| ≤ u * (|θ| + 6 * u) := mul_le_mul_of_nonneg_left b3 hu0.le
  have c2 : κ * u * |T| ≤ κ * u * (|t| + 6 * u) := mul_le_mul_of_nonneg_left b2 (by positivity)
  have c3 : u * u ≤ 1 / 10 ^ 7 * u := mul_le_mul_of_nonneg_right hu5 hu0.le
  have c4 : κ * (u * u) ≤ 3 * (u * u) := mul_le_mul_of_nonneg_right hκ (by positivity)
  have c5 : u * ((τ + κ) * |t| + 5 / 1000) ≤ u * |θ| := mul_le_mul_of_nonneg_left h3 hu0.le
  linarith
end Atan
end Verif
