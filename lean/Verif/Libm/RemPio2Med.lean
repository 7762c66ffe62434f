import Verif.Libm.RemPio2Cw
/-! # Reduction of arguments of medium size: `medium` of rem_pio2.rs -/
namespace Verif
open Fmt

namespace Pio2
open Hypot

/-- `n`, `y0`, `y1` represent the remainder of `X` modulo `π/2` -/
def Red2 (X : ℝ) (r : Int × D × D) : Prop :=
  ∃ (k : ℤ) (r0 r1 : ℝ), r.1 % 8 = k % 8 ∧ Fv r.2.1 r0 ∧ Fv r.2.2 r1 ∧ |X - k * (Real.pi / 2) - (r0 + r1)| ≤ 1 / 2 ^ 64 * |r0| ∧
    |r1| ≤ 1.502 / 2 ^ 53 * |r0| ∧ |X - k * (Real.pi / 2)| ≤ Real.pi / 4 + 1 / 2 ^ 17

section
variable {N : FPU f64}

theorem U_val : U = 1 / 2 ^ 53 := rfl

/-- rounding to an integer by adding `1.5 · 2^52` -/
theorem fn_spec {x : D} {X : ℝ} (hx : Fv x X) (hX1 : 1 / 2 ≤ |X|) (hX2 : |X| ≤ 2 ^ 30) :
    ∃ K : ℤ, Fv (nearest N x) K ∧ |X * (2 / Real.pi) - K| ≤ 1 / 2 + 1 / 2 ^ 52 * |X| := by
  have gX : Mul2 (-53) X := by
    have := mul2_of_ge hx (k := -1) (by norm_num; linarith)
    norm_num at this; exact this
  have hIP : |IP| ≤ 1 := by unfold IP; norm_num [abs_le]
  have hIP0 : |IP| ≤ 0.64 := by unfold IP; norm_num [abs_le]
  have hXI : |X * IP| ≤ 0.64 * |X| := by rw [abs_mul]; nlinarith [abs_nonneg X]
  have g1 : Mul2 (-106) (X * IP) := by have := gX.mul g_IP; norm_num at this; exact this
  norm_num at hX2
  obtain ⟨a, fa, ea, ga⟩ := rnd (hx.mulR fv_IP (N := N)) g1 (by norm_num) (by norm_num at hXI ⊢; linarith)
  rw [U_val] at ea
  have ha : |a| ≤ 2 ^ 31 := by
    rw [show a = (a - X * IP) + X * IP by ring]
    refine (abs_add_le _ _).trans ?_
    norm_num at *
    linarith
  norm_num at ha ea
  have ha' := abs_le.mp ha
  have hs : f64.Rounds (a + 3 * 2 ^ 51) (N.add (N.mul x INV_PIO2) TO_INT) := fa.addR fv_TO
  obtain ⟨t, ft, _, _⟩ := rnd hs (j := -106) (ga.add ⟨3 * 2 ^ 157, by push_cast; norm_num⟩) (by norm_num) (by
    rw [abs_of_nonneg (by linarith)]; norm_num; linarith)
  have et := err64 hs (k := 53) (by rw [abs_of_nonneg (by linarith)]; norm_num; linarith) (by norm_num) (by norm_num)
  rw [ft.val] at et
  norm_num at et
  have et' := abs_le.mp et
  obtain ⟨T, hT⟩ : Mul2 0 t := by
    have := mul2_of_ge ft (k := 52) (by rw [abs_of_nonneg (by linarith)]; norm_num; linarith)
    norm_num at this; exact this
  have hT' : t = T := by rw [hT]; simp
  have e1 : t - 3 * 2 ^ 51 = ((T - 3 * 2 ^ 51 : ℤ) : ℝ) := by rw [hT']; norm_num
  refine ⟨T - 3 * 2 ^ 51, ?_, ?_⟩
  · rw [← e1]
    refine ft.sub N fv_TO (j := 0) ⟨T - 3 * 2 ^ 51, by rw [e1]; simp⟩ ?_ (by norm_num) (by norm_num)
    rw [abs_le]; norm_num
    constructor <;> linarith
  · rw [← e1]
    have hc := c_IP
    have : X * (2 / Real.pi) - (t - 3 * 2 ^ 51) = X * (2 / Real.pi - IP) - (a - X * IP) - (t - (a + 3 * 2 ^ 51)) := by ring
    rw [this]
    refine (abs_sub _ _).trans ?_
    have h1 := abs_sub (X * (2 / Real.pi - IP)) (a - X * IP)
    have h2 : |X * (2 / Real.pi - IP)| ≤ |X| * (1 / 2 ^ 54) := by rw [abs_mul]; exact mul_le_mul_of_nonneg_left hc (abs_nonneg _)
    norm_num at *
    linarith

/-- assembling the result -/
theorem red2_of {X R ρ ω : ℝ} {k n : ℤ} {y0 d y1 : D} {E W L : ℝ} (hn : n % 8 = k % 8) (hR : R = X - k * (Real.pi / 2))
    (hρ : Mul2 (-300) ρ) (hω : Mul2 (-300) ω) (bR : |R| ≤ Real.pi / 4 + 1 / 2 ^ 17) (bω : |ω| ≤ W) (_hW : W ≤ 1 / 4 * L)
    (h0 : f64.Rounds (ρ - ω) y0) (hd : ∀ v, Fv y0 v → f64.Rounds (ρ - v) d) (h1 : ∀ v, Fv d v → f64.Rounds (v - ω) y1)
    (hE : |R - (ρ - ω)| ≤ E) (hL : L ≤ |R|) (hEL : E + 1.01 * U * W + 1 / 2 ^ 100 * L ≤ 0.999 / 2 ^ 64 * L) (hL0 : 0 < L) : Red2 X (n, y0, y1) := by
  have hpi := pi_lt4
  have bR1 : |R| ≤ 1 := by norm_num at *; linarith
  have hU := U_val
  have hU0 := U_pos
  rw [hU] at hEL
  norm_num at hEL
  have hW0 : 0 ≤ W := (abs_nonneg ω).trans bω
  have hE0 : 0 ≤ E := (abs_nonneg _).trans hE
  have bρω : |ρ - ω| ≤ 1.001 * |R| := by
    rw [show ρ - ω = R - (R - (ρ - ω)) by ring]
    refine (abs_sub _ _).trans ?_
    norm_num; linarith
  have bρω2 : 0.999 * |R| ≤ |ρ - ω| := by
    have := abs_sub_abs_le_abs_sub R (ρ - ω)
    norm_num at *; linarith
  have bρ : |ρ| ≤ 8 := by
    rw [show ρ = (ρ - ω) + ω by ring]
    refine (abs_add_le _ _).trans ?_
    norm_num at *; linarith
  obtain ⟨υ, υ1, f0, f1, e1, e2, e3⟩ := cw_final hρ hω bρ (by norm_num at *; linarith) h0 hd h1
  have hUU : U ^ 2 = 1 / 2 ^ 106 := by rw [hU]; norm_num
  rw [hUU] at e1
  rw [hU] at e1 e2 e3
  have bυ : |ρ - ω| ≤ |υ| + 1 / 2 ^ 53 * |ρ - ω| := by
    have := abs_sub_abs_le_abs_sub (ρ - ω) υ
    rw [abs_sub_comm (ρ - ω) υ] at this
    linarith
  refine ⟨k, υ, υ1, hn, f0, f1, ?_, ?_, ?_⟩
  · rw [← hR, show R - (υ + υ1) = (R - (ρ - ω)) - (υ + υ1 - (ρ - ω)) by ring]
    refine (abs_sub _ _).trans ?_
    norm_num at *
    -- error proportional to `R` beyond `L` comes only from the last rounding
    linarith
  · norm_num at *
    linarith
  · rw [← hR]; exact bR

/-- facts about the quotient -/
theorem quot_facts {X : ℝ} {K e : ℤ} (he : 0 ≤ e) (he2 : e ≤ 20) (h2 : |X| < 2 ^ (e + 1)) (hX : |X| ≤ 1647100)
    (hK : |X * (2 / Real.pi) - K| ≤ 1 / 2 + 1 / 2 ^ 52 * |X|) :
    |X - K * (Real.pi / 2)| ≤ Real.pi / 4 + 1 / 2 ^ 30 ∧ |(K : ℝ)| ≤ 2 * 2 ^ e ∧ |(K : ℝ)| ≤ 1.05 * 2 ^ 20 := by
  have hpi := Real.pi_pos
  have hpi3 := pi_gt3
  have hpi4 := pi_lt4
  have e1 : X - K * (Real.pi / 2) = (X * (2 / Real.pi) - K) * (Real.pi / 2) := by field_simp
  have hG : (1 : ℝ) ≤ 2 ^ e := one_le_zpow₀ (by norm_num) he
  have hG2 : (2 : ℝ) ^ (e + 1) = 2 * 2 ^ e := by rw [zpow_add_one₀ (by norm_num)]; ring
  have hG3 : (2 : ℝ) ^ e ≤ 2 ^ (20 : ℤ) := zpow_le_zpow_right₀ (by norm_num) he2
  have h23 : 2 / Real.pi ≤ 0.667 := by rw [div_le_iff₀ hpi]; norm_num; linarith
  have h23' : 0 < 2 / Real.pi := by positivity
  have hXa := abs_nonneg X
  have hK1 : |(K : ℝ)| ≤ 0.667 * |X| + (1 / 2 + 1 / 2 ^ 52 * |X|) := by
    rw [show (K : ℝ) = X * (2 / Real.pi) - (X * (2 / Real.pi) - K) by ring]
    refine (abs_sub _ _).trans ?_
    rw [abs_mul, abs_of_pos h23']
    nlinarith
  norm_num at hK1 hG3 hX hK
  refine ⟨?_, by linarith, by norm_num; linarith⟩
  rw [e1, abs_mul, abs_of_pos (show 0 < Real.pi / 2 by positivity)]
  norm_num at hpi4 ⊢
  nlinarith

/-- what the rounds give: `R` is nearly `r - w`, and the error is small relative to `R` -/
def Rnds (R : ℝ) (s : D × D × D) : Prop :=
  ∃ ρ ω E W L : ℝ, Fv s.1 ρ ∧ Fv s.2.1 ω ∧ s.2.2 = N.sub s.1 s.2.1 ∧ Mul2 (-300) ρ ∧ Mul2 (-300) ω ∧ |ω| ≤ W ∧ W ≤ 1 / 4 * L ∧
    |R - (ρ - ω)| ≤ E ∧ L ≤ |R| ∧ E + 1.01 * U * W + 1 / 2 ^ 100 * L ≤ 0.999 / 2 ^ 64 * L ∧ 0 < L

set_option maxHeartbeats 1000000 in
theorem med_rounds {fn r : D} {K e : ℤ} {τ R : ℝ} (hfn : Fv fn K) (hr : Fv r τ) (gr : Mul2 (-52) τ) (he : 0 ≤ e) (he2 : e ≤ 20)
    (hK2 : |(K : ℝ)| ≤ 2 * 2 ^ e) (hK21 : |(K : ℝ)| ≤ 1.05 * 2 ^ 20) (hR : R = τ - K * (Real.pi / 2 - P1)) (bR : |R| ≤ 0.7855) (bR0 : 1 / 2 ^ 62 ≤ |R|) :
    Ok (medRounds N fn r (e + 1023)) (Rnds (N := N) R) := by
  obtain ⟨G, hG⟩ : ∃ G : ℝ, G = 2 ^ e := ⟨_, rfl⟩
  have hG1 : 1 ≤ G := by rw [hG]; exact one_le_zpow₀ (by norm_num) he
  have hG20 : G ≤ 2 ^ 20 := by
    rw [hG]
    calc (2 : ℝ) ^ e ≤ 2 ^ (20 : ℤ) := zpow_le_zpow_right₀ (by norm_num) he2
      _ = _ := by norm_num
  rw [← hG] at hK2
  have gK : Mul2 0 (K : ℝ) := ⟨K, by simp⟩
  have hKa := abs_nonneg (K : ℝ)
  have hU := U_val
  have hU2 : U ^ 2 = 1 / 2 ^ 106 := by rw [hU]; norm_num
  -- the first round
  have hP1T0 : 0 ≤ P1T := by unfold P1T; norm_num
  have bP1T : P1T ≤ 1.05 / 2 ^ 34 := by unfold P1T; norm_num
  have gT : Mul2 (-86) ((K : ℝ) * P1T) := by have := gK.mul g_P1T; norm_num at this; exact this
  have bKT : |(K : ℝ)| * P1T ≤ 2 * G * (1.05 / 2 ^ 34) := mul_le_mul hK2 bP1T hP1T0 (by positivity)
  have bc1 : |(K : ℝ)| * |Real.pi / 2 - P1 - P1T| ≤ 2 * G * (1 / 2 ^ 87) := mul_le_mul hK2 c_P1 (abs_nonneg _) (by positivity)
  have eKT : |(K : ℝ) * P1T| = |(K : ℝ)| * P1T := by rw [abs_mul, abs_of_nonneg hP1T0]
  obtain ⟨ω, fω, eω, gω⟩ := rnd (hfn.mulR fv_P1T (N := N)) gT (by norm_num) (by rw [eKT]; norm_num at *; linarith)
  rw [eKT, hU] at eω
  have bω : |ω| ≤ 2.2 * G / 2 ^ 34 := by
    rw [show ω = (ω - K * P1T) + K * P1T by ring]
    refine (abs_add_le _ _).trans ?_
    rw [eKT]
    norm_num at *
    linarith
  have e1 : |R - (τ - ω)| ≤ 2.1 * G / 2 ^ 86 := by
    rw [hR, show τ - K * (Real.pi / 2 - P1) - (τ - ω) = (ω - K * P1T) - K * (Real.pi / 2 - P1 - P1T) by ring]
    refine (abs_sub _ _).trans ?_
    rw [abs_mul]
    norm_num at *
    linarith
  have bτ : |τ| ≤ 1 := by
    rw [show τ = R + ω - (R - (τ - ω)) by ring]
    refine (abs_sub _ _).trans ?_
    have := abs_add_le R ω
    norm_num at *
    linarith
  have bτω : |τ - ω| ≤ |R| + 2.1 * G / 2 ^ 86 := by
    rw [show τ - ω = R - (R - (τ - ω)) by ring]
    exact (abs_sub _ _).trans (by linarith)
  have bτω' : |R| ≤ |τ - ω| + 2.1 * G / 2 ^ 86 := by
    rw [show R = (τ - ω) + (R - (τ - ω)) by ring, show (τ - ω) + (R - (τ - ω)) = R by ring]
    have := abs_sub_abs_le_abs_sub R (τ - ω)
    linarith
  obtain ⟨υ, fy, ey, _⟩ := rnd (hr.subR fω (N := N)) (j := -86) ((gr.mono (by norm_num)).sub gω) (by norm_num) (by norm_num at *; linarith)
  rw [hU] at ey
  have ey1 := abs_sub_abs_le_abs_sub (τ - ω) υ
  rw [abs_sub_comm (τ - ω)] at ey1
  have ey2 := abs_sub_abs_le_abs_sub υ (τ - ω)
  have hexp : ∀ (b : D) (v : ℝ) (c : ℤ), 0 ≤ c → c ≤ 100 → Fv b v → i32C (e + 1023 - expo b) = .ok (e + 1023 - expo b) ∧
      (e + 1023 - expo b > c ↔ |v| < G / 2 ^ c) := by
    intro b v c hc hc' h
    have h0 : 0 ≤ expo b ∧ expo b < 2 ^ 12 := by
      rw [expo_eq]
      have : f64.mag b < f64.infRep := h.fin
      have e1 : f64.infRep = 2047 * 2 ^ 52 := by decide +kernel
      rw [e1] at this
      omega
    refine ⟨i32_ok (by omega) (by omega), ?_⟩
    have := expo_lt h (k := e - c) (by omega)
    rw [zpow_sub₀ (by norm_num), ← hG] at this
    rw [← this]
    omega
  obtain ⟨i1, t1⟩ := hexp _ _ 16 (by norm_num) (by norm_num) fy
  unfold medRounds
  simp only
  rw [i1, ok_bind]
  norm_num at t1
  by_cases c1 : |υ| < G / 65536
  case neg =>
    rw [if_neg (by rw [gt_iff_lt, t1]; exact c1)]
    rw [not_lt] at c1
    refine ⟨_, rfl, τ, ω, 2.1 * G / 2 ^ 86, 2.2 * G / 2 ^ 34, 0.99 * G / 65536, hr, fω, rfl, gr.mono (by norm_num), gω.mono (by norm_num), bω, ?_, e1, ?_, ?_, ?_⟩
    · norm_num; linarith
    · norm_num at *; linarith
    · rw [hU]; norm_num; linarith
    · positivity
  rw [if_pos (by rw [gt_iff_lt, t1]; exact c1)]
  -- the second round
  have bP2 : |P2| ≤ 1.05 / 2 ^ 34 := by unfold P2; norm_num [abs_of_pos]
  have bP2T : P2T ≤ 1.3 / 2 ^ 69 := by unfold P2T; norm_num
  have hP2T0 : 0 ≤ P2T := by unfold P2T; norm_num
  have bK2 : |(K : ℝ)| * |P2| ≤ 2 * G * (1.05 / 2 ^ 34) := mul_le_mul hK2 bP2 (abs_nonneg _) (by positivity)
  have bK2T : |(K : ℝ)| * P2T ≤ 2 * G * (1.3 / 2 ^ 69) := mul_le_mul hK2 bP2T hP2T0 (by positivity)
  have bc2 : |(K : ℝ)| * |Real.pi / 2 - P1 - P2 - P2T| ≤ 2 * G * (1 / 2 ^ 122) := mul_le_mul hK2 c_P2 (abs_nonneg _) (by positivity)
  have hr2 : τ - K * P2 = R + K * P2T + K * (Real.pi / 2 - P1 - P2 - P2T) := by rw [hR]; ring
  have bt2 : |τ - K * P2| ≤ 1.01 * G / 65536 := by
    rw [hr2]
    refine (abs_add_three _ _ _).trans ?_
    rw [abs_mul, abs_mul, abs_of_nonneg hP2T0]
    norm_num at *
    linarith
  have bK2' : |(K : ℝ)| * |P2| ≤ 1.05 * 2 ^ 20 * (1.05 / 2 ^ 34) := mul_le_mul hK21 bP2 (abs_nonneg _) (by positivity)
  have bt2a : |τ - K * P2| ≤ 1 := by
    rw [hr2]
    refine (abs_add_three _ _ _).trans ?_
    rw [abs_mul, abs_mul, abs_of_nonneg hP2T0]
    norm_num at *
    linarith
  obtain ⟨ρ2, ω2, f2, fw2, g2, gw2, er2, ex2, es2, bw2⟩ := cwRound_spec (N := N) (j := -65) hfn hr fv_P2 fv_P2T (gr.mono (by norm_num)) g_P2
    (g_P2T.mono (by norm_num)) (by norm_num) (by norm_num) hP2T0 (by norm_num at *; linarith) bt2a (by rw [hU]; norm_num) (by norm_num at *; linarith)
  rw [hU2, hU] at es2
  rw [hU] at er2 bw2
  have bω2 : |ω2| ≤ 4 * G / 2 ^ 69 := by
    norm_num at *
    linarith
  have e2 : |R - (ρ2 - ω2)| ≤ G / 2 ^ 118 := by
    rw [show R - (ρ2 - ω2) = -((ρ2 - ω2) - (τ - K * P2 - K * P2T)) - K * (Real.pi / 2 - P1 - P2 - P2T) by rw [hR]; ring]
    refine (abs_sub _ _).trans ?_
    rw [abs_neg, abs_mul]
    norm_num at *
    linarith
  have b2' : |R| ≤ |ρ2 - ω2| + G / 2 ^ 118 := by
    have := abs_sub_abs_le_abs_sub R (ρ2 - ω2)
    linarith
  have b2 : |ρ2 - ω2| ≤ |R| + G / 2 ^ 118 := by
    rw [show ρ2 - ω2 = R - (R - (ρ2 - ω2)) by ring]
    exact (abs_sub _ _).trans (by linarith)
  obtain ⟨υ2, fy2, ey2', _⟩ := rnd (f2.subR fw2 (N := N)) (j := -300) ((g2.mono (by norm_num)).sub gw2) (by norm_num) (by norm_num at *; linarith)
  rw [hU] at ey2'
  have ey3 := abs_sub_abs_le_abs_sub (ρ2 - ω2) υ2
  rw [abs_sub_comm (ρ2 - ω2)] at ey3
  have ey4 := abs_sub_abs_le_abs_sub υ2 (ρ2 - ω2)
  obtain ⟨i2, t2⟩ := hexp _ _ 49 (by norm_num) (by norm_num) fy2
  rw [i2, ok_bind]
  norm_num at t2
  by_cases c2 : |υ2| < G / 562949953421312
  case neg =>
    rw [if_neg (by rw [gt_iff_lt, t2]; exact c2)]
    rw [not_lt] at c2
    refine ⟨_, rfl, ρ2, ω2, G / 2 ^ 118, 4 * G / 2 ^ 69, 0.99 * G / 562949953421312, f2, fw2, rfl, g2.mono (by norm_num), gw2, bω2, ?_, e2, ?_, ?_, ?_⟩
    · norm_num; linarith
    · norm_num at *; linarith
    · rw [hU]; norm_num; linarith
    · positivity
  rw [if_pos (by rw [gt_iff_lt, t2]; exact c2)]
  -- the third round
  have bR2 : |R| ≤ 1.01 * G / 562949953421312 := by norm_num at *; linarith
  have bt2' : |τ - K * P2| ≤ 1.02 * G / 562949953421312 := by
    rw [hr2]
    refine (abs_add_three _ _ _).trans ?_
    rw [abs_mul, abs_mul, abs_of_nonneg hP2T0]
    norm_num at *
    linarith
  have hρ2 := ex2 (by norm_num at *; linarith)
  have bP3 : |P3| ≤ 1.3 / 2 ^ 69 := by unfold P3; norm_num [abs_of_pos]
  have bP3T : P3T ≤ 1.8 / 2 ^ 104 := by unfold P3T; norm_num
  have hP3T0 : 0 ≤ P3T := by unfold P3T; norm_num
  have bK3 : |(K : ℝ)| * |P3| ≤ 2 * G * (1.3 / 2 ^ 69) := mul_le_mul hK2 bP3 (abs_nonneg _) (by positivity)
  have bK3T : |(K : ℝ)| * P3T ≤ 2 * G * (1.8 / 2 ^ 104) := mul_le_mul hK2 bP3T hP3T0 (by positivity)
  have bc3 : |(K : ℝ)| * |Real.pi / 2 - P1 - P2 - P3 - P3T| ≤ 2 * G * (1 / 2 ^ 157) := mul_le_mul hK2 c_P3 (abs_nonneg _) (by positivity)
  have hr3 : ρ2 - K * P3 = R + K * P3T + K * (Real.pi / 2 - P1 - P2 - P3 - P3T) := by rw [hρ2, hR]; ring
  have bt3 : |ρ2 - K * P3| ≤ 1.02 * G / 562949953421312 := by
    rw [hr3]
    refine (abs_add_three _ _ _).trans ?_
    rw [abs_mul, abs_mul, abs_of_nonneg hP3T0]
    norm_num at *
    linarith
  obtain ⟨ρ3, ω3, f3, fw3, g3, gw3, er3, _, es3, bw3⟩ := cwRound_spec (N := N) (j := -96) hfn f2 fv_P3 fv_P3T (g2.mono (by norm_num)) g_P3
    (g_P3T.mono (by norm_num)) (by norm_num) (by norm_num) hP3T0 (by norm_num at *; linarith) (by norm_num at *; linarith) (by rw [hU]; norm_num) (by norm_num at *; linarith)
  rw [hU2, hU] at es3
  rw [hU] at er3 bw3
  have bω3 : |ω3| ≤ 9 * G / 2 ^ 104 := by
    norm_num at *
    linarith
  have e3 : |R - (ρ3 - ω3)| ≤ G / 2 ^ 152 := by
    rw [show R - (ρ3 - ω3) = -((ρ3 - ω3) - (ρ2 - K * P3 - K * P3T)) - K * (Real.pi / 2 - P1 - P2 - P3 - P3T) by rw [hρ2, hR]; ring]
    refine (abs_sub _ _).trans ?_
    rw [abs_neg, abs_mul]
    norm_num at *
    linarith
  refine ⟨_, rfl, ρ3, ω3, G / 2 ^ 152, 9 * G / 2 ^ 104, 1 / 2 ^ 62, f3, fw3, rfl, g3.mono (by norm_num), gw3, bω3, ?_, e3, bR0, ?_, ?_⟩
  · norm_num at *; linarith
  · rw [hU]; norm_num at *; linarith
  · positivity

theorem medium_spec {x : D} {X : ℝ} {ix : ℕ} (hx : Fv x X) (hX1 : 1 ≤ |X|) (hX2 : |X| ≤ 1647100) (hix : ((ix >>> 20 : ℕ) : ℤ) = expo x) :
    Ok (medium N x ix) (Red2 X) := by
  obtain ⟨e, he, e1, e2, e3, e4, gX⟩ := norm_fv hx (le_trans (by
    calc (2 : ℝ) ^ (-1022 : ℤ) ≤ 2 ^ (0 : ℤ) := zpow_le_zpow_right₀ (by norm_num) (by norm_num)
      _ = 1 := by norm_num) hX1)
  have he0 : 0 ≤ e := by
    by_contra hc
    have : (2 : ℝ) ^ (e + 1) ≤ 2 ^ (0 : ℤ) := zpow_le_zpow_right₀ (by norm_num) (by omega)
    rw [zpow_zero] at this; linarith
  have he20 : e ≤ 20 := by
    by_contra hc
    have : (2 : ℝ) ^ (21 : ℤ) ≤ 2 ^ e := zpow_le_zpow_right₀ (by norm_num) (by omega)
    have h21 : (2 : ℝ) ^ (21 : ℤ) = 2097152 := by norm_num
    rw [h21] at this; linarith
  obtain ⟨K, fK, hK⟩ := fn_spec (N := N) hx (by linarith) (by norm_num; linarith)
  obtain ⟨hR, hK2, hK21⟩ := quot_facts he0 he20 e4 hX2 hK
  obtain ⟨R, hRd⟩ : ∃ R, R = X - K * (Real.pi / 2) := ⟨_, rfl⟩
  rw [← hRd] at hR
  have hpi4 := pi_lt4
  have hpi := Real.pi_pos
  have hRlow : 1 / 2 ^ 62 ≤ |R| := by
    have h1 := dist_fv hx (by linarith) K
    have : R = (X * (2 / Real.pi) - K) * (Real.pi / 2) := by rw [hRd]; field_simp
    rw [this, abs_mul, abs_of_pos (show 0 < Real.pi / 2 by positivity)]
    have h3 := pi_gt3
    rw [zpow_neg] at h1
    norm_num at h1 ⊢
    nlinarith
  have bR18 : |R| ≤ Real.pi / 4 + 1 / 2 ^ 17 := by norm_num at *; linarith
  have bR1 : |R| ≤ 0.7855 := by norm_num at *; linarith
  have gK : Mul2 0 (K : ℝ) := ⟨K, by simp⟩
  have hKa := abs_nonneg (K : ℝ)
  have f1 : Fv (N.mul (nearest N x) PIO2_1) (K * P1) := by
    have g : Mul2 (-30) ((K : ℝ) * P1) := by have := gK.mul g_P1; norm_num at this; exact this
    refine fK.mul N fv_P1 g ?_ (by norm_num) (by norm_num)
    rw [abs_mul]
    unfold P1
    norm_num [abs_of_pos] at *
    linarith
  have hP1T0 : 0 ≤ P1T := by unfold P1T; norm_num
  have bP1T : P1T ≤ 1 / 2 ^ 33 := by unfold P1T; norm_num
  have bρ : |X - K * P1| ≤ 0.786 := by
    have : X - K * P1 = R + K * P1T + K * (Real.pi / 2 - P1 - P1T) := by rw [hRd]; ring
    rw [this]
    refine (abs_add_three _ _ _).trans ?_
    rw [abs_mul, abs_mul, abs_of_nonneg hP1T0]
    have m1 := mul_le_mul hK21 bP1T hP1T0 (by positivity)
    have m2 := mul_le_mul hK21 c_P1 (abs_nonneg _) (by positivity)
    norm_num at *
    linarith
  have hG : (1 : ℝ) ≤ 2 ^ e := one_le_zpow₀ (by norm_num) he0
  have f2 : Fv (N.sub x (N.mul (nearest N x) PIO2_1)) (X - K * P1) := by
    have g : Mul2 (e - 52) (X - K * P1) := by
      have := gK.mul g_P1
      exact gX.sub (this.mono (by omega))
    refine hx.sub N f1 g ?_ (by omega) (by omega)
    rw [show e - 52 + 53 = e + 1 by ring, zpow_add_one₀ (by norm_num)]
    refine bρ.trans ?_
    generalize (2 : ℝ) ^ e = G at hG
    norm_num
    linarith
  have g2 : Mul2 (-52) (X - K * P1) := by
    have := gK.mul g_P1
    exact (gX.mono (by omega)).sub (this.mono (by norm_num))
  obtain ⟨⟨r, w, y0⟩, es, ρ, ω, E, W, L, h1, h2, h3, h4, h5, h6, h7, h8, h9, h10, h11⟩ :=
    med_rounds (N := N) fK f2 g2 he0 he20 hK2 hK21 (R := R) (by rw [hRd]; ring) bR1 hRlow
  unfold medium
  simp only at h1 h2 h3 ⊢
  rw [toI32_int fK (by
    have := abs_le.mp hK21
    have h1 : ((-2 ^ 31 : ℤ) : ℝ) ≤ K := by push_cast; norm_num at *; linarith [this.1]
    exact_mod_cast h1) (by
    have := abs_le.mp hK21
    have h1 : (K : ℝ) < ((2 ^ 31 : ℤ) : ℝ) := by push_cast; norm_num at *; linarith [this.2]
    exact_mod_cast h1), ok_bind, hix, he, es, ok_bind]
  refine ⟨_, rfl, ?_⟩
  exact red2_of rfl hRd h4 h5 bR18 h6 h7 (by rw [h3]; exact h1.subR h2) (fun v hv => h1.subR hv) (fun v hv => hv.subR h2) h8 h9 h10 h11

end
end Pio2
end Verif
