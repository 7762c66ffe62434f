import Mathlib.Analysis.Real.Sqrt
import Mathlib.Tactic.Ring
import Mathlib.Tactic.Linarith
import Mathlib.Tactic.NormNum
import Mathlib.Tactic.Positivity
import Mathlib.Tactic.LinearCombination
import Mathlib.Tactic.FieldSimp
/-! # Error analysis of the Goldschmidt iteration of `sqrt` -/
namespace Verif.SqrtReal

theorem newton_id {σ r η δ2 δ3 ε s u r' : ℝ} (h1 : r * σ = 1 - ε) (hs : s = σ ^ 2 * r - η) (hu : u = 3 - s * r + δ2)
    (hr' : r' = r * u / 2 - δ3) :
    1 - r' * σ = (3 / 2 * ε ^ 2 - ε ^ 3 / 2) - (1 - ε) * (η * r + δ2) / 2 + δ3 * σ := by
  have e : ε = 1 - r * σ := by linarith
  subst hr' hu hs e
  ring

/-- the quadratic term -/
theorem quad_bounds {ε E : ℝ} (hE : |ε| ≤ E) (hE' : E ≤ 1 / 128) :
    0 ≤ 3 / 2 * ε ^ 2 - ε ^ 3 / 2 ∧ 3 / 2 * ε ^ 2 - ε ^ 3 / 2 ≤ (151 / 100) * E ^ 2 := by
  have h1 := abs_le.mp hE
  have h0 : 0 ≤ E := le_trans (abs_nonneg _) hE
  have h2 : ε ^ 2 ≤ E ^ 2 := by rw [← sq_abs ε]; exact pow_le_pow_left₀ (abs_nonneg _) hE 2
  have e : 3 / 2 * ε ^ 2 - ε ^ 3 / 2 = ε ^ 2 * (3 / 2 - ε / 2) := by ring
  rw [e]
  constructor
  · apply mul_nonneg (sq_nonneg _); linarith
  · calc ε ^ 2 * (3 / 2 - ε / 2) ≤ E ^ 2 * (3 / 2 - ε / 2) := mul_le_mul_of_nonneg_right h2 (by linarith)
      _ ≤ E ^ 2 * (151 / 100) := mul_le_mul_of_nonneg_left (by linarith) (sq_nonneg _)
      _ = _ := by ring

/-- the perturbation term -/
theorem pert_bounds {ε E η r δ2 h : ℝ} (hE : |ε| ≤ E) (hE' : E ≤ 1 / 128) (hr0 : 0 ≤ r) (hr1 : r ≤ 1) (hh : 0 ≤ h)
    (hη1 : -(2 * h) ≤ η) (hη2 : η ≤ (41 / 10) * h) (hδ0 : 0 ≤ δ2) (hδ1 : δ2 ≤ h) :
    -((101 / 100) * h) ≤ (1 - ε) * (η * r + δ2) / 2 ∧ (1 - ε) * (η * r + δ2) / 2 ≤ (129 / 50) * h := by
  have h1 := abs_le.mp hE
  have a1 : -(2 * h) ≤ η * r := by
    calc -(2 * h) ≤ -(2 * h) * r := by nlinarith
      _ ≤ η * r := mul_le_mul_of_nonneg_right hη1 hr0
  have a2 : η * r ≤ (41 / 10) * h := by
    calc η * r ≤ (41 / 10) * h * r := mul_le_mul_of_nonneg_right hη2 hr0
      _ ≤ (41 / 10) * h := by nlinarith
  have b1 : 0 ≤ 1 - ε := by linarith
  constructor
  · have : (1 - ε) * -(2 * h) ≤ (1 - ε) * (η * r + δ2) := mul_le_mul_of_nonneg_left (by linarith) b1
    nlinarith
  · have : (1 - ε) * (η * r + δ2) ≤ (1 - ε) * ((51 / 10) * h) := mul_le_mul_of_nonneg_left (by linarith) b1
    nlinarith

theorem floor_bounds (a b : Nat) (hb : 0 < b) : ((a / b : Nat) : ℝ) ≤ (a : ℝ) / b ∧ (a : ℝ) / b < ((a / b : Nat) : ℝ) + 1 := by
  have hb' : (0 : ℝ) < b := by exact_mod_cast hb
  rw [le_div_iff₀ hb', div_lt_iff₀ hb']
  have h := Nat.div_add_mod a b
  have h2 := Nat.mod_lt a hb
  constructor
  · have : a / b * b ≤ a := Nat.div_mul_le_self a b
    exact_mod_cast this
  · have : a < (a / b + 1) * b := by rw [Nat.add_mul, Nat.one_mul, Nat.mul_comm]; omega
    exact_mod_cast this

/-- what is known of the pair `(r, s)`: `r` approximates `1/σ` with relative error `ε`, `s` approximates `σ² r` -/
structure Approx (W : Nat) (σ : ℝ) (R S : Nat) (ε η : ℝ) : Prop where
  R_lt : R < 2 ^ W
  σ1 : 1 ≤ σ
  σ2 : σ ≤ 2
  eps : (R : ℝ) / 2 ^ W * σ = 1 - ε
  eta : 4 * (S : ℝ) / 2 ^ W = σ ^ 2 * ((R : ℝ) / 2 ^ W) - η

/-- `3 - s r` -/
def stepU (W R S : Nat) : Nat := (2 ^ W - S * R / 2 ^ W + 3 * 2 ^ (W - 2)) % 2 ^ W
/-- `2 * mulh r u` -/
def stepR (W R U : Nat) : Nat := R * U / 2 ^ W * 2 % 2 ^ W

theorem pw4 {W : Nat} (hW : 16 ≤ W) : (2 : ℝ) ^ W = 4 * 2 ^ (W - 2) := by
  obtain ⟨k, rfl⟩ : ∃ k, W = k + 2 := ⟨W - 2, by omega⟩
  rw [Nat.add_sub_cancel, pow_add]; ring

theorem h_le {W : Nat} (hW : 16 ≤ W) : (4 : ℝ) / 2 ^ W ≤ 1 / 16384 := by
  have : (2 : ℝ) ^ 16 ≤ 2 ^ W := pow_le_pow_right₀ (by norm_num) hW
  rw [div_le_div_iff₀ (by positivity) (by norm_num)]
  norm_num at this ⊢; linarith

variable {W : Nat} {σ ε η E : ℝ} {R S : Nat}

theorem Approx.r_bounds (A : Approx W σ R S ε η) : 0 ≤ (R : ℝ) / 2 ^ W ∧ (R : ℝ) / 2 ^ W ≤ 1 := by
  refine ⟨by positivity, ?_⟩
  rw [div_le_one (by positivity)]
  exact_mod_cast A.R_lt.le

theorem Approx.u (A : Approx W σ R S ε η) (hW : 16 ≤ W) (hE : |ε| ≤ E) (hE' : E ≤ 1 / 128)
    (hη1 : -(2 * (4 / 2 ^ W)) ≤ η) (hη2 : η ≤ (41 / 10) * (4 / 2 ^ W)) :
    ∃ δ2 : ℝ, 0 ≤ δ2 ∧ δ2 ≤ 4 / 2 ^ W ∧
      4 * (stepU W R S : ℝ) / 2 ^ W = 3 - 4 * (S : ℝ) / 2 ^ W * ((R : ℝ) / 2 ^ W) + δ2 := by
  obtain ⟨r0, r1⟩ := A.r_bounds
  have hh := h_le hW
  have hB : (0 : ℝ) < 2 ^ W := by positivity
  have hε := abs_le.mp hE
  have hp := Nat.two_pow_pos W
  obtain ⟨f1, f2⟩ := floor_bounds (S * R) (2 ^ W) hp
  have hsr : 4 * (S : ℝ) / 2 ^ W * ((R : ℝ) / 2 ^ W) ≤ 2 := by
    rw [A.eta]
    have e : (σ ^ 2 * ((R : ℝ) / 2 ^ W) - η) * ((R : ℝ) / 2 ^ W) = (1 - ε) ^ 2 - η * ((R : ℝ) / 2 ^ W) := by
      rw [← A.eps]; ring
    rw [e]
    have : -(η * ((R : ℝ) / 2 ^ W)) ≤ 2 * (4 / 2 ^ W) := by
      calc -(η * ((R : ℝ) / 2 ^ W)) = (-η) * ((R : ℝ) / 2 ^ W) := by ring
        _ ≤ (2 * (4 / 2 ^ W)) * ((R : ℝ) / 2 ^ W) := mul_le_mul_of_nonneg_right (by linarith) r0
        _ ≤ (2 * (4 / 2 ^ W)) * 1 := mul_le_mul_of_nonneg_left r1 (by positivity)
        _ = _ := by ring
    nlinarith
  have ed : ((S * R : Nat) : ℝ) / ((2 ^ W : Nat) : ℝ) = 2 ^ W / 4 * (4 * (S : ℝ) / 2 ^ W * ((R : ℝ) / 2 ^ W)) := by
    push_cast; field_simp
  rw [ed] at f1 f2
  have h4 := pw4 hW
  have hD : S * R / 2 ^ W ≤ 2 * 2 ^ (W - 2) := by
    have : ((S * R / 2 ^ W : Nat) : ℝ) ≤ 2 * 2 ^ (W - 2) := by
      refine le_trans f1 ?_
      calc 2 ^ W / 4 * (4 * (S : ℝ) / 2 ^ W * ((R : ℝ) / 2 ^ W)) ≤ 2 ^ W / 4 * 2 :=
            mul_le_mul_of_nonneg_left hsr (by positivity)
        _ = _ := by rw [h4]; ring
    exact_mod_cast this
  have h4n : 2 ^ W = 4 * 2 ^ (W - 2) := by exact_mod_cast h4
  have hU : stepU W R S = 3 * 2 ^ (W - 2) - S * R / 2 ^ W := by
    unfold stepU
    have hq := Nat.two_pow_pos (W - 2)
    clear f1 f2 ed
    generalize S * R / 2 ^ W = D at *
    rw [show 2 ^ W - D + 3 * 2 ^ (W - 2) = 3 * 2 ^ (W - 2) - D + 2 ^ W by omega,
      Nat.add_mod_right, Nat.mod_eq_of_lt (by omega)]
  refine ⟨4 / 2 ^ W * (2 ^ W / 4 * (4 * (S : ℝ) / 2 ^ W * ((R : ℝ) / 2 ^ W)) - ((S * R / 2 ^ W : Nat) : ℝ)), ?_, ?_, ?_⟩
  · apply mul_nonneg (by positivity); linarith
  · calc _ ≤ 4 / 2 ^ W * (1 : ℝ) := mul_le_mul_of_nonneg_left (by linarith) (by positivity)
      _ = _ := by ring
  · rw [hU, Nat.cast_sub (by omega)]
    generalize ((S * R / 2 ^ W : Nat) : ℝ) = D
    have : (3 * 2 ^ (W - 2) : ℝ) = 3 * (2 ^ W / 4) := by rw [h4]; ring
    push_cast
    rw [this]
    field_simp
    ring

theorem dmod {W a : Nat} (h : a < 2 ^ (W - 1)) (hW : 16 ≤ W) : a * 2 % 2 ^ W = a * 2 := by
  apply Nat.mod_eq_of_lt
  have : 2 ^ W = 2 * 2 ^ (W - 1) := by rw [← Nat.pow_succ']; congr 1; omega
  omega

/-- one step for `r` -/
theorem Approx.step_r (A : Approx W σ R S ε η) (hW : 16 ≤ W) (hE : |ε| ≤ E) (hE' : E ≤ 1 / 128)
    (hη1 : -(2 * (4 / 2 ^ W)) ≤ η) (hη2 : η ≤ (41 / 10) * (4 / 2 ^ W))
    (hov : 1 + (13 / 5) * (4 / 2 ^ W) < σ + (3 / 2 * ε ^ 2 - ε ^ 3 / 2)) :
    ∃ δ3 : ℝ, 0 ≤ δ3 ∧ δ3 ≤ 4 / 2 ^ W / 2 ∧
      (stepR W R (stepU W R S) : ℝ) / 2 ^ W = (R : ℝ) / 2 ^ W * (4 * (stepU W R S : ℝ) / 2 ^ W) / 2 - δ3 ∧
      (stepR W R (stepU W R S)) < 2 ^ W ∧
      -((13 / 5) * (4 / 2 ^ W)) ≤ 1 - (stepR W R (stepU W R S) : ℝ) / 2 ^ W * σ ∧
      1 - (stepR W R (stepU W R S) : ℝ) / 2 ^ W * σ ≤ (151 / 100) * E ^ 2 + (21 / 10) * (4 / 2 ^ W) ∧
      (3 / 2 * ε ^ 2 - ε ^ 3 / 2) - (13 / 5) * (4 / 2 ^ W) ≤ 1 - (stepR W R (stepU W R S) : ℝ) / 2 ^ W * σ := by
  obtain ⟨r0, r1⟩ := A.r_bounds
  obtain ⟨δ2, d0, d1, hu⟩ := A.u hW hE hE' hη1 hη2
  have hB : (0 : ℝ) < 2 ^ W := by positivity
  have hh0 : (0 : ℝ) < 4 / 2 ^ W := by positivity
  have hp := Nat.two_pow_pos W
  obtain ⟨q1, q2⟩ := quad_bounds hE hE'
  obtain ⟨p1, p2⟩ := pert_bounds hE hE' r0 r1 hh0.le hη1 hη2 d0 d1
  have hσ1 := A.σ1
  have hσ2 := A.σ2
  obtain ⟨f1, f2⟩ := floor_bounds (R * stepU W R S) (2 ^ W) hp
  have ed : ((R * stepU W R S : Nat) : ℝ) / ((2 ^ W : Nat) : ℝ) =
      2 ^ W / 2 * ((R : ℝ) / 2 ^ W * (4 * (stepU W R S : ℝ) / 2 ^ W) / 2) := by
    push_cast; field_simp; ring
  rw [ed] at f1 f2
  have n0 := newton_id (δ3 := 0) A.eps A.eta hu rfl
  set T : ℝ := (R : ℝ) / 2 ^ W * (4 * (stepU W R S : ℝ) / 2 ^ W) / 2 with hT
  have hT0 : 0 ≤ T := by positivity
  have hT1 : T < 1 := by
    rw [sub_zero, zero_mul, add_zero] at n0
    have : T * σ < 1 * σ := by linarith
    exact lt_of_mul_lt_mul_right this (by linarith)
  have hlt : R * stepU W R S / 2 ^ W < 2 ^ (W - 1) := by
    have e : (2 : ℝ) ^ W = 2 * 2 ^ (W - 1) := by rw [← pow_succ']; congr 1; omega
    have : ((R * stepU W R S / 2 ^ W : Nat) : ℝ) < 2 ^ (W - 1) := by
      refine lt_of_le_of_lt f1 ?_
      calc 2 ^ W / 2 * T < 2 ^ W / 2 * 1 := mul_lt_mul_of_pos_left hT1 (by positivity)
        _ = _ := by rw [e]; ring
    exact_mod_cast this
  have hR' : stepR W R (stepU W R S) = R * stepU W R S / 2 ^ W * 2 := dmod hlt hW
  generalize hX : ((R * stepU W R S / 2 ^ W : Nat) : ℝ) = X at *
  have hRX : (stepR W R (stepU W R S) : ℝ) = X * 2 := by rw [hR', ← hX]; push_cast; ring
  have hd : (stepR W R (stepU W R S) : ℝ) / 2 ^ W = T - 2 / 2 ^ W * (2 ^ W / 2 * T - X) := by
    rw [hRX]; field_simp; ring
  have e0 : 0 ≤ 2 / 2 ^ W * (2 ^ W / 2 * T - X) := mul_nonneg (by positivity) (by linarith)
  have e1 : 2 / 2 ^ W * (2 ^ W / 2 * T - X) ≤ 4 / 2 ^ W / 2 := by
    calc 2 / 2 ^ W * (2 ^ W / 2 * T - X) ≤ 2 / 2 ^ W * 1 := mul_le_mul_of_nonneg_left (by linarith) (by positivity)
      _ = _ := by ring
  have n1 := newton_id A.eps A.eta hu hd
  generalize 2 / 2 ^ W * (2 ^ W / 2 * T - X) = δ3 at *
  have g1 : δ3 * σ ≤ 4 / 2 ^ W := by nlinarith
  have g0 : 0 ≤ δ3 * σ := mul_nonneg e0 (by linarith)
  refine ⟨δ3, e0, e1, hd, Nat.mod_lt _ hp, ?_, ?_, ?_⟩
  · rw [n1]; linarith
  · rw [n1]; linarith
  · rw [n1]; linarith

set_option maxHeartbeats 1000000 in
/-- one step for `s`, with the doubling -/
theorem Approx.step_s (A : Approx W σ R S ε η) (hW : 16 ≤ W) (hE : |ε| ≤ E) (hE' : E ≤ 1 / 128)
    (hη1 : 0 ≤ η) (hη2 : η ≤ 2 * (4 / 2 ^ W))
    (hov : 1 + (13 / 5) * (4 / 2 ^ W) < σ + (3 / 2 * ε ^ 2 - ε ^ 3 / 2)) :
    ∃ ε' η' : ℝ, Approx W σ (stepR W R (stepU W R S)) (stepR W S (stepU W R S)) ε' η' ∧
      -((13 / 5) * (4 / 2 ^ W)) ≤ ε' ∧ ε' ≤ (151 / 100) * E ^ 2 + (21 / 10) * (4 / 2 ^ W) ∧
      (3 / 2 * ε ^ 2 - ε ^ 3 / 2) - (13 / 5) * (4 / 2 ^ W) ≤ ε' ∧
      -(2 * (4 / 2 ^ W)) ≤ η' ∧ η' ≤ (41 / 10) * (4 / 2 ^ W) := by
  obtain ⟨r0, r1⟩ := A.r_bounds
  have hB : (0 : ℝ) < 2 ^ W := by positivity
  have hh0 : (0 : ℝ) < 4 / 2 ^ W := by positivity
  have hη1' : -(2 * (4 / 2 ^ W)) ≤ η := by linarith
  have hη2' : η ≤ (41 / 10) * (4 / 2 ^ W) := by linarith
  obtain ⟨δ2, d0, d1, hu⟩ := A.u hW hE hE' hη1' hη2'
  obtain ⟨δ3, e0, e1, hr, hrl, b1, b2, b3⟩ := A.step_r hW hE hE' hη1' hη2' hov
  have hp := Nat.two_pow_pos W
  have hσ1 := A.σ1
  have hσ2 := A.σ2
  have hε := abs_le.mp hE
  have hh := h_le hW
  -- bounds for u and s
  have hu1 : |4 * (stepU W R S : ℝ) / 2 ^ W - 2| ≤ (1 / 50) := by
    have e : 4 * (S : ℝ) / 2 ^ W * ((R : ℝ) / 2 ^ W) = (1 - ε) ^ 2 - η * ((R : ℝ) / 2 ^ W) := by
      rw [A.eta, ← A.eps]; ring
    have g1 : 0 ≤ η * ((R : ℝ) / 2 ^ W) := mul_nonneg hη1 r0
    have g2 : η * ((R : ℝ) / 2 ^ W) ≤ 2 * (4 / 2 ^ W) := by
      calc η * ((R : ℝ) / 2 ^ W) ≤ η * 1 := mul_le_mul_of_nonneg_left r1 hη1
        _ ≤ _ := by linarith
    have hq : ε ^ 2 ≤ 1 / 128 * (1 / 128) := by nlinarith
    have hq0 := sq_nonneg ε
    rw [hu, e, abs_le]
    constructor <;> nlinarith
  have hs1 : 4 * (S : ℝ) / 2 ^ W ≤ (21 / 10) := by
    rw [A.eta]
    have : σ ^ 2 * ((R : ℝ) / 2 ^ W) = σ * (1 - ε) := by rw [← A.eps]; ring
    rw [this]; nlinarith
  obtain ⟨f1, f2⟩ := floor_bounds (S * stepU W R S) (2 ^ W) hp
  have ed : ((S * stepU W R S : Nat) : ℝ) / ((2 ^ W : Nat) : ℝ) =
      2 ^ W / 8 * (4 * (S : ℝ) / 2 ^ W * (4 * (stepU W R S : ℝ) / 2 ^ W) / 2) := by
    push_cast; field_simp; ring
  rw [ed] at f1 f2
  obtain ⟨u1, u2⟩ := abs_le.mp hu1
  have hs0 : 0 ≤ 4 * (S : ℝ) / 2 ^ W := by positivity
  have hT1 : 4 * (S : ℝ) / 2 ^ W * (4 * (stepU W R S : ℝ) / 2 ^ W) / 2 < 4 := by
    have : 4 * (S : ℝ) / 2 ^ W * (4 * (stepU W R S : ℝ) / 2 ^ W) ≤ (21 / 10) * (101 / 50) :=
      mul_le_mul hs1 (by linarith) (by positivity) (by norm_num)
    linarith
  have hlt : S * stepU W R S / 2 ^ W < 2 ^ (W - 1) := by
    have e : (2 : ℝ) ^ W = 2 * 2 ^ (W - 1) := by rw [← pow_succ']; congr 1; omega
    have : ((S * stepU W R S / 2 ^ W : Nat) : ℝ) < 2 ^ (W - 1) := by
      refine lt_of_le_of_lt f1 ?_
      calc _ < 2 ^ W / 8 * (4 : ℝ) := mul_lt_mul_of_pos_left hT1 (by positivity)
        _ = _ := by rw [e]; ring
    exact_mod_cast this
  have hS' : stepR W S (stepU W R S) = S * stepU W R S / 2 ^ W * 2 := dmod hlt hW
  refine ⟨1 - (stepR W R (stepU W R S) : ℝ) / 2 ^ W * σ,
    σ ^ 2 * ((stepR W R (stepU W R S) : ℝ) / 2 ^ W) - 4 * (stepR W S (stepU W R S) : ℝ) / 2 ^ W,
    ⟨hrl, hσ1, hσ2, by ring, by ring⟩, b1, b2, b3, ?_⟩
  generalize hX : ((S * stepU W R S / 2 ^ W : Nat) : ℝ) = X at *
  have hSX : (stepR W S (stepU W R S) : ℝ) = X * 2 := by rw [hS', ← hX]; push_cast; ring
  generalize hu' : 4 * (stepU W R S : ℝ) / 2 ^ W = u at *
  generalize hs' : 4 * (S : ℝ) / 2 ^ W = s at *
  generalize hr' : (R : ℝ) / 2 ^ W = r at *
  have hd : 4 * (stepR W S (stepU W R S) : ℝ) / 2 ^ W = s * u / 2 - 8 / 2 ^ W * (2 ^ W / 8 * (s * u / 2) - X) := by
    rw [hSX]; field_simp; ring
  have w0 : 0 ≤ 8 / 2 ^ W * (2 ^ W / 8 * (s * u / 2) - X) := mul_nonneg (by positivity) (by linarith)
  have w1 : 8 / 2 ^ W * (2 ^ W / 8 * (s * u / 2) - X) ≤ 2 * (4 / 2 ^ W) := by
    calc 8 / 2 ^ W * (2 ^ W / 8 * (s * u / 2) - X) ≤ 8 / 2 ^ W * 1 := mul_le_mul_of_nonneg_left (by linarith) (by positivity)
      _ = _ := by ring
  rw [hd, hr]
  generalize 8 / 2 ^ W * (2 ^ W / 8 * (s * u / 2) - X) = δ4 at *
  have heta := A.eta
  rw [hs', hr'] at heta
  have e : σ ^ 2 * (r * u / 2 - δ3) - (s * u / 2 - δ4) = η * u / 2 - σ ^ 2 * δ3 + δ4 := by
    rw [heta]; ring
  rw [e]
  have k1 : 0 ≤ η * u := mul_nonneg hη1 (by linarith)
  have k2 : η * u ≤ 2 * (4 / 2 ^ W) * (101 / 50) := mul_le_mul hη2 (by linarith) (by linarith) (by positivity)
  have k3 : 0 ≤ σ ^ 2 * δ3 := by positivity
  have k4 : σ ^ 2 * δ3 ≤ 4 * (4 / 2 ^ W / 2) := mul_le_mul (by nlinarith) e1 e0 (by norm_num)
  constructor
  · linarith
  · linarith

set_option maxHeartbeats 1000000 in
/-- the last multiplication: the root with its error -/
theorem Approx.final (A : Approx W σ R S ε η) (hW : 16 ≤ W) (hE : |ε| ≤ E) (hE' : E ≤ 1 / 128)
    (hη1 : -(2 * (4 / 2 ^ W)) ≤ η) (hη2 : η ≤ (41 / 10) * (4 / 2 ^ W)) :
    |8 * ((S * stepU W R S / 2 ^ W : Nat) : ℝ) / 2 ^ W - σ| ≤ (31 / 10) * E ^ 2 + (9 / 2) * (4 / 2 ^ W) := by
  obtain ⟨r0, r1⟩ := A.r_bounds
  have hB : (0 : ℝ) < 2 ^ W := by positivity
  have hh0 : (0 : ℝ) < 4 / 2 ^ W := by positivity
  obtain ⟨δ2, d0, d1, hu⟩ := A.u hW hE hE' hη1 hη2
  have hp := Nat.two_pow_pos W
  have hσ1 := A.σ1
  have hσ2 := A.σ2
  have hε := abs_le.mp hE
  have hh := h_le hW
  obtain ⟨q1, q2⟩ := quad_bounds hE hE'
  obtain ⟨f1, f2⟩ := floor_bounds (S * stepU W R S) (2 ^ W) hp
  have ed : ((S * stepU W R S : Nat) : ℝ) / ((2 ^ W : Nat) : ℝ) =
      2 ^ W / 8 * (4 * (S : ℝ) / 2 ^ W * (4 * (stepU W R S : ℝ) / 2 ^ W) / 2) := by
    push_cast; field_simp; ring
  rw [ed] at f1 f2
  generalize hX : ((S * stepU W R S / 2 ^ W : Nat) : ℝ) = X at *
  generalize hu' : 4 * (stepU W R S : ℝ) / 2 ^ W = u at *
  have heta := A.eta
  have heps := A.eps
  generalize hs' : 4 * (S : ℝ) / 2 ^ W = s at *
  generalize hr' : (R : ℝ) / 2 ^ W = r at *
  have hd : 8 * X / 2 ^ W = s * u / 2 - 8 / 2 ^ W * (2 ^ W / 8 * (s * u / 2) - X) := by field_simp; ring
  have w0 : 0 ≤ 8 / 2 ^ W * (2 ^ W / 8 * (s * u / 2) - X) := mul_nonneg (by positivity) (by linarith)
  have w1 : 8 / 2 ^ W * (2 ^ W / 8 * (s * u / 2) - X) ≤ 2 * (4 / 2 ^ W) := by
    calc 8 / 2 ^ W * (2 ^ W / 8 * (s * u / 2) - X) ≤ 8 / 2 ^ W * 1 := mul_le_mul_of_nonneg_left (by linarith) (by positivity)
      _ = _ := by ring
  rw [hd]
  generalize 8 / 2 ^ W * (2 ^ W / 8 * (s * u / 2) - X) = δ at *
  generalize (4 : ℝ) / 2 ^ W = h at *
  have key : s * u / 2 - δ - σ = -(σ * (3 / 2 * ε ^ 2 - ε ^ 3 / 2)) + η * ((1 - ε) ^ 2 - 3 / 2) + σ * (1 - ε) * δ2 / 2
      - η * (η * r) / 2 - η * δ2 / 2 - δ := by
    have e : ε = 1 - r * σ := by linarith
    rw [hu, heta, e]; ring
  rw [key]
  generalize 3 / 2 * ε ^ 2 - ε ^ 3 / 2 = P at *
  have hq : (1 - ε) ^ 2 ≤ (51 / 50) := by nlinarith
  have hq0 : (49 / 50) ≤ (1 - ε) ^ 2 := by nlinarith
  have hηa : |η| ≤ (41 / 10) * h := abs_le.mpr ⟨by linarith, hη2⟩
  have t1 : 0 ≤ σ * P := mul_nonneg (by linarith) q1
  have t2 : σ * P ≤ (151 / 50) * E ^ 2 := by
    calc σ * P ≤ 2 * ((151 / 100) * E ^ 2) := mul_le_mul hσ2 q2 q1 (by norm_num)
      _ = _ := by ring
  have t3 : -((11 / 5) * h) ≤ η * ((1 - ε) ^ 2 - 3 / 2) ∧ η * ((1 - ε) ^ 2 - 3 / 2) ≤ (11 / 10) * h := by
    generalize (1 - ε) ^ 2 = v at *
    rcases le_total 0 η with hs | hs
    · have a1 : η * (-(13 / 25)) ≤ η * (v - 3 / 2) := mul_le_mul_of_nonneg_left (by linarith) hs
      have a2 : η * (v - 3 / 2) ≤ 0 := mul_nonpos_of_nonneg_of_nonpos hs (by linarith)
      constructor <;> linarith
    · have a1 : η * (v - 3 / 2) ≤ η * (-(13 / 25)) := mul_le_mul_of_nonpos_left (by linarith) hs
      have a2 : 0 ≤ η * (v - 3 / 2) := mul_nonneg_of_nonpos_of_nonpos hs (by linarith)
      constructor <;> linarith
  have t4 : 0 ≤ σ * (1 - ε) * δ2 := by
    apply mul_nonneg _ d0
    apply mul_nonneg <;> linarith
  have t5 : σ * (1 - ε) * δ2 ≤ 2 * (101 / 100) * h := by
    apply mul_le_mul _ d1 d0 (by norm_num)
    apply mul_le_mul hσ2 (by linarith) (by linarith) (by norm_num)
  have t6 : |η * (η * r)| ≤ (1 / 100) * h := by
    rw [abs_mul, abs_mul, abs_of_nonneg r0]
    have a1 : |η| * r ≤ |η| := by
      calc |η| * r ≤ |η| * 1 := mul_le_mul_of_nonneg_left r1 (abs_nonneg _)
        _ = _ := mul_one _
    calc |η| * (|η| * r) ≤ ((41 / 10) * h) * ((41 / 10) * h) := mul_le_mul hηa (le_trans a1 hηa) (by positivity) (by positivity)
      _ ≤ _ := by nlinarith
  have t7 : |η * δ2| ≤ (1 / 100) * h := by
    rw [abs_mul, abs_of_nonneg d0]
    calc |η| * δ2 ≤ ((41 / 10) * h) * h := mul_le_mul hηa d1 d0 (by positivity)
      _ ≤ _ := by nlinarith
  have u6 := abs_le.mp t6
  have u7 := abs_le.mp t7
  have hE2 := sq_nonneg E
  rw [abs_le]
  constructor
  · linarith
  · linarith

end Verif.SqrtReal
