import Verif.Libm.Expm1Prog
import Verif.Libm.ExpScale
import Verif.Libm.GFvSign
/-! # `expm1` and `expm1f` after the reduction of the argument, in any format -/
namespace Verif
open Fmt Poly
namespace Expm1
variable {F : Fmt}

/-- the quotient -/
def qd (N : FPU F) (K : Cn F) (x : BitVec F.w) : BitVec F.w :=
  let hfx := N.mul K.half x
  let hxs := N.mul x hfx
  let r1 := K.r1 N hxs
  let t := N.sub K.three (N.mul r1 hfx)
  N.div (N.sub r1 t) (N.sub K.six (N.mul x t))

/-- what is needed of the constants -/
structure COk (F : Fmt) (K : Cn F) (R : List ℚ) : Prop where
  half : GFv F K.half (1 / 2)
  one : GFv F K.one 1
  two : GFv F K.two 2
  mtwo : GFv F K.mtwo (-2)
  mquart : GFv F K.mquart (-(1 / 4))
  pmax : GFv F K.pmax (2 ^ (F.bias : ℤ))
  kmax : K.kmax = F.bias + 1
  kmid : 20 ≤ K.kmid ∧ K.kmid ≤ 23
  fin : ((ks K).all fun c => decide (F.mag c < F.infRep)) = true
  q : ∀ (N : FPU F) (x : BitVec F.w) (X : ℝ), GFv F x X → |X| ≤ 0.3467 → ∃ q, GFv F (qd N K x) q ∧ |q - m1q R X| ≤ 3 / 2 * (1 / 2 ^ (F.s + 1))
  qb : ∀ X : ℝ, |X| ≤ 0.3467 → -(45 / 100) ≤ m1q R X ∧ m1q R X ≤ 0
  ap : ∀ X : ℝ, |X| ≤ 0.3467 → |X + X * X / 2 - X * X * X / 2 * m1q R X - (Real.exp X - 1)| ≤ |X| ^ 3 * (1 / 2 ^ (F.s + 1) / 100)
  chk : Chk F K

/-- the reduced argument: `x` with the correction `c`, near `r` -/
structure Rd (F : Fmt) (x c : BitVec F.w) (X γ r : ℝ) : Prop where
  gx : GFv F x X
  bd : |X| ≤ 0.3467
  gc : ∃ C, GFv F c C ∧ |C - γ| ≤ 1 / 500 * (1 / 2 ^ (F.s + 1))
  gg : |γ| ≤ 1 / 4 * (1 / 2 ^ (F.s + 1))
  gr : |r - X - γ| ≤ 1 / 300 * (1 / 2 ^ (F.s + 1))

/-- `x - e` in exact arithmetic -/
noncomputable def S (X q γ : ℝ) : ℝ := X - (X * (X * (1 / 2 * X) * q - γ) - γ - X * (1 / 2 * X))

theorem near_real {u X γ r q : ℝ} (hu0 : 0 < u) (hu1 : u ≤ 1 / 2 ^ 20) (hX : |X| ≤ 0.3467) (hap : |X + X * X / 2 - X * X * X / 2 * q - (Real.exp X - 1)| ≤ |X| ^ 3 * (u / 100))
    (hγ : |γ| ≤ 1 / 4 * u) (hr : |r - X - γ| ≤ 1 / 300 * u) : |1 + S X q γ - Real.exp r| ≤ 28 / 1000 * u := by
  set E := Real.exp X with hE
  have hER := exp_range (r := X) (by norm_num at hX ⊢; linarith)
  rw [← hE] at hER
  set ρ := r - X - γ with hρ
  set δ := γ + ρ with hδ
  have hδ1 : |δ| ≤ 0.26 * u := by
    refine (abs_add_le _ _).trans ?_
    norm_num; linarith
  have hu1' : u ≤ 1 / 1048576 := by norm_num at hu1 ⊢; exact hu1
  have hη := Real.abs_exp_sub_one_sub_id_le (x := δ) (hδ1.trans (by linarith))
  set η := Real.exp δ - 1 - δ with hηd
  have hη2 : |η| ≤ 0.0001 * u := by
    refine hη.trans ?_
    rw [← sq_abs]
    nlinarith [abs_nonneg δ]
  have hexp : Real.exp r = E * (1 + δ + η) := by
    rw [hE, show r = X + δ by rw [hδ, hρ]; ring, Real.exp_add, hηd]; ring
  have hsq := Real.abs_exp_sub_one_sub_id_le (x := X) (by norm_num at hX ⊢; linarith)
  rw [← hE] at hsq
  have hlin : |E - 1 - X| ≤ 0.07 := by
    -- from the Taylor polynomial
    have h2 := exp_near' (x := X) (by norm_num at hX ⊢; linarith)
    have h : chk (sub (1 :: expL) [1, 1]) (68 / 1000) 6 (-3467 / 10000) (3467 / 10000) = true := by decide +kernel
    have hX' := abs_le.mp hX
    have h1 := chk_sound h (t := X) (by push_cast; linarith [hX'.1]) (by push_cast; linarith [hX'.2])
    rw [ev_sub] at h1
    simp only [ev] at h1
    rw [← hE] at h2
    rw [abs_le] at h1 h2 ⊢
    push_cast at h1
    norm_num at h1 h2 ⊢
    constructor <;> linarith [h1.1, h1.2, h2.1, h2.2]
  have hX3 : |X| ^ 3 * (u / 100) ≤ 0.0005 * u := by
    have : |X| ^ 3 ≤ 0.3467 ^ 3 := pow_le_pow_left₀ (abs_nonneg _) hX 3
    have : |X| ^ 3 ≤ 0.05 := this.trans (by norm_num)
    nlinarith
  have e1 : 1 + S X q γ - Real.exp r = (X + X * X / 2 - X * X * X / 2 * q - (E - 1)) - γ * (E - 1 - X) - E * ρ - E * η := by
    rw [hexp, hδ]; unfold S; ring
  have m1 : |γ * (E - 1 - X)| ≤ 1 / 4 * u * 0.07 := by
    rw [abs_mul]; exact mul_le_mul hγ hlin (abs_nonneg _) (by positivity)
  have m2 : |E * η| ≤ 1.4146 * (0.0001 * u) := by
    rw [abs_mul, abs_of_pos (by linarith [hER.1] : (0 : ℝ) < E)]
    exact mul_le_mul hER.2 hη2 (abs_nonneg _) (by norm_num)
  have m3 : |E * ρ| ≤ 1.4146 * (1 / 300 * u) := by
    rw [abs_mul, abs_of_pos (by linarith [hER.1] : (0 : ℝ) < E)]
    exact mul_le_mul hER.2 hr (abs_nonneg _) (by norm_num)
  rw [e1]
  have t1 := abs_sub ((X + X * X / 2 - X * X * X / 2 * q - (E - 1)) - γ * (E - 1 - X) - E * ρ) (E * η)
  have t2 := abs_sub ((X + X * X / 2 - X * X * X / 2 * q - (E - 1)) - γ * (E - 1 - X)) (E * ρ)
  have t3 := abs_sub (X + X * X / 2 - X * X * X / 2 * q - (E - 1)) (γ * (E - 1 - X))
  norm_num at *
  linarith

section
variable {K : Cn F} {R : List ℚ} {x c w : BitVec F.w} {X γ r W : ℝ}

/-- four values -/
def four {α} (a b c d : α) : ℕ → α
  | 0 => a
  | 1 => b
  | 2 => c
  | _ => d

theorem u_pos (F : Fmt) : (0 : ℝ) < 1 / 2 ^ (F.s + 1) := by positivity
theorem u_le (hF : F.Big) : (1 : ℝ) / 2 ^ (F.s + 1) ≤ 1 / 2 ^ 20 := by
  have := hF.s
  exact one_div_le_one_div_of_le (by norm_num) (pow_le_pow_right₀ (by norm_num) (by omega))

theorem near (hF : F.Big) (hK : COk F K R) (h : Rd F x c X γ r) : |1 + S X (m1q R X) γ - Real.exp r| ≤ 28 / 1000 * (1 / 2 ^ (F.s + 1)) :=
  near_real (u_pos F) (u_le hF) h.bd (hK.ap X h.bd) h.gg h.gr

theorem vars (hK : COk F K R) (N : FPU F) (h : Rd F x c X γ r) (hw : GFv F w W) {m a b : ℚ} (h1 : m * X + a ≤ W) (h2 : W ≤ m * X + b) (hm : 0 ≤ m)
    (lo hi : ℚ) (g0 : (lo : ℝ) ≤ X) (g1 : X ≤ hi) (i : ℕ) : IE.Holds F (four x (qd N K x) c w i) (four X (m1q R X) γ W i) (inf F.s m a b lo hi i) := by
  have hm' : (0 : ℝ) ≤ m := by exact_mod_cast hm
  match i with
  | 0 => exact ⟨X, h.gx, g0, g1, by simp [inf, four]⟩
  | 1 =>
    obtain ⟨q, gq, eq⟩ := hK.q N x X h.gx h.bd
    obtain ⟨b1, b2⟩ := hK.qb X h.bd
    refine ⟨q, gq, ?_, ?_, ?_⟩
    · show ((-45 / 100 : ℚ) : ℝ) ≤ m1q R X
      push_cast; linarith
    · show m1q R X ≤ ((0 : ℚ) : ℝ)
      push_cast; exact b2
    · show |q - m1q R X| ≤ ((3 / 2 / 2 ^ (F.s + 1) : ℚ) : ℝ)
      refine eq.trans (le_of_eq ?_)
      push_cast; ring
  | 2 =>
    obtain ⟨C, gC, eC⟩ := h.gc
    have := abs_le.mp h.gg
    refine ⟨C, gC, ?_, ?_, ?_⟩
    · show ((-1 / 4 / 2 ^ (F.s + 1) : ℚ) : ℝ) ≤ γ
      refine le_trans (le_of_eq ?_) this.1
      push_cast; ring
    · show γ ≤ ((1 / 4 / 2 ^ (F.s + 1) : ℚ) : ℝ)
      refine this.2.trans (le_of_eq ?_)
      push_cast; ring
    · show |C - γ| ≤ ((1 / 500 / 2 ^ (F.s + 1) : ℚ) : ℝ)
      refine eC.trans (le_of_eq ?_)
      push_cast; ring
  | n + 3 =>
    refine ⟨W, hw, ?_, ?_, ?_⟩
    · show ((m * lo + a : ℚ) : ℝ) ≤ W
      push_cast
      have := mul_le_mul_of_nonneg_left g0 hm'
      linarith
    · show W ≤ ((m * hi + b : ℚ) : ℝ)
      push_cast
      have := mul_le_mul_of_nonneg_left g1 hm'
      linarith
    · show |W - W| ≤ ((0 : ℚ) : ℝ)
      simp

/-- `e` in its last meaning -/
def e1 (N : FPU F) (K : Cn F) (x c : BitVec F.w) : BitVec F.w :=
  N.sub (N.sub (N.mul x (N.sub (e0 N K x) c)) c) (N.mul x (N.mul K.half x))

theorem e1_flt (N : FPU F) : eE.flt N (ks K) (four x (qd N K x) c w) = e1 N K x c := rfl

theorem e1_ideal (hK : COk F K R) {q : ℝ} : eE.ideal (ks K) (four X q γ W) = X - S X q γ := by
  have hh : ((F.val K.half : ℚ) : ℝ) = 1 / 2 := hK.half.valQ
  show X * (X * (((F.val K.half : ℚ) : ℝ) * X) * q - γ) - γ - X * (((F.val K.half : ℚ) : ℝ) * X) = _
  rw [hh]; unfold S; ring

theorem bds (h : Rd F x c X γ r) : ((A : ℚ) : ℝ) ≤ X ∧ X ≤ ((B : ℚ) : ℝ) := by
  have := abs_le.mp h.bd
  unfold A B; push_cast
  norm_num at this ⊢
  exact this

/-- multiplication by a power of two -/
theorem dbl (hF : F.Big) {y z : BitVec F.w} {Y : ℝ} (hy : GFv F y Y) (k : ℤ) (h : F.Rounds (Y * 2 ^ k) z) (hb : |Y * 2 ^ k| < 2 ^ ((F.bias : ℤ) + 1)) :
    ∃ Z, GFv F z Z ∧ |Z - Y * 2 ^ k| ≤ 1 / 2 ^ 150 := by
  rw [← hy.val] at h hb
  obtain ⟨f, e⟩ := Exp.scale_round hF h hb
  rw [hy.val] at e
  refine ⟨_, GFv.self f, e.trans ?_⟩
  have := hF.s
  have := hF.bias
  rw [one_div, ← zpow_natCast, ← zpow_neg]
  exact zpow_le_zpow_right₀ (by norm_num) (by push_cast; omega)

theorem big_of (hF : F.Big) {v : ℝ} (h : |v| ≤ 100) : |v| < 2 ^ ((F.bias : ℤ) + 1) := by
  have := hF.bias
  have h2 : (2 : ℝ) ^ (7 : ℤ) ≤ 2 ^ ((F.bias : ℤ) + 1) := zpow_le_zpow_right₀ (by norm_num) (by omega)
  norm_num at h2
  linarith

/-- a program and its relative error -/
theorem run (hF : F.Big) (hK : COk F K R) (N : FPU F) (h : Rd F x c X γ r) (hw : GFv F w W) {p : IE} {m a b k t lo hi : ℚ} {n : ℕ}
    (hchk : IE.split (IE.okP (ks K) p (inf F.s m a b) (relOk F.s k t)) lo (cuts n lo hi) hi = true) (hk : 0 ≤ k) (h1 : m * X + a ≤ W) (h2 : W ≤ m * X + b) (hm : 0 ≤ m)
    (g0 : (lo : ℝ) ≤ X) (g1 : X ≤ hi) {θ : ℝ} (hθ : |p.ideal (ks K) (four X (m1q R X) γ W) - θ| ≤ t * (1 / 2 ^ (F.s + 1))) :
    ∃ V, GFv F (p.flt N (ks K) (four x (qd N K x) c w)) V ∧ |V - θ| ≤ k * (1 / 2 ^ (F.s + 1)) * |θ| := by
  obtain ⟨rr, hg, v, gv, l, l', d⟩ := IE.okP_sound hF N hK.fin hchk g0 g1 (vars hK N h hw h1 h2 hm)
  exact ⟨v, gv, relOk_sound hk hg l l' d hθ⟩

/-- the same with one more operation -/
theorem run' (hF : F.Big) (hK : COk F K R) (N : FPU F) (h : Rd F x c X γ r) {p : IE} {m0 c0 k t lo hi : ℚ} {n : ℕ}
    (hchk : IE.split (IE.okP (ks K) p (inf F.s 0 0 0) (relOk' F.s m0 c0 k t)) lo (cuts n lo hi) hi = true) (hk : 0 ≤ k) (hm0 : 0 ≤ m0)
    (g0 : (lo : ℝ) ≤ X) (g1 : X ≤ hi) {θ : ℝ} (hθ : |p.ideal (ks K) (four X (m1q R X) γ 0) * m0 + c0 - θ| ≤ t * (1 / 2 ^ (F.s + 1)))
    {z : BitVec F.w} (hz : ∀ W, GFv F (p.flt N (ks K) (four x (qd N K x) c 0#F.w)) W → |W| ≤ 10 → ∃ W', |W' - W * m0| ≤ 1 / 2 ^ 100 ∧ F.Rounds (W' + c0) z)
    (hsz : |p.ideal (ks K) (four X (m1q R X) γ 0)| ≤ 9) (h0 : GFv F 0#F.w 0) :
    ∃ V, GFv F z V ∧ |V - θ| ≤ k * (1 / 2 ^ (F.s + 1)) * |θ| := by
  obtain ⟨rr, hg, v, gv, l, l', d⟩ := IE.okP_sound hF N hK.fin hchk g0 g1 (vars hK N h h0 (m := 0) (a := 0) (b := 0) (by simp) (by simp) le_rfl)
  have hm0' : (0 : ℝ) ≤ m0 := by exact_mod_cast hm0
  unfold relOk' at hg
  split at hg
  case h_2 => exact absurd hg (by simp)
  case h_1 r2 hr2 =>
  rw [Bool.and_eq_true] at hg
  obtain ⟨he, hg⟩ := hg
  have he : (rr.e : ℝ) ≤ 1 := by exact_mod_cast of_decide_eq_true he
  have hv : |v| ≤ 10 := by
    have := abs_add_le (v - p.ideal (ks K) (four X (m1q R X) γ 0)) (p.ideal (ks K) (four X (m1q R X) γ 0))
    rw [sub_add_cancel] at this
    linarith
  obtain ⟨W', hW1, hW2⟩ := hz v gv hv
  obtain ⟨v2, gv2, l2, l2', d2⟩ := IE.holds_fin hF (a := p.ideal (ks K) (four X (m1q R X) γ 0) * m0 + c0) hr2 hW2
    (by push_cast; have := mul_le_mul_of_nonneg_right l hm0'; linarith) (by push_cast; have := mul_le_mul_of_nonneg_right l' hm0'; linarith) (by
      push_cast
      have e : W' + c0 - (p.ideal (ks K) (four X (m1q R X) γ 0) * m0 + c0) = (W' - v * m0) + (v - p.ideal (ks K) (four X (m1q R X) γ 0)) * m0 := by ring
      rw [e]
      refine (abs_add_le _ _).trans ?_
      rw [abs_mul, abs_of_nonneg hm0']
      have := mul_le_mul_of_nonneg_right d hm0'
      linarith)
  exact ⟨v2, gv2, relOk_sound hk hg l2 l2' d2 hθ⟩
end
end Expm1
end Verif
