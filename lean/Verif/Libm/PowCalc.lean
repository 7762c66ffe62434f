import Verif.Libm.PowNeg
import Verif.Libm.Log2Core
import Verif.Libm.LogR

/-! Tools for the error bounds of `pow`, `powf`: programs with a list of inputs, and cleared low bits without a lower limit. -/
namespace Verif
open Fmt
namespace Power
open Ex
variable {F : Fmt}

/-- the inputs of a program, their exact values and bounds -/
def In (F : Fmt) (σ : ℝ) : List (BitVec F.w) → List ℝ → List Bd → Prop
  | b :: bs, a :: as, i :: is => Holds F σ b a i ∧ In F σ bs as is
  | [], [], [] => True
  | _, _, _ => False

theorem zero_fin : F.IsFin 0#F.w := by
  have h := cHolds (F := F) (σ := 1) (x := 0#F.w) (X := 0) (B := ⟨0, 0, false⟩) (cs := [])
  unfold Fmt.IsFin Fmt.mag
  have := F.magValR_lt_iff (m := 0) (n := F.infRep)
  rw [F.magValR_infRep, ← F.magVal_cast, F.magVal_zero] at this
  simpa using this.mp (by simp; positivity)

theorem In.all {σ : ℝ} : ∀ {bs : List (BitVec F.w)} {as : List ℝ} {is : List Bd}, In F σ bs as is →
    ∀ i, Holds F σ (bs.getD i 0#F.w) (as.getD i 0) (is.getD i ⟨0, 0, false⟩)
  | [], [], [], _, i => by
    simp only [List.getD_nil]
    have hz : F.valK ℝ 0#F.w = 0 := by
      have h0 : F.mag 0#F.w = 0 := by simp [Fmt.mag]
      rw [← abs_eq_zero, F.absvR, h0, ← F.magVal_cast, F.magVal_zero]; simp
    exact holds_exact zero_fin hz (by simp)
  | _ :: _, _ :: _, _ :: _, h, 0 => h.1
  | _ :: _, _ :: _, _ :: _, h, i + 1 => by
    have := In.all h.2 i
    simpa only [List.getD_cons_succ] using this
  | [], [], _ :: _, h, _ => h.elim
  | [], _ :: _, _, h, _ => h.elim
  | _ :: _, [], _, h, _ => h.elim
  | _ :: _, _ :: _, [], h, _ => h.elim

/-- running a checked program -/
theorem run (hF : F.Big) (N : FPU F) {σ : ℝ} (h0 : 0 < σ) (h1 : σ ≤ 1) (ht : 1 / 2 ^ 150 ≤ ((1 / 2 ^ 80 : ℚ) : ℝ) * σ) {bs : List (BitVec F.w)} {as : List ℝ} {is : List Bd}
    (hl : In F σ bs as is) (p : Ex) {sc : Bool} {A c : ℚ} (h : p.errLe F.s (1 / 2 ^ 80) (fun i => is.getD i ⟨0, 0, false⟩) sc A c = true) :
    Holds F σ (p.flt N fun i => bs.getD i 0#F.w) (p.ideal fun i => as.getD i 0) ⟨A, c, sc⟩ :=
  holds_of_errLe hF N h0 h1 ht hl.all h

/-- without the scale -/
theorem unscale {σ : ℝ} {b : BitVec F.w} {a : ℝ} {A e : ℚ} (h : Holds F σ b a ⟨A, e, true⟩) {q : ℚ} (hq : σ ≤ q) (hA : 0 ≤ A) (he : 0 ≤ e) :
    Holds F σ b a ⟨A * q, e * q, false⟩ := by
  obtain ⟨h1, h2, h3⟩ := h
  simp only [sv, if_true] at h2 h3
  refine ⟨h1, ?_, ?_⟩
  · simp only [sv, Bool.false_eq_true, if_false, mul_one]
    push_cast
    exact h2.trans (mul_le_mul_of_nonneg_left hq (by exact_mod_cast hA))
  · simp only [sv, Bool.false_eq_true, if_false, mul_one]
    push_cast
    exact h3.trans (mul_le_mul_of_nonneg_left hq (by exact_mod_cast he))

/-- a better bound of the exact value -/
theorem tighten {σ : ℝ} {b : BitVec F.w} {a : ℝ} {A e : ℚ} {sc : Bool} (h : Holds F σ b a ⟨A, e, sc⟩) {A' : ℚ} (hA : |a| ≤ A' * sv σ sc) : Holds F σ b a ⟨A', e, sc⟩ :=
  ⟨h.1, hA, h.2.2⟩

/-- clearing low bits of any finite number -/
theorem clear_all (hF : F.Big) {b b' : BitVec F.w} {v : ℝ} (h : GFv F b v) {c : ℕ} (hc : c ≤ F.s) (hm : F.mag b' = F.mag b / 2 ^ c * 2 ^ c)
    (hs : F.sign b' = F.sign b) : ∃ v0 : ℝ, GFv F b' v0 ∧ |v - v0| ≤ 1 / 2 ^ (F.s - c) * |v| + 1 / 2 ^ 120 ∧ |v0| ≤ |v| := by
  have h127 := hF.bias
  rcases le_or_gt ((2 : ℝ) ^ (1 - (F.bias : ℤ))) |v| with hk | hk
  · obtain ⟨v0, j, g, e, l, -⟩ := Log2.clear_any h hc hm hs hk le_rfl
    exact ⟨v0, g, e.trans (le_add_of_nonneg_right (by positivity)), l⟩
  · have hle : F.mag b' ≤ F.mag b := by rw [hm]; exact Nat.div_mul_le_self _ _
    have hf : F.IsFin b' := lt_of_le_of_lt hle h.fin
    have g := GFv.self hf
    have hm' := F.magValR_le_iff.mpr hle
    have hlt : |v| ≤ 1 / 2 ^ 120 := by
      refine hk.le.trans ?_
      rw [one_div, ← zpow_natCast, ← zpow_neg]
      exact zpow_le_zpow_right₀ (by norm_num) (by push_cast; omega)
    have h0 : |F.valK ℝ b'| ≤ |v| := by rw [g.abs_eq, h.abs_eq]; exact hm'
    refine ⟨_, g, ?_, h0⟩
    have h1 : 0 ≤ 1 / 2 ^ (F.s - c) * |v| := by positivity
    have h2 : |v - F.valK ℝ b'| ≤ |v| := by
      rcases hsb : F.sign b with _ | _
      · have p1 := h.nonneg hsb
        have p2 := g.nonneg (hs.trans hsb)
        rw [abs_of_nonneg p1, abs_of_nonneg p2] at h0
        rw [abs_of_nonneg p1, abs_of_nonneg (by linarith)]; linarith
      · have p1 := h.nonpos hsb
        have p2 := g.nonpos (hs.trans hsb)
        rw [abs_of_nonpos p1, abs_of_nonpos p2] at h0
        rw [abs_of_nonpos p1, abs_of_nonpos (by linarith)]; linarith
    linarith

/-- the series of the logarithm, for the smaller range of `pow` -/
theorem log_rat {P : List ℚ} {B : ℚ} {n : ℕ} (hP : Poly.chk (0 :: Poly.sub P Poly.logL) B n 0 (1023 / 100000) = true) {f s : ℝ} (hs : s = f / (2 + f)) (hf : -1 < f)
    (h : |s| ≤ 0.1011) : |Real.log (1 + f) - s * (2 + s * s * Poly.ev P (s * s))| ≤ (B + 1 / 2 ^ 68) * |s| := by
  have h1 := Poly.log_near hs hf (by norm_num at h ⊢; linarith)
  have hz : s * s ≤ 0.01023 := by
    have : |s| * |s| ≤ 0.1011 * 0.1011 := mul_le_mul h h (abs_nonneg _) (by norm_num)
    rw [abs_mul_abs_self] at this
    norm_num at *; linarith
  have h2 := Poly.chk_sound hP (t := s * s) (by push_cast; exact mul_self_nonneg s) (by push_cast; norm_num at hz ⊢; exact hz)
  rw [Poly.ev, Poly.ev_sub] at h2
  have e : Real.log (1 + f) - s * (2 + s * s * Poly.ev P (s * s)) =
    (Real.log (1 + f) - s * (2 + s * s * Poly.ev Poly.logL (s * s))) - s * ((0 : ℚ) + s * s * (Poly.ev P (s * s) - Poly.ev Poly.logL (s * s))) := by push_cast; ring
  rw [e]
  refine (abs_sub _ _).trans ?_
  have : |s * ((0 : ℚ) + s * s * (Poly.ev P (s * s) - Poly.ev Poly.logL (s * s)))| ≤ |s| * B := by
    rw [abs_mul]; exact mul_le_mul_of_nonneg_left h2 (abs_nonneg _)
  have e2 : (B + 1 / 2 ^ 68 : ℝ) * |s| = 1 / 2 ^ 68 * |s| + |s| * B := by ring
  rw [e2]
  exact add_le_add h1 this
/-! ## Single steps with a known bound of the result -/

/-- the rounding error of a step; `q` is `2^-(s+1)` -/
theorem stepT (hF : F.Big) {σ : ℝ} (h0 : 0 < σ) (h1 : σ ≤ 1) (ht : 1 / 2 ^ 150 ≤ ((1 / 2 ^ 80 : ℚ) : ℝ) * σ) {v a : ℝ} {r : BitVec F.w} {sc : Bool} {A d e : ℚ}
    (h : F.Rounds v r) (hA : |a| ≤ A * sv σ sc) (hv : |v - a| ≤ d * sv σ sc) (hA2 : A + d ≤ 2 ^ 20) (he : d + (A + d) / 2 ^ (F.s + 1) + 1 / 2 ^ 80 ≤ e) : Holds F σ r a ⟨A, e, sc⟩ := by
  have hs0 : 0 < sv σ sc := by unfold sv; split <;> linarith
  have hs1 : sv σ sc ≤ 1 := by unfold sv; split <;> linarith
  have hs2 : σ ≤ sv σ sc := by unfold sv; split <;> linarith
  have hB : |v| ≤ (A + d) * sv σ sc := by
    have := abs_add_le (v - a) a
    rw [sub_add_cancel] at this
    linarith
  have hbR : ((A : ℝ) + d) ≤ 2 ^ 20 := by exact_mod_cast hA2
  have hv100 : |v| ≤ 2 ^ (100 : ℤ) := hB.trans ((mul_le_mul_of_nonneg_right hbR hs0.le).trans (by norm_num; linarith))
  refine ⟨h.fin100 hF hv100, hA, ?_⟩
  have h2 := h.rel_abs hF hv100
  have h3 : 1 / 2 ^ (F.s + 1) * |v| ≤ 1 / 2 ^ (F.s + 1) * ((A + d) * sv σ sc) := mul_le_mul_of_nonneg_left hB (by positivity)
  have h4 : (1 : ℝ) / 2 ^ 150 ≤ 1 / 2 ^ 80 * sv σ sc := by
    push_cast at ht
    exact ht.trans (mul_le_mul_of_nonneg_left hs2 (by positivity))
  have he' : ((d : ℝ) + (A + d) / 2 ^ (F.s + 1) + 1 / 2 ^ 80) * sv σ sc ≤ e * sv σ sc := mul_le_mul_of_nonneg_right (by
    have := Rat.cast_le (K := ℝ).mpr he
    push_cast at this; exact this) hs0.le
  have h5 := abs_add_le (F.valK ℝ r - v) (v - a)
  rw [show F.valK ℝ r - v + (v - a) = F.valK ℝ r - a by ring] at h5
  refine le_trans ?_ he'
  calc _ ≤ _ := h5
    _ ≤ (1 / 2 ^ (F.s + 1) * ((A + d) * sv σ sc) + 1 / 2 ^ 80 * sv σ sc) + d * sv σ sc := add_le_add (h2.trans (add_le_add h3 h4)) hv
    _ = _ := by ring

section
variable (hF : F.Big) (N : FPU F) {σ : ℝ} (h0 : 0 < σ) (h1 : σ ≤ 1) (ht : 1 / 2 ^ 150 ≤ ((1 / 2 ^ 80 : ℚ) : ℝ) * σ) {x y : BitVec F.w} {a b : ℝ} {sc sc' : Bool} {A A1 A2 e1 e2 e : ℚ}
include hF h0 h1 ht

theorem addT (hx : Holds F σ x a ⟨A1, e1, sc⟩) (hy : Holds F σ y b ⟨A2, e2, sc⟩) (hA : |a + b| ≤ A * sv σ sc)
    (he : A + (e1 + e2) ≤ 2 ^ 20 ∧ e1 + e2 + (A + (e1 + e2)) / 2 ^ (F.s + 1) + 1 / 2 ^ 80 ≤ e) : Holds F σ (N.add x y) (a + b) ⟨A, e, sc⟩ := by
  refine stepT hF h0 h1 ht (Fmt.addR N hx.1 hy.1) hA ?_ he.1 he.2
  have h3 := hx.2.2
  have h4 := hy.2.2
  rw [add_sub_add_comm]
  push_cast
  refine (abs_add_le _ _).trans ?_
  dsimp only at h3 h4
  linarith

theorem subT (hx : Holds F σ x a ⟨A1, e1, sc⟩) (hy : Holds F σ y b ⟨A2, e2, sc⟩) (hA : |a - b| ≤ A * sv σ sc)
    (he : A + (e1 + e2) ≤ 2 ^ 20 ∧ e1 + e2 + (A + (e1 + e2)) / 2 ^ (F.s + 1) + 1 / 2 ^ 80 ≤ e) : Holds F σ (N.sub x y) (a - b) ⟨A, e, sc⟩ := by
  refine stepT hF h0 h1 ht (Fmt.subR N hx.1 hy.1) hA ?_ he.1 he.2
  have h3 := hx.2.2
  have h4 := hy.2.2
  rw [sub_sub_sub_comm]
  push_cast
  refine (abs_sub _ _).trans ?_
  dsimp only at h3 h4
  linarith

theorem mulT (hx : Holds F σ x a ⟨A1, e1, sc⟩) (hy : Holds F σ y b ⟨A2, e2, false⟩) (hA : |a * b| ≤ A * sv σ sc)
    (he : A + (A1 * e2 + e1 * A2 + e1 * e2) ≤ 2 ^ 20 ∧ A1 * e2 + e1 * A2 + e1 * e2 + (A + (A1 * e2 + e1 * A2 + e1 * e2)) / 2 ^ (F.s + 1) + 1 / 2 ^ 80 ≤ e) :
    Holds F σ (N.mul x y) (a * b) ⟨A, e, sc⟩ := by
  refine stepT hF h0 h1 ht (Fmt.mulR N hx.1 hy.1) hA ?_ he.1 he.2
  obtain ⟨f1, a1, g1⟩ := hx
  obtain ⟨f2, a2, g2⟩ := hy
  simp only [sv, Bool.false_eq_true, if_false, mul_one] at a2 g2
  dsimp only at a1 g1
  generalize F.valK ℝ x = v1 at *
  generalize F.valK ℝ y = v2 at *
  have ha1 := (abs_nonneg _).trans a1
  have he1 := (abs_nonneg _).trans g1
  have m1 : |a * (v2 - b)| ≤ (A1 * sv σ sc) * e2 := by rw [abs_mul]; exact mul_le_mul a1 g2 (abs_nonneg _) ha1
  have m2 : |(v1 - a) * b| ≤ (e1 * sv σ sc) * A2 := by rw [abs_mul]; exact mul_le_mul g1 a2 (abs_nonneg _) he1
  have m3 : |(v1 - a) * (v2 - b)| ≤ (e1 * sv σ sc) * e2 := by rw [abs_mul]; exact mul_le_mul g1 g2 (abs_nonneg _) he1
  rw [show v1 * v2 - a * b = a * (v2 - b) + (v1 - a) * b + (v1 - a) * (v2 - b) by ring]
  refine ((abs_add_le _ _).trans (add_le_add (abs_add_le _ _) (le_refl _))).trans ?_
  push_cast
  calc _ ≤ _ := add_le_add (add_le_add m1 m2) m3
    _ = _ := by ring

theorem mulT' (hx : Holds F σ x a ⟨A1, e1, false⟩) (hy : Holds F σ y b ⟨A2, e2, sc⟩) (hA : |a * b| ≤ A * sv σ sc)
    (he : A + (A1 * e2 + e1 * A2 + e1 * e2) ≤ 2 ^ 20 ∧ A1 * e2 + e1 * A2 + e1 * e2 + (A + (A1 * e2 + e1 * A2 + e1 * e2)) / 2 ^ (F.s + 1) + 1 / 2 ^ 80 ≤ e) :
    Holds F σ (N.mul x y) (a * b) ⟨A, e, sc⟩ := by
  refine stepT hF h0 h1 ht (Fmt.mulR N hx.1 hy.1) hA ?_ he.1 he.2
  obtain ⟨f1, a1, g1⟩ := hx
  obtain ⟨f2, a2, g2⟩ := hy
  simp only [sv, Bool.false_eq_true, if_false, mul_one] at a1 g1
  dsimp only at a2 g2
  generalize F.valK ℝ x = v1 at *
  generalize F.valK ℝ y = v2 at *
  have ha1 := (abs_nonneg _).trans a1
  have he1 := (abs_nonneg _).trans g1
  have m1 : |a * (v2 - b)| ≤ A1 * (e2 * sv σ sc) := by rw [abs_mul]; exact mul_le_mul a1 g2 (abs_nonneg _) ha1
  have m2 : |(v1 - a) * b| ≤ e1 * (A2 * sv σ sc) := by rw [abs_mul]; exact mul_le_mul g1 a2 (abs_nonneg _) he1
  have m3 : |(v1 - a) * (v2 - b)| ≤ e1 * (e2 * sv σ sc) := by rw [abs_mul]; exact mul_le_mul g1 g2 (abs_nonneg _) he1
  rw [show v1 * v2 - a * b = a * (v2 - b) + (v1 - a) * b + (v1 - a) * (v2 - b) by ring]
  refine ((abs_add_le _ _).trans (add_le_add (abs_add_le _ _) (le_refl _))).trans ?_
  push_cast
  calc _ ≤ _ := add_le_add (add_le_add m1 m2) m3
    _ = _ := by ring
end
end Power
end Verif
