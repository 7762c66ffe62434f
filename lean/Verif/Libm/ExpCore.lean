import Verif.Libm.ExpR
import Verif.Libm.GFv
/-! # The common part of `exp` and `expf`: from the reduced argument to the result, in any format -/
namespace Verif
open Fmt
namespace Exp
variable {F : Fmt}

/-- the program `x * c` -/
def eN : Ex := .mul (.leaf 0) (.leaf 1)
/-- the program `2 - c` -/
def eD : Ex := .sub (.leaf 2) (.leaf 1)
/-- the program `q - lo + hi` -/
def eV : Ex := .add (.sub (.leaf 0) (.leaf 1)) (.leaf 2)

/-- the leaves of a program -/
def three {α} (a b c : α) : ℕ → α
  | 0 => a
  | 1 => b
  | _ => c

def iN (s : ℕ) : ℕ → Ex.Bd := three ⟨3467 / 10000, 0, false⟩ ⟨37 / 100, 3 / 10 / 2 ^ (s + 1), false⟩ ⟨2, 0, false⟩
def iV (s : ℕ) : ℕ → Ex.Bd := three ⟨8 / 100, 33 / 100 / 2 ^ (s + 1), false⟩ ⟨1 / 4096, 0, false⟩ ⟨347 / 1000, 0, false⟩

/-- the error of the fraction -/
theorem frac (hF : F.Big) (hs : F.s = 23 ∨ F.s = 52) (N : FPU F) {x c two : BitVec F.w} {X C : ℝ} (hx : GFv F x X) (h2 : GFv F two 2)
    (hc : Ex.Holds F 1 c C ⟨37 / 100, 3 / 10 / 2 ^ (F.s + 1), false⟩) (hX : |X| ≤ 0.3467) (hC : C ≤ 0.347) :
    Ex.Holds F 1 (N.div (N.mul x c) (N.sub two c)) (X * C / (2 - C)) ⟨8 / 100, 33 / 100 / 2 ^ (F.s + 1), false⟩ := by
  have hl : ∀ i, Ex.Holds F 1 (three x c two i) (three X C 2 i) (iN F.s i) := by
    intro i
    match i with
    | 0 => exact hx.holds (by unfold Ex.sv; push_cast; norm_num at hX ⊢; exact hX)
    | 1 => exact hc
    | _ + 2 => exact h2.holds (by unfold Ex.sv; norm_num)
  have ht : (1 : ℝ) / 2 ^ 150 ≤ ((1 / 2 ^ 150 : ℚ) : ℝ) * 1 := by push_cast; norm_num
  have a1 := Ex.holds_of_errLe hF N one_pos (le_refl 1) ht hl (p := eN) (sc := false) (A := 1283 / 10000) (c := 24 / 100 / 2 ^ (F.s + 1))
    (by rcases hs with hs | hs <;> rw [hs] <;> decide +kernel)
  have a2 := Ex.holds_of_errLe hF N one_pos (le_refl 1) ht hl (p := eD) (sc := false) (A := 24 / 10) (c := 24 / 10 / 2 ^ (F.s + 1))
    (by rcases hs with hs | hs <;> rw [hs] <;> decide +kernel)
  refine Ex.holds_div hF N one_pos (le_refl 1) ht a1 a2 rfl (L := 165 / 100) ?_ ?_ ?_
  · rcases hs with hs | hs <;> rw [hs] <;> decide +kernel
  · show ((165 / 100 : ℚ) : ℝ) ≤ |2 - C|
    rw [abs_of_nonneg (by norm_num at hC ⊢; linarith)]
    push_cast; norm_num at hC ⊢; linarith
  · rcases hs with hs | hs <;> rw [hs] <;> decide +kernel

/-- the error of `q - lo + hi` -/
theorem vpart (hF : F.Big) (hs : F.s = 23 ∨ F.s = 52) (N : FPU F) {q lo hi : BitVec F.w} {Q L H : ℝ}
    (hq : Ex.Holds F 1 q Q ⟨8 / 100, 33 / 100 / 2 ^ (F.s + 1), false⟩) (hlo : GFv F lo L) (hhi : GFv F hi H) (hL : |L| ≤ 1 / 4096) (hH : |H| ≤ 0.347) :
    Ex.Holds F 1 (N.add (N.sub q lo) hi) (Q - L + H) ⟨43 / 100, 65 / 100 / 2 ^ (F.s + 1), false⟩ := by
  have hl : ∀ i, Ex.Holds F 1 (three q lo hi i) (three Q L H i) (iV F.s i) := by
    intro i
    match i with
    | 0 => exact hq
    | 1 => exact hlo.holds (by unfold Ex.sv; push_cast; norm_num at hL ⊢; exact hL)
    | _ + 2 => exact hhi.holds (by unfold Ex.sv; push_cast; norm_num at hH ⊢; exact hH)
  have ht : (1 : ℝ) / 2 ^ 150 ≤ ((1 / 2 ^ 150 : ℚ) : ℝ) * 1 := by push_cast; norm_num
  exact Ex.holds_of_errLe hF N one_pos (le_refl 1) ht hl (p := eV) (sc := false)
    (by rcases hs with hs | hs <;> rw [hs] <;> decide +kernel)

/-- the exact value is near the exponential -/
theorem ideal_near {u X H L C r : ℝ} (hu0 : 0 < u) (hu1 : u ≤ 1 / 2 ^ 20) (hX : |X| ≤ 0.3467) (hC : C ≤ 0.347)
    (hap : |(Real.exp X - 1) * (2 - C) - 2 * X| ≤ 0.05 * u) (hδ : |H - L - X| ≤ u / 4) (hr : |r - (H - L)| ≤ u / 1000) :
    |1 + (X * C / (2 - C) - L + H) - Real.exp r| ≤ 0.14 * u := by
  have hd : (1.653 : ℝ) ≤ 2 - C := by norm_num at hC ⊢; linarith
  have hd0 : (2 : ℝ) - C ≠ 0 := by intro h; rw [h] at hd; norm_num at hd
  set E := Real.exp X with hE
  have hER := Poly.exp_range (r := X) (by norm_num at hX ⊢; linarith)
  rw [← hE] at hER
  set ρ := r - X with hρ
  have hρ1 : |ρ| ≤ 0.251 * u := by
    have : ρ = (r - (H - L)) + (H - L - X) := by rw [hρ]; ring
    rw [this]
    refine (abs_add_le _ _).trans ?_
    linarith
  have hu1' : u ≤ 1 / 1048576 := by norm_num at hu1 ⊢; exact hu1
  have hη := Real.abs_exp_sub_one_sub_id_le (x := ρ) (hρ1.trans (by linarith))
  set η := Real.exp ρ - 1 - ρ with hηd
  have hη2 : |η| ≤ 0.0001 * u := by
    refine hη.trans ?_
    rw [← sq_abs]
    nlinarith [abs_nonneg ρ]
  have hexp : Real.exp r = E * (1 + ρ + η) := by
    rw [hE, show r = X + ρ by rw [hρ]; ring, Real.exp_add, hηd]; ring
  set A := ((E - 1) * (2 - C) - 2 * X) / (2 - C) with hA
  have hA1 : |A| ≤ 0.031 * u := by
    rw [hA, abs_div, div_le_iff₀ (by rw [abs_pos]; exact hd0), abs_of_pos (show (0 : ℝ) < 2 - C by linarith)]
    nlinarith
  have e1 : 1 + (X * C / (2 - C) - L + H) - Real.exp r = - A + ρ * (1 - E) - (r - (H - L)) - E * η := by
    rw [hexp, hA, hρ]
    field_simp
    ring
  rw [e1]
  have m1 : |ρ * (1 - E)| ≤ (0.251 * u) * 0.4147 := by
    rw [abs_mul]
    refine mul_le_mul hρ1 ?_ (abs_nonneg _) (by linarith)
    rw [abs_le]; norm_num at hER ⊢; constructor <;> linarith
  have m2 : |E * η| ≤ 1.4146 * (0.0001 * u) := by
    rw [abs_mul, abs_of_pos (by linarith [hER.1] : (0 : ℝ) < E)]
    exact mul_le_mul hER.2 hη2 (abs_nonneg _) (by norm_num)
  have m3 : |- A + ρ * (1 - E) - (r - (H - L)) - E * η| ≤ |A| + |ρ * (1 - E)| + |r - (H - L)| + |E * η| := by
    refine (abs_sub _ _).trans (add_le_add ((abs_sub _ _).trans (add_le_add ((abs_add_le _ _).trans ?_) (le_refl _))) (le_refl _))
    rw [abs_neg]
  linarith

/-- the result before scaling -/
theorem core (hF : F.Big) (hs : F.s = 23 ∨ F.s = 52) (N : FPU F) {x hi lo c one two : BitVec F.w} {X H L C r : ℝ} (hx : GFv F x X) (hhi : GFv F hi H)
    (hlo : GFv F lo L) (h1 : GFv F one 1) (h2 : GFv F two 2) (hc : Ex.Holds F 1 c C ⟨37 / 100, 3 / 10 / 2 ^ (F.s + 1), false⟩)
    (hX : |X| ≤ 0.3467) (hH : |H| ≤ 0.347) (hL : |L| ≤ 1 / 4096) (hC : C ≤ 0.347)
    (hap : |(Real.exp X - 1) * (2 - C) - 2 * X| ≤ 0.05 * (1 / 2 ^ (F.s + 1))) (hδ : |H - L - X| ≤ 1 / 2 ^ (F.s + 1) / 4)
    (hr : |r - (H - L)| ≤ 1 / 2 ^ (F.s + 1) / 1000) :
    ∃ Y, GFv F (N.add one (N.add (N.sub (N.div (N.mul x c) (N.sub two c)) lo) hi)) Y ∧ |Y - Real.exp r| ≤ 1.9 * (1 / 2 ^ (F.s + 1)) * Real.exp r ∧
      1 / 2 ≤ Y ∧ Y ≤ 2 := by
  have hu0 : (0 : ℝ) < 1 / 2 ^ (F.s + 1) := by positivity
  have hu1 : (1 : ℝ) / 2 ^ (F.s + 1) ≤ 1 / 2 ^ 20 := by
    refine one_div_le_one_div_of_le (by norm_num) (pow_le_pow_right₀ (by norm_num) ?_); rcases hs with h | h <;> omega
  have hz : ∀ k : ℤ, (2 : ℝ) ^ (k - F.s - 2) = 2 ^ (k - 1) * (1 / 2 ^ (F.s + 1)) := by
    intro k
    rw [show k - (F.s : ℤ) - 2 = (k - 1) - ((F.s + 1 : ℕ) : ℤ) by push_cast; ring, zpow_sub₀ (by norm_num), zpow_natCast]; ring
  have hq := frac hF hs N hx h2 hc hX hC
  obtain ⟨fv, av, ev⟩ := vpart hF hs N hq hlo hhi hL hH
  have hid := ideal_near hu0 hu1 hX hC hap hδ hr
  set v := N.add (N.sub (N.div (N.mul x c) (N.sub two c)) lo) hi
  have hrr : |r| ≤ 0.3468 := by
    have e : r = (r - (H - L)) + (H - L - X) + X := by ring
    rw [e]
    refine ((abs_add_le _ _).trans (add_le_add (abs_add_le _ _) (le_refl _))).trans ?_
    have : (1 : ℝ) / 2 ^ (F.s + 1) ≤ 1 / 1048576 := by norm_num at hu1 ⊢; exact hu1
    norm_num at hX this hδ hr ⊢
    linarith
  have hER := Poly.exp_range hrr
  have hb := h1.addR N (GFv.self fv)
  simp only [Ex.sv, Bool.false_eq_true, if_false, mul_one] at av ev
  have hue : ((65 / 100 / 2 ^ (F.s + 1) : ℚ) : ℝ) = 0.65 * (1 / 2 ^ (F.s + 1)) := by push_cast; norm_num; ring
  rw [hue] at ev
  have h127 := hF.bias
  have hY2 : |1 + F.valK ℝ v| ≤ 2 ^ (1 : ℤ) := by
    have := abs_add_le (F.valK ℝ v - (X * C / (2 - C) - L + H)) (X * C / (2 - C) - L + H)
    rw [sub_add_cancel] at this
    have h3 := abs_add_le 1 (F.valK ℝ v)
    have : (1 : ℝ) / 2 ^ (F.s + 1) ≤ 1 / 1048576 := by norm_num at hu1 ⊢; exact hu1
    push_cast at av
    norm_num at *
    linarith
  have hfin := hb.fin100 hF (hY2.trans (zpow_le_zpow_right₀ (by norm_num) (by norm_num)))
  refine ⟨_, ⟨hfin, rfl⟩, ?_⟩
  have hpre : |1 + F.valK ℝ v - Real.exp r| ≤ 0.8 * (1 / 2 ^ (F.s + 1)) := by
    have e : 1 + F.valK ℝ v - Real.exp r = (F.valK ℝ v - (X * C / (2 - C) - L + H)) + (1 + (X * C / (2 - C) - L + H) - Real.exp r) := by ring
    rw [e]
    refine (abs_add_le _ _).trans ?_
    linarith
  have e1 := hb.err F (k := 1) hY2 (by omega) (by omega)
  rw [hz] at e1
  norm_num at e1
  rw [← one_div] at e1
  have hu2 : (1 : ℝ) / 2 ^ (F.s + 1) ≤ 1 / 1048576 := by norm_num at hu1 ⊢; exact hu1
  have e0 : 1 + F.valK ℝ v ≤ 1 → |1 + F.valK ℝ v| ≤ 2 ^ (0 : ℤ) → |F.valK ℝ (N.add one v) - (1 + F.valK ℝ v)| ≤ 1 / 2 * (1 / 2 ^ (F.s + 1)) := by
    intro _ h
    have e2 := hb.err F (k := 0) h (by omega) (by omega)
    rw [hz] at e2
    norm_num at e2 ⊢
    exact e2
  generalize F.valK ℝ (N.add one v) = Y at *
  generalize F.valK ℝ v = W at *
  generalize Real.exp r = E at *
  have tri : |Y - E| ≤ |Y - (1 + W)| + |1 + W - E| := by
    have := abs_add_le (Y - (1 + W)) (1 + W - E); rwa [sub_add_sub_cancel] at this
  have hrel : |Y - E| ≤ 1.9 * (1 / 2 ^ (F.s + 1)) * E := by
    rcases le_or_gt (1 + W) 1 with hW | hW
    · have hW1 : |1 + W| ≤ 2 ^ (0 : ℤ) := by
        rw [abs_le] at hpre ⊢
        norm_num at *
        constructor <;> linarith [hpre.1]
      have e2 := e0 hW hW1
      generalize (1 : ℝ) / 2 ^ (F.s + 1) = u at *
      norm_num at e2 hpre hER ⊢
      nlinarith [hER.1]
    · have hE1 : 0.9999 ≤ E := by
        generalize (1 : ℝ) / 2 ^ (F.s + 1) = u at *
        rw [abs_le] at hpre
        norm_num at *
        linarith [hpre.2]
      generalize (1 : ℝ) / 2 ^ (F.s + 1) = u at *
      norm_num at hpre hE1 ⊢
      nlinarith
  refine ⟨hrel, ?_⟩
  generalize (1 : ℝ) / 2 ^ (F.s + 1) = u at *
  have h4 : |Y - E| ≤ 0.0001 := by
    norm_num at *; linarith
  rw [abs_le] at h4
  norm_num at *
  constructor <;> linarith [h4.1, h4.2]

end Exp
end Verif
