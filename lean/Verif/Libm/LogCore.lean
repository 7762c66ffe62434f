import Verif.Libm.LogR
import Verif.Libm.ExpCore
/-! # The common part of `log` and `logf`, in any format -/
namespace Verif
open Fmt

namespace Ex
variable {F : Fmt}
/-- a quotient, with a denominator of at least `L` and an exact value of at most `Q` -/
theorem holds_divQ (hF : F.Big) (N : FPU F) {σ : ℝ} (h0 : 0 < σ) (h1 : σ ≤ 1) {tiny : ℚ} (ht : 1 / 2 ^ 150 ≤ tiny * σ) {n d : BitVec F.w} {a b : ℝ}
    {x y : Bd} (hn : Holds F σ n a x) (hd : Holds F σ d b y) (hsc : y.sc = false) {L Q : ℚ} (hL : y.e < L) (hb : (L : ℝ) ≤ |b|)
    (hq : |a / b| ≤ (Q : ℝ) * sv σ x.sc) {A c : ℚ}
    (h : (match fin F.s tiny x.sc Q ((x.e + Q * y.e) / (L - y.e)) with
      | some r => decide (r.A ≤ A) && decide (r.e ≤ c)
      | none => false) = true) :
    Holds F σ (N.div n d) (a / b) ⟨A, c, x.sc⟩ := by
  obtain ⟨fn, an, en⟩ := hn
  obtain ⟨fd, ad, ed⟩ := hd
  have hs : 0 < sv σ x.sc := by unfold sv; split <;> linarith
  have hsy : sv σ y.sc = 1 := by rw [hsc]; rfl
  rw [hsy, mul_one] at ad ed
  have hye : (0 : ℝ) ≤ y.e := (abs_nonneg _).trans ed
  have hLR : (y.e : ℝ) < L := by exact_mod_cast hL
  have hL0 : (0 : ℝ) < L := by linarith
  have hb0 : b ≠ 0 := by intro hh; rw [hh, abs_zero] at hb; linarith
  set v1 := F.valK ℝ n
  set v2 := F.valK ℝ d
  have hv2 : (L : ℝ) - y.e ≤ |v2| := by
    have h2 := abs_sub_abs_le_abs_sub b v2
    rw [abs_sub_comm b v2] at h2
    linarith
  have hv2p : (0 : ℝ) < |v2| := by linarith
  have hv20 : v2 ≠ 0 := abs_pos.mp hv2p
  have he : |v1 / v2 - a / b| ≤ (((x.e + Q * y.e) / (L - y.e) : ℚ) : ℝ) * sv σ x.sc := by
    have e1 : v1 / v2 - a / b = ((v1 - a) - a / b * (v2 - b)) / v2 := by field_simp; ring
    rw [e1, abs_div, div_le_iff₀ hv2p]
    have m1 : |a / b * (v2 - b)| ≤ (Q : ℝ) * sv σ x.sc * y.e := by
      rw [abs_mul]; exact mul_le_mul hq ed (abs_nonneg _) ((abs_nonneg _).trans hq)
    have m2 : |(v1 - a) - a / b * (v2 - b)| ≤ x.e * sv σ x.sc + (Q : ℝ) * sv σ x.sc * y.e :=
      (abs_sub _ _).trans (add_le_add en m1)
    refine m2.trans ?_
    have hT0 : (0 : ℝ) ≤ x.e * sv σ x.sc + (Q : ℝ) * sv σ x.sc * y.e := (abs_nonneg _).trans m2
    push_cast at hT0 ⊢
    have : ((x.e : ℝ) + Q * y.e) / (L - y.e) * sv σ x.sc * |v2| = (x.e * sv σ x.sc + Q * sv σ x.sc * y.e) * (|v2| / (L - y.e)) := by
      field_simp
    rw [this]
    have h2 : 1 ≤ |v2| / (L - y.e) := by rw [le_div_iff₀ (by linarith)]; linarith
    nlinarith
  split at h
  case h_2 => simp at h
  case h_1 r hr =>
  rw [Bool.and_eq_true, decide_eq_true_iff, decide_eq_true_iff] at h
  have := holds_round hF h0 h1 ht hr (Fmt.divR N fn fd hv20) hq he
  have hrsc : r.sc = x.sc := by
    unfold fin at hr
    split at hr
    · have := Option.some.inj hr; rw [← this]
    · exact absurd hr (by simp)
  have := this.mono h0 h.1 h.2
  rwa [hrsc] at this
end Ex

namespace GFv
variable {F : Fmt} {a z : BitVec F.w} {v : ℝ}
/-- adding zero -/
theorem add_zero' (hF : F.Big) (N : FPU F) (ha : GFv F a v) (hz : GFv F z 0) (hv : |v| ≤ 2 ^ (100 : ℤ)) : GFv F (N.add a z) v := by
  have h := ha.addR N hz
  rw [add_zero] at h
  have h127 := hF.bias
  refine ⟨h.fin100 hF hv, h.exactR F ⟨F.mag a, ?_⟩ (hv.trans (zpow_le_zpow_right₀ (by norm_num) (by omega)))⟩
  rw [ha.abs_eq]
end GFv

namespace Log
variable {F : Fmt}

/-- the leaves of a program -/
def four {α} (a b c d : α) : ℕ → α
  | 0 => a
  | 1 => b
  | 2 => c
  | _ => d

/-- `s = f / (2 + f)` and the bound of it -/
theorem s_le {f s : ℝ} (hs : s = f / (2 + f)) (h0 : -0.2929 ≤ f) (h1 : f ≤ 0.41422) : |s| ≤ 0.1716 := by
  have hp : (0 : ℝ) < 2 + f := by norm_num at h0; linarith
  rw [hs, abs_div, abs_of_pos hp, div_le_iff₀ hp, abs_le]
  norm_num at *
  constructor <;> linarith

section
variable (hF : F.Big) (hs : F.s = 23 ∨ F.s = 52) (N : FPU F) {f two : BitVec F.w} {X : ℝ} (hf : GFv F f X) (h2 : GFv F two 2)
include hF hs hf h2

theorem den_spec {σ : ℝ} (h0 : 0 < σ) (h1 : σ ≤ 1) (ht : (1 : ℝ) / 2 ^ 150 ≤ ((1 / 2 ^ 90 : ℚ) : ℝ) * σ) (hX0 : -0.2929 ≤ X) (hX1 : X ≤ 0.41422) :
    Ex.Holds F σ (N.add two f) (2 + X) ⟨25 / 10, 2001 / 1000 / 2 ^ (F.s + 1), false⟩ := by
  have hl : ∀ i, Ex.Holds F σ (four two f f f i) (four 2 X X X i) (four ⟨2, 0, false⟩ ⟨41422 / 100000, 0, false⟩ ⟨41422 / 100000, 0, false⟩ ⟨41422 / 100000, 0, false⟩ i) := by
    have hx : Ex.Holds F σ f X ⟨41422 / 100000, 0, false⟩ := hf.holds (by
      unfold Ex.sv; push_cast; norm_num at hX0 hX1 ⊢; rw [abs_le]; constructor <;> linarith)
    intro i
    match i with
    | 0 => exact h2.holds (by unfold Ex.sv; norm_num)
    | 1 => exact hx
    | 2 => exact hx
    | _ + 3 => exact hx
  exact Ex.holds_of_errLe hF N h0 h1 ht hl (p := .add (.leaf 0) (.leaf 1)) (sc := false)
    (by rcases hs with hs | hs <;> rw [hs] <;> decide +kernel)

/-- `s` -/
theorem s_spec (hX0 : -0.2929 ≤ X) (hX1 : X ≤ 0.41422) :
    Ex.Holds F 1 (N.div f (N.add two f)) (X / (2 + X)) ⟨1717 / 10000, 33 / 100 / 2 ^ (F.s + 1), false⟩ := by
  have ht : (1 : ℝ) / 2 ^ 150 ≤ ((1 / 2 ^ 90 : ℚ) : ℝ) * 1 := by push_cast; norm_num
  have hd := den_spec hF hs N hf h2 one_pos (le_refl 1) ht hX0 hX1
  have hx : Ex.Holds F 1 f X ⟨41422 / 100000, 0, false⟩ := hf.holds (by
    unfold Ex.sv; push_cast; norm_num at hX0 hX1 ⊢; rw [abs_le]; constructor <;> linarith)
  refine Ex.holds_divQ hF N one_pos (le_refl 1) ht hx hd rfl (L := 17071 / 10000) (Q := 1716 / 10000) ?_ ?_ ?_ ?_
  · rcases hs with hs | hs <;> rw [hs] <;> decide +kernel
  · refine le_trans ?_ (le_abs_self _); push_cast; norm_num at *; linarith
  · have := s_le rfl hX0 hX1
    simp only [Ex.sv]; push_cast; norm_num at *; exact this
  · rcases hs with hs | hs <;> rw [hs] <;> decide +kernel

/-- `s`, relative to `f`, which is positive -/
theorem s_pos (hX0 : 0 < X) (hX1 : X ≤ 0.41422) (ht : (1 : ℝ) / 2 ^ 150 ≤ ((1 / 2 ^ 90 : ℚ) : ℝ) * |X|) :
    Ex.Holds F |X| (N.div f (N.add two f)) (X / (2 + X)) ⟨501 / 1000, 1001 / 1000 / 2 ^ (F.s + 1), true⟩ := by
  have hXa : |X| ≤ 1 := by rw [abs_of_pos hX0]; norm_num at hX1 ⊢; linarith
  have hd := den_spec hF hs N hf h2 (abs_pos.mpr hX0.ne') hXa ht (by norm_num; linarith) hX1
  have hx : Ex.Holds F |X| f X ⟨1, 0, true⟩ := hf.holds (by simp [Ex.sv])
  refine Ex.holds_divQ hF N (abs_pos.mpr hX0.ne') hXa ht hx hd rfl (L := 2) (Q := 1 / 2) ?_ ?_ ?_ ?_
  · rcases hs with hs | hs <;> rw [hs] <;> decide +kernel
  · refine le_trans ?_ (le_abs_self _); push_cast; linarith
  · simp only [Ex.sv]
    rw [abs_div, abs_of_pos (show (0 : ℝ) < 2 + X by linarith), div_le_iff₀ (by linarith)]
    push_cast
    nlinarith [abs_nonneg X]
  · rcases hs with hs | hs <;> rw [hs] <;> decide +kernel

/-- `s`, relative to `f`, which is negative -/
theorem s_neg (hX0 : -0.2929 ≤ X) (hX1 : X < 0) (ht : (1 : ℝ) / 2 ^ 150 ≤ ((1 / 2 ^ 90 : ℚ) : ℝ) * |X|) :
    Ex.Holds F |X| (N.div f (N.add two f)) (X / (2 + X)) ⟨586 / 1000, 128 / 100 / 2 ^ (F.s + 1), true⟩ := by
  have hXa : |X| ≤ 1 := by rw [abs_of_neg hX1]; norm_num at hX0 ⊢; linarith
  have hd := den_spec hF hs N hf h2 (abs_pos.mpr hX1.ne) hXa ht hX0 (by norm_num; linarith)
  have hx : Ex.Holds F |X| f X ⟨1, 0, true⟩ := hf.holds (by simp [Ex.sv])
  have hp : (1.7071 : ℝ) ≤ 2 + X := by norm_num at hX0 ⊢; linarith
  refine Ex.holds_divQ hF N (abs_pos.mpr hX1.ne) hXa ht hx hd rfl (L := 17071 / 10000) (Q := 5859 / 10000) ?_ ?_ ?_ ?_
  · rcases hs with hs | hs <;> rw [hs] <;> decide +kernel
  · refine le_trans ?_ (le_abs_self _); push_cast; norm_num at hp ⊢; linarith
  · simp only [Ex.sv]
    rw [abs_div, abs_of_pos (show (0 : ℝ) < 2 + X by norm_num at hp; linarith), div_le_iff₀ (by norm_num at hp; linarith)]
    push_cast
    norm_num at hp ⊢
    nlinarith [abs_nonneg X]
  · rcases hs with hs | hs <;> rw [hs] <;> decide +kernel


omit hs h2 in
/-- `0.5 * f` -/
theorem half_spec {half : BitVec F.w} (hh : GFv F half (1 / 2)) (hg : Mul2 (-1 - (F.s : ℤ)) X) (hX : |X| ≤ 1) : GFv F (N.mul half f) (X / 2) := by
  have h127 := hF.bias
  have h := hh.mulR N hf
  have e : (1 / 2 : ℝ) * X = X / 2 := by ring
  rw [e] at h
  refine GFv.of_rounds hF h (j := -2 - (F.s : ℤ)) ?_ ?_ (by omega) ?_
  · obtain ⟨m, hm⟩ := hg
    refine ⟨m, ?_⟩
    rw [hm, show -1 - (F.s : ℤ) = 1 + (-2 - (F.s : ℤ)) by ring, zpow_add₀ (by norm_num)]
    ring
  · rw [show -2 - (F.s : ℤ) + F.s + 1 = -1 by ring, abs_div]; norm_num; linarith
  · rw [abs_div]; norm_num; linarith

end

section
variable (hF : F.Big) (hs : F.s = 23 ∨ F.s = 52) (N : FPU F) {f half r : BitVec F.w} {X R : ℝ} (hf : GFv F f X) (hh : GFv F (N.mul half f) (X / 2))
  (hr : Ex.Holds F 1 r R ⟨2 / 100, 14 / 100 / 2 ^ (F.s + 1), false⟩)
include hF hs hf hh hr

/-- `hfsq` and `hfsq + r` -/
theorem q_spec (hX0 : -0.2929 ≤ X) (hX1 : X ≤ 0.41422) :
    Ex.Holds F 1 (N.mul (N.mul half f) f) (X / 2 * X) ⟨859 / 10000, 626 / 10000 / 2 ^ (F.s + 1), false⟩ ∧
    Ex.Holds F 1 (N.add (N.mul (N.mul half f) f) r) (X / 2 * X + R) ⟨1059 / 10000, 266 / 1000 / 2 ^ (F.s + 1), false⟩ := by
  have ht : (1 : ℝ) / 2 ^ 150 ≤ ((1 / 2 ^ 90 : ℚ) : ℝ) * 1 := by push_cast; norm_num
  have hl : ∀ i, Ex.Holds F 1 (four (N.mul half f) f r r i) (four (X / 2) X R R i)
      (four ⟨20711 / 100000, 0, false⟩ ⟨41422 / 100000, 0, false⟩ ⟨2 / 100, 14 / 100 / 2 ^ (F.s + 1), false⟩ ⟨2 / 100, 14 / 100 / 2 ^ (F.s + 1), false⟩ i) := by
    intro i
    match i with
    | 0 => exact hh.holds (by unfold Ex.sv; push_cast; norm_num at hX0 hX1 ⊢; rw [abs_le]; constructor <;> linarith)
    | 1 => exact hf.holds (by unfold Ex.sv; push_cast; norm_num at hX0 hX1 ⊢; rw [abs_le]; constructor <;> linarith)
    | 2 => exact hr
    | _ + 3 => exact hr
  exact ⟨Ex.holds_of_errLe hF N one_pos (le_refl 1) ht hl (p := .mul (.leaf 0) (.leaf 1)) (sc := false)
    (by rcases hs with hs | hs <;> rw [hs] <;> decide +kernel),
    Ex.holds_of_errLe hF N one_pos (le_refl 1) ht hl (p := .add (.mul (.leaf 0) (.leaf 1)) (.leaf 2)) (sc := false)
    (by rcases hs with hs | hs <;> rw [hs] <;> decide +kernel)⟩

theorem q_neg (hX0 : -0.2929 ≤ X) (hX1 : X ≤ 0) :
    Ex.Holds F 1 (N.add (N.mul (N.mul half f) f) r) (X / 2 * X + R) ⟨63 / 1000, 24 / 100 / 2 ^ (F.s + 1), false⟩ := by
  have ht : (1 : ℝ) / 2 ^ 150 ≤ ((1 / 2 ^ 90 : ℚ) : ℝ) * 1 := by push_cast; norm_num
  have hl : ∀ i, Ex.Holds F 1 (four (N.mul half f) f r r i) (four (X / 2) X R R i)
      (four ⟨14645 / 100000, 0, false⟩ ⟨2929 / 10000, 0, false⟩ ⟨2 / 100, 14 / 100 / 2 ^ (F.s + 1), false⟩ ⟨2 / 100, 14 / 100 / 2 ^ (F.s + 1), false⟩ i) := by
    intro i
    match i with
    | 0 => exact hh.holds (by unfold Ex.sv; push_cast; norm_num at hX0 hX1 ⊢; rw [abs_le]; constructor <;> linarith)
    | 1 => exact hf.holds (by unfold Ex.sv; push_cast; norm_num at hX0 hX1 ⊢; rw [abs_le]; constructor <;> linarith)
    | 2 => exact hr
    | _ + 3 => exact hr
  exact Ex.holds_of_errLe hF N one_pos (le_refl 1) ht hl (p := .add (.mul (.leaf 0) (.leaf 1)) (.leaf 2)) (sc := false)
    (by rcases hs with hs | hs <;> rw [hs] <;> decide +kernel)

end

/-- a `Holds` without scale, for any scale -/
theorem _root_.Verif.Ex.Holds.anyσ {σ : ℝ} {b : BitVec F.w} {a : ℝ} {A e : ℚ} (h : Ex.Holds F 1 b a ⟨A, e, false⟩) : Ex.Holds F σ b a ⟨A, e, false⟩ := h

section
variable (hF : F.Big) (hs : F.s = 23 ∨ F.s = 52) (N : FPU F) {f half two r : BitVec F.w} {X R : ℝ} (hf : GFv F f X) (h2 : GFv F two 2)
  (hh : GFv F (N.mul half f) (X / 2)) (hr : Ex.Holds F 1 r R ⟨2 / 100, 14 / 100 / 2 ^ (F.s + 1), false⟩)
include hF hs hf h2 hh hr

/-- `s * (hfsq + r)`, relative to `f` -/
theorem m_spec (hX0 : -0.2929 ≤ X) (hX1 : X ≤ 0.41422) (hne : X ≠ 0) (ht : (1 : ℝ) / 2 ^ 150 ≤ ((1 / 2 ^ 90 : ℚ) : ℝ) * |X|) :
    Ex.Holds F |X| (N.mul (N.div f (N.add two f)) (N.add (N.mul (N.mul half f) f) r))
      (X / (2 + X) * (X / 2 * X + R)) ⟨54 / 1000, 295 / 1000 / 2 ^ (F.s + 1), true⟩ := by
  have hXa : |X| ≤ 1 := by rw [abs_le]; norm_num at *; constructor <;> linarith
  have hσ := abs_pos.mpr hne
  rcases lt_or_gt_of_ne hne with h | h
  · have a1 := s_neg hF hs N hf h2 hX0 h ht
    have a2 := q_neg hF hs N hf hh hr hX0 h.le
    have hl : ∀ i, Ex.Holds F |X| (Exp.three (N.div f (N.add two f)) (N.add (N.mul (N.mul half f) f) r) f i) (Exp.three (X / (2 + X)) (X / 2 * X + R) X i)
        (Exp.three ⟨586 / 1000, 128 / 100 / 2 ^ (F.s + 1), true⟩ ⟨63 / 1000, 24 / 100 / 2 ^ (F.s + 1), false⟩ ⟨1, 0, true⟩ i) := by
      intro i
      match i with
      | 0 => exact a1
      | 1 => exact a2.anyσ
      | _ + 2 => exact hf.holds (by simp [Ex.sv])
    exact Ex.holds_of_errLe hF N hσ hXa ht hl (p := .mul (.leaf 0) (.leaf 1)) (sc := true)
      (by rcases hs with hs | hs <;> rw [hs] <;> decide +kernel)
  · have a1 := s_pos hF hs N hf h2 h hX1 ht
    have a2 := (q_spec hF hs N hf hh hr hX0 hX1).2
    have hl : ∀ i, Ex.Holds F |X| (Exp.three (N.div f (N.add two f)) (N.add (N.mul (N.mul half f) f) r) f i) (Exp.three (X / (2 + X)) (X / 2 * X + R) X i)
        (Exp.three ⟨501 / 1000, 1001 / 1000 / 2 ^ (F.s + 1), true⟩ ⟨1059 / 10000, 266 / 1000 / 2 ^ (F.s + 1), false⟩ ⟨1, 0, true⟩ i) := by
      intro i
      match i with
      | 0 => exact a1
      | 1 => exact a2.anyσ
      | _ + 2 => exact hf.holds (by simp [Ex.sv])
    exact Ex.holds_of_errLe hF N hσ hXa ht hl (p := .mul (.leaf 0) (.leaf 1)) (sc := true)
      (by rcases hs with hs | hs <;> rw [hs] <;> decide +kernel)

omit h2 hr in
/-- `m - hfsq`, relative to `f` -/
theorem p_spec (hX0 : -0.2929 ≤ X) (hX1 : X ≤ 0.41422) (hne : X ≠ 0) (ht : (1 : ℝ) / 2 ^ 150 ≤ ((1 / 2 ^ 90 : ℚ) : ℝ) * |X|) {m : BitVec F.w} {Y : ℝ}
    (hm : Ex.Holds F |X| m Y ⟨54 / 1000, 295 / 1000 / 2 ^ (F.s + 1), true⟩) :
    Ex.Holds F |X| (N.sub m (N.mul (N.mul half f) f)) (Y - X / 2 * X) ⟨27 / 100, 77 / 100 / 2 ^ (F.s + 1), true⟩ := by
  have hXa : |X| ≤ 1 := by rw [abs_le]; norm_num at *; constructor <;> linarith
  have hl : ∀ i, Ex.Holds F |X| (Exp.three m (N.mul half f) f i) (Exp.three Y (X / 2) X i)
      (Exp.three ⟨54 / 1000, 295 / 1000 / 2 ^ (F.s + 1), true⟩ ⟨20711 / 100000, 0, false⟩ ⟨1, 0, true⟩ i) := by
    intro i
    match i with
    | 0 => exact hm
    | 1 => exact hh.holds (by unfold Ex.sv; push_cast; norm_num at hX0 hX1 ⊢; rw [abs_le]; constructor <;> linarith)
    | _ + 2 => exact hf.holds (by simp [Ex.sv])
  exact Ex.holds_of_errLe hF N (abs_pos.mpr hne) hXa ht hl (p := .sub (.leaf 0) (.mul (.leaf 1) (.leaf 2))) (sc := true)
    (by rcases hs with hs | hs <;> rw [hs] <;> decide +kernel)

/-- `s * (hfsq + r) + l - hfsq` -/
theorem p_any (hX0 : -0.2929 ≤ X) (hX1 : X ≤ 0.41422) {l : BitVec F.w} {L : ℝ} (hl : Ex.Holds F 1 l L ⟨14 / 10000, 1 / 100 / 2 ^ (F.s + 1), false⟩) :
    Ex.Holds F 1 (N.sub (N.add (N.mul (N.div f (N.add two f)) (N.add (N.mul (N.mul half f) f) r)) l) (N.mul (N.mul half f) f))
      (X / (2 + X) * (X / 2 * X + R) + L - X / 2 * X) ⟨11 / 100, 26 / 100 / 2 ^ (F.s + 1), false⟩ := by
  have ht : (1 : ℝ) / 2 ^ 150 ≤ ((1 / 2 ^ 90 : ℚ) : ℝ) * 1 := by push_cast; norm_num
  have a1 := s_spec hF hs N hf h2 hX0 hX1
  have a2 := q_spec hF hs N hf hh hr hX0 hX1
  have hl : ∀ i, Ex.Holds F 1 (four (N.div f (N.add two f)) (N.add (N.mul (N.mul half f) f) r) l (N.mul (N.mul half f) f) i)
      (four (X / (2 + X)) (X / 2 * X + R) L (X / 2 * X) i)
      (four ⟨1717 / 10000, 33 / 100 / 2 ^ (F.s + 1), false⟩ ⟨1059 / 10000, 266 / 1000 / 2 ^ (F.s + 1), false⟩ ⟨14 / 10000, 1 / 100 / 2 ^ (F.s + 1), false⟩
        ⟨859 / 10000, 626 / 10000 / 2 ^ (F.s + 1), false⟩ i) := by
    intro i
    match i with
    | 0 => exact a1
    | 1 => exact a2.2
    | 2 => exact hl
    | _ + 3 => exact a2.1
  exact Ex.holds_of_errLe hF N one_pos (le_refl 1) ht hl (p := .sub (.add (.mul (.leaf 0) (.leaf 1)) (.leaf 2)) (.leaf 3)) (sc := false)
    (by rcases hs with hs | hs <;> rw [hs] <;> decide +kernel)
end

/-- a nonzero multiple is not small -/
theorem mul2_min {j : ℤ} {X : ℝ} (hg : Mul2 j X) (hne : X ≠ 0) : (2 : ℝ) ^ j ≤ |X| := by
  obtain ⟨m, hm⟩ := hg
  have hm0 : m ≠ 0 := by rintro rfl; simp at hm; exact hne hm
  have : (1 : ℝ) ≤ |(m : ℝ)| := by exact_mod_cast Int.one_le_abs hm0
  rw [hm, abs_mul, abs_of_pos (show (0 : ℝ) < 2 ^ j by positivity)]
  exact le_mul_of_one_le_left (by positivity) this

/-- the exact value before the last sums -/
theorem ideal_eq {X R : ℝ} (hX : -1 < X) : X / (2 + X) * (X / 2 * X + R) - X / 2 * X + X = X / (2 + X) * (2 + R) := by
  have : (2 + X) ≠ 0 := by linarith
  field_simp
  ring

section
variable (hF : F.Big) (hs : F.s = 23 ∨ F.s = 52) (N : FPU F) {f half two r : BitVec F.w} {X R : ℝ} (hf : GFv F f X) (h2 : GFv F two 2)
  (hh : GFv F (N.mul half f) (X / 2)) (hr : Ex.Holds F 1 r R ⟨2 / 100, 14 / 100 / 2 ^ (F.s + 1), false⟩) (hR : 0 ≤ R)
  (hap : |Real.log (1 + X) - X / (2 + X) * (2 + R)| ≤ 0.04 * (1 / 2 ^ (F.s + 1)) * |X / (2 + X)|) (hX0 : -0.2929 ≤ X) (hX1 : X ≤ 0.41422)
include hF hs hf h2 hh hr hR hap hX0 hX1

/-- the result with `k = 0` -/
theorem core0 (hmin : (2 : ℝ) ^ (-1 - (F.s : ℤ)) ≤ |X|) (hne : X ≠ 0) {l z : BitVec F.w} (hl : GFv F l 0) (hz : GFv F z 0) :
    ∃ W, GFv F (N.add (N.add (N.sub (N.add (N.mul (N.div f (N.add two f)) (N.add (N.mul (N.mul half f) f) r)) l) (N.mul (N.mul half f) f)) f) z) W ∧
      |W - Real.log (1 + X)| ≤ 2 * (1 / 2 ^ (F.s + 1)) * |Real.log (1 + X)| := by
  have hXp : 0 < |X| := abs_pos.mpr hne
  have hX9 : |X| ≤ 0.41422 := by rw [abs_le]; norm_num at *; constructor <;> linarith
  have ht : (1 : ℝ) / 2 ^ 150 ≤ ((1 / 2 ^ 90 : ℚ) : ℝ) * |X| := by
    have : (2 : ℝ) ^ (-60 : ℤ) ≤ 2 ^ (-1 - (F.s : ℤ)) := zpow_le_zpow_right₀ (by norm_num) (by rcases hs with h | h <;> rw [h] <;> norm_num)
    have h3 := this.trans hmin
    push_cast
    norm_num at h3 ⊢
    linarith
  set u : ℝ := 1 / 2 ^ (F.s + 1) with hu
  have hu0 : 0 < u := by positivity
  have hu1 : (1 : ℝ) / 2 ^ 53 ≤ u := one_div_le_one_div_of_le (by positivity) (pow_le_pow_right₀ (by norm_num) (by rcases hs with h | h <;> omega))
  have hu2 : u ≤ 1 / 2 ^ 20 := one_div_le_one_div_of_le (by norm_num) (pow_le_pow_right₀ (by norm_num) (by rcases hs with h | h <;> omega))
  have hm := m_spec hF hs N hf h2 hh hr hX0 hX1 hne ht
  have hm9 : |F.valK ℝ (N.mul (N.div f (N.add two f)) (N.add (N.mul (N.mul half f) f) r))| ≤ 2 ^ (100 : ℤ) := by
    have h5 := hm.2.1
    have h6 := hm.2.2
    simp only [Ex.sv, if_true] at h5 h6
    have h7 := abs_sub_abs_le_abs_sub (F.valK ℝ (N.mul (N.div f (N.add two f)) (N.add (N.mul (N.mul half f) f) r))) (X / (2 + X) * (X / 2 * X + R))
    push_cast at h5 h6
    have h8 : (295 : ℝ) / 1000 / 2 ^ (F.s + 1) = 0.295 * u := by rw [hu]; ring
    rw [h8] at h6
    norm_num at h5 h6 h7 hX9 hu2 ⊢
    nlinarith
  have hadd := GFv.add_zero' hF N ⟨hm.1, rfl⟩ hl hm9
  have hP := p_spec hF hs N hf hh hX0 hX1 hne ht (m := N.add (N.mul (N.div f (N.add two f)) (N.add (N.mul (N.mul half f) f) r)) l)
    ⟨hadd.fin, hm.2.1, by rw [hadd.val]; exact hm.2.2⟩
  generalize N.sub (N.add (N.mul (N.div f (N.add two f)) (N.add (N.mul (N.mul half f) f) r)) l) (N.mul (N.mul half f) f) = P at hP ⊢
  obtain ⟨p1, p2, p3⟩ := hP
  simp only [Ex.sv, if_true] at p2 p3
  have hPv : GFv F P (F.valK ℝ P) := ⟨p1, rfl⟩
  generalize F.valK ℝ P = p at hPv p3
  have e8 : (((77 / 100 / 2 ^ (F.s + 1) : ℚ)) : ℝ) = 0.77 * u := by push_cast; rw [hu]; ring
  rw [e8] at p3
  have hid := ideal_eq (R := R) (X := X) (by norm_num at hX0; linarith)
  set s := X / (2 + X) with hsd
  have h2X : (0 : ℝ) < 2 + X := by norm_num at hX0; linarith
  have hs1 : |X| ≤ 2.41422 * |s| := by
    rw [hsd, abs_div, abs_of_pos h2X, ← mul_div_assoc, le_div_iff₀ h2X]
    norm_num at hX1 ⊢; nlinarith
  have hs2 : |s| ≤ 0.586 * |X| := by
    rw [hsd, abs_div, abs_of_pos h2X, div_le_iff₀ h2X]
    norm_num at hX0 ⊢; nlinarith
  set ℓ := Real.log (1 + X) with hℓ
  -- the value is not small
  have hℓ1 : 0.828 * |X| ≤ |ℓ| := by
    have h5 : |s * (2 + R)| = |s| * (2 + R) := by rw [abs_mul, abs_of_nonneg (show (0 : ℝ) ≤ 2 + R by linarith)]
    have h6 := abs_sub_abs_le_abs_sub (s * (2 + R)) ℓ
    rw [abs_sub_comm, h5] at h6
    have h7 : 0.04 * u * |s| ≤ 0.0001 * |s| := by
      refine mul_le_mul_of_nonneg_right ?_ (abs_nonneg _)
      norm_num at hu2 ⊢; linarith
    have h8 : 0 ≤ |s| * R := mul_nonneg (abs_nonneg _) hR
    norm_num at hs1 h7 ⊢
    nlinarith
  have hv : |p + X - ℓ| ≤ 0.795 * u * |X| := by
    have e : p + X - ℓ = (p - (s * (X / 2 * X + R) - X / 2 * X)) - (ℓ - s * (2 + R)) := by rw [← hid]; ring
    rw [e]
    refine (abs_sub _ _).trans ?_
    have : 0.04 * u * |s| ≤ 0.04 * u * (0.586 * |X|) := mul_le_mul_of_nonneg_left hs2 (by positivity)
    have h9 : 0 ≤ u * |X| := by positivity
    norm_num at *
    linarith
  have hv2 : |p + X| ≤ |ℓ| + 0.001 * |X| := by
    have h6 := abs_sub_abs_le_abs_sub (p + X) ℓ
    have : 0.795 * u * |X| ≤ 0.001 * |X| := by
      refine mul_le_mul_of_nonneg_right ?_ (abs_nonneg _)
      norm_num at hu2 ⊢; linarith
    linarith
  have hv9 : |p + X| ≤ 2 ^ (100 : ℤ) := by
    have h6 := abs_sub_abs_le_abs_sub (p + X) X
    have e : p + X - X = (p - (s * (X / 2 * X + R) - X / 2 * X)) + (s * (X / 2 * X + R) - X / 2 * X) := by ring
    rw [e] at h6
    have h7 := h6.trans (abs_add_le _ _)
    have h8 : 0.77 * u * |X| ≤ 1 * |X| := by
      refine mul_le_mul_of_nonneg_right ?_ (abs_nonneg _)
      norm_num at hu2 ⊢; linarith
    push_cast at p2
    norm_num at *
    linarith
  obtain ⟨w, hw, hwe⟩ := GFv.rnd hF (hPv.addR N hf) hv9
  rw [← hu] at hwe
  have hw9 : |w| ≤ 2 ^ (100 : ℤ) := by
    have h6 := abs_sub_abs_le_abs_sub w (p + X)
    have h7 : u * |p + X| ≤ 1 * |p + X| := mul_le_mul_of_nonneg_right (by norm_num at hu2 ⊢; linarith) (abs_nonneg _)
    have h8 : |ℓ| ≤ 1 := by
      have h9 := abs_sub_abs_le_abs_sub ℓ (p + X)
      rw [abs_sub_comm] at h9
      have h6 := abs_sub_abs_le_abs_sub (p + X) X
      have e : p + X - X = (p - (s * (X / 2 * X + R) - X / 2 * X)) + (s * (X / 2 * X + R) - X / 2 * X) := by ring
      rw [e] at h6
      have h7 := h6.trans (abs_add_le _ _)
      have h8 : 0.77 * u * |X| ≤ 0.1 * |X| := by
        refine mul_le_mul_of_nonneg_right ?_ (abs_nonneg _)
        norm_num at hu2 ⊢; linarith
      have h8' : 0.795 * u * |X| ≤ 0.1 * |X| := by
        refine mul_le_mul_of_nonneg_right ?_ (abs_nonneg _)
        norm_num at hu2 ⊢; linarith
      push_cast at p2
      norm_num at *
      linarith
    norm_num at *
    linarith
  refine ⟨w, hw.add_zero' hF N hz hw9, ?_⟩
  have e : w - ℓ = (w - (p + X)) + (p + X - ℓ) := by ring
  rw [e]
  refine (abs_add_le _ _).trans ?_
  have ht2 : (1 : ℝ) / 2 ^ 150 ≤ 0.001 * u * |X| := by
    refine ht.trans (mul_le_mul_of_nonneg_right ?_ (abs_nonneg _))
    push_cast
    norm_num at hu1 ⊢; linarith
  have h5 : u * |p + X| ≤ u * (|ℓ| + 0.001 * |X|) := mul_le_mul_of_nonneg_left hv2 hu0.le
  have h6 : u * (0.828 * |X|) ≤ u * |ℓ| := mul_le_mul_of_nonneg_left hℓ1 hu0.le
  have h7 : 0 ≤ u * |X| := by positivity
  norm_num at *
  linarith
end
end Log
end Verif
