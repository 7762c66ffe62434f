import Verif.Libm.AtanCore
import Verif.Libm.LogRed
/-! # The cases of `atan` and `atanf`, in any format -/
namespace Verif
open Fmt
namespace Atan
variable {F : Fmt}

/-- what is used of the polynomial: `p` computes some `S` with `t - t S` near `arctan t` -/
def PolyOk (F : Fmt) (p : BitVec F.w → BitVec F.w) (b Sm eS B : ℝ) : Prop :=
  ∀ t T, GFv F t T → |T| ≤ b → ∃ Sv Sr, GFv F (p t) Sv ∧ |Sv - Sr| ≤ eS * (1 / 2 ^ (F.s + 1)) ∧ |Sr| ≤ Sm ∧
    |Real.arctan T - (T - T * Sr)| ≤ B * (1 / 2 ^ (F.s + 1)) * |T|

/-- the constants for a case -/
structure Tab (F : Fmt) (hi lo : BitVec F.w) (A : ℝ) : Prop where
  c : ∃ H L, GFv F hi H ∧ GFv F lo L ∧ |H + L - A| ≤ 1 / 1000 * (1 / 2 ^ (F.s + 1)) ∧ |L| ≤ 1 / 10 ^ 6

section
variable (hF : F.Big) (hs : F.s = 23 ∨ F.s = 52) (N : FPU F)
include hF hs

theorem out {p : BitVec F.w → BitVec F.w} {b Sm eS B : ℝ} (hp : PolyOk F p b Sm eS B) (hb : b ≤ 1 / 2) (hSm : Sm ≤ 1 / 10) (heS0 : 0 ≤ eS) (heS : eS ≤ 1 / 2) (hB0 : 0 ≤ B) (hB : B ≤ 1 / 2)
    {t hi lo : BitVec F.w} {T t0 A θ τ : ℝ} (hT : GFv F t T) (h1 : |T - t0| ≤ τ * (1 / 2 ^ (F.s + 1)) * |t0| + 1 / 2 ^ 150) (hτ0 : 0 ≤ τ) (hτ : τ ≤ 5)
    (hθ : θ = A + Real.arctan t0) (ht0 : |t0| + 1 / 10 ^ 6 ≤ b) (tab : Tab F hi lo A) (hA : |A| ≤ 2)
    (h3 : (τ + (1 + 2 * Sm + eS + B + 1 / 1000)) * |t0| + 5 / 1000 ≤ |θ|) :
    ∃ W, GFv F (N.sub hi (N.sub (N.sub (N.mul t (p t)) lo) t)) W ∧ |W - θ| ≤ 2 * (1 / 2 ^ (F.s + 1)) * |θ| ∧
      (T ≤ 0 → ∃ v, F.Rounds v (N.sub hi (N.sub (N.sub (N.mul t (p t)) lo) t)) ∧ v ≤ F.valK ℝ hi + F.valK ℝ lo + 4 / 10000 * (1 / 2 ^ (F.s + 1))) := by
  have hu2 := u_le hs
  have hu3 := u_ge hs
  have hu0 : (0 : ℝ) < 1 / 2 ^ (F.s + 1) := by positivity
  obtain ⟨H, L, hH, hL, hHL, hL9⟩ := tab.c
  have hTb : |T| ≤ b := by
    have := abs_add_le (T - t0) t0; rw [sub_add_cancel] at this
    have h5 : τ * (1 / 2 ^ (F.s + 1)) * |t0| ≤ 5 * (1 / 2 ^ 24) * (1 / 2) := by
      refine mul_le_mul (mul_le_mul hτ hu2 hu0.le (by norm_num)) (by linarith) (abs_nonneg _) (by positivity)
    norm_num at h5 h1 ht0 ⊢
    linarith
  obtain ⟨Sv, Sr, s1, s2, s3, s4⟩ := hp t T hT hTb
  obtain ⟨W, w1, w2, w3⟩ := tail hF hs N hT s1 s2 s3 hSm heS hH hL hHL hL9 s4 hB (hTb.trans hb) hA
  have hSm0 := (abs_nonneg _).trans s3
  refine ⟨W, w1, combine hu0 hu2 hu3 hθ h1 hτ0 hτ w2 (by linarith) (by linarith) (by linarith) h3, ?_⟩
  intro h; rw [hH.val, hL.val]; exact w3 h

variable {p : BitVec F.w → BitVec F.w} (hp : PolyOk F p (21 / 100) (152 / 10000) (4 / 100) (1 / 10)) {x one two oneh mone : BitVec F.w} {X : ℝ}
  (hx : GFv F x X) (o1 : GFv F one 1) (o2 : GFv F two 2) (o3 : GFv F oneh (3 / 2)) (o4 : GFv F mone (-1))

omit hF hs in
theorem gridX (hx : GFv F x X) {k : ℤ} (h : 2 ^ k ≤ X) : Mul2 (k - F.s) X := by
  have := F.mul2_ge (b := x) (k := k) (by
    rw [hx.val, abs_of_pos ((by positivity : (0 : ℝ) < 2 ^ k).trans_le h)]; exact h)
  rwa [hx.val] at this

/-- a sum as a denominator -/
theorem den {a b : BitVec F.w} {v w : ℝ} (ha : GFv F a v) (hb : GFv F b w) (h1 : 1 ≤ v + w) (h2 : v + w ≤ 100) :
    ∃ d, GFv F (N.add a b) d ∧ |d - (v + w)| ≤ (1001 / 1000) * (1 / 2 ^ (F.s + 1)) * (v + w) := by
  obtain ⟨d, hd, e⟩ := GFv.rnd hF (ha.addR N hb) (by rw [abs_of_nonneg (by linarith)]; exact h2.trans (by norm_num))
  refine ⟨d, hd, e.trans ?_⟩
  have hu3 := u_ge hs
  have hu0 : (0 : ℝ) < 1 / 2 ^ (F.s + 1) := by positivity
  rw [abs_of_nonneg (by linarith)]
  have hk : (1 : ℝ) / 2 ^ 150 ≤ 1 / 1000 * (1 / 2 ^ 53) := by norm_num
  nlinarith

omit hs in
/-- a difference with a constant is exact -/
theorem num {a b : BitVec F.w} {v w : ℝ} (ha : GFv F a v) (hb : GFv F b w) {j : ℤ} (gv : Mul2 j v) (gw : Mul2 j w) (hj : -1 - (F.s : ℤ) ≤ j) (hj2 : j ≤ 1 - (F.s : ℤ))
    (h : |v - w| ≤ 2 ^ (j + F.s + 1)) : GFv F (N.sub a b) (v - w) := by
  have h127 := hF.bias
  have hs := hF.s
  exact GFv.of_rounds hF (ha.subR N hb) (gv.sub gw) h (by omega) (h.trans (zpow_le_zpow_right₀ (by norm_num) (by omega)))

omit hF hs in
theorem m2 {j : ℤ} (h : j ≤ -1) : Mul2 j (3 / 2 : ℝ) := (show Mul2 (-1) (3 / 2 : ℝ) from ⟨3, by norm_num⟩).mono h
omit hF hs in
theorem m1 {j : ℤ} (h : j ≤ 0) : Mul2 j (1 : ℝ) := (show Mul2 0 (1 : ℝ) from ⟨1, by norm_num⟩).mono h

omit hF hs in
theorem A_half : (4636 / 10000 : ℝ) ≤ Real.arctan (1 / 2) ∧ Real.arctan (1 / 2) ≤ 4637 / 10000 := by
  have h := Poly.atan_half_near
  have h1 : (46361 / 100000 : ℚ) ≤ 314159265358979323846 / 10 ^ 20 / 4 - Poly.atQ (1 / 3) := by decide +kernel
  have h2 : 314159265358979323846 / 10 ^ 20 / 4 - Poly.atQ (1 / 3) ≤ (46369 / 100000 : ℚ) := by decide +kernel
  have h1' := Rat.cast_le (K := ℝ).mpr h1
  have h2' := Rat.cast_le (K := ℝ).mpr h2
  generalize (314159265358979323846 / 10 ^ 20 / 4 - Poly.atQ (1 / 3) : ℚ) = q at *
  push_cast at h1' h2'
  rw [abs_le] at h
  norm_num at h h1' h2' ⊢
  constructor <;> linarith [h.1, h.2]
omit hF hs in
theorem A_oneh : (9827 / 10000 : ℝ) ≤ Real.arctan (3 / 2) ∧ Real.arctan (3 / 2) ≤ 9829 / 10000 := by
  have h := Poly.atan_oneh_near
  have h1 : (98271 / 100000 : ℚ) ≤ 314159265358979323846 / 10 ^ 20 / 4 + Poly.atQ (1 / 5) := by decide +kernel
  have h2 : 314159265358979323846 / 10 ^ 20 / 4 + Poly.atQ (1 / 5) ≤ (98289 / 100000 : ℚ) := by decide +kernel
  have h1' := Rat.cast_le (K := ℝ).mpr h1
  have h2' := Rat.cast_le (K := ℝ).mpr h2
  generalize (314159265358979323846 / 10 ^ 20 / 4 + Poly.atQ (1 / 5) : ℚ) = q at *
  push_cast at h1' h2'
  rw [abs_le] at h
  norm_num at h h1' h2' ⊢
  constructor <;> linarith [h.1, h.2]

omit hF hs in
/-- a lower bound of the result -/
theorem low {A t m : ℝ} (h : 0 ≤ t ∧ m ≤ A ∨ m ≤ A + t ∧ t ≤ 0) : m ≤ |A + Real.arctan t| := by
  refine le_trans ?_ (le_abs_self _)
  rcases h with ⟨h, h'⟩ | ⟨h, h'⟩
  · have : 0 ≤ Real.arctan t := Real.arctan_nonneg.mpr h
    linarith
  · have := Poly.atan_lip t 0
    rw [Real.arctan_zero, sub_zero, sub_zero, abs_of_nonpos h'] at this
    linarith [neg_abs_le (Real.arctan t)]

include hp hx

/-- the first case -/
theorem case0 (o1 : GFv F one 1) (o2 : GFv F two 2) (h0 : 7 / 16 ≤ X) (h1 : X ≤ 11 / 16) {hi lo : BitVec F.w} (tab : Tab F hi lo (Real.arctan (1 / 2))) :
    ∃ W, GFv F (N.sub hi (N.sub (N.sub (N.mul (N.div (N.sub (N.mul two x) one) (N.add two x)) (p (N.div (N.sub (N.mul two x) one) (N.add two x)))) lo)
      (N.div (N.sub (N.mul two x) one) (N.add two x)))) W ∧ |W - Real.arctan X| ≤ 2 * (1 / 2 ^ (F.s + 1)) * |Real.arctan X| := by
  have h127 := hF.bias
  have hs9 := hF.s
  have hg : Mul2 (-1 - (F.s : ℤ)) (2 * X) := by
    have := (show Mul2 1 (2 : ℝ) from ⟨1, by norm_num⟩).mul (gridX hx (k := -2) (by norm_num; linarith))
    rwa [show 1 + (-2 - (F.s : ℤ)) = -1 - F.s by ring] at this
  have hm : GFv F (N.mul two x) (2 * X) := by
    rcases lt_or_ge X (1 / 2) with h | h
    · exact GFv.of_rounds hF (o2.mulR N hx) hg (by rw [abs_of_pos (by linarith), show -1 - (F.s : ℤ) + F.s + 1 = 0 by ring]; norm_num; linarith) (by omega)
        (by rw [abs_of_pos (by linarith)]; norm_num; linarith)
    · have hg2 : Mul2 (-(F.s : ℤ)) (2 * X) := by
        have := (show Mul2 1 (2 : ℝ) from ⟨1, by norm_num⟩).mul (gridX hx (k := -1) (by norm_num; linarith))
        rwa [show 1 + (-1 - (F.s : ℤ)) = - F.s by ring] at this
      exact GFv.of_rounds hF (o2.mulR N hx) hg2 (by rw [abs_of_pos (by linarith), show -(F.s : ℤ) + F.s + 1 = 1 by ring]; norm_num; linarith) (by omega)
        (by rw [abs_of_pos (by linarith)]; norm_num; linarith)
  have hn := num hF N hm o1 hg (m1 (by omega)) (le_refl _) (by omega) (by
    rw [show -1 - (F.s : ℤ) + F.s + 1 = 0 by ring, abs_le]; norm_num; constructor <;> linarith)
  obtain ⟨d, hd, e⟩ := den hF hs N o2 hx (by linarith) (by linarith)
  obtain ⟨T, hT, eT⟩ := quot hF hs N hn hd (by linarith) (by norm_num) (by norm_num) e (by rw [abs_le]; constructor <;> linarith)
  have ht1 : (2 * X - 1) / (2 + X) ≤ 1396 / 10000 := by rw [div_le_iff₀ (by linarith)]; linarith
  have ht2 : -(513 / 10000) ≤ (2 * X - 1) / (2 + X) := by rw [le_div_iff₀ (by linarith)]; linarith
  have hA := A_half
  generalize ht : (2 * X - 1) / (2 + X) = t at *
  have hθ : Real.arctan X = Real.arctan (1 / 2) + Real.arctan t := by rw [← ht]; exact Poly.atan_half_red (by linarith)
  have hta : |t| ≤ 1396 / 10000 := by rw [abs_le]; constructor <;> linarith
  obtain ⟨W, w1, w2, -⟩ := out hF hs N hp (by norm_num) (by norm_num) (by norm_num) (by norm_num) (by norm_num) (by norm_num) hT eT (by norm_num) (by norm_num) hθ (by norm_num; linarith) tab
    (by rw [abs_le]; constructor <;> linarith) (by
      rw [hθ]
      refine low ?_
      rcases le_total 0 t with h | h
      · left; rw [abs_of_nonneg h]; exact ⟨h, by linarith⟩
      · right; rw [abs_of_nonpos h]; exact ⟨by linarith, h⟩)
  exact ⟨W, w1, w2⟩

/-- the second case -/
theorem case1 (o1 : GFv F one 1) (h0 : 11 / 16 ≤ X) (h1 : X ≤ 19 / 16) {hi lo : BitVec F.w} (tab : Tab F hi lo (Real.pi / 4)) :
    ∃ W, GFv F (N.sub hi (N.sub (N.sub (N.mul (N.div (N.sub x one) (N.add x one)) (p (N.div (N.sub x one) (N.add x one)))) lo)
      (N.div (N.sub x one) (N.add x one)))) W ∧ |W - Real.arctan X| ≤ 2 * (1 / 2 ^ (F.s + 1)) * |Real.arctan X| := by
  have h127 := hF.bias
  have hs9 := hF.s
  have hg : Mul2 (-1 - (F.s : ℤ)) X := gridX hx (k := -1) (by norm_num; linarith)
  have hn := num hF N hx o1 hg (m1 (by omega)) (le_refl _) (by omega) (by
    rw [show -1 - (F.s : ℤ) + F.s + 1 = 0 by ring, abs_le]; norm_num; constructor <;> linarith)
  obtain ⟨d, hd, e⟩ := den hF hs N hx o1 (by linarith) (by linarith)
  obtain ⟨T, hT, eT⟩ := quot hF hs N hn hd (by linarith) (by norm_num) (by norm_num) e (by rw [abs_le]; constructor <;> linarith)
  have ht1 : (X - 1) / (X + 1) ≤ 858 / 10000 := by rw [div_le_iff₀ (by linarith)]; linarith
  have ht2 : -(1852 / 10000) ≤ (X - 1) / (X + 1) := by rw [le_div_iff₀ (by linarith)]; linarith
  have hA := Real.pi_gt_d4
  have hA2 := Real.pi_lt_d4
  generalize ht : (X - 1) / (X + 1) = t at *
  have hθ : Real.arctan X = Real.pi / 4 + Real.arctan t := by rw [← ht]; exact Poly.atan_one_red (by linarith)
  have hta : |t| ≤ 1852 / 10000 := by rw [abs_le]; constructor <;> linarith
  norm_num at hA hA2
  obtain ⟨W, w1, w2, -⟩ := out hF hs N hp (by norm_num) (by norm_num) (by norm_num) (by norm_num) (by norm_num) (by norm_num) hT eT (by norm_num) (by norm_num) hθ (by norm_num; linarith) tab
    (by rw [abs_le]; constructor <;> linarith) (by
      rw [hθ]
      refine low ?_
      rcases le_total 0 t with h | h
      · left; rw [abs_of_nonneg h]; exact ⟨h, by linarith⟩
      · right; rw [abs_of_nonpos h]; exact ⟨by linarith, h⟩)
  exact ⟨W, w1, w2⟩

/-- the third case -/
theorem case2 (o1 : GFv F one 1) (o3 : GFv F oneh (3 / 2)) (h0 : 19 / 16 ≤ X) (h1 : X ≤ 39 / 16) {hi lo : BitVec F.w} (tab : Tab F hi lo (Real.arctan (3 / 2))) :
    ∃ W, GFv F (N.sub hi (N.sub (N.sub (N.mul (N.div (N.sub x oneh) (N.add one (N.mul oneh x))) (p (N.div (N.sub x oneh) (N.add one (N.mul oneh x))))) lo)
      (N.div (N.sub x oneh) (N.add one (N.mul oneh x))))) W ∧ |W - Real.arctan X| ≤ 2 * (1 / 2 ^ (F.s + 1)) * |Real.arctan X| := by
  have h127 := hF.bias
  have hs9 := hF.s
  have hu2 := u_le hs
  have hu3 := u_ge hs
  have hu0 : (0 : ℝ) < 1 / 2 ^ (F.s + 1) := by positivity
  have hg : Mul2 (0 - (F.s : ℤ)) X := gridX hx (k := 0) (by norm_num; linarith)
  have hn := num hF N hx o3 hg (m2 (by omega)) (by omega) (by omega) (by
    rw [show 0 - (F.s : ℤ) + F.s + 1 = 1 by ring, abs_le]; norm_num; constructor <;> linarith)
  obtain ⟨m, hm, em⟩ := GFv.rnd hF (o3.mulR N hx) (by rw [abs_of_pos (by linarith)]; norm_num; linarith)
  rw [abs_of_pos (show 0 < 3 / 2 * X by linarith)] at em
  have hk : (1 : ℝ) / 2 ^ 150 ≤ 1 / 10000 * (1 / 2 ^ 53) := by norm_num
  have em2 : |m - 3 / 2 * X| ≤ 1 / 1000 := by
    have := mul_le_mul hu2 (show 3 / 2 * X ≤ 4 by linarith) (by linarith) (by positivity)
    have : (1 : ℝ) / 2 ^ 24 * 4 + 1 / 2 ^ 150 ≤ 1 / 1000 := by norm_num
    linarith
  rw [abs_le] at em2
  obtain ⟨d, hd, e⟩ := den hF hs N o1 hm (by linarith) (by linarith)
  have e' : |d - (1 + 3 / 2 * X)| ≤ 2003 / 1000 * (1 / 2 ^ (F.s + 1)) * (1 + 3 / 2 * X) := by
    have := abs_add_le (d - (1 + m)) (m - 3 / 2 * X)
    rw [show d - (1 + m) + (m - 3 / 2 * X) = d - (1 + 3 / 2 * X) by ring] at this
    have h5 : 1001 / 1000 * (1 / 2 ^ (F.s + 1)) * (1 + m) ≤ 1001 / 1000 * (1 / 2 ^ (F.s + 1)) * (1 + 3 / 2 * X + 1 / 1000) :=
      mul_le_mul_of_nonneg_left (by linarith) (by positivity)
    have h6 : 0 ≤ 1 / 2 ^ (F.s + 1) * X := by positivity
    linarith
  obtain ⟨T, hT, eT⟩ := quot hF hs N hn hd (by linarith) (by norm_num) (by norm_num) e' (by rw [abs_le]; constructor <;> linarith)
  have ht1 : (X - 3 / 2) / (1 + 3 / 2 * X) ≤ 2014 / 10000 := by rw [div_le_iff₀ (by linarith)]; linarith
  have ht2 : -(1124 / 10000) ≤ (X - 3 / 2) / (1 + 3 / 2 * X) := by rw [le_div_iff₀ (by linarith)]; linarith
  have hA := A_oneh
  generalize ht : (X - 3 / 2) / (1 + 3 / 2 * X) = t at *
  have hθ : Real.arctan X = Real.arctan (3 / 2) + Real.arctan t := by rw [← ht]; exact Poly.atan_oneh_red (by linarith)
  have hta : |t| ≤ 2014 / 10000 := by rw [abs_le]; constructor <;> linarith
  obtain ⟨W, w1, w2, -⟩ := out hF hs N hp (by norm_num) (by norm_num) (by norm_num) (by norm_num) (by norm_num) (by norm_num) hT eT (by norm_num) (by norm_num) hθ (by norm_num; linarith) tab
    (by rw [abs_le]; constructor <;> linarith) (by
      rw [hθ]
      refine low ?_
      rcases le_total 0 t with h | h
      · left; rw [abs_of_nonneg h]; exact ⟨h, by linarith⟩
      · right; rw [abs_of_nonpos h]; exact ⟨by linarith, h⟩)
  exact ⟨W, w1, w2⟩

omit hp in
/-- the fourth case -/
theorem case3 (hp : PolyOk F p (7 / 16) (73 / 1000) (25 / 100) (1 / 10)) (o4 : GFv F mone (-1)) (h0 : 39 / 16 ≤ X) {hi lo : BitVec F.w} (tab : Tab F hi lo (Real.pi / 2)) :
    ∃ W, GFv F (N.sub hi (N.sub (N.sub (N.mul (N.div mone x) (p (N.div mone x))) lo) (N.div mone x))) W ∧
      |W - Real.arctan X| ≤ 2 * (1 / 2 ^ (F.s + 1)) * |Real.arctan X| ∧
      ∃ v, F.Rounds v (N.sub hi (N.sub (N.sub (N.mul (N.div mone x) (p (N.div mone x))) lo) (N.div mone x))) ∧
        v ≤ F.valK ℝ hi + F.valK ℝ lo + 4 / 10000 * (1 / 2 ^ (F.s + 1)) := by
  have h127 := hF.bias
  obtain ⟨T, hT, eT⟩ := quot hF hs N o4 hx (D := X) (c := 0) (by linarith) (by norm_num) (by norm_num) (by simp) (by norm_num)
  have hT0 : T ≤ 0 := by
    have hr := o4.divR N hx (by linarith)
    have := hr.le_of F (g := 0) (by have := F.rp_val (b := 0#F.w); unfold valK mag at this; simpa [F.magVal_eq, F.valU_zero] using this) (by simp; positivity)
      (by rw [neg_div]; have : 0 < 1 / X := by positivity
          linarith)
    rwa [hT.val] at this
  have ht1 : -1 / X ≤ 0 := by rw [neg_div]; have : 0 < 1 / X := by positivity
                              linarith
  have ht2 : -(4103 / 10000) ≤ -1 / X := by rw [le_div_iff₀ (by linarith)]; linarith
  have hA := Real.pi_gt_d4
  have hA2 := Real.pi_lt_d4
  generalize ht : -1 / X = t at *
  have hθ : Real.arctan X = Real.pi / 2 + Real.arctan t := by rw [← ht]; exact Poly.atan_inf_red (by linarith)
  have hta : |t| ≤ 4103 / 10000 := by rw [abs_le]; constructor <;> linarith
  norm_num at hA hA2
  obtain ⟨W, w1, w2, w3⟩ := out hF hs N hp (by norm_num) (by norm_num) (by norm_num) (by norm_num) (by norm_num) (by norm_num) hT eT (by norm_num) (by norm_num) hθ (by norm_num; linarith) tab
    (by rw [abs_le]; constructor <;> linarith) (by
      rw [hθ]
      refine low ?_
      right; rw [abs_of_nonpos ht1]; exact ⟨by linarith, ht1⟩)
  exact ⟨W, w1, w2, w3 hT0⟩

omit hp in
/-- no reduction -/
theorem caseN (hp : PolyOk F p (7 / 16) (73 / 1000) (25 / 100) (1 / 10)) (h0 : 1 / 2 ^ 27 ≤ |X|) (h1 : |X| ≤ 7 / 16) :
    ∃ W, GFv F (N.sub x (N.mul x (p x))) W ∧ |W - Real.arctan X| ≤ 2 * (1 / 2 ^ (F.s + 1)) * |Real.arctan X| := by
  have hu2 := u_le hs
  have hu3 := u_ge hs
  have hu0 : (0 : ℝ) < 1 / 2 ^ (F.s + 1) := by positivity
  obtain ⟨Sv, Sr, s1, s2, s3, s4⟩ := hp x X hx h1
  set u : ℝ := 1 / 2 ^ (F.s + 1)
  have hu5 : u ≤ 1 / 10 ^ 7 := hu2.trans (by norm_num)
  have hX0 := abs_nonneg X
  have hk : (1 : ℝ) / 2 ^ 150 ≤ 1 / 10000 * (u * |X|) := by
    have := mul_le_mul hu3 h0 (by positivity) hu0.le
    refine le_trans ?_ (mul_le_mul_of_nonneg_left this (by norm_num))
    norm_num
  have p1 : |X * Sv - X * Sr| ≤ 25 / 100 * u * |X| := by
    rw [← mul_sub, abs_mul, mul_comm]; exact mul_le_mul_of_nonneg_right s2 hX0
  have p2 : |X * Sr| ≤ 73 / 1000 * |X| := by rw [abs_mul, mul_comm]; exact mul_le_mul_of_nonneg_right s3 hX0
  have hu6 : u * |X| ≤ 1 / 10 ^ 7 * |X| := mul_le_mul_of_nonneg_right hu5 hX0
  have p3 : |X * Sv| ≤ 74 / 1000 * |X| := by
    have := abs_add_le (X * Sv - X * Sr) (X * Sr); rw [sub_add_cancel] at this
    linarith
  have h9 : (10 : ℝ) ≤ 2 ^ (100 : ℤ) := by norm_num
  obtain ⟨m, hm, em⟩ := GFv.rnd hF (hx.mulR N s1) (by linarith)
  have q1 : u * |X * Sv| ≤ u * (74 / 1000 * |X|) := mul_le_mul_of_nonneg_left p3 hu0.le
  have q2 : |m - X * Sr| ≤ 325 / 1000 * (u * |X|) := by
    have := abs_add_le (m - X * Sv) (X * Sv - X * Sr); rw [sub_add_sub_cancel] at this
    linarith
  have q3 : |X - m - Real.arctan X| ≤ 43 / 100 * (u * |X|) := by
    have := abs_add_le (X * Sr - m) (X - X * Sr - Real.arctan X)
    rw [abs_sub_comm (X * Sr), abs_sub_comm (X - X * Sr), show X * Sr - m + (X - X * Sr - Real.arctan X) = X - m - Real.arctan X by ring] at this
    linarith
  have q4 : |X| ≤ 109 / 100 * |Real.arctan X| := by
    have h1 := abs_sub_abs_le_abs_sub X (Real.arctan X)
    have h2 := abs_add_le (X - X * Sr - Real.arctan X) (X * Sr)
    rw [abs_sub_comm (X - X * Sr), show X - X * Sr - Real.arctan X + X * Sr = X - Real.arctan X by ring] at h2
    linarith
  have q5 : |X - m| ≤ |Real.arctan X| + 43 / 100 * (u * |X|) := by
    have := abs_add_le (X - m - Real.arctan X) (Real.arctan X); rw [sub_add_cancel] at this; linarith
  have q6 := Poly.atan_lip X 0
  rw [Real.arctan_zero, sub_zero, sub_zero] at q6
  obtain ⟨W, hW, eW⟩ := GFv.rnd hF (hx.subR N hm) (by linarith)
  refine ⟨W, hW, ?_⟩
  have e := abs_add_le (W - (X - m)) (X - m - Real.arctan X)
  rw [sub_add_sub_cancel] at e
  have q7 : u * |X - m| ≤ u * (|Real.arctan X| + 1 / 100 * |X|) := mul_le_mul_of_nonneg_left (by linarith) hu0.le
  have q8 : u * |X| ≤ u * (109 / 100 * |Real.arctan X|) := mul_le_mul_of_nonneg_left q4 hu0.le
  have q9 : 0 ≤ u * |Real.arctan X| := by positivity
  linarith

end

/-- a small argument -/
theorem caseT {X ε : ℝ} (h0 : |X| ≤ 1 / 10) (h1 : X * X ≤ ε) (h : 1 / 2 ^ 60 ≤ ε) (h2 : ε ≤ 1 / 10) : |X - Real.arctan X| ≤ ε * |Real.arctan X| := by
  have hX0 := abs_nonneg X
  have e := Poly.atan_near (t := X) (by norm_num; linarith)
  have hc : Poly.chk Poly.atL (34 / 100) 8 0 (1 / 10) = true := by decide +kernel
  have h3 := Poly.chk_sound hc (t := X * X) (by simpa using mul_self_nonneg X) (by push_cast; linarith)
  push_cast at h3
  have h4 : |X * (X * X * Poly.ev Poly.atL (X * X))| ≤ 34 / 100 * ε * |X| := by
    rw [abs_mul, abs_mul, abs_of_nonneg (mul_self_nonneg X), mul_comm]
    refine mul_le_mul_of_nonneg_right ?_ hX0
    have := mul_le_mul h1 h3 (abs_nonneg _) (by positivity)
    linarith
  have h5 := abs_add_le (X * (X * X * Poly.ev Poly.atL (X * X))) (X * (1 - X * X * Poly.ev Poly.atL (X * X)) - Real.arctan X)
  rw [abs_sub_comm _ (Real.arctan X), show X * (X * X * Poly.ev Poly.atL (X * X)) + (X * (1 - X * X * Poly.ev Poly.atL (X * X)) - Real.arctan X) = X - Real.arctan X by ring] at h5
  have h6 : (1 : ℝ) / 2 ^ 68 * |X| ≤ 1 / 100 * ε * |X| := mul_le_mul_of_nonneg_right (by norm_num at h ⊢; linarith) hX0
  have h7 : |X - Real.arctan X| ≤ 36 / 100 * (ε * |X|) := by linarith
  have h8 : ε * |X| ≤ 1 / 10 * |X| := mul_le_mul_of_nonneg_right h2 hX0
  have h9 := abs_sub_abs_le_abs_sub X (Real.arctan X)
  have h10 : |X| ≤ 2 * |Real.arctan X| := by linarith
  have h11 : ε * |X| ≤ ε * (2 * |Real.arctan X|) := mul_le_mul_of_nonneg_left h10 (by linarith [show (0 : ℝ) < 1 / 2 ^ 60 by positivity])
  linarith [abs_nonneg (X - Real.arctan X)]

/-- a large argument -/
theorem caseB {X : ℝ} (h : 0 < X) : |Real.pi / 2 - Real.arctan X| ≤ 1 / X := by
  rw [Poly.atan_inf_red h]
  have := Poly.atan_lip (-1 / X) 0
  rw [Real.arctan_zero, sub_zero, sub_zero, abs_div, abs_neg, abs_one, abs_of_pos h] at this
  rwa [sub_add_cancel_left, abs_neg]
end Atan
end Verif
