import Verif.Libm.AsinCore
import Verif.Libm.AtanR
import Verif.Libm.FaithfulTo
/-! # The cases of `asin` and `acos`, for any format -/
namespace Verif
open Fmt Poly
namespace Asin
variable {F : Fmt}

/-! ## the reduced argument -/

theorem zHalf (hF : F.Big) (N : FPU F) {half t : BitVec F.w} {T : ℝ} (hh : GFv F half (1 / 2)) (hg : Mul2 (-1 - (F.s : ℤ)) T) (h0 : 1 / 2 ≤ T) (h1 : T < 1)
    (hr : F.Rounds (1 - T) t) : GFv F (N.mul t half) ((1 - T) / 2) ∧ 2 ^ (-2 - (F.s : ℤ)) ≤ (1 - T) / 2 := by
  have h127 := hF.bias
  have h23 := hF.s
  have g1 : Mul2 (-1 - (F.s : ℤ)) (1 - T) := by
    refine Mul2.sub ?_ hg
    exact ⟨2 ^ (F.s + 1), by push_cast; rw [← zpow_natCast, ← zpow_add₀ (by norm_num)]; push_cast; rw [show (F.s : ℤ) + 1 + (-1 - F.s) = 0 by ring, zpow_zero]⟩
  have ha : |1 - T| ≤ 1 := by rw [abs_le]; constructor <;> linarith
  have f1 : GFv F t (1 - T) := GFv.of_rounds hF hr g1 (by rw [show -1 - (F.s : ℤ) + F.s + 1 = 0 by ring, zpow_zero]; exact ha) (by omega) (ha.trans (by norm_num))
  have g2 : Mul2 (-2 - (F.s : ℤ)) ((1 - T) / 2) := by
    obtain ⟨m, hm⟩ := g1
    exact ⟨m, by rw [hm, show (-1 : ℤ) - F.s = (-2 - F.s) + 1 by ring, zpow_add₀ (by norm_num)]; ring⟩
  refine ⟨?_, ?_⟩
  · have hr2 := f1.mulR N hh
    rw [show (1 - T) * (1 / 2) = (1 - T) / 2 by ring] at hr2
    have hb : |(1 - T) / 2| ≤ 1 / 2 := by rw [abs_div, abs_of_pos (by norm_num : (0 : ℝ) < 2)]; linarith
    exact GFv.of_rounds hF hr2 g2 (hb.trans (by rw [show -2 - (F.s : ℤ) + F.s + 1 = -1 by ring]; norm_num)) (by omega) (hb.trans (by norm_num))
  · obtain ⟨m, hm⟩ := g2
    have hp : (0 : ℝ) < 2 ^ (-2 - (F.s : ℤ)) := by positivity
    have hmp : 0 < (m : ℝ) := by
      have : 0 < (m : ℝ) * 2 ^ (-2 - (F.s : ℤ)) := by rw [← hm]; linarith
      exact (pos_iff_pos_of_mul_pos this).mpr hp
    have hm1 : (1 : ℝ) ≤ m := by
      have : 0 < m := by exact_mod_cast hmp
      exact_mod_cast this
    rw [hm]; nlinarith

theorem zArg (hF : F.Big) (N : FPU F) {one half a : BitVec F.w} {X : ℝ} (h1 : GFv F one 1) (hh : GFv F half (1 / 2)) (ha : GFv F a X) (h0 : 1 / 2 ≤ X) (hX : X < 1) :
    GFv F (N.mul (N.sub one a) half) ((1 - X) / 2) ∧ 2 ^ (-2 - (F.s : ℤ)) ≤ (1 - X) / 2 := by
  refine zHalf hF N hh ?_ h0 hX (h1.subR N ha)
  have := F.mul2_ge (b := a) (k := -1) (by rw [ha.val, abs_of_pos (by linarith)]; norm_num; linarith)
  rwa [ha.val] at this

theorem zArgN (hF : F.Big) (N : FPU F) {one half a : BitVec F.w} {X : ℝ} (h1 : GFv F one 1) (hh : GFv F half (1 / 2)) (ha : GFv F a X) (h0 : X ≤ -(1 / 2)) (hX : -1 < X) :
    GFv F (N.mul (N.add one a) half) ((1 + X) / 2) ∧ 2 ^ (-2 - (F.s : ℤ)) ≤ (1 + X) / 2 := by
  have hr := h1.addR N ha
  rw [show 1 + X = 1 - -X by ring] at hr ⊢
  refine zHalf hF N hh ?_ (by linarith) (by linarith) hr
  have := F.mul2_ge (b := a) (k := -1) (by rw [ha.val, abs_of_neg (by linarith)]; norm_num; linarith)
  rw [ha.val] at this
  exact this.neg

/-- the square root of the reduced argument -/
structure Root (F : Fmt) (z s : BitVec F.w) (σ S : ℝ) : Prop where
  z : GFv F z (σ * σ)
  s : GFv F s S
  lo : 1 / 2 ^ 27 ≤ σ
  hi : σ ≤ 1 / 2
  rel : |S - σ| ≤ 1 / 2 ^ (F.s + 1) * σ + 1 / 2 ^ 150
  abs : |S - σ| ≤ 1 / 2 ^ (F.s + 1) / 4

theorem root_of (hF : F.Big) (hs : F.s = 23 ∨ F.s = 52) {z s : BitVec F.w} {Z : ℝ} (hz : GFv F z Z) (h0 : 2 ^ (-2 - (F.s : ℤ)) ≤ Z) (h1 : Z ≤ 1 / 4)
    (hr : F.Rounds (Real.sqrt Z) s) : ∃ S, Root F z s (Real.sqrt Z) S := by
  have hb := hF.bias
  have hZ : 1 / 2 ^ 54 ≤ Z := by
    refine le_trans ?_ h0
    rcases hs with h | h <;> rw [h] <;> norm_num
  obtain ⟨σ, hσ⟩ : ∃ σ, σ = Real.sqrt Z := ⟨_, rfl⟩
  rw [← hσ] at hr ⊢
  have hss : σ * σ = Z := by rw [hσ]; exact Real.mul_self_sqrt (by linarith [show (0 : ℝ) < 1 / 2 ^ 54 by positivity])
  have hs0 : 0 ≤ σ := by rw [hσ]; exact Real.sqrt_nonneg _
  have hlo : 1 / 2 ^ 27 ≤ σ := by
    by_contra hc
    push Not at hc
    have : σ * σ < 1 / 2 ^ 27 * (1 / 2 ^ 27) := mul_self_lt_mul_self hs0 hc
    rw [hss] at this
    norm_num at this hZ
    linarith
  have hhi : σ ≤ 1 / 2 := by nlinarith
  have h9 : |σ| ≤ 2 ^ (100 : ℤ) := by rw [abs_of_nonneg hs0]; exact hhi.trans (by norm_num)
  obtain ⟨S, gS, eS⟩ := GFv.rnd hF hr h9
  rw [abs_of_nonneg hs0] at eS
  refine ⟨S, by rw [hss]; exact hz, gS, hlo, hhi, eS, ?_⟩
  have := hr.err F (k := -1) (by rw [abs_of_nonneg hs0]; norm_num; linarith) (by omega) (by omega)
  rw [gS.val] at this
  refine this.trans (le_of_eq ?_)
  rw [show (-1 : ℤ) - F.s - 2 = -((F.s + 1 : ℕ) : ℤ) + (-2) by push_cast; ring, zpow_add₀ (by norm_num), zpow_neg, zpow_natCast]
  norm_num
  ring

/-- the sizes of half an ulp of 1 -/
theorem u_bd (hs : F.s = 23 ∨ F.s = 52) : (0 : ℝ) < 1 / 2 ^ (F.s + 1) ∧ (1 : ℝ) / 2 ^ (F.s + 1) ≤ 1 / 2 ^ 24 ∧ (1 : ℝ) / 2 ^ 53 ≤ 1 / 2 ^ (F.s + 1) := by
  rcases hs with h | h <;> rw [h] <;> norm_num

/-- the correction of the upper half of the square root -/
theorem cErr_real {u σ S F0 D T Q C η : ℝ} (hu0 : 0 < u) (hu : u ≤ 1 / 2 ^ 24) (hσ : 0 < σ) (hη0 : 0 ≤ η) (hη : η ≤ u * σ / 2 ^ 60) (hη2 : η ≤ u * σ * σ / 2 ^ 30) (hS : |S - σ| ≤ u * σ + η)
    (hF0 : F0 ≤ S) (hF1 : S - F0 ≤ 1 / 2 ^ 11 * S) (hD : |D - (σ * σ - F0 * F0)| ≤ u * |σ * σ - F0 * F0| + η) (hT : |T - (S + F0)| ≤ u * |S + F0| + η)
    (hQ : Q = D / T) (hC : |C - Q| ≤ u * |Q| + η) : |C - (σ - F0)| ≤ u * σ / 100 ∧ |σ - F0| ≤ σ / 1000 ∧ 0 < T := by
  obtain ⟨e, he⟩ : ∃ e, e = u * σ := ⟨_, rfl⟩
  have he0 : 0 < e := by rw [he]; positivity
  have hes : e ≤ σ / 2 ^ 24 := by rw [he]; nlinarith
  rw [← he] at hη hη2 hS ⊢
  norm_num at hη hη2 hes hF1
  have hS' := abs_le.mp hS
  have hd : |σ - F0| ≤ σ / 1000 := by rw [abs_le]; constructor <;> nlinarith
  have hd' := abs_le.mp hd
  have hF0p : 0 < F0 := by linarith
  have hDb : |σ * σ - F0 * F0| ≤ σ * σ / 490 := by
    rw [show σ * σ - F0 * F0 = (σ - F0) * (σ + F0) by ring, abs_mul, abs_of_pos (by linarith : 0 < σ + F0)]
    calc |σ - F0| * (σ + F0) ≤ σ / 1000 * (2.01 * σ) := mul_le_mul hd (by linarith) (by linarith) (by linarith)
      _ ≤ _ := by nlinarith
  have hD2 : |D - (σ * σ - F0 * F0)| ≤ e * σ / 480 := by
    refine hD.trans ?_
    have : u * |σ * σ - F0 * F0| ≤ u * (σ * σ / 490) := mul_le_mul_of_nonneg_left hDb hu0.le
    have h2 : u * (σ * σ / 490) = e * σ / 490 := by rw [he]; ring
    have h3 : 0 < e * σ := by positivity
    linarith
  have hT2 : |T - (σ + F0)| ≤ 3.01 * e := by
    have h1 := abs_add_le (T - (S + F0)) (S - σ)
    rw [show T - (S + F0) + (S - σ) = T - (σ + F0) by ring] at h1
    have h2 : u * |S + F0| ≤ u * (2.002 * σ) := by
      refine mul_le_mul_of_nonneg_left ?_ hu0.le
      rw [abs_of_pos (by linarith)]; linarith
    have h3 : u * (2.002 * σ) = 2.002 * e := by rw [he]; ring
    linarith
  have hb : 199 / 100 * σ ≤ σ + F0 := by linarith
  obtain ⟨hq, hTp⟩ := IE.div_err hD2 hT2 hDb hb (by linarith)
  have hq2 : |D / T - (σ - F0)| ≤ 3 / 1000 * e := by
    have e1 : (σ * σ - F0 * F0) / (σ + F0) = σ - F0 := by
      rw [show σ * σ - F0 * F0 = (σ - F0) * (σ + F0) by ring, mul_div_assoc, div_self (by linarith), mul_one]
    rw [e1] at hq
    refine hq.trans ?_
    rw [div_le_iff₀ (by linarith), show σ * σ / 490 / (199 / 100 * σ) = σ * (100 / (490 * 199)) by field_simp]
    nlinarith
  refine ⟨?_, hd, hTp⟩
  rw [← hQ] at hq2
  have h1 := abs_add_le (C - Q) (Q - (σ - F0))
  rw [sub_add_sub_cancel] at h1
  have h2 : |Q| ≤ σ / 900 := by
    have := abs_add_le (Q - (σ - F0)) (σ - F0)
    rw [sub_add_cancel] at this
    linarith
  have h3 : u * |Q| ≤ u * (σ / 900) := mul_le_mul_of_nonneg_left h2 hu0.le
  have h4 : u * (σ / 900) = e / 900 := by rw [he]; ring
  linarith

theorem cErr (hF : F.Big) (hs : F.s = 23 ∨ F.s = 52) (N : FPU F) {z s f : BitVec F.w} {σ S F0 : ℝ} (h : Root F z s σ S) (hf : GFv F f F0) (hff : GFv F (N.mul f f) (F0 * F0))
    (hF0 : F0 ≤ S) (hF1 : S - F0 ≤ 1 / 2 ^ 11 * S) :
    ∃ C, GFv F (N.div (N.sub z (N.mul f f)) (N.add s f)) C ∧ |C - (σ - F0)| ≤ 1 / 2 ^ (F.s + 1) * σ / 100 ∧ |σ - F0| ≤ σ / 1000 := by
  obtain ⟨hu0, hu1, hu2⟩ := u_bd hs
  obtain ⟨u, hu⟩ : ∃ u : ℝ, u = 1 / 2 ^ (F.s + 1) := ⟨_, rfl⟩
  have hrel := h.rel
  have hlo := h.lo
  have hhi := h.hi
  rw [← hu] at hu0 hu1 hu2 hrel ⊢
  have hσ : 0 < σ := lt_of_lt_of_le (by positivity) hlo
  have hη : (1 : ℝ) / 2 ^ 150 ≤ u * σ / 2 ^ 60 := by
    have : (1 : ℝ) / 2 ^ 53 * (1 / 2 ^ 27) ≤ u * σ := mul_le_mul hu2 hlo (by positivity) hu0.le
    norm_num at this ⊢; linarith
  have hη2 : (1 : ℝ) / 2 ^ 150 ≤ u * σ * σ / 2 ^ 30 := by
    have : (1 : ℝ) / 2 ^ 53 * (1 / 2 ^ 27) * (1 / 2 ^ 27) ≤ u * σ * σ := mul_le_mul (mul_le_mul hu2 hlo (by positivity) hu0.le) hlo (by positivity) (by positivity)
    norm_num at this ⊢; linarith
  have hS' := abs_le.mp hrel
  have hSσ : S ≤ 1 := by nlinarith [show (1 : ℝ) / 2 ^ 150 ≤ 1 / 10 by norm_num]
  have hSp : 0 < S := by
    have h1 : u * σ ≤ 1 / 2 ^ 24 * σ := mul_le_mul_of_nonneg_right hu1 hσ.le
    norm_num at h1
    norm_num at hη
    have := hS'.1
    norm_num at this
    linarith
  have hF0p : 0 < F0 := by norm_num at hF1; linarith
  obtain ⟨D, gD, eD⟩ := GFv.rnd hF (h.z.subR N hff) (by
    refine le_trans (b := 1) ?_ (by norm_num)
    rw [abs_le]; constructor <;> nlinarith)
  obtain ⟨T, gT, eT⟩ := GFv.rnd hF (h.s.addR N hf) (by
    refine le_trans (b := 2) ?_ (by norm_num)
    rw [abs_le]; constructor <;> linarith)
  rw [← hu] at eD eT
  obtain ⟨-, -, hT⟩ := cErr_real (Q := D / T) (C := D / T) hu0 hu1 hσ (by positivity) hη hη2 hrel hF0 hF1 eD eT rfl (by simp; positivity)
  obtain ⟨hQ1, hd, -⟩ := cErr_real (Q := D / T) (C := D / T) hu0 hu1 hσ (by positivity) hη hη2 hrel hF0 hF1 eD eT rfl (by simp; positivity)
  have hd' := abs_le.mp hd
  have hQ' := abs_le.mp hQ1
  have huσ : u * σ ≤ σ := by nlinarith
  obtain ⟨C, gC, eC⟩ := GFv.rnd hF (gD.divR N gT hT.ne') (by
    refine le_trans (b := 1) ?_ (by norm_num)
    rw [abs_le]; constructor <;> linarith)
  rw [← hu] at eC
  obtain ⟨h1, h2, -⟩ := cErr_real (Q := D / T) hu0 hu1 hσ (by positivity) hη hη2 hrel hF0 hF1 eD eT rfl eC
  exact ⟨C, gC, h1, h2⟩
end Asin
end Verif
