import Verif.Libm.PowCalc
import Verif.Libm.AsinMain
import Verif.Libm.AtanRed

/-! The logarithm of `pow`: `p_h + p_l` for a reduced argument, and the sum with the exponent. -/
namespace Verif
open Fmt
namespace Power
namespace Dbl
open Ex
local notation "W" => BitVec f64.w

theorem big : f64.Big := ⟨by decide +kernel, by decide +kernel⟩

/-- the constants as bounds -/
def cb (c : W) : Bd := ⟨|f64.val c|, 0, false⟩
theorem cH {σ : ℝ} (c : W) (h : f64.mag c < f64.infRep) : Holds f64 σ c (f64.val c : ℚ) (cb c) := holds_const h

theorem clr {b : W} {v : ℝ} (h : GFv f64 b v) : ∃ v0 : ℝ, GFv f64 (Asin.clearLow b) v0 ∧ |v - v0| ≤ 1 / 2048 * |v| + 1 / 2 ^ 120 ∧ |v0| ≤ |v| := by
  obtain ⟨v0, g, e, l⟩ := clear_all big h (c := 32) (by decide) (Asin.clear_mag b).1 (Asin.clear_mag b).2
  refine ⟨v0, g, e.trans ?_, l⟩
  have : (1 : ℝ) / 2 ^ (f64.s - 32) ≤ 1 / 2048 := by
    have : f64.s - 32 = 20 := rfl
    rw [this]; norm_num
  have := mul_le_mul_of_nonneg_right this (abs_nonneg v)
  linarith

/-- the polynomial `L(z)` -/
def Lp : List ℚ := [f64.val KD.L1, f64.val KD.L2, f64.val KD.L3, f64.val KD.L4, f64.val KD.L5, f64.val KD.L6]
/-- `3 + z + z² L(z)` -/
noncomputable def Qv (S : ℝ) : ℝ := 3 + S * S + S * S * (S * S) * Poly.ev Lp (S * S)


theorem mulB {a b p q : ℝ} (ha : |a| ≤ p) (hb : |b| ≤ q) : |a * b| ≤ p * q := by
  rw [abs_mul]; exact mul_le_mul ha hb (abs_nonneg _) ((abs_nonneg _).trans ha)

local macro "bnd" h:term,* : tactic => `(tactic| (simp only [sv, if_true, Bool.false_eq_true, if_false, mul_one]; push_cast; linarith only [$h,*]))

def rEx : Ex :=
  let s2 := Ex.mul (.leaf 0) (.leaf 0)
  .mul (.mul s2 s2) (.add (.leaf 1) (.mul s2 (.add (.leaf 2) (.mul s2 (.add (.leaf 3) (.mul s2 (.add (.leaf 4) (.mul s2 (.add (.leaf 5) (.mul s2 (.leaf 6)))))))))))

def eps : ℚ := 1 / 2 ^ (f64.s + 1)

theorem Lp_near {z : ℝ} (h0 : 0 ≤ z) (h1 : z ≤ 0.01023) : |Poly.ev Lp z - 0.6| ≤ 0.005 := by
  have h : Poly.chk (Poly.sub Lp [6 / 10]) (5 / 1000) 3 0 (1023 / 100000) = true := by decide +kernel
  have := Poly.chk_sound h (t := z) (by push_cast; exact h0) (by push_cast; norm_num at h1 ⊢; exact h1)
  rw [Poly.ev_sub] at this
  simp only [Poly.ev] at this ⊢
  push_cast at this
  rw [abs_le] at this ⊢
  norm_num at this ⊢
  constructor <;> linarith [this.1, this.2]

/-- what is known of the reduced argument `A` and the centre `B` -/
structure Red (A B TH : ℝ) : Prop where
  sum : 1.866 ≤ A + B
  sum2 : A + B ≤ 3.2321
  dif : |A - B| ≤ 0.2753
  lo : 0.5 ≤ A
  quo : |(A - B) / (A + B)| ≤ 0.1011
  hi : |TH - (A + B)| ≤ 1 / 1024
  ctr : B = 1 ∨ B = 3 / 2

set_option maxHeartbeats 4000000 in
/-- the sum `p_h + p_l` -/
theorem parts (N : FPU f64) {ax bp th : W} {A B TH : ℝ} (hax : GFv f64 ax A) (hbp : GFv f64 bp B) (hth : GFv f64 th TH) (hR : Red A B TH) {σ : ℝ} (hσ0 : 1 / 2 ^ 53 ≤ σ) (hσ1 : σ ≤ 0.2753) (hσ2 : |A - B| ≤ σ)
    {u v ss s_h t_l s_l s2 r r' s2' t_h t_l' u' v' p_h p_l : W} (eu : u = N.sub ax bp) (ev : v = N.div KD.one (N.add ax bp)) (ess : ss = N.mul u v) (esh : s_h = Asin.clearLow ss)
    (etl : t_l = N.sub ax (N.sub th bp)) (esl : s_l = N.mul v (N.sub (N.sub u (N.mul s_h th)) (N.mul s_h t_l))) (es2 : s2 = N.mul ss ss)
    (er : r = N.mul (N.mul s2 s2) (N.add KD.L1 (N.mul s2 (N.add KD.L2 (N.mul s2 (N.add KD.L3 (N.mul s2 (N.add KD.L4 (N.mul s2 (N.add KD.L5 (N.mul s2 KD.L6)))))))))))
    (er' : r' = N.add r (N.mul s_l (N.add s_h ss))) (es2' : s2' = N.mul s_h s_h) (eth : t_h = Asin.clearLow (N.add (N.add KD.three s2') r'))
    (etl' : t_l' = N.sub r' (N.sub (N.sub t_h KD.three) s2')) (eu' : u' = N.mul s_h t_h) (ev' : v' = N.add (N.mul s_l t_h) (N.mul t_l' ss))
    (eph : p_h = Asin.clearLow (N.add u' v')) (epl : p_l = N.sub v' (N.sub p_h u')) :
    ∃ PH, GFv f64 p_h PH ∧ |PH| ≤ 1.63 * σ ∧ Holds f64 σ p_l ((A - B) / (A + B) * Qv ((A - B) / (A + B)) - PH) ⟨1 / 1000, 5 * eps, true⟩ := by
  have F := big
  have h127 := big.bias
  have hB : 1 ≤ B ∧ B ≤ 3 / 2 := by rcases hR.ctr with h | h <;> rw [h] <;> norm_num
  obtain ⟨r1, r2, r3, r4, r5, r6, r7⟩ := hR
  have hg : Mul2 (-1 - (f64.s : ℤ)) A := Atan.gridX hax (k := -1) (by norm_num at r4 ⊢; linarith)
  have hgB : Mul2 (-1 - (f64.s : ℤ)) B := Atan.gridX hbp (k := -1) (by norm_num; linarith)
  have hgd := hg.sub hgB
  have h0 : 0 < σ := lt_of_lt_of_le (by positivity) hσ0
  have h1 : σ ≤ 1 := by norm_num at hσ1; linarith
  have h1' : |A - B| ≤ 1 := by linarith
  have gu : GFv f64 u (A - B) := by
    rw [eu]
    refine GFv.of_rounds big (hax.subR N hbp) hgd (h1'.trans ?_) (by norm_num [show f64.bias = 1023 by decide +kernel, show f64.s = 52 from rfl]) (h1'.trans (by norm_num))
    rw [show -1 - (f64.s : ℤ) + f64.s + 1 = 0 by ring, zpow_zero]
  have ht : (1 : ℝ) / 2 ^ 150 ≤ ((1 / 2 ^ 80 : ℚ) : ℝ) * σ := by push_cast; norm_num at hσ0 ⊢; linarith
  have ht' : (1 : ℝ) / 2 ^ 120 ≤ 1 / 1000000 * σ := by norm_num at hσ0 ⊢; linarith
  have hAB : 0 < A + B := by linarith
  obtain ⟨S, hS⟩ : ∃ S, S = (A - B) / (A + B) := ⟨_, rfl⟩
  have hSm : S * (A + B) = A - B := by rw [hS]; field_simp
  have hS1 : |S| ≤ 0.536 * σ := by
    have : |S| * (A + B) = |A - B| := by rw [← hSm, abs_mul, abs_of_pos hAB]
    nlinarith [abs_nonneg S]
  rw [← hS] at r5 ⊢
  obtain ⟨V, hV⟩ : ∃ V, V = 1 / (A + B) := ⟨_, rfl⟩
  have hV1 : |V| ≤ 0.536 := by
    rw [hV, abs_of_pos (by positivity), div_le_iff₀ hAB]; linarith
  have hSV : S = (A - B) * V := by rw [hS, hV]; ring
  have hA2 : A ≤ 1.74 := by
    rw [abs_le] at r3
    rcases r7 with h | h <;> linarith [r3.2]
  have Hu : Holds f64 σ u (A - B) ⟨1, 0, true⟩ := gu.holds (by bnd hσ2)
  have Hax : Holds f64 σ ax A ⟨174 / 100, 0, false⟩ := hax.holds (by
    simp only [sv, Bool.false_eq_true, if_false, mul_one]; push_cast
    rw [abs_of_pos (by linarith only [r4])]; linarith only [hA2])
  have Hbp : Holds f64 σ bp B ⟨3 / 2, 0, false⟩ := hbp.holds (by
    simp only [sv, Bool.false_eq_true, if_false, mul_one]; push_cast
    rw [abs_of_pos (by linarith only [hB.1])]; linarith only [hB.2])
  have Hsum := addT big N h0 h1 ht Hax Hbp (A := 32321 / 10000) (e := 33 / 10 * eps) (by
    rw [abs_of_pos hAB]; bnd r2) (by decide +kernel)
  have Hone : Holds f64 σ KD.one 1 ⟨1, 0, false⟩ := by
    have := GFv.const (F := f64) (b := KD.one) (q := 1) (by decide +kernel) (by decide +kernel)
    exact (this.cast (by norm_num)).holds (by simp [sv])
  have Hv := holds_div big N h0 h1 ht Hone Hsum rfl (L := 1866 / 1000) (by decide +kernel) (by rw [abs_of_pos hAB]; push_cast; linarith only [r1]) (A := 536 / 1000) (c := 151 / 100 * eps) (by decide +kernel)
  rw [← ev, ← hV] at Hv
  have Hss := mulT big N h0 h1 ht Hu Hv (A := 536 / 1000) (e := 206 / 100 * eps) (by rw [← hSV]; bnd hS1) (by decide +kernel)
  rw [← ess, ← hSV] at Hss
  obtain ⟨SH, gsh, csh, lsh⟩ := clr (GFv.self Hss.1)
  rw [← esh] at gsh
  have hσ := h0.le
  have eps1 : ((eps : ℚ) : ℝ) ≤ 1 / 1000000 := by
    have : eps ≤ 1 / 1000000 := by decide +kernel
    have := Rat.cast_le (K := ℝ).mpr this
    push_cast at this ⊢; linarith only [this]
  have eps0 : (0 : ℝ) ≤ (eps : ℚ) := by
    have : 0 ≤ eps := by decide +kernel
    exact_mod_cast this
  have vss : |f64.valK ℝ ss - S| ≤ 0.0001 * σ := by
    have h9 := Hss.2.2
    simp only [sv, if_true] at h9; push_cast at h9
    have := mul_le_mul_of_nonneg_right eps1 hσ
    linarith only [this, h9, h0]
  have hSH : |SH| ≤ 0.537 * σ := by
    have := abs_sub_abs_le_abs_sub (f64.valK ℝ ss) S
    linarith only [this, vss, hS1, lsh, h0]
  have hSd : |S - SH| ≤ 0.0004 * σ := by
    have h3 := abs_sub_le S (f64.valK ℝ ss) SH
    rw [abs_sub_comm S (f64.valK ℝ ss)] at h3
    have := abs_sub_abs_le_abs_sub (f64.valK ℝ ss) S
    linarith only [this, h3, vss, hS1, csh, ht', h0]
  have Hsh : Holds f64 σ s_h SH ⟨537 / 1000, 0, true⟩ := gsh.holds (by bnd hSH)
  have hTH : |TH| ≤ 3.24 := by
    have := abs_sub_abs_le_abs_sub TH (A + B)
    rw [abs_of_pos hAB] at this; linarith only [this, r6, r2]
  have Hth : Holds f64 σ th TH ⟨324 / 100, 0, false⟩ := hth.holds (by bnd hTH)
  have d1 : |TH - B| ≤ 1.75 := by
    have := abs_add_le (TH - (A + B)) A
    rw [show TH - (A + B) + A = TH - B by ring, abs_of_pos (show 0 < A by linarith only [r4])] at this; linarith only [this, r6, hA2]
  have Htb := subT big N h0 h1 ht Hth Hbp (A := 175 / 100) (e := 176 / 100 * eps) (by bnd d1) (by decide +kernel)
  have d2 : |A - (TH - B)| ≤ 1 / 1024 := by rw [show A - (TH - B) = -(TH - (A + B)) by ring, abs_neg]; exact r6
  have Htl := subT big N h0 h1 ht Hax Htb (A := 1 / 1000) (e := 177 / 100 * eps) (by bnd d2) (by decide +kernel)
  rw [← etl] at Htl
  have d3 : |SH * TH| ≤ 1.003 * σ := by
    have e : SH * TH = (A - B) - (S - SH) * (A + B) + SH * (TH - (A + B)) := by rw [← hSm]; ring
    rw [e]
    have m1 := mulB hSd (show |A + B| ≤ 3.24 by rw [abs_of_pos hAB]; linarith only [r2])
    have m2 := mulB hSH r6
    have := abs_add_le ((A - B) - (S - SH) * (A + B)) (SH * (TH - (A + B)))
    have h9 := abs_sub (A - B) ((S - SH) * (A + B))
    linarith only [this, h9, m1, m2, h0, hσ2]
  have Hm1 := mulT big N h0 h1 ht Hsh Hth (A := 1003 / 1000) (e := 101 / 100 * eps) (by bnd d3) (by decide +kernel)
  have d4 : |A - B - SH * TH| ≤ 0.002 * σ := by
    have e : A - B - SH * TH = (S - SH) * (A + B) - SH * (TH - (A + B)) := by rw [← hSm]; ring
    rw [e]
    have m1 := mulB hSd (show |A + B| ≤ 3.24 by rw [abs_of_pos hAB]; linarith only [r2])
    have m2 := mulB hSH r6
    have := abs_sub ((S - SH) * (A + B)) (SH * (TH - (A + B)))
    linarith only [this, m1, m2, h0]
  have Hd1 := subT big N h0 h1 ht Hu Hm1 (A := 2 / 1000) (e := 102 / 100 * eps) (by bnd d4) (by decide +kernel)
  have d5 : |SH * (A - (TH - B))| ≤ 0.0006 * σ := by
    have := mulB hSH d2; linarith only [this, h0]
  have Hm2 := mulT big N h0 h1 ht Hsh Htl (A := 6 / 10000) (e := 96 / 100 * eps) (by bnd d5) (by decide +kernel)
  have i1 : A - B - SH * TH - SH * (A - (TH - B)) = (S - SH) * (A + B) := by rw [← hSm]; ring
  have d6 : |(S - SH) * (A + B)| ≤ 0.0014 * σ := by
    have := mulB hSd (show |A + B| ≤ 3.24 by rw [abs_of_pos hAB]; linarith only [r2]); linarith only [this, h0]
  have Hd2 := subT big N h0 h1 ht Hd1 Hm2 (A := 14 / 10000) (e := 199 / 100 * eps) (by rw [i1]; bnd d6) (by decide +kernel)
  rw [i1] at Hd2
  have i2 : V * ((S - SH) * (A + B)) = S - SH := by rw [hV]; field_simp
  have Hsl := mulT' big N h0 h1 ht Hv Hd2 (A := 4 / 10000) (e := 107 / 100 * eps) (by rw [i2]; bnd hSd) (by decide +kernel)
  rw [i2, ← esl] at Hsl
  -- without the scale
  have Uss : Holds f64 σ ss S ⟨1011 / 10000, 58 / 100 * eps, false⟩ := tighten ((unscale Hss (q := 2753 / 10000) (by push_cast; linarith only [hσ1]) (by norm_num) (by decide +kernel)).mono h0 (A := 1) (e := 58 / 100 * eps) (by decide +kernel) (by decide +kernel)) (by bnd r5)
  have Usl : Holds f64 σ s_l (S - SH) ⟨12 / 100000, 30 / 100 * eps, false⟩ := (unscale Hsl (q := 2753 / 10000) (by push_cast; linarith only [hσ1]) (by norm_num) (by decide +kernel)).mono h0 (by decide +kernel) (by decide +kernel)
  have hSd' : |S - SH| ≤ 0.00012 := by linarith only [hSd, hσ1]
  have hSH' : |SH| ≤ 0.1013 := by
    have := abs_sub_abs_le_abs_sub SH S
    rw [abs_sub_comm] at this; linarith only [this, hSd', r5]
  have Ush : Holds f64 σ s_h SH ⟨1013 / 10000, 0, false⟩ := gsh.holds (by bnd hSH')
  have Hr := run big N h0 h1 ht (show In f64 σ [ss, KD.L1, KD.L2, KD.L3, KD.L4, KD.L5, KD.L6] [S, (f64.val KD.L1 : ℚ), (f64.val KD.L2 : ℚ), (f64.val KD.L3 : ℚ), (f64.val KD.L4 : ℚ), (f64.val KD.L5 : ℚ), (f64.val KD.L6 : ℚ)]
      [⟨1011 / 10000, 58 / 100 * eps, false⟩, cb KD.L1, cb KD.L2, cb KD.L3, cb KD.L4, cb KD.L5, cb KD.L6] from
    ⟨Uss, cH _ (by decide +kernel), cH _ (by decide +kernel), cH _ (by decide +kernel), cH _ (by decide +kernel), cH _ (by decide +kernel), cH _ (by decide +kernel), trivial⟩) rEx
    (sc := false) (A := 7 / 100000) (c := 3 / 1000 * eps) (by decide +kernel)
  have ir : (rEx.ideal fun i => [S, ((f64.val KD.L1 : ℚ) : ℝ), (f64.val KD.L2 : ℚ), (f64.val KD.L3 : ℚ), (f64.val KD.L4 : ℚ), (f64.val KD.L5 : ℚ), (f64.val KD.L6 : ℚ)].getD i 0) = S * S * (S * S) * Poly.ev Lp (S * S) := by
    simp only [rEx, Ex.ideal, List.getD_cons_zero, List.getD_cons_succ, Lp, Poly.ev]; ring
  rw [ir] at Hr
  have fr : (rEx.flt N fun i => [ss, KD.L1, KD.L2, KD.L3, KD.L4, KD.L5, KD.L6].getD i 0#f64.w) = r := by
    rw [er, es2]; rfl
  rw [fr] at Hr
  obtain ⟨R, hRdef⟩ : ∃ R, R = S * S * (S * S) * Poly.ev Lp (S * S) := ⟨_, rfl⟩
  have hQ : Qv S = 3 + S * S + R := by rw [hRdef]; rfl
  rw [← hRdef] at Hr
  have hR1 : |R| ≤ 0.00007 := by
    have := Hr.2.1
    simp only [sv, Bool.false_eq_true, if_false, mul_one] at this; push_cast at this; linarith only [this]
  have hSS : |S * S| ≤ 0.01023 := by have := mulB r5 r5; linarith only [this]
  have hHH : |SH * SH| ≤ 0.0103 := by have := mulB hSH' hSH'; linarith only [this]
  have hpl : |SH + S| ≤ 0.203 := by have := abs_add_le SH S; linarith only [this, hSH', r5]
  have Hp := addT big N h0 h1 ht Ush Uss (A := 203 / 1000) (e := 79 / 100 * eps) (by bnd hpl) (by decide +kernel)
  have hmm : |(S - SH) * (SH + S)| ≤ 0.00003 := by have := mulB hSd' hpl; linarith only [this]
  have Hmm := mulT big N h0 h1 ht Usl Hp (A := 3 / 100000) (e := 62 / 1000 * eps) (by bnd hmm) (by decide +kernel)
  have hrr : |R + (S - SH) * (SH + S)| ≤ 0.0001 := by have := abs_add_le R ((S - SH) * (SH + S)); linarith only [this, hR1, hmm]
  have Hr' := addT big N h0 h1 ht Hr Hmm (A := 1 / 10000) (e := 66 / 1000 * eps) (by bnd hrr) (by decide +kernel)
  rw [← er'] at Hr'
  have Hs2 := mulT big N h0 h1 ht Ush Ush (A := 103 / 10000) (e := 104 / 10000 * eps) (by bnd hHH) (by decide +kernel)
  rw [← es2'] at Hs2
  have H3 : Holds f64 σ KD.three 3 ⟨3, 0, false⟩ := by
    have := GFv.const (F := f64) (b := KD.three) (q := 3) (by decide +kernel) (by decide +kernel)
    exact (this.cast (by norm_num)).holds (by simp [sv])
  have d7 : |3 + SH * SH| ≤ 3.0103 := by
    have := abs_add_le 3 (SH * SH); rw [abs_of_pos (show (0 : ℝ) < 3 by norm_num)] at this; linarith only [this, hHH]
  have H3a := addT big N h0 h1 ht H3 Hs2 (A := 30103 / 10000) (e := 303 / 100 * eps) (by bnd d7) (by decide +kernel)
  have i3 : 3 + SH * SH + (R + (S - SH) * (SH + S)) = Qv S := by rw [hQ]; ring
  have d8 : |Qv S| ≤ 3.0104 := by
    rw [hQ]
    have h1 := abs_add_le (3 + S * S) R
    have h2 := abs_add_le 3 (S * S)
    rw [abs_of_pos (show (0 : ℝ) < 3 by norm_num)] at h2; linarith only [h1, h2, hSS, hR1]
  have H3b := addT big N h0 h1 ht H3a Hr' (A := 30104 / 10000) (e := 62 / 10 * eps) (by rw [i3]; bnd d8) (by decide +kernel)
  rw [i3] at H3b
  obtain ⟨TH2, gth, cth, lth⟩ := clr (GFv.self H3b.1)
  rw [← eth] at gth
  have vq : |f64.valK ℝ (N.add (N.add KD.three s2') r') - Qv S| ≤ 0.00001 := by
    have := H3b.2.2
    simp only [sv, Bool.false_eq_true, if_false, mul_one] at this; push_cast at this; linarith only [this, eps1]
  have p120 : (1 : ℝ) / 2 ^ 120 ≤ 1 / 1000000 := by norm_num
  have hT2 : |Qv S - TH2| ≤ 0.0016 := by
    have h3 := abs_sub_le (Qv S) (f64.valK ℝ (N.add (N.add KD.three s2') r')) TH2
    rw [abs_sub_comm (Qv S) (f64.valK ℝ (N.add (N.add KD.three s2') r'))] at h3
    have := abs_sub_abs_le_abs_sub (f64.valK ℝ (N.add (N.add KD.three s2') r')) (Qv S)
    linarith only [this, h3, vq, cth, p120, d8]
  have hT2' : |TH2| ≤ 3.0105 := by
    have := abs_sub_abs_le_abs_sub (f64.valK ℝ (N.add (N.add KD.three s2') r')) (Qv S)
    linarith only [this, vq, lth, d8]
  have Hth2 : Holds f64 σ t_h TH2 ⟨30105 / 10000, 0, false⟩ := gth.holds (by bnd hT2')
  have d9 : |TH2 - 3| ≤ 0.0122 := by
    have e : TH2 - 3 = -(Qv S - TH2) + (S * S + R) := by rw [hQ]; ring
    rw [e]
    have h1 := abs_add_le (-(Qv S - TH2)) (S * S + R)
    have h2 := abs_add_le (S * S) R
    rw [abs_neg] at h1; linarith only [h1, h2, hT2, hSS, hR1]
  have Hq1 := subT big N h0 h1 ht Hth2 H3 (A := 122 / 10000) (e := 123 / 10000 * eps) (by bnd d9) (by decide +kernel)
  have d10 : |TH2 - 3 - SH * SH| ≤ 0.0018 := by
    have e : TH2 - 3 - SH * SH = -(Qv S - TH2) + (R + (S - SH) * (SH + S)) := by rw [hQ]; ring
    rw [e]
    have h1 := abs_add_le (-(Qv S - TH2)) (R + (S - SH) * (SH + S))
    rw [abs_neg] at h1; linarith only [h1, hT2, hrr]
  have Hq2 := subT big N h0 h1 ht Hq1 Hs2 (A := 18 / 10000) (e := 25 / 1000 * eps) (by bnd d10) (by decide +kernel)
  have i4 : R + (S - SH) * (SH + S) - (TH2 - 3 - SH * SH) = Qv S - TH2 := by rw [hQ]; ring
  have Htl' := subT big N h0 h1 ht Hr' Hq2 (A := 16 / 10000) (e := 94 / 1000 * eps) (by rw [i4]; bnd hT2) (by decide +kernel)
  rw [i4, ← etl'] at Htl'
  have d11 : |SH * TH2| ≤ 1.62 * σ := by have := mulB hSH hT2'; linarith only [this, h0]
  have Hu' := mulT big N h0 h1 ht Hsh Hth2 (A := 162 / 100) (e := 163 / 100 * eps) (by bnd d11) (by decide +kernel)
  rw [← eu'] at Hu'
  have d12 : |(S - SH) * TH2| ≤ 0.0013 * σ := by have := mulB hSd hT2'; linarith only [this, h0]
  have Hw1 := mulT big N h0 h1 ht Hsl Hth2 (A := 13 / 10000) (e := 323 / 100 * eps) (by bnd d12) (by decide +kernel)
  have d13 : |(Qv S - TH2) * S| ≤ 0.0009 * σ := by have := mulB hT2 hS1; linarith only [this, h0]
  have Hw2 := mulT' big N h0 h1 ht Htl' Hss (A := 9 / 10000) (e := 6 / 100 * eps) (by bnd d13) (by decide +kernel)
  have i5 : (S - SH) * TH2 + (Qv S - TH2) * S = S * Qv S - SH * TH2 := by ring
  have d14 : |S * Qv S - SH * TH2| ≤ 0.0022 * σ := by
    rw [← i5]; have := abs_add_le ((S - SH) * TH2) ((Qv S - TH2) * S); linarith only [this, d12, d13]
  have Hv' := addT big N h0 h1 ht Hw1 Hw2 (A := 22 / 10000) (e := 330 / 100 * eps) (by rw [i5]; bnd d14) (by decide +kernel)
  rw [i5, ← ev'] at Hv'
  have d15 : |S * Qv S| ≤ 1.62 * σ := by have := mulB hS1 d8; linarith only [this, h0]
  have i6 : SH * TH2 + (S * Qv S - SH * TH2) = S * Qv S := by ring
  have Huv := addT big N h0 h1 ht Hu' Hv' (A := 162 / 100) (e := 7 * eps) (by rw [i6]; bnd d15) (by decide +kernel)
  rw [i6] at Huv
  obtain ⟨PH, gph, cph, lph⟩ := clr (GFv.self Huv.1)
  rw [← eph] at gph
  have vp : |f64.valK ℝ (N.add u' v') - S * Qv S| ≤ 0.00001 * σ := by
    have h9 := Huv.2.2
    simp only [sv, if_true] at h9; push_cast at h9
    have := mul_le_mul_of_nonneg_right eps1 hσ
    linarith only [this, h9, h0]
  have hP2 : |S * Qv S - PH| ≤ 0.0009 * σ := by
    have h3 := abs_sub_le (S * Qv S) (f64.valK ℝ (N.add u' v')) PH
    rw [abs_sub_comm (S * Qv S) (f64.valK ℝ (N.add u' v'))] at h3
    have := abs_sub_abs_le_abs_sub (f64.valK ℝ (N.add u' v')) (S * Qv S)
    linarith only [this, h3, vp, cph, ht', d15, h0]
  have hP3 : |PH| ≤ 1.63 * σ := by
    have := abs_sub_abs_le_abs_sub (f64.valK ℝ (N.add u' v')) (S * Qv S)
    linarith only [this, vp, lph, d15, h0]
  have Hph : Holds f64 σ p_h PH ⟨163 / 100, 0, true⟩ := gph.holds (by bnd hP3)
  have d16 : |PH - SH * TH2| ≤ 0.0032 * σ := by
    rw [show PH - SH * TH2 = -(S * Qv S - PH) + (S * Qv S - SH * TH2) by ring]
    have h1 := abs_add_le (-(S * Qv S - PH)) (S * Qv S - SH * TH2)
    rw [abs_neg] at h1; linarith only [h1, hP2, d14, h0]
  have Hx := subT big N h0 h1 ht Hph Hu' (A := 32 / 10000) (e := 164 / 100 * eps) (by bnd d16) (by decide +kernel)
  have i7 : S * Qv S - SH * TH2 - (PH - SH * TH2) = S * Qv S - PH := by ring
  have Hpl := subT big N h0 h1 ht Hv' Hx (A := 1 / 1000) (e := 5 * eps) (by rw [i7]; bnd hP2, h0) (by decide +kernel)
  rw [i7, ← epl] at Hpl
  exact ⟨PH, gph, hP3, Hpl⟩

end Dbl
end Power
end Verif
