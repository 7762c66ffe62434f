import Verif.Libm.PowSumD
import Verif.Libm.ExpMain

/-! The exponential of `pow`. -/
namespace Verif
open Fmt
namespace Power
namespace Dbl
open Ex
local notation "W" => BitVec f64.w
local macro "bnd" h:term,* : tactic => `(tactic| (simp only [sv, if_true, Bool.false_eq_true, if_false, mul_one]; push_cast; linarith only [$h,*]))

def cs : List W := [KD.P1, KD.P2, KD.P3, KD.P4, KD.P5]
def pl : List ℚ := [f64.val KD.P1, f64.val KD.P2, f64.val KD.P3, f64.val KD.P4, f64.val KD.P5]

theorem pl_pos {z : ℝ} (h0 : 0 ≤ z) (h1 : z ≤ 0.1208) : 0 ≤ Poly.ev pl z := by
  have h : Poly.chk (Poly.sub pl [1 / 6]) (1 / 6) 3 0 (1208 / 10000) = true := by decide +kernel
  have := Poly.chk_sound h (t := z) (by push_cast; exact h0) (by push_cast; norm_num at h1 ⊢; exact h1)
  rw [Poly.ev_sub] at this
  simp only [Poly.ev] at this ⊢
  rw [abs_le] at this
  push_cast at this
  linarith [this.1]

theorem exp_rat {P : List ℚ} {B : ℚ} {n : ℕ} (hP : Poly.chk (Poly.expD P) B n (-3475 / 10000) (3475 / 10000) = true) {X : ℝ} (hX : |X| ≤ 0.3475) {C : ℝ}
    (hC : C = X - X * X * Poly.ev P (X * X)) (hC2 : |C| ≤ 1) : |(Real.exp X - 1) * (2 - C) - 2 * X| ≤ |X| * B + 3 / 2 ^ 66 := by
  have hX' := hX
  rw [abs_le] at hX'
  have h1 := Poly.chk_sound hP (t := X) (by push_cast; linarith [hX'.1]) (by push_cast; linarith [hX'.2])
  have h2 : |Real.exp X - (1 + X * Poly.ev Poly.expL X)| ≤ 1 / 2 ^ 66 := by
    rw [Poly.ev_expL]
    refine (Real.exp_bound (by norm_num at hX ⊢; linarith) (n := 16) (by norm_num)).trans ?_
    have : |X| ^ 16 ≤ 0.3475 ^ 16 := pow_le_pow_left₀ (abs_nonneg _) hX _
    refine (mul_le_mul_of_nonneg_right this (by positivity)).trans ?_
    simp only [Nat.factorial]
    norm_num
  have e1 : Poly.ev (Poly.expD P) X = (2 - C) * Poly.ev Poly.expL X - 2 := by
    rw [Poly.expD, Poly.ev_sub, Poly.ev_mul, Poly.ev_add, hC]
    simp only [Poly.ev, Poly.ev_spread]
    push_cast; ring
  rw [e1] at h1
  have e2 : (Real.exp X - 1) * (2 - C) - 2 * X = X * ((2 - C) * Poly.ev Poly.expL X - 2) + (Real.exp X - (1 + X * Poly.ev Poly.expL X)) * (2 - C) := by ring
  rw [e2]
  have h3 : |X * ((2 - C) * Poly.ev Poly.expL X - 2)| ≤ |X| * B := by rw [abs_mul]; exact mul_le_mul_of_nonneg_left h1 (abs_nonneg _)
  have h4 : |(Real.exp X - (1 + X * Poly.ev Poly.expL X)) * (2 - C)| ≤ 1 / 2 ^ 66 * 3 := by
    rw [abs_mul]
    refine mul_le_mul h2 ?_ (abs_nonneg _) (by positivity)
    rw [abs_le] at hC2 ⊢
    constructor <;> linarith [hC2.1, hC2.2]
  refine (abs_add_le _ _).trans ?_
  linarith

/-- the polynomial of the exponential -/
def pc (N : FPU f64) (z : W) : W :=
  let t := N.mul z z
  N.sub z (N.mul t (N.add KD.P1 (N.mul t (N.add KD.P2 (N.mul t (N.add KD.P3 (N.mul t (N.add KD.P4 (N.mul t KD.P5)))))))))

theorem pc_spec (N : FPU f64) {x : W} {X : ℝ} (hx : GFv f64 x X) (hX : |X| ≤ 0.3475) :
    ∃ C, Holds f64 1 (pc N x) C ⟨37 / 100, 3 / 10 * eps, false⟩ ∧ C ≤ 0.348 ∧
      |(Real.exp X - 1) * (2 - C) - 2 * X| ≤ 0.05 * (eps : ℚ) := by
  have ht : (1 : ℝ) / 2 ^ 150 ≤ ((1 / 2 ^ 150 : ℚ) : ℝ) * 1 := by push_cast; norm_num
  have hl := Ex.cHolds (hx.holds (σ := 1) (A := 3475 / 10000) (sc := false) (by unfold Ex.sv; push_cast; norm_num at hX ⊢; exact hX)) (cs := cs)
    (by decide +kernel)
  have h1 := Ex.holds_of_errLe big N one_pos (le_refl 1) ht hl (p := Exp.pEx) (sc := false) (A := 37 / 100) (c := 3 / 10 * eps)
    (by decide +kernel)
  have hC : Exp.pEx.ideal (Ex.cVal X cs) = X - X * X * Poly.ev pl (X * X) := by
    simp only [Exp.pEx, Ex.ideal, Ex.cVal, cs, pl, Poly.ev, List.getD_cons_zero, List.getD_cons_succ]
    ring
  have hX' := hX
  rw [abs_le] at hX'
  have hXX : X * X ≤ 0.1208 := by
    have : |X| * |X| ≤ 0.3475 * 0.3475 := mul_le_mul hX hX (abs_nonneg _) (by norm_num)
    rw [abs_mul_abs_self] at this
    norm_num at *; linarith
  have hpos := pl_pos (mul_self_nonneg X) hXX
  refine ⟨_, h1, ?_, ?_⟩
  · rw [hC]
    have := mul_nonneg (mul_self_nonneg X) hpos
    norm_num at *
    linarith [hX'.2]
  · have hP : Poly.chk (Poly.expD pl) (12 / 100 / 2 ^ 53) 10 (-3475 / 10000) (3475 / 10000) = true := by decide +kernel
    have hA := h1.2.1
    have := exp_rat hP hX hC (by simp only [Ex.sv] at hA; push_cast at hA; norm_num at hA ⊢; linarith)
    refine this.trans ?_
    push_cast
    rw [epsR]
    norm_num at hX ⊢
    linarith

theorem lg_near : |((f64.val KD.LG2_H : ℚ) : ℝ) + (f64.val KD.LG2_L : ℚ) - Real.log 2| ≤ 0.02 * (eps : ℚ) ∧ |((f64.val KD.LG2 : ℚ) : ℝ) - Real.log 2| ≤ (eps : ℚ) := by
  have c : |f64.val KD.LG2_H + f64.val KD.LG2_L - 693147180559945309417 / 10 ^ 21| ≤ 1 / 100 * eps ∧ |f64.val KD.LG2 - 693147180559945309417 / 10 ^ 21| ≤ 9 / 10 * eps := by decide +kernel
  have c1 := Rat.cast_le (K := ℝ).mpr c.1
  have c2 := Rat.cast_le (K := ℝ).mpr c.2
  have h := Log2.ln2_near
  push_cast at c1 c2
  rw [epsR] at *
  rw [abs_le] at c1 c2 h
  norm_num at c1 c2 h
  constructor
  · rw [abs_le]; norm_num
    exact ⟨by linarith only [c1.1, h.2], by linarith only [c1.2, h.1]⟩
  · rw [abs_le]; norm_num
    exact ⟨by linarith only [c2.1, h.2], by linarith only [c2.2, h.1]⟩

theorem exp_move {a b d : ℝ} (h : |a - b| ≤ d) (hd : d ≤ 1 / 1000) : |Real.exp a - Real.exp b| ≤ 1.01 * d * Real.exp b := by
  have e : Real.exp a - Real.exp b = (Real.exp (a - b) - 1) * Real.exp b := by rw [sub_mul, ← Real.exp_add]; ring_nf
  rw [e, abs_mul, abs_of_pos (Real.exp_pos b)]
  refine mul_le_mul_of_nonneg_right ?_ (Real.exp_pos b).le
  have h1 := Real.abs_exp_sub_one_sub_id_le (x := a - b) (by linarith)
  have h2 : (a - b) ^ 2 ≤ 1 / 1000 * d := by
    rw [← sq_abs, sq]
    exact mul_le_mul (h.trans hd) h (abs_nonneg _) (by norm_num)
  have := abs_add_le (Real.exp (a - b) - 1 - (a - b)) (a - b)
  rw [sub_add_cancel] at this
  linarith only [this, h1, h2, h, (abs_nonneg _).trans h]

set_option maxHeartbeats 1000000 in
theorem exp_spec (N : FPU f64) {t p_l p_h u v z w t1 r R : W} {T PL PH q : ℝ} (gt : GFv f64 t T) (gl : GFv f64 p_l PL) (gh : GFv f64 p_h PH) (hq : q = PL + PH) (hq1 : |q| ≤ 0.5011)
    (hT : |T - q| ≤ 0.001) (hPL : |PL| ≤ 1) (eu : u = N.mul t KD.LG2_H) (ev : v = N.add (N.mul (N.sub p_l (N.sub t p_h)) KD.LG2) (N.mul t KD.LG2_L)) (ez : z = N.add u v)
    (ew : w = N.sub v (N.sub z u)) (et1 : t1 = pc N z) (er : r = N.sub (N.div (N.mul z t1) (N.sub t1 KD.two)) (N.add w (N.mul z w))) (eR : R = N.sub KD.one (N.sub r z)) :
    f64.IsFin R ∧ |f64.valK ℝ R - Real.exp (q * Real.log 2)| ≤ 6 * (eps : ℚ) * Real.exp (q * Real.log 2) := by
  have eps0 : (0 : ℝ) < (eps : ℚ) := by rw [epsR]; positivity
  have eps1 : ((eps : ℚ) : ℝ) ≤ 1 / 10000000 := by rw [epsR]; norm_num
  have ht : (1 : ℝ) / 2 ^ 150 ≤ ((1 / 2 ^ 80 : ℚ) : ℝ) * 1 := by push_cast; norm_num
  have h0 : (0 : ℝ) < 1 := one_pos
  have h1 : (1 : ℝ) ≤ 1 := le_refl 1
  obtain ⟨hlg, hlg2⟩ := lg_near
  have hln := Log2.ln2_near
  have c1 : |((f64.val KD.LG2_H : ℚ) : ℝ)| ≤ 0.69316 := by
    have : |f64.val KD.LG2_H| ≤ 69316 / 100000 := by decide +kernel
    have := Rat.cast_le (K := ℝ).mpr this
    push_cast at this; norm_num at this ⊢; exact this
  have c2 : |((f64.val KD.LG2_L : ℚ) : ℝ)| ≤ 0.00001 := by
    have : |f64.val KD.LG2_L| ≤ 1 / 100000 := by decide +kernel
    have := Rat.cast_le (K := ℝ).mpr this
    push_cast at this; norm_num at this ⊢; exact this
  have c3 : |((f64.val KD.LG2 : ℚ) : ℝ)| ≤ 0.69316 := by
    have : |f64.val KD.LG2| ≤ 69316 / 100000 := by decide +kernel
    have := Rat.cast_le (K := ℝ).mpr this
    push_cast at this; norm_num at this ⊢; exact this
  have g1 : GFv f64 KD.LG2_H ((f64.val KD.LG2_H : ℚ) : ℝ) := GFv.const (by decide +kernel) rfl
  have g2 : GFv f64 KD.LG2_L ((f64.val KD.LG2_L : ℚ) : ℝ) := GFv.const (by decide +kernel) rfl
  have g3 : GFv f64 KD.LG2 ((f64.val KD.LG2 : ℚ) : ℝ) := GFv.const (by decide +kernel) rfl
  have g4 : GFv f64 KD.one 1 := by
    have := GFv.const (F := f64) (b := KD.one) (q := 1) (by decide +kernel) (by decide +kernel); simpa using this
  have g5 : GFv f64 KD.two 2 := by
    have := GFv.const (F := f64) (b := KD.two) (q := 2) (by decide +kernel) (by decide +kernel); simpa using this
  generalize ((f64.val KD.LG2_H : ℚ) : ℝ) = ch at *
  generalize ((f64.val KD.LG2_L : ℚ) : ℝ) = cl at *
  generalize ((f64.val KD.LG2 : ℚ) : ℝ) = cp at *
  have hT1 : |T| ≤ 0.5021 := by have := abs_sub_abs_le_abs_sub T q; linarith only [this, hT, hq1]
  have HT : Holds f64 1 t T ⟨5021 / 10000, 0, false⟩ := gt.holds (by bnd hT1)
  have HL : Holds f64 1 p_l PL ⟨1, 0, false⟩ := gl.holds (by bnd hPL)
  have hPH : |PH| ≤ 1.5011 := by
    have := abs_sub q PL
    rw [hq, add_sub_cancel_left] at this
    rw [hq] at hq1
    linarith only [this, hq1, hPL]
  have HH : Holds f64 1 p_h PH ⟨15011 / 10000, 0, false⟩ := gh.holds (by bnd hPH)
  have Hch : Holds f64 1 KD.LG2_H ch ⟨69316 / 100000, 0, false⟩ := g1.holds (by bnd c1)
  have Hcl : Holds f64 1 KD.LG2_L cl ⟨1 / 100000, 0, false⟩ := g2.holds (by bnd c2)
  have Hcp : Holds f64 1 KD.LG2 cp ⟨69316 / 100000, 0, false⟩ := g3.holds (by bnd c3)
  have Hone : Holds f64 1 KD.one 1 ⟨1, 0, false⟩ := g4.holds (by simp [sv])
  have Htwo : Holds f64 1 KD.two 2 ⟨2, 0, false⟩ := g5.holds (by simp [sv])
  have d1 : |T * ch| ≤ 0.3481 := by have := mulB hT1 c1; norm_num at this ⊢; linarith only [this]
  have Hu := mulT big N h0 h1 ht HT Hch (A := 3481 / 10000) (e := 36 / 100 * eps) (by bnd d1) (by decide +kernel)
  rw [← eu] at Hu
  have d2 : |T - PH| ≤ 1.002 := by
    have := abs_add_le (T - q) PL
    rw [show T - q + PL = T - PH by rw [hq]; ring] at this
    linarith only [this, hT, hPL]
  have Hs1 := subT big N h0 h1 ht HT HH (A := 1002 / 1000) (e := 1003 / 1000 * eps) (by bnd d2) (by decide +kernel)
  have d3 : |PL - (T - PH)| ≤ 0.001 := by
    rw [show PL - (T - PH) = -(T - q) by rw [hq]; ring, abs_neg]; exact hT
  have Hs2 := subT big N h0 h1 ht HL Hs1 (A := 1 / 1000) (e := 1006 / 1000 * eps) (by bnd d3) (by decide +kernel)
  have d4 := mulB d3 c3
  have Hm1 := mulT big N h0 h1 ht Hs2 Hcp (A := 8 / 10000) (e := 7 / 10 * eps) (by bnd d4) (by decide +kernel)
  have d5 := mulB hT1 c2
  have Hm2 := mulT big N h0 h1 ht HT Hcl (A := 1 / 100000) (e := 1 / 10000 * eps) (by bnd d5) (by decide +kernel)
  obtain ⟨U, hU⟩ : ∃ U, U = T * ch := ⟨_, rfl⟩
  obtain ⟨V, hV⟩ : ∃ V, V = (PL - (T - PH)) * cp + T * cl := ⟨_, rfl⟩
  have d6 : |V| ≤ 0.001 := by
    rw [hV]
    have := abs_add_le ((PL - (T - PH)) * cp) (T * cl)
    linarith only [this, d4, d5]
  have Hv := addT big N h0 h1 ht Hm1 Hm2 (A := 1 / 1000) (e := 71 / 100 * eps) (by rw [← hV]; bnd d6) (by decide +kernel)
  rw [← ev, ← hV] at Hv
  rw [← hU] at Hu d1
  have hUV : |U + V - q * Real.log 2| ≤ 0.02 * ((eps : ℚ) : ℝ) := by
    have e : U + V - q * Real.log 2 = T * (ch + cl - Real.log 2) - (T - q) * (cp - Real.log 2) := by rw [hU, hV, hq]; ring
    rw [e]
    have m1 := mulB hT1 hlg
    have m2 := mulB hT hlg2
    have := abs_sub (T * (ch + cl - Real.log 2)) ((T - q) * (cp - Real.log 2))
    linarith only [this, m1, m2, eps0]
  have hql : |q * Real.log 2| ≤ 0.34735 := by
    have hl : |Real.log 2| ≤ 0.69315 := by
      rw [abs_le] at *; norm_num at hln ⊢; constructor <;> linarith only [hln.1, hln.2]
    have := mulB hq1 hl
    norm_num at this ⊢; linarith only [this]
  have d7 : |U + V| ≤ 0.3474 := by
    have := abs_sub_abs_le_abs_sub (U + V) (q * Real.log 2)
    linarith only [this, hUV, hql, eps1]
  have Hz := addT big N h0 h1 ht Hu Hv (A := 3474 / 10000) (e := 142 / 100 * eps) (by bnd d7) (by decide +kernel)
  rw [← ez] at Hz
  obtain ⟨Z, hZ⟩ : ∃ Z, Z = f64.valK ℝ z := ⟨_, rfl⟩
  have gz : GFv f64 z Z := by rw [hZ]; exact GFv.self Hz.1
  have zUV : |Z - (U + V)| ≤ 1.42 * ((eps : ℚ) : ℝ) := by
    have := Hz.2.2
    rw [← hZ] at this
    simp only [sv, Bool.false_eq_true, if_false, mul_one] at this
    push_cast at this; linarith only [this]
  have hZ1 : |Z| ≤ 0.3475 := by
    have := abs_sub_abs_le_abs_sub Z (U + V)
    linarith only [this, zUV, d7, eps1]
  have HZ : Holds f64 1 z Z ⟨3475 / 10000, 0, false⟩ := gz.holds (by bnd hZ1)
  have d8 : |Z - U| ≤ 0.0011 := by
    have := abs_add_le (Z - (U + V)) V
    rw [show Z - (U + V) + V = Z - U by ring] at this
    linarith only [this, zUV, d6, eps1]
  have Hd := subT big N h0 h1 ht HZ Hu (A := 11 / 10000) (e := 362 / 1000 * eps) (by bnd d8) (by decide +kernel)
  have d9 : |V - (Z - U)| ≤ 1.42 * ((eps : ℚ) : ℝ) := by
    rw [show V - (Z - U) = -(Z - (U + V)) by ring, abs_neg]; exact zUV
  have Hw := subT big N h0 h1 ht Hv Hd (A := 142 / 100 * eps) (e := 108 / 100 * eps) (by bnd d9) (by decide +kernel)
  rw [← ew] at Hw
  obtain ⟨Wv, hW⟩ : ∃ Wv, Wv = f64.valK ℝ w := ⟨_, rfl⟩
  have gw : GFv f64 w Wv := by rw [hW]; exact GFv.self Hw.1
  have wUV : |Wv - (V - (Z - U))| ≤ 1.08 * ((eps : ℚ) : ℝ) := by
    have := Hw.2.2
    rw [← hW] at this
    simp only [sv, Bool.false_eq_true, if_false, mul_one] at this
    push_cast at this; linarith only [this]
  have hW1 : |Wv| ≤ 2.5 * ((eps : ℚ) : ℝ) := by
    have := abs_sub_abs_le_abs_sub Wv (V - (Z - U))
    linarith only [this, wUV, d9]
  have HW : Holds f64 1 w Wv ⟨25 / 10 * eps, 0, false⟩ := gw.holds (by bnd hW1)
  have zw : |Z + Wv - q * Real.log 2| ≤ 1.1 * ((eps : ℚ) : ℝ) := by
    have := abs_add_le (Wv - (V - (Z - U))) (U + V - q * Real.log 2)
    rw [show Wv - (V - (Z - U)) + (U + V - q * Real.log 2) = Z + Wv - q * Real.log 2 by ring] at this
    linarith only [this, wUV, hUV, eps0]
  obtain ⟨C, HC, hC1, hexp⟩ := pc_spec N gz hZ1
  rw [← et1] at HC
  have hC : |C| ≤ 0.37 := by
    have := HC.2.1
    simp only [sv, Bool.false_eq_true, if_false, mul_one] at this
    push_cast at this; norm_num at this ⊢; exact this
  have hC2 := hC
  rw [abs_le] at hC2
  have k1 := mulB hZ1 hC
  have Hzt := mulT big N h0 h1 ht HZ HC (A := 13 / 100) (e := 24 / 100 * eps) (by bnd k1) (by decide +kernel)
  have k2 : |C - 2| ≤ 2.37 := by rw [abs_le]; constructor <;> linarith only [hC2.1, hC2.2]
  have Ht2 := subT big N h0 h1 ht HC Htwo (A := 237 / 100) (e := 27 / 10 * eps) (by bnd k2) (by decide +kernel)
  have Hdiv : Holds f64 1 (N.div (N.mul z t1) (N.sub t1 KD.two)) (Z * C / (C - 2)) ⟨8 / 100, 37 / 100 * eps, false⟩ := by
    have x1 := Hzt.2.2
    have x2 := Ht2.2.2
    simp only [sv, Bool.false_eq_true, if_false, mul_one] at x1 x2
    push_cast at x1 x2
    have b0 : f64.valK ℝ (N.sub t1 KD.two) < -1.65 := by
      rw [abs_le] at x2
      linarith only [x2.2, hC1, eps1]
    have b1 : C - 2 < -1.65 := by linarith only [hC1]
    have nz : f64.valK ℝ (N.sub t1 KD.two) ≠ 0 := by linarith only [b0]
    have y1 : |Z * C / (C - 2)| ≤ 0.08 := by
      rw [abs_div, div_le_iff₀ (by rw [abs_of_neg (by linarith only [b1])]; linarith only [b1]), abs_of_neg (show C - 2 < 0 by linarith only [b1])]
      linarith only [k1, b1]
    refine stepT (d := 28 / 100 * eps) big h0 h1 ht (Fmt.divR N Hzt.1 Ht2.1 nz) (by bnd y1) ?_ (by decide +kernel) (by decide +kernel)
    generalize f64.valK ℝ (N.mul z t1) = a at *
    generalize f64.valK ℝ (N.sub t1 KD.two) = b at *
    have e : a / b - Z * C / (C - 2) = ((a - Z * C) - Z * C / (C - 2) * (b - (C - 2))) / b := by
      have n1 : b ≠ 0 := by linarith only [b0]
      have n2 : C - 2 ≠ 0 := by linarith only [b1]
      field_simp; ring
    rw [e, abs_div]
    simp only [sv, Bool.false_eq_true, if_false, mul_one]
    rw [div_le_iff₀ (by rw [abs_of_neg (by linarith only [b0])]; linarith only [b0]), abs_of_neg (show b < 0 by linarith only [b0])]
    have m := mulB y1 x2
    have := abs_sub (a - Z * C) (Z * C / (C - 2) * (b - (C - 2)))
    have pb := mul_le_mul_of_nonneg_left (show (1.65 : ℝ) ≤ -b by linarith only [b0]) eps0.le
    push_cast
    linarith only [this, m, x1, pb, eps0]
  have k3 := mulB hZ1 hW1
  have Hzw := mulT big N h0 h1 ht HZ HW (A := 1 * eps) (e := 1 / 1000 * eps) (by bnd k3, eps0) (by decide +kernel)
  have k4 : |Wv + Z * Wv| ≤ 3.5 * ((eps : ℚ) : ℝ) := by
    have := abs_add_le Wv (Z * Wv)
    linarith only [this, hW1, k3, eps0]
  have Hww := addT big N h0 h1 ht HW Hzw (A := 35 / 10 * eps) (e := 1 / 100 * eps) (by bnd k4, eps0) (by decide +kernel)
  have k5 : |Z * C / (C - 2)| ≤ 0.08 := by
    have := Hdiv.2.1
    simp only [sv, Bool.false_eq_true, if_false, mul_one] at this
    push_cast at this; norm_num at this ⊢; exact this
  have k6 : |Z * C / (C - 2) - (Wv + Z * Wv)| ≤ 0.081 := by
    have := abs_sub (Z * C / (C - 2)) (Wv + Z * Wv)
    linarith only [this, k4, k5, eps1]
  have Hr := subT big N h0 h1 ht Hdiv Hww (A := 81 / 1000) (e := 47 / 100 * eps) (by bnd k6) (by decide +kernel)
  rw [← er] at Hr
  have k7 : |Z * C / (C - 2) - (Wv + Z * Wv) - Z| ≤ 0.43 := by
    have := abs_sub (Z * C / (C - 2) - (Wv + Z * Wv)) Z
    linarith only [this, k6, hZ1]
  have Hrz := subT big N h0 h1 ht Hr HZ (A := 43 / 100) (e := 91 / 100 * eps) (by bnd k7) (by decide +kernel)
  have k8 : |1 - (Z * C / (C - 2) - (Wv + Z * Wv) - Z)| ≤ 1.43 := by
    rw [abs_le] at k7 ⊢; constructor <;> linarith only [k7.1, k7.2]
  have HR := subT big N h0 h1 ht Hone Hrz (A := 143 / 100) (e := 24 / 10 * eps) (by bnd k8) (by decide +kernel)
  rw [← eR] at HR
  have hR := HR.2.2
  simp only [sv, Bool.false_eq_true, if_false, mul_one] at hR
  push_cast at hR
  refine ⟨HR.1, ?_⟩
  have f1 : |1 - (Z * C / (C - 2) - (Wv + Z * Wv) - Z) - (Real.exp Z + Wv * (1 + Z))| ≤ 0.04 * ((eps : ℚ) : ℝ) := by
    have n2 : (2 : ℝ) - C ≠ 0 := by linarith only [hC1]
    have n3 : C - 2 ≠ 0 := by linarith only [hC1]
    have e : 1 - (Z * C / (C - 2) - (Wv + Z * Wv) - Z) - (Real.exp Z + Wv * (1 + Z)) = -((Real.exp Z - 1) * (2 - C) - 2 * Z) / (2 - C) := by
      have e2 : Z * C / (C - 2) = -(Z * C / (2 - C)) := by rw [← neg_sub 2 C, div_neg]
      rw [e2]
      field_simp; ring
    rw [e, abs_div, abs_neg, div_le_iff₀ (by positivity), abs_of_pos (show 0 < 2 - C by linarith only [hC1])]
    have := mul_le_mul_of_nonneg_left (show (1.65 : ℝ) ≤ 2 - C by linarith only [hC1]) eps0.le
    linarith only [hexp, this, eps0]
  have f2 : |Real.exp Z + Wv * (1 + Z) - Real.exp (Z + Wv)| ≤ 0.4 * ((eps : ℚ) : ℝ) := by
    have x1 := Real.abs_exp_sub_one_sub_id_le (x := Z) (by linarith only [hZ1])
    have x2 := Real.abs_exp_sub_one_sub_id_le (x := Wv) (by linarith only [hW1, eps1])
    have x3 : Z ^ 2 ≤ 0.1208 := by
      rw [← sq_abs]; have := pow_le_pow_left₀ (abs_nonneg Z) hZ1 2; norm_num at this ⊢; linarith only [this]
    have x4 : Wv ^ 2 ≤ 0.00001 * ((eps : ℚ) : ℝ) := by
      rw [← sq_abs, sq]
      have := mul_le_mul hW1 hW1 (abs_nonneg _) (by positivity)
      have := mul_le_mul_of_nonneg_left eps1 eps0.le
      linarith
    have x5 : |Real.exp Z| ≤ 1.5 := by
      have := abs_add_le (Real.exp Z - 1 - Z) (1 + Z)
      rw [show Real.exp Z - 1 - Z + (1 + Z) = Real.exp Z by ring] at this
      have y := abs_add_le 1 Z
      rw [abs_one] at y
      linarith only [this, x1, x3, hZ1, y]
    have e : Real.exp Z + Wv * (1 + Z) - Real.exp (Z + Wv) = -(Wv * (Real.exp Z - 1 - Z)) - Real.exp Z * (Real.exp Wv - 1 - Wv) := by rw [Real.exp_add]; ring
    rw [e]
    have m1 := mulB hW1 (x1.trans x3)
    have m2 := mulB x5 (x2.trans x4)
    have := abs_sub (-(Wv * (Real.exp Z - 1 - Z))) (Real.exp Z * (Real.exp Wv - 1 - Wv))
    rw [abs_neg] at this
    linarith only [this, m1, m2, eps0]
  have f3 := exp_move zw (by linarith only [eps1])
  have f4 : 0.65 ≤ Real.exp (q * Real.log 2) := by
    have := Real.add_one_le_exp (q * Real.log 2)
    rw [abs_le] at hql
    linarith only [this, hql.1]
  have f5 := mul_le_mul_of_nonneg_left f4 eps0.le
  have s1 := abs_sub_le (f64.valK ℝ R) (1 - (Z * C / (C - 2) - (Wv + Z * Wv) - Z)) (Real.exp Z + Wv * (1 + Z))
  have s2 := abs_sub_le (f64.valK ℝ R) (Real.exp Z + Wv * (1 + Z)) (Real.exp (Z + Wv))
  have s3 := abs_sub_le (f64.valK ℝ R) (Real.exp (Z + Wv)) (Real.exp (q * Real.log 2))
  have f6 := mul_pos eps0 (lt_of_lt_of_le (by norm_num) f4)
  linarith only [s1, s2, s3, f1, f2, f3, f5, f6, hR, eps0]

/-- `expMain` -/
theorem expMain_spec (N : FPU f64) {t p_l p_h : W} {T PL PH q : ℝ} (gt : GFv f64 t T) (gl : GFv f64 p_l PL) (gh : GFv f64 p_h PH) (hq : q = PL + PH) (hq1 : |q| ≤ 0.5011)
    (hT : |T - q| ≤ 0.001) (hPL : |PL| ≤ 1) :
    f64.IsFin (expMain N KD t p_l p_h) ∧ |f64.valK ℝ (expMain N KD t p_l p_h) - Real.exp (q * Real.log 2)| ≤ 6 * (eps : ℚ) * Real.exp (q * Real.log 2) :=
  exp_spec N gt gl gh hq hq1 hT hPL rfl rfl rfl rfl rfl rfl rfl
end Dbl
end Power
end Verif
