import Verif.Libm.PowLogFinD
/-! The logarithm of `pow` next to 1. -/
namespace Verif
open Fmt
namespace Power
namespace Dbl
open Pio2
local notation "W" => BitVec f64.w

theorem lg_below {X δ : ℝ} (h0 : 0 < X) (hd : 0 ≤ δ) (h : X ≤ 1 - δ) : Real.logb 2 X ≤ -(1.4 * δ) := by
  have h2 := Log2.ln2_near
  rw [abs_le] at h2
  have hp : 0 < Real.log 2 := Real.log_pos (by norm_num)
  have h3 := Real.log_le_sub_one_of_pos h0
  unfold Real.logb
  rw [div_le_iff₀ hp]
  have hl : Real.log 2 ≤ 0.7 := by norm_num at h2 ⊢; linarith [h2.2]
  have := mul_le_mul_of_nonneg_left hl hd
  linarith
theorem lg_above {X δ : ℝ} (hd : 0 ≤ δ) (hd1 : δ ≤ 1) (h : 1 + δ ≤ X) : 0.7 * δ ≤ Real.logb 2 X := by
  have h2 := Log2.ln2_near
  rw [abs_le] at h2
  have hp : 0 < Real.log 2 := Real.log_pos (by norm_num)
  have h3 := lg_lo (show 0 < 1 + δ by linarith)
  have h4 := Real.log_le_log (show 0 < 1 + δ by linarith) h
  have h5 : δ / 2 ≤ 1 - 1 / (1 + δ) := by
    rw [show 1 - 1 / (1 + δ) = δ / (1 + δ) by field_simp; ring]
    exact div_le_div_of_nonneg_left hd (by linarith) (by linarith)
  unfold Real.logb
  rw [le_div_iff₀ hp]
  have hl : Real.log 2 ≤ 0.7 := by norm_num at h2 ⊢; linarith [h2.2]
  have := mul_le_mul_of_nonneg_left hl hd
  linarith

theorem rK {v u a c : ℝ} (h : |u - v| ≤ 1 / 2 ^ (f64.s + 1) * |v| + 1 / 2 ^ 150) (ha : 1 / 2 ^ 53 ≤ a) (hv : |v| ≤ c * a) : |u - v| ≤ 1 / 2 ^ 53 * (c * a) + 1 / 2 ^ 97 * a := by
  rw [show f64.s + 1 = 53 from rfl] at h
  have := mul_le_mul_of_nonneg_left hv (show (0 : ℝ) ≤ 1 / 2 ^ 53 by positivity)
  have h2 : (1 : ℝ) / 2 ^ 150 = 1 / 2 ^ 97 * (1 / 2 ^ 53) := by norm_num
  have := mul_le_mul_of_nonneg_left ha (show (0 : ℝ) ≤ 1 / 2 ^ 97 by positivity)
  linarith

theorem rC {v u c : ℝ} (h : |u - v| ≤ 1 / 2 ^ (f64.s + 1) * |v| + 1 / 2 ^ 150) (hv : |v| ≤ c) : |u - v| ≤ 1 / 2 ^ 53 * c + 1 / 2 ^ 150 := by
  rw [show f64.s + 1 = 53 from rfl] at h
  have := mul_le_mul_of_nonneg_left hv (show (0 : ℝ) ≤ 1 / 2 ^ 53 by positivity)
  linarith

/-- a bound from a near number -/
theorem nb {u v c d : ℝ} (h : |u - v| ≤ d) (hv : |v| ≤ c) : |u| ≤ c + d := by
  have := abs_sub_abs_le_abs_sub u v; linarith

theorem log_lip {x y d : ℝ} (hx : 0.99 ≤ x) (hy : 0.99 ≤ y) (h : |x - y| ≤ d) : |Real.log x - Real.log y| ≤ 1.02 * d := by
  have key : ∀ {x y : ℝ}, 0.99 ≤ x → 0.99 ≤ y → |x - y| ≤ d → Real.log x - Real.log y ≤ 1.02 * d := by
    intro x y hx hy h
    have hy0 : 0 < y := by norm_num at hy; linarith
    have hx0 : 0 < x := by norm_num at hx; linarith
    rw [← Real.log_div hx0.ne' hy0.ne']
    refine (Real.log_le_sub_one_of_pos (by positivity)).trans ?_
    rw [show x / y - 1 = (x - y) / y by field_simp, div_le_iff₀ hy0]
    have h1 := le_abs_self (x - y)
    have h2 := mul_le_mul_of_nonneg_left hy (show 0 ≤ 1.02 * d by have := (abs_nonneg _).trans h; positivity)
    have := (abs_nonneg _).trans h
    norm_num at h2 ⊢; linarith
  rw [abs_le]
  constructor
  · have := key hy hx (by rw [abs_sub_comm]; exact h); linarith
  · exact key hx hy h

theorem log_series {T : ℝ} (h : |T| ≤ 1 / 2 ^ 19) : |Real.log (1 + T) - (T - T * T * (1 / 2 - T / 3))| ≤ |T| * (2 / 2 ^ 57) := by
  have h1 := Real.abs_log_sub_add_sum_range_le (x := -T) (by rw [abs_neg]; refine lt_of_le_of_lt h (by norm_num)) 3
  rw [abs_neg, sub_neg_eq_add] at h1
  have e : (∑ i ∈ Finset.range 3, (-T) ^ (i + 1) / ((i : ℝ) + 1)) + Real.log (1 + T) = Real.log (1 + T) - (T - T * T * (1 / 2 - T / 3)) := by
    simp only [Finset.sum_range_succ, Finset.sum_range_zero]; push_cast; ring
  rw [e] at h1
  refine h1.trans ?_
  have hT := abs_nonneg T
  rw [div_le_iff₀ (by norm_num at h; linarith)]
  have h3 : |T| ^ 3 ≤ (1 / 2 ^ 19) ^ 3 := pow_le_pow_left₀ hT h 3
  have h4 : |T| ^ (3 + 1) = |T| * |T| ^ 3 := by ring
  rw [h4]
  have h5 := mul_le_mul_of_nonneg_left h3 hT
  have h6 : |T| * (2 / 2 ^ 57) * (1 - |T|) ≥ |T| * (2 / 2 ^ 57) * (1 / 2) := mul_le_mul_of_nonneg_left (by norm_num at h; linarith) (by positivity)
  norm_num at h5 h6 ⊢
  linarith

theorem consts : GFv f64 KD.one 1 ∧ GFv f64 KD.half (1 / 2) ∧ GFv f64 KD.quarter (1 / 4) ∧
    (∃ q, GFv f64 KD.third q ∧ |q - 1 / 3| ≤ 1 / 2 ^ 53) ∧
    (∃ h l i, GFv f64 KD.IVLN2_H h ∧ GFv f64 KD.IVLN2_L l ∧ GFv f64 KD.IVLN2 i ∧ |h| ≤ 1.4427 ∧ |l| ≤ 1 / 2 ^ 25 ∧ |i| ≤ 1.4427 ∧
      |h + l - 1 / Real.log 2| ≤ 0.1 / 2 ^ 53 ∧ |i - 1 / Real.log 2| ≤ 2 / 2 ^ 53) := by
  have hf : f64.IsFin KD.one ∧ f64.IsFin KD.half ∧ f64.IsFin KD.quarter ∧ f64.IsFin KD.third ∧ f64.IsFin KD.IVLN2_H ∧ f64.IsFin KD.IVLN2_L ∧ f64.IsFin KD.IVLN2 := by
    unfold IsFin; decide +kernel
  obtain ⟨f1, f2, f3, f4, f5, f6, f7⟩ := hf
  have c : ∀ (b : W) (q : ℚ), f64.IsFin b → f64.val b = q → GFv f64 b q := fun b q h1 h2 => ⟨h1, by rw [← f64.valK_cast, h2]⟩
  have g1 := c KD.one 1 f1 (by decide +kernel)
  have g2 := c KD.half (1 / 2) f2 (by decide +kernel)
  have g3 := c KD.quarter (1 / 4) f3 (by decide +kernel)
  push_cast at g1 g2 g3
  refine ⟨g1, g2, g3, ⟨_, c _ _ f4 rfl, ?_⟩, _, _, _, c _ _ f5 rfl, c _ _ f6 rfl, c _ _ f7 rfl, ?_⟩
  · have : |f64.val KD.third - 1 / 3| ≤ 1 / 2 ^ 53 := by decide +kernel
    have := Rat.cast_le (K := ℝ).mpr this
    push_cast at this; exact this
  · have d : |f64.val KD.IVLN2_H| ≤ 14427 / 10000 ∧ |f64.val KD.IVLN2_L| ≤ 1 / 2 ^ 25 ∧ |f64.val KD.IVLN2| ≤ 14427 / 10000 ∧
      |(f64.val KD.IVLN2_H + f64.val KD.IVLN2_L) * (693147180559945309417 / 10 ^ 21) - 1| ≤ 1 / 100 / 2 ^ 53 ∧
      |f64.val KD.IVLN2 * (693147180559945309417 / 10 ^ 21) - 1| ≤ 8 / 10 / 2 ^ 53 := by decide +kernel
    obtain ⟨d1, d2, d3, d4, d5⟩ := d
    have d1 := Rat.cast_le (K := ℝ).mpr d1
    have d2 := Rat.cast_le (K := ℝ).mpr d2
    have d3 := Rat.cast_le (K := ℝ).mpr d3
    have d4 := Rat.cast_le (K := ℝ).mpr d4
    have d5 := Rat.cast_le (K := ℝ).mpr d5
    push_cast at d1 d2 d3 d4 d5
    generalize ((f64.val KD.IVLN2_H : ℚ) : ℝ) = h at *
    generalize ((f64.val KD.IVLN2_L : ℚ) : ℝ) = l at *
    generalize ((f64.val KD.IVLN2 : ℚ) : ℝ) = i at *
    have key : ∀ {q δ : ℝ}, |q * (693147180559945309417 / 10 ^ 21) - 1| ≤ δ → |q| ≤ 3 → |q - 1 / Real.log 2| ≤ 2.25 * (δ + 1 / 10 ^ 19) := by
      intro q δ h1 h2
      have e : q / (3 / 2) * (3 / 2) = q := by field_simp
      have := C2_of (q := q / (3 / 2)) (δ := δ) (by rw [e, show (0.693147180559945309417 : ℝ) = 693147180559945309417 / 10 ^ 21 by norm_num]; exact h1)
        (by rw [abs_div, abs_of_pos (show (0 : ℝ) < 3 / 2 by norm_num), div_le_iff₀ (by norm_num)]; linarith)
      have e2 : q - 1 / Real.log 2 = (q / (3 / 2) - C2) * (3 / 2) := by
        unfold C2
        have : Real.log 2 ≠ 0 := (Real.log_pos (by norm_num)).ne'
        field_simp
      rw [e2, abs_mul, abs_of_pos (show (0 : ℝ) < 3 / 2 by norm_num)]
      linarith
    refine ⟨d1.trans (by norm_num), d2, d3.trans (by norm_num), (key d4 ?_).trans (by norm_num), (key d5 (d3.trans (by norm_num))).trans (by norm_num)⟩
    have := abs_add_le h l
    norm_num at d1 d2 ⊢; linarith

set_option maxHeartbeats 1000000 in
theorem logNear_spec (N : FPU f64) {ax : W} {A L : ℝ} (hax : GFv f64 ax A) (h0 : 1 / 2 ^ 53 ≤ |A - 1|) (h1 : |A - 1| ≤ 1 / 2 ^ 20) (hL : L = Real.logb 2 A) :
    ∃ T1 T2, GFv f64 (logNear N KD Asin.clearLow ax).1 T1 ∧ GFv f64 (logNear N KD Asin.clearLow ax).2 T2 ∧
      |T1 + T2 - L| ≤ 16 * (eps : ℚ) * |L| ∧ |T2| ≤ 0.0006 * |L| := by
  obtain ⟨g1, gh, gq, ⟨q3, g3, hq3⟩, H, Lo, I, gH, gL, gI, bH, bL, bI, hHL, hI⟩ := consts
  obtain ⟨a, ha⟩ : ∃ a, a = |A - 1| := ⟨_, rfl⟩
  rw [← ha] at h0 h1
  have a0 : 0 < a := lt_of_lt_of_le (by positivity) h0
  have hA9 : 0.99 ≤ A := by
    have := neg_abs_le (A - 1)
    rw [← ha] at this
    norm_num at h1 ⊢; linarith
  have lg : 0.7 * a ≤ |L| := by
    rw [hL]
    rcases le_total A 1 with h | h
    · rw [abs_of_nonpos (by linarith)] at ha
      have := lg_below (X := A) (δ := a) (by norm_num at hA9; linarith) a0.le (by linarith)
      rw [abs_of_nonpos (by linarith)]; linarith
    · rw [abs_of_nonneg (by linarith)] at ha
      have := lg_above (X := A) (δ := a) a0.le (by norm_num at h1; linarith) (by linarith)
      rw [abs_of_nonneg (by linarith)]; linarith
  have big100 : ∀ {v : ℝ}, |v| ≤ 4 → |v| ≤ 2 ^ (100 : ℤ) := fun h => h.trans (by norm_num)
  unfold logNear
  dsimp only
  obtain ⟨T, gT, eT⟩ := GFv.rnd big (hax.subR N g1) (big100 (by rw [← ha]; norm_num at h1; linarith))
  have eT := rK eT h0 (c := 1) (by rw [one_mul, ha])
  generalize N.sub ax KD.one = t at *
  have bT : |T| ≤ 1.01 * a := by
    have := abs_sub_abs_le_abs_sub T (A - 1)
    rw [← ha] at this
    norm_num at eT ⊢; linarith
  have bT2 : |T| ≤ 1.01 / 2 ^ 20 := by norm_num at bT h1 ⊢; linarith
  -- the polynomial
  have v1 : |T * (1 / 4)| ≤ 0.2525 / 2 ^ 20 := (mulB bT2 (le_of_eq (abs_of_pos (by norm_num)))).trans (by norm_num)
  obtain ⟨M1, gM1, eM1⟩ := GFv.rnd big (gT.mulR N gq) (big100 (v1.trans (by norm_num)))
  have bM1 : |M1| ≤ 0.253 / 2 ^ 20 := (nb (rC eM1 v1) v1).trans (by norm_num)
  have v2 : |q3 - M1 - 1 / 3| ≤ 0.254 / 2 ^ 20 := by
    rw [show q3 - M1 - 1 / 3 = (q3 - 1 / 3) - M1 by ring]
    refine (abs_sub _ _).trans ?_
    norm_num at bM1 hq3 ⊢; linarith
  have v2' : |q3 - M1| ≤ 0.34 := (nb v2 (le_of_eq (abs_of_pos (by norm_num)))).trans (by norm_num)
  obtain ⟨C1, gC1, eC1⟩ := GFv.rnd big (g3.subR N gM1) (big100 (v2'.trans (by norm_num)))
  have bC1 : |C1 - 1 / 3| ≤ 0.255 / 2 ^ 20 := by
    have := abs_sub_le C1 (q3 - M1) (1 / 3)
    have := rC eC1 v2'
    norm_num at this v2 ⊢; linarith
  have bC1' : |C1| ≤ 0.34 := (nb bC1 (le_of_eq (abs_of_pos (by norm_num)))).trans (by norm_num)
  have v3 : |T * C1| ≤ 0.344 / 2 ^ 20 := (mulB bT2 bC1').trans (by norm_num)
  obtain ⟨M2, gM2, eM2⟩ := GFv.rnd big (gT.mulR N gC1) (big100 (v3.trans (by norm_num)))
  have bM2 : |M2 - T / 3| ≤ 0.26 / 2 ^ 40 := by
    have e := abs_sub_le M2 (T * C1) (T / 3)
    rw [show T * C1 - T / 3 = T * (C1 - 1 / 3) by ring] at e
    have m := mulB bT2 bC1
    have r := rC eM2 v3
    generalize |T * (C1 - 1 / 3)| = z at e m
    norm_num at m r ⊢
    linarith
  have bM2' : |M2| ≤ 0.35 / 2 ^ 20 := (nb (rC eM2 v3) v3).trans (by norm_num)
  have v4 : |1 / 2 - M2| ≤ 0.501 := by
    refine (abs_sub _ _).trans ?_
    rw [abs_of_pos (show (0 : ℝ) < 1 / 2 by norm_num)]
    norm_num at bM2' ⊢; linarith
  obtain ⟨C2', gC2, eC2⟩ := GFv.rnd big (gh.subR N gM2) (big100 (v4.trans (by norm_num)))
  have bC2 : |C2' - (1 / 2 - T / 3)| ≤ 0.27 / 2 ^ 40 := by
    have e := abs_sub_le C2' (1 / 2 - M2) (1 / 2 - T / 3)
    rw [show 1 / 2 - M2 - (1 / 2 - T / 3) = -(M2 - T / 3) by ring, abs_neg] at e
    have := rC eC2 v4
    norm_num at this bM2 ⊢; linarith
  have bC2' : |C2'| ≤ 0.502 := (nb (rC eC2 v4) v4).trans (by norm_num)
  -- `w`
  have vT : |T * T| ≤ 1.0201 / 2 ^ 20 * a := (mulB bT bT2).trans (by norm_num; linarith)
  have vT4 : |T * T| ≤ 1 := (mulB bT2 bT2).trans (by norm_num)
  obtain ⟨Q, gQ, eQ⟩ := GFv.rnd big (gT.mulR N gT) (big100 (vT4.trans (by norm_num)))
  have eQ := rK eQ h0 vT
  have bQ : |Q| ≤ 1.03 / 2 ^ 20 * a := (nb eQ vT).trans (by norm_num; linarith)
  have vW : |Q * C2'| ≤ 0.52 / 2 ^ 20 * a := (mulB bQ bC2').trans (by norm_num; linarith)
  have vW4 : |Q * C2'| ≤ 4 := vW.trans (by norm_num at h1 ⊢; linarith)
  obtain ⟨w, gw, ew⟩ := GFv.rnd big (gQ.mulR N gC2) (big100 vW4)
  have ew := rK ew h0 vW
  have bw : |w| ≤ 0.53 / 2 ^ 20 * a := (nb ew vW).trans (by norm_num; linarith)
  have bw4 : |w| ≤ 1 := bw.trans (by norm_num at h1 ⊢; linarith)
  obtain ⟨G, hG⟩ : ∃ G, G = T * T * (1 / 2 - T / 3) := ⟨_, rfl⟩
  have hwG : |w - G| ≤ 0.4 / 2 ^ 60 * a := by
    have e := abs_sub_le w (Q * C2') G
    have e2 := abs_add_le ((Q - T * T) * C2') (T * T * (C2' - (1 / 2 - T / 3)))
    rw [show (Q - T * T) * C2' + T * T * (C2' - (1 / 2 - T / 3)) = Q * C2' - G by rw [hG]; ring] at e2
    have m1 := mulB eQ bC2'
    have m2 := mulB vT bC2
    generalize |(Q - T * T) * C2'| = z1 at *
    generalize |T * T * (C2' - (1 / 2 - T / 3))| = z2 at *
    norm_num at m1 m2 ew ⊢
    linarith
  -- the two parts
  have vU : |H * T| ≤ 1.458 * a := (mulB bH bT).trans (by norm_num; linarith)
  have vU4 : |H * T| ≤ 1 := vU.trans (by norm_num at h1 ⊢; linarith)
  obtain ⟨U, gU, eU⟩ := GFv.rnd big (gH.mulR N gT) (big100 (vU4.trans (by norm_num)))
  have eU := rK eU h0 vU
  have bU : |U| ≤ 1.46 * a := (nb eU vU).trans (by norm_num; linarith)
  have x1 : |T * Lo| ≤ 0.04 / 2 ^ 20 * a := (mulB bT bL).trans (by norm_num; linarith)
  have x14 : |T * Lo| ≤ 1 := x1.trans (by norm_num at h1 ⊢; linarith)
  obtain ⟨V1, gV1, eV1⟩ := GFv.rnd big (gT.mulR N gL) (big100 (x14.trans (by norm_num)))
  have eV1 := rK eV1 h0 x1
  have bV1 : |V1| ≤ 0.05 / 2 ^ 20 * a := (nb eV1 x1).trans (by norm_num; linarith)
  have x2 : |w * I| ≤ 0.77 / 2 ^ 20 * a := (mulB bw bI).trans (by norm_num; linarith)
  have x24 : |w * I| ≤ 2 := x2.trans (by norm_num at h1 ⊢; linarith)
  obtain ⟨V2, gV2, eV2⟩ := GFv.rnd big (gw.mulR N gI) (big100 (x24.trans (by norm_num)))
  have eV2 := rK eV2 h0 x2
  have bV2 : |V2| ≤ 0.78 / 2 ^ 20 * a := (nb eV2 x2).trans (by norm_num; linarith)
  have x3 : |V1 - V2| ≤ 0.83 / 2 ^ 20 * a := (abs_sub _ _).trans (by norm_num at bV1 bV2 ⊢; linarith)
  have x34 : |V1 - V2| ≤ 2 := x3.trans (by norm_num at h1 ⊢; linarith)
  obtain ⟨V, gV, eV⟩ := GFv.rnd big (gV1.subR N gV2) (big100 (x34.trans (by norm_num)))
  have eV := rK eV h0 x3
  have bV : |V| ≤ 0.84 / 2 ^ 20 * a := (nb eV x3).trans (by norm_num; linarith)
  have x4 : |U + V| ≤ 1.47 * a := (abs_add_le _ _).trans (by norm_num at bU bV ⊢; linarith)
  have x44 : |U + V| ≤ 2 := x4.trans (by norm_num at h1 ⊢; linarith)
  obtain ⟨S, gS, eS⟩ := GFv.rnd big (gU.addR N gV) (big100 (x44.trans (by norm_num)))
  have eS := rK eS h0 x4
  have bS : |S| ≤ 1.48 * a := (nb eS x4).trans (by norm_num; linarith)
  obtain ⟨T1, gT1, eT1, bT1⟩ := clear_all big gS (c := 32) (by decide) (Asin.clear_mag _).1 (Asin.clear_mag _).2
  have eT1' : |S - T1| ≤ 1.5 / 2 ^ 20 * a := by
    rw [show f64.s - 32 = 20 from rfl] at eT1
    have : (1 : ℝ) / 2 ^ 120 ≤ 1 / 2 ^ 67 * a := by
      have := mul_le_mul_of_nonneg_left h0 (show (0 : ℝ) ≤ 1 / 2 ^ 67 by positivity)
      norm_num at this ⊢; linarith
    norm_num at eT1 this bS ⊢; linarith
  have x5 : |T1 - U| ≤ 2.4 / 2 ^ 20 * a := by
    have e1 := abs_sub_le T1 S U
    have e2 := abs_sub_le S (U + V) U
    rw [add_sub_cancel_left] at e2
    rw [abs_sub_comm T1 S] at e1
    norm_num at eT1' eS bV ⊢; linarith
  have x54 : |T1 - U| ≤ 2 := x5.trans (by norm_num at h1 ⊢; linarith)
  obtain ⟨D, gD, eD⟩ := GFv.rnd big (gT1.subR N gU) (big100 (x54.trans (by norm_num)))
  have eD := rK eD h0 x5
  have bD : |D| ≤ 2.41 / 2 ^ 20 * a := (nb eD x5).trans (by norm_num; linarith)
  have x6 : |V - D| ≤ 3.3 / 2 ^ 20 * a := (abs_sub _ _).trans (by norm_num at bV bD ⊢; linarith)
  have x64 : |V - D| ≤ 2 := x6.trans (by norm_num at h1 ⊢; linarith)
  obtain ⟨T2, gT2, eT2⟩ := GFv.rnd big (gV.subR N gD) (big100 (x64.trans (by norm_num)))
  have eT2 := rK eT2 h0 x6
  have bT2' : |T2| ≤ 3.4 / 2 ^ 20 * a := (nb eT2 x6).trans (by norm_num; linarith)
  refine ⟨T1, T2, gT1, gT2, ?_, ?_⟩
  · -- the sum
    have hK : |1 / Real.log 2| ≤ 1.45 := by
      have h2 := Log2.ln2_near
      rw [abs_le] at h2
      rw [abs_of_pos (by have := Real.log_pos (show (1 : ℝ) < 2 by norm_num); positivity), div_le_iff₀ (Real.log_pos (by norm_num))]
      norm_num at h2 ⊢; linarith [h2.1]
    have hT9 : 0.99 ≤ 1 + T := by
      have := neg_abs_le T
      norm_num at bT2 ⊢; linarith
    have s1 := log_series (T := T) (bT2.trans (by norm_num))
    rw [← hG] at s1
    have s2 := log_lip hT9 hA9 (d := 1.001 / 2 ^ 53 * a) (by
      rw [show 1 + T - A = T - (A - 1) by ring]
      refine eT.trans ?_
      norm_num; linarith)
    have hLl : L = Real.log A * (1 / Real.log 2) := by rw [hL]; unfold Real.logb; ring
    have bG : |G| ≤ 0.53 / 2 ^ 20 * a + 0.4 / 2 ^ 60 * a := nb (by rw [abs_sub_comm]; exact hwG) bw
    have y1 := mulB hHL bT
    have y2 := mulB hI bG
    have y3 := mulB bI hwG
    have y4 := mulB s1 hK
    have y5 := mulB s2 hK
    have tot : T1 + T2 - L = (T2 - (V - D)) - (D - (T1 - U)) + (V - (V1 - V2)) + (V1 - T * Lo) - (V2 - w * I) + (U - H * T) - I * (w - G) + (H + Lo - 1 / Real.log 2) * T
        - (I - 1 / Real.log 2) * G - (Real.log (1 + T) - (T - G)) * (1 / Real.log 2) + (Real.log (1 + T) - Real.log A) * (1 / Real.log 2) := by
      rw [hLl]; ring
    have fin : |T1 + T2 - L| ≤ 4 / 2 ^ 53 * a := by
      rw [tot]
      generalize T2 - (V - D) = z1 at *
      generalize D - (T1 - U) = z2 at *
      generalize V - (V1 - V2) = z3 at *
      generalize V1 - T * Lo = z4 at *
      generalize V2 - w * I = z5 at *
      generalize U - H * T = z6 at *
      generalize I * (w - G) = z7 at *
      generalize (H + Lo - 1 / Real.log 2) * T = z8 at *
      generalize (I - 1 / Real.log 2) * G = z9 at *
      generalize (Real.log (1 + T) - (T - G)) * (1 / Real.log 2) = z10 at *
      generalize (Real.log (1 + T) - Real.log A) * (1 / Real.log 2) = z11 at *
      have bT' : |T| * (2 / 2 ^ 57) * 1.45 ≤ 1.01 * a * (2 / 2 ^ 57) * 1.45 := by
        exact mul_le_mul_of_nonneg_right (mul_le_mul_of_nonneg_right bT (by norm_num)) (by norm_num)
      have y4' := y4.trans bT'
      rw [abs_le] at eT2 eD eV eV1 eV2 eU y1 y2 y3 y4' y5
      norm_num at eT2 eD eV eV1 eV2 eU y1 y2 y3 y4' y5
      rw [abs_le]
      norm_num
      constructor <;> linarith only [eT2.1, eD.1, eV.1, eV1.1, eV2.1, eU.1, y1.1, y2.1, y3.1, y4'.1, y5.1, eT2.2, eD.2, eV.2, eV1.2, eV2.2, eU.2, y1.2, y2.2, y3.2, y4'.2, y5.2, a0]
    refine fin.trans ?_
    rw [eps64]
    norm_num at lg ⊢; linarith only [lg, a0]
  · refine bT2'.trans ?_
    norm_num at lg ⊢; linarith only [lg, a0]
end Dbl
end Power
end Verif
