import Verif.Libm.PowExp2D
import Verif.Libm.PowSpecial
/-! The product and the limits of the range of `pow`. -/
namespace Verif
open Fmt
namespace Power
namespace Dbl
open Pio2
local notation "W" => BitVec f64.w

theorem one_mul_fp (N : FPU f64) {z : W} (hz : ¬ f64.IsNaN z) : N.mul KD.one z = z := by
  rw [(mul_unit N kd_ok.o2).2 hz, kd_ok.o1]; rfl

theorem not_nan {z : W} (h : f64.IsFin z) : ¬ f64.IsNaN z := by unfold IsNaN; unfold IsFin at h; omega

theorem times_ok (N : FPU f64) {z : W} (hz : f64.IsFin z) : times N KD.one (.ok z) = .ok z := by
  unfold times; rw [ok_bind, one_mul_fp N (not_nan hz)]; rfl

theorem huge_inf (N : FPU f64) : f64.IsInf (huge N KD KD.one) ∧ f64.sign (huge N KD KD.one) = false := by
  have hf : f64.IsFin KD.HUGE := by unfold IsFin; decide +kernel
  unfold huge
  rw [one_mul_fp N (not_nan hf)]
  refine (Fmt.mulR N hf hf).over ?_
  have h : (2 : ℚ) ^ 512 ≤ f64.val KD.HUGE := by decide +kernel
  have h' : (2 : ℝ) ^ 512 ≤ f64.valK ℝ KD.HUGE := by rw [← f64.valK_cast]; exact_mod_cast h
  have := mul_le_mul h' h' (by positivity) (le_trans (by positivity) h')
  refine le_trans (le_of_eq ?_) this
  rw [show ((f64.bias : ℕ) : ℤ) + 1 = ((512 + 512 : ℕ) : ℤ) from rfl, zpow_natCast, pow_add]

theorem tiny_zero (N : FPU f64) : f64.IsFin (tiny N KD KD.one) ∧ f64.sign (tiny N KD KD.one) = false ∧ f64.valK ℝ (tiny N KD KD.one) ≤ 2 ^ (-1074 : ℤ) := by
  have hf : f64.IsFin KD.TINY := by unfold IsFin; decide +kernel
  unfold tiny
  rw [one_mul_fp N (not_nan hf)]
  have h := Fmt.mulR N hf hf
  have hq : |f64.val KD.TINY * f64.val KD.TINY| ≤ 1 / 2 ^ 1100 := by decide +kernel
  have hr : |f64.valK ℝ KD.TINY * f64.valK ℝ KD.TINY| ≤ 1 / 2 ^ 1100 := by
    rw [← f64.valK_cast]
    have := Rat.cast_le (K := ℝ).mpr hq
    push_cast at this
    exact this
  have e : (1 : ℝ) / 2 ^ 1100 = 2 ^ (-1100 : ℤ) := by rw [zpow_neg, one_div]; rfl
  have h2 := h.err f64 (k := 2 - (f64.bias : ℤ)) (hr.trans (by rw [e]; exact zpow_le_zpow_right₀ (by norm_num) (by decide))) (le_refl _) (by decide)
  have h3 : f64.IsFin (N.mul KD.TINY KD.TINY) := h.fin100 big (hr.trans (by rw [e]; exact zpow_le_zpow_right₀ (by norm_num) (by norm_num)))
  refine ⟨h3, ?_, ?_⟩
  · have := ((N.mul_spec KD.TINY KD.TINY).1 hf hf).2
    rw [this]; decide +kernel
  · have e2 : (2 : ℝ) ^ (-1100 : ℤ) ≤ 2 ^ (-1075 : ℤ) := zpow_le_zpow_right₀ (by norm_num) (by norm_num)
    have e3 : (2 : ℝ) ^ (-1074 : ℤ) = 2 ^ (-1075 : ℤ) + 2 ^ (-1075 : ℤ) := by
      rw [show (-1074 : ℤ) = -1075 + 1 by norm_num, zpow_add₀ (by norm_num), zpow_one]; ring
    rw [show (2 : ℤ) - ((f64.bias : ℕ) : ℤ) - (f64.s : ℕ) - 2 = -1075 from rfl] at h2
    rw [e] at hr
    generalize (2 : ℝ) ^ (-1100 : ℤ) = A at *
    generalize (2 : ℝ) ^ (-1075 : ℤ) = B at *
    rw [e3]
    rw [abs_le] at h2 hr
    linarith [h2.2, hr.2]

/-- the product of `y` and the two parts of the logarithm -/
theorem product (N : FPU f64) {y y1 t1 t2 : W} {Y T1 T2 L P : ℝ} (gy : GFv f64 y Y) (hY : |Y| ≤ 2 ^ 66) (g1 : GFv f64 t1 T1) (g2 : GFv f64 t2 T2) (hT : |T1 + T2 - L| ≤ 16 * (eps : ℚ) * |L|)
    (hT2 : |T2| ≤ 0.0006 * |L|) (hL : |L| ≤ 1200) (hP : P = Y * L) (ey : y1 = Asin.clearLow y) :
    ∃ PL PH, GFv f64 (N.add (N.mul (N.sub y y1) t1) (N.mul y t2)) PL ∧ GFv f64 (N.mul y1 t1) PH ∧ |PL| ≤ 0.00062 * |P| + 1 / 2 ^ 100 ∧
      |PL + PH - P| ≤ 17.2 * (eps : ℚ) * |P| + 1 / 2 ^ 100 := by
  have eps0 : (0 : ℝ) < (eps : ℚ) := by rw [eps64]; positivity
  have eps1 : ((eps : ℚ) : ℝ) ≤ 1 / 10000000 := by rw [eps64]; norm_num
  have hu : (1 : ℝ) / 2 ^ (f64.s + 1) = (eps : ℚ) := by rw [eps64]; rfl
  have hP' : |P| = |Y| * |L| := by rw [hP, abs_mul]
  obtain ⟨Y1, gy1, eY, lY⟩ := clear_all big gy (c := 32) (by decide) (Asin.clear_mag y).1 (Asin.clear_mag y).2
  rw [← ey] at gy1
  have eY : |Y - Y1| ≤ 1 / 2 ^ 20 * |Y| + 1 / 2 ^ 120 := eY
  obtain ⟨η, hη⟩ : ∃ η : ℝ, η = 1 / 2 ^ 150 := ⟨_, rfl⟩
  obtain ⟨θ, hθ⟩ : ∃ θ : ℝ, θ = 1 / 2 ^ 108 := ⟨_, rfl⟩
  have hη0 : 0 < η := by rw [hη]; positivity
  have hθ0 : 0 < θ := by rw [hθ]; positivity
  have ηθ : η * 10000 ≤ θ / 1000 := by rw [hη, hθ]; norm_num
  have hp0 := abs_nonneg P
  have hl0 := abs_nonneg L
  have hT1 : |T1| ≤ 1.001 * |L| := by
    have a1 := abs_add_le (T1 + T2 - L) (L - T2)
    have a2 := abs_sub L T2
    rw [show T1 + T2 - L + (L - T2) = T1 by ring] at a1
    have := mul_le_mul_of_nonneg_right eps1 hl0
    linarith only [a1, a2, hT, hT2, this, hl0]
  have b1 : |Y - Y1| * |T1| ≤ 1 / 1000000 * |P| + θ := by
    have := mul_le_mul eY hT1 (abs_nonneg _) (by positivity)
    have e : (1 / 2 ^ 20 * |Y| + 1 / 2 ^ 120) * (1.001 * |L|) = 1 / 2 ^ 20 * 1.001 * (|Y| * |L|) + 1 / 2 ^ 120 * 1.001 * |L| := by ring
    rw [e, ← hP'] at this
    refine this.trans ?_
    rw [hθ]
    norm_num
    linarith only [hL, hp0]
  have b2 : |Y * T2| ≤ 0.0006 * |P| := by
    rw [abs_mul, hP']
    have := mul_le_mul_of_nonneg_left hT2 (abs_nonneg Y)
    linarith only [this]
  have b3 : |Y1 * T1| ≤ 1.001 * |P| := by
    rw [abs_mul, hP']
    have := mul_le_mul lY hT1 (abs_nonneg _) (abs_nonneg _)
    linarith only [this]
  have hPb : |P| ≤ 2 ^ 77 := by
    rw [hP']
    have := mul_le_mul hY hL (abs_nonneg _) (by positivity)
    norm_num at this ⊢; linarith only [this]
  have hb : (2 : ℝ) ^ 78 ≤ 2 ^ (100 : ℤ) := by norm_num
  have hθ1 : θ ≤ 1 := by rw [hθ]; norm_num
  have hYY : |Y - Y1| ≤ 2 ^ (100 : ℤ) := by
    refine eY.trans ?_
    norm_num at hY ⊢; linarith only [hY]
  obtain ⟨D, gD, eD⟩ := GFv.rnd big (gy.subR N gy1) hYY
  rw [hu, ← hη] at eD
  have c1 : |D * T1 - (Y - Y1) * T1| ≤ (eps : ℚ) * (1 / 1000000 * |P| + θ) + η * 1202 := by
    rw [← sub_mul, abs_mul]
    have x1 := mul_le_mul_of_nonneg_right eD (abs_nonneg T1)
    have x2 := mul_le_mul_of_nonneg_left b1 eps0.le
    have x3 := mul_le_mul_of_nonneg_left (show |T1| ≤ 1202 by linarith only [hT1, hL]) hη0.le
    linarith only [x1, x2, x3]
  have b1' : |(Y - Y1) * T1| ≤ 1 / 1000000 * |P| + θ := by rw [abs_mul]; exact b1
  have pe := mul_le_mul_of_nonneg_right eps1 hp0
  have te := mul_le_mul_of_nonneg_right eps1 hθ0.le
  have c2 : |D * T1| ≤ 2 / 1000000 * |P| + 2 * θ := by
    have := abs_sub_abs_le_abs_sub (D * T1) ((Y - Y1) * T1)
    linarith only [this, c1, b1', pe, te, ηθ, hp0, hη0, hθ0]
  obtain ⟨M1, gM1, eM1⟩ := GFv.rnd big (gD.mulR N g1) (le_trans (by linarith only [c2, hPb, hθ1]) hb)
  obtain ⟨M2, gM2, eM2⟩ := GFv.rnd big (gy.mulR N g2) (le_trans (by linarith only [b2, hPb, hp0]) hb)
  rw [hu, ← hη] at eM1 eM2
  have c3 := mul_le_mul_of_nonneg_left c2 eps0.le
  have c4 := mul_le_mul_of_nonneg_left b2 eps0.le
  have pp := mul_nonneg eps0.le hp0
  have pt := mul_nonneg eps0.le hθ0.le
  have c5 : |M1 + M2 - ((Y - Y1) * T1 + Y * T2)| ≤ 0.001 * ((eps : ℚ) * |P|) + θ / 100 := by
    have x1 := abs_add_le (M1 - D * T1) (D * T1 - (Y - Y1) * T1)
    have x2 := abs_add_le (M1 - D * T1 + (D * T1 - (Y - Y1) * T1)) (M2 - Y * T2)
    rw [show M1 - D * T1 + (D * T1 - (Y - Y1) * T1) + (M2 - Y * T2) = M1 + M2 - ((Y - Y1) * T1 + Y * T2) by ring] at x2
    linarith only [x1, x2, eM1, eM2, c1, c3, c4, te, ηθ, hη0, hθ0, pp, pt]
  have c6 : |M1 + M2| ≤ 0.000605 * |P| + 2 * θ := by
    have x1 := abs_sub_abs_le_abs_sub (M1 + M2) ((Y - Y1) * T1 + Y * T2)
    have x2 := abs_add_le ((Y - Y1) * T1) (Y * T2)
    linarith only [x1, x2, c5, b1', b2, pe, hp0, hθ0]
  obtain ⟨PL, gPL, ePL⟩ := GFv.rnd big (gM1.addR N gM2) (le_trans (by linarith only [c6, hPb, hθ1, hp0]) hb)
  obtain ⟨PH, gPH, ePH⟩ := GFv.rnd big (gy1.mulR N g1) (le_trans (by linarith only [b3, hPb, hp0]) hb)
  rw [hu, ← hη] at ePL ePH
  have c7 := mul_le_mul_of_nonneg_left c6 eps0.le
  have c8 := mul_le_mul_of_nonneg_left b3 eps0.le
  have tl : θ * 100 ≤ 1 / 2 ^ 100 := by rw [hθ]; norm_num
  refine ⟨PL, PH, gPL, gPH, ?_, ?_⟩
  · have x1 := abs_sub_abs_le_abs_sub PL (M1 + M2)
    linarith only [x1, ePL, c7, c6, pe, te, ηθ, hη0, hθ0, tl, hp0]
  · have d1 : |Y * (T1 + T2 - L)| ≤ 16 * ((eps : ℚ) * |P|) := by
      rw [abs_mul, hP']
      have := mul_le_mul_of_nonneg_left hT (abs_nonneg Y)
      linarith only [this]
    have x1 := abs_add_le (PL - (M1 + M2)) (M1 + M2 - ((Y - Y1) * T1 + Y * T2))
    have x2 := abs_add_le (PL - (M1 + M2) + (M1 + M2 - ((Y - Y1) * T1 + Y * T2))) (PH - Y1 * T1)
    have x3 := abs_add_le (PL - (M1 + M2) + (M1 + M2 - ((Y - Y1) * T1 + Y * T2)) + (PH - Y1 * T1)) (Y * (T1 + T2 - L))
    rw [show PL - (M1 + M2) + (M1 + M2 - ((Y - Y1) * T1 + Y * T2)) + (PH - Y1 * T1) + Y * (T1 + T2 - L) = PL + PH - P by rw [hP]; ring] at x3
    linarith only [x1, x2, x3, d1, ePL, ePH, c5, c7, c8, te, ηθ, hη0, hθ0, tl, pp, pt]

/-- what is claimed: the exponent `P` -/
def Good (r : W) (P : ℝ) : Prop :=
  (P ≤ 1024 - 1 / 2 ^ 30 → f64.IsFin r ∧ f64.sign r = false ∧ |f64.valK ℝ r - Real.exp (P * Real.log 2)| ≤ (9 + 13 * |P|) * (1 / 2 ^ 53) * Real.exp (P * Real.log 2) + 2 ^ (-1074 : ℤ)) ∧
  (1024 + 1 / 2 ^ 30 ≤ P → f64.IsInf r ∧ f64.sign r = false)

theorem exp_two (k : ℤ) : Real.exp (k * Real.log 2) = 2 ^ k := by
  have := Exp.exp_add_log 0 k; simpa using this

theorem good_exp (N : FPU f64) {p_l p_h : W} {PL PH P : ℝ} (gl : GFv f64 p_l PL) (gh : GFv f64 p_h PH) (hPL : |PL| ≤ 0.00062 * |P| + 1 / 2 ^ 100)
    (hQ : |PL + PH - P| ≤ 17.2 * (eps : ℚ) * |P| + 1 / 2 ^ 100) (hP : |P| ≤ 1100) (hP2 : P ≤ 1024 - 1 / 2 ^ 30) :
    ∃ r, times N KD.one (exp2D N p_l p_h (i32of ((N.add p_l p_h).toNat >>> 32))) = .ok r ∧ Good r P := by
  have eps0 : (0 : ℝ) < (eps : ℚ) := by rw [eps64]; positivity
  have hl0 : 0.69 ≤ Real.log 2 ∧ Real.log 2 ≤ 0.69315 := by
    have h := Log2.ln2_near
    rw [abs_le] at h; norm_num at h ⊢; constructor <;> linarith only [h.1, h.2]
  obtain ⟨hl0, hl1⟩ := hl0
  have hd : |PL + PH - P| ≤ 1 / 2 ^ 38 := by
    refine hQ.trans ?_
    rw [eps64]; norm_num at hP ⊢; linarith only [hP]
  have hQ2 : (PL + PH) ≤ 1024 - 1 / 2 ^ 31 := by
    rw [abs_le] at hd; norm_num at hd hP2 ⊢; linarith only [hd.2, hP2]
  have hmax : Real.exp ((PL + PH) * Real.log 2) * (1 + 8 * (eps : ℚ)) < 2 ^ (1024 : ℤ) := by
    rw [← exp_two]
    have e : Real.exp ((PL + PH) * Real.log 2) ≤ Real.exp (((1024 : ℤ) : ℝ) * Real.log 2 + -(1 / 2 ^ 32)) := by
      apply Real.exp_le_exp.mpr
      have := mul_le_mul_of_nonneg_right hQ2 (show 0 ≤ Real.log 2 by linarith)
      push_cast
      norm_num at this ⊢; linarith only [this, hl0]
    rw [Real.exp_add] at e
    have e2 : Real.exp (-(1 / 2 ^ 32)) * (1 + 8 * (eps : ℚ)) < 1 := by
      have x := Real.add_one_le_exp ((1 : ℝ) / 2 ^ 32)
      rw [Real.exp_neg, inv_mul_lt_iff₀ (Real.exp_pos _), mul_one]
      refine lt_of_lt_of_le ?_ x
      rw [eps64]; norm_num
    have p := Real.exp_pos (((1024 : ℤ) : ℝ) * Real.log 2)
    calc _ ≤ Real.exp (((1024 : ℤ) : ℝ) * Real.log 2) * Real.exp (-(1 / 2 ^ 32)) * (1 + 8 * (eps : ℚ)) := mul_le_mul_of_nonneg_right e (by positivity)
      _ = Real.exp (((1024 : ℤ) : ℝ) * Real.log 2) * (Real.exp (-(1 / 2 ^ 32)) * (1 + 8 * (eps : ℚ))) := by ring
      _ < _ := by have := mul_lt_mul_of_pos_left e2 p; linarith
  obtain ⟨R, h1, h2⟩ := exp2D_spec N gl gh rfl (by refine hPL.trans ?_; norm_num at hP ⊢; linarith only [hP])
    (by have := abs_sub_abs_le_abs_sub (PL + PH) P; norm_num at hd; linarith) (by norm_num at hQ2 ⊢; linarith)
  obtain ⟨h2, h3, h4⟩ := h2 hmax
  refine ⟨R, by rw [h1]; exact times_ok N h2, fun _ => ⟨h2, h3, ?_⟩, fun h => ?_⟩
  · have d1 : |(PL + PH) * Real.log 2 - P * Real.log 2| ≤ 11.93 * (eps : ℚ) * |P| + 1 / 2 ^ 100 := by
      rw [← sub_mul, abs_mul, abs_of_pos (show 0 < Real.log 2 by linarith)]
      have x := mul_le_mul hQ hl1 (by linarith) (by positivity)
      have := mul_nonneg eps0.le (abs_nonneg P)
      norm_num at x ⊢
      linarith only [x, this]
    have d2 := exp_move d1 (by rw [eps64]; norm_num at hP ⊢; linarith only [hP])
    generalize Real.exp ((PL + PH) * Real.log 2) = A at *
    have hB := Real.exp_pos (P * Real.log 2)
    generalize Real.exp (P * Real.log 2) = B at *
    have e3 : (2 : ℝ) ^ (-1075 : ℤ) ≤ 2 ^ (-1074 : ℤ) := zpow_le_zpow_right₀ (by norm_num) (by norm_num)
    have x1 := abs_sub_le (f64.valK ℝ R) A B
    have x2 := abs_sub_abs_le_abs_sub A B
    rw [abs_of_pos hB] at x2
    have x3 : |A| ≤ 1.01 * B := by
      have : 1.01 * (11.93 * ((eps : ℚ) : ℝ) * |P| + 1 / 2 ^ 100) ≤ 0.01 := by
        rw [eps64]; norm_num at hP ⊢; linarith only [hP]
      have := mul_le_mul_of_nonneg_right this hB.le
      linarith only [this, x2, d2]
    have x4 := mul_le_mul_of_nonneg_left ((le_abs_self A).trans x3) eps0.le
    have x5 : (1 : ℝ) / 2 ^ 100 ≤ 0.1 * (eps : ℚ) := by rw [eps64]; norm_num
    have x6 := mul_le_mul_of_nonneg_right x5 hB.le
    have x7 := mul_nonneg (mul_nonneg eps0.le (abs_nonneg P)) hB.le
    have x8 := mul_pos eps0 hB
    rw [← eps64]
    linarith only [x1, h4, x4, d2, x6, x7, x8, e3]
  · norm_num at h hP2; linarith

theorem word_ge {z : W} {Z : ℝ} (gz : GFv f64 z Z) {e f : ℕ} (he : 1 ≤ e) (hf : f < 2 ^ 20) : (e * 2 ^ 20 + f ≤ f64.mag z / 2 ^ 32) ↔ (2 ^ 20 + (f : ℝ)) * 2 ^ ((e : ℤ) - 1043) ≤ |Z| := by
  have h := f64.magValR_le_iff (m := e * 2 ^ f64.s + f * 2 ^ 32) (n := f64.mag z)
  rw [Exp2.magVal_at he (by rw [show f64.s = 52 from rfl]; omega), ← gz.abs_eq, show f64.s = 52 from rfl, show f64.bias = 1023 from rfl] at h
  have e1 : (2 ^ 52 + ((f * 2 ^ 32 : ℕ) : ℝ)) * 2 ^ ((e : ℤ) - (1023 : ℕ) - (52 : ℕ)) = (2 ^ 20 + (f : ℝ)) * 2 ^ ((e : ℤ) - 1043) := by
    have : (2 : ℝ) ^ ((e : ℤ) - 1043) = 2 ^ ((e : ℤ) - (1023 : ℕ) - (52 : ℕ)) * 2 ^ 32 := by
      rw [← zpow_natCast, ← zpow_add₀ (by norm_num)]; congr 1; push_cast; ring
    rw [this]; push_cast; ring
  rw [e1] at h
  rw [h]
  omega

theorem finishD_spec (N : FPU f64) {y t1 t2 : W} {Y T1 T2 L P : ℝ} (gy : GFv f64 y Y) (hY : |Y| ≤ 2 ^ 66) (g1 : GFv f64 t1 T1) (g2 : GFv f64 t2 T2) (hT : |T1 + T2 - L| ≤ 16 * (eps : ℚ) * |L|)
    (hT2 : |T2| ≤ 0.0006 * |L|) (hL : |L| ≤ 1200) (hP : P = Y * L) : ∃ r, finishD N KD.one y t1 t2 = .ok r ∧ Good r P := by
  obtain ⟨PL, PH, gl, gh, hPL, hQ⟩ := product N gy hY g1 g2 hT hT2 hL hP rfl
  have hPb : |P| ≤ 2 ^ 77 := by
    rw [hP, abs_mul]
    have := mul_le_mul hY hL (abs_nonneg _) (by positivity)
    norm_num at this ⊢; linarith only [this]
  unfold finishD
  dsimp only
  generalize N.add (N.mul (N.sub y (Asin.clearLow y)) t1) (N.mul y t2) = p_l at *
  generalize N.mul (Asin.clearLow y) t1 = p_h at *
  have hQa : |PL + PH| ≤ 1.1 * |P| + 1 := by
    have := abs_sub_abs_le_abs_sub (PL + PH) P
    rw [eps64] at hQ
    norm_num at hQ; linarith only [this, hQ, abs_nonneg P]
  obtain ⟨Z, gz, eZ⟩ := GFv.rnd big (gl.addR N gh) (le_trans (by linarith only [hQa, hPb] : |PL + PH| ≤ 2 ^ 78) (by norm_num))
  have hZP : |Z - P| ≤ 1 / 2 ^ 48 * |P| + 1 / 2 ^ 50 := by
    have x := abs_sub_le Z (PL + PH) P
    have y := mul_le_mul_of_nonneg_left hQa (show (0 : ℝ) ≤ 1 / 2 ^ (f64.s + 1) by positivity)
    rw [eps64] at hQ
    rw [show f64.s + 1 = 53 from rfl] at eZ y
    norm_num at hQ eZ y ⊢
    linarith only [x, y, hQ, eZ, abs_nonneg P]
  have hfin : f64.mag (N.add p_l p_h) < 2 ^ 63 := by have := gz.fin; unfold Fmt.IsFin at this; rw [show f64.infRep = 0x7ff0000000000000 by decide +kernel] at this; omega
  obtain ⟨m, hm⟩ : ∃ m, m = f64.mag (N.add p_l p_h) / 2 ^ 32 := ⟨_, rfl⟩
  have hm31 : m < 2 ^ 31 := by omega
  obtain ⟨t, ht⟩ : ∃ t, t = f64.sign (N.add p_l p_h) := ⟨_, rfl⟩
  obtain ⟨j, hj⟩ : ∃ j, j = i32of ((N.add p_l p_h).toNat >>> 32) := ⟨_, rfl⟩
  have hj' : j = (m : ℤ) - wb t := by rw [hj, hi64, ← hm, ← ht]; exact i32of_word _ hm31
  have a1 : andI j 0x7fffffff = m := by
    rw [show (0x7fffffff : ℤ) = 2 ^ 31 - 1 by norm_num, andI_low _ (by norm_num), hj', mod31 _ hm31]
  have w1 := word_ge gz (e := 1033) (f := 0) (by norm_num) (by norm_num)
  have w2 := word_ge gz (e := 1033) (f := 0xcc00) (by norm_num) (by norm_num)
  rw [← hm] at w1 w2
  norm_num at w1 w2
  have sgn : (t = true → Z ≤ 0) ∧ (t = false → 0 ≤ Z) := ⟨fun h => gz.nonpos (by rw [← ht]; exact h), fun h => gz.nonneg (by rw [← ht]; exact h)⟩
  have low : (N.add p_l p_h).toNat &&& 0xffffffff = f64.mag (N.add p_l p_h) % 2 ^ 32 := lo64 _
  have ex : |P| ≤ 1100 → P ≤ 1024 + 1 / 10 → (1024 - 1 / 2 ^ 30 < P → P < 1024 + 1 / 2 ^ 30) → ∃ r, times N KD.one (exp2D N p_l p_h j) = .ok r ∧ Good r P := by
    intro h1 h2 h3
    by_cases h4 : P ≤ 1024 - 1 / 2 ^ 30
    · rw [hj]; exact good_exp N gl gh hPL hQ h1 h4
    · rw [not_le] at h4
      have hd : |PL + PH - P| ≤ 1 / 2 ^ 38 := by
        refine hQ.trans ?_
        rw [eps64]; norm_num at h1 ⊢; linarith only [h1]
      obtain ⟨R, r1, -⟩ := exp2D_spec N gl gh rfl (by refine hPL.trans ?_; norm_num at h1 ⊢; linarith only [h1])
        (by have := abs_sub_abs_le_abs_sub (PL + PH) P; norm_num at hd; linarith) (by rw [abs_le] at hd; norm_num at hd h2 ⊢; linarith [hd.2])
      rw [hj, r1]
      exact ⟨_, rfl, fun h => absurd h (not_le.mpr h4), fun h => absurd h (not_le.mpr (h3 h4))⟩
  rw [← hj, low]
  norm_num at hZP
  have hP0 := abs_nonneg P
  by_cases h1 : j ≥ 0x40900000
  · rw [if_pos h1]
    have ht0 : t = false := by
      cases t
      · rfl
      · rw [hj'] at h1; simp [wb] at h1; omega
    have hmj : j = m := by rw [hj', ht0]; simp [wb]
    have hZ : 1024 ≤ Z := by
      have := w1.mp (by omega)
      rwa [abs_of_nonneg (sgn.2 ht0)] at this
    have hPl : 1024 - 1 / 2 ^ 30 < P := by
      rw [abs_le] at hZP
      rcases abs_cases P with ⟨h, h'⟩ | ⟨h, h'⟩ <;> rw [h] at hZP <;> norm_num <;> linarith only [hZP.2, hZ, h']
    have gH : Good (huge N KD KD.one) P := ⟨fun h => absurd h (not_le.mpr hPl), fun _ => huge_inf N⟩
    split
    · exact ⟨_, rfl, gH⟩
    · rename_i h2
      rw [not_not, Nat.or_eq_zero_iff] at h2
      split
      · exact ⟨_, rfl, gH⟩
      · have hm0 : f64.mag (N.add p_l p_h) = 1033 * 2 ^ f64.s + 0 := by
          have := h2.1
          rw [hmj] at this
          unfold u32of at this
          rw [show f64.s = 52 from rfl]; omega
        have hZ2 : Z = 1024 := by
          have := gz.abs_eq
          rw [hm0, Exp2.magVal_at (by norm_num) (by positivity), abs_of_nonneg (sgn.2 ht0), show f64.s = 52 from rfl, show f64.bias = 1023 from rfl] at this
          rw [this]; norm_num
        rw [hZ2] at hZP
        have hPp : P < 1024 + 1 / 2 ^ 30 ∧ 0 ≤ P := by
          rw [abs_le] at hZP
          rcases abs_cases P with ⟨h, h'⟩ | ⟨h, h'⟩ <;> rw [h] at hZP <;> norm_num <;> constructor <;> linarith only [hZP.1, hZP.2, h']
        refine ex ?_ ?_ fun _ => hPp.1
        · rw [abs_of_nonneg hPp.2]; have := hPp.1; norm_num at this; linarith
        · have := hPp.1; norm_num at this ⊢; linarith
  · rw [if_neg h1, a1]
    by_cases h2 : (m : ℤ) ≥ 0x4090cc00
    · rw [if_pos h2]
      have ht1 : t = true := by
        cases t
        · rw [hj'] at h1; simp [wb] at h1; omega
        · rfl
      have hu : u32of j = m + 2 ^ 31 := by rw [hj', u32of_neg _ hm31, ht1]; rfl
      have hZ : Z ≤ -1075 := by
        have := w2.mp (by omega)
        rw [abs_of_nonpos (sgn.1 ht1)] at this
        linarith
      have hPl : P ≤ -1074.99 := by
        rw [abs_le] at hZP
        rcases abs_cases P with ⟨h, h'⟩ | ⟨h, h'⟩ <;> rw [h] at hZP <;> norm_num <;> linarith only [hZP.1, hZ, h']
      have hs : nsubC (u32of j) 0xc090cc00 = .ok (u32of j - 0xc090cc00) := by
        unfold nsubC; rw [if_pos (by omega)]
      rw [hs, ok_bind]
      have gT : Good (tiny N KD KD.one) P := by
        obtain ⟨k1, k2, k3⟩ := tiny_zero N
        refine ⟨fun _ => ⟨k1, k2, ?_⟩, fun h => ?_⟩
        · have k4 := (GFv.self k1).nonneg k2
          have k5 : Real.exp (P * Real.log 2) ≤ 2 ^ (-1074 : ℤ) := by
            rw [← exp_two]
            apply Real.exp_le_exp.mpr
            refine mul_le_mul_of_nonneg_right ?_ (Real.log_nonneg (by norm_num))
            push_cast; norm_num at hPl ⊢; linarith
          have k6 := Real.exp_pos (P * Real.log 2)
          refine le_trans ?_ (le_add_of_nonneg_left (by positivity))
          rw [abs_le]; constructor <;> linarith
        · norm_num at h hPl; linarith
      split
      · exact ⟨_, rfl, gT⟩
      · rename_i h3
        rw [not_not, Nat.or_eq_zero_iff] at h3
        split
        · exact ⟨_, rfl, gT⟩
        · have hm0 : f64.mag (N.add p_l p_h) = 1033 * 2 ^ f64.s + 0xcc00 * 2 ^ 32 := by
            have := h3.1
            rw [hu] at this
            rw [show f64.s = 52 from rfl]; omega
          have hZ2 : Z = -1075 := by
            have := gz.abs_eq
            rw [hm0, Exp2.magVal_at (by norm_num) (by rw [show f64.s = 52 from rfl]; norm_num), abs_of_nonpos (sgn.1 ht1), show f64.s = 52 from rfl, show f64.bias = 1023 from rfl] at this
            norm_num at this; linarith
          rw [hZ2] at hZP
          refine ex ?_ (by norm_num at hPl ⊢; linarith) (fun h => by norm_num at h hPl; linarith)
          rw [abs_of_nonpos (by norm_num at hPl; linarith)]
          rw [abs_le] at hZP
          rcases abs_cases P with ⟨h, h'⟩ | ⟨h, h'⟩ <;> rw [h] at hZP <;> linarith only [hZP.1, hZP.2, h']
    · rw [if_neg h2]
      have hZ1 : |Z| < 1075 := by
        by_contra hc
        exact h2 (by have := w2.mpr (not_lt.mp hc); omega)
      have hP1 : |P| ≤ 1100 := by
        have := abs_sub_abs_le_abs_sub P Z
        rw [abs_sub_comm] at this
        linarith
      have hZ3 : Z < 1024 := by
        by_contra hc
        rw [not_lt] at hc
        have h5 : t = false := by
          cases t
          · rfl
          · exact absurd (sgn.1 rfl) (by linarith)
        have := w1.mpr (by rw [abs_of_nonneg (by linarith)]; exact hc)
        apply h1
        rw [hj', h5]; simp [wb]; omega
      have hP2 : P < 1024 + 1 / 2 ^ 30 := by
        rw [abs_le] at hZP
        rcases abs_cases P with ⟨h, h'⟩ | ⟨h, h'⟩ <;> rw [h] at hZP <;> norm_num <;> linarith only [hZP.1, hZ3, h']
      exact ex hP1 (by norm_num at hP2 ⊢; linarith) fun _ => hP2
end Dbl
end Power
end Verif
