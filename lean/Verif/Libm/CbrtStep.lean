import Verif.Libm.CbrtStart
import Verif.Libm.FmaSpec
/-! # `cbrt`: the linear step -/
namespace Verif
open Fmt
namespace CbrtD

theorem b64 : f64.bias = 1023 := by decide
theorem s64 : f64.s = 52 := rfl

/-- `fma` is correctly rounded except possibly where `fma_round` is not (`C44`) -/
def FmaOk (fma : D → D → D → M D) : Prop := ∀ x y z, ¬ f64.FmaLost x y z → ∃ r, fma x y z = .ok r ∧ f64.FmaSpec x y z r

theorem err64 {v u : ℝ} {r : D} (h : f64.Rounds v r) (g : GFv f64 r u) {k : ℤ} (hv : |v| ≤ 2 ^ k) (hk : -1021 ≤ k) (hk' : k ≤ 1024) :
    |u - v| ≤ 2 ^ (k - 54) := by
  have := h.err f64 hv (by rw [b64]; omega) (by rw [b64]; omega)
  rw [s64, show k - (52 : ℕ) - 2 = k - 54 by push_cast; ring, g.val] at this
  exact this

variable {fma : D → D → D → M D}

/-- `fma` is exact when the exact result is a number -/
theorem fma_exact (hH : FmaOk fma) {a b c : D} {A B Z : ℝ} (ha : GFv f64 a A) (hb : GFv f64 b B) (hc : GFv f64 c Z)
    (hbal : |Z| ≤ 2 * |A * B|) (hrp : f64.Rp (A * B + Z)) (hbd : |A * B + Z| ≤ 2 ^ (100 : ℤ)) :
    ∃ r, fma a b c = .ok r ∧ GFv f64 r (A * B + Z) := by
  have hl : ¬ f64.FmaLost a b c := by
    rintro ⟨mx, my, mz, ex, ey, ez, ⟨_, hx, vx⟩, ⟨_, hy, vy⟩, ⟨hz, _, vz⟩, k, hk, _, hd, _⟩
    rw [← ha.val, ← hb.val, ← hc.val] at hbal
    rw [← f64.valK_cast, ← f64.valK_cast, ← f64.valK_cast, ← Rat.cast_mul, ← Rat.cast_abs, ← Rat.cast_abs, abs_mul, vx, vy, vz] at hbal
    have hb' : (mz : ℚ) * 2 ^ ez ≤ 2 * (mx * 2 ^ ex * (my * 2 ^ ey)) := by exact_mod_cast hbal
    have hxq : (mx : ℚ) < 2 ^ (54 : ℕ) := by exact_mod_cast hx
    have hyq : (my : ℚ) < 2 ^ (54 : ℕ) := by exact_mod_cast hy
    have hzq : (2 : ℚ) ^ (53 : ℕ) ≤ mz := by exact_mod_cast hz
    have hxy : (mx : ℚ) * my ≤ 2 ^ (54 : ℕ) * 2 ^ (54 : ℕ) :=
      mul_le_mul hxq.le hyq.le (by positivity) (by positivity)
    have hp : (0 : ℚ) < 2 ^ (ex + ey) := by positivity
    have hw : f64.w = 64 := rfl
    have e1 : (2 : ℚ) * (mx * 2 ^ ex * (my * 2 ^ ey)) ≤ 2 ^ (109 : ℤ) * 2 ^ (ex + ey) := by
      rw [zpow_add₀ (by norm_num)]
      have := mul_le_mul_of_nonneg_right hxy hp.le
      rw [zpow_add₀ (by norm_num)] at this
      have e : (2 : ℚ) ^ (109 : ℤ) = 2 * (2 ^ (54 : ℕ) * 2 ^ (54 : ℕ)) := by norm_num
      rw [e]
      linarith
    have e2 : (2 : ℚ) ^ (53 : ℤ) * 2 ^ (ex + ey + 65) ≤ mz * 2 ^ ez := by
      refine mul_le_mul (by exact_mod_cast hzq) (zpow_le_zpow_right₀ (by norm_num) (by omega)) (by positivity) (by positivity)
    have e3 : (2 : ℚ) ^ (53 : ℤ) * 2 ^ (ex + ey + 65) = 2 ^ (118 : ℤ) * 2 ^ (ex + ey) := by
      rw [← zpow_add₀ (by norm_num), ← zpow_add₀ (by norm_num)]; congr 1; ring
    have e4 : (2 : ℚ) ^ (109 : ℤ) * 2 ^ (ex + ey) < 2 ^ (118 : ℤ) * 2 ^ (ex + ey) :=
      mul_lt_mul_of_pos_right (zpow_lt_zpow_right₀ (by norm_num) (by norm_num)) hp
    linarith
  obtain ⟨r, h1, h2⟩ := hH a b c hl
  have h3 := (h2.1 ha.fin hb.fin hc.fin).1.cast f64
  rw [Rat.cast_add, Rat.cast_mul, f64.valK_cast, f64.valK_cast, f64.valK_cast, ha.val, hb.val, hc.val] at h3
  refine ⟨r, h1, h3.fin100 big64 hbd, h3.exactR f64 hrp (hbd.trans ?_)⟩
  rw [b64]; exact zpow_le_zpow_right₀ (by norm_num) (by norm_num)

/-- numbers of moderate size are multiples of a power of two that is not too small -/
theorem grid {b : D} {B : ℝ} (h : GFv f64 b B) (h0 : 1 / 2 ≤ |B|) (h1 : |B| ≤ 16) : ∃ j : ℤ, Mul2 j B ∧ |B| ≤ 2 ^ (j + 53) ∧ -54 ≤ j ∧ j ≤ 4 := by
  obtain ⟨m, j, e, hm, -, -⟩ := f64.val_dec b
  rw [h.val] at e
  have hp : (0 : ℝ) < 2 ^ j := by positivity
  have hab : |B| = |(m : ℝ)| * 2 ^ j := by rw [e, abs_mul, abs_of_pos hp]
  have hmR : |(m : ℝ)| ≤ 2 ^ 53 := by
    have : |m| ≤ 2 ^ 53 := hm.le
    exact_mod_cast this
  have hm0 : m ≠ 0 := by rintro rfl; simp at hab; rw [hab] at h0; norm_num at h0
  have hm1 : (1 : ℝ) ≤ |(m : ℝ)| := by exact_mod_cast Int.one_le_abs hm0
  have hle : |B| ≤ 2 ^ (j + 53) := by
    rw [hab, add_comm, zpow_add₀ (by norm_num)]
    exact mul_le_mul_of_nonneg_right (by exact_mod_cast hmR) hp.le
  refine ⟨j, ⟨m, e⟩, hle, ?_, ?_⟩
  · have : (2 : ℝ) ^ (-1 : ℤ) ≤ 2 ^ (j + 53) := by refine le_trans ?_ (h0.trans hle); norm_num
    have := (zpow_le_zpow_iff_right₀ (by norm_num : (1 : ℝ) < 2)).mp this
    omega
  · have : (2 : ℝ) ^ j ≤ 2 ^ (4 : ℤ) := by
      refine le_trans ?_ (h1.trans (by norm_num))
      rw [hab]; nlinarith
    exact (zpow_le_zpow_iff_right₀ (by norm_num : (1 : ℝ) < 2)).mp this

/-- the error of a product is found by `fma` -/
theorem prod_err (hH : FmaOk fma) {a b p : D} {A B : ℝ} (ha : GFv f64 a A) (hb : GFv f64 b B) (a0 : 1 / 2 ≤ |A|) (a1 : |A| ≤ 16) (b0 : 1 / 2 ≤ |B|) (b1 : |B| ≤ 16)
    (hp : f64.Rounds (A * B) p) : ∃ P, GFv f64 p P ∧ ∃ r, fma a b (f64.neg p) = .ok r ∧ GFv f64 r (A * B - P) := by
  obtain ⟨i, gi, li, i0, i1⟩ := grid ha a0 a1
  obtain ⟨j, gj, lj, j0, j1⟩ := grid hb b0 b1
  have hAB : |A * B| ≤ 2 ^ (i + j + 106) := by
    rw [abs_mul, show i + j + 106 = (i + 53) + (j + 53) by ring, zpow_add₀ (by norm_num)]
    exact mul_le_mul li lj (abs_nonneg _) (by positivity)
  have hbig : |A * B| ≤ 2 ^ (100 : ℤ) := by
    rw [abs_mul]
    calc |A| * |B| ≤ 16 * 16 := mul_le_mul a1 b1 (abs_nonneg _) (by norm_num)
      _ ≤ _ := by norm_num
  have hf := hp.fin100 big64 hbig
  have gp : GFv f64 p (f64.valK ℝ p) := ⟨hf, rfl⟩
  obtain ⟨P, hP⟩ : ∃ P, P = f64.valK ℝ p := ⟨_, rfl⟩
  rw [← hP] at gp
  refine ⟨P, gp, ?_⟩
  have g2 := gi.mul gj
  have g2' := hp.grid f64 g2 (by rw [b64, s64]; omega) (hbig.trans (zpow_le_zpow_right₀ (by norm_num) (by rw [b64]; omega)))
  rw [gp.val] at g2'
  have he := err64 hp gp hAB (by omega) (by omega)
  have hn := hp.near f64 f64.rp_zero (by rw [abs_zero]; positivity)
  rw [sub_zero, gp.val] at hn
  have gn : GFv f64 (f64.neg p) (-P) := ⟨f64.isFin_neg.mpr hf, by rw [f64.valK_neg, gp.val]⟩
  have e : A * B + -P = A * B - P := by ring
  obtain ⟨r, h1, h2⟩ := fma_exact hH ha hb gn (by
      rw [abs_neg]
      have := abs_sub_abs_le_abs_sub P (A * B)
      rw [abs_sub_comm] at this
      linarith) (by
      rw [e]
      refine (g2.sub g2').rp f64 ?_ (by rw [b64, s64]; omega)
      rw [abs_sub_comm]
      exact he.trans (zpow_le_zpow_right₀ (by norm_num) (by rw [s64]; push_cast; omega))) (by
      rw [e]
      exact hn.trans hbig)
  exact ⟨r, h1, h2.cast e⟩

/-- the error of a product -/
theorem mul_near {a b A B α β P Q : ℝ} (ha : |a - A| ≤ α) (hb : |b - B| ≤ β) (hA : |A| ≤ P) (hB : |B| ≤ Q) : |a * b - A * B| ≤ α * Q + P * β + α * β := by
  have e : a * b - A * B = (a - A) * B + A * (b - B) + (a - A) * (b - B) := by ring
  have h1 : |(a - A) * B| ≤ α * Q := by rw [abs_mul]; exact mul_le_mul ha hB (abs_nonneg _) ((abs_nonneg _).trans ha)
  have h2 : |A * (b - B)| ≤ P * β := by rw [abs_mul]; exact mul_le_mul hA hb (abs_nonneg _) ((abs_nonneg _).trans hA)
  have h3 : |(a - A) * (b - B)| ≤ α * β := by rw [abs_mul]; exact mul_le_mul ha hb (abs_nonneg _) ((abs_nonneg _).trans ha)
  rw [e]
  exact (abs_add_le _ _).trans (add_le_add ((abs_add_le _ _).trans (add_le_add h1 h2)) h3)

/-- the linear step, in exact arithmetic -/
theorem linear {c Y E : ℝ} (hc : c ≠ 0) (h : |Y - c| ≤ E * |c|) (hE : E ≤ 1 / 2 ^ 38) :
    |(Y ^ 3 - c ^ 3) / c ^ 3| ≤ 3.001 * E ∧ |Y - (Y ^ 3 - c ^ 3) / c ^ 3 * (Y / 3) - c| ≤ 2.001 * E ^ 2 * |c| := by
  obtain ⟨η, hη⟩ : ∃ η, η = Y / c - 1 := ⟨_, rfl⟩
  have hy : Y = c * (1 + η) := by rw [hη]; field_simp; ring
  have hcp := abs_pos.mpr hc
  have hb : |η| ≤ E := by
    have : Y - c = c * η := by rw [hy]; ring
    rw [this, abs_mul, mul_comm] at h
    exact le_of_mul_le_mul_right h hcp
  have hE0 : 0 ≤ E := (abs_nonneg _).trans hb
  have h6 : |η| ≤ 1e-6 := hb.trans (hE.trans (by norm_num))
  have h6' := abs_le.mp h6
  have e1 : (Y ^ 3 - c ^ 3) / c ^ 3 = η * (3 + η * (3 + η)) := by rw [hy]; field_simp; ring
  have e2 : Y - (Y ^ 3 - c ^ 3) / c ^ 3 * (Y / 3) - c = η ^ 2 * (-(2 + η * (4 / 3 + η / 3))) * c := by
    rw [e1, hy]; ring
  have k1 : |η * (3 + η)| ≤ 1e-3 := by
    rw [abs_mul]
    have : |3 + η| ≤ 4 := by rw [abs_le]; norm_num at h6'; constructor <;> linarith [h6'.1, h6'.2]
    calc |η| * |3 + η| ≤ 1e-6 * 4 := mul_le_mul h6 this (abs_nonneg _) (by norm_num)
      _ ≤ _ := by norm_num
  have k2 : |η * (4 / 3 + η / 3)| ≤ 1e-3 := by
    rw [abs_mul]
    have : |4 / 3 + η / 3| ≤ 4 := by rw [abs_le]; norm_num at h6'; constructor <;> linarith [h6'.1, h6'.2]
    calc |η| * |4 / 3 + η / 3| ≤ 1e-6 * 4 := mul_le_mul h6 this (abs_nonneg _) (by norm_num)
      _ ≤ _ := by norm_num
  have k1' := abs_le.mp k1
  have k2' := abs_le.mp k2
  constructor
  · rw [e1, abs_mul, mul_comm]
    have : |3 + η * (3 + η)| ≤ 3.001 := by rw [abs_le]; norm_num at k1' ⊢; constructor <;> linarith [k1'.1, k1'.2]
    exact mul_le_mul this hb (abs_nonneg _) (by norm_num)
  · rw [e2, abs_mul, abs_mul, abs_neg, abs_pow]
    refine mul_le_mul_of_nonneg_right ?_ hcp.le
    have : |2 + η * (4 / 3 + η / 3)| ≤ 2.001 := by rw [abs_le]; norm_num at k2' ⊢; constructor <;> linarith [k2'.1, k2'.2]
    rw [mul_comm]
    exact mul_le_mul this (pow_le_pow_left₀ (abs_nonneg _) hb 2) (by positivity) (by norm_num)

/-- the rounding errors of the correction. `q` is the relative error of the cube, `S`, `h`, `W`, `dy` what is computed -/
theorem dy_near {c Y R q X S h W dy E : ℝ} (c1 : 1 ≤ |c|) (hR : |R * c ^ 3 - 1| ≤ 1 / 2 ^ 52) (hY : |Y| ≤ 1.001 * |c|) (hE : E ≤ 1 / 2 ^ 38)
    (hq : |q| ≤ 3.001 * E) (hX : |X - q * c ^ 3| ≤ 1.5 / 2 ^ 102) (hS : |S - X| ≤ 1 / 2 ^ 53 * |X| + 1 / 2 ^ 150) (hh : |h - S * R| ≤ 1 / 2 ^ 53 * |S * R| + 1 / 2 ^ 150)
    (hW : |W - Y * (6004799503160661 / 2 ^ 54)| ≤ 1 / 2 ^ 53 * |Y * (6004799503160661 / 2 ^ 54)| + 1 / 2 ^ 150)
    (hd : |dy - h * W| ≤ 1 / 2 ^ 53 * |h * W| + 1 / 2 ^ 150) : |dy - q * (Y / 3)| ≤ (E / 2 ^ 50 + 1 / 2 ^ 102) * |c| := by
  have hc3 : 1 ≤ |c ^ 3| := by rw [abs_pow]; exact one_le_pow₀ c1
  have hc0 : c ^ 3 ≠ 0 := by intro h; rw [h] at hc3; simp at hc3; linarith
  have hE0 : 0 ≤ E := by have := (abs_nonneg _).trans hq; linarith
  -- everything relative to the cube
  obtain ⟨s, hs⟩ : ∃ s, S = s * c ^ 3 := ⟨S / c ^ 3, (div_mul_cancel₀ _ hc0).symm⟩
  obtain ⟨x, hx⟩ : ∃ x, X = x * c ^ 3 := ⟨X / c ^ 3, (div_mul_cancel₀ _ hc0).symm⟩
  have ex : |x - q| ≤ 1.5 / 2 ^ 102 := by
    rw [hx, ← sub_mul, abs_mul] at hX
    have := mul_le_mul_of_nonneg_left hc3 (abs_nonneg (x - q))
    linarith
  have es : |s - x| ≤ 1 / 2 ^ 53 * |x| + 1 / 2 ^ 150 := by
    rw [hx, hs, ← sub_mul, abs_mul, abs_mul] at hS
    have : |s - x| * |c ^ 3| ≤ (1 / 2 ^ 53 * |x| + 1 / 2 ^ 150) * |c ^ 3| := by
      have : 1 / 2 ^ 150 * 1 ≤ 1 / 2 ^ 150 * |c ^ 3| := mul_le_mul_of_nonneg_left hc3 (by positivity)
      linarith
    exact le_of_mul_le_mul_right this (by linarith)
  have hxb := abs_sub_abs_le_abs_sub x q
  have es2 : |s - q| ≤ 1.51 / 2 ^ 102 + 3.002 / 2 ^ 53 * E := by
    have := abs_sub_le s x q
    norm_num at ex es hq hxb this ⊢
    linarith
  -- times `R`
  have e1 : S * R = s * (R * c ^ 3) := by rw [hs]; ring
  have m1 := mul_near es2 hR hq (le_of_eq (abs_one (α := ℝ)))
  have hqs := abs_sub_abs_le_abs_sub (s * (R * c ^ 3)) (q * 1)
  have hqe : |q * 1| = |q| := by rw [mul_one]
  rw [e1] at hh
  have eh : |h - q| ≤ 1.53 / 2 ^ 102 + 12.1 / 2 ^ 53 * E := by
    have := abs_sub_le h (s * (R * c ^ 3)) (q * 1)
    rw [mul_one] at this m1
    rw [mul_one] at hqs
    norm_num at *
    nlinarith
  have eW : |W - Y / 3| ≤ 0.51 / 2 ^ 53 * |c| := by
    have a1 : |Y * (6004799503160661 / 2 ^ 54) - Y / 3| ≤ 1 / 2 ^ 54 / 3 * |Y| := by
      have : Y * (6004799503160661 / 2 ^ 54) - Y / 3 = Y * (-(1 / 2 ^ 54 / 3)) := by norm_num; ring
      rw [this, abs_mul]; rw [mul_comm]; norm_num [abs_of_pos]
    have a2 : |Y * (6004799503160661 / 2 ^ 54)| ≤ 0.3334 * |Y| := by
      rw [abs_mul, mul_comm]; refine mul_le_mul_of_nonneg_right ?_ (abs_nonneg _); norm_num [abs_of_pos]
    have := abs_sub_le W (Y * (6004799503160661 / 2 ^ 54)) (Y / 3)
    norm_num at *
    linarith
  have hY3 : |Y / 3| ≤ 0.334 * |c| := by
    rw [abs_div, abs_of_pos (by norm_num : (0 : ℝ) < 3)]; norm_num at hY ⊢; linarith
  have m2 := mul_near eh eW hq hY3
  have hEc : 0 ≤ E * |c| := by positivity
  have hEc2 : E * (E * |c|) ≤ 1 / 2 ^ 38 * (E * |c|) := mul_le_mul_of_nonneg_right hE hEc
  have hqY : |q * (Y / 3)| ≤ 3.001 * E * (0.334 * |c|) := by
    rw [abs_mul]; exact mul_le_mul hq hY3 (abs_nonneg _) (by positivity)
  have hhw := abs_sub_abs_le_abs_sub (h * W) (q * (Y / 3))
  have hfin := abs_sub_le dy (h * W) (q * (Y / 3))
  generalize |h * W| = t1 at *
  generalize |q * (Y / 3)| = t2 at *
  generalize |dy - h * W| = t3 at *
  generalize |h * W - q * (Y / 3)| = t4 at *
  refine hfin.trans ?_
  generalize |c| = K at *
  have m3 : t4 ≤ 0.52 / 2 ^ 102 * K + 5.7 / 2 ^ 53 * (E * K) := by norm_num at m2 ⊢; linarith
  norm_num at m3 hqY hd hhw ⊢
  linarith

end CbrtD
end Verif
