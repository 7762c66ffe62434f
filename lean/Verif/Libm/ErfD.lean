import Verif.Libm.Erf
import Verif.Libm.IvCalc
import Verif.Libm.PowLogD
import Verif.Libm.PowNeg
import Verif.Props.LibmExp
/-! # `erf` and `erfc` -/
namespace Verif
open Fmt
namespace Erf

theorem big : f64.Big := Power.Dbl.big

/-- the check that the computed value lies in `[l, u]` -/
def rg (cs : List (BitVec f64.w)) (p : IE) (l u : ℚ) : ℚ → ℚ → Bool :=
  IE.okP (F := f64) cs p (fun lo hi _ => ⟨lo, hi, 0⟩) fun r => decide (l ≤ r.lo - r.e) && decide (r.hi + r.e ≤ u)

theorem rg_sound (N : FPU f64) {cs : List (BitVec f64.w)} (hcs : (cs.all fun c => decide (f64.mag c < f64.infRep)) = true)
    {p : IE} {l u lo hi : ℚ} {sp : List ℚ} (h : IE.split (rg cs p l u) lo sp hi = true) {x : D} {X : ℝ} (hx : GFv f64 x X)
    (h0 : (lo : ℝ) ≤ X) (h1 : X ≤ hi) : ∃ v, GFv f64 (p.flt N cs fun _ => x) v ∧ (l : ℝ) ≤ v ∧ v ≤ u := by
  obtain ⟨r, hg, v, gv, a, b, d⟩ := IE.okP_sound big N hcs h h0 h1 (b := fun _ => x) (a := fun _ => X) fun lo hi g0 g1 _ => ⟨X, hx, g0, g1, by simp⟩
  rw [Bool.and_eq_true] at hg
  have q1 : (l : ℝ) ≤ r.lo - r.e := by exact_mod_cast of_decide_eq_true hg.1
  have q2 : (r.hi : ℝ) + r.e ≤ u := by exact_mod_cast of_decide_eq_true hg.2
  rw [abs_le] at d
  exact ⟨v, gv, by linarith [d.1], by linarith [d.2]⟩

/-- Horner's rule -/
def hp (z : IE) : List ℕ → IE
  | [] => z
  | [i] => .cst i
  | i :: l => .add (.cst i) (.mul z (hp z l))

def csS : List (BitVec f64.w) := PP ++ QQ
def ratS : IE := .div (hp (.mul (.var 0) (.var 0)) [0, 1, 2, 3, 4]) (hp (.mul (.var 0) (.var 0)) [5, 6, 7, 8, 9, 10])
theorem ratS_flt (N : FPU f64) (x : D) : ratS.flt N csS (fun _ => x) = rat N PP QQ (N.mul x x) := rfl
theorem csS_fin : (csS.all fun c => decide (f64.mag c < f64.infRep)) = true := by decide +kernel
theorem ratS_chk : IE.split (rg csS ratS (-1 / 5) (1 / 5)) (-27 / 32) [-1 / 2, 0, 1 / 2] (27 / 32) = true := by decide +kernel
def smE : IE := .add (.var 0) (.mul (.var 0) ratS)
theorem smE_flt (N : FPU f64) (x : D) : smE.flt N csS (fun _ => x) = N.add x (N.mul x (rat N PP QQ (N.mul x x))) := rfl
theorem smE_chk : IE.split (rg csS smE (-19 / 20) (19 / 20)) (-27 / 32) [-13 / 16, -3 / 4, -5 / 8, -1 / 2, 0, 1 / 2, 5 / 8, 3 / 4, 13 / 16] (27 / 32) = true := by decide +kernel

def csH : List (BitVec f64.w) := PP ++ QQ ++ [half]
def hfE : IE := .sub (.cst 11) (.add (.sub (.var 0) (.cst 11)) (.mul (.var 0) ratS))
theorem hfE_flt (N : FPU f64) (x : D) :
    hfE.flt N csH (fun _ => x) = N.sub half (N.add (N.sub x half) (N.mul x (rat N PP QQ (N.mul x x)))) := rfl
theorem csH_fin : (csH.all fun c => decide (f64.mag c < f64.infRep)) = true := by decide +kernel
theorem hfE_chk : IE.split (rg csH hfE (1 / 20) (9 / 10)) (1 / 4) [1 / 2, 5 / 8, 3 / 4, 13 / 16] (27 / 32) = true := by decide +kernel

def cs1 : List (BitVec f64.w) := PA ++ QA ++ [one, ERX]
def e1E : IE :=
  .sub (.sub (.cst 14) (.cst 15)) (.div (hp (.sub (.var 0) (.cst 14)) [0, 1, 2, 3, 4, 5, 6]) (hp (.sub (.var 0) (.cst 14)) [7, 8, 9, 10, 11, 12, 13]))
theorem e1E_flt (N : FPU f64) (x : D) : e1E.flt N cs1 (fun _ => f64.fabs x) = erfc1 N x := rfl
theorem cs1_fin : (cs1.all fun c => decide (f64.mag c < f64.infRep)) = true := by decide +kernel
theorem e1E_chk : IE.split (rg cs1 e1E (1 / 40) (1 / 2)) (27 / 32) [15 / 16, 1, 9 / 8] (5 / 4) = true := by decide +kernel

def csA : List (BitVec f64.w) := RA ++ SA ++ [one]
def sA : IE := .div (.cst 17) (.mul (.var 0) (.var 0))
def aE : IE := .div (hp sA [0, 1, 2, 3, 4, 5, 6, 7]) (hp sA [8, 9, 10, 11, 12, 13, 14, 15, 16])
theorem aE_flt (N : FPU f64) (x : D) : aE.flt N csA (fun _ => x) = rat N RA SA (N.div one (N.mul x x)) := rfl
theorem csA_fin : (csA.all fun c => decide (f64.mag c < f64.infRep)) = true := by decide +kernel
theorem aE_chk : IE.split (rg csA aE (-10) 0) (5 / 4) [3 / 2, 2] 3 = true := by decide +kernel

def csB : List (BitVec f64.w) := RB ++ SB ++ [one]
def sB : IE := .div (.cst 15) (.mul (.var 0) (.var 0))
def bE : IE := .div (hp sB [0, 1, 2, 3, 4, 5, 6]) (hp sB [7, 8, 9, 10, 11, 12, 13, 14])
theorem bE_flt (N : FPU f64) (x : D) : bE.flt N csB (fun _ => x) = rat N RB SB (N.div one (N.mul x x)) := rfl
theorem csB_fin : (csB.all fun c => decide (f64.mag c < f64.infRep)) = true := by decide +kernel
theorem bE_chk : IE.split (rg csB bE (-10) 0) 2 [3, 4, 6, 10] 28 = true := by decide +kernel

/-! ## the tail -/

theorem rd {v : ℝ} {r : D} (h : f64.Rounds v r) (h9 : |v| ≤ 1000) : ∃ u, GFv f64 r u ∧ |u - v| ≤ 1 / 10 ^ 9 := by
  obtain ⟨u, g, e⟩ := GFv.rnd big h (h9.trans (by norm_num))
  refine ⟨u, g, e.trans ?_⟩
  have : (1 : ℝ) / 2 ^ (f64.s + 1) * |v| ≤ 1 / 2 ^ (f64.s + 1) * 1000 := mul_le_mul_of_nonneg_left h9 (by positivity)
  rw [show f64.s + 1 = 53 from rfl] at *
  norm_num at this ⊢
  linarith

theorem bias64 : ((f64.bias : ℕ) : ℤ) = 1023 := by decide +kernel

theorem nonneg_of {v u : ℝ} {r : D} (h : f64.Rounds v r) (g : GFv f64 r u) (hv : 0 ≤ v) : 0 ≤ u := by
  have := h.ge_of f64 f64.rp_zero (by rw [abs_zero]; positivity) hv
  rwa [g.val] at this

theorem le_one_of {v u : ℝ} {r : D} (h : f64.Rounds v r) (g : GFv f64 r u) (hv : v ≤ 1) : u ≤ 1 := by
  have := h.le_of f64 (g := 2 ^ (0 : ℤ)) (f64.rp_pow (by decide +kernel)) (by rw [abs_of_pos (by positivity), bias64]; exact zpow_le_zpow_right₀ (by norm_num) (by norm_num)) (by simpa using hv)
  rw [g.val] at this
  simpa using this

theorem le_two_of {v u : ℝ} {r : D} (h : f64.Rounds v r) (g : GFv f64 r u) (hv : v ≤ 2) : u ≤ 2 := by
  have := h.le_of f64 (g := 2 ^ (1 : ℤ)) (f64.rp_pow (by decide +kernel)) (by rw [abs_of_pos (by positivity), bias64]; exact zpow_le_zpow_right₀ (by norm_num) (by norm_num)) (by simpa using hv)
  rw [g.val] at this
  simpa using this

/-- `exp` of an argument below 1 -/
theorem exp_le (N : FPU f64) {t : D} {T : ℝ} (ht : GFv f64 t T) (h1 : T ≤ 1) :
    ∃ r R, Exp.exp N t = .ok r ∧ GFv f64 r R ∧ 0 ≤ R ∧ R ≤ Real.exp T + 1 / 100 := by
  have e1 : Real.exp T ≤ 3 := (Real.exp_le_exp.mpr h1).trans (Real.exp_one_lt_d9.le.trans (by norm_num))
  obtain ⟨r, a, b, c, d⟩ := Props.C64_exp N ht.fin (by rw [ht.valQ]; exact lt_of_le_of_lt e1 (by
    refine lt_of_lt_of_le (b := (2 : ℝ) ^ (2 : ℤ)) (by norm_num) (zpow_le_zpow_right₀ (by norm_num) (by norm_num))))
  rw [ht.valQ, f64.valK_cast] at d
  refine ⟨r, _, a, GFv.self b, (GFv.self b).nonneg c, ?_⟩
  have h2 : (2 : ℝ) ^ (-1075 : ℤ) ≤ 2 ^ (-10 : ℤ) := zpow_le_zpow_right₀ (by norm_num) (by norm_num)
  have h3 := (abs_le.mp d).2
  have h4 : (0.95 : ℝ) / 2 ^ 52 * Real.exp T ≤ 0.95 / 2 ^ 52 * 3 := mul_le_mul_of_nonneg_left e1 (by norm_num)
  norm_num at h2 h4 h3 ⊢
  linarith

theorem c5625_v : GFv f64 c5625 (9 / 16) := (GFv.const (q := 9 / 16) (by decide +kernel) (by decide +kernel)).cast (by norm_num)
theorem one_v : GFv f64 one 1 := (GFv.const (q := 1) (by decide +kernel) (by decide +kernel)).cast (by norm_num)
theorem two_v : GFv f64 two 2 := (GFv.const (q := 2) (by decide +kernel) (by decide +kernel)).cast (by norm_num)

theorem lt_w (x : D) (w : ℕ) : Pio2.hi x < w ↔ f64.mag x < w * 2 ^ 32 := by
  rw [Pio2.hi_eq, Nat.div_lt_iff_lt_mul (by norm_num)]

/-- a comparison of the word of the magnitude -/
theorem hi_lt {x : D} {X : ℝ} (hx : GFv f64 x X) (w : ℕ) {q : ℚ} (hc : f64.magVal ℚ (w * 2 ^ 32) = q) : Pio2.hi x < w ↔ |X| < q := by
  rw [lt_w, hx.mag_lt hc]

theorem erfc2_spec (N : FPU f64) {x : D} {X : ℝ} (hx : GFv f64 x X) (h0 : 27 / 32 ≤ |X|) (h1 : |X| ≤ 28) :
    ∃ r R, erfc2 N (Pio2.hi x) x = .ok r ∧ GFv f64 r R ∧ 0 ≤ R ∧ R ≤ 3 / 4 := by
  have ha := hx.fabs
  unfold erfc2
  by_cases hc : Pio2.hi x < 0x3ff40000
  · rw [if_pos hc]
    rw [hi_lt hx 0x3ff40000 (q := 5 / 4) (by decide +kernel)] at hc
    obtain ⟨v, g, a, b⟩ := rg_sound N cs1_fin e1E_chk ha (by norm_num; exact h0) (by norm_num at hc ⊢; exact hc.le)
    rw [e1E_flt] at g
    norm_num at a b
    exact ⟨_, v, rfl, g, by linarith, by linarith⟩
  rw [if_neg hc]
  rw [hi_lt hx 0x3ff40000 (q := 5 / 4) (by decide +kernel), not_lt] at hc
  norm_num at hc
  obtain ⟨Q, gq, q0, q1⟩ : ∃ Q, GFv f64 (if Pio2.hi x < 0x4006db6d then rat N RA SA (N.div one (N.mul (f64.fabs x) (f64.fabs x)))
      else rat N RB SB (N.div one (N.mul (f64.fabs x) (f64.fabs x)))) Q ∧ -10 ≤ Q ∧ Q ≤ 0 := by
    by_cases hb : Pio2.hi x < 0x4006db6d
    · rw [if_pos hb]
      rw [hi_lt hx 0x4006db6d rfl] at hb
      obtain ⟨v, g, a, b⟩ := rg_sound N csA_fin aE_chk ha (by norm_num; exact hc)
        (hb.le.trans (Rat.cast_le.mpr (by decide +kernel)))
      rw [aE_flt] at g
      exact ⟨v, g, by norm_num at a; exact a, by norm_num at b; exact b⟩
    · rw [if_neg hb]
      rw [hi_lt hx 0x4006db6d rfl, not_lt] at hb
      obtain ⟨v, g, a, b⟩ := rg_sound N csB_fin bE_chk ha (le_trans (Rat.cast_le.mpr (by decide +kernel)) hb) (by norm_num; exact h1)
      rw [bE_flt] at g
      exact ⟨v, g, by norm_num at a; exact a, by norm_num at b; exact b⟩
  dsimp only
  generalize (if Pio2.hi x < 0x4006db6d then _ else _) = q at gq ⊢
  generalize f64.fabs x = y at ha ⊢
  generalize |X| = Y at ha hc h0 h1
  obtain ⟨Z, gz, ez, lz⟩ := Power.Dbl.clr ha
  generalize Asin.clearLow y = z at gz ⊢
  rw [abs_of_nonneg (show (0 : ℝ) ≤ Y by linarith)] at ez lz
  rw [abs_le] at ez lz
  norm_num at ez
  have z0 : 6 / 5 ≤ Z := by linarith [ez.2]
  have z1 : Z ≤ 28 := by linarith [lz.2]
  have z2 : |Z - Y| ≤ 1 / 70 := by rw [abs_le]; constructor <;> linarith [ez.1, ez.2]
  have zz0 : 36 / 25 ≤ Z * Z := by nlinarith
  have zz1 : Z * Z ≤ 784 := by nlinarith
  -- the first exponential
  obtain ⟨A, ga, ea⟩ := rd (gz.neg.mulR N gz) (by rw [abs_le]; constructor <;> nlinarith)
  rw [abs_le] at ea
  obtain ⟨B, gb, eb⟩ := rd (ga.subR N c5625_v) (by rw [abs_le]; constructor <;> linarith [ea.1, ea.2])
  rw [abs_le] at eb
  obtain ⟨r1, R1, x1, g1, p1, u1⟩ := exp_le N gb (by linarith [ea.2, eb.2])
  -- the second one
  obtain ⟨C, gc, ec⟩ := rd (gz.subR N ha) (by linarith)
  obtain ⟨E, ge, ee⟩ := rd (gz.addR N ha) (by rw [abs_le]; constructor <;> linarith)
  have c1 : |C| ≤ 1 / 69 := by rw [abs_le] at *; constructor <;> linarith [ec.1, ec.2, z2.1, z2.2]
  have e1 : |E| ≤ 57 := by rw [abs_le] at *; constructor <;> linarith [ee.1, ee.2]
  have ce : |C * E| ≤ 57 / 69 := by
    rw [abs_mul]
    calc |C| * |E| ≤ 1 / 69 * 57 := mul_le_mul c1 e1 (abs_nonneg _) (by norm_num)
      _ = 57 / 69 := by norm_num
  obtain ⟨G, gg, eg⟩ := rd (gc.mulR N ge) (by linarith)
  rw [abs_le] at ce eg
  obtain ⟨H, gh, eh⟩ := rd (gg.addR N gq) (by rw [abs_le]; constructor <;> linarith [ce.1, ce.2, eg.1, eg.2])
  rw [abs_le] at eh
  obtain ⟨r2, R2, x2, g2, p2, u2⟩ := exp_le N gh (by linarith [eh.2, eg.2, ce.2])
  have b1 : Real.exp B ≤ 1 / 5 := by
    have : Real.exp B ≤ Real.exp (-2 : ℝ) := Real.exp_le_exp.mpr (by linarith [ea.2, eb.2])
    have h2 : Real.exp (-2 : ℝ) = (Real.exp 1 * Real.exp 1)⁻¹ := by rw [Real.exp_neg, ← Real.exp_add]; norm_num
    have h3 := Real.exp_one_gt_d9
    have h4 : (5 : ℝ) ≤ Real.exp 1 * Real.exp 1 := by nlinarith
    have h5 : (Real.exp 1 * Real.exp 1)⁻¹ ≤ 5⁻¹ := inv_anti₀ (by norm_num) h4
    rw [h2] at this; linarith
  have b2 : Real.exp H ≤ 14 / 5 := by
    have : Real.exp H ≤ Real.exp 1 := Real.exp_le_exp.mpr (by linarith [eh.2, eg.2, ce.2])
    linarith [Real.exp_one_lt_d9]
  have r1b : R1 ≤ 1 / 4 := by linarith
  have r2b : R2 ≤ 29 / 10 := by linarith
  have rr : R1 * R2 ≤ 29 / 40 := by
    calc R1 * R2 ≤ 1 / 4 * (29 / 10) := mul_le_mul r1b r2b p2 (by norm_num)
      _ = 29 / 40 := by norm_num
  have rr0 : 0 ≤ R1 * R2 := mul_nonneg p1 p2
  have hm := g1.mulR N g2
  obtain ⟨K, gk, ek⟩ := rd hm (by rw [abs_of_nonneg rr0]; linarith)
  have k0 := nonneg_of hm gk rr0
  rw [abs_le] at ek
  have hy : 0 < Y := by linarith
  have hd := gk.divR N ha hy.ne'
  have d0 : 0 ≤ K / Y := div_nonneg k0 hy.le
  have d1 : K / Y ≤ 29 / 40 := by rw [div_le_iff₀ hy]; nlinarith [ek.2]
  obtain ⟨R, gr, er⟩ := rd hd (by rw [abs_of_nonneg d0]; linarith)
  rw [abs_le] at er
  refine ⟨_, R, ?_, gr, nonneg_of hd gr d0, by linarith [er.2]⟩
  rw [x1]
  show (do let b ← Exp.exp N _; pure _) = _
  rw [x2]
  rfl

end Erf
end Verif
