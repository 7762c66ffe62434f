import Verif.Libm.ErfF
import Verif.Libm.IvCalc
import Verif.Libm.PowLogD
import Verif.Libm.PowNeg
import Verif.Props.LibmExp
/-! # `erf` and `erfc` -/
namespace Verif
open Fmt
namespace ErfF

theorem big : f32.Big := ⟨by decide +kernel, by decide +kernel⟩

/-- the check that the computed value lies in `[l, u]` -/
def rg (cs : List (BitVec f32.w)) (p : IE) (l u : ℚ) : ℚ → ℚ → Bool :=
  IE.okP (F := f32) cs p (fun lo hi _ => ⟨lo, hi, 0⟩) fun r => decide (l ≤ r.lo - r.e) && decide (r.hi + r.e ≤ u)

theorem rg_sound (N : FPU f32) {cs : List (BitVec f32.w)} (hcs : (cs.all fun c => decide (f32.mag c < f32.infRep)) = true)
    {p : IE} {l u lo hi : ℚ} {sp : List ℚ} (h : IE.split (rg cs p l u) lo sp hi = true) {x : S} {X : ℝ} (hx : GFv f32 x X)
    (h0 : (lo : ℝ) ≤ X) (h1 : X ≤ hi) : ∃ v, GFv f32 (p.flt N cs fun _ => x) v ∧ (l : ℝ) ≤ v ∧ v ≤ u := by
  obtain ⟨r, hg, v, gv, a, b, d⟩ := IE.okP_sound big N hcs h h0 h1 (b := fun _ => x) (a := fun _ => X) fun lo hi g0 g1 _ => ⟨X, hx, g0, g1, by simp⟩
  rw [Bool.and_eq_true] at hg
  have q1 : (l : ℝ) ≤ r.lo - r.e := by exact_mod_cast of_decide_eq_true hg.1
  have q2 : (r.hi : ℝ) + r.e ≤ u := by exact_mod_cast of_decide_eq_true hg.2
  rw [abs_le] at d
  exact ⟨v, gv, by linarith [d.1], by linarith [d.2]⟩

/-- Horner's rule -/
def hp (z : IE) : List ℕ → IE
  | [] => z
  | [i] => .cst i
  | i :: l => .add (.cst i) (.mul z (hp z l))

def csS : List (BitVec f32.w) := PP ++ QQ
def ratS : IE := .div (hp (.mul (.var 0) (.var 0)) [0, 1, 2, 3, 4]) (hp (.mul (.var 0) (.var 0)) [5, 6, 7, 8, 9, 10])
theorem ratS_flt (N : FPU f32) (x : S) : ratS.flt N csS (fun _ => x) = rat N PP QQ (N.mul x x) := rfl
theorem csS_fin : (csS.all fun c => decide (f32.mag c < f32.infRep)) = true := by decide +kernel
theorem ratS_chk : IE.split (rg csS ratS (-1 / 5) (1 / 5)) (-27 / 32) [-1 / 2, 0, 1 / 2] (27 / 32) = true := by decide +kernel
def smE : IE := .add (.var 0) (.mul (.var 0) ratS)
theorem smE_flt (N : FPU f32) (x : S) : smE.flt N csS (fun _ => x) = N.add x (N.mul x (rat N PP QQ (N.mul x x))) := rfl
theorem smE_chk : IE.split (rg csS smE (-19 / 20) (19 / 20)) (-27 / 32) [-13 / 16, -3 / 4, -5 / 8, -1 / 2, 0, 1 / 2, 5 / 8, 3 / 4, 13 / 16] (27 / 32) = true := by decide +kernel

def csH : List (BitVec f32.w) := PP ++ QQ ++ [half]
def hfE : IE := .sub (.cst 11) (.add (.sub (.var 0) (.cst 11)) (.mul (.var 0) ratS))
theorem hfE_flt (N : FPU f32) (x : S) :
    hfE.flt N csH (fun _ => x) = N.sub half (N.add (N.sub x half) (N.mul x (rat N PP QQ (N.mul x x)))) := rfl
theorem csH_fin : (csH.all fun c => decide (f32.mag c < f32.infRep)) = true := by decide +kernel
theorem hfE_chk : IE.split (rg csH hfE (1 / 20) (9 / 10)) (1 / 4) [1 / 2, 5 / 8, 3 / 4, 13 / 16] (27 / 32) = true := by decide +kernel

def cs1 : List (BitVec f32.w) := PA ++ QA ++ [one, ERX]
def e1E : IE :=
  .sub (.sub (.cst 14) (.cst 15)) (.div (hp (.sub (.var 0) (.cst 14)) [0, 1, 2, 3, 4, 5, 6]) (hp (.sub (.var 0) (.cst 14)) [7, 8, 9, 10, 11, 12, 13]))
theorem e1E_flt (N : FPU f32) (x : S) : e1E.flt N cs1 (fun _ => f32.fabs x) = erfc1 N x := rfl
theorem cs1_fin : (cs1.all fun c => decide (f32.mag c < f32.infRep)) = true := by decide +kernel
theorem e1E_chk : IE.split (rg cs1 e1E (1 / 40) (1 / 2)) (27 / 32) [15 / 16, 1, 9 / 8] (5 / 4) = true := by decide +kernel

def csA : List (BitVec f32.w) := RA ++ SA ++ [one]
def sA : IE := .div (.cst 17) (.mul (.var 0) (.var 0))
def aE : IE := .div (hp sA [0, 1, 2, 3, 4, 5, 6, 7]) (hp sA [8, 9, 10, 11, 12, 13, 14, 15, 16])
theorem aE_flt (N : FPU f32) (x : S) : aE.flt N csA (fun _ => x) = rat N RA SA (N.div one (N.mul x x)) := rfl
theorem csA_fin : (csA.all fun c => decide (f32.mag c < f32.infRep)) = true := by decide +kernel
theorem aE_chk : IE.split (rg csA aE (-10) 0) (5 / 4) [3 / 2, 2] 3 = true := by decide +kernel

def csB : List (BitVec f32.w) := RB ++ SB ++ [one]
def sB : IE := .div (.cst 15) (.mul (.var 0) (.var 0))
def bE : IE := .div (hp sB [0, 1, 2, 3, 4, 5, 6]) (hp sB [7, 8, 9, 10, 11, 12, 13, 14])
theorem bE_flt (N : FPU f32) (x : S) : bE.flt N csB (fun _ => x) = rat N RB SB (N.div one (N.mul x x)) := rfl
theorem csB_fin : (csB.all fun c => decide (f32.mag c < f32.infRep)) = true := by decide +kernel
theorem bE_chk : IE.split (rg csB bE (-10) 0) 2 [3, 4, 6, 10] 28 = true := by decide +kernel

/-! ## the tail -/

theorem rd {v : ℝ} {r : S} (h : f32.Rounds v r) (h9 : |v| ≤ 1000) : ∃ u, GFv f32 r u ∧ |u - v| ≤ 1 / 10 ^ 4 := by
  obtain ⟨u, g, e⟩ := GFv.rnd big h (h9.trans (by norm_num))
  refine ⟨u, g, e.trans ?_⟩
  have : (1 : ℝ) / 2 ^ (f32.s + 1) * |v| ≤ 1 / 2 ^ (f32.s + 1) * 1000 := mul_le_mul_of_nonneg_left h9 (by positivity)
  rw [show f32.s + 1 = 24 from rfl] at *
  norm_num at this ⊢
  linarith

theorem bias32 : ((f32.bias : ℕ) : ℤ) = 127 := by decide +kernel

theorem nonneg_of {v u : ℝ} {r : S} (h : f32.Rounds v r) (g : GFv f32 r u) (hv : 0 ≤ v) : 0 ≤ u := by
  have := h.ge_of f32 f32.rp_zero (by rw [abs_zero]; positivity) hv
  rwa [g.val] at this

theorem le_one_of {v u : ℝ} {r : S} (h : f32.Rounds v r) (g : GFv f32 r u) (hv : v ≤ 1) : u ≤ 1 := by
  have := h.le_of f32 (g := 2 ^ (0 : ℤ)) (f32.rp_pow (by decide +kernel)) (by rw [abs_of_pos (by positivity), bias32]; exact zpow_le_zpow_right₀ (by norm_num) (by norm_num)) (by simpa using hv)
  rw [g.val] at this
  simpa using this

theorem le_two_of {v u : ℝ} {r : S} (h : f32.Rounds v r) (g : GFv f32 r u) (hv : v ≤ 2) : u ≤ 2 := by
  have := h.le_of f32 (g := 2 ^ (1 : ℤ)) (f32.rp_pow (by decide +kernel)) (by rw [abs_of_pos (by positivity), bias32]; exact zpow_le_zpow_right₀ (by norm_num) (by norm_num)) (by simpa using hv)
  rw [g.val] at this
  simpa using this

/-- `exp` of an argument below 1 -/
theorem exp_le (N : FPU f32) {t : S} {T : ℝ} (ht : GFv f32 t T) (h1 : T ≤ 1) :
    ∃ r R, Exp.F32.expf N t = .ok r ∧ GFv f32 r R ∧ 0 ≤ R ∧ R ≤ Real.exp T + 1 / 100 := by
  have e1 : Real.exp T ≤ 3 := (Real.exp_le_exp.mpr h1).trans (Real.exp_one_lt_d9.le.trans (by norm_num))
  obtain ⟨r, a, b, c, d⟩ := Props.C65_expf N ht.fin (by rw [ht.valQ]; exact lt_of_le_of_lt e1 (by
    refine lt_of_lt_of_le (b := (2 : ℝ) ^ (2 : ℤ)) (by norm_num) (zpow_le_zpow_right₀ (by norm_num) (by norm_num))))
  rw [ht.valQ, f32.valK_cast] at d
  refine ⟨r, _, a, GFv.self b, (GFv.self b).nonneg c, ?_⟩
  have h2 : (2 : ℝ) ^ (-150 : ℤ) ≤ 2 ^ (-10 : ℤ) := zpow_le_zpow_right₀ (by norm_num) (by norm_num)
  have h3 := (abs_le.mp d).2
  have h4 : (0.95 : ℝ) / 2 ^ 23 * Real.exp T ≤ 0.95 / 2 ^ 23 * 3 := mul_le_mul_of_nonneg_left e1 (by norm_num)
  norm_num at h2 h4 h3 ⊢
  linarith

theorem c5625_v : GFv f32 c5625 (9 / 16) := (GFv.const (q := 9 / 16) (by decide +kernel) (by decide +kernel)).cast (by norm_num)
theorem one_v : GFv f32 one 1 := (GFv.const (q := 1) (by decide +kernel) (by decide +kernel)).cast (by norm_num)
theorem two_v : GFv f32 two 2 := (GFv.const (q := 2) (by decide +kernel) (by decide +kernel)).cast (by norm_num)

/-- a comparison of the magnitude -/
theorem hi_lt {x : S} {X : ℝ} (hx : GFv f32 x X) (w : ℕ) {q : ℚ} (hc : f32.magVal ℚ w = q) : f32.mag x < w ↔ |X| < q := hx.mag_lt hc

theorem mask_shift (b : BitVec 32) : b &&& 0xffffe000#32 = (b >>> (13 : ℕ)) <<< (13 : ℕ) := by
  apply BitVec.eq_of_getLsbD_eq
  intro i hi
  interval_cases i <;> simp

theorem mask_mag (b : S) : f32.mag (mask b) = f32.mag b / 2 ^ 13 * 2 ^ 13 ∧ f32.sign (mask b) = f32.sign b := by
  have hb : b.toNat < 2 ^ 32 := b.isLt
  have e : mask b = (b >>> (13 : ℕ)) <<< (13 : ℕ) := mask_shift b
  constructor
  · rw [e]
    unfold Fmt.mag
    rw [BitVec.toNat_shiftLeft, BitVec.toNat_ushiftRight, Nat.shiftRight_eq_div_pow, Nat.shiftLeft_eq]
    show b.toNat / 2 ^ 13 * 2 ^ 13 % 2 ^ 32 % 2 ^ 31 = b.toNat % 2 ^ 31 / 2 ^ 13 * 2 ^ 13
    omega
  · rw [e]
    show BitVec.msb _ = BitVec.msb _
    rw [BitVec.msb_eq_decide, BitVec.msb_eq_decide, BitVec.toNat_shiftLeft, BitVec.toNat_ushiftRight, Nat.shiftRight_eq_div_pow, Nat.shiftLeft_eq]
    congr 1
    show (2 ^ 31 ≤ b.toNat / 2 ^ 13 * 2 ^ 13 % 2 ^ 32) = (2 ^ 31 ≤ b.toNat)
    rw [eq_iff_iff]; omega

theorem erfc2_spec (N : FPU f32) {x : S} {X : ℝ} (hx : GFv f32 x X) (h0 : 27 / 32 ≤ |X|) (h1 : |X| ≤ 28) :
    ∃ r R, erfc2 N (f32.mag x) x = .ok r ∧ GFv f32 r R ∧ 0 ≤ R ∧ R ≤ 3 / 4 := by
  have ha := hx.fabs
  unfold erfc2
  by_cases hc : f32.mag x < 0x3fa00000
  · rw [if_pos hc]
    rw [hi_lt hx 0x3fa00000 (q := 5 / 4) (by decide +kernel)] at hc
    obtain ⟨v, g, a, b⟩ := rg_sound N cs1_fin e1E_chk ha (by norm_num; exact h0) (by norm_num at hc ⊢; exact hc.le)
    rw [e1E_flt] at g
    norm_num at a b
    exact ⟨_, v, rfl, g, by linarith, by linarith⟩
  rw [if_neg hc]
  rw [hi_lt hx 0x3fa00000 (q := 5 / 4) (by decide +kernel), not_lt] at hc
  norm_num at hc
  obtain ⟨Q, gq, q0, q1⟩ : ∃ Q, GFv f32 (if f32.mag x < 0x4036db6d then rat N RA SA (N.div one (N.mul (f32.fabs x) (f32.fabs x)))
      else rat N RB SB (N.div one (N.mul (f32.fabs x) (f32.fabs x)))) Q ∧ -10 ≤ Q ∧ Q ≤ 0 := by
    by_cases hb : f32.mag x < 0x4036db6d
    · rw [if_pos hb]
      rw [hi_lt hx 0x4036db6d rfl] at hb
      obtain ⟨v, g, a, b⟩ := rg_sound N csA_fin aE_chk ha (by norm_num; exact hc)
        (hb.le.trans (Rat.cast_le.mpr (by decide +kernel)))
      rw [aE_flt] at g
      exact ⟨v, g, by norm_num at a; exact a, by norm_num at b; exact b⟩
    · rw [if_neg hb]
      rw [hi_lt hx 0x4036db6d rfl, not_lt] at hb
      obtain ⟨v, g, a, b⟩ := rg_sound N csB_fin bE_chk ha (le_trans (Rat.cast_le.mpr (by decide +kernel)) hb) (by norm_num; exact h1)
      rw [bE_flt] at g
      exact ⟨v, g, by norm_num at a; exact a, by norm_num at b; exact b⟩
  dsimp only
  generalize (if f32.mag x < 0x4036db6d then _ else _) = q at gq ⊢
  generalize f32.fabs x = y at ha ⊢
  generalize |X| = Y at ha hc h0 h1
  obtain ⟨Z, gz, ez, lz⟩ := Power.clear_all big ha (c := 13) (by decide) (mask_mag y).1 (mask_mag y).2
  generalize mask y = z at gz ⊢
  rw [abs_of_nonneg (show (0 : ℝ) ≤ Y by linarith)] at ez lz
  rw [abs_le] at ez lz
  rw [show f32.s - 13 = 10 from rfl] at ez
  norm_num at ez
  have z0 : 6 / 5 ≤ Z := by linarith [ez.2]
  have z1 : Z ≤ 28 := by linarith [lz.2]
  have z2 : |Z - Y| ≤ 1 / 36 := by rw [abs_le]; constructor <;> linarith [ez.1, ez.2]
  have zz0 : 36 / 25 ≤ Z * Z := by nlinarith
  have zz1 : Z * Z ≤ 784 := by nlinarith
  -- the first exponential
  obtain ⟨A, ga, ea⟩ := rd (gz.neg.mulR N gz) (by rw [abs_le]; constructor <;> nlinarith)
  rw [abs_le] at ea
  obtain ⟨B, gb, eb⟩ := rd (ga.subR N c5625_v) (by rw [abs_le]; constructor <;> linarith [ea.1, ea.2])
  rw [abs_le] at eb
  obtain ⟨r1, R1, x1, g1, p1, u1⟩ := exp_le N gb (by linarith [ea.2, eb.2])
  -- the second one
  obtain ⟨C, gc, ec⟩ := rd (gz.subR N ha) (by linarith)
  obtain ⟨E, ge, ee⟩ := rd (gz.addR N ha) (by rw [abs_le]; constructor <;> linarith)
  have c1 : |C| ≤ 1 / 35 := by rw [abs_le] at *; constructor <;> linarith [ec.1, ec.2, z2.1, z2.2]
  have e1 : |E| ≤ 57 := by rw [abs_le] at *; constructor <;> linarith [ee.1, ee.2]
  have ce : |C * E| ≤ 57 / 35 := by
    rw [abs_mul]
    calc |C| * |E| ≤ 1 / 35 * 57 := mul_le_mul c1 e1 (abs_nonneg _) (by norm_num)
      _ = 57 / 35 := by norm_num
  obtain ⟨G, gg, eg⟩ := rd (gc.mulR N ge) (by linarith)
  rw [abs_le] at ce eg
  have np : ∀ {v u : ℝ} {r : S}, f32.Rounds v r → GFv f32 r u → v ≤ 0 → u ≤ 0 := fun h g hv => by
    have := h.le_of f32 f32.rp_zero (by rw [abs_zero]; positivity) hv
    rwa [g.val] at this
  have g0 : G ≤ 0 := np (gc.mulR N ge) gg (mul_nonpos_of_nonpos_of_nonneg (np (gz.subR N ha) gc (by linarith [lz.2])) (nonneg_of (gz.addR N ha) ge (by linarith)))
  obtain ⟨H, gh, eh⟩ := rd (gg.addR N gq) (by rw [abs_le]; constructor <;> linarith [ce.1, ce.2, eg.1, eg.2])
  rw [abs_le] at eh
  obtain ⟨r2, R2, x2, g2, p2, u2⟩ := exp_le N gh (by linarith [eh.2])
  have b1 : Real.exp B ≤ 1 / 5 := by
    have : Real.exp B ≤ Real.exp (-2 : ℝ) := Real.exp_le_exp.mpr (by linarith [ea.2, eb.2])
    have h2 : Real.exp (-2 : ℝ) = (Real.exp 1 * Real.exp 1)⁻¹ := by rw [Real.exp_neg, ← Real.exp_add]; norm_num
    have h3 := Real.exp_one_gt_d9
    have h4 : (5 : ℝ) ≤ Real.exp 1 * Real.exp 1 := by nlinarith
    have h5 : (Real.exp 1 * Real.exp 1)⁻¹ ≤ 5⁻¹ := inv_anti₀ (by norm_num) h4
    rw [h2] at this; linarith
  have b2 : Real.exp H ≤ 14 / 5 := by
    have : Real.exp H ≤ Real.exp 1 := Real.exp_le_exp.mpr (by linarith [eh.2])
    linarith [Real.exp_one_lt_d9]
  have r1b : R1 ≤ 1 / 4 := by linarith
  have r2b : R2 ≤ 29 / 10 := by linarith
  have rr : R1 * R2 ≤ 29 / 40 := by
    calc R1 * R2 ≤ 1 / 4 * (29 / 10) := mul_le_mul r1b r2b p2 (by norm_num)
      _ = 29 / 40 := by norm_num
  have rr0 : 0 ≤ R1 * R2 := mul_nonneg p1 p2
  have hm := g1.mulR N g2
  obtain ⟨K, gk, ek⟩ := rd hm (by rw [abs_of_nonneg rr0]; linarith)
  have k0 := nonneg_of hm gk rr0
  rw [abs_le] at ek
  have hy : 0 < Y := by linarith
  have hd := gk.divR N ha hy.ne'
  have d0 : 0 ≤ K / Y := div_nonneg k0 hy.le
  have d1 : K / Y ≤ 29 / 40 := by rw [div_le_iff₀ hy]; nlinarith [ek.2]
  obtain ⟨R, gr, er⟩ := rd hd (by rw [abs_of_nonneg d0]; linarith)
  rw [abs_le] at er
  refine ⟨_, R, ?_, gr, nonneg_of hd gr d0, by linarith [er.2]⟩
  rw [x1]
  show (do let b ← Exp.F32.expf N _; pure _) = _
  rw [x2]
  rfl

end ErfF
end Verif
