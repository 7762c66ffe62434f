import Verif.Libm.Exp
import Verif.Libm.ExpRed
import Verif.Libm.RemPio2All
import Verif.Libm.TrigK
/-! # Accuracy of `exp` -/
namespace Verif
open Fmt
namespace Exp
open Pio2 Hypot

/-- `f64` value as a real -/
local notation "V" => Fmt.valK f64 ℝ

theorem big64 : f64.Big := Trig.big64

theorem toFv {x : D} {X : ℝ} (h : GFv f64 x X) : Fv x X := ⟨h.fin, h.val⟩

def cs : List D := [P1, P2, P3, P4, P5]
def pl : List ℚ := [f64.val P1, f64.val P2, f64.val P3, f64.val P4, f64.val P5]
open Ex in
def pEx : Ex :=
  let xx := mul (leaf 0) (leaf 0)
  sub (leaf 0) (mul xx (add (leaf 1) (mul xx (add (leaf 2) (mul xx (add (leaf 3) (mul xx (add (leaf 4) (mul xx (leaf 5))))))))))

theorem pl_pos {z : ℝ} (h0 : 0 ≤ z) (h1 : z ≤ 0.1203) : 0 ≤ Poly.ev pl z := by
  have h : Poly.chk (Poly.sub pl [1 / 6]) (1 / 6) 3 0 (1203 / 10000) = true := by decide +kernel
  have := Poly.chk_sound h (t := z) (by push_cast; exact h0) (by push_cast; norm_num at h1 ⊢; exact h1)
  rw [Poly.ev_sub] at this
  simp only [Poly.ev] at this ⊢
  rw [abs_le] at this
  push_cast at this
  linarith [this.1]

theorem polyC_spec (N : FPU f64) {x : D} {X : ℝ} (hx : GFv f64 x X) (hX : |X| ≤ 0.3467) :
    ∃ C, Ex.Holds f64 1 (polyC N x) C ⟨37 / 100, 3 / 10 / 2 ^ (f64.s + 1), false⟩ ∧ C ≤ 0.347 ∧
      |(Real.exp X - 1) * (2 - C) - 2 * X| ≤ 0.05 * (1 / 2 ^ (f64.s + 1)) := by
  have ht : (1 : ℝ) / 2 ^ 150 ≤ ((1 / 2 ^ 150 : ℚ) : ℝ) * 1 := by push_cast; norm_num
  have hl := Ex.cHolds (hx.holds (σ := 1) (A := 3467 / 10000) (sc := false) (by unfold Ex.sv; push_cast; norm_num at hX ⊢; exact hX)) (cs := cs)
    (by decide +kernel)
  have h1 := Ex.holds_of_errLe big64 N one_pos (le_refl 1) ht hl (p := pEx) (sc := false) (A := 37 / 100) (c := 3 / 10 / 2 ^ (f64.s + 1))
    (by decide +kernel)
  have hC : pEx.ideal (Ex.cVal X cs) = X - X * X * Poly.ev pl (X * X) := by
    simp only [pEx, Ex.ideal, Ex.cVal, cs, pl, Poly.ev, List.getD_cons_zero, List.getD_cons_succ]
    ring
  have hX' := hX
  rw [abs_le] at hX'
  have hXX : X * X ≤ 0.1203 := by
    have : |X| * |X| ≤ 0.3467 * 0.3467 := mul_le_mul hX hX (abs_nonneg _) (by norm_num)
    rw [abs_mul_abs_self] at this
    norm_num at *; linarith
  have hpos := pl_pos (mul_self_nonneg X) hXX
  refine ⟨_, h1, ?_, ?_⟩
  · rw [hC]
    have := mul_nonneg (mul_self_nonneg X) hpos
    norm_num at *
    linarith [hX'.2]
  · have hP : Poly.chk (Poly.expD pl) (12 / 100 / 2 ^ 53) 10 (-3467 / 10000) (3467 / 10000) = true := by decide +kernel
    have hA := h1.2.1
    have := Poly.exp_rat hP hX hC (by simp only [Ex.sv] at hA; push_cast at hA; norm_num at hA ⊢; linarith)
    refine this.trans ?_
    push_cast
    rw [s64]
    norm_num at hX ⊢
    linarith

theorem one_fv : GFv f64 one 1 := by
  have := GFv.const (F := f64) (b := one) (q := 1) (by decide +kernel) (by decide +kernel); simpa using this
theorem two_fv : GFv f64 two 2 := by
  have := GFv.const (F := f64) (b := two) (q := 2) (by decide +kernel) (by decide +kernel); simpa using this
theorem zero_fv : GFv f64 0#f64.w 0 := by
  have := GFv.const (F := f64) (b := 0#f64.w) (q := 0) (by decide +kernel) (by decide +kernel); simpa using this

/-- what is claimed of a result -/
def Good (z : D) (X : ℝ) : Prop :=
  f64.IsFin z ∧ f64.sign z = false ∧ |V z - Real.exp X| ≤ 1.9 / 2 ^ 53 * Real.exp X + 2 ^ (-1075 : ℤ)

/-- `e^x` does not overflow -/
def NoOver (X : ℝ) : Prop := Real.exp X * (1 + 1.9 / 2 ^ 53) < 2 ^ (1024 : ℤ)

theorem tail_spec (N : FPU f64) {x hi lo : D} {X H L R : ℝ} {k : ℤ} (hx : GFv f64 x X) (hhi : GFv f64 hi H) (hlo : GFv f64 lo L) (hX : |X| ≤ 0.3467)
    (hH : |H| ≤ 0.347) (hL : |L| ≤ 1 / 4096) (hδ : |H - L - X| ≤ 1 / 2 ^ (f64.s + 1) / 4) (hk : |k| ≤ 2000)
    (hr : |R - k * Real.log 2 - (H - L)| ≤ 1 / 2 ^ (f64.s + 1) / 1000) (hno : NoOver R) : Ok (tail N x hi lo k) fun z => Good z R := by
  obtain ⟨C, c1, c2, c3⟩ := polyC_spec N hx hX
  obtain ⟨Y, y1, y2, y3, y4⟩ := core big64 (Or.inr rfl) N hx hhi hlo one_fv two_fv c1 hX hH hL c2 c3 hδ hr
  unfold tail
  simp only
  rw [s64] at y2
  have e53 : (1.9 : ℝ) * (1 / 2 ^ (52 + 1)) = 1.9 / 2 ^ 53 := by norm_num
  rw [e53] at y2
  have eR : R - k * Real.log 2 + k * Real.log 2 = R := by ring
  split
  case isTrue h0 =>
    refine ⟨_, rfl, y1.fin, y1.sign_of_pos (by linarith), ?_⟩
    rw [y1.val]
    rw [h0] at y2
    simp only [Int.cast_zero, zero_mul, sub_zero] at y2
    have : (0 : ℝ) < 2 ^ (-1075 : ℤ) := by positivity
    linarith
  case isFalse h0 =>
    rw [abs_le] at hk
    obtain ⟨z, z1, z2, z3, z4⟩ := scaled big64 (by simp [Props.Std]) N (k := k) y1 (by linarith) (by omega) (by omega) y2 (by
      rw [eR, b64]; exact hno)
    rw [eR] at z4
    refine ⟨z, z1, z2, z3.trans (y1.sign_of_pos (by linarith)), ?_⟩
    rw [b64, s64] at z4
    exact z4

/-- the argument reduction -/
theorem red_spec (N : FPU f64) {x kd : D} {X : ℝ} {k : ℤ} (hx : GFv f64 x X) (hX : 1 / 4 ≤ |X|) (hX2 : |X| ≤ 746) (hkd : GFv f64 kd k)
    (hk : |X - k * Real.log 2| ≤ 0.34665) (hno : NoOver X) :
    Ok (tail N (N.sub (N.sub x (N.mul kd LN2HI)) (N.mul kd LN2LO)) (N.sub x (N.mul kd LN2HI)) (N.mul kd LN2LO) k) fun z => Good z X := by
  have hk2 : |(k : ℝ)| ≤ 1077 := by
    have l1 := ln2_lo
    have h1 : |k * Real.log 2| ≤ 746.35 := by
      have := abs_sub_abs_le_abs_sub (k * Real.log 2) X
      rw [abs_sub_comm (k * Real.log 2)] at this
      norm_num at *; linarith
    rw [abs_mul, abs_of_pos (show 0 < Real.log 2 by linarith)] at h1
    norm_num at *
    nlinarith [abs_nonneg (k : ℝ)]
  have hkZ : |k| ≤ 1077 := by exact_mod_cast hk2
  have hh := GFv.const (F := f64) (b := LN2HI) (q := _) (by decide +kernel) rfl
  have hl := GFv.const (F := f64) (b := LN2LO) (q := _) (by decide +kernel) rfl
  have c1 : f64.val LN2HI = 2977044471 / 2 ^ 32 := by decide +kernel
  have c2 : 0 ≤ f64.val LN2LO ∧ f64.val LN2LO ≤ 2 / 10 ^ 10 := by decide +kernel
  have c3 : |f64.val LN2HI + f64.val LN2LO - Poly.ln2L| ≤ 1 / 10 ^ 25 := by decide +kernel
  have c2a : (0 : ℝ) ≤ (f64.val LN2LO : ℚ) := by exact_mod_cast c2.1
  have c2b : ((f64.val LN2LO : ℚ) : ℝ) ≤ 2 / 10 ^ 10 := by
    have : ((f64.val LN2LO : ℚ) : ℝ) ≤ ((2 / 10 ^ 10 : ℚ) : ℝ) := Rat.cast_le.mpr c2.2
    push_cast at this; exact this
  have c3' : |((f64.val LN2HI : ℚ) : ℝ) + (f64.val LN2LO : ℚ) - Real.log 2| ≤ 2 / 10 ^ 25 := by
    have h1 : ((|f64.val LN2HI + f64.val LN2LO - Poly.ln2L| : ℚ) : ℝ) ≤ ((1 / 10 ^ 25 : ℚ) : ℝ) := Rat.cast_le.mpr c3
    push_cast at h1
    have h2 := Poly.ln2_gt
    have h3 := Poly.ln2_lt
    have h4 : ((Poly.ln2H : ℚ) : ℝ) - (Poly.ln2L : ℚ) ≤ 1 / 10 ^ 26 := by unfold Poly.ln2H Poly.ln2L; push_cast; norm_num
    rw [abs_le] at h1 ⊢
    norm_num at *
    constructor <;> linarith [h1.1, h1.2]
  have hkh : |(k : ℝ) * (f64.val LN2HI : ℚ)| ≤ 1077 := by
    rw [abs_mul, c1]
    have : |(((2977044471 / 2 ^ 32 : ℚ)) : ℝ)| ≤ 1 := by rw [abs_of_nonneg (by positivity)]; push_cast; norm_num
    nlinarith [abs_nonneg (k : ℝ), abs_nonneg (((2977044471 / 2 ^ 32 : ℚ)) : ℝ)]
  obtain ⟨H, L, X', r1, r2, r3, r4, r5, r6, r7, r8⟩ := reduce big64 (le_refl _) N hx hkd hh hl hX (jh := -32)
    ⟨2977044471, by rw [c1]; push_cast; norm_num⟩ (by rw [s64]; norm_num) (by rw [s64]; norm_num; norm_num at hkh; linarith) (by linarith) hk (by
      rw [abs_mul, abs_of_nonneg c2a]
      norm_num at *
      nlinarith [abs_nonneg (k : ℝ)]) (by
      rw [s64]
      have := mul_le_mul hk2 c3' (abs_nonneg _) (by norm_num)
      refine this.trans ?_
      norm_num)
  exact tail_spec N r3 r1 r2 r4 r5 r6 r7 (by omega) r8 hno

theorem sign_bit (x : D) : (x.toNat >>> 32) >>> 31 = if f64.sign x then 1 else 0 := by
  have hxlt : x.toNat < 2 ^ 64 := x.isLt
  have : f64.sign x = true ↔ 2 ^ 64 ≤ 2 * x.toNat := by
    show x.msb = true ↔ _
    rw [BitVec.msb_eq_true_iff_two_mul_ge]; rfl
  rw [Nat.shiftRight_eq_div_pow, Nat.shiftRight_eq_div_pow]
  split <;> rename_i h
  · have := this.mp h; omega
  · have := mt this.mpr h; omega

/-- the main part: no special case -/
theorem exp_main (N : FPU f64) {x : D} {X : ℝ} (hx : GFv f64 x X) (hX2 : |X| ≤ 746) (hs : special N x (Pio2.hi x) = none) (hno : NoOver X) :
    Ok (exp N x) fun z => Good z X := by
  have l1 := ln2_lo
  have l2 := ln2_hi
  have hfv := toFv hx
  unfold exp
  have hdef : (x.toNat >>> 32 &&& 0x7fffffff) = Pio2.hi x := rfl
  simp only [hdef, hs]
  split
  case isTrue h1 =>
    have hX1 : 0.3465 ≤ |X| := by
      by_contra hc
      have := (hi_lt hfv (c := 0x3fd62e42) (q := 0x162e42 / 2 ^ 22) (by decide +kernel)).mpr (by
        push_cast; norm_num at hc ⊢; linarith)
      omega
    have hk : ∃ k : ℤ, pickK N x (Pio2.hi x) ((x.toNat >>> 32) >>> 31) = .ok k ∧
        |X - k * Real.log 2| ≤ 0.34665 := by
      rw [sign_bit]
      unfold pickK
      split
      case isTrue h2 =>
        have hi' := GFv.const (F := f64) (b := INVLN2) (q := _) (by decide +kernel) rfl
        have c1 : 0 ≤ f64.val INVLN2 ∧ f64.val INVLN2 ≤ 3 / 2 := by decide +kernel
        have c2 : |f64.val INVLN2 * Poly.ln2L - 1| ≤ 1 / 10 ^ 9 := by decide +kernel
        have c1a : (0 : ℝ) ≤ (f64.val INVLN2 : ℚ) := by exact_mod_cast c1.1
        have c1b : ((f64.val INVLN2 : ℚ) : ℝ) ≤ 3 / 2 := by
          have : ((f64.val INVLN2 : ℚ) : ℝ) ≤ ((3 / 2 : ℚ) : ℝ) := Rat.cast_le.mpr c1.2
          push_cast at this; exact this
        have c2' : |((f64.val INVLN2 : ℚ) : ℝ) * Real.log 2 - 1| ≤ 2 / 10 ^ 9 := by
          have h1 : ((|f64.val INVLN2 * Poly.ln2L - 1| : ℚ) : ℝ) ≤ ((1 / 10 ^ 9 : ℚ) : ℝ) := Rat.cast_le.mpr c2
          push_cast at h1
          have h2 := Poly.ln2_gt
          have h3 := Poly.ln2_lt
          have h4 : ((Poly.ln2H : ℚ) : ℝ) - (Poly.ln2L : ℚ) ≤ 1 / 10 ^ 26 := by unfold Poly.ln2H Poly.ln2L; push_cast; norm_num
          rw [abs_le] at h1 ⊢
          norm_num at *
          constructor <;> nlinarith [h1.1, h1.2]
        have hv1 : |((f64.val INVLN2 : ℚ) : ℝ) * X * Real.log 2 - X| ≤ 1 / 100000 := by
          rw [show ((f64.val INVLN2 : ℚ) : ℝ) * X * Real.log 2 - X = (((f64.val INVLN2 : ℚ) : ℝ) * Real.log 2 - 1) * X by ring, abs_mul]
          have := mul_le_mul c2' hX2 (abs_nonneg _) (by norm_num)
          refine this.trans ?_
          norm_num
        have hv2 : |X| * (1 / 2 ^ (f64.s + 1)) ≤ 1 / 100000 := by
          rw [s64]; norm_num; linarith
        cases hsg : f64.sign x
        · have hh : GFv f64 (half 0) (1 / 2) := by
            have := GFv.const (F := f64) (b := half 0) (q := 1 / 2) (by decide +kernel) (by decide +kernel); push_cast at this; exact this
          obtain ⟨r, hr, hr2⟩ := kpick big64 N ⟨by simp, by simp⟩ hx hi' hh (Or.inl ⟨hx.nonneg hsg, rfl⟩) (by linarith) c1a c1b hv1 hv2
          refine ⟨r.toInt, ?_, hr2⟩
          simp only [Bool.false_eq_true, if_false, rd]
          unfold toI32
          simp only [show (0 : ℕ) < 2 by norm_num, if_true, ok_bind]
          rw [hr]; rfl
        · have hh : GFv f64 (half 1) (-(1 / 2)) := by
            have := GFv.const (F := f64) (b := half 1) (q := -(1 / 2)) (by decide +kernel) (by decide +kernel); push_cast at this; exact this
          obtain ⟨r, hr, hr2⟩ := kpick big64 N ⟨by simp, by simp⟩ hx hi' hh (Or.inr ⟨hx.nonpos hsg, rfl⟩) (by linarith) c1a c1b hv1 hv2
          refine ⟨r.toInt, ?_, hr2⟩
          simp only [if_true, rd]
          unfold toI32
          simp only [show (1 : ℕ) < 2 by norm_num, if_true, ok_bind]
          rw [hr]; rfl
      case isFalse h2 =>
        have hX3 := (hi_lt hfv (c := 0x3ff0a2b2) (q := 0x10a2b2 / 2 ^ 20) (by decide +kernel)).mp (by omega)
        push_cast at hX3
        refine ⟨_, rfl, ?_⟩
        cases hsg : f64.sign x
        · have h0 := hx.nonneg hsg
          rw [abs_of_nonneg h0] at hX1 hX3
          simp only [Bool.false_eq_true, if_false]
          push_cast
          rw [abs_le]
          norm_num at *
          constructor <;> linarith
        · have h0 := hx.nonpos hsg
          rw [abs_of_nonpos h0] at hX1 hX3
          simp only [if_true]
          push_cast
          rw [abs_le]
          norm_num at *
          constructor <;> linarith
    obtain ⟨k, hk1, hk2⟩ := hk
    have hkb : |(k : ℝ)| ≤ 1077 := by
      have h1 : |k * Real.log 2| ≤ 746.35 := by
        have := abs_sub_abs_le_abs_sub (k * Real.log 2) X
        rw [abs_sub_comm (k * Real.log 2)] at this
        norm_num at *; linarith
      rw [abs_mul, abs_of_pos (show 0 < Real.log 2 by linarith)] at h1
      norm_num at *
      nlinarith [abs_nonneg (k : ℝ)]
    have hkZ : |k| ≤ 1077 := by exact_mod_cast hkb
    rw [abs_le] at hkZ
    obtain ⟨kd, hkd, hkd2⟩ := ofI32_spec (k := k) (by omega) (by omega)
    rw [hk1, ok_bind, hkd, ok_bind]
    exact red_spec N hx (by norm_num at hX1 ⊢; linarith) hX2 ⟨hkd2.fin, hkd2.val⟩ hk2 hno
  case isFalse h1 =>
    split
    case isTrue h2 =>
      have hX3 := (hi_lt hfv (c := 0x3fd62e43) (q := 0x162e43 / 2 ^ 22) (by decide +kernel)).mp (by omega)
      push_cast at hX3
      norm_num at hX3
      refine tail_spec N hx hx zero_fv (by norm_num; linarith) (by norm_num; linarith) (by norm_num) (by rw [sub_zero, sub_self]; simp; positivity) (by norm_num) ?_ hno
      push_cast
      simp
      positivity
    case isFalse h2 =>
      have hX3 := (hi_lt hfv (c := 0x3e300001) (q := 0x100001 / 2 ^ 48) (by decide +kernel)).mp (by omega)
      push_cast at hX3
      norm_num at hX3
      have hR := one_fv.addR N hx
      have hX4 : |X| ≤ 1 / 2 ^ 27 := by norm_num; linarith
      have hb : |1 + X| ≤ 2 ^ (1 : ℤ) := by
        have := abs_add_le 1 X
        norm_num at *
        linarith
      have he := hR.err f64 (k := 1) hb (by rw [b64]; norm_num) (by rw [b64]; norm_num)
      have hf := hR.fin100 big64 (hb.trans (zpow_le_zpow_right₀ (by norm_num) (by norm_num)))
      have hη := Real.abs_exp_sub_one_sub_id_le (x := X) (by norm_num at hX4 ⊢; linarith)
      have hη2 : |Real.exp X - 1 - X| ≤ 1 / 2 ^ 54 := by
        refine hη.trans ?_
        rw [← sq_abs]
        calc |X| ^ 2 ≤ (1 / 2 ^ 27) ^ 2 := pow_le_pow_left₀ (abs_nonneg _) hX4 2
          _ = _ := by norm_num
      have he2 : |V (N.add one x) - (1 + X)| ≤ 1 / 2 ^ 53 := by
        refine he.trans (le_of_eq ?_)
        rw [s64]; norm_num
      have hE : 0.99 ≤ Real.exp X := by
        have := Real.add_one_le_exp X
        rw [abs_le] at hX4
        norm_num at *
        linarith [hX4.1]
      have hlow : (1 : ℝ) / 2 ≤ V (N.add one x) := by
        rw [abs_le] at hX4 he2
        norm_num at *
        linarith [hX4.1, he2.1]
      refine ⟨_, rfl, hf, GFv.sign_of_pos (GFv.self hf) (by linarith), ?_⟩
      have := abs_sub (V (N.add one x) - (1 + X)) (Real.exp X - 1 - X)
      rw [show V (N.add one x) - (1 + X) - (Real.exp X - 1 - X) = V (N.add one x) - Real.exp X by ring] at this
      have hp : (0 : ℝ) < 2 ^ (-1075 : ℤ) := by positivity
      generalize (2 : ℝ) ^ (-1075 : ℤ) = T at *
      norm_num at *
      linarith

theorem over_fv : GFv f64 OVER (f64.val OVER : ℚ) := GFv.const (by decide +kernel) rfl
theorem und2_fv : GFv f64 UND2 (f64.val UND2 : ℚ) := GFv.const (by decide +kernel) rfl

/-- the largest argument whose exponential is finite -/
theorem no_over {X : ℝ} (h : X ≤ (f64.val OVER : ℚ)) : NoOver X := by
  unfold NoOver
  have c : f64.val OVER ≤ 1024 * Poly.ln2L - 2 / 10 ^ 14 := by decide +kernel
  have c' : ((f64.val OVER : ℚ) : ℝ) ≤ 1024 * (Poly.ln2L : ℚ) - 2 / 10 ^ 14 := by
    have := Rat.cast_le (K := ℝ).mpr c; push_cast at this; exact this
  have h2 := Poly.ln2_gt
  have hX : X ≤ - (2 / 10 ^ 14) + ((1024 : ℤ) : ℝ) * Real.log 2 := by push_cast; linarith
  have h3 : Real.exp X ≤ Real.exp (-(2 / 10 ^ 14)) * 2 ^ (1024 : ℤ) := by
    rw [← exp_add_log]; exact Real.exp_le_exp.mpr hX
  have h4 : Real.exp (-(2 / 10 ^ 14)) ≤ 1 - 1 / 10 ^ 14 := by
    have := Real.abs_exp_sub_one_sub_id_le (x := -(2 / 10 ^ 14)) (by rw [abs_neg, abs_of_pos] <;> norm_num)
    rw [abs_le] at this
    norm_num at *
    linarith [this.2]
  have hp : (0 : ℝ) < 2 ^ (1024 : ℤ) := by positivity
  generalize (2 : ℝ) ^ (1024 : ℤ) = T at *
  have h5 : Real.exp X ≤ (1 - 1 / 10 ^ 14) * T := h3.trans (mul_le_mul_of_nonneg_right h4 hp.le)
  norm_num at *
  nlinarith

theorem special_none {N : FPU f64} {x : D} {X : ℝ} (hx : GFv f64 x X) (h1 : X ≤ (f64.val OVER : ℚ)) (h2 : ((f64.val UND2 : ℚ) : ℝ) ≤ X) :
    special N x (Pio2.hi x) = none := by
  unfold special
  have e1 : f64.isNan x = false := by
    rw [← Bool.not_eq_true, f64.isNan_iff]; exact hx.not_nan
  have e2 : f64.gt x OVER = false := by
    rw [← Bool.not_eq_true, hx.gt_iff over_fv]; linarith
  have e3 : f64.lt x UND2 = false := by
    rw [← Bool.not_eq_true, hx.lt_iff und2_fv]; linarith
  simp [e1, e2, e3]

/-- `exp` of a finite number that is not too large -/
theorem exp_fin (N : FPU f64) {x : D} {X : ℝ} (hx : GFv f64 x X) (h1 : X ≤ (f64.val OVER : ℚ)) : Ok (exp N x) fun z => Good z X := by
  have c1 : f64.val OVER ≤ 746 ∧ -746 ≤ f64.val UND2 := by decide +kernel
  have c1a : ((f64.val OVER : ℚ) : ℝ) ≤ 746 := by exact_mod_cast c1.1
  have c1b : (-746 : ℝ) ≤ (f64.val UND2 : ℚ) := by exact_mod_cast c1.2
  rcases lt_or_ge X (f64.val UND2 : ℚ) with h2 | h2
  · -- underflow
    have hhi : 0x4086232b ≤ Pio2.hi x := by
      by_contra hc
      have := (hi_lt (toFv hx) (c := 0x4086232b) (q := 0x16232b / 2 ^ 11) (by decide +kernel)).mp (by omega)
      have c2 : f64.val UND2 ≤ -709 := by decide +kernel
      have c2' : ((f64.val UND2 : ℚ) : ℝ) ≤ -709 := by exact_mod_cast c2
      rw [abs_lt] at this
      push_cast at this
      norm_num at this
      linarith [this.1]
    have hs : special N x (Pio2.hi x) = some 0#f64.w := by
      unfold special
      have e1 : f64.isNan x = false := by
        rw [← Bool.not_eq_true, f64.isNan_iff]; exact hx.not_nan
      have e2 : f64.gt x OVER = false := by
        rw [← Bool.not_eq_true, hx.gt_iff over_fv]; linarith
      have e3 : f64.lt x UND2 = true := (hx.lt_iff und2_fv).mpr h2
      have e4 : f64.lt x UND1 = true := by
        refine (hx.lt_iff (b := UND1) (w := (f64.val UND1 : ℚ)) (GFv.const (by decide +kernel) rfl)).mpr (h2.trans ?_)
        have : f64.val UND2 < f64.val UND1 := by decide +kernel
        exact_mod_cast this
      simp [e1, e2, e3, e4, hhi]
    unfold exp
    have hdef : (x.toNat >>> 32 &&& 0x7fffffff) = Pio2.hi x := rfl
    simp only [hdef, hs]
    refine ⟨_, rfl, zero_fv.fin, by decide +kernel, ?_⟩
    rw [zero_fv.val]
    -- the next number below the bound
    have hg : X ≤ (f64.val UND2 : ℚ) - 1 / 2 ^ 43 := by
      have c2 : f64.val UND2 ≤ -512 := by decide +kernel
      have c2' : ((f64.val UND2 : ℚ) : ℝ) ≤ -512 := by exact_mod_cast c2
      have := f64.gap_ge (b := f64.neg UND2) (c := f64.neg x) (k := 9) (by
        rw [f64.valK_neg, und2_fv.val]; norm_num; linarith) (by
        rw [f64.valK_neg, f64.valK_neg, und2_fv.val, hx.val]; linarith)
      rw [f64.valK_neg, f64.valK_neg, und2_fv.val, hx.val, s64] at this
      norm_num at this ⊢
      linarith
    have c3 : f64.val UND2 - 1 / 2 ^ 43 ≤ -1075 * Poly.ln2H := by decide +kernel
    have c3' : ((f64.val UND2 : ℚ) : ℝ) - 1 / 2 ^ 43 ≤ -1075 * (Poly.ln2H : ℚ) := by
      have := Rat.cast_le (K := ℝ).mpr c3; push_cast at this; exact this
    have h3 := Poly.ln2_lt
    have hE : Real.exp X ≤ 2 ^ (-1075 : ℤ) := by
      have : X ≤ 0 + ((-1075 : ℤ) : ℝ) * Real.log 2 := by push_cast; linarith
      have := Real.exp_le_exp.mpr this
      rwa [exp_add_log, Real.exp_zero, one_mul] at this
    have hE0 := Real.exp_pos X
    rw [zero_sub, abs_neg, abs_of_pos hE0]
    have : 0 ≤ 1.9 / 2 ^ 53 * Real.exp X := by positivity
    linarith
  · have hX2 : |X| ≤ 746 := by rw [abs_le]; constructor <;> linarith
    exact exp_main N hx hX2 (special_none hx h1 h2) (no_over h1)

/-- `exp` of a larger number -/
theorem exp_big (N : FPU f64) {x : D} {X : ℝ} (hx : GFv f64 x X) (h1 : (f64.val OVER : ℚ) < X) :
    (Ok (exp N x) fun z => f64.IsInf z ∧ f64.sign z = false) ∧ 2 ^ (1024 : ℤ) ≤ Real.exp X := by
  have c2 : 512 ≤ f64.val OVER ∧ 709 ≤ f64.val OVER := by decide +kernel
  have c2' : (512 : ℝ) ≤ (f64.val OVER : ℚ) := by exact_mod_cast c2.1
  have c2'' : (709 : ℝ) ≤ (f64.val OVER : ℚ) := by exact_mod_cast c2.2
  constructor
  · have hhi : 0x4086232b ≤ Pio2.hi x := by
      by_contra hc
      have := (hi_lt (toFv hx) (c := 0x4086232b) (q := 0x16232b / 2 ^ 11) (by decide +kernel)).mp (by omega)
      rw [abs_lt] at this
      push_cast at this
      norm_num at this
      linarith [this.2]
    have hs : special N x (Pio2.hi x) = some (N.mul x x1p1023) := by
      unfold special
      have e1 : f64.isNan x = false := by
        rw [← Bool.not_eq_true, f64.isNan_iff]; exact hx.not_nan
      have e2 : f64.gt x OVER = true := (hx.gt_iff over_fv).mpr h1
      simp [e1, e2, hhi]
    unfold exp
    have hdef : (x.toNat >>> 32 &&& 0x7fffffff) = Pio2.hi x := rfl
    simp only [hdef, hs]
    refine ⟨_, rfl, ?_⟩
    have hp : GFv f64 x1p1023 (2 ^ (1023 : ℤ)) := by
      have := GFv.const (F := f64) (b := x1p1023) (q := 2 ^ (1023 : ℤ)) (by decide +kernel) (by decide +kernel)
      push_cast at this; exact this
    refine (hx.mulR N hp).over ?_
    rw [b64, show ((1023 : ℕ) : ℤ) + 1 = 1 + 1023 by norm_num, zpow_add₀ (by norm_num)]
    refine mul_le_mul_of_nonneg_right ?_ (by positivity)
    norm_num
    linarith
  · have := f64.gap_ge (b := OVER) (c := x) (k := 9) (by
      rw [over_fv.val]; norm_num; linarith) (by rw [over_fv.val, hx.val]; linarith)
    rw [over_fv.val, hx.val, s64] at this
    norm_num at this
    have c3 : 1024 * Poly.ln2H ≤ f64.val OVER + 1 / 2 ^ 43 := by decide +kernel
    have c3' : 1024 * ((Poly.ln2H : ℚ) : ℝ) ≤ (f64.val OVER : ℚ) + 1 / 2 ^ 43 := by
      have := Rat.cast_le (K := ℝ).mpr c3; push_cast at this; exact this
    have h3 := Poly.ln2_lt
    norm_num at c3'
    have : 0 + ((1024 : ℤ) : ℝ) * Real.log 2 ≤ X := by push_cast; linarith
    have := Real.exp_le_exp.mpr this
    rwa [exp_add_log, Real.exp_zero, one_mul] at this

/-- infinities and NaN -/
theorem exp_special (N : FPU f64) (x : D) :
    (f64.IsNaN x → exp N x = .ok x) ∧ (f64.IsInf x → f64.sign x = false → Ok (exp N x) fun z => f64.IsInf z ∧ f64.sign z = false) ∧
    (f64.IsInf x → f64.sign x = true → exp N x = .ok 0#f64.w) := by
  have hhi : f64.infRep ≤ f64.mag x → 0x4086232b ≤ Pio2.hi x := by
    intro h
    rw [Pio2.hi_eq]
    have : f64.infRep = 0x7ff0000000000000 := by decide
    omega
  have hdef : (x.toNat >>> 32 &&& 0x7fffffff) = Pio2.hi x := rfl
  refine ⟨fun h => ?_, fun h hs => ?_, fun h hs => ?_⟩
  · have h4 := hhi (le_of_lt h)
    unfold exp special
    simp only [hdef]
    simp [h4, (f64.isNan_iff x).mpr h]
  · have h4 := hhi (le_of_eq h.symm)
    have e1 : f64.isNan x = false := by
      rw [← Bool.not_eq_true, f64.isNan_iff]; unfold Fmt.IsNaN; unfold Fmt.IsInf at h; omega
    have hsm : f64.smag x = f64.infRep := by unfold Fmt.smag; rw [hs]; unfold Fmt.IsInf at h; simp [h]
    have e2 : f64.gt x OVER = true := by
      rw [f64.gt_iff, hsm]
      exact ⟨by rw [← f64.isNan_iff, e1]; simp, over_fv.not_nan, by decide +kernel⟩
    unfold exp special
    simp only [hdef, h4, e1, e2, if_true]
    refine ⟨_, rfl, ?_⟩
    have := (N.mul_spec x x1p1023).2.2 (by rw [← f64.isNan_iff, e1]; simp) (by rw [← f64.isNan_iff]; decide +kernel) (Or.inl h)
    rw [if_neg] at this
    · rw [hs] at this; exact ⟨this.1, this.2.trans (by decide +kernel)⟩
    · rintro (h5 | h5)
      · unfold Fmt.IsZero at h5; unfold Fmt.IsInf at h; rw [h5] at h; exact absurd h (by decide)
      · revert h5; unfold Fmt.IsZero; decide +kernel
  · have h4 := hhi (le_of_eq h.symm)
    have e1 : f64.isNan x = false := by
      rw [← Bool.not_eq_true, f64.isNan_iff]; unfold Fmt.IsNaN; unfold Fmt.IsInf at h; omega
    have hsm : f64.smag x = -f64.infRep := by unfold Fmt.smag; rw [hs]; unfold Fmt.IsInf at h; simp [h]
    have hn : ¬ f64.IsNaN x := by rw [← f64.isNan_iff, e1]; simp
    have e2 : f64.gt x OVER = false := by
      rw [← Bool.not_eq_true, f64.gt_iff, hsm]
      rintro ⟨_, _, h6⟩
      revert h6; decide +kernel
    have e3 : f64.lt x UND1 = true := by
      rw [f64.lt_iff, hsm]
      exact ⟨hn, by rw [← f64.isNan_iff]; decide +kernel, by decide +kernel⟩
    have e4 : f64.lt x UND2 = true := by
      rw [f64.lt_iff, hsm]
      exact ⟨hn, und2_fv.not_nan, by decide +kernel⟩
    unfold exp special
    simp [hdef, h4, e1, e2, e3, e4]
end Exp
end Verif
