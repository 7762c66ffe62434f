import Verif.Libm.Exp
import Verif.Libm.ExpRed
/-! # Accuracy of `expf` -/
namespace Verif
open Fmt
namespace Exp
namespace F32
open Pio2

/-- `f32` value as a real -/
local notation "V" => Fmt.valK f32 ℝ

theorem b32 : f32.bias = 127 := by decide
theorem s32 : f32.s = 23 := rfl
theorem big32 : f32.Big := ⟨by rw [b32], by rw [s32]⟩

def cs : List S := [P1, P2]
def pl : List ℚ := [f32.val P1, f32.val P2]
open Ex in
def pEx : Ex :=
  let xx := mul (leaf 0) (leaf 0)
  sub (leaf 0) (mul xx (add (leaf 1) (mul xx (leaf 2))))

theorem pl_pos {z : ℝ} (h0 : 0 ≤ z) (h1 : z ≤ 0.1203) : 0 ≤ Poly.ev pl z := by
  have h : Poly.chk (Poly.sub pl [1 / 6]) (1 / 6) 3 0 (1203 / 10000) = true := by decide +kernel
  have := Poly.chk_sound h (t := z) (by push_cast; exact h0) (by push_cast; norm_num at h1 ⊢; exact h1)
  rw [Poly.ev_sub] at this
  simp only [Poly.ev] at this ⊢
  rw [abs_le] at this
  push_cast at this
  linarith [this.1]

theorem polyC_spec (N : FPU f32) {x : S} {X : ℝ} (hx : GFv f32 x X) (hX : |X| ≤ 0.3467) :
    ∃ C, Ex.Holds f32 1 (polyC N x) C ⟨37 / 100, 3 / 10 / 2 ^ (f32.s + 1), false⟩ ∧ C ≤ 0.347 ∧
      |(Real.exp X - 1) * (2 - C) - 2 * X| ≤ 0.05 * (1 / 2 ^ (f32.s + 1)) := by
  have ht : (1 : ℝ) / 2 ^ 150 ≤ ((1 / 2 ^ 150 : ℚ) : ℝ) * 1 := by push_cast; norm_num
  have hl := Ex.cHolds (hx.holds (σ := 1) (A := 3467 / 10000) (sc := false) (by unfold Ex.sv; push_cast; norm_num at hX ⊢; exact hX)) (cs := cs)
    (by decide +kernel)
  have h1 := Ex.holds_of_errLe big32 N one_pos (le_refl 1) ht hl (p := pEx) (sc := false) (A := 37 / 100) (c := 3 / 10 / 2 ^ (f32.s + 1))
    (by decide +kernel)
  have hC : pEx.ideal (Ex.cVal X cs) = X - X * X * Poly.ev pl (X * X) := by
    simp only [pEx, Ex.ideal, Ex.cVal, cs, pl, Poly.ev, List.getD_cons_zero, List.getD_cons_succ]
    ring
  have hX' := hX
  rw [abs_le] at hX'
  have hXX : X * X ≤ 0.1203 := by
    have : |X| * |X| ≤ 0.3467 * 0.3467 := mul_le_mul hX hX (abs_nonneg _) (by norm_num)
    rw [abs_mul_abs_self] at this
    norm_num at *; linarith
  have hpos := pl_pos (mul_self_nonneg X) hXX
  refine ⟨_, h1, ?_, ?_⟩
  · rw [hC]
    have := mul_nonneg (mul_self_nonneg X) hpos
    norm_num at *
    linarith [hX'.2]
  · have hP : Poly.chk (Poly.expD pl) (12 / 100 / 2 ^ 24) 10 (-3467 / 10000) (3467 / 10000) = true := by decide +kernel
    have hA := h1.2.1
    have := Poly.exp_rat hP hX hC (by simp only [Ex.sv] at hA; push_cast at hA; norm_num at hA ⊢; linarith)
    refine this.trans ?_
    push_cast
    rw [s32]
    norm_num at hX ⊢
    linarith

theorem one_fv : GFv f32 one 1 := by
  have := GFv.const (F := f32) (b := one) (q := 1) (by decide +kernel) (by decide +kernel); simpa using this
theorem two_fv : GFv f32 two 2 := by
  have := GFv.const (F := f32) (b := two) (q := 2) (by decide +kernel) (by decide +kernel); simpa using this
theorem zero_fv : GFv f32 0#f32.w 0 := by
  have := GFv.const (F := f32) (b := 0#f32.w) (q := 0) (by decide +kernel) (by decide +kernel); simpa using this

/-- what is claimed of a result -/
def Good (z : S) (X : ℝ) : Prop :=
  f32.IsFin z ∧ f32.sign z = false ∧ |V z - Real.exp X| ≤ 1.9 / 2 ^ 24 * Real.exp X + 2 ^ (-150 : ℤ)

/-- `e^x` does not overflow -/
def NoOver (X : ℝ) : Prop := Real.exp X * (1 + 1.9 / 2 ^ 24) < 2 ^ (128 : ℤ)

theorem tail_spec (N : FPU f32) {x hi lo : S} {X H L R : ℝ} {k : ℤ} (hx : GFv f32 x X) (hhi : GFv f32 hi H) (hlo : GFv f32 lo L) (hX : |X| ≤ 0.3467)
    (hH : |H| ≤ 0.347) (hL : |L| ≤ 1 / 4096) (hδ : |H - L - X| ≤ 1 / 2 ^ (f32.s + 1) / 4) (hk : |k| ≤ 2000)
    (hr : |R - k * Real.log 2 - (H - L)| ≤ 1 / 2 ^ (f32.s + 1) / 1000) (hno : NoOver R) : Ok (tail N x hi lo k) fun z => Good z R := by
  obtain ⟨C, c1, c2, c3⟩ := polyC_spec N hx hX
  obtain ⟨Y, y1, y2, y3, y4⟩ := core big32 (Or.inl rfl) N hx hhi hlo one_fv two_fv c1 hX hH hL c2 c3 hδ hr
  unfold tail
  simp only
  rw [s32] at y2
  have e53 : (1.9 : ℝ) * (1 / 2 ^ (23 + 1)) = 1.9 / 2 ^ 24 := by norm_num
  rw [e53] at y2
  have eR : R - k * Real.log 2 + k * Real.log 2 = R := by ring
  split
  case isTrue h0 =>
    refine ⟨_, rfl, y1.fin, y1.sign_of_pos (by linarith), ?_⟩
    rw [y1.val]
    rw [h0] at y2
    simp only [Int.cast_zero, zero_mul, sub_zero] at y2
    have : (0 : ℝ) < 2 ^ (-150 : ℤ) := by positivity
    linarith
  case isFalse h0 =>
    rw [abs_le] at hk
    obtain ⟨z, z1, z2, z3, z4⟩ := scaled big32 (by simp [Props.Std]) N (k := k) y1 (by linarith) (by omega) (by omega) y2 (by
      rw [eR, b32]; exact hno)
    rw [eR] at z4
    refine ⟨z, z1, z2, z3.trans (y1.sign_of_pos (by linarith)), ?_⟩
    rw [b32, s32] at z4
    exact z4

/-- the argument reduction -/
theorem red_spec (N : FPU f32) {x kd : S} {X : ℝ} {k : ℤ} (hx : GFv f32 x X) (hX : 1 / 4 ≤ |X|) (hk2 : |(k : ℝ)| ≤ 151) (hkd : GFv f32 kd k)
    (hk : |X - k * Real.log 2| ≤ 0.34665) (hno : NoOver X) :
    Ok (tail N (N.sub (N.sub x (N.mul kd LN2_HI)) (N.mul kd LN2_LO)) (N.sub x (N.mul kd LN2_HI)) (N.mul kd LN2_LO) k) fun z => Good z X := by
  have hkZ : |k| ≤ 151 := by exact_mod_cast hk2
  have hh := GFv.const (F := f32) (b := LN2_HI) (q := _) (by decide +kernel) rfl
  have hl := GFv.const (F := f32) (b := LN2_LO) (q := _) (by decide +kernel) rfl
  have c1 : f32.val LN2_HI = 22713 / 2 ^ 15 := by decide +kernel
  have c2 : 0 ≤ f32.val LN2_LO ∧ f32.val LN2_LO ≤ 143 / 10 ^ 8 := by decide +kernel
  have c3 : |f32.val LN2_HI + f32.val LN2_LO - Poly.ln2L| ≤ 10 / 10 ^ 14 := by decide +kernel
  have c2a : (0 : ℝ) ≤ (f32.val LN2_LO : ℚ) := by exact_mod_cast c2.1
  have c2b : ((f32.val LN2_LO : ℚ) : ℝ) ≤ 143 / 10 ^ 8 := by
    have : ((f32.val LN2_LO : ℚ) : ℝ) ≤ ((143 / 10 ^ 8 : ℚ) : ℝ) := Rat.cast_le.mpr c2.2
    push_cast at this; exact this
  have c3' : |((f32.val LN2_HI : ℚ) : ℝ) + (f32.val LN2_LO : ℚ) - Real.log 2| ≤ 11 / 10 ^ 14 := by
    have h1 : ((|f32.val LN2_HI + f32.val LN2_LO - Poly.ln2L| : ℚ) : ℝ) ≤ ((10 / 10 ^ 14 : ℚ) : ℝ) := Rat.cast_le.mpr c3
    push_cast at h1
    have h2 := Poly.ln2_gt
    have h3 := Poly.ln2_lt
    have h4 : ((Poly.ln2H : ℚ) : ℝ) - (Poly.ln2L : ℚ) ≤ 1 / 10 ^ 26 := by unfold Poly.ln2H Poly.ln2L; push_cast; norm_num
    rw [abs_le] at h1 ⊢
    norm_num at *
    constructor <;> linarith [h1.1, h1.2]
  have hkh : |(k : ℝ) * (f32.val LN2_HI : ℚ)| ≤ 151 := by
    rw [abs_mul, c1]
    have : |(((22713 / 2 ^ 15 : ℚ)) : ℝ)| ≤ 1 := by rw [abs_of_nonneg (by positivity)]; push_cast; norm_num
    nlinarith [abs_nonneg (k : ℝ), abs_nonneg (((22713 / 2 ^ 15 : ℚ)) : ℝ)]
  obtain ⟨H, L, X', r1, r2, r3, r4, r5, r6, r7, r8⟩ := reduce big32 (by rw [s32]; norm_num) N hx hkd hh hl hX (jh := -15)
    ⟨22713, by rw [c1]; push_cast; norm_num⟩ (by rw [s32]; norm_num) (by rw [s32]; norm_num; norm_num at hkh; linarith) (by linarith) hk (by
      rw [abs_mul, abs_of_nonneg c2a]
      norm_num at *
      nlinarith [abs_nonneg (k : ℝ)]) (by
      rw [s32]
      have := mul_le_mul hk2 c3' (abs_nonneg _) (by norm_num)
      refine this.trans ?_
      norm_num)
  exact tail_spec N r3 r1 r2 r4 r5 r6 r7 (by omega) r8 hno

theorem ofI32_spec {k : ℤ} (h0 : -2 ^ 20 ≤ k) (h1 : k < 2 ^ 20) : ∃ r, ofI32 k = .ok r ∧ GFv f32 r k := by
  obtain ⟨r, h2, h3, _⟩ := Props.C31_signed.1 (BitVec.ofInt 32 k)
  refine ⟨r, h2, ?_⟩
  have e : (BitVec.ofInt 32 k).toInt = k := by
    rw [BitVec.toInt_ofInt, Int.bmod_def]; split <;> omega
  have := h3.cast f32
  rw [e, Rat.cast_intCast] at this
  have hk : |k| ≤ 2 ^ 20 := by rw [abs_le]; constructor <;> omega
  have hk' : |(k : ℝ)| ≤ 2 ^ 20 := by exact_mod_cast hk
  refine GFv.of_rounds big32 (j := 0) this ⟨k, by simp⟩ ?_ (by rw [b32, s32]; norm_num) (hk'.trans (by norm_num))
  rw [s32]
  refine hk'.trans ?_
  norm_num

/-- the main part: no special case -/
theorem expf_main (N : FPU f32) {x : S} {X : ℝ} (hx : GFv f32 x X) (hX2 : |X| ≤ 104) (hs : special N x (f32.mag x) (f32.sign x) = none) (hno : NoOver X) :
    Ok (expf N x) fun z => Good z X := by
  have l1 := ln2_lo
  have l2 := ln2_hi
  unfold expf
  have hsb : (x.toNat >>> 31 != 0) = f32.sign x := by rw [sign32]; cases f32.sign x <;> rfl
  simp only [mag32, hsb, hs]
  split
  case isTrue h1 =>
    have hX1 : 0.3465 ≤ |X| := by
      by_contra hc
      have := (hx.mag_lt (c := 0x3eb17218) (q := 0xb17218 / 2 ^ 25) (by decide +kernel)).mpr (by
        push_cast; norm_num at hc ⊢; linarith)
      omega
    have hk : ∃ k : ℤ, pickK N x (f32.mag x) (x.toNat >>> 31) = .ok k ∧ |X - k * Real.log 2| ≤ 0.34665 := by
      rw [sign32]
      unfold pickK
      split
      case isTrue h2 =>
        have hi' := GFv.const (F := f32) (b := INV_LN2) (q := _) (by decide +kernel) rfl
        have c1 : 0 ≤ f32.val INV_LN2 ∧ f32.val INV_LN2 ≤ 3 / 2 := by decide +kernel
        have c2 : |f32.val INV_LN2 * Poly.ln2L - 1| ≤ 1 / 10 ^ 7 := by decide +kernel
        have c1a : (0 : ℝ) ≤ (f32.val INV_LN2 : ℚ) := by exact_mod_cast c1.1
        have c1b : ((f32.val INV_LN2 : ℚ) : ℝ) ≤ 3 / 2 := by
          have : ((f32.val INV_LN2 : ℚ) : ℝ) ≤ ((3 / 2 : ℚ) : ℝ) := Rat.cast_le.mpr c1.2
          push_cast at this; exact this
        have c2' : |((f32.val INV_LN2 : ℚ) : ℝ) * Real.log 2 - 1| ≤ 5 / 10 ^ 8 := by
          have c2 : |f32.val INV_LN2 * Poly.ln2L - 1| ≤ 4 / 10 ^ 8 := by decide +kernel
          have h1 : ((|f32.val INV_LN2 * Poly.ln2L - 1| : ℚ) : ℝ) ≤ ((4 / 10 ^ 8 : ℚ) : ℝ) := Rat.cast_le.mpr c2
          push_cast at h1
          have h2 := Poly.ln2_gt
          have h3 := Poly.ln2_lt
          have h4 : ((Poly.ln2H : ℚ) : ℝ) - (Poly.ln2L : ℚ) ≤ 1 / 10 ^ 26 := by unfold Poly.ln2H Poly.ln2L; push_cast; norm_num
          rw [abs_le] at h1 ⊢
          norm_num at *
          constructor <;> nlinarith [h1.1, h1.2]
        have hv1 : |((f32.val INV_LN2 : ℚ) : ℝ) * X * Real.log 2 - X| ≤ 1 / 100000 := by
          rw [show ((f32.val INV_LN2 : ℚ) : ℝ) * X * Real.log 2 - X = (((f32.val INV_LN2 : ℚ) : ℝ) * Real.log 2 - 1) * X by ring, abs_mul]
          have := mul_le_mul c2' hX2 (abs_nonneg _) (by norm_num)
          refine this.trans ?_
          norm_num
        have hv2 : |X| * (1 / 2 ^ (f32.s + 1)) ≤ 1 / 100000 := by
          rw [s32]; norm_num; linarith
        cases hsg : f32.sign x
        · have hh : GFv f32 (half 0) (1 / 2) := by
            have := GFv.const (F := f32) (b := half 0) (q := 1 / 2) (by decide +kernel) (by decide +kernel); push_cast at this; exact this
          obtain ⟨r, hr, hr2⟩ := kpick big32 N ⟨by simp, by simp⟩ hx hi' hh (Or.inl ⟨hx.nonneg hsg, rfl⟩) (by linarith) c1a c1b hv1 hv2
          refine ⟨r.toInt, ?_, hr2⟩
          simp only [Bool.false_eq_true, if_false, rd]
          unfold toI32
          simp only [show (0 : ℕ) < 2 by norm_num, if_true, ok_bind]
          rw [hr]; rfl
        · have hh : GFv f32 (half 1) (-(1 / 2)) := by
            have := GFv.const (F := f32) (b := half 1) (q := -(1 / 2)) (by decide +kernel) (by decide +kernel); push_cast at this; exact this
          obtain ⟨r, hr, hr2⟩ := kpick big32 N ⟨by simp, by simp⟩ hx hi' hh (Or.inr ⟨hx.nonpos hsg, rfl⟩) (by linarith) c1a c1b hv1 hv2
          refine ⟨r.toInt, ?_, hr2⟩
          simp only [if_true, rd]
          unfold toI32
          simp only [show (1 : ℕ) < 2 by norm_num, if_true, ok_bind]
          rw [hr]; rfl
      case isFalse h2 =>
        have hX3 := (hx.mag_lt (c := 0x3f851593) (q := 0x851593 / 2 ^ 23) (by decide +kernel)).mp (by omega)
        push_cast at hX3
        refine ⟨_, rfl, ?_⟩
        cases hsg : f32.sign x
        · have h0 := hx.nonneg hsg
          rw [abs_of_nonneg h0] at hX1 hX3
          simp only [Bool.false_eq_true, if_false]
          push_cast
          rw [abs_le]
          norm_num at *
          constructor <;> linarith
        · have h0 := hx.nonpos hsg
          rw [abs_of_nonpos h0] at hX1 hX3
          simp only [if_true]
          push_cast
          rw [abs_le]
          norm_num at *
          constructor <;> linarith
    obtain ⟨k, hk1, hk2⟩ := hk
    have hkb : |(k : ℝ)| ≤ 151 := by
      have h1 : |k * Real.log 2| ≤ 104.35 := by
        have := abs_sub_abs_le_abs_sub (k * Real.log 2) X
        rw [abs_sub_comm (k * Real.log 2)] at this
        norm_num at *; linarith
      rw [abs_mul, abs_of_pos (show 0 < Real.log 2 by linarith)] at h1
      norm_num at *
      nlinarith [abs_nonneg (k : ℝ)]
    have hkZ : |k| ≤ 151 := by exact_mod_cast hkb
    rw [abs_le] at hkZ
    obtain ⟨kd, hkd, hkd2⟩ := ofI32_spec (k := k) (by omega) (by omega)
    rw [hk1, ok_bind, hkd, ok_bind]
    exact red_spec N hx (by norm_num at hX1 ⊢; linarith) hkb hkd2 hk2 hno
  case isFalse h1 =>
    split
    case isTrue h2 =>
      have hX3 := (hx.mag_lt (c := 0x3eb17219) (q := 0xb17219 / 2 ^ 25) (by decide +kernel)).mp (by omega)
      push_cast at hX3
      norm_num at hX3
      refine tail_spec N hx hx zero_fv (by norm_num; linarith) (by norm_num; linarith) (by norm_num) (by rw [sub_zero, sub_self]; simp; positivity) (by norm_num) ?_ hno
      push_cast
      simp
      positivity
    case isFalse h2 =>
      have hX3 := (hx.mag_lt (c := 0x39000001) (q := 0x800001 / 2 ^ 36) (by decide +kernel)).mp (by omega)
      push_cast at hX3
      norm_num at hX3
      have hR := one_fv.addR N hx
      have hX4 : |X| ≤ 1.0001 / 2 ^ 13 := by norm_num; linarith
      have hb : |1 + X| ≤ 2 ^ (1 : ℤ) := by
        have := abs_add_le 1 X
        norm_num at *
        linarith
      have he := hR.err f32 (k := 1) hb (by rw [b32]; norm_num) (by rw [b32]; norm_num)
      have hf := hR.fin100 big32 (hb.trans (zpow_le_zpow_right₀ (by norm_num) (by norm_num)))
      have hη := Real.abs_exp_sub_one_sub_id_le (x := X) (by norm_num at hX4 ⊢; linarith)
      have hη2 : |Real.exp X - 1 - X| ≤ 1.001 / 2 ^ 26 := by
        refine hη.trans ?_
        rw [← sq_abs]
        calc |X| ^ 2 ≤ (1.0001 / 2 ^ 13) ^ 2 := pow_le_pow_left₀ (abs_nonneg _) hX4 2
          _ ≤ _ := by norm_num
      have he2 : |V (N.add one x) - (1 + X)| ≤ 1 / 2 ^ 24 := by
        refine he.trans (le_of_eq ?_)
        rw [s32]; norm_num
      have hE : 0.99 ≤ Real.exp X := by
        have := Real.add_one_le_exp X
        rw [abs_le] at hX4
        norm_num at *
        linarith [hX4.1]
      have hlow : (1 : ℝ) / 2 ≤ V (N.add one x) := by
        rw [abs_le] at hX4 he2
        norm_num at *
        linarith [hX4.1, he2.1]
      refine ⟨_, rfl, hf, GFv.sign_of_pos (GFv.self hf) (by linarith), ?_⟩
      have := abs_sub (V (N.add one x) - (1 + X)) (Real.exp X - 1 - X)
      rw [show V (N.add one x) - (1 + X) - (Real.exp X - 1 - X) = V (N.add one x) - Real.exp X by ring] at this
      have hp : (0 : ℝ) < 2 ^ (-150 : ℤ) := by positivity
      generalize (2 : ℝ) ^ (-150 : ℤ) = T at *
      norm_num at *
      linarith


theorem no_over {X : ℝ} (h : X ≤ 88.7228318) : NoOver X := by
  unfold NoOver
  have h2 := Poly.ln2_gt
  have c : (88.722839 : ℝ) ≤ 128 * (Poly.ln2L : ℚ) := by unfold Poly.ln2L; push_cast; norm_num
  have hX : X ≤ - (7 / 10 ^ 6) + ((128 : ℤ) : ℝ) * Real.log 2 := by push_cast; norm_num at *; linarith
  have h3 : Real.exp X ≤ Real.exp (-(7 / 10 ^ 6)) * 2 ^ (128 : ℤ) := by
    rw [← exp_add_log]; exact Real.exp_le_exp.mpr hX
  have h4 : Real.exp (-(7 / 10 ^ 6)) ≤ 1 - 6 / 10 ^ 6 := by
    have := Real.abs_exp_sub_one_sub_id_le (x := -(7 / 10 ^ 6)) (by rw [abs_neg, abs_of_pos] <;> norm_num)
    rw [abs_le] at this
    norm_num at *
    linarith [this.2]
  have hp : (0 : ℝ) < 2 ^ (128 : ℤ) := by positivity
  generalize (2 : ℝ) ^ (128 : ℤ) = T at *
  have h5 : Real.exp X ≤ (1 - 6 / 10 ^ 6) * T := h3.trans (mul_le_mul_of_nonneg_right h4 hp.le)
  norm_num at *
  nlinarith

theorem over_val : f32.magVal ℚ 0x42b17218 = 88.72283935546875 := by decide +kernel
theorem over_val' : f32.magVal ℚ 0x42b17217 = 88.72283172607421875 := by decide +kernel
theorem und_val : f32.magVal ℚ 0x42cff1b5 = 103.97208404541015625 := by decide +kernel

/-- no `f32` is between the largest argument with a finite exponential and the threshold -/
theorem below {x : S} {X : ℝ} (hx : GFv f32 x X) (h1 : X < 88.72283935546875) : X ≤ 88.7228318 := by
  cases hsg : f32.sign x
  · have h0 := hx.nonneg hsg
    have habs := hx.abs_eq
    rw [abs_of_nonneg h0] at habs
    have h2 : f32.mag x < 0x42b17218 := by
      rw [hx.mag_lt over_val, abs_of_nonneg h0]; push_cast; exact h1
    rw [habs]
    have : f32.magVal ℝ (f32.mag x) ≤ f32.magVal ℝ 0x42b17217 := f32.magValR_le_iff.mpr (by omega)
    rw [← f32.magVal_cast 0x42b17217, over_val'] at this
    push_cast at this
    norm_num at *
    linarith
  · have h0 := hx.nonpos hsg
    norm_num
    linarith

/-- `expf` of a finite number that is not too large -/
theorem expf_fin (N : FPU f32) {x : S} {X : ℝ} (hx : GFv f32 x X) (h1 : X < 88.72283935546875) : Ok (expf N x) fun z => Good z X := by
  have hsb : (x.toNat >>> 31 != 0) = f32.sign x := by rw [sign32]; cases f32.sign x <;> rfl
  have hm := hx.fin
  have hm' : ¬ f32.mag x > 0x7f800000 := by
    have : f32.infRep = 0x7f800000 := by decide
    unfold Fmt.IsFin at hm; omega
  have habs := hx.abs_eq
  cases hsg : f32.sign x
  · have h0 := hx.nonneg hsg
    rw [abs_of_nonneg h0] at habs
    have h2 : f32.mag x < 0x42b17218 := by
      rw [hx.mag_lt over_val, abs_of_nonneg h0]; push_cast; exact h1
    have h3 := below hx h1
    refine expf_main N hx (by rw [abs_of_nonneg h0]; norm_num at *; linarith) ?_ (no_over h3)
    unfold special
    have : ¬ (0x42b17218 ≤ f32.mag x) := by omega
    simp [hsg, hm', this]
  · have h0 := hx.nonpos hsg
    rw [abs_of_nonpos h0] at habs
    rcases lt_or_ge (f32.mag x) 0x42cff1b5 with h2 | h2
    · have h3 := (hx.mag_lt und_val).mp h2
      push_cast at h3
      refine expf_main N hx (by norm_num at *; linarith) ?_ (no_over (by norm_num at *; linarith))
      unfold special
      have : ¬ (0x42cff1b5 ≤ f32.mag x) := by omega
      simp [hsg, hm', this]
    · have h3 : ¬ |X| < 103.97208404541015625 := by
        have := mt (hx.mag_lt und_val).mpr (by omega)
        push_cast at this; exact this
      rw [abs_of_nonpos h0] at h3
      have hs : special N x (f32.mag x) true = some 0#f32.w := by
        unfold special
        have h4 : 0x42aeac50 ≤ f32.mag x := by omega
        simp [hm', h2, h4]
      unfold expf
      simp only [mag32, hsb, hsg, hs]
      refine ⟨_, rfl, zero_fv.fin, by decide +kernel, ?_⟩
      rw [zero_fv.val]
      have l3 := Poly.ln2_lt
      have c3 : -103.97208404541015625 ≤ -150 * ((Poly.ln2H : ℚ) : ℝ) := by unfold Poly.ln2H; push_cast; norm_num
      have hE : Real.exp X ≤ 2 ^ (-150 : ℤ) := by
        have : X ≤ 0 + ((-150 : ℤ) : ℝ) * Real.log 2 := by push_cast; norm_num at *; linarith
        have := Real.exp_le_exp.mpr this
        rwa [exp_add_log, Real.exp_zero, one_mul] at this
      have hE0 := Real.exp_pos X
      rw [zero_sub, abs_neg, abs_of_pos hE0]
      have : 0 ≤ 1.9 / 2 ^ 24 * Real.exp X := by positivity
      exact le_add_of_nonneg_of_le this hE

/-- `expf` of a larger number -/
theorem expf_big (N : FPU f32) {x : S} {X : ℝ} (hx : GFv f32 x X) (h1 : 88.72283935546875 ≤ X) :
    (Ok (expf N x) fun z => f32.IsInf z ∧ f32.sign z = false) ∧ 2 ^ (128 : ℤ) ≤ Real.exp X := by
  have hsb : (x.toNat >>> 31 != 0) = f32.sign x := by rw [sign32]; cases f32.sign x <;> rfl
  have hX0 : 0 < X := by norm_num at h1; linarith
  have hsg := hx.sign_of_pos hX0
  constructor
  · have hm := hx.fin
    have hm' : ¬ f32.mag x > 0x7f800000 := by
      have : f32.infRep = 0x7f800000 := by decide
      unfold Fmt.IsFin at hm; omega
    have h2 : 0x42b17218 ≤ f32.mag x := by
      by_contra hc
      have := (hx.mag_lt over_val).mp (by omega)
      rw [abs_of_pos hX0] at this
      push_cast at this
      linarith
    have hs : special N x (f32.mag x) false = some (N.mul x x1p127) := by
      unfold special
      have h4 : 0x42aeac50 ≤ f32.mag x := by omega
      simp [hm', h2, h4]
    unfold expf
    simp only [mag32, hsb, hsg, hs]
    refine ⟨_, rfl, ?_⟩
    have hp : GFv f32 x1p127 (2 ^ (127 : ℤ)) := by
      have := GFv.const (F := f32) (b := x1p127) (q := 2 ^ (127 : ℤ)) (by decide +kernel) (by decide +kernel)
      exact this.cast (by norm_num)
    refine (hx.mulR N hp).over ?_
    rw [b32, show ((127 : ℕ) : ℤ) + 1 = 1 + 127 by norm_num, zpow_add₀ (by norm_num)]
    refine mul_le_mul_of_nonneg_right ?_ (by positivity)
    norm_num at *
    linarith
  · have l3 := Poly.ln2_lt
    have c3 : 128 * ((Poly.ln2H : ℚ) : ℝ) ≤ 88.72283935546875 := by unfold Poly.ln2H; push_cast; norm_num
    have : 0 + ((128 : ℤ) : ℝ) * Real.log 2 ≤ X := by push_cast; norm_num at *; linarith
    have := Real.exp_le_exp.mpr this
    rwa [exp_add_log, Real.exp_zero, one_mul] at this

/-- infinities and NaN -/
theorem expf_special (N : FPU f32) (x : S) :
    (f32.IsNaN x → expf N x = .ok x) ∧ (f32.IsInf x → f32.sign x = false → Ok (expf N x) fun z => f32.IsInf z ∧ f32.sign z = false) ∧
    (f32.IsInf x → f32.sign x = true → expf N x = .ok 0#f32.w) := by
  have hsb : (x.toNat >>> 31 != 0) = f32.sign x := by rw [sign32]; cases f32.sign x <;> rfl
  have hinf : f32.infRep = 0x7f800000 := by decide
  unfold Fmt.IsNaN Fmt.IsInf
  refine ⟨fun h => ?_, fun h hs => ?_, fun h hs => ?_⟩
  · unfold expf special
    simp only [mag32, hsb]
    have h1 : 0x42aeac50 ≤ f32.mag x := by omega
    have h2 : 0x7f800000 < f32.mag x := by omega
    simp [h1, h2]
  · unfold expf special
    simp only [mag32, hsb, hs]
    rw [hinf] at h
    simp only [h, ge_iff_le, gt_iff_lt, lt_irrefl, if_false]
    norm_num
    refine ⟨_, rfl, ?_⟩
    have := (N.mul_spec x x1p127).2.2 (by unfold Fmt.IsNaN; omega) (by rw [← f32.isNan_iff]; decide +kernel) (Or.inl (by unfold Fmt.IsInf; omega))
    rw [if_neg] at this
    · rw [hs] at this
      have h3 := this.1
      unfold Fmt.IsInf at h3
      rw [hinf] at h3
      exact ⟨h3, this.2.trans (by decide +kernel)⟩
    · rintro (h5 | h5)
      · unfold Fmt.IsZero at h5; omega
      · revert h5; unfold Fmt.IsZero; decide +kernel
  · unfold expf special
    simp only [mag32, hsb, hs]
    rw [hinf] at h
    simp [h]
end F32
end Exp
end Verif
