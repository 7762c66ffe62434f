import Verif.Libm.HyperMain
import Verif.Libm.Expm1FMain
import Verif.Libm.ExpFMain
/-! # `coshf`, `sinhf` and `tanhf` -/
namespace Verif
open Fmt
namespace Hyper
namespace F32
open Expm1 Expm1.F32
open Exp (exp_add_log)

/-- the largest argument for which `cosh` and `sinh` are finite -/
def LIM : S := 0x42b2d4fc#f32.w
theorem lim_fv : GFv f32 LIM (f32.val LIM : ℚ) := GFv.const (by decide +kernel) rfl
theorem k_fv : GFv f32 KLN2 (f32.val KLN2 : ℚ) := GFv.const (by decide +kernel) rfl
theorem zero_fv : GFv f32 0#f32.w 0 := by
  have := GFv.const (F := f32) (b := 0#f32.w) (q := 0) (by decide +kernel) (by decide +kernel)
  simpa using this
theorem scale_fv : GFv f32 SCALE (2 ^ (117 : ℤ)) := by
  have := GFv.const (F := f32) (b := SCALE) (q := 2 ^ (117 : ℤ)) (by decide +kernel) (by decide +kernel)
  rwa [show (((2 : ℚ) ^ (117 : ℤ) : ℚ) : ℝ) = 2 ^ (117 : ℤ) by norm_num] at this

theorem abs_eq (x : S) : abs32 x = f32.fabs x := by
  have h : (abs32 x).toNat = f32.mag x := by
    unfold abs32
    rw [BitVec.toNat_ofNat, show (0x7fffffff : ℕ) = 2 ^ 31 - 1 from rfl, Nat.and_two_pow_sub_one_eq_mod]
    exact Nat.mod_eq_of_lt (lt_of_lt_of_le (Nat.mod_lt _ (by norm_num)) (by decide))
  apply BitVec.eq_of_toNat_eq
  obtain ⟨h1, h2⟩ := f32.fabs_facts x
  rw [f32.toNat_eq (f32.fabs x), h1, h2, h]; simp
theorem abs_nat (x : S) : (abs32 x).toNat = f32.mag x := by
  obtain ⟨h1, h2⟩ := f32.fabs_facts x
  rw [abs_eq, f32.toNat_eq (f32.fabs x), h1, h2]; simp
theorem abs_fv {x : S} {X : ℝ} (hx : GFv f32 x X) : GFv f32 (abs32 x) |X| := by rw [abs_eq]; exact hx.fabs
theorem abs_abs (x : S) : abs32 (abs32 x) = abs32 x := by
  apply f32.ext_sign_mag
  · rw [abs_eq, abs_eq, (f32.fabs_facts _).1, (f32.fabs_facts _).1]
  · rw [abs_eq, abs_eq, (f32.fabs_facts _).2]

theorem w_lt {x : S} {X : ℝ} (hx : GFv f32 x X) (c : ℕ) (q : ℚ) (hc : f32.magVal ℚ c = q) : (abs32 x).toNat < c ↔ |X| < q := by
  rw [abs_nat]; exact hx.mag_lt hc

theorem w_big {x : S} (h : f32.infRep ≤ f32.mag x) : 0x7f800000 ≤ (abs32 x).toNat := by
  have e : f32.infRep = 0x7f800000 := by decide
  rw [abs_nat]; omega

theorem k_mul : Mul2 (-17) ((f32.val KLN2 : ℚ) : ℝ) :=
  ⟨21350264, by
    rw [show f32.val KLN2 = 21350264 / 2 ^ 17 by decide +kernel, zpow_neg]; push_cast; norm_num⟩
theorem k_bd : (162.8895 : ℝ) ≤ (f32.val KLN2 : ℚ) ∧ ((f32.val KLN2 : ℚ) : ℝ) ≤ 162.8896 := by
  have c : (1628895 / 10000 : ℚ) ≤ f32.val KLN2 ∧ f32.val KLN2 ≤ 1628896 / 10000 := by decide +kernel
  have c1 := Rat.cast_le (K := ℝ).mpr c.1
  have c2 := Rat.cast_le (K := ℝ).mpr c.2
  push_cast at c1 c2
  constructor
  · refine le_trans (by norm_num) c1
  · refine le_trans c2 (by norm_num)
theorem k_near : |(2 * ((117 : ℤ) : ℝ) + 1) * Real.log 2 - (f32.val KLN2 : ℚ)| ≤ 0.51 * (1 / 2 ^ (f32.s + 1)) := by
  have c : |235 * Poly.ln2L - f32.val KLN2| ≤ 1 / 2 * (1 / 2 ^ 24) := by decide +kernel
  have c1 : ((|235 * Poly.ln2L - f32.val KLN2| : ℚ) : ℝ) ≤ ((1 / 2 * (1 / 2 ^ 24) : ℚ) : ℝ) := Rat.cast_le.mpr c
  push_cast at c1
  have h2 := Poly.ln2_gt
  have h3 := Poly.ln2_lt
  have h4 := ln2_gap
  rw [s32]
  push_cast
  have e : (1 : ℝ) / 10 ^ 26 * 235 ≤ 1 / 100 * (1 / 2 ^ 24) := by norm_num
  rw [abs_le] at c1 ⊢
  norm_num only [] at c1 e ⊢
  constructor <;> linarith [c1.1, c1.2]

theorem lim_bd : ((f32.val LIM : ℚ) : ℝ) ≤ 129 * Real.log 2 - 19 / 2 ^ 24 ∧ 129 * Real.log 2 + 100 / 2 ^ 24 ≤ ((f32.val LIM : ℚ) : ℝ) + 1 / 2 ^ 17 := by
  have c : f32.val LIM ≤ 129 * Poly.ln2L - 19 / 2 ^ 24 ∧ 129 * Poly.ln2H + 100 / 2 ^ 24 ≤ f32.val LIM + 1 / 2 ^ 17 := by decide +kernel
  have c1 := Rat.cast_le (K := ℝ).mpr c.1
  have c2 := Rat.cast_le (K := ℝ).mpr c.2
  have h2 := Poly.ln2_gt
  have h3 := Poly.ln2_lt
  push_cast at c1 c2
  constructor <;> linarith

theorem lim_small : (88 : ℝ) ≤ (f32.val LIM : ℚ) ∧ ((f32.val LIM : ℚ) : ℝ) ≤ 90 := by
  have c : 88 ≤ f32.val LIM ∧ f32.val LIM ≤ 90 := by decide +kernel
  exact ⟨by exact_mod_cast c.1, by exact_mod_cast c.2⟩

theorem room_lim {X : ℝ} (h : X ≤ (f32.val LIM : ℚ)) : Real.exp X / 2 * (1 + 10 / 2 ^ 24) < 2 ^ (128 : ℤ) := by
  have h1 : Real.exp X ≤ Real.exp (-(19 / 2 ^ 24)) * 2 ^ (129 : ℤ) := by
    rw [← exp_add_log]
    refine Real.exp_le_exp.mpr ?_
    have := lim_bd.1
    push_cast; linarith
  have h2 : Real.exp (-(19 / 2 ^ 24)) ≤ 1 - 15 / 2 ^ 24 := by
    rw [Real.exp_neg]
    have := Real.add_one_le_exp (19 / 2 ^ 24 : ℝ)
    refine (inv_anti₀ (by positivity) this).trans ?_
    rw [inv_le_iff_one_le_mul₀ (by positivity)]
    norm_num
  have hp : (0 : ℝ) < 2 ^ (128 : ℤ) := by positivity
  have e : (2 : ℝ) ^ (129 : ℤ) = 2 * 2 ^ (128 : ℤ) := by rw [← zpow_one_add₀ (by norm_num)]; norm_num
  rw [e] at h1
  generalize (2 : ℝ) ^ (128 : ℤ) = P at *
  have h3 : Real.exp X / 2 ≤ (1 - 15 / 2 ^ 24) * P := by
    have := mul_le_mul_of_nonneg_right h2 hp.le
    linarith
  have h4 : Real.exp X / 2 * (1 + 10 / 2 ^ 24) ≤ (1 - 15 / 2 ^ 24) * P * (1 + 10 / 2 ^ 24) := mul_le_mul_of_nonneg_right h3 (by positivity)
  refine lt_of_le_of_lt h4 ?_
  rw [mul_right_comm]
  exact mul_lt_of_lt_one_left hp (by norm_num)

theorem kexpo2_fin (N : FPU f32) {x : S} {X : ℝ} (hx : GFv f32 x X) (h1 : 88.7228 ≤ X) (h2 : X ≤ (f32.val LIM : ℚ)) :
    Ok (kexpo2f N x) fun z => ∃ V, GFv f32 z V ∧ |V - Real.exp X / 2| ≤ 2.6 * (1 / 2 ^ (f32.s + 1)) * (Real.exp X / 2) := by
  obtain ⟨k1, k2⟩ := k_bd
  have l2 := lim_small.2
  have hX0 : 0 < X := lt_of_lt_of_le (by norm_num) h1
  have hy : GFv f32 (N.sub x KLN2) (X - (f32.val KLN2 : ℚ)) := by
    refine sub_ex big32 N hx k_fv k_mul ?_ ?_ (by rw [b32, s32]; norm_num) (by rw [s32]; norm_num)
    · rw [abs_of_pos hX0, s32]; norm_num at h1 ⊢; linarith
    · rw [s32, abs_le]
      norm_num1 at *
      constructor <;> linarith
  have hg := Exp.F32.expf_fin N hy (by norm_num1 at *; linarith)
  refine expo2_fin big32 N (σ := 2 ^ (-150 : ℤ)) (c := 117) rfl k_near ?_ ?_ scale_fv (by norm_num) ?_
  · obtain ⟨z, hz, g1, g2, g3⟩ := hg
    refine ⟨z, hz, _, ⟨g1, rfl⟩, ?_⟩
    rw [s32]
    refine le_trans g3 (le_of_eq ?_)
    norm_num
  · have e : Real.exp (-(1 / 1000) + (-123 : ℤ) * Real.log 2) ≤ Real.exp (X - (f32.val KLN2 : ℚ)) := by
      refine Real.exp_le_exp.mpr ?_
      have h3 := Poly.ln2_gt
      have h4 : (0.69314718 : ℝ) ≤ (Poly.ln2L : ℚ) := by unfold Poly.ln2L; push_cast; norm_num
      push_cast
      norm_num1 at *
      linarith
    rw [exp_add_log] at e
    have e9 := mul_le_mul_of_nonneg_right (Real.add_one_le_exp (-(1 / 1000) : ℝ)) (show (0 : ℝ) ≤ 2 ^ (-123 : ℤ) by positivity)
    rw [s32]
    have e2 : (2 : ℝ) ^ (-150 : ℤ) = 1 / 2 ^ (23 + 1) * (1 / 8 * 2 ^ (-123 : ℤ)) := by
      rw [show (-150 : ℤ) = -27 + -123 by norm_num, zpow_add₀ (by norm_num), ← mul_assoc]; norm_num
    rw [e2]
    have hp : (0 : ℝ) < 2 ^ (-123 : ℤ) := by positivity
    generalize (2 : ℝ) ^ (-123 : ℤ) = P at *
    norm_num1 at *
    linarith
  · rw [s32, b32]
    refine lt_of_le_of_lt ?_ (room_lim h2)
    exact mul_le_mul_of_nonneg_left (by norm_num) (by positivity)

/-- `NEXT - KLN2`, where `NEXT` follows `LIM` -/
def Y0 : S := 0xc292f27b#f32.w

theorem kexpo2_big (N : FPU f32) {x : S} {X : ℝ} (hx : GFv f32 x X) (h : ((f32.val LIM : ℚ) : ℝ) < X) :
    (Ok (kexpo2f N x) fun z => f32.IsInf z ∧ f32.sign z = false) ∧ 2 ^ (128 : ℤ) * (1 + 100 / 2 ^ 24) ≤ Real.exp X / 2 := by
  obtain ⟨k1, k2⟩ := k_bd
  have l1 := lim_small.1
  have hg : ((f32.val LIM : ℚ) : ℝ) + 1 / 2 ^ 17 ≤ X := by
    have := f32.gap_ge (b := LIM) (c := x) (k := 6) (by
      rw [lim_fv.val]; norm_num; linarith) (by rw [lim_fv.val, hx.val]; exact h)
    rw [lim_fv.val, hx.val, s32] at this
    norm_num at this ⊢
    linarith
  have hb := lim_bd.2
  have hlog := k_near
  rw [s32, abs_le] at hlog
  push_cast at hlog
  constructor
  · have c0 : f32.val Y0 = f32.val LIM + 1 / 2 ^ 17 - f32.val KLN2 := by decide +kernel
    have c0' : ((f32.val Y0 : ℚ) : ℝ) = (f32.val LIM : ℚ) + 1 / 2 ^ 17 - (f32.val KLN2 : ℚ) := by rw [c0]; push_cast; ring
    have hy0 : GFv f32 Y0 (f32.val Y0 : ℚ) := GFv.const (by decide +kernel) rfl
    have hR := hx.subR N k_fv
    have hXlt : X < 2 ^ ((f32.bias : ℤ) + 1) := by
      have := hx.fin
      unfold Fmt.IsFin at this
      rw [← f32.magValR_lt_iff, f32.magValR_infRep, ← f32.absvR, hx.val] at this
      exact lt_of_le_of_lt (le_abs_self X) this
    have r1 : ((f32.val Y0 : ℚ) : ℝ) ≤ f32.valK ℝ (N.sub x KLN2) := by
      refine hR.ge_of f32 ?_ ?_ (by rw [c0']; linarith)
      · rw [← hy0.val]; exact f32.rp_val _
      · have := hy0.fin
        unfold Fmt.IsFin at this
        rw [← f32.magValR_lt_iff, f32.magValR_infRep, ← f32.absvR, hy0.val] at this
        exact this.le
    have r2 : f32.valK ℝ (N.sub x KLN2) ≤ X := by
      refine hR.le_of f32 ?_ ?_ (by norm_num1 at *; linarith)
      · rw [← hx.val]; exact f32.rp_val _
      · rw [abs_of_pos (by norm_num1 at *; linarith)]; exact hXlt.le
    have hfin : f32.IsFin (N.sub x KLN2) := by
      refine fin_of_le (g := max X 1500) ?_ (max_lt hXlt ?_)
      · rw [abs_le]
        refine ⟨?_, r2.trans (le_max_left _ _)⟩
        have : (1500 : ℝ) ≤ max X 1500 := le_max_right _ _
        rw [c0'] at r1
        norm_num1 at *
        linarith
      · rw [b32]
        refine lt_of_lt_of_le (show (1500 : ℝ) < 2 ^ (11 : ℤ) by norm_num) (zpow_le_zpow_right₀ (by norm_num) (by norm_num))
    have hy : GFv f32 (N.sub x KLN2) (f32.valK ℝ (N.sub x KLN2)) := GFv.self hfin
    refine expo2_big N (c := 117) ?_ scale_fv (by norm_num)
    generalize f32.valK ℝ (N.sub x KLN2) = Y at *
    rcases lt_or_ge Y 88.72283935546875 with h3 | h3
    · obtain ⟨z, hz, g1, g2, g3⟩ := Exp.F32.expf_fin N hy h3
      refine ⟨z, hz, Or.inr ⟨_, ⟨g1, rfl⟩, ?_⟩⟩
      have e1 : (1 + 95 / 2 ^ 24) * 2 ^ (-106 : ℤ) ≤ Real.exp Y := by
        have e2 : Real.exp (95 / 2 ^ 24 + ((-106 : ℤ) : ℝ) * Real.log 2) ≤ Real.exp Y := by
          refine Real.exp_le_exp.mpr ?_
          rw [c0'] at r1
          push_cast
          norm_num1 at *
          linarith [hlog.1]
        rw [exp_add_log] at e2
        refine le_trans (mul_le_mul_of_nonneg_right ?_ (by positivity)) e2
        have := Real.add_one_le_exp (95 / 2 ^ 24 : ℝ)
        linarith
      have e3 : (2 : ℝ) ^ (-150 : ℤ) = 1 / 2 ^ 44 * 2 ^ (-106 : ℤ) := by
        rw [show (-150 : ℤ) = -44 + -106 by norm_num, zpow_add₀ (by norm_num)]; norm_num
      rw [e3] at g3
      have hP : (0 : ℝ) < 2 ^ (-106 : ℤ) := by positivity
      have e4 : (2 : ℝ) ^ (-106 : ℤ) ≤ f32.valK ℝ z := by
        have := (abs_le.mp g3).1
        change _ ≤ f32.valK ℝ z - _ at this
        generalize (2 : ℝ) ^ (-106 : ℤ) = P at *
        norm_num1 at *
        linarith
      rw [b32]
      have e5 : (2 : ℝ) ^ (((127 : ℕ) : ℤ) + 1) = 2 ^ (-106 : ℤ) * 2 ^ (117 : ℤ) * 2 ^ (117 : ℤ) := by
        rw [← zpow_add₀ (by norm_num), ← zpow_add₀ (by norm_num)]; norm_num
      rw [e5]
      exact mul_le_mul_of_nonneg_right (mul_le_mul_of_nonneg_right e4 (by positivity)) (by positivity)
    · obtain ⟨z, hz, hi⟩ := (Exp.F32.expf_big N hy h3).1
      exact ⟨z, hz, Or.inl hi⟩
  · have h4 : 100 / 2 ^ 24 + ((129 : ℤ) : ℝ) * Real.log 2 ≤ X := by push_cast; linarith
    have h5 := Real.exp_le_exp.mpr h4
    rw [exp_add_log, show (129 : ℤ) = 128 + 1 by norm_num, zpow_add₀ (by norm_num), zpow_one] at h5
    have h6 := mul_le_mul_of_nonneg_right (Real.add_one_le_exp (100 / 2 ^ 24 : ℝ)) (show (0 : ℝ) ≤ 2 ^ (128 : ℤ) * 2 by positivity)
    generalize (2 : ℝ) ^ (128 : ℤ) = P at *
    linarith

/-- the exponential below the threshold of the overflow branch -/
theorem exp_room {X : ℝ} (h : X ≤ 88.7228317261) : Room f32 (Real.exp X) := by
  unfold Room
  rw [s32, b32]
  have h1 : Real.exp X ≤ Real.exp (-(100 / 2 ^ 24)) * 2 ^ (128 : ℤ) := by
    rw [← exp_add_log]
    refine Real.exp_le_exp.mpr ?_
    have h3 := Poly.ln2_gt
    have h4 : (0.69314718055 : ℝ) ≤ (Poly.ln2L : ℚ) := by unfold Poly.ln2L; push_cast; norm_num
    push_cast; norm_num1 at *; linarith
  have h2 : Real.exp (-(100 / 2 ^ 24)) ≤ 1 - 90 / 2 ^ 24 := by
    rw [Real.exp_neg]
    have := Real.add_one_le_exp (100 / 2 ^ 24 : ℝ)
    refine (inv_anti₀ (by positivity) this).trans ?_
    norm_num
  have h5 : (2 : ℝ) ^ (100 : ℤ) ≤ 2 ^ (128 : ℤ) := zpow_le_zpow_right₀ (by norm_num) (by norm_num)
  rw [show (((127 : ℕ) : ℤ) + 1) = 128 by norm_num]
  generalize (2 : ℝ) ^ (128 : ℤ) = P at *
  norm_num1 at *
  have h3 : Real.exp X ≤ (1 - 90 / 2 ^ 24) * P := by
    refine h1.trans ?_
    have := mul_le_mul_of_nonneg_right h2 (show (0 : ℝ) ≤ P by linarith)
    norm_num1 at *
    linarith
  linarith

/-- `expm1` of the absolute value -/
theorem expm1_rl (N : FPU f32) {y : S} {Y : ℝ} (hy : GFv f32 y Y) (h : Y ≤ 88.7228317261) :
    Ok (expm1f N y) fun t => ∃ τ, GFv f32 t τ ∧ Rl (2 * (1 / 2 ^ (f32.s + 1))) τ (Real.exp Y - 1) := by
  obtain ⟨t, ht, ⟨τ, h1, h2, -⟩, -⟩ := expm1f_fin N hy (lt_of_le_of_lt h (by norm_num))
  exact ⟨t, ht, τ, h1, h2⟩

/-- what is claimed of `cosh` -/
def CGood (z : S) (X : ℝ) : Prop := ∃ V, GFv f32 z V ∧ |V - Real.cosh X| ≤ 3.2 * (1 / 2 ^ (f32.s + 1)) * Real.cosh X ∧ 1 ≤ V

theorem coshf_fin (N : FPU f32) {x : S} {X : ℝ} (hx : GFv f32 x X) (h : |X| ≤ (f32.val LIM : ℚ)) : Ok (coshf N x) fun z => CGood z X := by
  have ha := abs_fv hx
  have hu0 := u_pos f32
  have c1 := w_lt hx 0x3f317217 (11629079 / 16777216) (by decide +kernel)
  have c2 := w_lt hx (0x3f800000 - (12 <<< 23)) (1 / 4096) (by decide +kernel)
  have c3 := w_lt hx 0x42b17217 (11629079 / 131072) (by decide +kernel)
  push_cast at c1 c2 c3
  have hC := Real.cosh_pos X
  unfold coshf CGood
  simp only
  rw [← Real.cosh_abs] at hC ⊢
  have ha0 := abs_nonneg X
  have hlim := lim_small.2
  generalize |X| = a at *
  have hc1 := Real.one_le_cosh a
  by_cases h1 : (abs32 x).toNat < 0x3f317217
  · rw [if_pos h1]
    have b1 := c1.mp h1
    by_cases h2 : (abs32 x).toNat < 0x3f800000 - (12 <<< 23)
    · rw [if_pos h2]
      have b2 := c2.mp h2
      refine ⟨_, rfl, 1, ok32.one, ?_, le_rfl⟩
      obtain ⟨n1, n2⟩ := cosh_near (a := a) (by rw [abs_of_nonneg ha0]; norm_num1 at *; linarith)
      rw [abs_sub_comm, abs_of_nonneg (by linarith), s32]
      have : a ^ 2 ≤ (1 / 4096) ^ 2 := pow_le_pow_left₀ ha0 b2.le 2
      norm_num at this ⊢
      nlinarith
    · rw [if_neg h2]
      have b2 := not_lt.mp (mt c2.mpr h2)
      obtain ⟨t, ht, τ, g1, g2⟩ := expm1_rl N ha (by norm_num1 at *; linarith)
      have e1 := Real.add_one_le_exp a
      have e2 := exp_ln2 (a := a) (by norm_num1 at *; linarith)
      obtain ⟨V, hV, eV, gV⟩ := cSmall_spec big32 ok32 N g1 g2 (by norm_num1 at *; linarith) (by norm_num1 at *; linarith)
      rw [← cosh_eq1] at eV
      exact ⟨_, by rw [ht]; rfl, V, hV, eV, gV⟩
  · rw [if_neg h1]
    have b1 := not_lt.mp (mt c1.mpr h1)
    by_cases h3 : (abs32 x).toNat < 0x42b17217
    · rw [if_pos h3]
      have b3 := c3.mp h3
      have b3' : a ≤ 88.7228317261 := by norm_num1 at *; linarith
      obtain ⟨t, ht, g1, g2, g3⟩ := Exp.F32.expf_fin N ha (lt_of_le_of_lt b3' (by norm_num))
      have e1 := exp_ln2' (a := a) (by norm_num1 at *; linarith)
      have hrl : Rl (1.91 * (1 / 2 ^ (f32.s + 1))) (f32.valK ℝ t) (Real.exp a) := by
        unfold Rl
        rw [abs_of_pos (Real.exp_pos a), s32]
        refine le_trans g3 ?_
        have e2 : (2 : ℝ) ^ (-150 : ℤ) ≤ 2 ^ (-100 : ℤ) := zpow_le_zpow_right₀ (by norm_num) (by norm_num)
        generalize (2 : ℝ) ^ (-150 : ℤ) = P at *
        norm_num1 at *
        linarith
      obtain ⟨V, hV, eV⟩ := cMid_spec big32 (by rw [s32]; norm_num) ok32 N (GFv.self g1) hrl e1 (exp_room b3')
      rw [← cosh_eq2] at eV
      refine ⟨_, by rw [ht]; rfl, V, hV, eV, ?_⟩
      have hcosh : 1.2 ≤ Real.cosh a := by
        rw [cosh_eq2]
        have : 0 < 1 / Real.exp a := by positivity
        have hh : Real.exp a * (1 / Real.exp a) = 1 := by field_simp
        rcases le_total (Real.exp a) 3 with h | h
        · have : 1 / 3 ≤ 1 / Real.exp a := one_div_le_one_div_of_le (Real.exp_pos a) h
          rcases le_total (Real.exp a) 2.2 with h' | h'
          · have : 1 / 2.2 ≤ 1 / Real.exp a := one_div_le_one_div_of_le (Real.exp_pos a) h'
            norm_num1 at *; linarith
          · norm_num1 at *; linarith
        · norm_num1 at *; linarith
      rw [s32] at eV
      have := (abs_le.mp eV).1
      norm_num1 at *
      linarith
    · rw [if_neg h3]
      have b3 := not_lt.mp (mt c3.mpr h3)
      obtain ⟨z, hz, V, hV, eV⟩ := kexpo2_fin N ha (by norm_num1 at *; linarith) h
      have e1 := exp_neg_tiny (X := a) (by norm_num1 at *; linarith)
      have e2 : 80 ≤ Real.exp a := by have := Real.add_one_le_exp a; norm_num1 at *; linarith
      have hp := Real.exp_pos (-a)
      have e3 := Real.cosh_eq a
      rw [s32] at *
      refine ⟨z, hz, V, hV, ?_, ?_⟩
      · rw [abs_le] at eV ⊢
        generalize Real.exp a = E at *
        generalize Real.exp (-a) = E' at *
        rw [e3]
        norm_num1 at *
        constructor <;> linarith [eV.1, eV.2]
      · have := (abs_le.mp eV).1
        norm_num1 at *
        linarith

theorem coshf_big (N : FPU f32) {x : S} {X : ℝ} (hx : GFv f32 x X) (h : ((f32.val LIM : ℚ) : ℝ) < |X|) :
    (Ok (coshf N x) fun z => f32.IsInf z ∧ f32.sign z = false) ∧ 2 ^ (128 : ℤ) ≤ Real.cosh X := by
  have ha := abs_fv hx
  have c1 := w_lt hx 0x3f317217 (11629079 / 16777216) (by decide +kernel)
  have c3 := w_lt hx 0x42b17217 (11629079 / 131072) (by decide +kernel)
  push_cast at c1 c3
  have hl : (11629079 / 131072 : ℝ) ≤ |X| := by
    have c : 11629079 / 131072 ≤ f32.val LIM := by decide +kernel
    have := Rat.cast_le (K := ℝ).mpr c
    push_cast at this
    linarith
  obtain ⟨k1, k2⟩ := kexpo2_big N ha h
  constructor
  · unfold coshf
    simp only
    rw [if_neg (fun hc => by have := c1.mp hc; norm_num1 at *; linarith), if_neg (fun hc => by have := c3.mp hc; linarith)]
    exact k1
  · rw [← Real.cosh_abs, Real.cosh_eq]
    have := Real.exp_pos (-|X|)
    have hP : (0 : ℝ) < 2 ^ (128 : ℤ) := by positivity
    generalize (2 : ℝ) ^ (128 : ℤ) = P at *
    norm_num1 at *
    linarith

/-- no overflow up to the limit -/
theorem cosh_lim {X : ℝ} (h : |X| ≤ (f32.val LIM : ℚ)) : Real.cosh X < 2 ^ (128 : ℤ) := by
  have h1 : Real.cosh X ≤ Real.cosh (f32.val LIM : ℚ) := by
    rw [Real.cosh_le_cosh]
    exact h.trans (le_abs_self _)
  refine lt_of_le_of_lt h1 ?_
  have h2 := room_lim (le_refl ((f32.val LIM : ℚ) : ℝ))
  have h3 := lim_small.1
  have h4 := exp_neg_tiny (X := ((f32.val LIM : ℚ) : ℝ)) (by linarith)
  rw [Real.cosh_eq]
  have h5 := Real.exp_pos ((f32.val LIM : ℚ) : ℝ)
  generalize Real.exp ((f32.val LIM : ℚ) : ℝ) = E at *
  generalize Real.exp (-((f32.val LIM : ℚ) : ℝ)) = E' at *
  generalize (2 : ℝ) ^ (128 : ℤ) = P at *
  norm_num1 at *
  linarith

theorem coshf_special (N : FPU f32) (x : S) :
    (f32.IsNaN x → Ok (coshf N x) f32.IsNaN) ∧ (f32.IsInf x → Ok (coshf N x) fun z => f32.IsInf z ∧ f32.sign z = false) := by
  have hs : f32.sign (abs32 x) = false := by rw [abs_eq]; exact (f32.fabs_facts x).1
  have hm : f32.mag (abs32 x) = f32.mag x := by rw [abs_eq]; exact (f32.fabs_facts x).2
  constructor
  · intro h
    have hw := w_big (le_of_lt h)
    have hn : f32.IsNaN (abs32 x) := by unfold Fmt.IsNaN at *; rw [hm]; exact h
    unfold coshf
    simp only
    rw [if_neg (by omega), if_neg (by omega)]
    have h1 := (N.sub_spec (abs32 x) KLN2).2.1 (Or.inl hn)
    refine ⟨_, ?_, (N.mul_spec _ SCALE).2.1 (Or.inl ((N.mul_spec _ SCALE).2.1 (Or.inl h1)))⟩
    unfold kexpo2f expo2
    rw [(Exp.F32.expf_special N _).1 h1]; rfl
  · intro h
    have hw := w_big (le_of_eq h.symm)
    have hn : f32.IsInf (abs32 x) := by unfold Fmt.IsInf at *; rw [hm]; exact h
    unfold coshf
    simp only
    rw [if_neg (by omega), if_neg (by omega)]
    have hknan : ¬ f32.IsNaN (f32.neg KLN2) := by decide +kernel
    have hkinf : ¬ f32.IsInf (f32.neg KLN2) := by decide +kernel
    have h1 := (N.sub_spec (abs32 x) KLN2).2.2.1 hn hknan
    rw [if_neg (by tauto)] at h1
    have h2 : f32.IsInf (N.sub (abs32 x) KLN2) ∧ f32.sign (N.sub (abs32 x) KLN2) = false := by rw [h1]; exact ⟨hn, hs⟩
    obtain ⟨z, hz, hi⟩ := (Exp.F32.expf_special N _).2.1 h2.1 h2.2
    exact expo2_big N (c := 117) ⟨z, hz, Or.inl hi⟩ scale_fv (by norm_num)

/-! ## `sinh` -/

theorem h_eq (x : S) : h32 x = if f32.sign x then f32.neg K32.half else K32.half := by
  unfold h32
  rw [sign32 x]
  cases f32.sign x <;> simp

/-- `±1/2` with the sign of `x` -/
theorem h_fv (x : S) : ∃ σ, GFv f32 (h32 x) σ ∧ (σ = 1 / 2 ∨ σ = -(1 / 2)) ∧ σ = (if f32.sign x then -(1 / 2) else 1 / 2) := by
  rw [h_eq]
  cases f32.sign x
  · exact ⟨1 / 2, by simpa using ok32.half, Or.inl rfl, by simp⟩
  · exact ⟨-(1 / 2), by simpa using ok32.half.neg, Or.inr rfl, by simp⟩

theorem sinh_sgn {x : S} {X : ℝ} (hx : GFv f32 x X) {σ : ℝ} (hσ : σ = if f32.sign x then -(1 / 2) else 1 / 2) : Real.sinh X = σ * (2 * Real.sinh |X|) ∧ |Real.sinh X| = Real.sinh |X| := by
  have h0 : 0 ≤ Real.sinh |X| := Real.sinh_nonneg_iff.mpr (abs_nonneg X)
  have e := hx.eq_abs
  constructor
  · cases hs : f32.sign x
    · rw [hs] at e hσ; simp only [Bool.false_eq_true, if_false] at e hσ
      rw [hσ, ← e]; ring
    · rw [hs] at e hσ; simp only [if_true] at e hσ
      rw [hσ]
      conv_lhs => rw [e, Real.sinh_neg]
      ring
  · cases hs : f32.sign x
    · rw [hs] at e; simp only [Bool.false_eq_true, if_false] at e
      conv_lhs => rw [e]
      exact abs_of_nonneg h0
    · rw [hs] at e; simp only [if_true] at e
      conv_lhs => rw [e, Real.sinh_neg, abs_neg]
      exact abs_of_nonneg h0

/-- what is claimed of `sinh` -/
def SGood (x z : S) (X : ℝ) : Prop := ∃ V, GFv f32 z V ∧ |V - Real.sinh X| ≤ 4.5 * (1 / 2 ^ (f32.s + 1)) * |Real.sinh X| ∧ (X = 0 → z = x)

/-- twice `h` is `±1`, and the product with it is exact -/
theorem one_mul_ex (N : FPU f32) {h e : S} {σ E : ℝ} (hh : GFv f32 h σ) (hσ : σ = 1 / 2 ∨ σ = -(1 / 2)) (he : GFv f32 e E) : GFv f32 (N.mul K32.two h) (2 * σ) ∧ GFv f32 (N.mul (N.mul K32.two h) e) (2 * σ * E) := by
  have hσ1 : |σ| = 1 / 2 := by rcases hσ with rfl | rfl <;> norm_num
  have h1 : GFv f32 (N.mul K32.two h) (2 * σ) := by
    have := dblX (k := 1) (z := N.mul K32.two h) big32 hh (by rw [hσ1]; norm_num) (by norm_num) (by rw [zpow_one, mul_comm]; exact ok32.two.mulR N hh) (big_of big32 (by rw [zpow_one, abs_mul, hσ1]; norm_num))
    rwa [zpow_one, mul_comm] at this
  refine ⟨h1, ?_⟩
  have hR := h1.mulR N he
  have h2 : |2 * σ * E| = |E| := by rw [abs_mul, abs_mul, hσ1]; norm_num
  have h3 : |E| < 2 ^ ((f32.bias : ℤ) + 1) := by
    have := he.fin
    unfold Fmt.IsFin at this
    rwa [← f32.magValR_lt_iff, f32.magValR_infRep, ← f32.absvR, he.val] at this
  have hrp : f32.Rp (2 * σ * E) := by
    obtain ⟨c, hc⟩ := f32.rp_val e
    rw [he.val] at hc
    exact ⟨c, by rw [h2, hc]⟩
  have hv := hR.exactR f32 hrp (by rw [h2]; exact h3.le)
  exact ⟨fin_of_le (g := |E|) (by rw [hv, h2]) h3, hv⟩

theorem sinhf_fin (N : FPU f32) {x : S} {X : ℝ} (hx : GFv f32 x X) (h : |X| ≤ (f32.val LIM : ℚ)) : Ok (sinhf N x) fun z => SGood x z X := by
  have ha := abs_fv hx
  have hu0 := u_pos f32
  have c1 := w_lt hx 0x3f800000 1 (by decide +kernel)
  have c2 := w_lt hx (0x3f800000 - (12 <<< 23)) (1 / 4096) (by decide +kernel)
  have c3 := w_lt hx 0x42b17217 (11629079 / 131072) (by decide +kernel)
  push_cast at c1 c2 c3
  obtain ⟨σ, hh, hσ, hσ'⟩ := h_fv x
  obtain ⟨s1, s2⟩ := sinh_sgn hx hσ'
  have hσ1 : |σ| = 1 / 2 := by rcases hσ with rfl | rfl <;> norm_num
  unfold sinhf SGood
  simp only
  have ha0 := abs_nonneg X
  have hlim := lim_small.2
  have hz0 : X = 0 → |X| = 0 := fun h => by rw [h, abs_zero]
  rw [s2]
  have hxx := hx
  have habs : X = 2 * σ * |X| := by
    have e := hx.eq_abs
    cases hs : f32.sign x
    · rw [hs] at e hσ'; simp only [Bool.false_eq_true, if_false] at e hσ'
      rw [hσ', ← e]; ring
    · rw [hs] at e hσ'; simp only [if_true] at e hσ'
      rw [hσ']; linarith
  rw [s1]
  generalize |X| = a at *
  by_cases h3 : (abs32 x).toNat < 0x42b17217
  · rw [if_pos h3]
    have b3 := c3.mp h3
    have b3' : a ≤ 88.7228317261 := by norm_num1 at *; linarith
    obtain ⟨t, ht, τ, g1, g2⟩ := expm1_rl N ha b3'
    rw [ht]
    simp only [ok_bind]
    by_cases h1 : (abs32 x).toNat < 0x3f800000
    · rw [if_pos h1]
      have b1 := c1.mp h1
      by_cases h2 : (abs32 x).toNat < 0x3f800000 - (12 <<< 23)
      · rw [if_pos h2]
        have b2 := c2.mp h2
        refine ⟨_, rfl, X, hx, ?_, fun _ => rfl⟩
        obtain ⟨n1, n2⟩ := sinh_near ha0 (by norm_num1 at *; linarith)
        have e : X - σ * (2 * Real.sinh a) = 2 * σ * (a - Real.sinh a) := by
          rw [mul_sub, ← habs]; ring
        rw [e, abs_mul, abs_mul, hσ1, abs_sub_comm, abs_of_nonneg (show 0 ≤ Real.sinh a - a by linarith), s32]
        have h4 : a ^ 2 ≤ (1 / 4096) ^ 2 := pow_le_pow_left₀ ha0 b2.le 2
        have h5 : a ^ 3 ≤ (1 / 4096) ^ 2 * a := by rw [pow_succ]; exact mul_le_mul_of_nonneg_right h4 ha0
        norm_num at h5 ⊢
        linarith
      · rw [if_neg h2]
        have b2 := not_lt.mp (mt c2.mpr h2)
        have e1 := Real.add_one_le_exp a
        have e2 := exp_le1 (a := a) (by linarith)
        obtain ⟨V, hV, eV⟩ := sSmall_spec big32 ok32 N hh hσ g1 g2 (by norm_num1 at *; linarith) e2
        have hS := sinh_eq1 a
        have hS0 : 0 ≤ Real.sinh a := Real.sinh_nonneg_iff.mpr ha0
        refine ⟨_, rfl, V, hV, ?_, fun h0 => absurd (hz0 h0) (by intro hc; rw [hc] at b2; norm_num at b2)⟩
        rw [show Real.exp a - 1 + (Real.exp a - 1) / (Real.exp a - 1 + 1) = 2 * Real.sinh a by rw [hS]; ring] at eV
        exact abs_tol' eV hS0 (by linarith)
    · rw [if_neg h1]
      have b1 := not_lt.mp (mt c1.mpr h1)
      obtain ⟨V, hV, eV⟩ := sMid_spec big32 ok32 N hh hσ g1 g2 (exp_ge1 b1) (room_mono (exp_room b3') (by linarith))
      have hS := sinh_eq1 a
      have hS0 : 0 ≤ Real.sinh a := Real.sinh_nonneg_iff.mpr ha0
      refine ⟨_, rfl, V, hV, ?_, fun h0 => absurd (hz0 h0) (by intro hc; rw [hc] at b1; norm_num at b1)⟩
      rw [show Real.exp a - 1 + (Real.exp a - 1) / (Real.exp a - 1 + 1) = 2 * Real.sinh a by rw [hS]; ring] at eV
      exact abs_tol' eV hS0 (by linarith)
  · rw [if_neg h3]
    have b3 := not_lt.mp (mt c3.mpr h3)
    obtain ⟨z, hz, V, hV, eV⟩ := kexpo2_fin N ha (by norm_num1 at *; linarith) h
    rw [hz]
    simp only [ok_bind]
    have e1 := exp_neg_tiny (X := a) (by norm_num1 at *; linarith)
    have e2 : 80 ≤ Real.exp a := by have := Real.add_one_le_exp a; norm_num1 at *; linarith
    have hp := Real.exp_pos (-a)
    have e3 := Real.sinh_eq a
    obtain ⟨-, hV2⟩ := one_mul_ex N hh hσ hV
    refine ⟨_, rfl, _, hV2, ?_, fun h0 => absurd (hz0 h0) (by intro hc; rw [hc] at b3; norm_num at b3)⟩
    rw [show 2 * σ * V - σ * (2 * Real.sinh a) = 2 * σ * (V - Real.sinh a) by ring, abs_mul, abs_mul, hσ1]
    rw [s32] at *
    have : |V - Real.sinh a| ≤ 4.5 * (1 / 2 ^ (23 + 1)) * Real.sinh a := by
      rw [abs_le] at eV ⊢
      generalize Real.exp a = E at *
      generalize Real.exp (-a) = E' at *
      rw [e3]
      norm_num1 at *
      constructor <;> linarith [eV.1, eV.2]
    rw [abs_of_pos (show (0 : ℝ) < 2 by norm_num)]
    linarith

theorem sinhf_big (N : FPU f32) {x : S} {X : ℝ} (hx : GFv f32 x X) (h : ((f32.val LIM : ℚ) : ℝ) < |X|) :
    (Ok (sinhf N x) fun z => f32.IsInf z ∧ f32.sign z = f32.sign x) ∧ 2 ^ (128 : ℤ) ≤ |Real.sinh X| := by
  have ha := abs_fv hx
  have c3 := w_lt hx 0x42b17217 (11629079 / 131072) (by decide +kernel)
  push_cast at c3
  have hl : (11629079 / 131072 : ℝ) ≤ |X| := by
    have c : 11629079 / 131072 ≤ f32.val LIM := by decide +kernel
    have := Rat.cast_le (K := ℝ).mpr c
    push_cast at this
    linarith
  obtain ⟨⟨z, hz, hi⟩, k2⟩ := kexpo2_big N ha h
  obtain ⟨σ, hh, hσ, hσ'⟩ := h_fv x
  constructor
  · unfold sinhf
    simp only
    rw [if_neg (fun hc => by have := c3.mp hc; linarith), hz]
    simp only [ok_bind]
    refine ⟨_, rfl, ?_⟩
    exact sgn_inf big32 ok32 N hh hσ' hi
  · rw [(sinh_sgn hx hσ').2, Real.sinh_eq]
    have h1 := exp_neg_tiny (X := |X|) (by norm_num1 at *; linarith)
    generalize Real.exp |X| = E at *
    generalize Real.exp (-|X|) = E' at *
    have hP : (0 : ℝ) < 2 ^ (128 : ℤ) := by positivity
    generalize (2 : ℝ) ^ (128 : ℤ) = P at *
    norm_num1 at *
    linarith

theorem sinhf_special (N : FPU f32) (x : S) :
    (f32.IsNaN x → Ok (sinhf N x) f32.IsNaN) ∧ (f32.IsInf x → Ok (sinhf N x) fun z => f32.IsInf z ∧ f32.sign z = f32.sign x) := by
  have hs : f32.sign (abs32 x) = false := by rw [abs_eq]; exact (f32.fabs_facts x).1
  have hm : f32.mag (abs32 x) = f32.mag x := by rw [abs_eq]; exact (f32.fabs_facts x).2
  constructor
  · intro h
    have hw := w_big (le_of_lt h)
    have hn : f32.IsNaN (abs32 x) := by unfold Fmt.IsNaN at *; rw [hm]; exact h
    unfold sinhf
    simp only
    rw [if_neg (by omega)]
    have h1 := (N.sub_spec (abs32 x) KLN2).2.1 (Or.inl hn)
    refine ⟨_, ?_, (N.mul_spec (N.mul K32.two (h32 x)) _).2.1 (Or.inr ((N.mul_spec _ SCALE).2.1 (Or.inl ((N.mul_spec _ SCALE).2.1 (Or.inl h1)))))⟩
    unfold kexpo2f expo2
    rw [(Exp.F32.expf_special N _).1 h1]; rfl
  · intro h
    have hw := w_big (le_of_eq h.symm)
    have hn : f32.IsInf (abs32 x) := by unfold Fmt.IsInf at *; rw [hm]; exact h
    unfold sinhf
    simp only
    rw [if_neg (by omega)]
    have hknan : ¬ f32.IsNaN (f32.neg KLN2) := by decide +kernel
    have hkinf : ¬ f32.IsInf (f32.neg KLN2) := by decide +kernel
    have h1 := (N.sub_spec (abs32 x) KLN2).2.2.1 hn hknan
    rw [if_neg (by tauto)] at h1
    have h2 : f32.IsInf (N.sub (abs32 x) KLN2) ∧ f32.sign (N.sub (abs32 x) KLN2) = false := by rw [h1]; exact ⟨hn, hs⟩
    obtain ⟨z, hz, hi⟩ := (Exp.F32.expf_special N _).2.1 h2.1 h2.2
    obtain ⟨z', hz', hi'⟩ := expo2_big N (x := abs32 x) (kln2 := KLN2) (c := 117) ⟨z, hz, Or.inl hi⟩ scale_fv (by norm_num)
    have hk : kexpo2f N (abs32 x) = .ok z' := hz'
    rw [hk]
    simp only [ok_bind]
    obtain ⟨σ, hh, hσ, hσ'⟩ := h_fv x
    exact ⟨_, rfl, sgn_inf big32 ok32 N hh hσ' hi'⟩

/-! ## `tanh` -/

/-- what is claimed of `tanh` for arguments not below zero -/
def TGood (z : S) (a : ℝ) : Prop := ∃ V, GFv f32 z V ∧ |V - Real.tanh a| ≤ 4.6 * (1 / 2 ^ (f32.s + 1)) * Real.tanh a ∧ V ≤ 1 ∧ f32.sign z = false

theorem tgood_of {z : S} {V a : ℝ} (ha : 0 < a) (hV : GFv f32 z V) (h : |V - Real.tanh a| ≤ 4.6 * (1 / 2 ^ (f32.s + 1)) * Real.tanh a) (h1 : V ≤ 1) : TGood z a := by
  refine ⟨V, hV, h, h1, hV.sign_of_pos ?_⟩
  have := tanh_pos ha
  have := (abs_le.mp h).1
  rw [s32] at this
  norm_num at this
  linarith

theorem le_one_of {V a : ℝ} (h : a ≤ 1) (hV : |V - Real.tanh a| ≤ 4.6 * (1 / 2 ^ (f32.s + 1)) * Real.tanh a) : V ≤ 1 := by
  have h1 := tanh_small h
  have := (abs_le.mp hV).2
  rw [s32] at this
  norm_num1 at *
  linarith

theorem two_x (N : FPU f32) {x : S} {a : ℝ} (hx : GFv f32 x a) (ha : |a| ≤ 2 ^ 100) : GFv f32 (N.mul K32.two x) (2 * a) ∧ GFv f32 (N.mul K32.mtwo x) (-2 * a) := by
  have hb : |a| * 2 < 2 ^ ((f32.bias : ℤ) + 1) := by
    rw [b32]
    refine lt_of_le_of_lt (show |a| * 2 ≤ 2 ^ (101 : ℤ) by norm_num1 at *; linarith) (zpow_lt_zpow_right₀ (by norm_num) (by norm_num))
  constructor
  · have := up_ex (k := 1) (z := N.mul K32.two x) hx (by norm_num) (by rw [zpow_one, mul_comm]; exact ok32.two.mulR N hx) (by rw [zpow_one, abs_mul]; simpa using hb)
    rwa [zpow_one, mul_comm] at this
  · have := up_ex (k := 1) (z := N.mul K32.mtwo x) hx.neg (by norm_num) (by rw [zpow_one, show -a * 2 = -2 * a by ring]; exact ok32.mtwo.mulR N hx) (by rw [zpow_one, abs_mul, abs_neg]; simpa using hb)
    rwa [zpow_one, show -a * 2 = -2 * a by ring] at this

theorem tanhfAbs_fin (N : FPU f32) {x : S} {a : ℝ} (hx : GFv f32 (abs32 x) a) (ha0 : 0 ≤ a) : Ok (tanhfAbs N (abs32 x)) fun z => TGood z a := by
  have hu0 := u_pos f32
  have hself := abs_abs x
  have c1 := w_lt hx 0x3f0c9f55 (9215829 / 16777216) (by decide +kernel)
  have c2 := w_lt hx 0x41200001 (10485761 / 1048576) (by decide +kernel)
  have c3 := w_lt hx 0x3e82c579 (8570233 / 33554432) (by decide +kernel)
  have c4 := w_lt hx 0x00800000 (1 / 2 ^ 126) (by decide +kernel)
  rw [hself, abs_of_nonneg ha0] at c1 c2 c3 c4
  push_cast at c1 c2 c3 c4
  unfold tanhfAbs
  simp only
  generalize hw : (abs32 x).toNat = w at *
  by_cases h1 : w > 0x3f0c9f54
  · rw [if_pos h1]
    have b1 := not_lt.mp (mt c1.mpr (by omega))
    have hap : 0 < a := lt_of_lt_of_le (by norm_num) b1
    by_cases h2 : w > 0x41200000
    · rw [if_pos h2]
      have b2 := not_lt.mp (mt c2.mpr (by omega))
      have hd : GFv f32 (N.div 0#f32.w (abs32 x)) 0 := by
        have := zero_fv.divR N hx hap.ne'
        rw [zero_div] at this
        exact GFv.of_rounds big32 (j := 0) this ⟨0, by simp⟩ (by rw [abs_zero]; positivity) (by rw [b32, s32]; norm_num) (by rw [abs_zero]; positivity)
      have h1 : GFv f32 (N.add K32.one (N.div 0#f32.w (abs32 x))) 1 := by
        have := ok32.one.addR N hd
        rw [add_zero] at this
        exact GFv.of_rounds big32 (j := 0) this ⟨1, by simp⟩ (by rw [abs_one, s32]; norm_num) (by rw [b32, s32]; norm_num) (by norm_num)
      refine ⟨_, rfl, tgood_of hap h1 ?_ le_rfl⟩
      have e1 : (2 : ℝ) ^ (28 : ℤ) ≤ Real.exp (2 * a) := by
        have : 0 + ((28 : ℤ) : ℝ) * Real.log 2 ≤ 2 * a := by
          have := Real.log_two_lt_d9
          push_cast; norm_num1 at *; linarith
        have := Real.exp_le_exp.mpr this
        rwa [exp_add_log, Real.exp_zero, one_mul] at this
      have e2 : 1 - Real.tanh a = 2 / (Real.exp (2 * a) + 1) := by
        rw [tanh_eq1]
        have := Real.exp_pos (2 * a)
        have h0 : Real.exp (2 * a) - 1 + 2 ≠ 0 := by linarith
        have h0' : Real.exp (2 * a) + 1 ≠ 0 := by linarith
        field_simp; ring
      have e3 : 2 / (Real.exp (2 * a) + 1) ≤ 1 / 2 ^ 27 := by
        have hE := Real.exp_pos (2 * a)
        rw [div_le_iff₀ (by linarith)]
        norm_num1 at *
        linarith
      have e4 : 0 ≤ 2 / (Real.exp (2 * a) + 1) := by have := Real.exp_pos (2 * a); positivity
      rw [e2, abs_of_nonneg e4, s32]
      have e5 : 1 - 1 / 2 ^ 27 ≤ Real.tanh a := by linarith
      norm_num1 at *
      linarith
    · rw [if_neg h2]
      have b2 := c2.mp (by omega)
      obtain ⟨d1, -⟩ := two_x N hx (by rw [abs_of_pos hap]; norm_num1 at *; linarith)
      obtain ⟨t, ht, τ, g1, g2⟩ := expm1_rl N d1 (by norm_num1 at *; linarith)
      have e1 : 1.99 ≤ Real.exp (2 * a) - 1 := by
        have h3 := Real.exp_le_exp.mpr (show (1.098 : ℝ) ≤ 2 * a by norm_num1 at *; linarith)
        have h4 := exp_1098
        norm_num1 at *; linarith
      have e2 : Real.exp (2 * a) - 1 ≤ 2 ^ 80 := by
        have : 2 * a ≤ 0 + ((80 : ℤ) : ℝ) * Real.log 2 := by
          have := Real.log_two_gt_d9
          push_cast; norm_num1 at *; linarith
        have := Real.exp_le_exp.mpr this
        rw [exp_add_log, Real.exp_zero, one_mul] at this
        norm_num1 at *
        linarith
      obtain ⟨V, hV, eV, V1⟩ := tA_spec big32 ok32 N g1 g2 e1 e2
      rw [← tanh_eq1] at eV
      exact ⟨_, by rw [ht]; rfl, tgood_of hap hV eV V1⟩
  · rw [if_neg h1]
    have b1 := c1.mp (by omega)
    by_cases h2 : w > 0x3e82c578
    · rw [if_pos h2]
      have b2 := not_lt.mp (mt c3.mpr (by omega))
      have hap : 0 < a := lt_of_lt_of_le (by norm_num) b2
      obtain ⟨d1, -⟩ := two_x N hx (by rw [abs_of_pos hap]; norm_num1 at *; linarith)
      obtain ⟨t, ht, τ, g1, g2⟩ := expm1_rl N d1 (by norm_num1 at *; linarith)
      have e1 := Real.add_one_le_exp (2 * a)
      have e2 : Real.exp (2 * a) ≤ 7.5 := by
        have h2 : Real.exp (2 * a) ≤ Real.exp 2 := Real.exp_le_exp.mpr (by linarith)
        have h3 : Real.exp 2 = Real.exp 1 * Real.exp 1 := by rw [← Real.exp_add]; norm_num
        have h4 := Real.exp_one_lt_d9
        have h5 := Real.exp_pos 1
        norm_num1 at *; nlinarith
      obtain ⟨V, hV, eV⟩ := tDiv_spec big32 ok32 N g1 g2 (by
        refine le_trans ?_ (le_abs_self _); norm_num1 at *; linarith) (by norm_num1 at *; linarith) (by norm_num1 at *; linarith)
      rw [← tanh_eq1, abs_of_pos (tanh_pos hap)] at eV
      exact ⟨_, by rw [ht]; rfl, tgood_of hap hV eV (le_one_of (by linarith) eV)⟩
    · rw [if_neg h2]
      have b2 := c3.mp (by omega)
      by_cases h3 : w ≥ 0x00800000
      · rw [if_pos h3]
        have b3 := not_lt.mp (mt c4.mpr (by omega))
        have hap : 0 < a := lt_of_lt_of_le (by positivity) b3
        obtain ⟨-, d1⟩ := two_x N hx (by rw [abs_of_pos hap]; norm_num1 at *; linarith)
        obtain ⟨t, ht, τ, g1, g2⟩ := expm1_rl N d1 (by norm_num1 at *; linarith)
        rcases lt_or_ge a (1 / 2 ^ 59) with h4 | h4
        · obtain ⟨V, hV, eV⟩ := tC_tiny big32 (by rw [s32]; norm_num) ok32 N g1 (by
            rw [b32]
            refine le_trans (le_of_eq ?_) b3
            rw [show (1 : ℤ) - ((127 : ℕ) : ℤ) = -((126 : ℕ) : ℤ) by norm_num, zpow_neg, zpow_natCast, one_div]) h4 g2
          exact ⟨_, by rw [ht]; rfl, tgood_of hap hV eV (le_one_of (by norm_num1 at *; linarith) eV)⟩
        · have e1 : 0.599 ≤ Real.exp (-2 * a) := by
            have h5 : Real.exp (-0.511) ≤ Real.exp (-2 * a) := Real.exp_le_exp.mpr (by norm_num1 at *; linarith)
            have h6 := exp_half_bd
            rw [Real.exp_neg] at h5
            have h7 := inv_anti₀ (Real.exp_pos _) h6
            norm_num1 at *
            linarith
          have e2 : Real.exp (-2 * a) ≤ 1 - a := by
            have h5 := Real.add_one_le_exp (2 * a)
            rw [show -2 * a = -(2 * a) by ring, Real.exp_neg]
            refine (inv_anti₀ (by linarith) h5).trans ?_
            rw [inv_le_iff_one_le_mul₀ (by linarith)]
            nlinarith
          obtain ⟨V, hV, eV⟩ := tC_spec big32 ok32 N g1 g2 (by
            rw [abs_of_neg (by linarith)]; norm_num1 at *; linarith) (by norm_num1 at *; linarith) (by linarith)
          have htn := tanh_eq2 a
          rw [← htn, show (Real.exp (-2 * a) - 1) / (Real.exp (-2 * a) - 1 + 2) = -Real.tanh a by rw [htn]; ring, abs_neg, abs_of_pos (tanh_pos hap)] at eV
          exact ⟨_, by rw [ht]; rfl, tgood_of hap hV eV (le_one_of (by norm_num1 at *; linarith) eV)⟩
      · rw [if_neg h3]
        have b3 := c4.mp (by omega)
        have b3' : a ≤ 1 / 2 ^ 100 := by
          refine b3.le.trans (one_div_le_one_div_of_le (by positivity) (pow_le_pow_right₀ (by norm_num) (by norm_num)))
        obtain ⟨n1, n2⟩ := tanh_near ha0 (by norm_num1 at *; linarith)
        refine ⟨_, rfl, a, hx, ?_, by norm_num1 at *; linarith, by rw [abs_eq]; exact (f32.fabs_facts x).1⟩
        have hsq : a ^ 2 ≤ 1 / 2 ^ 100 * a := by rw [sq]; exact mul_le_mul_of_nonneg_right b3' ha0
        rw [s32, abs_le]
        norm_num1 at *
        constructor <;> linarith

theorem tanhf_fin (N : FPU f32) {x : S} {X : ℝ} (hx : GFv f32 x X) :
    Ok (tanhf N x) fun z => ∃ V, GFv f32 z V ∧ |V - Real.tanh X| ≤ 4.6 * (1 / 2 ^ (f32.s + 1)) * |Real.tanh X| ∧ |V| ≤ 1 ∧ f32.sign z = f32.sign x := by
  obtain ⟨t, ht, V, hV, eV, V1, hs⟩ := tanhfAbs_fin N (abs_fv hx) (abs_nonneg X)
  have hV0 := hV.nonneg hs
  have hT0 : 0 ≤ Real.tanh |X| := by
    rw [Real.tanh_eq_sinh_div_cosh]; exact div_nonneg (Real.sinh_nonneg_iff.mpr (abs_nonneg X)) (Real.cosh_pos _).le
  have e := hx.eq_abs
  unfold tanhf
  rw [ht, sign32 x]
  simp only [ok_bind]
  cases hsx : f32.sign x
  · rw [hsx] at e; simp only [Bool.false_eq_true, if_false] at e
    rw [← e] at eV hT0
    refine ⟨t, by simp, V, hV, ?_, ?_, hs⟩
    · rw [abs_of_nonneg hT0]; exact eV
    · rw [abs_of_nonneg hV0]; exact V1
  · rw [hsx] at e; simp only [if_true] at e
    refine ⟨f32.neg t, by simp, -V, hV.neg, ?_, ?_, by rw [f32.sign_neg, hs]; rfl⟩
    · have e2 : Real.tanh X = -Real.tanh |X| := by conv_lhs => rw [e, Real.tanh_neg]
      rw [e2, abs_neg, abs_of_nonneg hT0, show -V - -Real.tanh |X| = -(V - Real.tanh |X|) by ring, abs_neg]
      exact eV
    · rw [abs_neg, abs_of_nonneg hV0]; exact V1

theorem tanhf_special (N : FPU f32) (x : S) :
    (f32.IsNaN x → Ok (tanhf N x) f32.IsNaN) ∧ (f32.IsInf x → Ok (tanhf N x) fun z => f32.val z = if f32.sign x then -1 else 1) := by
  have hs : f32.sign (abs32 x) = false := by rw [abs_eq]; exact (f32.fabs_facts x).1
  have hm : f32.mag (abs32 x) = f32.mag x := by rw [abs_eq]; exact (f32.fabs_facts x).2
  constructor
  · intro h
    have hw := w_big (le_of_lt h)
    have hn : f32.IsNaN (abs32 x) := by unfold Fmt.IsNaN at *; rw [hm]; exact h
    have h1 := (N.div_spec 0#f32.w (abs32 x)).2.1 (Or.inr hn)
    have h2 : f32.IsNaN (N.add K32.one (N.div 0#f32.w (abs32 x))) := by
      exact (N.add_spec K32.one _).2.1 (Or.inr h1)
    have ht : tanhfAbs N (abs32 x) = .ok (N.add K32.one (N.div 0#f32.w (abs32 x))) := by
      unfold tanhfAbs
      simp only
      rw [if_pos (by omega), if_pos (by omega)]
    unfold tanhf
    rw [ht]
    refine ⟨_, rfl, ?_⟩
    split
    · unfold Fmt.IsNaN at *; rw [f32.mag_neg]; exact h2
    · exact h2
  · intro h
    have hw := w_big (le_of_eq h.symm)
    have hn : f32.IsInf (abs32 x) := by unfold Fmt.IsInf at *; rw [hm]; exact h
    have hnn : ¬ f32.IsNaN (abs32 x) := by unfold Fmt.IsInf Fmt.IsNaN at *; omega
    have h1 := (N.div_spec 0#f32.w (abs32 x)).2.2 (by decide) hnn (Or.inr (Or.inl hn))
    have hz : ¬ f32.IsZero (abs32 x) := by
      have e : f32.infRep = 0x7f800000 := by decide
      unfold Fmt.IsInf Fmt.IsZero at *; omega
    rw [if_neg (by
      rintro (⟨h, -⟩ | ⟨-, h⟩)
      · exact absurd h (by decide)
      · exact hz h), if_pos hn] at h1
    have hd : GFv f32 (N.div 0#f32.w (abs32 x)) 0 := by
      have h2 : f32.mag (N.div 0#f32.w (abs32 x)) = 0 := h1.2
      refine ⟨?_, ?_⟩
      · unfold Fmt.IsFin; rw [h2]; decide
      · unfold Fmt.valK; rw [h2, ← f32.magVal_cast, f32.magVal_zero]; simp
    have h1 : GFv f32 (N.add K32.one (N.div 0#f32.w (abs32 x))) 1 := by
      have := ok32.one.addR N hd
      rw [add_zero] at this
      exact GFv.of_rounds big32 (j := 0) this ⟨1, by simp⟩ (by rw [abs_one, s32]; norm_num) (by rw [b32, s32]; norm_num) (by norm_num)
    have ht : tanhfAbs N (abs32 x) = .ok (N.add K32.one (N.div 0#f32.w (abs32 x))) := by
      unfold tanhfAbs
      simp only
      rw [if_pos (by omega), if_pos (by omega)]
    unfold tanhf
    rw [ht, sign32 x]
    refine ⟨_, rfl, ?_⟩
    cases f32.sign x
    · have := h1.valQ
      simp only [Bool.false_eq_true, if_false, ne_eq, not_true_eq_false]
      exact_mod_cast this
    · have := h1.neg.valQ
      simp only [if_true, ne_eq, one_ne_zero, not_false_eq_true]
      exact_mod_cast this
end F32
end Hyper
end Verif
