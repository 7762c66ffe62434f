import Verif.Libm.Exp2D
/-! # `exp2`: the special cases -/
namespace Verif
open Fmt
namespace Exp2

/-! ### The special cases -/

theorem bits64 (x : D) : x.toNat >>> 63 = (if f64.sign x then 1 else 0) := by
  have h : x.toNat < 2 ^ 64 := x.isLt
  have h2 := f64.toNat_eq x
  have h3 : f64.mag x < 2 ^ 63 := by
    unfold mag
    exact Nat.mod_lt _ (by rw [show f64.e + f64.s = 63 from rfl]; norm_num)
  rw [show f64.e + f64.s = 63 from rfl] at h2
  rw [Nat.shiftRight_eq_div_pow]
  split at h2 <;> rename_i hs <;> simp only [hs] <;> simp <;> omega

/-- the high word without the sign -/
def hiD (x : D) : ℕ := (x.toNat >>> 32) &&& 0x7fffffff

theorem hiD_eq (x : D) : hiD x = f64.mag x / 2 ^ 32 := by
  unfold hiD
  rw [Nat.shiftRight_eq_div_pow, show 0x7fffffff = 2 ^ 31 - 1 from rfl, Nat.and_two_pow_sub_one_eq_mod]
  show x.toNat / 2 ^ 32 % 2 ^ 31 = x.toNat % 2 ^ (11 + 52) / 2 ^ 32
  have : x.toNat < 2 ^ 64 := x.isLt
  omega

theorem hiD_lt {x : D} {X : ℝ} (h : GFv f64 x X) {c : ℕ} {q : ℚ} (hc : f64.magVal ℚ (c * 2 ^ 32) = q) : hiD x < c ↔ |X| < q := by
  rw [hiD_eq, h.abs_eq, ← hc, f64.magVal_cast, f64.magValR_lt_iff, Nat.div_lt_iff_lt_mul (by positivity)]

section
variable (N64 : FPU f64) {x : D} {X : ℝ} (hx : GFv f64 x X)
include hx

omit hx in
theorem m1075_fv : GFv f64 m1075 (-1075) := by
  have := GFv.const (F := f64) (b := m1075) (q := -1075) (by decide +kernel) (by decide +kernel); push_cast at this; exact this

theorem special_none (h1 : -1075 < X) (h2 : X < 1024) (h3 : 1 / 2 ^ 54 ≤ |X|) : special N64 x = none := by
  have hdef : (x.toNat >>> 32) &&& 0x7fffffff = hiD x := rfl
  have m1 := hiD_lt hx (c := 0x3c900000) (q := 1 / 2 ^ 54) (by decide +kernel)
  have m2 := hiD_lt hx (c := 0x40900000) (q := 1024) (by decide +kernel)
  have m3 := hiD_lt hx (c := 0x7ff00000) (q := 2 ^ 1024) (by decide +kernel)
  push_cast at m1 m2 m3
  have k1 : ¬ hiD x < 0x3c900000 := fun h => absurd (m1.mp h) (not_lt.mpr h3)
  have k3 : hiD x < 0x7ff00000 := by
    have := f64.toNat_eq x
    have hf := hx.fin
    unfold Fmt.IsFin at hf
    rw [show f64.infRep = 0x7ff0000000000000 by decide +kernel] at hf
    rw [hiD_eq]; omega
  have hle : f64.le x m1075 = false := by
    rw [← Bool.not_eq_true, hx.le_iff m1075_fv]; exact not_le.mpr h1
  unfold special
  simp only [hdef, bits64, hle]
  by_cases hs : f64.sign x = true
  · simp only [hs, if_true]
    rw [if_neg (show ¬ (hiD x ≥ 0x40900000 ∧ 1 = 0) by omega), if_neg (show ¬ hiD x ≥ 0x7ff00000 by omega), if_neg k1]
    simp
  · have hn := hx.nonneg (by simpa using hs)
    have := m2.mpr (by rw [abs_of_nonneg hn]; exact h2)
    rw [if_neg hs, if_neg (show ¬ (hiD x ≥ 0x40900000 ∧ 0 = 0) by omega), if_neg (show ¬ hiD x ≥ 0x7ff00000 by omega), if_neg k1]
    simp

theorem special_one (h3 : |X| < 1 / 2 ^ 54) : special N64 x = some (N64.add one x) := by
  have hdef : (x.toNat >>> 32) &&& 0x7fffffff = hiD x := rfl
  have m1 := (hiD_lt hx (c := 0x3c900000) (q := 1 / 2 ^ 54) (by decide +kernel)).mpr (by push_cast; exact h3)
  unfold special
  simp only [hdef]
  rw [if_neg (by omega), if_pos m1]

theorem special_low (h : X ≤ -1075) : special N64 x = some 0#f64.w := by
  have hdef : (x.toNat >>> 32) &&& 0x7fffffff = hiD x := rfl
  have m2 := mt (hiD_lt hx (c := 0x40900000) (q := 1024) (by decide +kernel)).mp (by
    rw [abs_of_nonpos (by linarith)]; push_cast; linarith)
  have k3 : hiD x < 0x7ff00000 := by
    have hf := hx.fin
    unfold Fmt.IsFin at hf
    rw [show f64.infRep = 0x7ff0000000000000 by decide +kernel] at hf
    rw [hiD_eq]; omega
  have hs : f64.sign x = true := by
    by_contra hc
    have := hx.nonneg (by simpa using hc)
    linarith
  have hle : f64.le x m1075 = true := by rw [hx.le_iff m1075_fv]; exact h
  unfold special
  simp only [hdef, bits64, hle, hs, if_true]
  rw [if_pos (by omega), if_neg (by omega), if_neg (by omega), if_pos (by norm_num)]

theorem special_high (h : 1024 ≤ X) : special N64 x = some (N64.mul x x1p1023) := by
  have hdef : (x.toNat >>> 32) &&& 0x7fffffff = hiD x := rfl
  have m2 := mt (hiD_lt hx (c := 0x40900000) (q := 1024) (by decide +kernel)).mp (by
    rw [abs_of_nonneg (by linarith)]; push_cast; linarith)
  have hs := hx.sign_of_pos (by linarith)
  unfold special
  simp only [hdef, bits64, hs]
  rw [if_pos (by omega), if_pos ⟨by omega, by simp⟩]
end

theorem one_fvD : GFv f64 one 1 := by
  have := GFv.const (F := f64) (b := one) (q := 1) (by decide +kernel) (by decide +kernel); simpa using this

/-- `1 + x` is `1` for tiny `x` -/
theorem tinyD (N64 : FPU f64) {x : D} {X : ℝ} (hx : GFv f64 x X) (h : |X| < 1 / 2 ^ 54) : GFv f64 (N64.add one x) 1 := by
  have hr := one_fvD.addR N64 hx
  have h9 : |1 + X| ≤ 2 ^ (100 : ℤ) := by
    have := abs_add_le 1 X
    have : (2 : ℝ) ≤ 2 ^ (100 : ℤ) := by norm_num
    rw [abs_one] at *
    linarith
  have hf := hr.fin100 big64 h9
  refine ⟨hf, ?_⟩
  have hn := (hr.nearF f64 hf).2 one one_fvD.fin
  rw [one_fvD.val, show 1 + X - 1 = X by ring] at hn
  rw [abs_le] at hn
  have h' := h
  rw [abs_lt] at h'
  rcases lt_trichotomy (f64.valK ℝ (N64.add one x)) 1 with h2 | h2 | h2
  · have g := f64.gap_rel (b := N64.add one x) (c := one) (by rw [one_fvD.val]; norm_num) (by rw [one_fvD.val]; exact h2)
    rw [one_fvD.val, s64] at g
    norm_num at g
    linarith [hn.1, hn.2, h'.1, h'.2]
  · exact h2
  · have g := f64.gap_ge (b := one) (c := N64.add one x) (k := 0) (by rw [one_fvD.val]; norm_num) (by rw [one_fvD.val]; exact h2)
    rw [one_fvD.val, s64] at g
    norm_num at g
    linarith [hn.1, hn.2, h'.1, h'.2]

theorem exp2_fin (N64 : FPU f64) {x : D} {X : ℝ} (hx : GFv f64 x X) (h : X < 1024) : Ok (exp2 N64 x) (OkD X) := by
  have hl0 := Poly.log2_pos
  have hl7 := Poly.log2_lt
  have hE0 := Real.exp_pos (X * Real.log 2)
  unfold exp2
  rcases le_or_gt X (-1075) with h1 | h1
  · rw [special_low N64 hx h1]
    have hz : GFv f64 0#f64.w 0 := by
      have := GFv.const (F := f64) (b := 0#f64.w) (q := 0) (by decide +kernel) (by decide +kernel); simpa using this
    refine ⟨_, rfl, hz.fin, by decide +kernel, ?_, fun k hk hX => ?_⟩
    · rw [hz.val, zero_sub, abs_neg, abs_of_pos hE0]
      have : X * Real.log 2 ≤ 0 + ((-1075 : ℤ) : ℝ) * Real.log 2 := by
        push_cast
        have := mul_le_mul_of_nonneg_right h1 hl0.le
        linarith
      have := Real.exp_le_exp.mpr this
      rw [Exp.exp_add_log, Real.exp_zero, one_mul] at this
      have h3 : 0 ≤ 1.04 / 2 ^ 53 * Real.exp (X * Real.log 2) := by positivity
      linarith
    · rw [hX] at h1
      have : k ≤ -1075 := by exact_mod_cast h1
      omega
  rcases lt_or_ge |X| (1 / 2 ^ 54) with h2 | h2
  · rw [special_one N64 hx h2]
    have ht := tinyD N64 hx h2
    refine ⟨_, rfl, ht.fin, ht.sign_of_pos (by norm_num), ?_, fun k hk hX => ?_⟩
    · rw [ht.val]
      have hw : |X * Real.log 2| ≤ 1 / 2 ^ 54 * 0.7 := by
        rw [abs_mul, abs_of_pos hl0]; exact mul_le_mul h2.le hl7.le hl0.le (by norm_num)
      have h3 := Real.abs_exp_sub_one_le (x := X * Real.log 2) (hw.trans (by norm_num))
      have hp : (0 : ℝ) < 2 ^ (-1075 : ℤ) := by positivity
      rw [abs_sub_comm]
      generalize (2 : ℝ) ^ (-1075 : ℤ) = p at *
      generalize |X * Real.log 2| = w at *
      generalize Real.exp (X * Real.log 2) = E at *
      have h4 := h3
      rw [abs_le] at h4
      linarith [h4.1]
    · have h3 : |((k : ℤ) : ℝ)| < 1 := by rw [← hX]; exact h2.trans (by norm_num)
      have h4 : |k| < 1 := by exact_mod_cast h3
      rw [abs_lt] at h4
      have : k = 0 := by omega
      rw [ht.val, this, zpow_zero]
  rw [special_none N64 hx h1 h h2]
  exact main_spec N64 hx h1 h

theorem exp2_big (N64 : FPU f64) {x : D} {X : ℝ} (hx : GFv f64 x X) (h : 1024 ≤ X) :
    Ok (exp2 N64 x) fun z => f64.IsInf z ∧ f64.sign z = false := by
  unfold exp2
  rw [special_high N64 hx h]
  refine ⟨_, rfl, ?_⟩
  have hp : GFv f64 x1p1023 (2 ^ (1023 : ℤ)) := by
    have := GFv.const (F := f64) (b := x1p1023) (q := 2 ^ (1023 : ℤ)) (by decide +kernel) (by decide +kernel)
    rw [Rat.cast_zpow, Rat.cast_ofNat] at this; exact this
  refine (hx.mulR N64 hp).over ?_
  rw [b64, show ((1023 : ℕ) : ℤ) + 1 = 1 + 1023 by norm_num, zpow_add₀ (by norm_num)]
  refine mul_le_mul_of_nonneg_right ?_ (by positivity)
  rw [zpow_one]; linarith

theorem exp2_special (N64 : FPU f64) (x : D) :
    (f64.IsNaN x → Ok (exp2 N64 x) fun z => f64.IsNaN z) ∧
    (f64.IsInf x → f64.sign x = false → Ok (exp2 N64 x) fun z => f64.IsInf z ∧ f64.sign z = false) ∧
    (f64.IsInf x → f64.sign x = true → Ok (exp2 N64 x) fun z => f64.IsZero z ∧ f64.sign z = false) := by
  have hdef : (x.toNat >>> 32) &&& 0x7fffffff = hiD x := rfl
  have hi : f64.infRep = 0x7ff0000000000000 := by decide +kernel
  have hb := bits64 x
  refine ⟨fun h => ?_, fun h hs => ?_, fun h hs => ?_⟩
  · have hm : 0x7ff00000 ≤ hiD x := by
      unfold Fmt.IsNaN at h; rw [hi] at h; rw [hiD_eq]; omega
    unfold exp2 special
    simp only [hdef, hb]
    rw [if_pos (by omega)]
    cases hs : f64.sign x
    · rw [if_pos ⟨by omega, by simp⟩]
      exact ⟨_, rfl, (N64.mul_spec x x1p1023).2.1 (Or.inl h)⟩
    · rw [if_neg (by simp), if_pos hm]
      exact ⟨_, rfl, (N64.div_spec mone x).2.1 (Or.inr h)⟩
  · have hm : hiD x = 0x7ff00000 := by
      unfold Fmt.IsInf at h; rw [hi] at h; rw [hiD_eq]; omega
    have hn : ¬ f64.IsNaN x := by unfold Fmt.IsNaN; unfold Fmt.IsInf at h; omega
    unfold exp2 special
    simp only [hdef, hb, hs, hm]
    rw [if_pos (by omega), if_pos ⟨by omega, by simp⟩]
    refine ⟨_, rfl, ?_⟩
    have := (N64.mul_spec x x1p1023).2.2 hn (by decide +kernel) (Or.inl h)
    rw [if_neg] at this
    · exact ⟨this.1, this.2.trans (by rw [hs]; decide +kernel)⟩
    · rintro (h5 | h5)
      · unfold Fmt.IsZero at h5; unfold Fmt.IsInf at h; rw [h5] at h; exact absurd h (by decide)
      · revert h5; unfold Fmt.IsZero; decide +kernel
  · have hm : hiD x = 0x7ff00000 := by
      unfold Fmt.IsInf at h; rw [hi] at h; rw [hiD_eq]; omega
    have hn : ¬ f64.IsNaN x := by unfold Fmt.IsNaN; unfold Fmt.IsInf at h; omega
    unfold exp2 special
    simp only [hdef, hb, hs, hm, if_true]
    rw [if_pos (by omega), if_neg (by omega), if_pos (by omega)]
    refine ⟨_, rfl, ?_⟩
    have := (N64.div_spec mone x).2.2 (by decide +kernel) hn (Or.inr (Or.inl h))
    rw [if_neg, if_pos h] at this
    · exact ⟨this.2, this.1.trans (by rw [hs]; decide +kernel)⟩
    · rintro (⟨h5, -⟩ | ⟨h5, -⟩) <;> revert h5 <;> decide +kernel
end Exp2
end Verif
