import Verif.Libm.CbrtRefine
import Verif.Libm.Exp2Red
import Verif.Libm.LogRed

/-!
The scaling at the end of `cbrt`.
-/
namespace Verif
open Fmt
namespace CbrtD

/-- the sign bit -/
def sb (t : Bool) : ℕ := if t then 2 ^ 63 else 0
/-- the sign -/
def sg (t : Bool) : ℝ := if t then -1 else 1

theorem sg_unit (t : Bool) : sg t = 1 ∨ sg t = -1 := by cases t <;> simp [sg]
theorem abs_sg (t : Bool) : |sg t| = 1 := abs_unit (sg_unit t)
theorem sg_sq (t : Bool) : sg t * sg t = 1 := by cases t <;> simp [sg]

/-- a number from its bits -/
theorem of_bits (t : Bool) {m : ℕ} (hm : m < f64.infRep) :
    GFv f64 (BitVec.ofNat f64.w (sb t + m)) (sg t * f64.magVal ℝ m) ∧ f64.sign (BitVec.ofNat f64.w (sb t + m)) = t := by
  have hi : f64.infRep = 0x7ff0000000000000 := by decide +kernel
  have hm63 : m < 2 ^ 63 := by rw [hi] at hm; omega
  have e : (BitVec.ofNat f64.w (sb t + m)).toNat = (if t then 2 ^ (f64.e + f64.s) else 0) + m := by
    rw [BitVec.toNat_ofNat, show f64.e + f64.s = 63 from rfl, show f64.w = 64 from rfl]
    exact Nat.mod_eq_of_lt (by unfold sb; split <;> omega)
  obtain ⟨h1, h2⟩ := f64.sign_mag_of (t := t) (n := m) (by rw [show f64.e + f64.s = 63 from rfl]; exact hm63) e
  have hf : f64.IsFin (BitVec.ofNat f64.w (sb t + m)) := by unfold Fmt.IsFin; rw [h2]; exact hm
  refine ⟨⟨hf, ?_⟩, h1⟩
  rw [(GFv.self hf).eq_sign, h1, h2]
  unfold sg
  cases t <;> simp

/-- the bits of a number -/
theorem bits_of (y : D) : y.toNat = sb (f64.sign y) + f64.mag y := f64.toNat_eq y

theorem fv_bits {y : D} {Y : ℝ} (g : GFv f64 y Y) : Y = sg (f64.sign y) * f64.magVal ℝ (f64.mag y) := by
  rw [g.eq_sign]; unfold sg; split <;> simp

/-- the mask `0xffffffffffff0000` -/
theorem mask16 {x : ℕ} (h : x < 2 ^ 64) : x &&& 0xffffffffffff0000 = x - x % 2 ^ 16 := by
  have e : (0xffffffffffff0000 : ℕ) = (2 ^ 48 - 1) <<< 16 := by decide
  have e2 : x - x % 2 ^ 16 = (x >>> 16) <<< 16 := by
    rw [Nat.shiftLeft_eq, Nat.shiftRight_eq_div_pow]
    omega
  rw [e, e2]
  apply Nat.eq_of_testBit_eq
  intro i
  rw [Nat.testBit_and, Nat.testBit_shiftLeft, Nat.testBit_shiftLeft, Nat.testBit_two_pow_sub_one, Nat.testBit_shiftRight]
  by_cases hi : 16 ≤ i
  · rw [show 16 + (i - 16) = i by omega]
    by_cases h6 : i - 16 < 48
    · simp [hi, h6]
    · have : x.testBit i = false := Nat.testBit_lt_two_pow (lt_of_lt_of_le h (Nat.pow_le_pow_right (by norm_num) (by omega)))
      simp [this]
  · simp [hi]

/-- the test for few bits: the low 34 bits are 0 or 1 -/
theorem low_bits {x : ℕ} (h : (x <<< 30 % 2 ^ 64) ^^^ ((x <<< 30 % 2 ^ 64) >>> 63) ≤ 2 ^ 30) : x % 2 ^ 34 ≤ 1 := by
  have e : x <<< 30 % 2 ^ 64 = x % 2 ^ 34 * 2 ^ 30 := by rw [Nat.shiftLeft_eq]; omega
  rw [e] at h
  generalize hb : x % 2 ^ 34 = b at h ⊢
  have b34 : b < 2 ^ 34 := by omega
  rw [Nat.shiftRight_eq_div_pow] at h
  by_cases hh : b < 2 ^ 33
  · rw [show b * 2 ^ 30 / 2 ^ 63 = 0 by omega, Nat.xor_zero] at h
    omega
  · rw [show b * 2 ^ 30 / 2 ^ 63 = 1 by omega] at h
    have : (b * 2 ^ 30 ^^^ 1) ^^^ 1 < 2 ^ 63 := Nat.xor_lt_two_pow (by omega) (by omega)
    rw [Nat.xor_assoc, Nat.xor_self, Nat.xor_zero] at this
    omega

theorem one_mag : f64.magVal ℝ (1023 * 2 ^ 52) = 1 := by
  have := Exp2.magVal_at (F := f64) (e := 1023) (f := 0) (by norm_num) (by decide)
  rw [s64, b64] at this
  norm_num at this ⊢
  exact this
theorem two_mag : f64.magVal ℝ (1024 * 2 ^ 52) = 2 := by
  have := Exp2.magVal_at (F := f64) (e := 1024) (f := 0) (by norm_num) (by decide)
  rw [s64, b64] at this
  norm_num at this ⊢
  exact this
theorem p60_fv : GFv f64 p60 (1 / 2 ^ 60) := by
  have := GFv.const (F := f64) (b := p60) (q := 1 / 2 ^ 60) (by decide) (by decide +kernel)
  exact this.cast (by push_cast; norm_num)

/-- the distance to the candidate with fewer bits -/
theorem far {m b : ℕ} (h1 : 1023 * 2 ^ 52 ≤ m) (h2 : m ≤ 1024 * 2 ^ 52) (hb : m % 2 ^ 34 = b) (hb1 : b ≤ 1) :
    1 / 2 ^ 30 ≤ f64.magVal ℝ (m - b + 82 * 2 ^ 16) - f64.magVal ℝ m ∧ f64.magVal ℝ (m - b + 82 * 2 ^ 16) - f64.magVal ℝ m ≤ 1 / 2 ^ 20 := by
  by_cases h : m < 1024 * 2 ^ 52
  · obtain ⟨f, rfl⟩ := Nat.exists_eq_add_of_le h1
    have e1 := Exp2.magVal_at (F := f64) (e := 1023) (f := f) (by norm_num) (by rw [s64]; omega)
    have e2 := Exp2.magVal_at (F := f64) (e := 1023) (f := f + 82 * 2 ^ 16 - b) (by norm_num) (by rw [s64]; omega)
    rw [s64, b64] at e1 e2
    rw [show 1023 * 2 ^ 52 + f - b + 82 * 2 ^ 16 = 1023 * 2 ^ 52 + (f + 82 * 2 ^ 16 - b) by omega, e1, e2, Nat.cast_sub (by omega)]
    have : (b : ℝ) ≤ 1 := by exact_mod_cast hb1
    have : (0 : ℝ) ≤ b := Nat.cast_nonneg _
    push_cast
    norm_num
    constructor <;> linarith
  · have e : m = 1024 * 2 ^ 52 := by omega
    have hb0 : b = 0 := by rw [← hb, e]; norm_num
    have e2 := Exp2.magVal_at (F := f64) (e := 1024) (f := 82 * 2 ^ 16) (by norm_num) (by rw [s64]; norm_num)
    rw [s64, b64] at e2
    rw [hb0, e, Nat.sub_zero, e2, two_mag]
    norm_num

variable (N : FPU f64) {fma : D → D → D → M D}

set_option maxHeartbeats 1000000 in
/-- the result has the value of `y1`, scaled -/
theorem finish_spec {zz y1 dy : D} {c Y1 δ : ℝ} {et : ℕ} (he1 : 1006 ≤ et) (he2 : et ≤ 1706) (gz : GFv f64 zz (c ^ 3)) (gy : GFv f64 y1 Y1) (gd : GFv f64 dy δ)
    (hd : |δ| ≤ 1 / 2 ^ 53) (h1 : 1 ≤ |Y1|) (h2 : |Y1| ≤ 2) (hone : |c| = 1 → |Y1| = 1) :
    ∃ r, finish N zz y1 dy et = .ok r ∧ GFv f64 r (Y1 * 2 ^ ((et : ℤ) - 1365)) ∧ f64.sign r = f64.sign y1 := by
  obtain ⟨t, ht⟩ : ∃ t, f64.sign y1 = t := ⟨_, rfl⟩
  obtain ⟨m, hm⟩ : ∃ m, f64.mag y1 = m := ⟨_, rfl⟩
  have hbit := bits_of y1
  have hY := fv_bits gy
  rw [ht, hm] at hbit hY
  have hm0 := f64.magVal_nonneg ℝ m
  have aY : |Y1| = f64.magVal ℝ m := by rw [hY, abs_mul, abs_sg, one_mul, abs_of_nonneg hm0]
  have m1 : 1023 * 2 ^ 52 ≤ m := by
    rw [aY, ← one_mag] at h1; exact f64.magValR_le_iff.mp h1
  have m2 : m ≤ 1024 * 2 ^ 52 := by
    rw [aY, ← two_mag] at h2; exact f64.magValR_le_iff.mp h2
  have hi : f64.infRep = 0x7ff0000000000000 := by decide +kernel
  have hsb : sb t = 0 ∨ sb t = 2 ^ 63 := by cases t <;> simp [sb]
  -- the shifted bits
  obtain ⟨n, hn⟩ : ∃ n : ℕ, (n : ℤ) = m + ((et : ℤ) - 1365) * 2 ^ 52 := ⟨((m : ℤ) + ((et : ℤ) - 1365) * 2 ^ 52).toNat, by omega⟩
  have e3 : (y1.toNat + (((et + 2 ^ 32 - 342) % 2 ^ 32 + 2 ^ 32 - 1023) % 2 ^ 32) <<< 52 % 2 ^ 64) % 2 ^ 64 = sb t + n := by
    rw [hbit, Nat.shiftLeft_eq]
    omega
  have gr := of_bits t (m := n) (by rw [hi]; omega)
  have hval : f64.magVal ℝ n = f64.magVal ℝ m * 2 ^ ((et : ℤ) - 1365) :=
    Log.magVal_shift (F := f64) (by rw [s64]; omega) (by rw [s64]; omega) (by rw [s64]; exact hn)
  have gr1 : GFv f64 (BitVec.ofNat f64.w (sb t + n)) (Y1 * 2 ^ ((et : ℤ) - 1365)) := gr.1.cast (by rw [hval, hY]; ring)
  rw [ht]
  unfold finish
  dsimp only
  rw [e3]
  by_cases hq : ((sb t + n) <<< 30 % 2 ^ 64) ^^^ ((sb t + n) <<< 30 % 2 ^ 64) >>> 63 ≤ 2 ^ 30
  · rw [if_pos hq]
    have hlow := low_bits hq
    obtain ⟨b, hb⟩ : ∃ b, m % 2 ^ 34 = b := ⟨_, rfl⟩
    have hb1 : b ≤ 1 := by omega
    have hu : u64C (y1.toNat + 164 <<< 15) = .ok (sb t + m + 82 * 2 ^ 16) := by
      unfold u64C
      rw [hbit, if_pos (by norm_num; omega)]
      rfl
    have hm16 : (sb t + m + 82 * 2 ^ 16) &&& 0xffffffffffff0000 = sb t + (m - b + 82 * 2 ^ 16) := by
      rw [mask16 (by omega)]; omega
    have hu2 : u64C (sb t + n + 1 <<< 15) = .ok (sb t + n + 2 ^ 15) := by
      unfold u64C
      rw [if_pos (by norm_num; omega)]
      rfl
    rw [hu]
    show ∃ r, (if (f64.lt (f64.fabs (N.sub (N.sub (BitVec.ofNat f64.w ((sb t + m + 82 * 2 ^ 16) &&& 0xffffffffffff0000)) y1) dy)) p60 || f64.feq (f64.fabs zz) one) = true then _ else _) = _ ∧ _
    rw [hm16]
    have gp := (of_bits t (m := m - b + 82 * 2 ^ 16) (by rw [hi]; omega)).1
    obtain ⟨f1, f2⟩ := far m1 m2 hb hb1
    have hlt : f64.lt (f64.fabs (N.sub (N.sub (BitVec.ofNat f64.w (sb t + (m - b + 82 * 2 ^ 16))) y1) dy)) p60 = false := by
      have ed : sg t * f64.magVal ℝ (m - b + 82 * 2 ^ 16) - Y1 = sg t * (f64.magVal ℝ (m - b + 82 * 2 ^ 16) - f64.magVal ℝ m) := by rw [hY]; ring
      have ea : |sg t * f64.magVal ℝ (m - b + 82 * 2 ^ 16) - Y1| = f64.magVal ℝ (m - b + 82 * 2 ^ 16) - f64.magVal ℝ m := by
        rw [ed, abs_mul, abs_sg, one_mul, abs_of_nonneg (le_trans (by norm_num) f1)]
      generalize f64.magVal ℝ (m - b + 82 * 2 ^ 16) - f64.magVal ℝ m = w at f1 f2 ea
      obtain ⟨u, gu, eu, -⟩ := rnd53 (gp.subR N gy) (by rw [ea]; norm_num at f2 ⊢; linarith)
      rw [ea] at eu
      have hu1 := abs_sub_abs_le_abs_sub (sg t * f64.magVal ℝ (m - b + 82 * 2 ^ 16) - Y1) u
      have hu2 := abs_sub_abs_le_abs_sub u (sg t * f64.magVal ℝ (m - b + 82 * 2 ^ 16) - Y1)
      rw [abs_sub_comm _ u] at hu1
      rw [ea] at hu1 hu2
      have hw1 := abs_sub_abs_le_abs_sub u δ
      have hw2 := abs_sub u δ
      have k1 : |u - δ| ≤ 1 := by norm_num at *; linarith
      have k2 : 1 / 2 ^ 31 ≤ |u - δ| := by norm_num at *; linarith
      obtain ⟨q, gq, eq, -⟩ := rnd53 (gu.subR N gd) (by linarith)
      rw [← Bool.not_eq_true, gq.fabs.lt_iff p60_fv, not_lt]
      have hq1 := abs_sub_abs_le_abs_sub (u - δ) q
      rw [abs_sub_comm _ q] at hq1
      norm_num at *
      linarith
    rw [hlt, Bool.false_or]
    by_cases hz : f64.feq (f64.fabs zz) one = true
    · rw [if_pos hz, hu2]
      have hc : |c| = 1 := by
        have hv := (f64.feq_val gz.fabs.fin one_fv.fin).mp hz
        have e1 := gz.fabs.valQ
        have e2 := one_fv.valQ
        have e4 : |c ^ 3| = 1 := by rw [← e1, hv, e2]
        rw [abs_pow] at e4
        exact (pow_eq_one_iff_of_nonneg (abs_nonneg c) (by norm_num)).mp e4
      have hm3 : m = 1023 * 2 ^ 52 := by
        have := hone hc
        rw [aY, ← one_mag] at this
        exact le_antisymm (f64.magValR_le_iff.mp this.le) (f64.magValR_le_iff.mp this.ge)
      refine ⟨_, rfl, ?_⟩
      have : (sb t + n + 2 ^ 15) &&& 0xffffffffffff0000 = sb t + n := by rw [mask16 (by omega)]; omega
      rw [this]
      exact ⟨gr1, gr.2⟩
    · rw [if_neg hz]
      exact ⟨_, rfl, gr1, gr.2⟩
  · rw [if_neg hq]
    exact ⟨_, rfl, gr1, gr.2⟩

end CbrtD
end Verif
