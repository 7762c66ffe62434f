import Verif.Libm.TanS
/-! # The negative reciprocal in `k_tan` -/
namespace Verif
open Fmt

/-- `f64` value as a real -/
local notation "V" => Fmt.valK f64 ℝ

namespace Trig
open Pio2 Hypot

theorem mask_shift (b : BitVec 64) : b &&& 0xFFFFFFFF00000000#64 = (b >>> (32 : ℕ)) <<< (32 : ℕ) := by
  apply BitVec.eq_of_getLsbD_eq
  intro i hi
  interval_cases i <;> simp

theorem zeroLow_mag (b : D) : f64.mag (zeroLow b) = f64.mag b / 2 ^ 32 * 2 ^ 32 ∧ f64.sign (zeroLow b) = f64.sign b := by
  have hb : b.toNat < 2 ^ 64 := b.isLt
  have e : zeroLow b = (b >>> (32 : ℕ)) <<< (32 : ℕ) := mask_shift b
  constructor
  · rw [e]
    unfold Fmt.mag
    rw [BitVec.toNat_shiftLeft, BitVec.toNat_ushiftRight, Nat.shiftRight_eq_div_pow, Nat.shiftLeft_eq]
    show b.toNat / 2 ^ 32 * 2 ^ 32 % 2 ^ 64 % 2 ^ 63 = b.toNat % 2 ^ 63 / 2 ^ 32 * 2 ^ 32
    omega
  · unfold Fmt.sign zeroLow
    rw [BitVec.msb_and]
    have : (0xFFFFFFFF00000000#f64.w).msb = true := by decide +kernel
    rw [this, Bool.and_true]

theorem zeroLow_fv {b : D} {v : ℝ} (h : Fv b v) {k : ℤ} (hk : 2 ^ k ≤ |v|) (hk' : -1022 ≤ k) :
    ∃ v0, Fv (zeroLow b) v0 ∧ |v - v0| ≤ 1 / 2 ^ 20 * |v| ∧ Mul2 (k - 20) v0 ∧ |v0| ≤ |v| := by
  obtain ⟨hm, hs⟩ := zeroLow_mag b
  obtain ⟨m, hmm⟩ : ∃ m, m = f64.mag b := ⟨_, rfl⟩
  have hfin : f64.IsFin (zeroLow b) := by
    have : f64.mag b < f64.infRep := h.fin
    show f64.mag (zeroLow b) < f64.infRep
    rw [hm]
    omega
  rw [← hmm] at hm
  have hav : |v| = f64.magVal ℝ m := by rw [abs_fv h, hmm]
  have hE : m / 2 ^ 52 ≠ 0 := by
    intro h0
    have h1 : m < 1 * 2 ^ 52 := by omega
    have h2 := f64.magValR_lt_iff.mpr h1
    rw [magVal_pow2 (le_refl _), ← hav] at h2
    have h3 : (2 : ℝ) ^ (-1022 : ℤ) ≤ 2 ^ k := zpow_le_zpow_right₀ (by norm_num) hk'
    exact absurd (hk.trans_lt h2) (not_lt.mpr h3)
  obtain ⟨E, hEd⟩ : ∃ E, E = m / 2 ^ 52 := ⟨_, rfl⟩
  obtain ⟨f, hf⟩ : ∃ f, f = m % 2 ^ 52 := ⟨_, rfl⟩
  obtain ⟨g, hg⟩ : ∃ g, g = f / 2 ^ 32 := ⟨_, rfl⟩
  have e1 : f64.magVal ℝ m = ((2 ^ 52 + f : ℕ) : ℝ) * 2 ^ ((E : ℤ) - 1075) := by
    rw [← f64.magVal_cast, f64.magVal_ex (n := m) hE]
    simp only [s64, b64, ← hEd, ← hf]
    push_cast
    rw [show (E : ℤ) - 1023 - 52 = (E : ℤ) - 1075 by ring]
  have e2 : f64.magVal ℝ (m / 2 ^ 32 * 2 ^ 32) = ((2 ^ 20 + g : ℕ) : ℝ) * 2 ^ ((E : ℤ) - 1043) := by
    have hd : m / 2 ^ 32 * 2 ^ 32 / 2 ^ 52 = E := by omega
    have hmo : m / 2 ^ 32 * 2 ^ 32 % 2 ^ 52 = g * 2 ^ 32 := by omega
    rw [← f64.magVal_cast, f64.magVal_ex (n := m / 2 ^ 32 * 2 ^ 32) (by rw [s64, hd, hEd]; exact hE)]
    simp only [s64, b64, hd, hmo]
    push_cast
    rw [show (E : ℤ) - 1043 = (E : ℤ) - 1023 - 52 + (32 : ℕ) by push_cast; ring, zpow_add₀ (by norm_num), zpow_natCast]
    ring
  obtain ⟨l, hl⟩ : ∃ l, l = f % 2 ^ 32 := ⟨_, rfl⟩
  have hfl : f = g * 2 ^ 32 + l := by omega
  have e3 : f64.magVal ℝ m = f64.magVal ℝ (m / 2 ^ 32 * 2 ^ 32) + (l : ℝ) * 2 ^ ((E : ℤ) - 1075) := by
    rw [e1, e2, hfl, show (E : ℤ) - 1043 = (E : ℤ) - 1075 + (32 : ℕ) by push_cast; ring, zpow_add₀ (by norm_num), zpow_natCast]
    push_cast
    ring
  have hp : (0 : ℝ) < 2 ^ ((E : ℤ) - 1075) := by positivity
  have hle : (l : ℝ) * 2 ^ ((E : ℤ) - 1075) ≤ 1 / 2 ^ 20 * |v| := by
    rw [hav, e1]
    have hl2 : (l : ℝ) ≤ 4294967296 := by
      have : l ≤ 4294967296 := by omega
      exact_mod_cast this
    have : (l : ℝ) ≤ 1 / 2 ^ 20 * ((2 ^ 52 + f : ℕ) : ℝ) := by
      push_cast
      have : (0 : ℝ) ≤ f := by positivity
      norm_num
      linarith
    calc _ ≤ 1 / 2 ^ 20 * ((2 ^ 52 + f : ℕ) : ℝ) * 2 ^ ((E : ℤ) - 1075) := mul_le_mul_of_nonneg_right this hp.le
      _ = _ := by ring
  have hg0 : (0 : ℝ) ≤ (l : ℝ) * 2 ^ ((E : ℤ) - 1075) := by positivity
  have hkE : k ≤ (E : ℤ) - 1023 := by
    have : (2 : ℝ) ^ k < 2 ^ ((E : ℤ) - 1022) := by
      refine lt_of_le_of_lt hk ?_
      rw [hav, e1, show (E : ℤ) - 1022 = (53 : ℕ) + ((E : ℤ) - 1075) by push_cast; ring, zpow_add₀ (by norm_num), zpow_natCast]
      refine mul_lt_mul_of_pos_right ?_ hp
      have : 2 ^ 52 + f < 2 ^ 53 := by omega
      exact_mod_cast this
    have := (zpow_lt_zpow_iff_right₀ (by norm_num : (1 : ℝ) < 2)).mp this
    omega
  have hmul : Mul2 (k - 20) (f64.magVal ℝ (m / 2 ^ 32 * 2 ^ 32)) := by
    refine Mul2.mono (j := (E : ℤ) - 1043) ⟨((2 ^ 20 + g : ℕ) : ℤ), ?_⟩ (by omega)
    rw [e2]
    push_cast
    ring
  have hvb : ∀ c : D, V c = (if f64.sign c then -1 else 1) * f64.magVal ℝ (f64.mag c) := by
    intro c
    rw [← f64.valK_cast, f64.val_sign, ← f64.magVal_cast]
    split <;> push_cast <;> ring
  have v1 : v = (if f64.sign b then -1 else 1) * f64.magVal ℝ m := by rw [← h.val, hvb, hmm]
  have v2 := hvb (zeroLow b)
  rw [hs, hm] at v2
  have hn0 : 0 ≤ f64.magVal ℝ (m / 2 ^ 32 * 2 ^ 32) := f64.magVal_nonneg ℝ _
  refine ⟨V (zeroLow b), ⟨hfin, rfl⟩, ?_, ?_, ?_⟩
  · refine le_trans (le_of_eq ?_) hle
    rw [v1, v2, e3]
    split
    · rw [show (-1 : ℝ) * (f64.magVal ℝ (m / 2 ^ 32 * 2 ^ 32) + (l : ℝ) * 2 ^ ((E : ℤ) - 1075)) - -1 * f64.magVal ℝ (m / 2 ^ 32 * 2 ^ 32) = -((l : ℝ) * 2 ^ ((E : ℤ) - 1075)) by ring,
        abs_neg, abs_of_nonneg hg0]
    · rw [show (1 : ℝ) * (f64.magVal ℝ (m / 2 ^ 32 * 2 ^ 32) + (l : ℝ) * 2 ^ ((E : ℤ) - 1075)) - 1 * f64.magVal ℝ (m / 2 ^ 32 * 2 ^ 32) = (l : ℝ) * 2 ^ ((E : ℤ) - 1075) by ring,
        abs_of_nonneg hg0]
  · rw [v2]
    split
    · rw [neg_one_mul]; exact hmul.neg
    · rw [one_mul]; exact hmul
  · rw [f64.absvR, hm, hav, e3]
    linarith

/-- the error of the reciprocal, all numbers divided by `W` -/
theorem recip_core {ω ω0 d α α0 p q μ : ℝ} (h1 : |ω - 1| ≤ 1 / 2 ^ 53) (h2 : |ω - ω0| ≤ 1 / 2 ^ 20 * |ω|) (h3 : |d - (1 - ω0)| ≤ 1 / 2 ^ 53 * |1 - ω0| + 1 / 2 ^ 79)
    (h4 : |α * ω + 1| ≤ 1 / 2 ^ 53) (h5 : |α - α0| ≤ 1 / 2 ^ 20 * |α|) (h6 : |p - α0 * d| ≤ 1 / 2 ^ 53 * |α0 * d| + 1 / 2 ^ 79)
    (h7 : |q - (1 + α0 * ω0 + p)| ≤ 1 / 2 ^ 53 * |1 + α0 * ω0 + p| + 1 / 2 ^ 79) (h8 : |μ - α * q| ≤ 1 / 2 ^ 53 * |α * q| + 1 / 2 ^ 79) :
    |α0 + μ - -1| ≤ 1 / 2 ^ 69 := by
  have u1 : |ω| ≤ 1.000001 := by
    have := abs_add_le (ω - 1) 1
    rw [sub_add_cancel, abs_one] at this
    norm_num at *; linarith
  have l1 : 0.99999 ≤ |ω| := by
    have := abs_sub_abs_le_abs_sub 1 ω
    rw [abs_sub_comm, abs_one] at this
    norm_num at *; linarith
  have u2 : |1 - ω0| ≤ 1.01 / 2 ^ 20 := by
    have := abs_add_le (1 - ω) (ω - ω0)
    rw [sub_add_sub_cancel, abs_sub_comm 1 ω] at this
    norm_num at *; linarith
  have u3 : |d - (1 - ω0)| ≤ 1.1 / 2 ^ 73 := by norm_num at *; linarith
  have u3' : |d| ≤ 1.02 / 2 ^ 20 := by
    have := abs_add_le (d - (1 - ω0)) (1 - ω0)
    rw [sub_add_cancel] at this
    norm_num at *; linarith
  have u4 : |α| ≤ 1.0001 := by
    have := abs_sub (α * ω + 1) 1
    rw [add_sub_cancel_right, abs_mul, abs_one] at this
    have : |α| * 0.99999 ≤ |α| * |ω| := mul_le_mul_of_nonneg_left l1 (abs_nonneg _)
    norm_num at *; linarith
  have hα1 : |α + 1| ≤ 2.1 / 2 ^ 53 := by
    have e : α + 1 = (α * ω + 1) - α * (ω - 1) := by ring
    have := abs_sub (α * ω + 1) (α * (ω - 1))
    rw [← e, abs_mul] at this
    have := mul_le_mul u4 h1 (abs_nonneg _) (by norm_num)
    generalize |α| * |ω - 1| = z at *
    norm_num at *; linarith
  have u5 : |α0| ≤ 1.001 := by
    have := abs_sub_abs_le_abs_sub α0 α
    rw [abs_sub_comm] at this
    norm_num at *; linarith
  have hs : |1 + α0| ≤ 1.01 / 2 ^ 20 := by
    have := abs_sub (α + 1) (α - α0)
    rw [show α + 1 - (α - α0) = 1 + α0 by ring] at this
    norm_num at *; linarith
  have hd0 : |α0 * d| ≤ 1.03 / 2 ^ 20 := by
    rw [abs_mul]
    refine (mul_le_mul u5 u3' (abs_nonneg _) (by norm_num)).trans (by norm_num)
  have hp : |p - α0 * (1 - ω0)| ≤ 2.3 / 2 ^ 73 := by
    have e : p - α0 * (1 - ω0) = (p - α0 * d) + α0 * (d - (1 - ω0)) := by ring
    have := abs_add_le (p - α0 * d) (α0 * (d - (1 - ω0)))
    rw [← e, abs_mul] at this
    have := mul_le_mul u5 u3 (abs_nonneg _) (by norm_num)
    generalize |α0| * |d - (1 - ω0)| = z at *
    norm_num at *; linarith
  have hq1 : |1 + α0 * ω0 + p| ≤ 1.02 / 2 ^ 20 := by
    have e : 1 + α0 * ω0 + p = (1 + α0) + (p - α0 * (1 - ω0)) := by ring
    rw [e]
    refine (abs_add_le _ _).trans ?_
    norm_num at *; linarith
  have hq : |q - (1 + α0)| ≤ 3.5 / 2 ^ 73 := by
    have e : q - (1 + α0) = (q - (1 + α0 * ω0 + p)) + (p - α0 * (1 - ω0)) := by ring
    rw [e]
    refine (abs_add_le _ _).trans ?_
    norm_num at *; linarith
  have hqa : |q| ≤ 1.03 / 2 ^ 20 := by
    have := abs_add_le (q - (1 + α0)) (1 + α0)
    rw [sub_add_cancel] at this
    norm_num at *; linarith
  have hαq : |α * q| ≤ 1.04 / 2 ^ 20 := by
    rw [abs_mul]
    refine (mul_le_mul u4 hqa (abs_nonneg _) (by norm_num)).trans (by norm_num)
  have e : α0 + μ - -1 = (μ - α * q) + α * (q - (1 + α0)) + (α + 1) * (1 + α0) := by ring
  have m1 : |α * (q - (1 + α0))| ≤ 1.0001 * (3.5 / 2 ^ 73) := by rw [abs_mul]; exact mul_le_mul u4 hq (abs_nonneg _) (by norm_num)
  have m2 : |(α + 1) * (1 + α0)| ≤ 2.1 / 2 ^ 53 * (1.01 / 2 ^ 20) := by rw [abs_mul]; exact mul_le_mul hα1 hs (abs_nonneg _) (by norm_num)
  rw [e]
  have t1 := abs_add_le (μ - α * q + α * (q - (1 + α0))) ((α + 1) * (1 + α0))
  have t2 := abs_add_le (μ - α * q) (α * (q - (1 + α0)))
  generalize |α * (q - (1 + α0))| = z1 at *
  generalize |(α + 1) * (1 + α0)| = z2 at *
  norm_num at *; linarith

/-- the reciprocal of `x + r`, k_tan.rs 93-100 -/
def recip (N : FPU f64) (x r : D) : D :=
  let w := N.add x r
  let w0 := zeroLow w
  let v := N.sub r (N.sub w0 x)
  let a := N.div cmone w
  let a0 := zeroLow a
  N.add a0 (N.mul a (N.add (N.add cone (N.mul a0 w0)) (N.mul a0 v)))

theorem rnd_abs {v : ℝ} {r : D} (h : f64.Rounds v r) (hv : |v| ≤ 2 ^ (100 : ℤ)) : ∃ u, Fv r u ∧ |u - v| ≤ 1 / 2 ^ 53 * |v| + 1 / 2 ^ 150 :=
  ⟨V r, ⟨h.fin100 big64 hv, rfl⟩, by have := h.rel_abs big64 hv; rw [s64] at this; exact this⟩

set_option maxHeartbeats 2000000 in
theorem recip_spec {N : FPU f64} {x r : D} {X R : ℝ} (hx : Fv x X) (hr : Fv r R) (h0 : 2 ^ (-70 : ℤ) ≤ |X|) (h1 : |X| ≤ 0.67434) (hR : |R| ≤ 0.31 * |X|) :
    ∃ v, f64.Rounds v (recip N x r) ∧ |v| ≤ 2 ^ (100 : ℤ) ∧ |v - -1 / (X + R)| ≤ 1 / 2 ^ 69 * |1 / (X + R)| := by
  have hX0 : 0 < |X| := lt_of_lt_of_le (by positivity) h0
  obtain ⟨W, hW⟩ : ∃ W, W = X + R := ⟨_, rfl⟩
  have hWu : |W| ≤ 1.31 * |X| := by rw [hW]; have := abs_add_le X R; norm_num at *; linarith
  have hWl : 0.69 * |X| ≤ |W| := by
    rw [hW]
    have := abs_sub_abs_le_abs_sub X (-R)
    rw [abs_neg, sub_neg_eq_add] at this
    norm_num at *; linarith
  have hW0 : 0 < |W| := lt_of_lt_of_le (by positivity) hWl
  have hWne : W ≠ 0 := abs_pos.mp hW0
  have hW71 : 2 ^ (-71 : ℤ) ≤ |W| := by
    refine le_trans ?_ hWl
    norm_num at *; linarith
  have hW1 : |W| ≤ 1 := by norm_num at *; linarith
  have t150 : (1 : ℝ) / 2 ^ 150 ≤ 1 / 2 ^ 79 * |W| := by
    calc (1 : ℝ) / 2 ^ 150 = 1 / 2 ^ 79 * 2 ^ (-71 : ℤ) := by norm_num
      _ ≤ _ := mul_le_mul_of_nonneg_left hW71 (by norm_num)
  have t150' : (1 : ℝ) / 2 ^ 150 ≤ 1 / 2 ^ 79 := by norm_num
  -- the sum
  have hwR := hx.addR (N := N) hr
  rw [← hW] at hwR
  have hwe := rel64 hwR (by refine le_trans ?_ hW71; exact zpow_le_zpow_right₀ (by norm_num) (by norm_num)) (hW1.trans (one_le_zpow₀ (by norm_num) (by norm_num)))
  have fw : Fv (N.add x r) (V (N.add x r)) := ⟨fin64 hwR (hW1.trans (one_le_zpow₀ (by norm_num) (by norm_num))), rfl⟩
  obtain ⟨ω, hω⟩ : ∃ ω, ω = V (N.add x r) / W := ⟨_, rfl⟩
  have ew : V (N.add x r) = W * ω := by rw [hω]; field_simp
  rw [ew] at fw hwe
  have hU : U = 1 / 2 ^ 53 := rfl
  have g1 : |ω - 1| ≤ 1 / 2 ^ 53 := by
    rw [show W * ω - W = W * (ω - 1) by ring, abs_mul, mul_comm, hU] at hwe
    exact le_of_mul_le_mul_right hwe hW0
  have u1 : |ω| ≤ 1.000001 := by
    have := abs_add_le (ω - 1) 1
    rw [sub_add_cancel, abs_one] at this
    norm_num at *; linarith
  have l1 : 0.99999 ≤ |ω| := by
    have := abs_sub_abs_le_abs_sub 1 ω
    rw [abs_sub_comm, abs_one] at this
    norm_num at *; linarith
  have hωne : ω ≠ 0 := by
    intro h; rw [h, abs_zero] at l1; norm_num at l1
  have hwl : |W * ω| ≤ 1.000001 * |W| := by rw [abs_mul, mul_comm]; exact mul_le_mul_of_nonneg_right u1 hW0.le
  have hwg : 0.99999 * |W| ≤ |W * ω| := by rw [abs_mul, mul_comm |W|]; exact mul_le_mul_of_nonneg_right l1 hW0.le
  -- the binade
  obtain ⟨k, hk1, hk2⟩ := exists_mem_Ico_zpow (y := (2 : ℝ)) hX0 (by norm_num)
  have hk70 : -71 < k := by
    have := lt_of_le_of_lt h0 hk2
    have := (zpow_lt_zpow_iff_right₀ (by norm_num : (1 : ℝ) < 2)).mp this
    omega
  have hk0 : k < 1 := by
    have : (2 : ℝ) ^ k < 2 ^ (1 : ℤ) := lt_of_le_of_lt hk1 (by norm_num at *; linarith)
    exact (zpow_lt_zpow_iff_right₀ (by norm_num : (1 : ℝ) < 2)).mp this
  have hpk : (0 : ℝ) < 2 ^ k := by positivity
  have ek1 : (2 : ℝ) ^ (k + 1) = 2 * 2 ^ k := by rw [zpow_add₀ (by norm_num), zpow_one, mul_comm]
  have ekm : (2 : ℝ) ^ (k - 1) = 2 ^ k / 2 := by rw [zpow_sub₀ (by norm_num), zpow_one]
  rw [ek1] at hk2
  obtain ⟨v0, f0, e0, m0, b0⟩ := zeroLow_fv fw (k := k - 1) (by rw [ekm]; norm_num at *; linarith) (by omega)
  obtain ⟨ω0, hω0⟩ : ∃ ω0, ω0 = v0 / W := ⟨_, rfl⟩
  have ew0 : v0 = W * ω0 := by rw [hω0]; field_simp
  rw [ew0] at f0 e0 m0 b0
  have g2 : |ω - ω0| ≤ 1 / 2 ^ 20 * |ω| := by
    rw [← mul_sub, abs_mul, abs_mul, mul_left_comm] at e0
    exact le_of_mul_le_mul_left e0 hW0
  have u2 : |1 - ω0| ≤ 1.01 / 2 ^ 20 := by
    have := abs_add_le (1 - ω) (ω - ω0)
    rw [sub_add_sub_cancel, abs_sub_comm 1 ω] at this
    norm_num at *; linarith
  -- the difference
  have hdif : |W * (1 - ω0)| ≤ 0.01 * |W| := by
    rw [abs_mul, mul_comm]; refine mul_le_mul_of_nonneg_right (u2.trans (by norm_num)) hW0.le
  have f1 : Fv (N.sub (zeroLow (N.add x r)) x) (W * ω0 - X) := by
    refine f0.sub N hx (j := k - 52) ((m0.mono (by omega)).sub (mul2_of_ge hx hk1)) ?_ (by omega) (by omega)
    rw [show k - 52 + 53 = k + 1 by ring, ek1]
    have e : W * ω0 - X = R - W * (1 - ω0) := by rw [hW]; ring
    rw [e]
    refine (abs_sub _ _).trans ?_
    norm_num at *; linarith
  obtain ⟨d1, fd, hd⟩ := rnd_abs (hr.subR (N := N) f1) (by
    rw [show R - (W * ω0 - X) = W * (1 - ω0) by rw [hW]; ring]
    exact hdif.trans (by norm_num at *; linarith))
  rw [show R - (W * ω0 - X) = W * (1 - ω0) by rw [hW]; ring] at hd
  obtain ⟨d, hdd⟩ : ∃ d, d = d1 / W := ⟨_, rfl⟩
  have ed : d1 = W * d := by rw [hdd]; field_simp
  rw [ed] at fd hd
  have g3 : |d - (1 - ω0)| ≤ 1 / 2 ^ 53 * |1 - ω0| + 1 / 2 ^ 79 := by
    rw [← mul_sub, abs_mul, abs_mul] at hd
    have : |W| * |d - (1 - ω0)| ≤ |W| * (1 / 2 ^ 53 * |1 - ω0| + 1 / 2 ^ 79) := by
      refine hd.trans ((add_le_add (le_refl _) t150).trans (le_of_eq ?_)); ring
    exact le_of_mul_le_mul_left this hW0
  -- the approximate reciprocal
  have hdR := Fmt.divR N fv_cmone.fin fw.fin (by rw [fw.val]; exact mul_ne_zero hWne hωne)
  rw [fv_cmone.val, fw.val] at hdR
  have hwp : 0 < |W * ω| := abs_pos.mpr (mul_ne_zero hWne hωne)
  have hinv : |-1 / (W * ω)| = 1 / |W * ω| := by rw [abs_div, abs_neg, abs_one]
  have hiu : 1 / |W * ω| ≤ 2 ^ (73 : ℤ) := by
    rw [div_le_iff₀ hwp]
    calc (1 : ℝ) = 2 ^ (73 : ℤ) * 2 ^ (-73 : ℤ) := by rw [← zpow_add₀ (by norm_num)]; norm_num
      _ ≤ _ := mul_le_mul_of_nonneg_left (by norm_num at *; linarith) (by positivity)
  have hil : (1 : ℝ) / 2 ≤ 1 / |W * ω| := by
    rw [le_div_iff₀ hwp]
    norm_num at *; linarith
  have hae := rel64 hdR (by rw [hinv]; refine le_trans ?_ hil; rw [show (1 : ℝ) / 2 = 2 ^ (-1 : ℤ) by norm_num]; exact zpow_le_zpow_right₀ (by norm_num) (by norm_num))
    (by rw [hinv]; exact hiu.trans (zpow_le_zpow_right₀ (by norm_num) (by norm_num)))
  have fa : Fv (N.div cmone (N.add x r)) (V (N.div cmone (N.add x r))) :=
    ⟨fin64 hdR (by rw [hinv]; exact hiu.trans (zpow_le_zpow_right₀ (by norm_num) (by norm_num))), rfl⟩
  obtain ⟨α, hα⟩ : ∃ α, α = V (N.div cmone (N.add x r)) * W := ⟨_, rfl⟩
  have ea : V (N.div cmone (N.add x r)) = α / W := by rw [hα]; field_simp
  rw [ea] at fa hae
  have g4 : |α * ω + 1| ≤ 1 / 2 ^ 53 := by
    have h := mul_le_mul_of_nonneg_right hae hwp.le
    rw [hinv, ← abs_mul, mul_assoc, one_div_mul_cancel hwp.ne', mul_one, hU] at h
    rwa [show (α / W - -1 / (W * ω)) * (W * ω) = α * ω + 1 by field_simp; ring] at h
  have u4 : |α| ≤ 1.0001 ∧ 0.999 ≤ |α| := by
    have a1 := abs_sub (α * ω + 1) 1
    rw [add_sub_cancel_right, abs_mul, abs_one] at a1
    have a2 : |α| * 0.99999 ≤ |α| * |ω| := mul_le_mul_of_nonneg_left l1 (abs_nonneg _)
    have a3 : |α| * |ω| ≤ |α| * 1.000001 := mul_le_mul_of_nonneg_left u1 (abs_nonneg _)
    have a4 := abs_sub_abs_le_abs_sub 1 (-(α * ω))
    rw [sub_neg_eq_add, add_comm 1, abs_neg, abs_mul, abs_one] at a4
    norm_num at *
    constructor <;> linarith
  have hkk : (2 : ℝ) ^ (-k - 2) * (4 * 2 ^ k) = 1 := by
    rw [show (4 : ℝ) = 2 ^ (2 : ℤ) by norm_num, ← zpow_add₀ (by norm_num), ← zpow_add₀ (by norm_num), show -k - 2 + (2 + k) = 0 by ring, zpow_zero]
  obtain ⟨a1, fa0, ea0, ma0, ba0⟩ := zeroLow_fv fa (k := -k - 2) (by
    rw [abs_div, le_div_iff₀ hW0]
    calc (2 : ℝ) ^ (-k - 2) * |W| ≤ 2 ^ (-k - 2) * (0.8 * (4 * 2 ^ k)) := mul_le_mul_of_nonneg_left (by norm_num at *; linarith) (by positivity)
      _ = 0.8 := by rw [mul_left_comm, hkk, mul_one]
      _ ≤ _ := le_trans (by norm_num) u4.2) (by omega)
  obtain ⟨α0, hα0⟩ : ∃ α0, α0 = a1 * W := ⟨_, rfl⟩
  have ea1 : a1 = α0 / W := by rw [hα0]; field_simp
  rw [ea1] at fa0 ea0 ma0 ba0
  have g5 : |α - α0| ≤ 1 / 2 ^ 20 * |α| := by
    have h := mul_le_mul_of_nonneg_right ea0 hW0.le
    rwa [← abs_mul, mul_assoc, ← abs_mul, show (α / W - α0 / W) * W = α - α0 by field_simp, show α / W * W = α by field_simp] at h
  have u5 : |α0| ≤ 1.001 := by
    have := abs_sub_abs_le_abs_sub α0 α
    rw [abs_sub_comm] at this
    norm_num at *; linarith
  have u6 : |ω0| ≤ 1.001 := by
    have := abs_sub_abs_le_abs_sub ω0 1
    rw [abs_sub_comm, abs_one] at this
    norm_num at *; linarith
  have hpr : |α0 * ω0| ≤ 1.01 := by
    rw [abs_mul]; exact (mul_le_mul u5 u6 (abs_nonneg _) (by norm_num)).trans (by norm_num)
  have epr : α0 / W * (W * ω0) = α0 * ω0 := by field_simp
  have gpr : Mul2 (-43) (α0 * ω0) := by
    have := ma0.mul m0
    rw [epr, show -k - 2 - 20 + (k - 1 - 20) = -43 by ring] at this
    exact this
  have f2 : Fv (N.mul (zeroLow (N.div cmone (N.add x r))) (zeroLow (N.add x r))) (α0 * ω0) := by
    have := fa0.mul N f0 (j := -43) (by rw [epr]; exact gpr) (by rw [epr]; norm_num at *; linarith) (by norm_num) (by norm_num)
    rwa [epr] at this
  have f3 : Fv (N.add cone (N.mul (zeroLow (N.div cmone (N.add x r))) (zeroLow (N.add x r)))) (1 + α0 * ω0) := by
    refine fv_cone.add N f2 (j := -43) (Mul2.add ⟨2 ^ 43, by norm_num⟩ gpr) ?_ (by norm_num) (by norm_num)
    refine (abs_add_le _ _).trans ?_
    rw [abs_one]
    norm_num at *; linarith
  have u3 : |d| ≤ 0.01 := by
    have := abs_add_le (d - (1 - ω0)) (1 - ω0)
    rw [sub_add_cancel] at this
    norm_num at *; linarith
  have epd : α0 / W * (W * d) = α0 * d := by field_simp
  have hpd : |α0 * d| ≤ 0.1 := by
    rw [abs_mul]; exact (mul_le_mul u5 u3 (abs_nonneg _) (by norm_num)).trans (by norm_num)
  have h100 : (2 : ℝ) ≤ 2 ^ (100 : ℤ) := by norm_num
  have hpR := fa0.mulR (N := N) fd
  rw [epd] at hpR
  obtain ⟨p, fp, ep⟩ := rnd_abs hpR (by norm_num at *; linarith)
  have g6 : |p - α0 * d| ≤ 1 / 2 ^ 53 * |α0 * d| + 1 / 2 ^ 79 := ep.trans (add_le_add (le_refl _) t150')
  have hp1 : |p| ≤ 0.2 := by
    have := abs_sub_abs_le_abs_sub p (α0 * d)
    norm_num at *; linarith
  have hs1 : |1 + α0 * ω0 + p| ≤ 3 := by
    refine (abs_add_le _ _).trans ?_
    have := abs_add_le 1 (α0 * ω0)
    rw [abs_one] at this
    norm_num at *; linarith
  obtain ⟨q, fq, eq⟩ := rnd_abs (f3.addR (N := N) fp) (by norm_num at *; linarith)
  have g7 : |q - (1 + α0 * ω0 + p)| ≤ 1 / 2 ^ 53 * |1 + α0 * ω0 + p| + 1 / 2 ^ 79 := eq.trans (add_le_add (le_refl _) t150')
  have hq1 : |q| ≤ 4 := by
    have := abs_sub_abs_le_abs_sub q (1 + α0 * ω0 + p)
    norm_num at *; linarith
  have hWi : 1 / |W| ≤ 2 ^ (71 : ℤ) := by
    rw [div_le_iff₀ hW0]
    calc (1 : ℝ) = 2 ^ (71 : ℤ) * 2 ^ (-71 : ℤ) := by rw [← zpow_add₀ (by norm_num)]; norm_num
      _ ≤ _ := mul_le_mul_of_nonneg_left hW71 (by positivity)
  have hWi0 : 0 ≤ 1 / |W| := by positivity
  have haq : |α / W * q| ≤ 5 * (1 / |W|) := by
    rw [abs_mul, abs_div]
    have : |α| * |q| ≤ 1.0001 * 4 := mul_le_mul u4.1 hq1 (abs_nonneg _) (by norm_num)
    calc |α| / |W| * |q| = |α| * |q| * (1 / |W|) := by ring
      _ ≤ 5 * (1 / |W|) := mul_le_mul_of_nonneg_right (this.trans (by norm_num)) hWi0
  obtain ⟨m, fm, em⟩ := rnd_abs (fa.mulR (N := N) fq) (haq.trans (by norm_num at *; linarith))
  obtain ⟨μ, hμ⟩ : ∃ μ, μ = m * W := ⟨_, rfl⟩
  have emm : m = μ / W := by rw [hμ]; field_simp
  rw [emm] at fm em
  have g8 : |μ - α * q| ≤ 1 / 2 ^ 53 * |α * q| + 1 / 2 ^ 79 := by
    have h := mul_le_mul_of_nonneg_right em hW0.le
    rw [← abs_mul, add_mul, mul_assoc (1 / 2 ^ 53 : ℝ), ← abs_mul, show (μ / W - α / W * q) * W = μ - α * q by field_simp, show α / W * q * W = α * q by field_simp] at h
    refine h.trans (add_le_add (le_refl _) ?_)
    calc (1 : ℝ) / 2 ^ 150 * |W| ≤ 1 / 2 ^ 150 * 1 := mul_le_mul_of_nonneg_left hW1 (by norm_num)
      _ ≤ _ := by norm_num
  have hcore := recip_core g1 g2 g3 g4 g5 g6 g7 g8
  rw [← hW]
  have e9 : α0 / W + μ / W - -1 / W = (α0 + μ - -1) * (1 / W) := by field_simp
  have e10 : |α0 / W + μ / W - -1 / W| ≤ 1 / 2 ^ 69 * |1 / W| := by
    rw [e9, abs_mul]; exact mul_le_mul_of_nonneg_right hcore (abs_nonneg _)
  refine ⟨α0 / W + μ / W, fa0.addR fm, ?_, e10⟩
  have := abs_sub_abs_le_abs_sub (α0 / W + μ / W) (-1 / W)
  rw [abs_div (-1), abs_neg, abs_one] at this
  rw [abs_div 1, abs_one] at e10
  norm_num at *; linarith

end Trig
end Verif
