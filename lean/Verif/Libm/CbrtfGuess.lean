import Verif.Libm.CbrtR
import Verif.Libm.LogRed
/-! # The first approximation of `cbrtf` -/
namespace Verif
open Fmt
namespace Cbrt

theorem mv32 {e w : ℕ} (he : 1 ≤ e) (hw : w < 2 ^ 23) : f32.magVal ℝ (e * 2 ^ 23 + w) = (2 ^ 23 + w) * 2 ^ ((e : ℤ) - 150) := by
  unfold magVal
  have e1 : (e * 2 ^ 23 + w) / 2 ^ f32.s = e := by show (e * 2 ^ 23 + w) / 2 ^ 23 = e; omega
  have e2 : (e * 2 ^ 23 + w) % 2 ^ f32.s = w := by show (e * 2 ^ 23 + w) % 2 ^ 23 = w; omega
  rw [e1, e2, if_neg (by omega), show (e : ℤ) - f32.bias - f32.s = (e : ℤ) - 150 by have : (f32.bias : ℤ) = 127 := by decide
                                                                                    have : (f32.s : ℤ) = 23 := by decide
                                                                                    omega]
  push_cast
  rfl

theorem gA {z ν : ℝ} (h1 : 3 * z ≤ ν) (h2 : ν ≤ 3 * z + 3 / 2 ^ 23) (h3 : 0 ≤ ν) (h4 : ν ≤ 1) :
    (30 / 31 : ℝ) ^ 3 * (4 * (1 + ν)) ≤ (1 + 5315058 / 2 ^ 23 + z) ^ 3 ∧ (1 + 5315058 / 2 ^ 23 + z) ^ 3 ≤ (32 / 31) ^ 3 * (4 * (1 + ν)) := by
  have z0 : -1 / 2 ^ 23 ≤ z := by linarith
  have z1 : z ≤ 1 / 3 := by linarith
  norm_num at *
  constructor
  · nlinarith [mul_nonneg (mul_self_nonneg (z - 1 / 5)) (show 0 ≤ 3 + z by linarith)]
  · nlinarith [mul_nonneg (show 0 ≤ z + 1/8388608 by linarith) (show 0 ≤ 1 / 3 - z by linarith), mul_nonneg (mul_nonneg (show 0 ≤ z + 1/8388608 by linarith) (show 0 ≤ 1 / 3 - z by linarith)) (show 0 ≤ 3 + z by linarith)]
theorem gB1 {z ν : ℝ} (h1 : 3 * z ≤ ν) (h2 : ν ≤ 3 * z + 3 / 2 ^ 23) (h3 : 1 ≤ ν) (h4 : z ≤ 1 - 5315058 / 2 ^ 23) :
    (30 / 31 : ℝ) ^ 3 * (8 * ν) ≤ (1 + 5315058 / 2 ^ 23 + z) ^ 3 ∧ (1 + 5315058 / 2 ^ 23 + z) ^ 3 ≤ (32 / 31) ^ 3 * (8 * ν) := by
  have z0 : 1/3-1 / 2 ^ 23 ≤ z := by linarith
  norm_num at *
  constructor
  · nlinarith [mul_nonneg (mul_self_nonneg (z - 1 / 3)) (show 0 ≤ 3 + z by linarith)]
  · nlinarith [mul_nonneg (show 0 ≤ z - 33/100 by linarith) (show 0 ≤ 37/100 - z by linarith), mul_nonneg (mul_nonneg (show 0 ≤ z -33/100 by linarith) (show 0 ≤ 37 / 100 - z by linarith)) (show 0 ≤ 3 + z by linarith)]
theorem gB2 {z ν : ℝ} (h1 : 3 * z ≤ ν) (h2 : ν ≤ 3 * z + 3 / 2 ^ 23) (h3 : 1 ≤ ν) (h3 : ν ≤ 2) (h4 : 1 - 5315058 / 2 ^ 23 ≤ z) :
    (30 / 31 : ℝ) ^ 3 * (8 * ν) ≤ (2 * (5315058 / 2 ^ 23 + z)) ^ 3 ∧ (2 * (5315058 / 2 ^ 23 + z)) ^ 3 ≤ (32 / 31) ^ 3 * (8 * ν) := by
  have z1 : z ≤ 2/3 := by linarith
  norm_num at *
  constructor
  · nlinarith [mul_nonneg (mul_self_nonneg (z - 2 / 5)) (show 0 ≤ 3 + z by linarith)]
  · nlinarith [mul_nonneg (show 0 ≤ z - 36/100 by linarith) (show 0 ≤ 2/3 - z by linarith), mul_nonneg (mul_nonneg (show 0 ≤ z -36/100 by linarith) (show 0 ≤ 2/3 - z by linarith)) (show 0 ≤ 3 + z by linarith)]
theorem gC {z ν : ℝ} (h1 : 3 * z ≤ ν) (h2 : ν ≤ 3 * z + 3 / 2 ^ 23) (h3 : 2 ≤ ν) (h3 : ν ≤ 3) :
    (30 / 31 : ℝ) ^ 3 * (16 * (ν-1)) ≤ (2 * (5315058 / 2 ^ 23 + z)) ^ 3 ∧ (2 * (5315058 / 2 ^ 23 + z)) ^ 3 ≤ (32 / 31) ^ 3 * (16 * (ν-1)) := by
  have z1 : z ≤ 1 := by linarith
  have z0 : 2/3-1 / 2 ^ 23 ≤ z := by linarith
  norm_num at *
  constructor
  · nlinarith [mul_nonneg (mul_self_nonneg (z - 4 / 5)) (show 0 ≤ 3 + z by linarith)]
  · nlinarith [mul_nonneg (show 0 ≤ z - 66/100 by linarith) (show 0 ≤ 1 - z by linarith), mul_nonneg (mul_nonneg (show 0 ≤ z -66/100 by linarith) (show 0 ≤ 1 - z by linarith)) (show 0 ≤ 3 + z by linarith)]

/-- the first approximation, for arguments from 4 to 32 -/
theorem guess0 {m : ℕ} (hm : m < 3 * 2 ^ 23) :
    (30 / 31 : ℝ) ^ 3 * f32.magVal ℝ (129 * 2 ^ 23 + m) ≤ f32.magVal ℝ (127 * 2 ^ 23 + 5315058 + m / 3) ^ 3 ∧
      f32.magVal ℝ (127 * 2 ^ 23 + 5315058 + m / 3) ^ 3 ≤ (32 / 31 : ℝ) ^ 3 * f32.magVal ℝ (129 * 2 ^ 23 + m) := by
  have h1 : m / 3 * 3 ≤ m := Nat.div_mul_le_self m 3
  have h2 : m < m / 3 * 3 + 3 := by omega
  have h1' : ((m / 3 : ℕ) : ℝ) * 3 ≤ m := by exact_mod_cast h1
  have h2' : (m : ℝ) < ((m / 3 : ℕ) : ℝ) * 3 + 3 := by exact_mod_cast h2
  obtain ⟨z, hz⟩ : ∃ z : ℝ, ((m / 3 : ℕ) : ℝ) = 2 ^ 23 * z := ⟨((m / 3 : ℕ) : ℝ) / 2 ^ 23, by ring⟩
  obtain ⟨ν, hν⟩ : ∃ z : ℝ, (m : ℝ) = 2 ^ 23 * z := ⟨(m : ℝ) / 2 ^ 23, by ring⟩
  rw [hz, hν] at h1' h2'
  have a1 : 3 * z ≤ ν := by norm_num at h1'; linarith
  have a2 : ν ≤ 3 * z + 3 / 2 ^ 23 := by norm_num at h2' ⊢; linarith
  rcases lt_or_ge m (2 ^ 23) with c1 | c1
  · have c1' : (m : ℝ) < 2 ^ 23 := by exact_mod_cast c1
    have c0 : (0 : ℝ) ≤ m := by positivity
    rw [mv32 (by norm_num) c1, add_assoc, mv32 (by norm_num) (by omega)]
    push_cast
    rw [hz, hν]
    rw [hν] at c1' c0
    obtain ⟨r1, r2⟩ := gA a1 a2 (by norm_num at c0; linarith) (by norm_num at c1'; linarith)
    norm_num at r1 r2 ⊢
    constructor
    · linarith
    · linarith
  have c1' : (2 : ℝ) ^ 23 ≤ m := by exact_mod_cast c1
  rw [hν] at c1'
  have b1 : 1 ≤ ν := by norm_num at c1'; linarith
  rcases lt_or_ge m (2 * 2 ^ 23) with c2 | c2
  · have c2' : (m : ℝ) < 2 * 2 ^ 23 := by exact_mod_cast c2
    rw [hν] at c2'
    have b2 : ν ≤ 2 := by norm_num at c2'; linarith
    have em : 129 * 2 ^ 23 + m = 130 * 2 ^ 23 + (m - 2 ^ 23) := by omega
    rw [em, mv32 (by norm_num) (by omega)]
    rcases lt_or_ge (5315058 + m / 3) (2 ^ 23) with c3 | c3
    · have c3' : (5315058 : ℝ) + (m / 3 : ℕ) < 2 ^ 23 := by exact_mod_cast c3
      rw [hz] at c3'
      rw [add_assoc, mv32 (by norm_num) c3]
      rw [Nat.cast_sub c1]; push_cast
      rw [hz, hν]
      obtain ⟨r1, r2⟩ := gB1 a1 a2 b1 (by norm_num at c3' ⊢; linarith)
      norm_num at r1 r2 ⊢
      constructor
      · linarith
      · linarith
    · have c3' : (2 : ℝ) ^ 23 ≤ (5315058 : ℝ) + (m / 3 : ℕ) := by exact_mod_cast c3
      rw [hz] at c3'
      rw [show 127 * 2 ^ 23 + 5315058 + m / 3 = 128 * 2 ^ 23 + (5315058 + m / 3 - 2 ^ 23) by omega, mv32 (by norm_num) (by omega)]
      rw [Nat.cast_sub c1, Nat.cast_sub c3]; push_cast
      rw [hz, hν]
      obtain ⟨r1, r2⟩ := gB2 a1 a2 b1 b2 (by norm_num at c3' ⊢; linarith)
      norm_num at r1 r2 ⊢
      constructor
      · linarith
      · linarith
  · have c2' : (2 : ℝ) * 2 ^ 23 ≤ m := by exact_mod_cast c2
    have c4' : (m : ℝ) < 3 * 2 ^ 23 := by exact_mod_cast hm
    rw [hν] at c2' c4'
    have c3 : 2 ^ 23 ≤ 5315058 + m / 3 := by omega
    rw [show 129 * 2 ^ 23 + m = 131 * 2 ^ 23 + (m - 2 * 2 ^ 23) by omega, mv32 (by norm_num) (by omega),
      show 127 * 2 ^ 23 + 5315058 + m / 3 = 128 * 2 ^ 23 + (5315058 + m / 3 - 2 ^ 23) by omega, mv32 (by norm_num) (by omega)]
    rw [Nat.cast_sub c2, Nat.cast_sub c3]; push_cast
    rw [hz, hν]
    obtain ⟨r1, r2⟩ := gC a1 a2 (by norm_num at c2'; linarith) (by norm_num at c4'; linarith)
    norm_num at r1 r2 ⊢
    constructor
    · linarith
    · linarith

theorem guess_aux {n d c k a j : ℕ} (h1 : 2 ^ 23 ≤ n) (n1 : 2 ^ 23 ≤ d) (n2 : 2 ^ 23 ≤ c) (n4 : 2 ^ 23 ≤ k) (q2 : (k : ℤ) = (c : ℤ) + ((a : ℤ) - 43 - j) * 2 ^ 23)
    (q1' : (n : ℤ) = (d : ℤ) + 3 * ((a : ℤ) - 43) * 2 ^ 23)
    (g1 : (30 / 31 : ℝ) ^ 3 * f32.magVal ℝ d ≤ f32.magVal ℝ c ^ 3) (g2 : f32.magVal ℝ c ^ 3 ≤ (32 / 31 : ℝ) ^ 3 * f32.magVal ℝ d)
    {y : ℝ} (hy : 0 < y) (h : y ^ 3 * 2 ^ (3 * j) = f32.magVal ℝ n) : |f32.magVal ℝ k - y| ≤ 1 / 31 * |y| := by
  have e1 := Log.magVal_shift (F := f32) (n := n) (n' := d) (k := 3 * ((a : ℤ) - 43)) h1 n1 q1'
  have e2 := Log.magVal_shift (F := f32) (n := k) (n' := c) (k := (a : ℤ) - 43 - j) n4 n2 q2
  rw [e1] at h
  rw [e2]
  have hp : (0 : ℝ) < 2 ^ ((a : ℤ) - 43 - j) := by positivity
  generalize f32.magVal ℝ d = Z at *
  generalize hg : f32.magVal ℝ c = g at *
  have g0 : 0 ≤ g := by rw [← hg]; exact f32.magVal_nonneg ℝ _
  have e3 : (2 : ℝ) ^ (3 * ((a : ℤ) - 43)) = (2 ^ ((a : ℤ) - 43 - j)) ^ 3 * 2 ^ (3 * j) := by
    rw [← zpow_natCast, ← zpow_natCast, ← zpow_mul, ← zpow_add₀ (by norm_num)]
    congr 1; push_cast; ring
  rw [e3, ← mul_assoc] at h
  have h := mul_right_cancel₀ (by positivity) h
  generalize (2 : ℝ) ^ ((a : ℤ) - 43 - j) = P at *
  rw [abs_of_pos hy, abs_le]
  have l1 : (30 / 31 * y) ^ 3 ≤ (g * P) ^ 3 := by
    rw [mul_pow, mul_pow, h, ← mul_assoc]
    exact mul_le_mul_of_nonneg_right g1 (by positivity)
  have l2 : (g * P) ^ 3 ≤ (32 / 31 * y) ^ 3 := by
    rw [mul_pow, mul_pow, h, ← mul_assoc]
    exact mul_le_mul_of_nonneg_right g2 (by positivity)
  have l1' := le_of_pow_le_pow_left₀ (by norm_num) (by positivity) l1
  have l2' := le_of_pow_le_pow_left₀ (by norm_num) (by positivity) l2
  constructor <;> linarith

/-- the first approximation, for all normal numbers `n`; `j` is 8 for the argument divided by `2^24` -/
theorem guess {n j : ℕ} (h1 : 2 ^ 23 ≤ n) (hj : j ≤ 8) {y : ℝ} (hy : 0 < y) (h : y ^ 3 * 2 ^ (3 * j) = f32.magVal ℝ n) :
    |f32.magVal ℝ (n / 3 + 709958130 - j * 2 ^ 23) - y| ≤ 1 / 31 * |y| := by
  obtain ⟨a, m, rfl, hm⟩ : ∃ a m, n = 3 * a * 2 ^ 23 + m ∧ m < 3 * 2 ^ 23 := ⟨n / (3 * 2 ^ 23), n % (3 * 2 ^ 23), by omega, by omega⟩
  have g12 := guess0 hm
  have n1 : 2 ^ 23 ≤ 129 * 2 ^ 23 + m := le_trans (by norm_num) (Nat.le_add_right _ _)
  have n2 : 2 ^ 23 ≤ 127 * 2 ^ 23 + 5315058 + m / 3 := le_trans (by norm_num) (Nat.le_add_right _ _)
  have q1 : (3 * a * 2 ^ 23 + m : ℤ) = (129 * 2 ^ 23 + m) + 3 * ((a : ℤ) - 43) * 2 ^ 23 := by ring
  have d3 : (3 * a * 2 ^ 23 + m) / 3 = a * 2 ^ 23 + m / 3 := by omega
  have n3 : 2 ^ 23 + j * 2 ^ 23 ≤ a * 2 ^ 23 + m / 3 + 709958130 := by omega
  obtain ⟨k, hk⟩ : ∃ k, k = a * 2 ^ 23 + m / 3 + 709958130 - j * 2 ^ 23 := ⟨_, rfl⟩
  have n4 : 2 ^ 23 ≤ k := by omega
  have q2 : (k : ℤ) = ((127 * 2 ^ 23 + 5315058 + m / 3 : ℕ) : ℤ) + ((a : ℤ) - 43 - j) * 2 ^ 23 := by
    push_cast; omega
  have q1' : ((3 * a * 2 ^ 23 + m : ℕ) : ℤ) = ((129 * 2 ^ 23 + m : ℕ) : ℤ) + 3 * ((a : ℤ) - 43) * 2 ^ 23 := by push_cast; exact q1
  rw [d3, ← hk]
  clear hk d3 n3 q1
  exact guess_aux h1 n1 n2 n4 q2 q1' g12.1 g12.2 hy h

end Cbrt
end Verif
