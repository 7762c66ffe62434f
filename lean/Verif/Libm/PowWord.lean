import Verif.Libm.PowFront
import Verif.Libm.Exp2Red
import Verif.Libm.CbrtFinish
import Verif.Libm.RemPio2Compl
/-! The integer part of the exponent in `pow` and `powf`. -/
namespace Verif
open Fmt
namespace Power
open Pio2

theorem ofInt_toNat (a : ℤ) : (BitVec.ofInt 32 a).toNat = u32of a := by
  unfold u32of; rw [BitVec.toNat_ofInt]; norm_num

theorem andI_low (a : ℤ) {p : ℕ} (hp : p ≤ 31) : andI a (2 ^ p - 1) = a % 2 ^ p := by
  unfold andI
  have hb : (2 : ℤ) ^ p - 1 = ((2 ^ p - 1 : ℕ) : ℤ) := by rw [Nat.cast_sub Nat.one_le_two_pow]; push_cast; rfl
  have hpa : 2 ^ p ≤ 2 ^ 31 := Nat.pow_le_pow_right (by norm_num) hp
  have h0 : 0 < 2 ^ p := Nat.two_pow_pos p
  have e : (BitVec.ofInt 32 a &&& BitVec.ofInt 32 (2 ^ p - 1)).toNat = u32of a % 2 ^ p := by
    rw [BitVec.toNat_and, ofInt_toNat, hb, BitVec.ofInt_natCast, BitVec.toNat_ofNat, Nat.mod_eq_of_lt (a := 2 ^ p - 1) (by omega), Nat.and_two_pow_sub_one_eq_mod]
  have hl : u32of a % 2 ^ p < 2 ^ p := Nat.mod_lt _ h0
  rw [BitVec.toInt_eq_toNat_of_lt (by rw [e]; omega), e]
  unfold u32of
  push_cast
  rw [Int.toNat_of_nonneg (Int.emod_nonneg _ (by norm_num))]
  exact Int.emod_emod_of_dvd a (pow_dvd_pow (2 : ℤ) (show p ≤ 32 by omega))

theorem and_high {x p : ℕ} (hx : x < 2 ^ 32) (hp : p ≤ 32) : x &&& ((2 ^ (32 - p) - 1) <<< p) = x - x % 2 ^ p := by
  have e2 : x - x % 2 ^ p = (x >>> p) <<< p := by
    rw [Nat.shiftLeft_eq, Nat.shiftRight_eq_div_pow]
    have := Nat.div_add_mod x (2 ^ p)
    rw [Nat.mul_comm]; omega
  rw [e2]
  apply Nat.eq_of_testBit_eq
  intro i
  rw [Nat.testBit_and, Nat.testBit_shiftLeft, Nat.testBit_shiftLeft, Nat.testBit_two_pow_sub_one, Nat.testBit_shiftRight]
  by_cases hi : p ≤ i
  · rw [show p + (i - p) = i by omega]
    by_cases h6 : i - p < 32 - p
    · simp [hi, h6]
    · have : x.testBit i = false := Nat.testBit_lt_two_pow (lt_of_lt_of_le hx (Nat.pow_le_pow_right (by norm_num) (by omega)))
      simp [this]
  · simp [hi]

theorem u32of_lt (a : ℤ) : u32of a < 2 ^ 32 := by
  unfold u32of
  have := Int.emod_lt_of_pos a (show (0 : ℤ) < 2 ^ 32 by norm_num)
  have := Int.emod_nonneg a (show (2 ^ 32 : ℤ) ≠ 0 by norm_num)
  omega

theorem u32of_toInt (x : BitVec 32) : u32of x.toInt = x.toNat := by
  unfold u32of
  rw [BitVec.toInt_eq_toNat_cond]
  have := x.isLt
  split <;> omega

theorem andI_high (a : ℤ) {p : ℕ} (hp : p ≤ 31) : u32of (andI a (-(2 ^ p - 1) - 1)) = u32of a - u32of a % 2 ^ p := by
  unfold andI
  have h0 : 0 < 2 ^ p := Nat.two_pow_pos p
  have hpa : 2 ^ p ≤ 2 ^ 31 := Nat.pow_le_pow_right (by norm_num) hp
  rw [u32of_toInt, BitVec.toNat_and, ofInt_toNat, ofInt_toNat, ← and_high (u32of_lt a) (p := p) (by omega)]
  congr 1
  have e : -((2 : ℤ) ^ p - 1) - 1 = -(2 ^ p : ℕ) := by push_cast; ring
  unfold u32of
  rw [e, Nat.shiftLeft_eq, Nat.sub_mul, one_mul, ← pow_add, show 32 - p + p = 32 by omega]
  have : ((-((2 ^ p : ℕ) : ℤ)) % 2 ^ 32) = ((2 ^ 32 - 2 ^ p : ℕ) : ℤ) := by
    rw [Int.emod_eq_iff (by norm_num)]
    refine ⟨by omega, by omega, ?_⟩
    omega
  rw [this]; rfl

/-- the sign bit of a word -/
def wb (t : Bool) : ℤ := if t then 2 ^ 31 else 0

theorem u32of_neg {m : ℕ} (t : Bool) (hm : m < 2 ^ 31) : u32of ((m : ℤ) - wb t) = m + (if t then 2 ^ 31 else 0) := by
  unfold u32of wb; cases t <;> simp <;> omega
theorem mod31 {m : ℕ} (t : Bool) (hm : m < 2 ^ 31) : ((m : ℤ) - wb t) % 2 ^ 31 = m := by
  unfold wb; cases t <;> simp <;> omega

unseal i32W in
theorem i32of_word {m : ℕ} (t : Bool) (hm : m < 2 ^ 31) : i32of ((if t then 2 ^ 31 else 0) + m) = (m : ℤ) - wb t := by
  unfold i32of wb
  cases t
  · simp; exact i32W_eq (by omega)
  · simp only [if_true]
    show (((2 ^ 31 + m : ℕ) : ℤ)).bmod (2 ^ 32) = _
    rw [Int.bmod_def]; omega

theorem sar_ok {a n : ℤ} {p : ℕ} (hn : n = p) (hp : p < 32) : sarI a n = .ok (a / 2 ^ p) := by
  unfold sarI; rw [if_pos (by omega), hn]; rfl

/-- the rounding to an integer, on the words: `2^52 + g` over `2^(1075 - E)` is the magnitude, `m` its upper word -/
theorem words {m g E : ℕ} (t : Bool) (he1 : 1022 ≤ E) (he2 : E ≤ 1033) (hg : g < 2 ^ 52) (hm : m = E * 2 ^ 20 + g / 2 ^ 32) (hm2 : m < 1033 * 2 ^ 20 + 2 ^ 18) {j : ℤ} (hj : j = m - wb t) :
    ∃ n w E' F : ℕ, ∃ sh n1 m1 : ℤ, sarI 0x00100000 (andI j 0x7fffffff / 2 ^ 20 - 0x3ff + 1) = .ok sh ∧ i32C (j + sh) = .ok n1 ∧
      sarI 0x000fffff (andI n1 0x7fffffff / 2 ^ 20 - 0x3ff) = .ok m1 ∧ u32of (andI n1 (-m1 - 1)) = (if t then 2 ^ 31 else 0) + w ∧
      sarI (andI n1 0x000fffff + 0x00100000) (20 - (andI n1 0x7fffffff / 2 ^ 20 - 0x3ff)) = .ok (n : ℤ) ∧
      w = E' * 2 ^ 20 + F ∧ 1023 ≤ E' ∧ E' ≤ 1033 ∧ F < 2 ^ 20 ∧ (2 ^ 20 + F) = n * 2 ^ (1043 - E') ∧ n ≤ 1300 ∧
      n * 2 ^ (1075 - E) ≤ 2 ^ 52 + g + 2 ^ (1074 - E) ∧ 2 ^ 52 + g ≤ n * 2 ^ (1075 - E) + 2 ^ (1074 - E) + 2 ^ 32 := by
  have hm31 : m < 2 ^ 31 := by omega
  have a1 : andI j 0x7fffffff = m := by
    rw [show (0x7fffffff : ℤ) = 2 ^ 31 - 1 by norm_num, andI_low _ (by norm_num), hj, mod31 t hm31]
  have k1 : (m : ℤ) / 2 ^ 20 - 0x3ff = (E : ℤ) - 1023 := by omega
  have key : ∀ m' E' : ℕ, m' < 2 ^ 31 → 1023 ≤ E' → E' ≤ 1033 → E' * 2 ^ 20 ≤ m' → m' < (E' + 1) * 2 ^ 20 → (m' : ℤ) = m + 2 ^ 20 / 2 ^ (E - 1022) →
      ∃ n w F : ℕ, ∃ sh n1 m1 : ℤ, sarI 0x00100000 (andI j 0x7fffffff / 2 ^ 20 - 0x3ff + 1) = .ok sh ∧ i32C (j + sh) = .ok n1 ∧
      sarI 0x000fffff (andI n1 0x7fffffff / 2 ^ 20 - 0x3ff) = .ok m1 ∧ u32of (andI n1 (-m1 - 1)) = (if t then 2 ^ 31 else 0) + w ∧
      sarI (andI n1 0x000fffff + 0x00100000) (20 - (andI n1 0x7fffffff / 2 ^ 20 - 0x3ff)) = .ok (n : ℤ) ∧
      w = E' * 2 ^ 20 + F ∧ F = m' % 2 ^ 20 - m' % 2 ^ 20 % 2 ^ (1043 - E') ∧ n = (m' % 2 ^ 20 + 2 ^ 20) / 2 ^ (1043 - E') := by
    intro m' E' h31 h1 h2 h3 h4 h5
    have n1 : j + 2 ^ 20 / 2 ^ (E - 1022) = (m' : ℤ) - wb t := by rw [hj, h5]; ring
    have b1 : andI ((m' : ℤ) - wb t) 0x7fffffff = m' := by
      rw [show (0x7fffffff : ℤ) = 2 ^ 31 - 1 by norm_num, andI_low _ (by norm_num), mod31 t h31]
    have b2 : (m' : ℤ) / 2 ^ 20 - 0x3ff = ((E' - 1023 : ℕ) : ℤ) := by omega
    have b3 : andI ((m' : ℤ) - wb t) 0x000fffff = ((m' % 2 ^ 20 : ℕ) : ℤ) := by
      rw [show (0x000fffff : ℤ) = 2 ^ 20 - 1 by norm_num, andI_low _ (by norm_num)]
      unfold wb; push_cast; cases t <;> simp <;> omega
    have b4 : (0x000fffff : ℤ) / 2 ^ (E' - 1023) = 2 ^ (1043 - E') - 1 := by interval_cases E' <;> norm_num
    refine ⟨_, _, _, 2 ^ 20 / 2 ^ (E - 1022), (m' : ℤ) - wb t, 2 ^ (1043 - E') - 1, ?_, ?_, ?_, ?_, ?_, rfl, rfl, rfl⟩
    · rw [a1, k1]; exact sar_ok (by omega) (by omega)
    · rw [n1]; unfold i32C; rw [if_pos]; unfold wb; cases t <;> simp <;> omega
    · rw [b1, b2, ← b4]; exact sar_ok rfl (by omega)
    · rw [andI_high _ (by omega), u32of_neg t h31]
      have d : (2 : ℕ) ^ (1043 - E') ∣ 2 ^ 20 := pow_dvd_pow 2 (by omega)
      have d2 : (2 : ℕ) ^ (1043 - E') ∣ 2 ^ 31 := pow_dvd_pow 2 (by omega)
      have e1 : (m' + if t = true then 2 ^ 31 else 0) % 2 ^ (1043 - E') = m' % 2 ^ (1043 - E') := by
        cases t
        · simp
        · simp only [if_true]; rw [Nat.add_mod, Nat.mod_eq_zero_of_dvd d2, add_zero, Nat.mod_mod]
      have e2 : m' % 2 ^ 20 % 2 ^ (1043 - E') = m' % 2 ^ (1043 - E') := Nat.mod_mod_of_dvd _ d
      have e3 : m' % 2 ^ (1043 - E') ≤ m' % 2 ^ 20 := by rw [← e2]; exact Nat.mod_le _ _
      rw [e1, e2]
      omega
    · rw [b1, b2, b3]
      rw [sar_ok (p := 1043 - E') (by omega) (by omega)]
      push_cast; rfl
  clear hj a1 k1
  have hk := key
  rcases Nat.lt_or_ge (m + 2 ^ 20 / 2 ^ (E - 1022)) ((E + 1) * 2 ^ 20) with hc | hc
  · have hE : E ≠ 1022 := by rintro rfl; omega
    obtain ⟨n, w, F, sh, n1, m1, q1, q2, q3, q4, q5, q6, q7, q8⟩ := key (m + 2 ^ 20 / 2 ^ (E - 1022)) E (by omega) (by omega) he2 (le_trans (by omega : E * 2 ^ 20 ≤ m) (Nat.le_add_right _ _)) hc (by push_cast; rfl)
    refine ⟨n, w, E, F, sh, n1, m1, q1, q2, q3, q4, q5, q6, by omega, he2, by rw [q7]; omega, ?_⟩
    clear q1 q2 q3 q4 q5 key hk
    have : 1023 ≤ E := by omega
    clear he1 hE
    interval_cases E <;> norm_num at * <;> omega
  · obtain ⟨n, w, F, sh, n1, m1, q1, q2, q3, q4, q5, q6, q7, q8⟩ := key (m + 2 ^ 20 / 2 ^ (E - 1022)) (E + 1)
      (by clear key hk; interval_cases E <;> norm_num at * <;> omega) (by omega) (by clear key hk; interval_cases E <;> norm_num at * <;> omega) hc
      (by clear key hk; interval_cases E <;> norm_num at * <;> omega) (by push_cast; rfl)
    refine ⟨n, w, E + 1, F, sh, n1, m1, q1, q2, q3, q4, q5, q6, by omega, by clear key hk q1 q2 q3 q4 q5; interval_cases E <;> norm_num at * <;> omega, by rw [q7]; omega, ?_⟩
    clear q1 q2 q3 q4 q5 key hk
    interval_cases E <;> norm_num at * <;> omega
end Power
end Verif
