import Verif.Float.Div
import Verif.Float.AddProofs
import Mathlib.Data.Nat.Bitwise
/-! # Error bounds for the Newton iteration of soft-float division -/
namespace Verif

/-- `x/2^w` approximates the reciprocal of `b/2^(w-1)` to within `l` (above) and `u` (below) units of `2^-w`
(`Q = 2^(w-1)`). -/
def RecipB (Q x b : Nat) (l u : ℚ) : Prop :=
  -(l * b) ≤ 2 * (Q : ℚ) * Q - x * b ∧ 2 * (Q : ℚ) * Q - x * b ≤ u * b

theorem RecipB.mono {Q x b : Nat} {l u l' u' : ℚ} (h : RecipB Q x b l u) (hl : l ≤ l') (hu : u ≤ u') :
    RecipB Q x b l' u' := by
  have hb : (0 : ℚ) ≤ b := Nat.cast_nonneg _
  exact ⟨by have := mul_le_mul_of_nonneg_right hl hb; linarith [h.1],
    by have := mul_le_mul_of_nonneg_right hu hb; linarith [h.2]⟩

/-- The exact error recurrence, with `r`, `r'` the truncation remainders. -/
theorem newton_identity {Q B X q r X' r' : ℚ} (h1 : X * B = 2 * Q * q + r) (h2 : X * (2 * Q - q) = Q * X' + r') :
    2 * Q * Q * (2 * Q * Q - X' * B) = (2 * Q * Q - X * B) ^ 2 - X * B * r + r' * B * (2 * Q) := by
  linear_combination 2 * Q * B * h2 - X * B * h1

theorem nextGuess_toNat {w : Nat} (x b : BitVec w) (hq : 0 < x.toNat * b.toNat / 2 ^ w) :
    (nextGuess x b).toNat = x.toNat * (2 ^ w - x.toNat * b.toNat / 2 ^ w) / 2 ^ (w - 1) % 2 ^ w := by
  have hx := x.isLt
  have hb := b.isLt
  have hlt : x.toNat * b.toNat / 2 ^ w < 2 ^ w := by
    rw [Nat.div_lt_iff_lt_mul (Nat.two_pow_pos _)]; exact Nat.mul_lt_mul'' hx hb
  unfold nextGuess
  dsimp only
  rw [toNat_lo, BitVec.toNat_ushiftRight, Nat.shiftRight_eq_div_pow, toNat_zeroWidenMul]
  congr 3
  rw [BitVec.toNat_sub, toNat_hi, toNat_zeroWidenMul, BitVec.toNat_ofNat, Nat.zero_mod, Nat.add_zero,
    Nat.mod_eq_of_lt (by omega)]

/-- One Newton step. -/
theorem nextGuess_step {w : Nat} (hw : 5 ≤ w) {x b : BitVec w} {l u l' u' : ℚ}
    (hb : 2 ^ (w - 1) + 2 ≤ b.toNat) (h : RecipB (2 ^ (w - 1)) x.toNat b.toNat l u)
    (hl0 : 0 ≤ l) (hlu : l ≤ u) (hu : 4 * u ≤ 2 ^ (w - 1)) (hu' : u * u ≤ (u' - 1) * 2 ^ (w - 1))
    (hl' : 2 * l ≤ (l' - 2) * 2 ^ (w - 1)) (hl3 : l' ≤ 3) :
    RecipB (2 ^ (w - 1)) (nextGuess x b).toNat b.toNat l' u' := by
  have hQ16 : 16 ≤ 2 ^ (w - 1) := by
    calc 16 = 2 ^ 4 := rfl
      _ ≤ _ := Nat.pow_le_pow_right (by omega) (by omega)
  have hP : 2 ^ w = 2 * 2 ^ (w - 1) := by rw [← Nat.pow_succ']; congr 1; omega
  have hbl := b.isLt
  have hxl := x.isLt
  have hcast : ((2 ^ (w - 1) : Nat) : ℚ) = 2 ^ (w - 1) := by push_cast; rfl
  rw [← hcast] at hu hu' hl'
  have key := nextGuess_toNat x b
  rw [hP] at hbl hxl key
  generalize 2 ^ (w - 1) = Q at *
  generalize b.toNat = B at *
  generalize x.toNat = X at *
  obtain ⟨h1, h2⟩ := h
  have Q16 : (16 : ℚ) ≤ Q := by exact_mod_cast hQ16
  have B1 : (Q : ℚ) + 2 ≤ B := by exact_mod_cast hb
  have B2 : (B : ℚ) ≤ 2 * Q - 1 := by
    have : B + 1 ≤ 2 * Q := hbl
    have : (B : ℚ) + 1 ≤ 2 * Q := by exact_mod_cast this
    linarith
  have B0 : (0 : ℚ) ≤ B := by linarith
  have u0 : 0 ≤ u := le_trans hl0 hlu
  have huB : u * B ≤ Q / 4 * (2 * Q) := mul_le_mul (by linarith) (by linarith) B0 (by positivity)
  have hlB : l * B ≤ u * B := mul_le_mul_of_nonneg_right hlu B0
  -- the first quotient is positive
  have hTlo : 2 * Q ≤ X * B := by
    have : (2 : ℚ) * Q ≤ X * B := by
      have : 16 * (Q : ℚ) ≤ Q * Q := mul_le_mul_of_nonneg_right Q16 (by linarith)
      linarith
    exact_mod_cast this
  have hq0 : 0 < X * B / (2 * Q) := Nat.div_pos hTlo (by omega)
  have key := key hq0
  obtain ⟨q, hq⟩ : ∃ q, q = X * B / (2 * Q) := ⟨_, rfl⟩
  obtain ⟨r, hr⟩ : ∃ r, r = X * B % (2 * Q) := ⟨_, rfl⟩
  have e1 : X * B = 2 * Q * q + r := by rw [hq, hr]; exact (Nat.div_add_mod _ _).symm
  have hrlt : r < 2 * Q := by rw [hr]; exact Nat.mod_lt _ (by omega)
  have hqlt : q < 2 * Q := by
    rw [hq, Nat.div_lt_iff_lt_mul (by omega)]; exact Nat.mul_lt_mul'' hxl hbl
  rw [← hq] at key
  obtain ⟨X', hX'⟩ : ∃ X', X' = X * (2 * Q - q) / Q := ⟨_, rfl⟩
  obtain ⟨r', hr'⟩ : ∃ r', r' = X * (2 * Q - q) % Q := ⟨_, rfl⟩
  have e2 : X * (2 * Q - q) = Q * X' + r' := by rw [hX', hr']; exact (Nat.div_add_mod _ _).symm
  have hrlt' : r' < Q := by rw [hr']; exact Nat.mod_lt _ (by omega)
  rw [← hX'] at key
  have E1 : (X : ℚ) * B = 2 * Q * q + r := by exact_mod_cast e1
  have E2 : (X : ℚ) * (2 * Q - q) = Q * X' + r' := by
    have : ((X * (2 * Q - q) : Nat) : ℚ) = ((Q * X' + r' : Nat) : ℚ) := by rw [e2]
    push_cast [Nat.cast_sub (le_of_lt hqlt)] at this
    exact this
  have id := newton_identity E1 E2
  have R0 : (0 : ℚ) ≤ r := Nat.cast_nonneg _
  have R1 : (r : ℚ) ≤ 2 * Q := by exact_mod_cast le_of_lt hrlt
  have R0' : (0 : ℚ) ≤ r' := Nat.cast_nonneg _
  have R1' : (r' : ℚ) ≤ Q := by exact_mod_cast le_of_lt hrlt'
  have T0 : (0 : ℚ) ≤ X * B := by positivity
  have Qpos : (0 : ℚ) < 2 * Q * Q := by nlinarith
  obtain ⟨D, hD⟩ : ∃ D : ℚ, D = 2 * Q * Q - X * B := ⟨_, rfl⟩
  obtain ⟨D', hD'⟩ : ∃ D' : ℚ, D' = 2 * Q * Q - X' * B := ⟨_, rfl⟩
  rw [← hD] at h1 h2
  have hT : (X : ℚ) * B = 2 * Q * Q - D := by linarith
  rw [hT, ← hD'] at id
  rw [hT] at T0
  -- upper bound
  have D2 : D ^ 2 ≤ u * B * (u * B) := by
    have : |D| ≤ u * B := abs_le.mpr ⟨by linarith, h2⟩
    have := mul_self_le_mul_self (abs_nonneg D) this
    rw [abs_mul_abs_self] at this
    rw [sq]; exact this
  have up : D' ≤ u' * B := by
    have a1 : u * B * (u * B) ≤ (u' - 1) * Q * (B * (2 * Q)) := by
      calc u * B * (u * B) = u * u * (B * B) := by ring
        _ ≤ (u' - 1) * Q * (B * (2 * Q)) :=
          mul_le_mul hu' (mul_le_mul_of_nonneg_left (by linarith) B0) (by positivity)
            (le_trans (mul_self_nonneg u) hu')
    have a2 : (r' : ℚ) * B * (2 * Q) ≤ Q * B * (2 * Q) :=
      mul_le_mul_of_nonneg_right (mul_le_mul_of_nonneg_right R1' B0) (by linarith)
    have a3 : 0 ≤ (2 * Q * Q - D) * r := mul_nonneg T0 R0
    have : 2 * Q * Q * D' ≤ 2 * Q * Q * (u' * B) := by rw [id]; linarith
    exact le_of_mul_le_mul_left this Qpos
  have down : -(l' * B) ≤ D' := by
    have a3 : (2 * Q * Q - D) * r ≤ (2 * Q * Q + l * B) * (2 * B) := by
      apply mul_le_mul (by linarith) (by linarith) R0
      have : 0 ≤ l * B := mul_nonneg hl0 B0
      linarith
    have a4 : 2 * l * B ≤ (l' - 2) * Q * (2 * Q) :=
      mul_le_mul hl' (by linarith) B0 (le_trans (by linarith) hl')
    have a5 : 2 * l * B * B ≤ (l' - 2) * Q * (2 * Q) * B := mul_le_mul_of_nonneg_right a4 B0
    have a6 : (0 : ℚ) ≤ r' * B * (2 * Q) := by positivity
    have a7 : 0 ≤ D ^ 2 := sq_nonneg D
    have : 2 * Q * Q * (-(l' * B)) ≤ 2 * Q * Q * D' := by rw [id]; linarith
    exact le_of_mul_le_mul_left this Qpos
  -- no wrap-around
  have hXlt : X' < 2 * Q := by
    by_contra hc
    have c1 : (2 : ℚ) * Q ≤ X' := by exact_mod_cast (not_lt.mp hc)
    have c2 : (2 : ℚ) * Q * B ≤ X' * B := mul_le_mul_of_nonneg_right c1 B0
    have c3 : l' * B ≤ 3 * B := mul_le_mul_of_nonneg_right hl3 B0
    have c4 : ((Q : ℚ) + 2) * (2 * Q - 3) ≤ B * (2 * Q - 3) := mul_le_mul_of_nonneg_right B1 (by linarith)
    linarith
  rw [Nat.mod_eq_of_lt hXlt] at key
  rw [key]
  exact ⟨by rw [← hD']; exact down, by rw [← hD']; exact up⟩

/-- The initial linear estimate. -/
theorem initial_guess {w : Nat} {c b : BitVec w} {u : ℚ} (hw : 1 ≤ w) (hc : c.toNat < 2 ^ (w - 1))
    (hb : 2 ^ (w - 1) ≤ b.toNat) (h1 : 3 * (2 ^ (w - 1) : ℚ) ≤ 2 ^ w + c.toNat + u)
    (h2 : ((2 : ℚ) ^ w + c.toNat - u) ^ 2 ≤ 8 * (2 ^ (w - 1) * 2 ^ (w - 1))) :
    RecipB (2 ^ (w - 1)) (c - b).toNat b.toNat u u := by
  have hP : 2 ^ w = 2 * 2 ^ (w - 1) := by rw [← Nat.pow_succ']; congr 1; omega
  have hPq : (2 : ℚ) ^ w = ((2 * 2 ^ (w - 1) : Nat) : ℚ) := by rw [← hP]; push_cast; rfl
  have hQq : (2 : ℚ) ^ (w - 1) = ((2 ^ (w - 1) : Nat) : ℚ) := by push_cast; rfl
  have hbl := b.isLt
  have hx : (c - b).toNat = 2 ^ w + c.toNat - b.toNat := by
    rw [BitVec.toNat_sub, Nat.mod_eq_of_lt (by omega)]; omega
  rw [hPq, hQq] at h1 h2
  rw [hx, hP]
  rw [hP] at hbl
  generalize 2 ^ (w - 1) = Q at *
  have hB1 : (Q : ℚ) ≤ b.toNat := by exact_mod_cast hb
  have hB2 : (b.toNat : ℚ) ≤ 2 * Q := by exact_mod_cast le_of_lt hbl
  have hcq : (((2 * Q + c.toNat - b.toNat : Nat)) : ℚ) = 2 * Q + c.toNat - b.toNat := by
    rw [Nat.cast_sub (by omega)]; push_cast; ring
  have B0 : (0 : ℚ) ≤ b.toNat := Nat.cast_nonneg _
  push_cast at h1 h2
  unfold RecipB
  rw [hcq]
  generalize (b.toNat : ℚ) = B at *
  generalize (c.toNat : ℚ) = C at *
  generalize (Q : ℚ) = Q at *
  constructor
  · nlinarith [sq_nonneg (2 * B - (2 * Q + C - u))]
  · have a := mul_nonneg (sub_nonneg.mpr hB1) (sub_nonneg.mpr hB2)
    have b := mul_le_mul_of_nonneg_right h1 B0
    linarith

/-- The final decrement of the half-width estimate. -/
theorem RecipB.dec {w : Nat} (hw : 5 ≤ w) {x b : BitVec w} {l u : ℚ} (h : RecipB (2 ^ (w - 1)) x.toNat b.toNat l u)
    (hu : 4 * u ≤ 2 ^ (w - 1)) : RecipB (2 ^ (w - 1)) (x - 1#w).toNat b.toNat (l - 1) (u + 1) := by
  have hQ16 : 16 ≤ 2 ^ (w - 1) := by
    calc 16 = 2 ^ 4 := rfl
      _ ≤ _ := Nat.pow_le_pow_right (by omega) (by omega)
  have hP : 2 ^ w = 2 * 2 ^ (w - 1) := by rw [← Nat.pow_succ']; congr 1; omega
  have h1 : (1#w).toNat = 1 := by rw [BitVec.toNat_ofNat]; exact Nat.mod_eq_of_lt (by omega)
  have hQq : (2 : ℚ) ^ (w - 1) = ((2 ^ (w - 1) : Nat) : ℚ) := by push_cast; rfl
  have hbl := b.isLt
  rw [hP] at hbl
  rw [hQq] at hu
  have hx : 1 ≤ x.toNat := by
    by_contra hc
    have h0 : x.toNat = 0 := by omega
    have := h.2
    rw [h0] at this
    generalize 2 ^ (w - 1) = Q at *
    have Q16 : (16 : ℚ) ≤ Q := by exact_mod_cast hQ16
    have B2 : (b.toNat : ℚ) ≤ 2 * Q := by exact_mod_cast le_of_lt hbl
    have B0 : (0 : ℚ) ≤ b.toNat := Nat.cast_nonneg _
    have a1 : u * b.toNat ≤ Q / 4 * b.toNat := mul_le_mul_of_nonneg_right (by linarith) B0
    have a2 : (Q : ℚ) / 4 * b.toNat ≤ Q / 4 * (2 * Q) := mul_le_mul_of_nonneg_left B2 (by linarith)
    have a3 : 16 * (Q : ℚ) ≤ Q * Q := mul_le_mul_of_nonneg_right Q16 (by linarith)
    push_cast at this
    linarith
  rw [BitVec.toNat_sub_of_le (by rw [BitVec.le_def, h1]; exact hx), h1]
  obtain ⟨k1, k2⟩ := h
  unfold RecipB
  rw [Nat.cast_sub hx]
  push_cast at *
  constructor <;> linarith

/-- decided on a literal divisor -/
instance (Q x b : Nat) (l u : ℚ) : Decidable (RecipB Q x b l u) := inferInstanceAs (Decidable (_ ∧ _))

/-- All half-width iterations for `f32` (on targets with pointers below 64 bits). -/
theorem half16 (b : BitVec 16) (hb : 2 ^ 15 ≤ b.toNat) :
    RecipB (2 ^ 15) (guessLoop 2 (cHw 16 - b) b - 1#16).toNat b.toNat (12 / 10) (39 / 10) := by
  rcases (by omega : b.toNat = 2 ^ 15 ∨ b.toNat = 2 ^ 15 + 1 ∨ 2 ^ 15 + 2 ≤ b.toNat) with h | h | h
  · have : b = 0x8000#16 := BitVec.eq_of_toNat_eq h
    subst this; decide +kernel
  · have : b = 0x8001#16 := BitVec.eq_of_toNat_eq h
    subst this; decide +kernel
  · have h0 : RecipB (2 ^ (16 - 1)) (cHw 16 - b).toNat b.toNat 2813 2813 :=
      initial_guess (w := 16) (by omega) (by decide +kernel) hb
        (by rw [show (cHw 16).toNat = 0x7504 from by decide +kernel]; norm_num)
        (by rw [show (cHw 16).toNat = 0x7504 from by decide +kernel]; norm_num)
    have h1 := nextGuess_step (w := 16) (l' := 22 / 10) (u' := 243) (by omega) h h0 (by norm_num) (by norm_num)
      (by norm_num) (by norm_num) (by norm_num) (by norm_num)
    have h2 := nextGuess_step (w := 16) (l' := 22 / 10) (u' := 29 / 10) (by omega) h h1 (by norm_num) (by norm_num)
      (by norm_num) (by norm_num) (by norm_num) (by norm_num)
    exact (h2.dec (by omega) (by norm_num)).mono (by norm_num) (by norm_num)

/-- All half-width iterations for `f64`. -/
theorem half32 (b : BitVec 32) (hb : 2 ^ 31 ≤ b.toNat) :
    RecipB (2 ^ 31) (guessLoop 3 (cHw 32 - b) b - 1#32).toNat b.toNat (12 / 10) (83 / 10) := by
  rcases (by omega : b.toNat = 2 ^ 31 ∨ b.toNat = 2 ^ 31 + 1 ∨ 2 ^ 31 + 2 ≤ b.toNat) with h | h | h
  · have : b = 0x80000000#32 := BitVec.eq_of_toNat_eq h
    subst this; decide +kernel
  · have : b = 0x80000001#32 := BitVec.eq_of_toNat_eq h
    subst this; decide +kernel
  · have h0 : RecipB (2 ^ (32 - 1)) (cHw 32 - b).toNat b.toNat 184224974 184224974 :=
      initial_guess (w := 32) (by omega) (by decide +kernel) hb
        (by rw [show (cHw 32).toNat = 0x7504f333 from by decide +kernel]; norm_num)
        (by rw [show (cHw 32).toNat = 0x7504f333 from by decide +kernel]; norm_num)
    have h1 := nextGuess_step (w := 32) (l' := 22 / 10) (u' := 15804006) (by omega) h h0 (by norm_num) (by norm_num)
      (by norm_num) (by norm_num) (by norm_num) (by norm_num)
    have h2 := nextGuess_step (w := 32) (l' := 22 / 10) (u' := 116308) (by omega) h h1 (by norm_num) (by norm_num)
      (by norm_num) (by norm_num) (by norm_num) (by norm_num)
    have h3 := nextGuess_step (w := 32) (l' := 22 / 10) (u' := 73 / 10) (by omega) h h2 (by norm_num) (by norm_num)
      (by norm_num) (by norm_num) (by norm_num) (by norm_num)
    exact (h3.dec (by omega) (by norm_num)).mono (by norm_num) (by norm_num)

/-- All half-width iterations for `f128`. -/
theorem half64 (b : BitVec 64) (hb : 2 ^ 63 ≤ b.toNat) :
    RecipB (2 ^ 63) (guessLoop 5 (cHw 64 - b) b - 1#64).toNat b.toNat (12 / 10) (32 / 10) := by
  rcases (by omega : b.toNat = 2 ^ 63 ∨ b.toNat = 2 ^ 63 + 1 ∨ 2 ^ 63 + 2 ≤ b.toNat) with h | h | h
  · have : b = 0x8000000000000000#64 := BitVec.eq_of_toNat_eq h
    subst this; decide +kernel
  · have : b = 0x8000000000000001#64 := BitVec.eq_of_toNat_eq h
    subst this; decide +kernel
  · have h0 : RecipB (2 ^ (64 - 1)) (cHw 64 - b).toNat b.toNat 791240229949382393 791240229949382393 :=
      initial_guess (w := 64) (by omega) (by decide +kernel) hb
        (by rw [show (cHw 64).toNat = 0x7504f333f9de6108 from by decide +kernel]; norm_num)
        (by rw [show (cHw 64).toNat = 0x7504f333f9de6108 from by decide +kernel]; norm_num)
    have h1 := nextGuess_step (w := 64) (l' := 22 / 10) (u' := 67877680634450702) (by omega) h h0 (by norm_num)
      (by norm_num) (by norm_num) (by norm_num) (by norm_num) (by norm_num)
    have h2 := nextGuess_step (w := 64) (l' := 22 / 10) (u' := 499533089406165) (by omega) h h1 (by norm_num)
      (by norm_num) (by norm_num) (by norm_num) (by norm_num) (by norm_num)
    have h3 := nextGuess_step (w := 64) (l' := 22 / 10) (u' := 27054455402) (by omega) h h2 (by norm_num) (by norm_num)
      (by norm_num) (by norm_num) (by norm_num) (by norm_num)
    have h4 := nextGuess_step (w := 64) (l' := 22 / 10) (u' := 402 / 5) (by omega) h h3 (by norm_num) (by norm_num)
      (by norm_num) (by norm_num) (by norm_num) (by norm_num)
    have h5 := nextGuess_step (w := 64) (l' := 22 / 10) (u' := 22 / 10) (by omega) h h4 (by norm_num) (by norm_num)
      (by norm_num) (by norm_num) (by norm_num) (by norm_num)
    exact (h5.dec (by omega) (by norm_num)).mono (by norm_num) (by norm_num)

/-- The full-width iteration, arithmetically: `P = 2^h`, `Q = 2^(h-1)`, the divisor is `B * P + L`, `X` the half-width
estimate. `Y` is the new estimate (before the decrements). -/
theorem full_step {P Q B L X q r Y r' : Nat} {l u v : ℚ} (hP : P = 2 * Q) (hQ : 16 ≤ Q) (hB : Q ≤ B)
    (hBP : B < P) (hL : L < P) (hX : X < P) (h : RecipB Q X B l u) (hlv : l + 2 ≤ v) (huv : u ≤ v) (hv0 : 0 ≤ v)
    (hv : 16 * v ≤ Q)
    (e1 : X * (B * P + L) = P * q + r) (hr : r < P)
    (e2 : X * (P * P + 1 - q) = Q * Y + r') (hr' : r' < Q) (hq : q ≤ P * P) :
    RecipB (P * Q) Y (B * P + L) (9 / 2) (2 * v * v + 1) := by
  obtain ⟨h1, h2⟩ := h
  have Q16 : (16 : ℚ) ≤ Q := by exact_mod_cast hQ
  have Pq : (P : ℚ) = 2 * Q := by exact_mod_cast hP
  have B1 : (Q : ℚ) ≤ B := by exact_mod_cast hB
  have L0 : (0 : ℚ) ≤ L := Nat.cast_nonneg _
  have L1 : (L : ℚ) ≤ P := by exact_mod_cast le_of_lt hL
  have X0 : (0 : ℚ) ≤ X := Nat.cast_nonneg _
  have X1 : (X : ℚ) ≤ P := by exact_mod_cast le_of_lt hX
  have B2 : (B : ℚ) + 1 ≤ P := by exact_mod_cast hBP
  have R0 : (0 : ℚ) ≤ r := Nat.cast_nonneg _
  have R1 : (r : ℚ) ≤ P := by exact_mod_cast le_of_lt hr
  have R0' : (0 : ℚ) ≤ r' := Nat.cast_nonneg _
  have R1' : (r' : ℚ) ≤ Q := by exact_mod_cast le_of_lt hr'
  have E1 : (X : ℚ) * (B * P + L) = P * q + r := by exact_mod_cast e1
  have E2 : (X : ℚ) * (P * P + 1 - q) = Q * Y + r' := by
    have : ((X * (P * P + 1 - q) : Nat) : ℚ) = ((Q * Y + r' : Nat) : ℚ) := by rw [e2]
    push_cast [Nat.cast_sub (show q ≤ P * P + 1 by omega)] at this
    exact this
  unfold RecipB
  push_cast
  obtain ⟨b, hb⟩ : ∃ b : ℚ, b = B * P + L := ⟨_, rfl⟩
  rw [← hb] at E1 ⊢
  clear e1 e2 hr hr' hq hL hX hBP hB hP hQ
  generalize (P : ℚ) = P at *
  generalize (Q : ℚ) = Q at *
  generalize (B : ℚ) = B at *
  generalize (L : ℚ) = L at *
  generalize (X : ℚ) = X at *
  generalize (Y : ℚ) = Y at *
  generalize (q : ℚ) = q at *
  generalize (r : ℚ) = r at *
  generalize (r' : ℚ) = r' at *
  subst Pq
  -- bounds on b
  have hb1 : B * (2 * Q) ≤ b := by linarith
  have hb0 : 2 * Q * Q ≤ b := by
    have := mul_le_mul_of_nonneg_right B1 (show (0 : ℚ) ≤ 2 * Q by linarith)
    linarith
  have hb2 : b ≤ 4 * Q * Q := by
    have := mul_le_mul_of_nonneg_right B2 (show (0 : ℚ) ≤ 2 * Q by linarith)
    linarith
  have Q0 : 0 ≤ Q := by linarith only [Q16]
  have h4Q : 0 ≤ 4 * Q * Q := by positivity
  have hQQ : 16 * Q ≤ Q * Q := mul_le_mul_of_nonneg_right Q16 (by linarith)
  have b0 : 0 ≤ b := by linarith
  obtain ⟨N, hN⟩ : ∃ N : ℚ, N = 8 * Q * Q * Q * Q := ⟨_, rfl⟩
  have hNpos : 0 < N := by rw [hN]; have : 0 < Q := by linarith
                           positivity
  -- D = N - (X * P) * b
  obtain ⟨D, hD⟩ : ∃ D : ℚ, D = N - X * (2 * Q) * b := ⟨_, rfl⟩
  have hDe : D = 4 * Q * Q * (2 * Q * Q - X * B) - 2 * Q * X * L := by rw [hD, hN, hb]; ring
  have Du : D ≤ v * (2 * Q) * b := by
    have a1 : 4 * Q * Q * (2 * Q * Q - X * B) ≤ 4 * Q * Q * (u * B) :=
      mul_le_mul_of_nonneg_left h2 (by positivity)
    have a2 : u * B ≤ v * B := mul_le_mul_of_nonneg_right huv (by linarith)
    have a3 : 4 * Q * Q * (u * B) ≤ 4 * Q * Q * (v * B) := mul_le_mul_of_nonneg_left a2 (by positivity)
    have a4 : v * (2 * Q) * (B * (2 * Q)) ≤ v * (2 * Q) * b :=
      mul_le_mul_of_nonneg_left hb1 (mul_nonneg hv0 (by linarith))
    have a5 : 0 ≤ 2 * Q * X * L := by
      have := mul_nonneg X0 L0
      have := mul_nonneg (show (0 : ℚ) ≤ 2 * Q by linarith) this
      linarith
    rw [hDe]; linarith only [a1, a2, a3, a4, a5]
  have Dl : -(v * (2 * Q) * b) ≤ D := by
    have a1 : 4 * Q * Q * (-(l * B)) ≤ 4 * Q * Q * (2 * Q * Q - X * B) :=
      mul_le_mul_of_nonneg_left h1 (by positivity)
    have a2 : (l + 2) * B ≤ v * B := mul_le_mul_of_nonneg_right hlv (by linarith)
    have a3 : 4 * Q * Q * ((l + 2) * B) ≤ 4 * Q * Q * (v * B) := mul_le_mul_of_nonneg_left a2 (by positivity)
    have a4 : v * (2 * Q) * (B * (2 * Q)) ≤ v * (2 * Q) * b :=
      mul_le_mul_of_nonneg_left hb1 (mul_nonneg hv0 (by linarith))
    have a5 : X * L ≤ 2 * Q * (2 * Q) := mul_le_mul X1 L1 L0 (by linarith)
    have a6 : 2 * Q * (X * L) ≤ 2 * Q * (2 * Q * (2 * Q)) := mul_le_mul_of_nonneg_left a5 (by linarith)
    have a7 : 8 * Q * Q * Q ≤ 8 * Q * Q * B := mul_le_mul_of_nonneg_left B1 (by positivity)
    rw [hDe]; linarith only [a1, a2, a3, a4, a5, a6, a7]
  -- the identity
  have id : N * (N - Y * b) = D ^ 2 - X * (2 * Q) * b * (4 * Q * Q + 2 * Q * r) + r' * b * (8 * Q * Q * Q) := by
    rw [hD, hN]
    linear_combination (8 * Q * Q * Q * b) * E2 - (4 * Q * Q * b * X) * E1
  have hT : X * (2 * Q) * b = N - D := by linarith
  rw [hT] at id
  have hvb : v * (2 * Q) * b ≤ Q / 16 * (2 * Q) * b :=
    mul_le_mul_of_nonneg_right (mul_le_mul_of_nonneg_right (by linarith) (by linarith)) b0
  have hvb2 : v * (2 * Q) * b ≤ N / 16 := by
    have : Q / 16 * (2 * Q) * b ≤ Q / 16 * (2 * Q) * (4 * Q * Q) :=
      mul_le_mul_of_nonneg_left hb2 (by positivity)
    rw [hN]; linarith
  have T0 : 0 ≤ N - D := by linarith
  have goalN : 2 * (2 * Q * Q) * (2 * Q * Q) - Y * b = N - Y * b := by rw [hN]; ring
  rw [goalN]
  constructor
  · have a1 : (N - D) * (4 * Q * Q + 2 * Q * r) ≤ (N + N / 16) * (2 * b * 2) := by
      apply mul_le_mul (by linarith only [Dl, hvb2]) _ (by positivity) (by linarith only [hNpos])
      have : 2 * Q * r ≤ 2 * Q * (2 * Q) := mul_le_mul_of_nonneg_left R1 (by linarith)
      linarith
    have a2 : 0 ≤ r' * b * (8 * Q * Q * Q) := by
      have : 0 ≤ Q := by linarith
      positivity
    have a3 : N * (-(9 / 2 * b)) ≤ N * (N - Y * b) := by
      rw [id]
      have := mul_nonneg (le_of_lt hNpos) b0
      generalize (N - D) * (4 * Q * Q + 2 * Q * r) = M1 at a1 ⊢
      generalize r' * b * (8 * Q * Q * Q) = M2 at a2 ⊢
      linarith only [sq_nonneg D, a1, a2, this]
    exact le_of_mul_le_mul_left a3 hNpos
  · have a1 : D ^ 2 ≤ v * (2 * Q) * b * (v * (2 * Q) * b) := by
      have : |D| ≤ v * (2 * Q) * b := abs_le.mpr ⟨by linarith, Du⟩
      have := mul_self_le_mul_self (abs_nonneg D) this
      rw [abs_mul_abs_self] at this
      rw [sq]; exact this
    have a2 : v * (2 * Q) * b * (v * (2 * Q) * b) ≤ N * (2 * v * v * b) := by
      have : v * v * (4 * Q * Q) * b * b ≤ v * v * (4 * Q * Q) * b * (4 * Q * Q) :=
        mul_le_mul_of_nonneg_left hb2 (by
          have : 0 ≤ Q := by linarith
          positivity)
      rw [hN]; linarith
    have a3 : r' * b * (8 * Q * Q * Q) ≤ Q * b * (8 * Q * Q * Q) :=
      mul_le_mul_of_nonneg_right (mul_le_mul_of_nonneg_right R1' b0) (by
        have : 0 ≤ Q := by linarith
        positivity)
    have a4 : 0 ≤ (N - D) * (4 * Q * Q + 2 * Q * r) := mul_nonneg T0 (by
      have : 0 ≤ Q := by linarith
      positivity)
    have a5 : N * (N - Y * b) ≤ N * ((2 * v * v + 1) * b) := by
      rw [id]
      have : N * b = Q * b * (8 * Q * Q * Q) := by rw [hN]; ring
      generalize (N - D) * (4 * Q * Q + 2 * Q * r) = M1 at a4 ⊢
      generalize r' * b * (8 * Q * Q * Q) = M2 at a3 ⊢
      linarith only [a1, a2, a3, a4, this]
    exact le_of_mul_le_mul_left a5 hNpos

/-- Subtracting `k` from the estimate. -/
theorem RecipB.sub {Q x k b : Nat} {l u : ℚ} (h : RecipB Q x b l u) (hk : k ≤ x) :
    RecipB Q (x - k) b (l - k) (u + k) := by
  obtain ⟨h1, h2⟩ := h
  unfold RecipB
  rw [Nat.cast_sub hk]
  constructor <;> linarith

/-- The estimate is large, and (for a divisor not too near `1`) below `1`. -/
theorem RecipB.bounds {Q x b : Nat} {l u : ℚ} (h : RecipB Q x b l u) (hb : Q ≤ b) (hb2 : b < 2 * Q) (hu : 4 * u ≤ Q) :
    Q ≤ 2 * x := by
  obtain ⟨h1, h2⟩ := h
  by_contra hc
  have hc' : (2 : ℚ) * x ≤ Q := by exact_mod_cast le_of_lt (not_le.mp hc)
  have B1 : (Q : ℚ) ≤ b := by exact_mod_cast hb
  have B2 : (b : ℚ) < 2 * Q := by exact_mod_cast hb2
  have Q0 : (0 : ℚ) < Q := by linarith
  have a1 : (2 * x : ℚ) * b ≤ Q * b := mul_le_mul_of_nonneg_right hc' (by linarith)
  have a2 : 4 * u * b ≤ Q * b := mul_le_mul_of_nonneg_right hu (by linarith)
  have a3 : (Q : ℚ) * b < Q * (2 * Q) := mul_lt_mul_of_pos_left B2 Q0
  linarith [mul_pos Q0 Q0]

theorem RecipB.lt {Q x b : Nat} {l u : ℚ} (h : RecipB Q x b l u) (hQ : 16 ≤ Q) (hb : Q + 16 ≤ b) (hl : l ≤ 5) :
    x < 2 * Q := by
  obtain ⟨h1, h2⟩ := h
  by_contra hc
  have hc' : (2 : ℚ) * Q ≤ x := by exact_mod_cast (not_lt.mp hc)
  have B1 : (Q : ℚ) + 16 ≤ b := by exact_mod_cast hb
  have Q0 : (16 : ℚ) ≤ Q := by exact_mod_cast hQ
  have a1 : (2 * Q : ℚ) * b ≤ x * b := mul_le_mul_of_nonneg_right hc' (by linarith)
  have a2 : l * b ≤ 5 * b := mul_le_mul_of_nonneg_right hl (by linarith)
  have a3 : ((Q : ℚ) + 16) * (2 * Q - 5) ≤ b * (2 * Q - 5) := mul_le_mul_of_nonneg_right B1 (by linarith)
  linarith

namespace Fmt
variable (F : Fmt)

theorem divRecipHalf_spec {iters : Nat} {b1 : BitVec F.w} {l u v : ℚ} (hev : F.w = 2 * (F.w / 2))
    (hhalf : ∀ b : BitVec (F.w / 2), 2 ^ (F.w / 2 - 1) ≤ b.toNat →
      RecipB (2 ^ (F.w / 2 - 1)) (guessLoop iters (cHw _ - b) b - 1#_).toNat b.toNat l u)
    (hlv : l + 2 ≤ v) (huv : u ≤ v) (hv0 : 0 ≤ v) (hv : 16 * v ≤ 2 ^ (F.w / 2 - 1))
    (hv2 : 4 * (2 * v * v + 1) ≤ 2 ^ (F.w - 1))
    (hb : 2 ^ (F.w - 1) + 16 ≤ b1.toNat) :
    Ok (F.divRecipHalf iters b1) (fun x => RecipB (2 ^ (F.w - 1)) x.toNat b1.toNat (3 / 2) (2 * v * v + 4)) := by
  have he := F.he; have hs := F.hs
  have hwd : F.w = F.e + F.s + 1 := rfl
  unfold divRecipHalf
  dsimp only
  have hbl := b1.isLt
  have h1w : (1#F.w).toNat = 1 := F.toNat_one'
  have h2w : (2#F.w).toNat = 2 := by
    rw [BitVec.toNat_ofNat]; apply Nat.mod_eq_of_lt
    calc 2 < 2 ^ 2 := by omega
      _ ≤ 2 ^ F.w := two_pow_le (by omega)
  have hh5 : 5 ≤ F.w / 2 := by omega
  have hhw : F.w / 2 < F.w := by omega
  -- names for the powers
  have eW : 2 ^ F.w = 2 ^ (F.w / 2) * 2 ^ (F.w / 2) := by rw [← Nat.pow_add]; congr 1; omega
  have eP : 2 ^ (F.w / 2) = 2 * 2 ^ (F.w / 2 - 1) := by rw [← Nat.pow_succ']; congr 1; omega
  have eR : 2 ^ (F.w - 1) = 2 ^ (F.w / 2) * 2 ^ (F.w / 2 - 1) := by rw [← Nat.pow_add]; congr 1; omega
  have eW2 : 2 ^ F.w = 2 * 2 ^ (F.w - 1) := by rw [← Nat.pow_succ']; congr 1
  have hQ16 : 16 ≤ 2 ^ (F.w / 2 - 1) := by
    calc 16 = 2 ^ 4 := rfl
      _ ≤ _ := Nat.pow_le_pow_right (by omega) (by omega)
  have hvq : (2 : ℚ) ^ (F.w / 2 - 1) = ((2 ^ (F.w / 2 - 1) : Nat) : ℚ) := by push_cast; rfl
  have hvr : (2 : ℚ) ^ (F.w - 1) = ((2 ^ (F.w - 1) : Nat) : ℚ) := by push_cast; rfl
  rw [hvq] at hv
  rw [hvr] at hv2
  -- the halves of b
  obtain ⟨bh, hbh⟩ : ∃ bh, bh = (b1 >>> (F.w / 2)).setWidth (F.w / 2) := ⟨_, rfl⟩
  rw [← hbh]
  have hbh' : bh.toNat = b1.toNat / 2 ^ (F.w / 2) := by
    rw [hbh, BitVec.toNat_setWidth, BitVec.toNat_ushiftRight, Nat.shiftRight_eq_div_pow]
    apply Nat.mod_eq_of_lt
    rw [Nat.div_lt_iff_lt_mul (Nat.two_pow_pos _), ← eW]; exact hbl
  have hBge : 2 ^ (F.w / 2 - 1) ≤ bh.toNat := by
    rw [hbh', Nat.le_div_iff_mul_le (Nat.two_pow_pos _), Nat.mul_comm, ← eR]; omega
  have hX := hhalf bh hBge
  refine Ok.bind (shlC_spec (by omega)) ?_
  intro t ht
  have hone : (1#(F.w / 2)).toNat = 1 := by
    rw [BitVec.toNat_ofNat]; exact Nat.mod_eq_of_lt (Nat.one_lt_two_pow (by omega))
  rw [hone, one_mul, Nat.mod_eq_of_lt (by omega)] at ht
  refine Ok.bind (assertC_spec ?_) ?_
  · rw [decide_eq_true_iff, gt_iff_lt, BitVec.lt_def, BitVec.toNat_and, ht, Nat.and_two_pow]
    have : bh.toNat.testBit (F.w / 2 - 1) = true := by
      rw [Nat.testBit_eq_decide_div_mod_eq]
      have : bh.toNat / 2 ^ (F.w / 2 - 1) = 1 := by
        have := bh.isLt
        rw [Nat.div_eq_of_lt_le] <;> omega
      rw [this]; rfl
    rw [this]
    simp
  intro _ _
  obtain ⟨xh, hxh⟩ : ∃ xh, xh = guessLoop iters (cHw (F.w / 2) - bh) bh - 1#(F.w / 2) := ⟨_, rfl⟩
  rw [← hxh] at hX ⊢
  refine Ok.bind (shrC_spec hhw) ?_
  intro mask hmask
  have hmask' : mask.toNat = 2 ^ (F.w / 2) - 1 := by
    rw [hmask, BitVec.toNat_allOnes]
    have e : 2 ^ F.w - 1 = (2 ^ (F.w / 2) - 1) + 2 ^ (F.w / 2) * (2 ^ (F.w / 2) - 1) := by
      rw [eW, Nat.mul_sub, Nat.mul_one]
      have := Nat.two_pow_pos (F.w / 2)
      have : 2 ^ (F.w / 2) ≤ 2 ^ (F.w / 2) * 2 ^ (F.w / 2) := Nat.le_mul_of_pos_left _ this
      omega
    rw [e, Nat.add_mul_div_left _ _ (Nat.two_pow_pos _), Nat.div_eq_of_lt (by have := Nat.two_pow_pos (F.w / 2); omega),
      Nat.zero_add]
  have hand : ∀ z : BitVec F.w, (z &&& mask).toNat = z.toNat % 2 ^ (F.w / 2) := by
    intro z; rw [BitVec.toNat_and, hmask', Nat.and_two_pow_sub_one_eq_mod]
  have hset : ∀ z : BitVec (F.w / 2), (z.setWidth F.w).toNat = z.toNat := by
    intro z
    rw [BitVec.toNat_setWidth]
    apply Nat.mod_eq_of_lt
    exact lt_of_lt_of_le z.isLt (two_pow_le (by omega))
  have hxl := xh.isLt
  have hbhl := bh.isLt
  have hPpos := Nat.two_pow_pos (F.w / 2)
  have hLlt : b1.toNat % 2 ^ (F.w / 2) < 2 ^ (F.w / 2) := Nat.mod_lt _ hPpos
  have hBL : bh.toNat * 2 ^ (F.w / 2) + b1.toNat % 2 ^ (F.w / 2) = b1.toNat := by
    rw [hbh', Nat.mul_comm]; exact Nat.div_add_mod _ _
  -- products
  refine Ok.bind (mulC_spec (by rw [hset, hset, eW]; exact Nat.mul_lt_mul'' hxl hbhl)) ?_
  intro t1 ht1
  refine Ok.bind (mulC_spec (by rw [hset, hand, eW]; exact Nat.mul_lt_mul'' hxl hLlt)) ?_
  intro t2 ht2
  refine Ok.bind (shrC_spec hhw) ?_
  intro t3 ht3
  rw [hset, hset] at ht1
  rw [hset, hand] at ht2
  rw [ht2] at ht3
  have hq : t1.toNat + t3.toNat = xh.toNat * b1.toNat / 2 ^ (F.w / 2) := by
    rw [ht1, ht3]
    conv_rhs => rw [← hBL]
    rw [Nat.mul_add, ← Nat.mul_assoc, Nat.add_comm (xh.toNat * bh.toNat * _), Nat.add_mul_div_right _ _ hPpos,
      Nat.add_comm]
  have hqlt : xh.toNat * b1.toNat / 2 ^ (F.w / 2) < 2 ^ F.w := by
    rw [Nat.div_lt_iff_lt_mul hPpos, Nat.mul_comm]
    exact Nat.mul_lt_mul'' hbl hxl
  refine Ok.bind (addC_spec (by rw [hq]; exact hqlt)) ?_
  intro t4 ht4
  rw [hq] at ht4
  -- x is large
  have hu4 : (4 : ℚ) * u ≤ ((2 ^ (F.w / 2 - 1) : Nat) : ℚ) := by linarith
  have hxbig := hX.bounds hBge (by omega) hu4
  have hq2 : 2 ≤ t4.toNat := by
    rw [ht4, Nat.le_div_iff_mul_le hPpos]
    have a : 8 * 2 ^ (F.w - 1) ≤ xh.toNat * b1.toNat := Nat.mul_le_mul (by omega) (by omega)
    have b : 2 ^ (F.w / 2) ≤ 2 ^ (F.w - 1) := two_pow_le (by omega)
    omega
  have ht4l := t4.isLt
  have hcorr : (-(t4 - 1#F.w)).toNat = 2 ^ F.w + 1 - t4.toNat := by
    have e : (t4 - 1#F.w).toNat = t4.toNat - 1 := by
      rw [BitVec.toNat_sub_of_le (by rw [BitVec.le_def, h1w]; omega), h1w]
    rw [BitVec.toNat_neg, e, Nat.mod_eq_of_lt (by omega)]; omega
  obtain ⟨corr, hc⟩ : ∃ corr, corr = -(t4 - 1#F.w) := ⟨_, rfl⟩
  rw [← hc] at hcorr ⊢
  have hcl := corr.isLt
  refine Ok.bind (shrC_spec hhw) ?_
  intro hic hhic
  have hhil : hic.toNat < 2 ^ (F.w / 2) := by
    rw [hhic, Nat.div_lt_iff_lt_mul hPpos, ← eW]; exact hcl
  refine Ok.bind (mulC_spec (by rw [hset, eW]; exact Nat.mul_lt_mul'' hxl hhil)) ?_
  intro p hp
  refine Ok.bind (shlC_spec (by omega)) ?_
  intro p' hp'
  refine Ok.bind (mulC_spec (by rw [hset, hand, eW]; exact Nat.mul_lt_mul'' hxl (Nat.mod_lt _ hPpos))) ?_
  intro r hr
  refine Ok.bind (shrC_spec (by omega)) ?_
  intro r' hr'
  rw [hset] at hp
  rw [hset, hand] at hr
  -- Y
  obtain ⟨Y, hY⟩ : ∃ Y, Y = xh.toNat * corr.toNat / 2 ^ (F.w / 2 - 1) := ⟨_, rfl⟩
  have hYsum : p.toNat * 2 + r'.toNat = Y := by
    rw [hY, hp, hr', hr, hhic]
    conv_rhs => rw [← Nat.div_add_mod corr.toNat (2 ^ (F.w / 2))]
    have : xh.toNat * (2 ^ (F.w / 2) * (corr.toNat / 2 ^ (F.w / 2)) + corr.toNat % 2 ^ (F.w / 2)) =
        xh.toNat * (corr.toNat % 2 ^ (F.w / 2)) +
          xh.toNat * (corr.toNat / 2 ^ (F.w / 2)) * 2 * 2 ^ (F.w / 2 - 1) := by
      conv_lhs => rw [Nat.mul_add, ← Nat.mul_assoc]
      conv_lhs => lhs; lhs; rw [eP]
      ring
    rw [this, Nat.add_mul_div_right _ _ (by omega)]
    omega
  have hfull : RecipB (2 ^ (F.w - 1)) Y b1.toNat (9 / 2) (2 * v * v + 1) := by
    rw [eR]
    conv => arg 3; rw [← hBL]
    refine full_step (q := t4.toNat) (r := xh.toNat * b1.toNat % 2 ^ (F.w / 2))
      (r' := xh.toNat * corr.toNat % 2 ^ (F.w / 2 - 1)) eP hQ16 hBge hbhl hLlt hxl hX hlv huv hv0 hv ?_
      (Nat.mod_lt _ hPpos) ?_ (Nat.mod_lt _ (Nat.two_pow_pos _)) ?_
    · rw [hBL, ht4]; exact (Nat.div_add_mod _ _).symm
    · rw [← eW, ← hcorr, hY]; exact (Nat.div_add_mod _ _).symm
    · rw [← eW]; omega
  have hR16 : 16 ≤ 2 ^ (F.w - 1) := le_trans hQ16 (two_pow_le (by omega))
  have hYlt := hfull.lt hR16 hb (by norm_num)
  have hYbig := hfull.bounds (by omega) (by omega) hv2
  rw [← eW2] at hYlt
  have hsum : (p' + r').toNat = Y := by
    rw [BitVec.toNat_add, hp', Nat.mod_add_mod, pow_one, hYsum, Nat.mod_eq_of_lt hYlt]
  have hm2 : (p' + r' - 2#F.w).toNat = Y - 2 := by
    rw [BitVec.toNat_sub_of_le (by rw [BitVec.le_def, hsum, h2w]; omega), hsum, h2w]
  refine (subC_spec (by rw [hm2, h1w]; omega)).mono ?_
  intro x hx
  rw [hx, hm2, h1w]
  have := hfull.sub (k := 3) (by omega)
  rw [show Y - 2 - 1 = Y - 3 by omega]
  exact this.mono (by norm_num) (by push_cast; linarith)

/-- The iterations at full width (`f32` on 64-bit targets), after subtracting `2`. -/
theorem full32 (b : BitVec 32) (hb : b.toNat = 2 ^ 31 ∨ 2 ^ 31 + 16 ≤ b.toNat) :
    RecipB (2 ^ 31) (guessLoop 3 (0x7504f333#32 - b) b - 2#32).toNat b.toNat (3 / 10) (94 / 10) := by
  rcases hb with h | h
  · have : b = 0x80000000#32 := BitVec.eq_of_toNat_eq h
    subst this; decide +kernel
  · have h' : 2 ^ (32 - 1) + 2 ≤ b.toNat := by omega
    have h0 : RecipB (2 ^ (32 - 1)) (0x7504f333#32 - b).toNat b.toNat 184224974 184224974 :=
      initial_guess (w := 32) (by omega) (by decide +kernel) (by omega)
        (by rw [show (0x7504f333#32).toNat = 0x7504f333 from by decide +kernel]; norm_num)
        (by rw [show (0x7504f333#32).toNat = 0x7504f333 from by decide +kernel]; norm_num)
    have h1 := nextGuess_step (w := 32) (l' := 22 / 10) (u' := 15804006) (by omega) h' h0 (by norm_num) (by norm_num)
      (by norm_num) (by norm_num) (by norm_num) (by norm_num)
    have h2 := nextGuess_step (w := 32) (l' := 22 / 10) (u' := 116308) (by omega) h' h1 (by norm_num) (by norm_num)
      (by norm_num) (by norm_num) (by norm_num) (by norm_num)
    have h3 := nextGuess_step (w := 32) (l' := 22 / 10) (u' := 73 / 10) (by omega) h' h2 (by norm_num) (by norm_num)
      (by norm_num) (by norm_num) (by norm_num) (by norm_num)
    have h4 := (h3.dec (by omega) (by norm_num)).dec (by omega) (by norm_num)
    have e : ∀ z : BitVec 32, z - 1#32 - 1#32 = z - 2#32 := by intro z; rw [BitVec.sub_sub]; rfl
    rw [e] at h4
    exact h4.mono (by norm_num) (by norm_num)

/-- What the rest of `div` needs from the reciprocal: a lower estimate, at most `d` units too small. -/
def RecipOk (d : Nat) (b1 x : BitVec F.w) : Prop :=
  x.toNat * b1.toNat < 2 ^ (2 * F.w - 1) ∧ 2 ^ (2 * F.w - 1) ≤ x.toNat * b1.toNat + d * b1.toNat

theorem recipOk_of {d : Nat} {b1 x : BitVec F.w} {l u : ℚ} (hb : 0 < b1.toNat)
    (h : RecipB (2 ^ (F.w - 1)) x.toNat b1.toNat l u) (hl : l < 0) (hu : u ≤ d) : F.RecipOk d b1 x := by
  obtain ⟨h1, h2⟩ := h
  have e : 2 ^ (2 * F.w - 1) = 2 * 2 ^ (F.w - 1) * 2 ^ (F.w - 1) := by
    rw [Nat.mul_assoc, ← Nat.pow_add, ← Nat.pow_succ']; congr 1
    have : F.w = F.e + F.s + 1 := rfl
    omega
  have hbq : (0 : ℚ) < b1.toNat := by exact_mod_cast hb
  have a1 : 0 < -(l * b1.toNat) := by
    have := mul_pos_of_neg_of_neg hl (neg_lt_zero.mpr hbq)
    linarith
  have a2 : u * b1.toNat ≤ d * b1.toNat := mul_le_mul_of_nonneg_right hu (le_of_lt hbq)
  unfold RecipOk
  rw [e]
  constructor
  · have : (x.toNat : ℚ) * b1.toNat < 2 * ((2 ^ (F.w - 1) : Nat) : ℚ) * (2 ^ (F.w - 1) : Nat) := by linarith
    exact_mod_cast this
  · have : 2 * ((2 ^ (F.w - 1) : Nat) : ℚ) * (2 ^ (F.w - 1) : Nat) ≤ (x.toNat : ℚ) * b1.toNat + d * b1.toNat := by
      linarith
    exact_mod_cast this

instance (d : Nat) (b1 x : BitVec F.w) : Decidable (F.RecipOk d b1 x) := inferInstanceAs (Decidable (_ ∧ _))

/-- Half-width path followed by the subtraction of `2` and of the precision bound. -/
theorem divRecip_half {iters full prec d : Nat} {b1 : BitVec F.w} {l u v : ℚ} (hit : 0 < iters)
    (hev : F.w = 2 * (F.w / 2))
    (hhalf : ∀ b : BitVec (F.w / 2), 2 ^ (F.w / 2 - 1) ≤ b.toNat →
      RecipB (2 ^ (F.w / 2 - 1)) (guessLoop iters (cHw _ - b) b - 1#_).toNat b.toNat l u)
    (hlv : l + 2 ≤ v) (huv : u ≤ v) (hv0 : 0 ≤ v) (hv : 16 * v ≤ 2 ^ (F.w / 2 - 1))
    (hv2 : 4 * (2 * v * v + 4) ≤ 2 ^ (F.w - 1)) (hprec : 2 * (prec + 2) ≤ 2 ^ (F.w - 1))
    (hd : 2 * v * v + 6 + prec ≤ d)
    (hb : 2 ^ (F.w - 1) + 16 ≤ b1.toNat) :
    Ok (F.divRecip iters full prec b1) (F.RecipOk d b1) := by
  have he := F.he; have hs := F.hs
  have hwd : F.w = F.e + F.s + 1 := rfl
  have hbl := b1.isLt
  have eW2 : 2 ^ F.w = 2 * 2 ^ (F.w - 1) := by rw [← Nat.pow_succ']; congr 1
  have h2w : (2#F.w).toNat = 2 := by
    rw [BitVec.toNat_ofNat]; apply Nat.mod_eq_of_lt
    calc 2 < 2 ^ 2 := by omega
      _ ≤ 2 ^ F.w := two_pow_le (by omega)
  unfold divRecip
  rw [if_pos hit]
  refine Ok.bind (F.divRecipHalf_spec hev hhalf hlv huv hv0 hv (by linarith) hb) ?_
  intro x hx
  have hvr : (2 : ℚ) ^ (F.w - 1) = ((2 ^ (F.w - 1) : Nat) : ℚ) := by push_cast; rfl
  rw [hvr] at hv2
  have hbig := hx.bounds (by omega) (by omega) hv2
  refine Ok.bind (castU_spec (by omega)) ?_
  intro p hp
  have hm2 : (x - 2#F.w).toNat = x.toNat - 2 := by
    rw [BitVec.toNat_sub_of_le (by rw [BitVec.le_def, h2w]; omega), h2w]
  refine (subC_spec (by rw [hm2, hp]; omega)).mono ?_
  intro y hy
  have := hx.sub (k := prec + 2) (by omega)
  have e : y.toNat = x.toNat - (prec + 2) := by rw [hy, hm2, hp]; omega
  rw [← e] at this
  have hpc : (0 : ℚ) ≤ prec := Nat.cast_nonneg _
  exact F.recipOk_of (by omega) this (by push_cast; linarith) (by push_cast; linarith)

/-- a finite choice of significands as `UQ1` numbers -/
theorem uq1_cases {F : Fmt} {b1 : BitVec F.w} (h : 2 ^ (F.w - 1) ≤ b1.toNat) (hd : 2 ^ F.e ∣ b1.toNat) :
    b1.toNat = 2 ^ (F.w - 1) ∨ 2 ^ (F.w - 1) + 16 ≤ b1.toNat := by
  have h32 := F.pe_ge
  obtain ⟨k, hk⟩ := hd
  have e : 2 ^ (F.w - 1) = 2 ^ F.e * 2 ^ F.s := F.pes
  rw [hk, e] at h ⊢
  by_cases hc : k = 2 ^ F.s
  · left; rw [hc]
  · right
    have hk : 2 ^ F.s + 1 ≤ k := by
      have := Nat.le_of_mul_le_mul_left h (by omega)
      omega
    have := Nat.mul_le_mul_left (2 ^ F.e) hk
    rw [Nat.mul_add] at this
    omega

theorem divRecip_f32_half {b1 : BitVec f32.w} (h : 2 ^ (f32.w - 1) ≤ b1.toNat) (hd : 2 ^ f32.e ∣ b1.toNat) :
    Ok (f32.divRecip 2 1 74 b1) (f32.RecipOk 111 b1) := by
  rcases uq1_cases h hd with h | h
  · have : b1 = 0x80000000#f32.w := BitVec.eq_of_toNat_eq h
    subst this; exact ⟨0xffffffb1#f32.w, by decide +kernel, by decide +kernel⟩
  · exact f32.divRecip_half (v := 39 / 10) (by omega) rfl half16 (by norm_num) (by norm_num) (by norm_num)
      (by rw [show f32.w / 2 - 1 = 15 from rfl]; norm_num) (by rw [show f32.w - 1 = 31 from rfl]; norm_num)
      (by decide) (by norm_num) h

theorem divRecip_f64 {b1 : BitVec f64.w} (h : 2 ^ (f64.w - 1) ≤ b1.toNat) (hd : 2 ^ f64.e ∣ b1.toNat) :
    Ok (f64.divRecip 3 1 220 b1) (f64.RecipOk 400 b1) := by
  rcases uq1_cases h hd with h | h
  · have : b1 = 0x8000000000000000#f64.w := BitVec.eq_of_toNat_eq h
    subst this; exact ⟨0xffffffffffffff1f#f64.w, by decide +kernel, by decide +kernel⟩
  · exact f64.divRecip_half (v := 83 / 10) (by omega) rfl half32 (by norm_num) (by norm_num) (by norm_num)
      (by rw [show f64.w / 2 - 1 = 31 from rfl]; norm_num) (by rw [show f64.w - 1 = 63 from rfl]; norm_num)
      (by decide) (by norm_num) h

theorem divRecip_f128 {b1 : BitVec f128.w} (h : 2 ^ (f128.w - 1) ≤ b1.toNat) (hd : 2 ^ f128.e ∣ b1.toNat) :
    Ok (f128.divRecip 5 1 13922 b1) (f128.RecipOk 14000 b1) := by
  rcases uq1_cases h hd with h | h
  · have : b1 = 0x80000000000000000000000000000000#f128.w := BitVec.eq_of_toNat_eq h
    subst this; exact ⟨0xffffffffffffffffffffffffffffc999#f128.w, by decide +kernel, by decide +kernel⟩
  · exact f128.divRecip_half (v := 33 / 10) (by omega) rfl half64 (by norm_num) (by norm_num) (by norm_num)
      (by rw [show f128.w / 2 - 1 = 63 from rfl]; norm_num) (by rw [show f128.w - 1 = 127 from rfl]; norm_num)
      (by decide) (by norm_num) h

theorem divRecip_full_eq {b1 : BitVec F.w} {full prec : Nat} {c : BitVec F.w}
    (hc : shlC 0x7504f333#F.w (F.w - 32) = .ok c)
    (hp : prec < 2 ^ F.w)
    {d : Nat} {l u : ℚ} (hQ : 2 ^ (F.w - 1) ≤ b1.toNat)
    (hx : RecipB (2 ^ (F.w - 1)) (guessLoop full (c - b1) b1 - 2#F.w).toNat b1.toNat l u)
    (hbig : prec ≤ (guessLoop full (c - b1) b1 - 2#F.w).toNat)
    (hl : l < prec) (hu : u + prec ≤ d) :
    Ok (F.divRecip 0 full prec b1) (F.RecipOk d b1) := by
  have hpos : 0 < 2 ^ (F.w - 1) := Nat.two_pow_pos _
  unfold divRecip
  rw [if_neg (by omega)]
  unfold divRecipFull
  rw [hc]
  refine Ok.bind (P := fun x => x = guessLoop full (c - b1) b1) ⟨_, rfl, rfl⟩ ?_
  rintro _ rfl
  refine Ok.bind (castU_spec hp) ?_
  intro p hp
  refine (subC_spec (by rw [hp]; exact hbig)).mono ?_
  intro y hy
  have := hx.sub (k := prec) hbig
  rw [hp] at hy
  rw [← hy] at this
  exact F.recipOk_of (by omega) this (by linarith) hu

theorem divRecip_f32_full {b1 : BitVec f32.w} (h : 2 ^ (f32.w - 1) ≤ b1.toNat) (hd : 2 ^ f32.e ∣ b1.toNat) :
    Ok (f32.divRecip 0 3 10 b1) (f32.RecipOk 20 b1) := by
  have hx := full32 b1 (uq1_cases h hd)
  have hbig : 2 ^ 31 ≤ 2 * _ := hx.bounds h b1.isLt (by norm_num)
  exact f32.divRecip_full_eq (c := 0x7504f333#f32.w) (by decide +kernel) (by decide) h hx
    (Nat.le_of_mul_le_mul_left (le_trans (by decide : 2 * 10 ≤ 2 ^ 31) hbig) (by decide)) (by norm_num) (by norm_num)

end Fmt
end Verif
