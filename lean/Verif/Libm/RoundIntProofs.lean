import Verif.Libm.RoundInt
import Mathlib.Data.Rat.Floor
import Mathlib.Tactic.FieldSimp
/-! # Correctness of floor, ceil, trunc -/
namespace Verif
namespace Fmt
variable (F : Fmt)

theorem toNat_and_mask {w : Nat} {x m : BitVec w} {d : Nat} (hm : m.toNat = 2 ^ d - 1) :
    (x &&& m).toNat = x.toNat % 2 ^ d := by
  rw [BitVec.toNat_and, hm, Nat.and_two_pow_sub_one_eq_mod]

theorem toNat_and_not_mask {w : Nat} {x m : BitVec w} {d : Nat} (hm : m.toNat = 2 ^ d - 1) :
    (x &&& ~~~m).toNat = x.toNat / 2 ^ d * 2 ^ d := by
  apply Nat.eq_of_testBit_eq
  intro i
  rw [← Nat.shiftLeft_eq, Nat.testBit_shiftLeft, Nat.testBit_div_two_pow, BitVec.testBit_toNat, BitVec.getLsbD_and,
    BitVec.getLsbD_not, ← BitVec.testBit_toNat, ← BitVec.testBit_toNat (i := i), hm, Nat.testBit_two_pow_sub_one]
  by_cases hi : i < w
  · by_cases h : d ≤ i
    · have h2 : ¬ i < d := by omega
      rw [Nat.sub_add_cancel h]; simp [h, h2, hi]
    · have h2 : i < d := by omega
      simp [h, h2]
  · have : x.toNat.testBit i = false := by
      apply Nat.testBit_lt_two_pow
      exact lt_of_lt_of_le x.isLt (Nat.pow_le_pow_right (by omega) (by omega))
    by_cases h : d ≤ i
    · rw [Nat.sub_add_cancel h]; simp [this]
    · simp [this, h]

theorem toNat_xor_mask {w : Nat} (x m : BitVec w) : x ^^^ (x &&& m) = x &&& ~~~m := by
  ext i hi
  simp only [BitVec.getElem_xor, BitVec.getElem_and, BitVec.getElem_not]
  cases x[i] <;> simp

theorem toNat_not_signMask : (~~~F.signMask).toNat = 2 ^ (F.e + F.s) - 1 := by
  rw [BitVec.toNat_not, F.toNat_signMask, F.pw, ← F.pes]
  have := Nat.two_pow_pos (F.e + F.s)
  omega

theorem toNat_and_not_signMask (x : BitVec F.w) : (x &&& ~~~F.signMask).toNat = F.mag x := by
  rw [toNat_and_mask F.toNat_not_signMask]; rfl

theorem magVal_at {E m : Nat} (hE : 1 ≤ E) (hm : m ≤ 2 ^ (F.s + 1)) (h : 2 ^ F.s ≤ m ∨ E = 1) :
    F.magVal ℚ ((E - 1) * 2 ^ F.s + m) = m * 2 ^ ((E : ℤ) - F.bias - F.s) := by
  rw [F.magVal_eq, F.valU_eq hE hm h]
  unfold ulp0
  push_cast
  rw [mul_assoc, ← zpow_natCast, ← zpow_add₀ (by norm_num)]
  congr 2
  push_cast [hE]
  ring

/-- value for an exponent field `bias + k`, `k ≤ s` -/
theorem magVal_mid {k m : Nat} (hk : k ≤ F.s) (hm : m ≤ 2 ^ (F.s + 1)) (h : 2 ^ F.s ≤ m) :
    F.magVal ℚ ((F.bias + k - 1) * 2 ^ F.s + m) = (m : ℚ) / (2 ^ (F.s - k) : Nat) := by
  have hb := F.bias_ge
  rw [F.magVal_at (by omega) hm (Or.inl h), div_eq_mul_inv]
  congr 1
  push_cast
  rw [← zpow_natCast, ← zpow_neg]
  congr 1
  push_cast [hk]
  ring

theorem magVal_one : F.magVal ℚ (F.bias * 2 ^ F.s) = 1 := by
  have hb := F.bias_ge
  have h := F.magVal_mid (k := 0) (m := 2 ^ F.s) (by omega) (by rw [F.ps_succ]; omega) (le_refl _)
  have e : (F.bias + 0 - 1) * 2 ^ F.s + 2 ^ F.s = F.bias * 2 ^ F.s := by
    rw [← Nat.succ_mul]; congr 1; omega
  rw [e, Nat.sub_zero, div_self (by positivity)] at h
  exact h

theorem magVal_lt_iff {m n : Nat} : F.magVal ℚ m < F.magVal ℚ n ↔ m < n := by
  have hu := F.ulp0_pos ℚ
  rw [F.magVal_eq, F.magVal_eq, mul_lt_mul_iff_left₀ hu, Nat.cast_lt, F.valU_lt_iff]
theorem magVal_le_iff {m n : Nat} : F.magVal ℚ m ≤ F.magVal ℚ n ↔ m ≤ n := by
  rw [← not_lt, F.magVal_lt_iff, not_lt]
theorem magVal_inj {m n : Nat} : F.magVal ℚ m = F.magVal ℚ n ↔ m = n := by
  constructor
  · intro h
    have h1 := F.magVal_le_iff.mp h.le
    have h2 := F.magVal_le_iff.mp h.ge
    omega
  · intro h; rw [h]
theorem magVal_zero : F.magVal ℚ 0 = 0 := by rw [F.magVal_eq, F.valU_zero]; simp

theorem fromParts_facts {t : Bool} {n : Nat} {sig : BitVec F.w} (hn : n < 2 ^ F.e) (hsig : sig.toNat < 2 ^ F.s) :
    F.sign (F.fromParts t n sig) = t ∧ F.mag (F.fromParts t n sig) = n * 2 ^ F.s + sig.toNat := by
  have hlt : n * 2 ^ F.s + sig.toNat < 2 ^ (F.e + F.s) := by
    have : (n + 1) * 2 ^ F.s ≤ 2 ^ F.e * 2 ^ F.s := Nat.mul_le_mul_right _ hn
    rw [Nat.add_mul, ← F.pes] at this; omega
  have hpw := F.pw
  rw [← F.pes] at hpw
  apply F.sign_mag_of hlt
  have e1 : (sig &&& F.sigMask).toNat = sig.toNat := by
    rw [F.toNat_and_sigMask, Nat.mod_eq_of_lt hsig]
  have hn' : n < 2 ^ F.w := by
    have := Nat.le_mul_of_pos_right n (Nat.two_pow_pos F.s); omega
  have e2 : (BitVec.ofNat F.w (n &&& F.expSat) <<< F.s).toNat = n * 2 ^ F.s := by
    rw [F.expSat_eq, Nat.and_two_pow_sub_one_eq_mod, Nat.mod_eq_of_lt hn, BitVec.toNat_shiftLeft, BitVec.toNat_ofNat,
      Nat.shiftLeft_eq, Nat.mod_eq_of_lt hn', Nat.mod_eq_of_lt (by omega)]
  have e3 : ((if t then 1#F.w else 0#F.w) <<< (F.w - 1)).toNat = if t then 2 ^ (F.e + F.s) else 0 := by
    cases t
    · simp
    · simp only [if_true]; exact F.toNat_signMask
  unfold fromParts
  rw [BitVec.toNat_or, BitVec.toNat_or, e1, e2, e3, Nat.or_assoc]
  have e4 : n * 2 ^ F.s ||| sig.toNat = n * 2 ^ F.s + sig.toNat := by
    rw [or_eq_add' hsig (Dvd.intro_left _ rfl), Nat.add_comm]
  rw [e4]
  cases t
  · simp
  · simp only [if_true]
    rw [or_eq_add' hlt (dvd_refl _), Nat.add_comm]

theorem bias_lt : F.bias < 2 ^ F.e := by have := F.pe_bias; omega

theorem one_facts : F.sign F.one = false ∧ F.mag F.one = F.bias * 2 ^ F.s ∧
    F.sign F.negOne = true ∧ F.mag F.negOne = F.bias * 2 ^ F.s := by
  have h0 : (0#F.w).toNat < 2 ^ F.s := by simp
  obtain ⟨a, b⟩ := F.fromParts_facts (t := false) F.bias_lt h0
  obtain ⟨c, d⟩ := F.fromParts_facts (t := true) F.bias_lt h0
  exact ⟨a, b, c, d⟩

theorem zero_facts : F.sign F.zero = false ∧ F.mag F.zero = 0 ∧ F.sign F.negZero = true ∧ F.mag F.negZero = 0 := by
  obtain ⟨a, b⟩ := F.sign_mag_of (b := F.zero) (t := false) (n := 0) (Nat.two_pow_pos _) (by simp [zero])
  obtain ⟨c, d⟩ := F.sign_mag_of (b := F.negZero) (t := true) (n := 0) (Nat.two_pow_pos _) (by
    simp [negZero, F.toNat_signMask])
  exact ⟨a, b, c, d⟩

/-- exponent at least `bias + s`: the value is an integer -/
theorem magVal_big {n : Nat} (h : F.bias + F.s ≤ n / 2 ^ F.s) : ∃ k : Nat, F.magVal ℚ n = k := by
  have hb := F.bias_ge
  have hdm := Nat.div_add_mod n (2 ^ F.s)
  have hlt := Nat.mod_lt n (Nat.two_pow_pos F.s)
  have hm1 : 2 ^ F.s ≤ 2 ^ F.s + n % 2 ^ F.s := by omega
  have hm2 : 2 ^ F.s + n % 2 ^ F.s < 2 * 2 ^ F.s := by omega
  obtain ⟨j, hj⟩ := Nat.exists_eq_add_of_le h
  have e : n = (n / 2 ^ F.s - 1) * 2 ^ F.s + (2 ^ F.s + n % 2 ^ F.s) := by
    rw [← Nat.add_assoc, ← Nat.succ_mul]
    have : (n / 2 ^ F.s - 1).succ = n / 2 ^ F.s := by omega
    rw [this, Nat.mul_comm]; exact hdm.symm
  generalize 2 ^ F.s + n % 2 ^ F.s = m at *
  refine ⟨m * 2 ^ j, ?_⟩
  rw [e, F.magVal_at (by omega) (by rw [F.ps_succ]; omega) (Or.inl (by omega)), hj]
  push_cast
  congr 1
  rw [← zpow_natCast]
  congr 1
  ring

/-- exponent between `bias` and `bias + s`: `D` is the weight of the integer bit in the significand -/
theorem magVal_frac {n k : Nat} (hE : n / 2 ^ F.s = F.bias + k) (hk : k < F.s) :
    ∃ m, 2 ^ F.s ≤ m ∧ m < 2 ^ (F.s + 1) ∧ n % 2 ^ (F.s - k) = m % 2 ^ (F.s - k) ∧
      F.magVal ℚ n = (m : ℚ) / (2 ^ (F.s - k) : Nat) ∧
      F.magVal ℚ (n / 2 ^ (F.s - k) * 2 ^ (F.s - k)) = ((m / 2 ^ (F.s - k) : Nat) : ℚ) ∧
      F.magVal ℚ ((n + (2 ^ (F.s - k) - 1)) / 2 ^ (F.s - k) * 2 ^ (F.s - k)) =
        (((m + (2 ^ (F.s - k) - 1)) / 2 ^ (F.s - k) : Nat) : ℚ) ∧
      n + 2 ^ (F.s - k) < F.infRep := by
  have hb := F.bias_ge
  have hdm := Nat.div_add_mod n (2 ^ F.s)
  have hlt := Nat.mod_lt n (Nat.two_pow_pos F.s)
  have hps := F.ps_succ
  have hDs : 2 ^ F.s = 2 ^ (F.s - k) * 2 ^ k := by rw [← Nat.pow_add]; congr 1; omega
  have hDp := Nat.two_pow_pos (F.s - k)
  have hD1 : 2 ^ (F.s - k) ≤ 2 ^ F.s := two_pow_le (by omega)
  obtain ⟨m, hm⟩ : ∃ m, m = 2 ^ F.s + n % 2 ^ F.s := ⟨_, rfl⟩
  have e : n = (F.bias + k - 1) * 2 ^ F.s + m := by
    rw [hm, ← Nat.add_assoc, ← Nat.succ_mul]
    have : (F.bias + k - 1).succ = F.bias + k := by omega
    rw [this, Nat.mul_comm, ← hE]; exact hdm.symm
  obtain ⟨Q, hQ⟩ : ∃ Q, (F.bias + k - 1) * 2 ^ F.s = 2 ^ (F.s - k) * Q :=
    ⟨(F.bias + k - 1) * 2 ^ k, by rw [hDs]; ring⟩
  have hfin : n + 2 ^ (F.s - k) < F.infRep := by
    have h1 : (F.bias + k + 2) * 2 ^ F.s ≤ F.infRep := by
      unfold infRep
      apply Nat.mul_le_mul_right
      have := F.pe_bias
      omega
    rw [Nat.add_mul, ← hE, Nat.mul_comm] at h1
    omega
  have hup : (m + (2 ^ (F.s - k) - 1)) / 2 ^ (F.s - k) * 2 ^ (F.s - k) ≤ 2 ^ (F.s + 1) ∧
      2 ^ F.s ≤ (m + (2 ^ (F.s - k) - 1)) / 2 ^ (F.s - k) * 2 ^ (F.s - k) := by
    have e1 : 2 ^ (F.s + 1) = (2 * 2 ^ k) * 2 ^ (F.s - k) := by rw [hps, hDs]; ring
    have e2 : 2 ^ F.s = 2 ^ k * 2 ^ (F.s - k) := by rw [hDs]; ring
    constructor
    · rw [e1]
      apply Nat.mul_le_mul_right
      have : (m + (2 ^ (F.s - k) - 1)) / 2 ^ (F.s - k) < 2 * 2 ^ k + 1 := by
        rw [Nat.div_lt_iff_lt_mul hDp, Nat.add_mul, ← e1]; omega
      omega
    · rw [e2]
      apply Nat.mul_le_mul_right
      rw [Nat.le_div_iff_mul_le hDp, ← e2]; omega
  have hdown : m / 2 ^ (F.s - k) * 2 ^ (F.s - k) ≤ 2 ^ (F.s + 1) ∧
      2 ^ F.s ≤ m / 2 ^ (F.s - k) * 2 ^ (F.s - k) := by
    have e2 : 2 ^ F.s = 2 ^ k * 2 ^ (F.s - k) := by rw [hDs]; ring
    constructor
    · exact le_trans (Nat.div_mul_le_self _ _) (by omega)
    · rw [e2]
      apply Nat.mul_le_mul_right
      rw [Nat.le_div_iff_mul_le hDp, ← e2]; omega
  refine ⟨m, by omega, by omega, ?_, ?_, ?_, ?_, hfin⟩
  · rw [e, hQ, Nat.mul_add_mod]
  · rw [e, F.magVal_mid (by omega) (by omega) (by omega)]
  · have : n / 2 ^ (F.s - k) * 2 ^ (F.s - k) = (F.bias + k - 1) * 2 ^ F.s + m / 2 ^ (F.s - k) * 2 ^ (F.s - k) := by
      rw [e, hQ, Nat.mul_add_div hDp]; ring
    rw [this, F.magVal_mid (by omega) hdown.1 hdown.2, Nat.cast_mul, mul_div_assoc, div_self, mul_one]
    positivity
  · have : (n + (2 ^ (F.s - k) - 1)) / 2 ^ (F.s - k) * 2 ^ (F.s - k) =
        (F.bias + k - 1) * 2 ^ F.s + (m + (2 ^ (F.s - k) - 1)) / 2 ^ (F.s - k) * 2 ^ (F.s - k) := by
      rw [e, hQ, Nat.add_assoc, Nat.mul_add_div hDp]; ring
    rw [this, F.magVal_mid (by omega) hup.1 hup.2, Nat.cast_mul, mul_div_assoc, div_self, mul_one]
    positivity

/-- `r` is the magnitude `n` rounded down to an integer -/
def Down (n r : Nat) : Prop := F.magVal ℚ r = (⌊F.magVal ℚ n⌋ : ℤ)
/-- `r` is the magnitude `n` rounded up to an integer -/
def Up (n r : Nat) : Prop := F.magVal ℚ r = (⌈F.magVal ℚ n⌉ : ℤ)

theorem down_up_big {n : Nat} (h : F.bias + F.s ≤ n / 2 ^ F.s) : F.Down n n ∧ F.Up n n := by
  obtain ⟨k, hk⟩ := F.magVal_big h
  unfold Down Up
  rw [hk]
  constructor <;> simp

theorem floor_natDiv (m D : Nat) (hD : 0 < D) : ⌊(m : ℚ) / D⌋ = ((m / D : Nat) : ℤ) := by
  rw [Int.floor_eq_iff]
  have hd : (0 : ℚ) < D := by exact_mod_cast hD
  have h := Nat.div_add_mod m D
  have h2 := Nat.mod_lt m hD
  constructor
  · rw [le_div_iff₀ hd]
    have : m / D * D ≤ m := Nat.div_mul_le_self _ _
    exact_mod_cast this
  · rw [div_lt_iff₀ hd]
    have : m < (m / D + 1) * D := by rw [Nat.add_mul, Nat.mul_comm]; omega
    exact_mod_cast this

theorem ceil_natDiv (m D : Nat) (hD : 0 < D) : ⌈(m : ℚ) / D⌉ = (((m + (D - 1)) / D : Nat) : ℤ) := by
  rw [Int.ceil_eq_iff]
  have hd : (0 : ℚ) < D := by exact_mod_cast hD
  have h := Nat.div_add_mod (m + (D - 1)) D
  have h2 := Nat.mod_lt (m + (D - 1)) hD
  generalize (m + (D - 1)) / D = q at *
  constructor
  · rw [lt_div_iff₀ hd, sub_mul, one_mul]
    have : q * D < m + D := by rw [Nat.mul_comm]; omega
    have : (q : ℚ) * D < m + D := by exact_mod_cast this
    push_cast
    linarith
  · rw [div_le_iff₀ hd]
    have : m ≤ q * D := by rw [Nat.mul_comm]; omega
    exact_mod_cast this

theorem down_up_mid {n k : Nat} (hE : n / 2 ^ F.s = F.bias + k) (hk : k < F.s) :
    F.Down n (n / 2 ^ (F.s - k) * 2 ^ (F.s - k)) ∧
    F.Up n ((n + (2 ^ (F.s - k) - 1)) / 2 ^ (F.s - k) * 2 ^ (F.s - k)) ∧ n + 2 ^ (F.s - k) < F.infRep := by
  obtain ⟨m, h1, h2, h3, h4, h5, h6, h7⟩ := F.magVal_frac hE hk
  unfold Down Up
  have hDp := Nat.two_pow_pos (F.s - k)
  rw [h4, h5, h6, floor_natDiv _ _ hDp, ceil_natDiv _ _ hDp]
  exact ⟨by rw [Int.cast_natCast], by rw [Int.cast_natCast], h7⟩

theorem down_up_small {n : Nat} (h : n / 2 ^ F.s < F.bias) :
    F.Down n 0 ∧ F.Up n (if n = 0 then 0 else F.bias * 2 ^ F.s) := by
  have hlt : n < F.bias * 2 ^ F.s := by rwa [Nat.div_lt_iff_lt_mul (Nat.two_pow_pos _)] at h
  have h1 := F.magVal_lt_iff.mpr hlt
  rw [F.magVal_one] at h1
  have h0 := F.magVal_nonneg ℚ n
  unfold Down Up
  constructor
  · rw [F.magVal_zero]
    have : ⌊F.magVal ℚ n⌋ = 0 := by rw [Int.floor_eq_iff]; simpa using ⟨h0, h1⟩
    rw [this]; simp
  · split
    · rename_i hz; rw [hz, F.magVal_zero]; simp
    · rename_i hz
      rw [F.magVal_one]
      have hp : F.magVal ℚ 0 < F.magVal ℚ n := F.magVal_lt_iff.mpr (by omega)
      rw [F.magVal_zero] at hp
      have : ⌈F.magVal ℚ n⌉ = 1 := by rw [Int.ceil_eq_iff]; simpa using ⟨hp, h1.le⟩
      rw [this]; simp

/-- pattern with the low `d` bits cleared -/
theorem clear_low {x y m : BitVec F.w} {d : Nat} {n : Nat} (hd : d ≤ F.s) (hm : m.toNat = 2 ^ d - 1)
    (hy : y.toNat = (if F.sign x then 2 ^ (F.e + F.s) else 0) + n) (hn : n < 2 ^ (F.e + F.s)) :
    F.sign (y &&& ~~~m) = F.sign x ∧ F.mag (y &&& ~~~m) = n / 2 ^ d * 2 ^ d := by
  apply F.sign_mag_of
  · exact lt_of_le_of_lt (Nat.div_mul_le_self _ _) hn
  · rw [toNat_and_not_mask hm, hy]
    have hp := Nat.two_pow_pos d
    have e : 2 ^ (F.e + F.s) = 2 ^ d * 2 ^ (F.e + F.s - d) := by rw [← Nat.pow_add]; congr 1; omega
    split
    · rw [e, Nat.mul_add_div hp]; ring
    · simp

theorem sigMask_shr {k : Nat} (hk : k < F.s) :
    Ok (shrC F.sigMask k) (fun m => m.toNat = 2 ^ (F.s - k) - 1) := by
  refine Ok.mono (shrC_spec (by show k < F.e + F.s + 1; omega)) ?_
  intro m hm
  have hDs : 2 ^ F.s = 2 ^ (F.s - k) * 2 ^ k := by rw [← Nat.pow_add]; congr 1; omega
  rw [hm, F.toNat_sigMask, hDs]
  have := Nat.two_pow_pos k
  have := Nat.two_pow_pos (F.s - k)
  generalize 2 ^ (F.s - k) = D at *
  generalize 2 ^ k = P at *
  obtain ⟨D', rfl⟩ : ∃ D', D = D' + 1 := ⟨D - 1, by omega⟩
  have e : (D' + 1) * P - 1 = P * D' + (P - 1) := by rw [Nat.add_mul, Nat.mul_comm]; omega
  rw [e, Nat.mul_add_div (by omega), Nat.div_eq_of_lt (by omega : P - 1 < P)]
  simp

theorem expUnbiased_spec (x : BitVec F.w) : Ok (F.expUnbiased x) (· = (F.mag x / 2 ^ F.s : Nat) - (F.bias : Int)) := by
  unfold expUnbiased
  rw [F.ex_eq]
  have h := F.mag_div_lt x
  have := F.pe_le
  have := F.pe_bias
  generalize F.mag x / 2 ^ F.s = q at *
  exact i32C_spec (by omega)

theorem clear_eq_iff {n d : Nat} : n / 2 ^ d * 2 ^ d = n ↔ n % 2 ^ d = 0 := by
  have := Nat.div_add_mod n (2 ^ d)
  rw [Nat.mul_comm] at this; omega

theorem and_mask_eq_zero {x m : BitVec F.w} {d : Nat} (hd : d ≤ F.s) (hm : m.toNat = 2 ^ d - 1) :
    x &&& m = 0#F.w ↔ F.mag x % 2 ^ d = 0 := by
  rw [← BitVec.toNat_inj, toNat_and_mask hm]
  have : F.mag x % 2 ^ d = x.toNat % 2 ^ d := by
    unfold mag; exact Nat.mod_mod_of_dvd _ (Nat.pow_dvd_pow 2 (by omega))
  rw [this]; simp

/-- what the three functions deliver; `u`: round the magnitude up -/
def IntRes (u : Bool) (x : BitVec F.w) (r : BitVec F.w × Status) : Prop :=
  F.sign r.1 = F.sign x ∧ F.mag r.1 < F.infRep ∧ (if u then F.Up else F.Down) (F.mag x) (F.mag r.1) ∧
  r.2 = if F.mag r.1 = F.mag x then Status.OK else Status.INEXACT

theorem intRes_self {u : Bool} {x : BitVec F.w} (hx : F.IsFin x) (h : F.bias + F.s ≤ F.mag x / 2 ^ F.s) :
    F.IntRes u x (x, Status.OK) := by
  obtain ⟨h1, h2⟩ := F.down_up_big h
  refine ⟨rfl, hx, ?_, by simp⟩
  cases u <;> simpa

/-- the middle case of the three functions -/
theorem intRes_mid {u : Bool} {x m ix : BitVec F.w} {k : Nat} (hE : F.mag x / 2 ^ F.s = F.bias + k) (hk : k < F.s)
    (hm : m.toNat = 2 ^ (F.s - k) - 1) (hne : F.mag x % 2 ^ (F.s - k) ≠ 0)
    (hix : ix.toNat = x.toNat + if u then m.toNat else 0) :
    F.IntRes u x (ix &&& ~~~m, Status.INEXACT) := by
  obtain ⟨h1, h2, h3⟩ := F.down_up_mid hE hk
  have hil := F.infRep_lt
  have hx := F.toNat_eq x
  have hDp := Nat.two_pow_pos (F.s - k)
  unfold IntRes
  cases u
  · simp only [Bool.false_eq_true, if_false, Nat.add_zero] at hix ⊢
    rw [hx] at hix
    obtain ⟨a, b⟩ := F.clear_low (by omega) hm hix (by omega)
    rw [a, b]
    refine ⟨rfl, lt_of_le_of_lt (Nat.div_mul_le_self _ _) (by omega), h1, ?_⟩
    rw [if_neg]
    rw [clear_eq_iff]; exact hne
  · simp only [if_true] at hix ⊢
    rw [hx, hm, Nat.add_assoc] at hix
    obtain ⟨a, b⟩ := F.clear_low (by omega) hm hix (by omega)
    rw [a, b]
    refine ⟨rfl, lt_of_le_of_lt (Nat.div_mul_le_self _ _) (by omega), h2, ?_⟩
    rw [if_neg]
    intro h
    have : 2 ^ (F.s - k) ∣ F.mag x := ⟨_, by rw [Nat.mul_comm]; exact h.symm⟩
    exact hne (Nat.mod_eq_zero_of_dvd this)

theorem intRes_mid_exact {u : Bool} {x : BitVec F.w} {k : Nat} (hE : F.mag x / 2 ^ F.s = F.bias + k) (hk : k < F.s)
    (hne : F.mag x % 2 ^ (F.s - k) = 0) : F.IntRes u x (x, Status.OK) := by
  obtain ⟨h1, h2, h3⟩ := F.down_up_mid hE hk
  have hc := clear_eq_iff.mpr hne
  have hDp := Nat.two_pow_pos (F.s - k)
  have hc2 : (F.mag x + (2 ^ (F.s - k) - 1)) / 2 ^ (F.s - k) * 2 ^ (F.s - k) = F.mag x := by
    have : (F.mag x + (2 ^ (F.s - k) - 1)) / 2 ^ (F.s - k) = F.mag x / 2 ^ (F.s - k) := by
      conv_lhs => rw [← hc, Nat.mul_comm]
      rw [Nat.mul_add_div hDp, Nat.div_eq_of_lt (by omega : 2 ^ (F.s - k) - 1 < 2 ^ (F.s - k)), Nat.add_zero]
    rw [this, hc]
  rw [hc] at h1
  rw [hc2] at h2
  refine ⟨rfl, by show F.mag x < _; omega, ?_, by simp⟩
  cases u
  · exact h1
  · exact h2

theorem addC_mask {x m : BitVec F.w} {k : Nat} (hE : F.mag x / 2 ^ F.s = F.bias + k) (hk : k < F.s)
    (hm : m.toNat = 2 ^ (F.s - k) - 1) : Ok (addC x m) (fun r => r.toNat = x.toNat + m.toNat) := by
  obtain ⟨_, _, h3⟩ := F.down_up_mid hE hk
  have hil := F.infRep_lt
  have hx := F.toNat_eq x
  have hp := F.pw
  rw [← F.pes] at hp
  have hDp := Nat.two_pow_pos (F.s - k)
  apply addC_spec
  rw [hx, hm, hp]
  split <;> omega

theorem floorStatus_fin {x : BitVec F.w} (hx : F.IsFin x) :
    Ok (F.floorStatus x) (F.IntRes (F.sign x) x) := by
  obtain ⟨o1, o2, o3, o4⟩ := F.one_facts
  obtain ⟨z1, z2, z3, z4⟩ := F.zero_facts
  have hb := F.bias_ge
  have hil := F.infRep_lt
  have hps := F.ps_ge
  unfold floorStatus
  refine Ok.bind (F.expUnbiased_spec x) ?_
  rintro e rfl
  by_cases h1 : ((F.mag x / 2 ^ F.s : Nat) - (F.bias : Int)) ≥ F.s
  · rw [if_pos h1]
    exact Ok.pure' (F.intRes_self hx (by omega))
  rw [if_neg h1]
  by_cases h2 : ((F.mag x / 2 ^ F.s : Nat) - (F.bias : Int)) ≥ 0
  · rw [if_pos h2]
    obtain ⟨k, hk⟩ := Nat.exists_eq_add_of_le (show F.bias ≤ F.mag x / 2 ^ F.s by omega)
    have hks : k < F.s := by omega
    have ek : ((F.mag x / 2 ^ F.s : Nat) - (F.bias : Int)).toNat = k := by omega
    rw [ek]
    refine Ok.bind (F.sigMask_shr hks) ?_
    intro m hm
    simp only [F.and_mask_eq_zero (Nat.sub_le _ _) hm]
    by_cases h3 : F.mag x % 2 ^ (F.s - k) = 0
    · rw [if_pos h3]; exact Ok.pure' (F.intRes_mid_exact hk hks h3)
    rw [if_neg h3]
    refine Ok.bind (P := fun ix => ix.toNat = x.toNat + if F.sign x then m.toNat else 0) ?_ ?_
    · cases F.sign x
      · simp only [Bool.false_eq_true, if_false]; exact Ok.pure' rfl
      · simp only [if_true]; exact F.addC_mask hk hks hm
    · intro ix hix
      exact Ok.pure' (F.intRes_mid hk hks hm h3 hix)
  · rw [if_neg h2]
    obtain ⟨d1, d2⟩ := F.down_up_small (n := F.mag x) (by omega)
    have hz : x &&& ~~~F.signMask = 0#F.w ↔ F.mag x = 0 := by
      rw [← BitVec.toNat_inj, F.toNat_and_not_signMask]; simp
    simp only [hz]
    by_cases h3 : F.mag x = 0
    · rw [if_pos h3]
      refine Ok.pure' ⟨rfl, hx, ?_, by simp⟩
      rw [h3] at d1 d2 ⊢
      cases F.sign x
      · exact d1
      · exact d2
    · rw [if_neg h3]
      rw [if_neg h3] at d2
      have hmx : F.mag x < F.bias * 2 ^ F.s := by
        have : F.mag x / 2 ^ F.s < F.bias := by omega
        rwa [Nat.div_lt_iff_lt_mul (Nat.two_pow_pos _)] at this
      have hbi : F.bias * 2 ^ F.s < F.infRep := by
        unfold infRep
        apply Nat.mul_lt_mul_of_pos_right _ (Nat.two_pow_pos _)
        have := F.pe_bias; omega
      cases hs : F.sign x
      · simp only [if_true]
        refine Ok.pure' ⟨by rw [z1, hs], by rw [z2]; omega, ?_, ?_⟩
        · rw [z2]; exact d1
        · rw [z2, if_neg (by omega)]
      · simp only [Bool.true_eq_false, if_false]
        refine Ok.pure' ⟨by rw [o3, hs], by rw [o4]; exact hbi, ?_, ?_⟩
        · rw [o4]; exact d2
        · rw [o4, if_neg (by omega)]


theorem small_facts {x : BitVec F.w} (h : F.mag x / 2 ^ F.s < F.bias) : F.mag x < F.bias * 2 ^ F.s ∧
    F.bias * 2 ^ F.s < F.infRep := by
  refine ⟨by rwa [Nat.div_lt_iff_lt_mul (Nat.two_pow_pos _)] at h, ?_⟩
  unfold infRep
  apply Nat.mul_lt_mul_of_pos_right _ (Nat.two_pow_pos _)
  have := F.pe_bias; have := F.pe_ge; omega

theorem and_not_signMask_eq_zero {x : BitVec F.w} : x &&& ~~~F.signMask = 0#F.w ↔ F.mag x = 0 := by
  rw [← BitVec.toNat_inj, F.toNat_and_not_signMask]; simp

theorem ceilStatus_fin {x : BitVec F.w} (hx : F.IsFin x) :
    Ok (F.ceilStatus x) (F.IntRes (!F.sign x) x) := by
  obtain ⟨o1, o2, o3, o4⟩ := F.one_facts
  obtain ⟨z1, z2, z3, z4⟩ := F.zero_facts
  have hb := F.bias_ge
  have hil := F.infRep_lt
  have hps := F.ps_ge
  unfold ceilStatus
  refine Ok.bind (F.expUnbiased_spec x) ?_
  rintro e rfl
  by_cases h1 : ((F.mag x / 2 ^ F.s : Nat) - (F.bias : Int)) ≥ F.s
  · rw [if_pos h1]
    exact Ok.pure' (F.intRes_self hx (by omega))
  rw [if_neg h1]
  by_cases h2 : ((F.mag x / 2 ^ F.s : Nat) - (F.bias : Int)) ≥ 0
  · rw [if_pos h2]
    obtain ⟨k, hk⟩ := Nat.exists_eq_add_of_le (show F.bias ≤ F.mag x / 2 ^ F.s by omega)
    have hks : k < F.s := by omega
    have ek : ((F.mag x / 2 ^ F.s : Nat) - (F.bias : Int)).toNat = k := by omega
    rw [ek]
    refine Ok.bind (F.sigMask_shr hks) ?_
    intro m hm
    simp only [F.and_mask_eq_zero (Nat.sub_le _ _) hm]
    by_cases h3 : F.mag x % 2 ^ (F.s - k) = 0
    · rw [if_pos h3]; exact Ok.pure' (F.intRes_mid_exact hk hks h3)
    rw [if_neg h3]
    refine Ok.bind (P := fun ix => ix.toNat = x.toNat + if !F.sign x then m.toNat else 0) ?_ ?_
    · cases F.sign x
      · simp only [Bool.not_false, if_true]; exact F.addC_mask hk hks hm
      · simp only [Bool.true_eq_false, if_false]; exact Ok.pure' rfl
    · intro ix hix
      exact Ok.pure' (F.intRes_mid hk hks hm h3 hix)
  · rw [if_neg h2]
    obtain ⟨d1, d2⟩ := F.down_up_small (n := F.mag x) (by omega)
    obtain ⟨hmx, hbi⟩ := F.small_facts (x := x) (by omega)
    simp only [F.and_not_signMask_eq_zero]
    refine Ok.bind (shlC_spec (by show 1 < F.e + F.s + 1; have := F.he; omega)) ?_
    intro t ht
    have hpw := F.pw
    rw [← F.pes] at hpw
    cases hs : F.sign x
    · have htz : t = 0#F.w ↔ F.mag x = 0 := by
        have hxe := F.toNat_eq x
        rw [hs] at hxe
        simp only [Bool.false_eq_true, if_false, Nat.zero_add] at hxe
        have hml := F.mag_lt x
        rw [← BitVec.toNat_inj, ht, hxe, Nat.mod_eq_of_lt (by omega)]
        simp
      simp only [Bool.false_eq_true, if_false, ne_eq, htz]
      by_cases h3 : F.mag x = 0
      · simp only [h3, not_true_eq_false, if_false, if_true]
        refine Ok.pure' ⟨rfl, hx, ?_, by simp⟩
        rw [h3] at d2 ⊢
        exact d2
      · simp only [h3, not_false_eq_true, if_false, if_true]
        rw [if_neg h3] at d2
        refine Ok.pure' ⟨by rw [o1, hs], by rw [o2]; exact hbi, ?_, ?_⟩
        · rw [o2]; exact d2
        · rw [o2, if_neg (by omega)]
    · simp only [if_true]
      refine Ok.pure' ⟨by rw [z3, hs], by rw [z4]; omega, ?_, ?_⟩
      · rw [z4]; exact d1
      · rw [z4]
        by_cases h3 : F.mag x = 0
        · rw [if_pos h3, if_pos h3.symm]
        · rw [if_neg h3, if_neg (by omega)]

theorem truncStatus_fin {x : BitVec F.w} (hx : F.IsFin x) :
    Ok (F.truncStatus x) (F.IntRes false x) := by
  have hb := F.bias_ge
  have hil := F.infRep_lt
  have hps := F.ps_ge
  unfold truncStatus
  refine Ok.bind (F.expUnbiased_spec x) ?_
  rintro e rfl
  by_cases h1 : ((F.mag x / 2 ^ F.s : Nat) - (F.bias : Int)) ≥ F.s
  · rw [if_pos h1]
    exact Ok.pure' (F.intRes_self hx (by omega))
  rw [if_neg h1]
  by_cases h2 : ((F.mag x / 2 ^ F.s : Nat) - (F.bias : Int)) < 0
  · rw [if_pos h2]
    obtain ⟨d1, d2⟩ := F.down_up_small (n := F.mag x) (by omega)
    obtain ⟨hmx, hbi⟩ := F.small_facts (x := x) (by omega)
    refine Ok.bind (Ok.pure' rfl) ?_
    rintro m rfl
    simp only [F.and_not_signMask_eq_zero, toNat_xor_mask]
    have e : F.sign (x &&& ~~~(~~~F.signMask)) = F.sign x ∧ F.mag (x &&& ~~~(~~~F.signMask)) = 0 := by
      apply F.sign_mag_of (Nat.two_pow_pos _)
      rw [BitVec.not_not, F.toNat_and_signMask]; rfl
    refine Ok.pure' ⟨e.1, by rw [e.2]; omega, ?_, ?_⟩
    · rw [e.2]; exact d1
    · rw [e.2]
      by_cases h3 : F.mag x = 0
      · rw [if_pos h3, if_pos h3.symm]
      · rw [if_neg h3, if_neg (by omega)]
  · rw [if_neg h2]
    obtain ⟨k, hk⟩ := Nat.exists_eq_add_of_le (show F.bias ≤ F.mag x / 2 ^ F.s by omega)
    have hks : k < F.s := by omega
    have ek : ((F.mag x / 2 ^ F.s : Nat) - (F.bias : Int)).toNat = k := by omega
    rw [ek]
    refine Ok.bind (F.sigMask_shr hks) ?_
    intro m hm
    simp only [F.and_mask_eq_zero (Nat.sub_le _ _) hm]
    by_cases h3 : F.mag x % 2 ^ (F.s - k) = 0
    · rw [if_pos h3]
      have : x &&& m = 0#F.w := (F.and_mask_eq_zero (Nat.sub_le _ _) hm).mpr h3
      rw [this, BitVec.xor_zero]
      exact Ok.pure' (F.intRes_mid_exact hk hks h3)
    rw [if_neg h3, toNat_xor_mask]
    exact Ok.pure' (F.intRes_mid hk hks hm h3 (by simp))

/-- infinities and NaN are returned unchanged -/
theorem floor_ceil_trunc_special {x : BitVec F.w} (hx : ¬ F.IsFin x) :
    F.floorStatus x = .ok (x, Status.OK) ∧ F.ceilStatus x = .ok (x, Status.OK) ∧
    F.truncStatus x = .ok (x, Status.OK) := by
  have hb := F.bias_ge
  have h0 : 2 ^ F.e - 1 ≤ F.mag x / 2 ^ F.s := by
    rw [Nat.le_div_iff_mul_le (Nat.two_pow_pos _)]
    unfold IsFin at hx; exact not_lt.mp hx
  have hp := F.pe_bias
  have h1 : ((F.mag x / 2 ^ F.s : Nat) - (F.bias : Int)) ≥ F.s := by omega
  obtain ⟨e, he, rfl⟩ := F.expUnbiased_spec x
  unfold floorStatus ceilStatus truncStatus
  rw [he]
  simp only [ok_bind, if_pos h1]
  exact ⟨rfl, rfl, rfl⟩

theorem val_sign (b : BitVec F.w) : F.val b = (if F.sign b then -1 else 1) * F.magVal ℚ (F.mag b) := rfl

theorem intRes_value {u : Bool} {x : BitVec F.w} {r : BitVec F.w × Status} (h : F.IntRes u x r) :
    F.IsFin r.1 ∧ F.sign r.1 = F.sign x ∧
    F.val r.1 = ((if (F.sign x ^^ u) then ⌈F.val x⌉ else ⌊F.val x⌋ : ℤ) : ℚ) ∧
    r.2 = if F.val r.1 = F.val x then Status.OK else Status.INEXACT := by
  obtain ⟨h1, h2, h3, h4⟩ := h
  have hv : F.val r.1 = F.val x ↔ F.mag r.1 = F.mag x := by
    rw [F.val_sign, F.val_sign, h1, ← F.magVal_inj]
    cases F.sign x <;> simp
  refine ⟨h2, h1, ?_, by rw [h4]; simp only [hv]⟩
  unfold Up Down at h3
  rw [F.val_sign, F.val_sign, h1]
  cases u <;> cases hs : F.sign x <;>
    simp only [Bool.false_eq_true, if_false, if_true, Bool.false_xor, Bool.true_xor, Bool.not_false, Bool.not_true,
      one_mul, neg_mul, Int.floor_neg, Int.ceil_neg, Int.cast_neg] at h3 ⊢ <;> rw [h3]

end Fmt
end Verif
