import Verif.Core
import Verif.Int.Lz
import Verif.Int.DivProofs
import Verif.Float.Spec

/-!
# Model of the `Float` trait: constants and bit-level helpers (libm/src/math/support/float_traits.rs)

A float is its bit pattern, `to_bits`/`from_bits` are the identity. `i32` values are modelled as `Int`
with explicit range checks (`i32C`, checked arithmetic) or reduction (`i32W`, `wrapping_*`); `u32`
values as `Nat`.
-/

namespace Verif

/-- Result of checked `i32` arithmetic. -/
def i32C (x : Int) : M Int := if -2 ^ 31 ≤ x ∧ x < 2 ^ 31 then .ok x else .error .overflow
/-- Result of wrapping `i32` arithmetic. -/
def i32W (x : Int) : Int := x.bmod (2 ^ 32)
/-- `.cast()` of an `i32` to an unsigned integer: must be lossless (int_traits.rs, `CastInto::cast`). -/
def castI (w : Nat) (x : Int) : M (BitVec w) :=
  if 0 ≤ x ∧ x < 2 ^ w then .ok (BitVec.ofNat w x.toNat) else .error .assert
/-- `.cast()` of an unsigned integer to `i32`: must be lossless. -/
def castToI32 {w} (x : BitVec w) : M Int := if x.toNat < 2 ^ 31 then .ok x.toNat else .error .assert
/-- `.cast()` of an unsigned integer to `u32`: must be lossless. -/
def castToU32 {w} (x : BitVec w) : M Nat := if x.toNat < 2 ^ 32 then .ok x.toNat else .error .assert
/-- `.cast()` of a `u32` to an unsigned integer: must be lossless. -/
def castU (w : Nat) (x : Nat) : M (BitVec w) :=
  if x < 2 ^ w then .ok (BitVec.ofNat w x) else .error .assert
/-- `a << n` with an `i32` shift amount. -/
def shlI {w} (a : BitVec w) (n : Int) : M (BitVec w) :=
  if 0 ≤ n ∧ n < w then .ok (a <<< n.toNat) else .error .shift

theorem i32C_spec {x : Int} (h : -2 ^ 31 ≤ x ∧ x < 2 ^ 31) : Ok (i32C x) (· = x) :=
  ⟨x, by rw [i32C, if_pos h], rfl⟩
theorem i32W_eq {x : Int} (h : -2 ^ 31 ≤ x ∧ x < 2 ^ 31) : i32W x = x := by
  unfold i32W
  rw [Int.bmod_def]
  split <;> omega
attribute [irreducible] i32W
theorem castI_spec {w} {x : Int} (h : 0 ≤ x ∧ x < 2 ^ w) :
    Ok (castI w x) (fun r => (r.toNat : Int) = x) := by
  refine ⟨BitVec.ofNat w x.toNat, by rw [castI, if_pos h], ?_⟩
  show ((BitVec.ofNat w x.toNat).toNat : Int) = x
  have h1 : x.toNat < 2 ^ w := by
    have : ((x.toNat : Nat) : Int) < ((2 ^ w : Nat) : Int) := by
      rw [Int.toNat_of_nonneg h.1]; push_cast; exact h.2
    exact_mod_cast this
  rw [BitVec.toNat_ofNat, Nat.mod_eq_of_lt h1, Int.toNat_of_nonneg h.1]
theorem castToI32_spec {w} {x : BitVec w} (h : x.toNat < 2 ^ 31) :
    Ok (castToI32 x) (· = (x.toNat : Int)) := ⟨_, by rw [castToI32, if_pos h], rfl⟩
theorem castToU32_spec {w} {x : BitVec w} (h : x.toNat < 2 ^ 32) :
    Ok (castToU32 x) (· = x.toNat) := ⟨_, by rw [castToU32, if_pos h], rfl⟩
theorem castU_spec {w x : Nat} (h : x < 2 ^ w) : Ok (castU w x) (fun r => r.toNat = x) :=
  ⟨_, by rw [castU, if_pos h], by
    show (BitVec.ofNat w x).toNat = x
    rw [BitVec.toNat_ofNat, Nat.mod_eq_of_lt h]⟩
theorem shlI_spec {w} {a : BitVec w} {n : Int} (h : 0 ≤ n ∧ n < w) :
    Ok (shlI a n) (fun r => r.toNat = a.toNat * 2 ^ n.toNat % 2 ^ w) :=
  ⟨a <<< n.toNat, by rw [shlI, if_pos h], by show _ = _; rw [BitVec.toNat_shiftLeft, Nat.shiftLeft_eq]⟩

namespace Fmt
variable (F : Fmt)

/-- `EXP_SAT`, float_traits.rs 76-80. -/
def expSat : Nat := (1 <<< F.e) - 1
/-- `SIGN_MASK`, float_traits.rs 295. -/
def signMask : BitVec F.w := 1#F.w <<< (F.w - 1)
/-- `SIG_MASK`, float_traits.rs 296. -/
def sigMask : BitVec F.w := (1#F.w <<< F.s) - 1#F.w
/-- `EXP_MASK`, float_traits.rs 297; the pattern of infinity. -/
def expMask : BitVec F.w := ~~~(F.signMask ||| F.sigMask)
/-- `IMPLICIT_BIT`, float_traits.rs 298. -/
def implicitBit : BitVec F.w := 1#F.w <<< F.s
/-- `sign_bit - one`, the mask of the magnitude (add.rs 22, mul.rs 25, cmp.rs 76, ...). -/
def absMask : BitVec F.w := F.signMask - 1#F.w
/-- `implicit_bit >> 1`, the quiet bit (add.rs 25, `SIG_TOP_BIT` float_traits.rs 299). -/
def quietBit : BitVec F.w := F.implicitBit >>> 1
/-- `exponent_mask | quiet_bit` (add.rs 26), `NAN` (float_traits.rs 262-266, non-MIPS). -/
def qnanRep : BitVec F.w := F.expMask ||| F.quietBit

/-- `normalize`, float_traits.rs 372-375. -/
def normalize (sig : BitVec F.w) : M (Int × BitVec F.w) := do
  let shift := (nlz sig + (2 ^ 32 - F.e)) % 2 ^ 32
  let sig' ← shlC sig shift
  pure (i32W (1 - i32W shift), sig')

/-- `from_parts`, float_traits.rs 190-201. -/
def fromParts (negative : Bool) (exponent : Nat) (sig : BitVec F.w) : BitVec F.w :=
  ((if negative then 1#F.w else 0#F.w) <<< (F.w - 1)) |||
    (BitVec.ofNat F.w (exponent &&& F.expSat) <<< F.s) ||| (sig &&& F.sigMask)

/-- `ex`, float_traits.rs 166-168. -/
def ex (b : BitVec F.w) : Nat := (b >>> F.s).toNat &&& F.expSat

/-! ### Values of the constants -/

theorem pe_ge : 32 ≤ 2 ^ F.e := by
  calc 32 = 2 ^ 5 := rfl
    _ ≤ 2 ^ F.e := Nat.pow_le_pow_right (by omega) F.he

theorem pe_le : 2 ^ F.e ≤ 32768 := by
  calc 2 ^ F.e ≤ 2 ^ 15 := Nat.pow_le_pow_right (by omega) F.he'
    _ = 32768 := rfl

theorem ps_ge : 1024 ≤ 2 ^ F.s := by
  calc 1024 = 2 ^ 10 := rfl
    _ ≤ 2 ^ F.s := Nat.pow_le_pow_right (by omega) F.hs

theorem pes : 2 ^ (F.e + F.s) = 2 ^ F.e * 2 ^ F.s := Nat.pow_add _ _ _

theorem pw : 2 ^ F.w = 2 * (2 ^ F.e * 2 ^ F.s) := by
  show 2 ^ (F.e + F.s + 1) = _
  rw [Nat.pow_succ, pes, Nat.mul_comm]

theorem ps_succ : 2 ^ (F.s + 1) = 2 * 2 ^ F.s := by rw [Nat.pow_succ, Nat.mul_comm]

theorem expSat_eq : F.expSat = 2 ^ F.e - 1 := by
  unfold expSat; rw [Nat.one_shiftLeft]

theorem pe_bias : 2 ^ F.e = 2 * F.bias + 2 := by
  have h := F.he
  have : 2 ^ F.e = 2 * 2 ^ (F.e - 1) := by
    rw [← Nat.pow_succ']; congr 1; omega
  have hp := Nat.two_pow_pos (F.e - 1)
  unfold bias
  omega

theorem expSat_bias : F.expSat = 2 * F.bias + 1 := by
  rw [expSat_eq, pe_bias]; omega

theorem bias_ge : F.s + 4 ≤ F.bias := by
  have := F.hse
  unfold bias
  omega

theorem infRep_add : F.infRep + 2 ^ F.s = 2 ^ F.e * 2 ^ F.s := by
  have := F.pe_ge
  unfold infRep
  rw [← Nat.succ_mul]
  congr 1
  omega

theorem infRep_lt : F.infRep < 2 ^ (F.e + F.s) := by
  have := F.infRep_add
  have := Nat.two_pow_pos F.s
  rw [pes]; omega

theorem toNat_one' : (1#F.w).toNat = 1 := by
  rw [BitVec.toNat_ofNat]
  apply Nat.mod_eq_of_lt
  have := F.he
  exact Nat.one_lt_two_pow (by show F.e + F.s + 1 ≠ 0; omega)

theorem toNat_one_shl {k : Nat} (h : k < F.w) : (1#F.w <<< k).toNat = 2 ^ k := by
  rw [BitVec.toNat_shiftLeft, toNat_one', Nat.one_shiftLeft]
  exact Nat.mod_eq_of_lt (Nat.pow_lt_pow_right (by omega) h)

theorem toNat_signMask : F.signMask.toNat = 2 ^ (F.e + F.s) :=
  F.toNat_one_shl (by show F.e + F.s + 1 - 1 < F.e + F.s + 1; omega)

theorem toNat_implicitBit : F.implicitBit.toNat = 2 ^ F.s :=
  F.toNat_one_shl (by show F.s < F.e + F.s + 1; omega)

theorem toNat_sigMask : F.sigMask.toNat = 2 ^ F.s - 1 := by
  unfold sigMask
  rw [BitVec.toNat_sub_of_le, toNat_one', F.toNat_one_shl (by show F.s < F.e + F.s + 1; omega)]
  show (1#F.w).toNat ≤ _
  rw [toNat_one', F.toNat_one_shl (by show F.s < F.e + F.s + 1; omega)]
  exact Nat.two_pow_pos _

theorem toNat_absMask : F.absMask.toNat = 2 ^ (F.e + F.s) - 1 := by
  unfold absMask
  rw [BitVec.toNat_sub_of_le, toNat_one', F.toNat_signMask]
  show (1#F.w).toNat ≤ _
  rw [toNat_one', F.toNat_signMask]
  exact Nat.two_pow_pos _

theorem toNat_quietBit : F.quietBit.toNat = 2 ^ (F.s - 1) := by
  unfold quietBit
  rw [BitVec.toNat_ushiftRight, toNat_implicitBit, Nat.shiftRight_eq_div_pow]
  have := F.hs
  obtain ⟨k, hk⟩ : ∃ k, F.s = k + 1 := ⟨F.s - 1, by omega⟩
  rw [hk, Nat.pow_succ]; simp

theorem toNat_expMask : F.expMask.toNat = F.infRep := by
  unfold expMask
  rw [BitVec.toNat_not, BitVec.toNat_or, toNat_signMask, toNat_sigMask]
  have h : 2 ^ F.s - 1 < 2 ^ (F.e + F.s) := by
    have := Nat.pow_le_pow_right (n := 2) (by omega) (show F.s ≤ F.e + F.s by omega)
    have := Nat.two_pow_pos F.s
    omega
  rw [or_eq_add' h (dvd_refl _), F.pw, pes]
  have := F.infRep_add
  have := Nat.two_pow_pos F.s
  generalize 2 ^ F.s = S at *
  generalize 2 ^ F.e * S = ES at *
  omega

/-! ### Fields of a pattern -/

theorem toNat_and_absMask (b : BitVec F.w) : (b &&& F.absMask).toNat = F.mag b := by
  rw [BitVec.toNat_and, toNat_absMask, Nat.and_two_pow_sub_one_eq_mod]; rfl

theorem toNat_and_sigMask (b : BitVec F.w) : (b &&& F.sigMask).toNat = b.toNat % 2 ^ F.s := by
  rw [BitVec.toNat_and, toNat_sigMask, Nat.and_two_pow_sub_one_eq_mod]

theorem mag_lt (b : BitVec F.w) : F.mag b < 2 ^ (F.e + F.s) := Nat.mod_lt _ (Nat.two_pow_pos _)

theorem toNat_eq (b : BitVec F.w) :
    b.toNat = (if F.sign b then 2 ^ (F.e + F.s) else 0) + F.mag b := by
  unfold sign mag
  have hb := b.isLt
  rw [BitVec.msb_eq_decide]
  have h1 : F.w - 1 = F.e + F.s := rfl
  rw [h1]
  rw [F.pw, ← F.pes] at hb
  by_cases h : 2 ^ (F.e + F.s) ≤ b.toNat
  · rw [if_pos (by simpa using h), Nat.mod_eq_sub_mod h, Nat.mod_eq_of_lt (by omega)]; omega
  · rw [if_neg (by simpa using h), Nat.mod_eq_of_lt (by omega)]; omega

theorem sign_mag_of {b : BitVec F.w} {t : Bool} {n : Nat} (hn : n < 2 ^ (F.e + F.s))
    (h : b.toNat = (if t then 2 ^ (F.e + F.s) else 0) + n) : F.sign b = t ∧ F.mag b = n := by
  have h1 := F.toNat_eq b
  have h2 := F.mag_lt b
  cases t <;> cases hs : F.sign b <;> simp_all <;> omega

theorem ext_sign_mag {a b : BitVec F.w} (h1 : F.sign a = F.sign b) (h2 : F.mag a = F.mag b) :
    a = b := by
  apply BitVec.eq_of_toNat_eq
  rw [F.toNat_eq a, F.toNat_eq b, h1, h2]

theorem toNat_and_signMask (b : BitVec F.w) :
    (b &&& F.signMask).toNat = if F.sign b then 2 ^ (F.e + F.s) else 0 := by
  rw [BitVec.toNat_and, toNat_signMask]
  apply Nat.eq_of_testBit_eq
  intro i
  rw [Nat.testBit_and, Nat.testBit_two_pow, BitVec.testBit_toNat]
  unfold sign
  rw [BitVec.msb_eq_getLsbD_last]
  by_cases h : F.e + F.s = i
  · subst h
    have : F.w - 1 = F.e + F.s := rfl
    rw [this]
    cases b.getLsbD (F.e + F.s) <;> simp [Nat.testBit_two_pow_self]
  · simp only [h, decide_false, Bool.and_false]
    split
    · rw [Nat.testBit_two_pow]; simp [h]
    · simp

theorem toNat_xor_signMask (b : BitVec F.w) : F.sign (b ^^^ F.signMask) = !F.sign b ∧
    F.mag (b ^^^ F.signMask) = F.mag b := by
  constructor
  · unfold sign
    rw [BitVec.msb_xor]
    have : F.signMask.msb = true := by
      rw [BitVec.msb_eq_decide, toNat_signMask]; simp
    rw [this, Bool.xor_true]
  · unfold mag
    rw [BitVec.toNat_xor, toNat_signMask]
    apply Nat.eq_of_testBit_eq
    intro i
    rw [Nat.testBit_mod_two_pow, Nat.testBit_mod_two_pow, Nat.testBit_xor, Nat.testBit_two_pow]
    by_cases h : i < F.e + F.s
    · have : F.e + F.s ≠ i := by omega
      simp [this]
    · simp [h]

theorem mag_mod (b : BitVec F.w) : b.toNat % 2 ^ F.s = F.mag b % 2 ^ F.s := by
  unfold mag
  exact (Nat.mod_mod_of_dvd _ (Nat.pow_dvd_pow 2 (by omega))).symm

theorem mag_div_lt (b : BitVec F.w) : F.mag b / 2 ^ F.s < 2 ^ F.e := by
  rw [Nat.div_lt_iff_lt_mul (Nat.two_pow_pos _), ← pes]; exact F.mag_lt b

theorem toNat_div_mod (b : BitVec F.w) : b.toNat / 2 ^ F.s % 2 ^ F.e = F.mag b / 2 ^ F.s := by
  unfold mag
  rw [Nat.add_comm F.e F.s, Nat.pow_add, Nat.mod_mul_right_div_self]

theorem toNat_and_expMask (b : BitVec F.w) :
    (b &&& F.expMask).toNat = F.mag b / 2 ^ F.s * 2 ^ F.s := by
  rw [← toNat_div_mod, BitVec.toNat_and, toNat_expMask]
  unfold infRep
  apply Nat.eq_of_testBit_eq
  intro i
  rw [← Nat.shiftLeft_eq, ← Nat.shiftLeft_eq, Nat.testBit_and, Nat.testBit_shiftLeft,
    Nat.testBit_shiftLeft, Nat.testBit_two_pow_sub_one, Nat.testBit_mod_two_pow,
    Nat.testBit_div_two_pow]
  by_cases h : F.s ≤ i
  · rw [Nat.sub_add_cancel h]; simp [h, Bool.and_comm]
  · simp [h]

theorem mag_isFin_div {n : Nat} (h : n < F.infRep) : n / 2 ^ F.s < 2 ^ F.e - 1 := by
  rw [Nat.div_lt_iff_lt_mul (Nat.two_pow_pos _)]; exact h

theorem ex_eq (b : BitVec F.w) : F.ex b = F.mag b / 2 ^ F.s := by
  unfold ex
  rw [expSat_eq, BitVec.toNat_ushiftRight, Nat.shiftRight_eq_div_pow, Nat.and_two_pow_sub_one_eq_mod,
    toNat_div_mod]

/-- Sum of sign and magnitude, as produced by `magnitude | sign`. -/
theorem toNat_or_sign {x y b : BitVec F.w} (hx : x.toNat < 2 ^ (F.e + F.s))
    (hy : y.toNat = if F.sign b then 2 ^ (F.e + F.s) else 0) :
    (x ||| y).toNat = (if F.sign b then 2 ^ (F.e + F.s) else 0) + x.toNat := by
  rw [BitVec.toNat_or, or_eq_add hx, hy, Nat.add_comm]
  rw [hy]; split <;> simp

theorem normalize_spec {sig : BitVec F.w} (h0 : 0 < sig.toNat) (h1 : sig.toNat < 2 ^ F.s) :
    Ok (F.normalize sig) (fun p => ∃ k : Nat, 1 ≤ k ∧ k ≤ F.s ∧ p.1 = 1 - (k : Int) ∧
      p.2.toNat = sig.toNat * 2 ^ k ∧ 2 ^ F.s ≤ p.2.toNat ∧ p.2.toNat < 2 ^ (F.s + 1)) := by
  have hb := bitLen_le_iff.mpr h1
  have hb0 := bitLen_pos (n := sig.toNat) (by omega)
  have he := F.he; have he' := F.he'; have hs' := F.hs'
  have hl := lt_two_pow_bitLen sig.toNat
  have hg := two_pow_le_of_bitLen (n := sig.toNat) (by omega)
  obtain ⟨k, hk⟩ : ∃ k, k = F.s + 1 - bitLen sig.toNat := ⟨_, rfl⟩
  have hsh : (nlz sig + (2 ^ 32 - F.e)) % 2 ^ 32 = k := by
    unfold nlz
    have hw : F.w = F.e + F.s + 1 := rfl
    omega
  have e1 : 2 ^ F.s ≤ sig.toNat * 2 ^ k := by
    calc 2 ^ F.s = 2 ^ (bitLen sig.toNat - 1) * 2 ^ k := by rw [← Nat.pow_add]; congr 1; omega
      _ ≤ _ := Nat.mul_le_mul_right _ hg
  have e2 : sig.toNat * 2 ^ k < 2 ^ (F.s + 1) := by
    calc _ < 2 ^ bitLen sig.toNat * 2 ^ k := Nat.mul_lt_mul_of_pos_right hl (Nat.two_pow_pos _)
      _ = _ := by rw [← Nat.pow_add]; congr 1; omega
  have e3 : 2 ^ (F.s + 1) ≤ 2 ^ F.w := Nat.pow_le_pow_right (by omega) (by show _ ≤ F.e + F.s + 1; omega)
  unfold normalize
  rw [hsh]
  refine Ok.bind (shlC_spec (by show k < F.e + F.s + 1; omega)) ?_
  intro t ht
  refine Ok.pure' ⟨k, by omega, by omega, ?_, ?_, ?_, ?_⟩
  · dsimp only
    rw [i32W_eq (x := (k : Int)) (by omega), i32W_eq (by omega)]
  all_goals (dsimp only; rw [ht, Nat.mod_eq_of_lt (by omega)]; try assumption)

end Fmt
end Verif
