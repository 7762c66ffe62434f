import Verif.Int.AddSubProofs
import Verif.Int.MulProofs
import Verif.Int.ShiftProofs
import Verif.Int.BitsProofs
/-!
# Properties C05 - C11: basic integer arithmetic

Statements use only `BitVec.toNat` / `BitVec.toInt` (the unsigned / signed reading of a machine integer),
bits, and ordinary arithmetic.
-/
namespace Verif.Props

/-! ## C05: multiplication returns the low part of the exact product -/

/-- `__mulsi3` (riscv, m68k): product modulo `2^32`, in the unsigned reading. -/
theorem C05_mulsi3 (a b : BitVec 32) : (mulEgypt a b).toNat = a.toNat * b.toNat % 2 ^ 32 := by
  rw [mulEgypt_eq, BitVec.toNat_mul]

/-- `__mulsi3`, signed reading: congruent to the product modulo `2^32`. -/
theorem C05_mulsi3_signed (a b : BitVec 32) :
    (mulEgypt a b).toInt = (a.toInt * b.toInt).bmod (2 ^ 32) := by
  rw [mulEgypt_eq, BitVec.toInt_mul]

/-- The schoolbook product for every width divisible by four: no fault, product modulo `2^w`. -/
theorem C05_mul_generic {q : Nat} (hq : 0 < q) (a b : BitVec (2 * (2 * q))) :
    ∃ r, mulD a b = .ok r ∧ mulDS a b = .ok r ∧ r.toNat = a.toNat * b.toNat % 2 ^ (2 * (2 * q)) ∧
      r.toInt = (a.toInt * b.toInt).bmod (2 ^ (2 * (2 * q))) :=
  ⟨a * b, mulD_eq hq a b, mulDS_eq hq a b, BitVec.toNat_mul .., BitVec.toInt_mul ..⟩

/-- `__muldi3`, schoolbook version: no fault, product modulo `2^64`. -/
theorem C05_muldi3 (a b : BitVec 64) :
    ∃ r, mulD (q := 16) a b = .ok r ∧ r.toNat = a.toNat * b.toNat % 2 ^ 64 ∧
      r.toInt = (a.toInt * b.toInt).bmod (2 ^ 64) := by
  obtain ⟨r, h1, -, h2⟩ := C05_mul_generic (q := 16) (by omega) a b
  exact ⟨r, h1, h2⟩

/-- `__muldi3`, shift-and-add version (riscv without the multiplier extension). -/
theorem C05_muldi3_riscv (a b : BitVec 64) :
    (mulEgypt a b).toNat = a.toNat * b.toNat % 2 ^ 64 := by
  rw [mulEgypt_eq, BitVec.toNat_mul]

/-- `__multi3`: no fault, product modulo `2^128` in both readings. -/
theorem C05_multi3 (a b : BitVec 128) :
    ∃ r, mulDS (q := 32) a b = .ok r ∧ r.toNat = a.toNat * b.toNat % 2 ^ 128 ∧
      r.toInt = (a.toInt * b.toInt).bmod (2 ^ 128) := by
  obtain ⟨r, -, h1, h2⟩ := C05_mul_generic (q := 32) (by omega) a b
  exact ⟨r, h1, h2⟩

example : mulD (q := 16) (-1#64) 0xFFFFFFFF00000003#64 = .ok 0x00000000FFFFFFFD#64 := by decide +kernel
example : mulEgypt (-3#32) 5#32 = -15#32 := by decide +kernel

/-! ## C06: overflow flags of checked multiplication -/

/-- `__rust_u128_mulo` (and the `u32`, `u64` instances): wrapped product, flag iff it does not fit. -/
theorem C06_umulo {h : Nat} (a b : BitVec (2 * h)) :
    (umulo a b).1.toNat = a.toNat * b.toNat % 2 ^ (2 * h) ∧
    ((umulo a b).2 = true ↔ 2 ^ (2 * h) ≤ a.toNat * b.toNat) := by
  have := umulo_val a b
  exact ⟨by rw [this.1, BitVec.toNat_mul], this.2⟩

/-- `__mulosi4`, `__mulodi4`, `__muloti4`, `__rust_i128_mulo`: wrapped product, flag iff the exact
product is outside `[-2^(w-1), 2^(w-1))`. -/
theorem C06_smulo {h : Nat} (hh : 0 < h) (a b : BitVec (2 * h)) :
    (smulo a b).1.toInt = (a.toInt * b.toInt).bmod (2 ^ (2 * h)) ∧
    ((smulo a b).2 = true ↔
      ¬ (-(2 ^ (2 * h - 1) : Nat) ≤ a.toInt * b.toInt ∧
        a.toInt * b.toInt < (2 ^ (2 * h - 1) : Nat))) := by
  have := smulo_val hh a b
  exact ⟨by rw [this.1, BitVec.toInt_mul], this.2⟩

theorem C06_mulosi4 (a b : BitVec 32) :
    (smulo (h := 16) a b).1.toInt = (a.toInt * b.toInt).bmod (2 ^ 32) ∧
    ((smulo (h := 16) a b).2 = true ↔
      ¬ (-2 ^ 31 ≤ a.toInt * b.toInt ∧ a.toInt * b.toInt < 2 ^ 31)) :=
  C06_smulo (h := 16) (by omega) a b

theorem C06_mulodi4 (a b : BitVec 64) :
    (smulo (h := 32) a b).1.toInt = (a.toInt * b.toInt).bmod (2 ^ 64) ∧
    ((smulo (h := 32) a b).2 = true ↔
      ¬ (-2 ^ 63 ≤ a.toInt * b.toInt ∧ a.toInt * b.toInt < 2 ^ 63)) :=
  C06_smulo (h := 32) (by omega) a b

theorem C06_muloti4 (a b : BitVec 128) :
    (smulo (h := 64) a b).1.toInt = (a.toInt * b.toInt).bmod (2 ^ 128) ∧
    ((smulo (h := 64) a b).2 = true ↔
      ¬ (-2 ^ 127 ≤ a.toInt * b.toInt ∧ a.toInt * b.toInt < 2 ^ 127)) :=
  C06_smulo (h := 64) (by omega) a b

/-- The x86_64 UEFI entry point reassembles its operands from halves before multiplying. -/
theorem C06_muloti4_uefi (aLo aHi bLo bHi : BitVec 64) :
    ∃ a b : BitVec 128, a.toNat = aLo.toNat + 2 ^ 64 * aHi.toNat ∧
      b.toNat = bLo.toNat + 2 ^ 64 * bHi.toNat ∧
      (mulotiUefi aLo aHi bLo bHi).1.toInt = (a.toInt * b.toInt).bmod (2 ^ 128) ∧
      ((mulotiUefi aLo aHi bLo bHi).2 = true ↔
        ¬ (-2 ^ 127 ≤ a.toInt * b.toInt ∧ a.toInt * b.toInt < 2 ^ 127)) := by
  refine ⟨fromLoHi (h := 64) aLo aHi, fromLoHi (h := 64) bLo bHi,
    toNat_fromLoHi (h := 64) aLo aHi, toNat_fromLoHi (h := 64) bLo bHi, ?_⟩
  have e : ∀ l u : BitVec 64, (u.setWidth 128 <<< 64) ||| l.setWidth 128 = fromLoHi (h := 64) l u := by
    intro l u; simp only [fromLoHi, zeroWiden, widenHi]; rw [BitVec.or_comm]
  unfold mulotiUefi
  rw [e, e]
  exact C06_smulo (h := 64) (by omega) _ _

example : smulo (h := 16) (0x80000000#32) (-1#32) = (0x80000000#32, true) := by decide +kernel
example : smulo (h := 16) (0x80000000#32) 1#32 = (0x80000000#32, false) := by decide +kernel
example : umulo (h := 16) 0x10000#32 0x10000#32 = (0#32, true) := by decide +kernel

/-! ## C07: 128-bit addition and subtraction -/

theorem C07_add_generic {h : Nat} (hh : 0 < h) (a b : BitVec (2 * h)) :
    (addSubAdd a b).toNat = (a.toNat + b.toNat) % 2 ^ (2 * h) ∧
    (addSubAdd a b).toInt = (a.toInt + b.toInt).bmod (2 ^ (2 * h)) := by
  unfold addSubAdd
  rw [uadd_eq hh]
  exact ⟨BitVec.toNat_add .., BitVec.toInt_add ..⟩

theorem C07_sub_generic {h : Nat} (hh : 0 < h) (a b : BitVec (2 * h)) :
    (addSubSub a b).toNat = (2 ^ (2 * h) + a.toNat - b.toNat) % 2 ^ (2 * h) ∧
    (addSubSub a b).toInt = (a.toInt - b.toInt).bmod (2 ^ (2 * h)) := by
  unfold addSubSub
  rw [usub_eq hh]
  refine ⟨?_, BitVec.toInt_sub ..⟩
  rw [BitVec.toNat_sub]
  have := b.isLt
  congr 1; omega

/-- `__rust_u128_add`, `__rust_i128_add`. -/
theorem C07_add (a b : BitVec 128) :
    (addSubAdd (h := 64) a b).toNat = (a.toNat + b.toNat) % 2 ^ 128 ∧
    (addSubAdd (h := 64) a b).toInt = (a.toInt + b.toInt).bmod (2 ^ 128) :=
  C07_add_generic (h := 64) (by omega) a b

/-- `__rust_u128_sub`, `__rust_i128_sub`. -/
theorem C07_sub (a b : BitVec 128) :
    (addSubSub (h := 64) a b).toNat = (2 ^ 128 + a.toNat - b.toNat) % 2 ^ 128 ∧
    (addSubSub (h := 64) a b).toInt = (a.toInt - b.toInt).bmod (2 ^ 128) :=
  C07_sub_generic (h := 64) (by omega) a b

theorem C07_addo_unsigned (a b : BitVec 128) :
    (addoU (h := 64) a b).1.toNat = (a.toNat + b.toNat) % 2 ^ 128 ∧
    ((addoU (h := 64) a b).2 = true ↔ 2 ^ 128 ≤ a.toNat + b.toNat) :=
  ⟨(C07_add a b).1, addoU_flag (h := 64) (by omega) a b⟩

theorem C07_subo_unsigned (a b : BitVec 128) :
    (suboU (h := 64) a b).1.toNat = (2 ^ 128 + a.toNat - b.toNat) % 2 ^ 128 ∧
    ((suboU (h := 64) a b).2 = true ↔ a.toNat < b.toNat) :=
  ⟨(C07_sub a b).1, suboU_flag (h := 64) (by omega) a b⟩

theorem C07_addo_signed (a b : BitVec 128) :
    (addoS (h := 64) a b).1.toInt = (a.toInt + b.toInt).bmod (2 ^ 128) ∧
    ((addoS (h := 64) a b).2 = true ↔
      ¬ (-2 ^ 127 ≤ a.toInt + b.toInt ∧ a.toInt + b.toInt < 2 ^ 127)) :=
  ⟨(C07_add a b).2, addoS_flag (h := 64) (by omega) a b⟩

theorem C07_subo_signed (a b : BitVec 128) :
    (suboS (h := 64) a b).1.toInt = (a.toInt - b.toInt).bmod (2 ^ 128) ∧
    ((suboS (h := 64) a b).2 = true ↔
      ¬ (-2 ^ 127 ≤ a.toInt - b.toInt ∧ a.toInt - b.toInt < 2 ^ 127)) :=
  ⟨(C07_sub a b).2, suboS_flag (h := 64) (by omega) a b⟩

example : addoS (h := 64) (BitVec.intMax 128) 1#128 = (BitVec.intMin 128, true) := by decide +kernel
example : suboU (h := 64) 0#128 1#128 = (-1#128, true) := by decide +kernel

/-! ## C08: shifts -/

/-- `__ashlsi3` (k = 4), `__ashldi3` (k = 5), `__ashlti3` (k = 6). -/
theorem C08_ashl {k : Nat} (hk : k < 32) (x : BitVec (2 * 2 ^ k)) {s : Nat} (hs : s < 2 * 2 ^ k) :
    ∃ r, ashl x s = .ok r ∧ r.toNat = x.toNat * 2 ^ s % 2 ^ (2 * 2 ^ k) :=
  ⟨_, ashl_eq hk x hs, by rw [BitVec.toNat_shiftLeft, Nat.shiftLeft_eq]⟩

/-- `__lshrsi3`, `__lshrdi3`, `__lshrti3`. -/
theorem C08_lshr {k : Nat} (hk : k < 32) (x : BitVec (2 * 2 ^ k)) {s : Nat} (hs : s < 2 * 2 ^ k) :
    ∃ r, lshr x s = .ok r ∧ r.toNat = x.toNat / 2 ^ s :=
  ⟨_, lshr_eq hk x hs, by rw [BitVec.toNat_ushiftRight, Nat.shiftRight_eq_div_pow]⟩

/-- `__ashrsi3`, `__ashrdi3`, `__ashrti3`: floor division of the signed value. -/
theorem C08_ashr {k : Nat} (hk : k < 32) (x : BitVec (2 * 2 ^ k)) {s : Nat} (hs : s < 2 * 2 ^ k) :
    ∃ r, ashr x s = .ok r ∧ r.toInt = x.toInt / (2 ^ s : Int) :=
  ⟨_, ashr_eq hk x hs, by rw [BitVec.toInt_sshiftRight, Int.shiftRight_eq_div_pow]; norm_cast⟩

theorem C08_ashlti3 (x : BitVec 128) {s : Nat} (hs : s < 128) :
    ∃ r, ashl (k := 6) x s = .ok r ∧ r.toNat = x.toNat * 2 ^ s % 2 ^ 128 :=
  C08_ashl (k := 6) (by omega) x hs
theorem C08_lshrti3 (x : BitVec 128) {s : Nat} (hs : s < 128) :
    ∃ r, lshr (k := 6) x s = .ok r ∧ r.toNat = x.toNat / 2 ^ s :=
  C08_lshr (k := 6) (by omega) x hs
theorem C08_ashrti3 (x : BitVec 128) {s : Nat} (hs : s < 128) :
    ∃ r, ashr (k := 6) x s = .ok r ∧ r.toInt = x.toInt / (2 ^ s : Int) :=
  C08_ashr (k := 6) (by omega) x hs

example : ashr (k := 6) (-5#128) 65 = .ok (-1#128) := by decide +kernel
example : ashl (k := 5) 0x123456789ABCDEF0#64 4 = .ok 0x23456789ABCDEF00#64 := by decide +kernel

/-! ## C09: leading zeros -/

/-- `z` is the number of leading zero bits of `x`: the top `z` bits are zero, the next one (if any) is one. -/
def IsLeadingZeros {w} (x : BitVec w) (z : Nat) : Prop :=
  z ≤ w ∧ (∀ i, i < z → x.getMsbD i = false) ∧ (z < w → x.getMsbD z = true)

theorem isLeadingZeros_nlz {w} (x : BitVec w) : IsLeadingZeros x (nlz x) := by
  have hl := bitLen_le_width x
  have hlt := lt_two_pow_bitLen x.toNat
  refine ⟨by unfold nlz; omega, ?_, ?_⟩
  · intro i hi
    unfold nlz at hi
    simp only [BitVec.getMsbD, BitVec.getLsbD]
    have : x.toNat.testBit (w - 1 - i) = false :=
      Nat.testBit_lt_two_pow (Nat.lt_of_lt_of_le hlt (Nat.pow_le_pow_right (by omega) (by omega)))
    simp [this]
  · intro hz
    unfold nlz at hz ⊢
    have hne : x.toNat ≠ 0 := by intro h; rw [h] at hz; simp [bitLen_zero] at hz
    have hge := two_pow_le_of_bitLen hne
    have hbp := bitLen_pos hne
    have e : w - 1 - (w - bitLen x.toNat) = bitLen x.toNat - 1 := by omega
    simp only [BitVec.getMsbD, BitVec.getLsbD, e]
    have : x.toNat.testBit (bitLen x.toNat - 1) = true := by
      rw [Nat.testBit_eq_decide_div_mod_eq]
      have h1 : x.toNat / 2 ^ (bitLen x.toNat - 1) = 1 := by
        apply Nat.div_eq_of_lt_le
        · simpa using hge
        · have : 2 ^ bitLen x.toNat = 2 * 2 ^ (bitLen x.toNat - 1) := two_pow_pred hbp
          omega
      simp [h1]
    simp only [this, Bool.and_true, decide_eq_true_eq]; omega

theorem isLeadingZeros_unique {w} {x : BitVec w} {z z' : Nat} (h : IsLeadingZeros x z)
    (h' : IsLeadingZeros x z') : z = z' := by
  obtain ⟨h1, h2, h3⟩ := h
  obtain ⟨h1', h2', h3'⟩ := h'
  rcases Nat.lt_trichotomy z z' with hlt | heq | hlt
  · have := h2' z hlt; rw [h3 (by omega)] at this; cases this
  · exact heq
  · have := h2 z' hlt; rw [h3' (by omega)] at this; cases this

theorem C09_clzsi2 (condset : Bool) (x : BitVec 32) : ∃ z, clzsi2 condset x = .ok z ∧ IsLeadingZeros x z := by
  refine ⟨_, ?_, isLeadingZeros_nlz x⟩
  unfold clzsi2
  cases condset
  · simpa using leadingZerosDefault_eq (by omega) x
  · simpa using leadingZerosCondset_eq (by omega) x

theorem C09_clzdi2 (condset : Bool) (x : BitVec 64) : ∃ z, clzdi2 condset x = .ok z ∧ IsLeadingZeros x z := by
  refine ⟨_, ?_, isLeadingZeros_nlz x⟩
  unfold clzdi2
  cases condset
  · simpa using leadingZerosDefault_eq (by omega) x
  · simpa using leadingZerosCondset_eq (by omega) x

theorem C09_clzti2 (condset : Bool) (x : BitVec 128) : ∃ z, clzti2 condset x = .ok z ∧ IsLeadingZeros x z :=
  ⟨_, clzti2_eq condset x, isLeadingZeros_nlz x⟩

/-- The 16-bit instance of the generic functions. -/
theorem C09_clz16 (x : BitVec 16) : ∃ z, leadingZerosDefault x = .ok z ∧ leadingZerosCondset x = .ok z ∧
    IsLeadingZeros x z :=
  ⟨_, leadingZerosDefault_eq (by omega) x, leadingZerosCondset_eq (by omega) x, isLeadingZeros_nlz x⟩

example : clzti2 false 0x10000#128 = .ok 111 ∧ clzti2 true 0#128 = .ok 128 := by decide +kernel

/-! ## C10: trailing zeros -/

/-- `r` is the number of trailing zero bits of `x`. -/
def IsTrailingZeros {w} (x : BitVec w) (r : Nat) : Prop :=
  r ≤ w ∧ (∀ i, i < r → x.getLsbD i = false) ∧ (r < w → x.getLsbD r = true)

theorem isTrailingZeros_of {w} {x : BitVec w} {r : Nat} (h : IsTz w x.toNat r) : IsTrailingZeros x r := by
  obtain ⟨h1, h2, h3⟩ := h
  refine ⟨h1, ?_, ?_⟩
  · intro i hi
    have := congrArg (Nat.testBit · i) h2
    simpa [Nat.testBit_mod_two_pow, hi, BitVec.getLsbD] using this
  · intro hr
    simp only [BitVec.getLsbD]
    rw [Nat.testBit_eq_decide_div_mod_eq]
    simpa using h3 hr

theorem C10_ctzsi2 (x : BitVec 32) : ∃ r, trailingZeros x = .ok r ∧ IsTrailingZeros x r := by
  obtain ⟨r, h1, h2⟩ := trailingZeros_spec (by omega) x
  exact ⟨r, h1, isTrailingZeros_of h2⟩
theorem C10_ctzdi2 (x : BitVec 64) : ∃ r, trailingZeros x = .ok r ∧ IsTrailingZeros x r := by
  obtain ⟨r, h1, h2⟩ := trailingZeros_spec (by omega) x
  exact ⟨r, h1, isTrailingZeros_of h2⟩
theorem C10_ctzti2 (x : BitVec 128) : ∃ r, ctzti2 x = .ok r ∧ IsTrailingZeros x r := by
  obtain ⟨r, h1, h2⟩ := ctzti2_spec x
  exact ⟨r, h1, isTrailingZeros_of h2⟩

example : ctzti2 0x10000000000000000000#128 = .ok 76 ∧ trailingZeros 0#32 = .ok 32 := by decide +kernel

/-! ## C11: byte swap -/

/-- Byte `i` (counting from the least significant) of an `n`-byte integer. -/
def byteAt {w} (x : BitVec w) (i : Nat) : BitVec 8 := x.extractLsb' (8 * i) 8

/-- `__bswapsi2`, `__bswapdi2`, `__bswapti2` for `n = 4, 8, 16` (any `n`). -/
theorem C11_bswap (n : Nat) (x : BitVec (8 * n)) (i : Nat) (hi : i < n) :
    byteAt (bswap n x) i = byteAt x (n - 1 - i) := by
  apply BitVec.eq_of_getLsbD_eq
  intro j hj
  simp only [byteAt, BitVec.getLsbD_extractLsb', hj, decide_true, Bool.true_and]
  rw [bswap_getLsbD n x _ (by omega)]
  congr 1; omega

theorem C11_bswap_involutive (n : Nat) (x : BitVec (8 * n)) : bswap n (bswap n x) = x := by
  apply BitVec.eq_of_getLsbD_eq
  intro j hj
  rw [bswap_getLsbD n _ _ hj, bswap_getLsbD n _ _ (by omega)]
  congr 1; omega

example : bswap 4 0x01020304#32 = 0x04030201#32 := by decide +kernel

end Verif.Props
