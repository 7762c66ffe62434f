import Verif.Int.ModularProofs
/-!
# Properties C12 - C14: 256-bit helpers, narrowing division, modular reduction

The specification of `u256`/`i256` is Lean's own 256-bit integer: `bits x = x.hi ++ x.lo`.
-/
namespace Verif.Props

/-- The 256-bit string of a `u256`/`i256` value (limb width `h`, 128 in the code). -/
def bits {h : Nat} (x : Wide h) : BitVec (h + h) := x.hi ++ x.lo

theorem bits_toNat {h : Nat} (x : Wide h) : (bits x).toNat = x.val := by
  simp only [bits, BitVec.toNat_append, Wide.val]
  rw [← Nat.shiftLeft_add_eq_or_of_lt x.lo.isLt, Nat.shiftLeft_eq]

theorem bits_toInt {h : Nat} (hh : 0 < h) (x : Wide h) : (bits x).toInt = x.valS := by
  have hb := Wide.valS_bounds hh x
  have hc := Wide.toNat_of_hiVal true x.hi hh
  simp only [Wide.hiVal, if_true, Bool.true_and] at hc
  rw [BitVec.toInt_eq_toNat_bmod, bits_toNat]
  have e2 : (2 : Int) ^ (h + h) = 2 ^ h * 2 ^ h := pow_add _ _ _
  have : (x.val : Int) = x.valS + (if x.hi.slt 0#h = true then 1 else 0) * ((2 ^ (h + h) : Nat) : Int) := by
    simp only [Wide.val, Wide.valS]
    push_cast
    rw [hc, e2]
    split <;> ring
  rw [this, Int.add_mul_bmod_self_right]
  have hp : (2 : Int) ^ (h + h) = 2 * 2 ^ (2 * h - 1) := by
    rw [← pow_succ']; congr 1; omega
  refine Int.bmod_eq_of_le ?_ ?_ <;> (push_cast; rw [hp]; omega)

theorem val_eq_iff {h : Nat} {x : Wide h} {b : BitVec (h + h)} : bits x = b ↔ x.val = b.toNat := by
  rw [← BitVec.toNat_inj, bits_toNat]

/-! ## C12

Stated for every limb width `h` (128 in the code); shifts need `h` to be a power of two. -/

/-- `u256 + u256`: returns the exact sum when it fits and panics (debug) when it does not. -/
theorem C12_u256_add {h : Nat} (hh : 0 < h) (x y : Wide h) :
    Wide.add false x y = if (bits x).toNat + (bits y).toNat < 2 ^ (h + h)
      then .ok (Wide.addRaw false x y).1 else .error .assert := by
  have h1 := Wide.addRaw_unsigned hh x y
  have hl := (Wide.addRaw false x y).1.val_lt
  rw [bits_toNat, bits_toNat, ← h1, ← Nat.two_mul]
  unfold Wide.add
  simp only [assertC]
  generalize 2 ^ (2 * h) = N at *
  cases hc : (Wide.addRaw false x y).2
  · simp only [hc, Bool.false_eq_true, if_false, Nat.add_zero] at h1 ⊢
    rw [if_pos hl]; rfl
  · rw [if_neg (c := _ < N) (by simp)]; rfl

/-- The wrapped sum (what a release build returns) is addition modulo `2^256`, and the flag that the
debug assertion tests is exactly unsigned overflow. -/
theorem C12_u256_add_wraps {h : Nat} (hh : 0 < h) (x y : Wide h) :
    bits (Wide.addRaw false x y).1 = bits x + bits y ∧
    ((Wide.addRaw false x y).2 = true ↔ 2 ^ (h + h) ≤ (bits x).toNat + (bits y).toNat) := by
  have h1 := Wide.addRaw_unsigned hh x y
  have hl := (Wide.addRaw false x y).1.val_lt
  rw [val_eq_iff, BitVec.toNat_add, bits_toNat, bits_toNat, ← h1, ← Nat.two_mul]
  generalize 2 ^ (2 * h) = N at *
  cases hc : (Wide.addRaw false x y).2
  · simp only [Bool.false_eq_true, if_false, Nat.add_zero, Nat.mod_eq_of_lt hl, true_and, false_iff]; omega
  · simp [Nat.mod_eq_of_lt hl]

/-- `u256 - u256`. -/
theorem C12_u256_sub {h : Nat} (hh : 0 < h) (x y : Wide h) :
    Wide.sub false x y = if (bits y).toNat ≤ (bits x).toNat
      then .ok (Wide.subRaw false x y).1 else .error .assert := by
  have h1 := Wide.subRaw_unsigned hh x y
  have hl := (Wide.subRaw false x y).1.val_lt
  rw [bits_toNat, bits_toNat]
  unfold Wide.sub
  simp only [assertC]
  generalize 2 ^ (2 * h) = N at *
  cases hc : (Wide.subRaw false x y).2
  · simp only [hc, Bool.false_eq_true, if_false, Nat.add_zero] at h1 ⊢
    rw [if_pos (c := _ ≤ _) (by omega)]; rfl
  · simp only [hc, if_true] at h1 ⊢
    rw [if_neg (c := _ ≤ _) (by omega)]; rfl

theorem C12_u256_sub_wraps {h : Nat} (hh : 0 < h) (x y : Wide h) :
    bits (Wide.subRaw false x y).1 = bits x - bits y ∧
    ((Wide.subRaw false x y).2 = true ↔ (bits x).toNat < (bits y).toNat) := by
  have h1 := Wide.subRaw_unsigned hh x y
  have hl := (Wide.subRaw false x y).1.val_lt
  have hx := x.val_lt
  have hy := y.val_lt
  rw [val_eq_iff, BitVec.toNat_sub, bits_toNat, bits_toNat, ← Nat.two_mul]
  generalize 2 ^ (2 * h) = N at *
  cases hc : (Wide.subRaw false x y).2 <;> simp only [hc, if_true, Bool.false_eq_true, if_false] at h1 ⊢
  · rw [Nat.mod_eq_sub_mod (by omega), Nat.mod_eq_of_lt (by omega)]
    constructor
    · omega
    · simp; omega
  · rw [Nat.mod_eq_of_lt (by omega)]
    constructor
    · omega
    · simp; omega

theorem two_pow_int {h : Nat} (hh : 0 < h) : (2 : Int) ^ (h + h) = 2 * 2 ^ (2 * h - 1) := by
  rw [← pow_succ']; congr 1; omega

/-- `i256 + i256`: the wrapped sum is addition of 256-bit integers, the flag is signed overflow. -/
theorem C12_i256_add {h : Nat} (hh : 1 < h) (x y : Wide h) :
    bits (Wide.addRaw true x y).1 = bits x + bits y ∧
    ((Wide.addRaw true x y).2 = true ↔
      ¬ (-(2 ^ (2 * h - 1)) ≤ (bits x).toInt + (bits y).toInt ∧
        (bits x).toInt + (bits y).toInt < 2 ^ (2 * h - 1))) := by
  obtain ⟨k, h1, h2, h3⟩ := Wide.addRaw_signed hh x y
  have b := Wide.valS_bounds (by omega) (Wide.addRaw true x y).1
  have e := two_pow_int (h := h) (by omega)
  have e2 : 2 * h = h + h := by omega
  constructor
  · rw [← BitVec.toInt_inj, BitVec.toInt_add, bits_toInt (by omega), bits_toInt (by omega), bits_toInt (by omega)]
    rw [show x.valS + y.valS = (Wide.addRaw true x y).1.valS + (-k) * ((2 ^ (h + h) : Nat) : Int) by
      rw [h1, e2]; push_cast; ring]
    rw [Int.add_mul_bmod_self_right, Int.bmod_eq_of_le] <;> (push_cast; rw [e]; omega)
  · rw [h3, bits_toInt (by omega), bits_toInt (by omega)]
    rw [h1] at b
    rw [show (2 : Int) ^ (2 * h) = 2 ^ (h + h) by rw [e2], e] at b
    have c1 := Wide.valS_bounds (by omega) x
    have c2 := Wide.valS_bounds (by omega) y
    rcases h2 with rfl | rfl | rfl <;> omega

/-- `i256 - i256`. -/
theorem C12_i256_sub {h : Nat} (hh : 1 < h) (x y : Wide h) :
    bits (Wide.subRaw true x y).1 = bits x - bits y ∧
    ((Wide.subRaw true x y).2 = true ↔
      ¬ (-(2 ^ (2 * h - 1)) ≤ (bits x).toInt - (bits y).toInt ∧
        (bits x).toInt - (bits y).toInt < 2 ^ (2 * h - 1))) := by
  obtain ⟨k, h1, h2, h3⟩ := Wide.subRaw_signed hh x y
  have b := Wide.valS_bounds (by omega) (Wide.subRaw true x y).1
  have e := two_pow_int (h := h) (by omega)
  have e2 : 2 * h = h + h := by omega
  constructor
  · rw [← BitVec.toInt_inj, BitVec.toInt_sub, bits_toInt (by omega), bits_toInt (by omega), bits_toInt (by omega)]
    rw [show x.valS - y.valS = (Wide.subRaw true x y).1.valS + (-k) * ((2 ^ (h + h) : Nat) : Int) by
      rw [h1, e2]; push_cast; ring]
    rw [Int.add_mul_bmod_self_right, Int.bmod_eq_of_le] <;> (push_cast; rw [e]; omega)
  · rw [h3, bits_toInt (by omega), bits_toInt (by omega)]
    rw [h1] at b
    rw [show (2 : Int) ^ (2 * h) = 2 ^ (h + h) by rw [e2], e] at b
    have c1 := Wide.valS_bounds (by omega) x
    have c2 := Wide.valS_bounds (by omega) y
    rcases h2 with rfl | rfl | rfl <;> omega

/-- The debug assertion of `i256` addition and subtraction fails exactly when the overflow flag is set. -/
theorem C12_i256_checked {h : Nat} (x y : Wide h) :
    (Wide.add true x y = if (Wide.addRaw true x y).2 then .error .assert else .ok (Wide.addRaw true x y).1) ∧
    (Wide.sub true x y = if (Wide.subRaw true x y).2 then .error .assert else .ok (Wide.subRaw true x y).1) := by
  constructor
  · unfold Wide.add assertC
    rcases Wide.addRaw true x y with ⟨r, o⟩
    cases o <;> rfl
  · unfold Wide.sub assertC
    rcases Wide.subRaw true x y with ⟨r, o⟩
    cases o <;> rfl

/-- `<<` for every shift amount below 256. -/
theorem C12_shl {h k : Nat} (hk : h = 2 ^ (k + 1)) (x : Wide h) {r : Nat} (hr : r < 2 * h) :
    ∃ y, x.shl r = .ok y ∧ bits y = bits x <<< r := by
  obtain ⟨y, h1, h2⟩ := Wide.shl_spec hk x hr
  refine ⟨y, h1, ?_⟩
  rw [val_eq_iff, h2, BitVec.toNat_shiftLeft, Nat.shiftLeft_eq, bits_toNat, Nat.two_mul]

/-- `>>` of a `u256` for every shift amount below 256. -/
theorem C12_u256_shr {h k : Nat} (hk : h = 2 ^ (k + 1)) (x : Wide h) {r : Nat} (hr : r < 2 * h) :
    ∃ y, x.shr false r = .ok y ∧ bits y = bits x >>> r := by
  obtain ⟨y, h1, h2⟩ := Wide.shr_spec hk false x hr
  refine ⟨y, h1, ?_⟩
  have e : ∀ z : Wide h, z.valI false = (z.val : Int) := by
    intro z; simp [Wide.valI, Wide.hiVal, Wide.val]
  rw [e, e] at h2
  rw [val_eq_iff, BitVec.toNat_ushiftRight, Nat.shiftRight_eq_div_pow, bits_toNat]
  exact_mod_cast h2

/-- `>>` of an `i256` for every shift amount below 256 rounds toward minus infinity. -/
theorem C12_i256_shr {h k : Nat} (hk : h = 2 ^ (k + 1)) (x : Wide h) {r : Nat} (hr : r < 2 * h) :
    ∃ y, x.shr true r = .ok y ∧ (bits y).toInt = (bits x).toInt / 2 ^ r := by
  have hh : 0 < h := by rw [hk]; exact Nat.two_pow_pos _
  obtain ⟨y, h1, h2⟩ := Wide.shr_spec hk true x hr
  refine ⟨y, h1, ?_⟩
  rw [bits_toInt hh, bits_toInt hh]
  exact h2

/-- Ordering of `u256` and of `i256`. -/
theorem C12_lt {h : Nat} (hh : 0 < h) (x y : Wide h) :
    (Wide.lt false x y = true ↔ (bits x).toNat < (bits y).toNat) ∧
    (Wide.lt true x y = true ↔ (bits x).toInt < (bits y).toInt) := by
  rw [bits_toNat, bits_toNat, bits_toInt hh, bits_toInt hh]
  exact ⟨Wide.lt_unsigned x y, Wide.lt_signed x y⟩

/-- Bitwise operators. -/
theorem C12_bitwise {h : Nat} (x y : Wide h) :
    bits (x.or y) = bits x ||| bits y ∧ bits x.not = ~~~ bits x := by
  constructor
  · apply BitVec.eq_of_getLsbD_eq
    intro i _
    simp only [bits, Wide.or, BitVec.getLsbD_or, BitVec.getLsbD_append]
    split <;> rfl
  · apply BitVec.eq_of_getLsbD_eq
    intro i hi
    simp only [bits, Wide.not, BitVec.getLsbD_not, BitVec.getLsbD_append]
    split
    · simp [*]
    · simp only [hi, show i - h < h by omega, decide_true, Bool.true_and]

/-- Conversions from 128 bits. -/
theorem C12_widen {h : Nat} (hh : 0 < h) (l u : BitVec h) :
    (bits (Wide.widen l)).toNat = l.toNat ∧ bits (Wide.widenHi u) = u ++ 0#h ∧
    (bits (Wide.widenS l)).toInt = l.toInt ∧ bits (Wide.fromLoHi l u) = u ++ l := by
  refine ⟨?_, rfl, ?_, ?_⟩
  · rw [bits_toNat, Wide.val_widen]
  · rw [bits_toInt hh]; exact Wide.valS_widenS hh l
  · rw [val_eq_iff, Wide.val_fromLoHi, BitVec.toNat_append, ← Nat.shiftLeft_add_eq_or_of_lt l.isLt,
      Nat.shiftLeft_eq]

/-- `u128::widen_mul`: the exact 256-bit product, no partial sum overflows (`g = 64`). -/
theorem C12_widen_mul {g : Nat} (hg : 0 < g) (a b : BitVec (2 * g)) :
    ∃ y, Wide.zeroWidenMul a b = .ok y ∧ (bits y).toNat = a.toNat * b.toNat := by
  obtain ⟨y, h1, h2⟩ := Wide.zeroWidenMul_spec hg a b
  exact ⟨y, h1, by rw [bits_toNat, h2]⟩

-- at the widths of the code:
example (x : Wide 128) {r : Nat} (hr : r < 256) : ∃ y, x.shl r = .ok y ∧ bits y = bits x <<< r :=
  C12_shl (k := 6) rfl x hr
example (a b : BitVec 128) : ∃ y, Wide.zeroWidenMul (g := 64) a b = .ok y ∧
    (bits y).toNat = a.toNat * b.toNat := C12_widen_mul (g := 64) (by omega) a b
example : (Wide.shl (⟨1#128, 0x80000000000000000000000000000001#128⟩ : Wide 128) 1)
    = .ok ⟨3#128, 2#128⟩ := by decide
example : (Wide.shr true (⟨0x80000000000000000000000000000000#128, 0#128⟩ : Wide 128) 255)
    = .ok ⟨BitVec.allOnes 128, BitVec.allOnes 128⟩ := by decide
example : Wide.zeroWidenMul (g := 64) (BitVec.allOnes 128) (BitVec.allOnes 128)
    = .ok ⟨BitVec.allOnes 128 - 1#128, 1#128⟩ := by decide

/-! ## C13 -/

/-- The value that `checked_narrowing_div_rem` has to return for the dividend `a` and the divisor `n`. -/
def NarrowDivSpec {h : Nat} (a : Nat) (n : BitVec h) (o : Option (BitVec h × BitVec h)) : Prop :=
  match o with
  | some (q, r) => a = q.toNat * n.toNat + r.toNat ∧ r.toNat < n.toNat
  | none => n.toNat = 0 ∨ 2 ^ h ≤ a / n.toNat

theorem narrow_spec {h : Nat} {u n : BitVec h} {f : M (BitVec h × BitVec h)} {a : Nat}
    (hu : u.toNat = a / 2 ^ h) (hf : u.toNat < n.toNat → Ok f (IsNd a n)) :
    ∃ o, ndChecked u n f = .ok o ∧ NarrowDivSpec a n o := by
  by_cases hlt : u.toNat < n.toNat
  · obtain ⟨o, h1, p, rfl, h2, h3⟩ := ndChecked_some hlt (hf hlt)
    exact ⟨_, h1, h2.symm, h3⟩
  · refine ⟨none, ndChecked_none (by omega), ?_⟩
    show _ ∨ _
    rcases Nat.eq_zero_or_pos n.toNat with h0 | h0
    · exact Or.inl h0
    · right
      rw [Nat.le_div_iff_mul_le h0, Nat.mul_comm]
      rw [hu] at hlt
      have := (Nat.le_div_iff_mul_le (Nat.two_pow_pos h)).1 (Nat.not_lt.1 hlt)
      exact this

/-- Primitive widths (`u16`, `u32`, `u64`, `u128` dividends; any `h`). -/
theorem C13_primitive {h : Nat} (a : BitVec (2 * h)) (n : BitVec h) :
    ∃ o, ndChecked (hi a) n (ndPrim a n) = .ok o ∧ NarrowDivSpec a.toNat n o :=
  narrow_spec (toNat_hi a) (ndPrim_spec a n)

/-- `u256` by `u128` (`g = 64`). -/
theorem C13_u256 {g k : Nat} (hk : 2 * g = 2 ^ (k + 1)) (a : Wide (2 * g)) (n : BitVec (2 * g)) :
    ∃ o, ndChecked a.hi n (ndWide a n) = .ok o ∧ NarrowDivSpec (bits a).toNat n o := by
  rw [bits_toNat]
  exact narrow_spec (Wide.val_hi a) (ndWide_spec hk a n)

/-- The unchecked method is defined (no undefined behaviour) exactly when its stated precondition holds. -/
theorem C13_unchecked_defined {g k : Nat} (hk : 2 * g = 2 ^ (k + 1)) (a : Wide (2 * g)) (n : BitVec (2 * g)) :
    (∃ p, ndWide a n = .ok p) ↔ a.hi.toNat < n.toNat := by
  constructor
  · rintro ⟨p, hp⟩
    by_contra hc
    unfold ndWide at hp
    rw [if_pos (by omega)] at hp
    cases hp
  · intro h
    obtain ⟨p, hp, -⟩ := ndWide_spec hk a n h
    exact ⟨p, hp⟩

/-- The inner three-digit by two-digit division is exact for every digit width, including both
corrections of the quotient estimate. -/
theorem C13_three_by_two {g : Nat} (hg : 0 < g) (a0 : BitVec g) (a n : BitVec (2 * g))
    (hn : 2 ^ (2 * g) ≤ 2 * n.toNat) (ha : a.toNat < n.toNat) :
    ∃ q r, div3by2 a0 a n = .ok (q, r) ∧ a.toNat * 2 ^ g + a0.toNat = q.toNat * n.toNat + r.toNat ∧
      r.toNat < n.toNat := by
  obtain ⟨⟨q, r⟩, h1, h2, h3⟩ := div3by2_spec hg a0 a n ((nlz_eq_zero (by omega)).2 hn) ha
  exact ⟨q, r, h1, h2.symm, h3⟩

/-- The documented inverse law of widening multiplication. -/
theorem C13_inverse_of_mul {g k : Nat} (hk : 2 * g = 2 ^ (k + 1)) (x y r : BitVec (2 * g)) (a : Wide (2 * g))
    (hr : r.toNat < y.toNat)
    (ha : (bits a).toNat = x.toNat * y.toNat + r.toNat) :
    ndChecked a.hi y (ndWide a y) = .ok (some (x, r)) := by
  obtain ⟨o, h1, h2⟩ := C13_u256 hk a y
  rw [h1]
  cases o with
  | none =>
    exfalso
    rcases h2 with h | h
    · omega
    · rw [ha, Nat.mul_comm x.toNat, Nat.mul_add_div (by omega), Nat.div_eq_of_lt hr] at h
      have := x.isLt
      omega
  | some p =>
    obtain ⟨q, r'⟩ := p
    obtain ⟨h3, h4⟩ := h2
    rw [ha] at h3
    obtain ⟨e1, e2⟩ := divRem_of h3.symm h4
    obtain ⟨e3, e4⟩ := divRem_of rfl hr (Q := x.toNat)
    rw [← e3] at e1
    rw [← e4] at e2
    rw [BitVec.eq_of_toNat_eq e1, BitVec.eq_of_toNat_eq e2]

example (a : Wide 128) (n : BitVec 128) :
    ∃ o, ndChecked a.hi n (ndWide (g := 64) a n) = .ok o ∧ NarrowDivSpec (bits a).toNat n o :=
  C13_u256 (g := 64) (k := 6) rfl a n
-- no, one and two corrections of the estimate:
example : div3by2 (g := 4) 0#4 0x8F#8 0x8F#8 = .error .ub := by decide
example : div3by2 (g := 4) 0x0#4 0x80#8 0x8F#8 = .ok (0xE#4, 46#8) := by decide
example : div3by2 (g := 4) 0x1#4 0x8E#8 0x8F#8 = .ok (0xF#4, 128#8) := by decide

/-! ## C14 -/

/-- `linear_mul_reduction` at the primitive widths: `(x << e) mod y` over unbounded integers, for every
`x < 2y`, every `y` with two leading zero bits and every `e` such that `e + BITS` is a `u32`. -/
theorem C14_reduction_primitive {w : Nat} (hw : 3 ≤ w) (x y : BitVec w) (e : Nat)
    (hy : 4 * y.toNat < 2 ^ w) (hx : x.toNat < 2 * y.toNat) (he : e + w < 2 ^ 32) :
    ∃ r, linearMulReduction (DOps.prim w) x e y = .ok r ∧ r.toNat = x.toNat * 2 ^ e % y.toNat :=
  linearMulReduction_spec (DOps.prim_lawful w) hw x y e hy hx he

/-- `linear_mul_reduction::<u128>`, whose double-width type is `u256`. -/
theorem C14_reduction_u128 (x y : BitVec 128) (e : Nat)
    (hy : 4 * y.toNat < 2 ^ 128) (hx : x.toNat < 2 * y.toNat) (he : e + 128 < 2 ^ 32) :
    ∃ r, linearMulReduction (DOps.wide 64) x e y = .ok r ∧ r.toNat = x.toNat * 2 ^ e % y.toNat :=
  linearMulReduction_spec (w := 128) (DOps.wide_lawful (g := 64) (k := 6) rfl) (by omega) x y e hy hx he

/-- The documented bound of the partial remainder: one modular step keeps the hidden remainder below
`2n` and congruent to the shifted one. -/
theorem C14_step {w : Nat} (hw : 3 ≤ w) (x n : BitVec w) (k : Nat) (hk : k < w)
    (h1 : 2 ^ (w - 3) < n.toNat) (h2 : n.toNat < 2 ^ (w - 2)) (hx : x.toNat < 2 * n.toNat) :
    ∃ r, (do let s ← Reducer.new (DOps.prim w) x n
             let s ← s.shiftReduce k
             s.partialRemainder) = .ok r ∧
      r.toNat < 2 * n.toNat ∧ r.toNat % n.toNat = x.toNat * 2 ^ k % n.toNat := by
  have hO := DOps.prim_lawful w
  refine Ok.bind (Reducer.new_spec hO hw h1 h2 hx) ?_
  intro s hs
  refine Ok.bind (Reducer.shiftReduce_spec hO hw hs hk) ?_
  rintro s' ⟨x', a, hI, hx'⟩
  refine Ok.mono (Reducer.partialRemainder_spec hO hw hI) ?_
  intro r hr
  rw [hr]
  exact ⟨hI.hx, by rw [← hx', Nat.add_mul_mod_self_right]⟩

example : linearMulReduction (DOps.prim 16) 5#16 100 12345#16 =
    .ok (BitVec.ofNat 16 (5 * 2 ^ 100 % 12345)) := by decide

end Verif.Props
