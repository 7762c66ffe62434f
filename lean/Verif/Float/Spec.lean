import Mathlib.Algebra.Order.Field.Basic
import Mathlib.Algebra.Order.Field.Power
import Mathlib.Data.Rat.Cast.Order
import Mathlib.Algebra.Order.Field.Rat
import Mathlib.Order.WithBot
import Mathlib.Tactic.Ring
import Mathlib.Tactic.Linarith
import Mathlib.Tactic.NormNum
import Mathlib.Tactic.Positivity

/-!
# Specification: IEEE-754 binary formats and round-to-nearest-even

This file is independent of the model of the code. It fixes what a bit pattern means and what
"correctly rounded" means.
-/

namespace Verif

/-- A binary interchange format: `e` exponent bits, `s` stored significand bits. The side conditions hold
for binary16, binary32, binary64 and binary128. -/
structure Fmt where
  e : Nat
  s : Nat
  he : 5 ≤ e
  he' : e ≤ 15
  hs : 10 ≤ s
  hs' : s ≤ 112
  hse : s + 5 ≤ 2 ^ (e - 1)

/-- binary16 -/
def f16 : Fmt := ⟨5, 10, by omega, by omega, by omega, by omega, by decide⟩
/-- binary32 -/
def f32 : Fmt := ⟨8, 23, by omega, by omega, by omega, by omega, by decide⟩
/-- binary64 -/
def f64 : Fmt := ⟨11, 52, by omega, by omega, by omega, by omega, by decide⟩
/-- binary128 -/
def f128 : Fmt := ⟨15, 112, by omega, by omega, by omega, by omega, by decide⟩

namespace Fmt

/-- total width -/
abbrev w (F : Fmt) : Nat := F.e + F.s + 1
/-- exponent bias -/
def bias (F : Fmt) : Nat := 2 ^ (F.e - 1) - 1
/-- magnitude pattern of infinity: exponent all ones, significand zero -/
def infRep (F : Fmt) : Nat := (2 ^ F.e - 1) * 2 ^ F.s

/-- The value of the finite magnitude pattern `n` (exponent field `n / 2^s`, significand field
`n % 2^s`). The pattern of infinity is given the value `2^(emax+1)` that the formula yields for it; this is the
"next" number after the largest finite one and is what IEEE-754 uses to decide overflow. -/
def magVal (F : Fmt) (K : Type*) [Field K] (n : Nat) : K :=
  if n / 2 ^ F.s = 0 then ((n % 2 ^ F.s : Nat) : K) * 2 ^ (1 - (F.bias : ℤ) - F.s)
  else ((2 ^ F.s + n % 2 ^ F.s : Nat) : K) * 2 ^ (((n / 2 ^ F.s : Nat) : ℤ) - F.bias - F.s)

/-- `n` is the magnitude pattern to which the non-negative number `x` rounds under
round-to-nearest, ties-to-even: no pattern up to infinity is nearer, and if another pattern is
equally near then `n` is even. -/
def IsRNE (F : Fmt) {K : Type*} [Field K] [LinearOrder K] (x : K) (n : Nat) : Prop :=
  n ≤ F.infRep ∧ ∀ m, m ≤ F.infRep →
    |x - F.magVal K n| ≤ |x - F.magVal K m| ∧
    (|x - F.magVal K n| = |x - F.magVal K m| → m ≠ n → n % 2 = 0)

/-- sign bit -/
def sign (F : Fmt) (b : BitVec F.w) : Bool := b.msb
/-- magnitude: all bits but the sign -/
def mag (F : Fmt) (b : BitVec F.w) : Nat := b.toNat % 2 ^ (F.e + F.s)

def IsNaN (F : Fmt) (b : BitVec F.w) : Prop := F.infRep < F.mag b
def IsInf (F : Fmt) (b : BitVec F.w) : Prop := F.mag b = F.infRep
def IsFin (F : Fmt) (b : BitVec F.w) : Prop := F.mag b < F.infRep
def IsZero (F : Fmt) (b : BitVec F.w) : Prop := F.mag b = 0
/-- a quiet NaN: the top significand bit is set -/
def IsQNaN (F : Fmt) (b : BitVec F.w) : Prop := F.IsNaN b ∧ b.getLsbD (F.s - 1) = true

instance (F : Fmt) (b : BitVec F.w) : Decidable (F.IsNaN b) := inferInstanceAs (Decidable (_ < _))
instance (F : Fmt) (b : BitVec F.w) : Decidable (F.IsInf b) := inferInstanceAs (Decidable (_ = _))
instance (F : Fmt) (b : BitVec F.w) : Decidable (F.IsFin b) := inferInstanceAs (Decidable (_ < _))
instance (F : Fmt) (b : BitVec F.w) : Decidable (F.IsZero b) := inferInstanceAs (Decidable (_ = _))

/-- The number a finite pattern stands for. -/
def valK (F : Fmt) (K : Type*) [Field K] (b : BitVec F.w) : K :=
  (if F.sign b then -1 else 1) * F.magVal K (F.mag b)

/-- The rational number a finite pattern stands for. -/
abbrev val (F : Fmt) (b : BitVec F.w) : ℚ := F.valK ℚ b

/-- `r` is the correctly rounded (nearest, ties to even) result for the exact number `x`; the sign of
a zero `x` is left open and has to be specified by each operation. -/
def Rounds (F : Fmt) {K : Type*} [Field K] [LinearOrder K] (x : K) (r : BitVec F.w) : Prop :=
  F.IsRNE |x| (F.mag r) ∧ (x ≠ 0 → (F.sign r = true ↔ x < 0))

/-- Specification: the value of a non-NaN pattern in the rationals extended by `±∞`. -/
def extVal (F : Fmt) (b : BitVec F.w) : WithBot (WithTop ℚ) :=
  if F.mag b = F.infRep then (if F.sign b then ⊥ else ((⊤ : WithTop ℚ) : WithBot (WithTop ℚ)))
  else ((F.val b : WithTop ℚ) : WithBot (WithTop ℚ))

end Fmt
end Verif
