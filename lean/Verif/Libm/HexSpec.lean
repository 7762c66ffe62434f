import Mathlib.Algebra.Order.Field.Basic
import Mathlib.Algebra.Order.Field.Power
import Mathlib.Algebra.Order.Field.Rat
import Mathlib.Data.Rat.Cast.Order
import Mathlib.Tactic.Ring
import Mathlib.Tactic.Linarith
import Mathlib.Tactic.NormNum
import Mathlib.Tactic.Positivity
/-!
# Specification of hexadecimal float literals

Independent of the model: what a literal looks like, which number it denotes, and what the result and the IEEE-754
status flags for that number are in a format with `e` exponent bits and `s` stored significand bits.
-/
namespace Verif.HexSpec

/-- ASCII text as bytes -/
def bytes (s : String) : List (BitVec 8) := s.toList.map (fun c => BitVec.ofNat 8 c.toNat)

/-- the byte `c` is the hexadecimal digit of value `d` -/
def IsHexDigit (c : BitVec 8) (d : Nat) : Prop :=
  (bytes "0123456789abcdef")[d]? = some c ∨ (bytes "0123456789ABCDEF")[d]? = some c

/-- the byte `c` is the decimal digit of value `d` -/
def IsDecDigit (c : BitVec 8) (d : Nat) : Prop := (bytes "0123456789")[d]? = some c

/-- the number written with the given digits, most significant first -/
def ofDigits (b : Nat) (ds : List Nat) : Nat := ds.foldl (fun a d => a * b + d) 0

/-- an optional sign -/
inductive IsSign : List (BitVec 8) → Bool → Prop
  | none : IsSign [] false
  | plus : IsSign (bytes "+") false
  | minus : IsSign (bytes "-") true

/-- The parts of an unsigned literal `0x<int>.<frac>p<exp>`. -/
structure Lit where
  int : List Nat
  frac : List Nat
  expNeg : Bool
  exp : List Nat

/-- the exponent written after `p` -/
def Lit.pexp (l : Lit) : ℤ := (if l.expNeg then -1 else 1) * (ofDigits 10 l.exp : ℤ)

/-- the number denoted -/
def Lit.value (l : Lit) : ℚ :=
  (ofDigits 16 (l.int ++ l.frac) : ℚ) * 2 ^ (-4 * (l.frac.length : ℤ)) * 2 ^ l.pexp

/-- The text `t` is the unsigned literal with parts `l`: `0x`, digits with at most one point and at least one digit,
`p`, a signed decimal exponent. -/
def IsLit (t : List (BitVec 8)) (l : Lit) : Prop :=
  ∃ x I P F p g D,
    t = bytes "0" ++ x ++ I ++ P ++ F ++ p ++ g ++ D ∧
    (x = bytes "x" ∨ x = bytes "X") ∧
    List.Forall₂ IsHexDigit I l.int ∧ List.Forall₂ IsHexDigit F l.frac ∧
    (P = bytes "." ∨ P = [] ∧ F = []) ∧ l.int ++ l.frac ≠ [] ∧
    (p = bytes "p" ∨ p = bytes "P") ∧
    IsSign g l.expNeg ∧ List.Forall₂ IsDecDigit D l.exp ∧ l.exp ≠ []

/-- lower or upper case `inf` -/
def IsInfText (t : List (BitVec 8)) : Prop :=
  ∃ a b c, t = [a, b, c] ∧ a ∈ bytes "iI" ∧ b ∈ bytes "nN" ∧ c ∈ bytes "fF"
/-- lower or upper case `nan` -/
def IsNanText (t : List (BitVec 8)) : Prop :=
  ∃ a b c, t = [a, b, c] ∧ a ∈ bytes "nN" ∧ b ∈ bytes "aA" ∧ c ∈ bytes "nN"

/-! ### Rounding -/

/-- rounding of a magnitude -/
inductive Dir where
  | nearest | down | up

/-- the least positive number of the format -/
def unit (e s : Nat) : ℚ := 2 ^ (2 - (2 : ℤ) ^ (e - 1) - s)

/-- The value of magnitude pattern `n`; the pattern of infinity has the value `2^(emax+1)`. -/
def mag (e s n : Nat) : ℚ :=
  (if n / 2 ^ s = 0 then (n % 2 ^ s : Nat) else ((2 ^ s + n % 2 ^ s) * 2 ^ (n / 2 ^ s - 1) : Nat) : ℚ) * unit e s

/-- the pattern of infinity -/
def inf (e s : Nat) : Nat := (2 ^ e - 1) * 2 ^ s

/-- `n` is the pattern to which `x ≥ 0` rounds. -/
def Rounds (e s : Nat) (dir : Dir) (x : ℚ) (n : Nat) : Prop :=
  match dir with
  | .nearest => n ≤ inf e s ∧ ∀ m, m ≤ inf e s →
      |x - mag e s n| ≤ |x - mag e s m| ∧ (|x - mag e s n| = |x - mag e s m| → m ≠ n → n % 2 = 0)
  | .down => n < inf e s ∧ mag e s n ≤ x ∧ ∀ m, m < inf e s → mag e s m ≤ x → m ≤ n
  | .up => n ≤ inf e s ∧ (n < inf e s → x ≤ mag e s n) ∧ ∀ m, m < n → mag e s m < x

/-- The exact value is beyond the range of the format: for nearest and upwards the result is infinite, for downwards the
number is at least `2^(emax+1)`. -/
def Overflows (e s : Nat) (dir : Dir) (x : ℚ) (n : Nat) : Prop :=
  match dir with
  | .nearest | .up => n = inf e s
  | .down => mag e s (inf e s) ≤ x

open Classical in
/-- The status flags: none if the result is exact, else `INEXACT` (16), together with `OVERFLOW` (4) or, if the result
is below the least normal number, `UNDERFLOW` (8). -/
noncomputable def flags (e s : Nat) (dir : Dir) (x : ℚ) (n : Nat) : BitVec 8 :=
  if n < inf e s ∧ mag e s n = x then 0#8
  else 16#8 ||| (if Overflows e s dir x n then 4#8 else 0#8) ||| (if n < 2 ^ s then 8#8 else 0#8)

end Verif.HexSpec
