import Verif.Libm.Expm1
import Verif.Libm.Expm1R
import Verif.Libm.IvCalc
/-! # The programs in `expm1`, for the calculator of rounding errors -/
namespace Verif
open Fmt
namespace Expm1

/-- the program of the quotient, for `r1` given by `p` -/
def qE (p : IE → IE) : IE :=
  let x := IE.var 0
  let hfx := IE.mul (.cst 0) x
  let hxs := IE.mul x hfx
  let r := p hxs
  let t := IE.sub (.cst 2) (.mul r hfx)
  .div (.sub r t) (.sub (.cst 3) (.mul x t))

/-- `r1` of `expm1` -/
def p64 (h : IE) : IE := .add (.cst 1) (.mul h (.add (.cst 4) (.mul h (.add (.cst 5) (.mul h (.add (.cst 6) (.mul h (.add (.cst 7) (.mul h (.cst 8))))))))))
/-- `r1` of `expm1f` -/
def p32 (h : IE) : IE := .add (.cst 1) (.mul h (.add (.cst 4) (.mul h (.cst 5))))

def cs64 : List (BitVec f64.w) := [K64.half, K64.one, K64.three, K64.six, Q1, Q2, Q3, Q4, Q5]
def cs32 : List (BitVec f32.w) := [F32.K32.half, F32.K32.one, F32.K32.three, F32.K32.six, F32.Q1, F32.Q2]

/-- the coefficients of `r1` as a function of the square -/
def R64 : List ℚ := [1, f64.val Q1 / 2, f64.val Q2 / 4, f64.val Q3 / 8, f64.val Q4 / 16, f64.val Q5 / 32]
def R32 : List ℚ := [1, f32.val F32.Q1 / 2, f32.val F32.Q2 / 4]

/-- the points at which the range of the reduced argument is cut -/
def cuts (n : ℕ) (a b : ℚ) : List ℚ := (List.range (n - 1)).map fun i => a + (b - a) * (i + 1) / n

/-- `e` in its last meaning: variables `x`, the quotient, `c` -/
def eE : IE :=
  let x := IE.var 0
  let hxs := IE.mul x (.mul (.cst 0) x)
  .sub (.sub (.mul x (.sub (.mul hxs (.var 1)) (.var 2))) (.var 2)) hxs

/-- `x - e` -/
def wE : IE := .sub (.var 0) eE
/-- `e - (x + 0.5)`, the number `x + 0.5` being a variable -/
def bE : IE := .sub eE (.var 3)
/-- `x - e + 1` -/
def dE : IE := .add (.sub (.var 0) eE) (.cst 1)
/-- `x - e + (1 - uf)`, the number `1 - uf` being a variable -/
def fE : IE := .add (.sub (.var 0) eE) (.var 3)
/-- `x - (e + uf) + 1` -/
def gE : IE := .add (.sub (.var 0) (.add eE (.var 3))) (.cst 1)

/-- the constants of these programs -/
def ks {F : Fmt} (K : Cn F) : List (BitVec F.w) := [K.half, K.one]

/-- what is known of the variables; the last one is between `m l + a` and `m h + b` if `x` is between `l` and `h` -/
def inf (s : ℕ) (m a b : ℚ) (lo hi : ℚ) : ℕ → Iv
  | 0 => ⟨lo, hi, 0⟩
  | 1 => ⟨-45 / 100, 0, 3 / 2 / 2 ^ (s + 1)⟩
  | 2 => ⟨-1 / 4 / 2 ^ (s + 1), 1 / 4 / 2 ^ (s + 1), 1 / 500 / 2 ^ (s + 1)⟩
  | _ => ⟨m * lo + a, m * hi + b, 0⟩

/-- the error is at most `k u` relative to a number within `t u` of the exact value, `u = 2^-(s+1)` -/
def relOk (s : ℕ) (k t : ℚ) (r : Iv) : Bool := decide (r.e + t / 2 ^ (s + 1) ≤ k / 2 ^ (s + 1) * (max r.lo (-r.hi) - t / 2 ^ (s + 1)))

theorem relOk_sound {s : ℕ} {k t : ℚ} {r : Iv} (hk : 0 ≤ k) (h : relOk s k t r = true) {v a θ : ℝ} (h1 : (r.lo : ℝ) ≤ a) (h1' : a ≤ r.hi) (h2 : |v - a| ≤ r.e)
    (h3 : |a - θ| ≤ t * (1 / 2 ^ (s + 1))) : |v - θ| ≤ k * (1 / 2 ^ (s + 1)) * |θ| := by
  unfold relOk at h
  rw [decide_eq_true_iff] at h
  have h' : ((r.e + t / 2 ^ (s + 1) : ℚ) : ℝ) ≤ ((k / 2 ^ (s + 1) * (max r.lo (-r.hi) - t / 2 ^ (s + 1)) : ℚ) : ℝ) := by exact_mod_cast h
  push_cast at h'
  have h4 := abs_add_le (v - a) (a - θ)
  rw [sub_add_sub_cancel] at h4
  have h5 : max (r.lo : ℝ) (-r.hi) - t / 2 ^ (s + 1) ≤ |θ| := by
    have : max (r.lo : ℝ) (-r.hi) ≤ |a| := max_le (h1.trans (le_abs_self a)) (by have := neg_le_abs a; linarith)
    have h6 := abs_sub_abs_le_abs_sub a θ
    rw [div_eq_mul_one_div]
    linarith
  have hk' : (0 : ℝ) ≤ (k : ℝ) / 2 ^ (s + 1) := by have : (0 : ℝ) ≤ k := by exact_mod_cast hk
                                                   positivity
  have := mul_le_mul_of_nonneg_left h5 hk'
  rw [mul_one_div]
  rw [mul_one_div] at h3
  linarith

/-- the same after another operation: `fl(m v + c)`, the product being exact up to `2^-100` -/
def relOk' (s : ℕ) (m c k t : ℚ) (r : Iv) : Bool :=
  match IE.fin s (r.lo * m + c) (r.hi * m + c) (r.e * m + 1 / 2 ^ 100) with
  | some r' => decide (r.e ≤ 1) && relOk s k t r'
  | none => false

/-- the bounds of the reduced argument -/
def A : ℚ := -3467 / 10000
def B : ℚ := 3467 / 10000

/-- the checks for one format -/
structure Chk (F : Fmt) (K : Cn F) : Prop where
  a : IE.split (IE.okP (ks K) wE (inf F.s 0 0 0) (relOk' F.s (1 / 2) (-1 / 2) (198 / 100) (3 / 100))) A (cuts 8 A B) B = true
  b : IE.split (IE.okP (ks K) bE (inf F.s 1 (1 / 2) (1 / 2)) (relOk F.s (198 / 100) (3 / 100))) A (cuts 8 A (-1 / 4)) (-1 / 4) = true
  c : IE.split (IE.okP (ks K) wE (inf F.s 0 0 0) (relOk' F.s 2 1 (198 / 100) (6 / 100))) (-1 / 4) (cuts 16 (-1 / 4) B) B = true
  d : IE.split (IE.okP (ks K) dE (inf F.s 0 0 0) (relOk F.s (3 / 2) (3 / 100))) A (cuts 8 A B) B = true
  f2 : IE.split (IE.okP (ks K) fE (inf F.s 0 (3 / 4) (3 / 4)) (relOk F.s (198 / 100) (3 / 100))) A (cuts 32 A B) B = true
  f3 : IE.split (IE.okP (ks K) fE (inf F.s 0 (7 / 8) (7 / 8)) (relOk F.s (198 / 100) (3 / 100))) A (cuts 8 A B) B = true
  f4 : IE.split (IE.okP (ks K) fE (inf F.s 0 (15 / 16) 1) (relOk F.s (198 / 100) (3 / 100))) A (cuts 8 A B) B = true
  g : IE.split (IE.okP (ks K) gE (inf F.s 0 0 (1 / 2 ^ 20)) (relOk F.s (198 / 100) (3 / 100))) A (cuts 8 A B) B = true

theorem chk64 : Chk f64 K64 := by
  constructor <;> decide +kernel
theorem chk32 : Chk f32 F32.K32 := by
  constructor <;> decide +kernel

end Expm1
end Verif
