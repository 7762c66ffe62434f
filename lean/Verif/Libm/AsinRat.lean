import Verif.Libm.AsinR
import Verif.Libm.Asin
import Verif.Libm.IvCalc
/-! # The rational functions of `asin`, `acos`, `asinf` and `acosf` -/
namespace Verif
open Fmt Poly
namespace Asin

/-- `r` computes `arcsin x / x - 1` from `x²`, with an error of at most 0.3 units of half an ulp of 1 -/
def RatOk (F : Fmt) (r : BitVec F.w → BitVec F.w) : Prop :=
  ∀ z Z, GFv F z Z → 0 ≤ Z → Z ≤ 1 / 4 → ∃ R, GFv F (r z) R ∧ |R - asA Z| ≤ 3 / 10 * (1 / 2 ^ (F.s + 1))

/-- Horner's rule -/
def hp (z : IE) : List ℕ → IE
  | [] => z
  | [i] => .cst i
  | i :: l => .add (.cst i) (.mul z (hp z l))

def cs64 : List (BitVec f64.w) := [P0, P1, P2, P3, P4, P5, one, Q1, Q2, Q3, Q4]
def rE64 : IE := .div (.mul (.var 0) (hp (.var 0) [0, 1, 2, 3, 4, 5])) (hp (.var 0) [6, 7, 8, 9, 10])
def PL : List ℚ := [f64.val P0, f64.val P1, f64.val P2, f64.val P3, f64.val P4, f64.val P5]
def QL : List ℚ := [f64.val one, f64.val Q1, f64.val Q2, f64.val Q3, f64.val Q4]

theorem rE64_flt (N : FPU f64) (z : BitVec f64.w) : rE64.flt N cs64 (fun _ => z) = compR N z := rfl

theorem rE64_chk : IE.split (IE.ok1 cs64 rE64 (2852 / 10000 / 2 ^ 53)) 0 [1 / 8, 3 / 16, 7 / 32] (1 / 4) = true := by decide +kernel
theorem P64_chk : chkT (0 :: sub PL (mul QL asL)) (148 / 10000 / 2 ^ 53 * (51 / 100)) 26 8 (1 / 4) = true := by decide +kernel
theorem Q64_chk : chk (sub QL [76 / 100]) (76 / 100 - 51 / 100) 8 0 (1 / 4) = true := by decide +kernel

theorem rE64_ideal (Z : ℝ) : rE64.ideal cs64 (fun _ => Z) = Z * ev PL Z / ev QL Z := by
  have e1 : ∀ a : ℝ, a + Z * 0 = a := fun a => by ring
  simp only [rE64, hp, IE.ideal, PL, QL, ev, e1]
  rfl

theorem s64 : f64.s = 52 := rfl
theorem b64 : f64.bias = 1023 := by decide +kernel
theorem big64 : f64.Big := ⟨by rw [b64]; norm_num, by rw [s64]; norm_num⟩

theorem ratOk64 (N : FPU f64) : RatOk f64 (compR N) := by
  intro z Z hz h0 h1
  obtain ⟨R, hR, he⟩ := IE.ok1_sound big64 N (by decide +kernel) rE64_chk hz (by push_cast; exact h0) (by push_cast; linarith)
  rw [rE64_flt] at hR
  rw [rE64_ideal] at he
  refine ⟨R, hR, ?_⟩
  have hA := (asA_rat (by norm_num) P64_chk Q64_chk h0 h1)
  have := abs_add_le (R - Z * ev PL Z / ev QL Z) (Z * ev PL Z / ev QL Z - asA Z)
  rw [sub_add_sub_cancel] at this
  push_cast at he hA
  rw [s64]
  norm_num at he hA ⊢
  linarith

namespace F32
def cs32 : List (BitVec f32.w) := [P0, P1, P2, one, Q1]
def rE32 : IE := .div (.mul (.var 0) (hp (.var 0) [0, 1, 2])) (hp (.var 0) [3, 4])
def PL : List ℚ := [f32.val P0, f32.val P1, f32.val P2]
def QL : List ℚ := [f32.val one, f32.val Q1]

theorem rE32_flt (N : FPU f32) (z : BitVec f32.w) : rE32.flt N cs32 (fun _ => z) = compR N z := rfl
theorem rE32_chk : IE.split (IE.ok1 cs32 rE32 (15 / 100 / 2 ^ 24)) 0 [1 / 8] (1 / 4) = true := by decide +kernel
theorem P32_chk : chkT (0 :: sub PL (mul QL asL)) (15 / 100 / 2 ^ 24 * (82 / 100)) 13 8 (1 / 4) = true := by decide +kernel
theorem Q32_chk : chk (sub QL [91 / 100]) (91 / 100 - 82 / 100) 8 0 (1 / 4) = true := by decide +kernel

theorem rE32_ideal (Z : ℝ) : rE32.ideal cs32 (fun _ => Z) = Z * ev PL Z / ev QL Z := by
  have e1 : ∀ a : ℝ, a + Z * 0 = a := fun a => by ring
  simp only [rE32, hp, IE.ideal, PL, QL, ev, e1]
  rfl

theorem s32 : f32.s = 23 := rfl
theorem b32 : f32.bias = 127 := by decide +kernel
theorem big32 : f32.Big := ⟨by rw [b32], by rw [s32]⟩

theorem ratOk32 (N : FPU f32) : RatOk f32 (compR N) := by
  intro z Z hz h0 h1
  obtain ⟨R, hR, he⟩ := IE.ok1_sound big32 N (by decide +kernel) rE32_chk hz (by push_cast; exact h0) (by push_cast; linarith)
  rw [rE32_flt] at hR
  rw [rE32_ideal] at he
  refine ⟨R, hR, ?_⟩
  have hA := (asA_rat (by norm_num) P32_chk Q32_chk h0 h1)
  have := abs_add_le (R - Z * ev PL Z / ev QL Z) (Z * ev PL Z / ev QL Z - asA Z)
  rw [sub_add_sub_cancel] at this
  push_cast at he hA
  rw [s32]
  norm_num at he hA ⊢
  linarith
end F32
end Asin
end Verif
