import Verif.Libm.FmaSpec
import Verif.Libm.Remquo
import Verif.Float.ExtTruncProofs
/-! # `fma_wide_round` (libm/src/math/generic/fma_wide.rs): `fmaf` through `f64` -/
namespace Verif

/-- `widen` and `narrow` (libm/src/math/support/float_traits.rs 459-515: the `as` casts between a float type and the one of
twice its size). Like the arithmetic operators they are specified, not implemented: any pair of functions satisfying IEEE-754
conversion; `FloatCast.soft` shows that the crate's own `__extend*`, `__trunc*` are such functions. -/
structure FloatCast (F B : Fmt) where
  widen : BitVec F.w → BitVec B.w
  narrow : BitVec B.w → BitVec F.w
  widen_fin : ∀ a, F.IsFin a → B.IsFin (widen a) ∧ B.sign (widen a) = F.sign a ∧ B.val (widen a) = F.val a
  widen_inf : ∀ a, F.IsInf a → B.IsInf (widen a) ∧ B.sign (widen a) = F.sign a
  widen_nan : ∀ a, F.IsNaN a → B.IsNaN (widen a)
  narrow_fin : ∀ a, B.IsFin a → F.sign (narrow a) = B.sign a ∧ F.Rounds (B.val a) (narrow a)
  narrow_inf : ∀ a, B.IsInf a → F.IsInf (narrow a) ∧ F.sign (narrow a) = B.sign a
  narrow_nan : ∀ a, B.IsNaN a → F.IsNaN (narrow a)

namespace Fmt

/-- libm/src/math/generic/fma_wide.rs 10-76 with `round = Round::Nearest`. Simplification: the status (always `OK` here, so
that the branch at 45-55 is not taken) is not returned. -/
def fmaWide {F B : Fmt} (N : FPU B) (C : FloatCast F B) (x y z : BitVec F.w) : M (BitVec F.w) := do
  let xy := N.mul (C.widen x) (C.widen y)
  let result := N.add xy (C.widen z)
  let ui := result
  let re := B.ex result
  let zb := C.widen z
  let prec_diff ← nsubC B.s F.s
  let one : BitVec B.w := 1#B.w
  let p ← shlC one prec_diff
  let mask ← subC p one
  let excess_prec := ui &&& mask
  let pd1 ← nsubC prec_diff 1
  let halfway ← shlC one pd1
  if excess_prec ≠ halfway ∨ re = B.expSat ∨
      (B.feq (N.sub result xy) zb = true ∧ B.feq (N.sub result zb) xy = true) then
    pure (C.narrow result)
  else do
    let sb ← shrC ui (B.w - 1)
    let neg := decide (sb ≠ 0#B.w)
    let err := if neg = B.gt zb xy then N.add (N.sub xy result) zb else N.add (N.sub zb result) xy
    if neg = B.lt err 0#B.w then do
      let ui ← addC ui one
      pure (C.narrow ui)
    else do
      let ui ← subC ui one
      pure (C.narrow ui)

/-! ### Double rounding -/
section
variable (F : Fmt)

/-- `q` is halfway between two adjacent magnitudes -/
def IsMid (q : ℚ) : Prop := ∃ n, n + 1 ≤ F.infRep ∧ 2 * q = F.magVal ℚ n + F.magVal ℚ (n + 1)

theorem isRNE_upper {x : ℚ} {n : Nat} (h : F.IsRNE x n) (hn : n + 1 ≤ F.infRep) :
    2 * x ≤ F.magVal ℚ n + F.magVal ℚ (n + 1) := by
  have := (h.2 (n + 1) hn).1
  have hlt : F.magVal ℚ n < F.magVal ℚ (n + 1) := F.magVal_lt_iff.mpr (Nat.lt_succ_self _)
  by_contra hc
  rw [not_le] at hc
  rcases le_or_gt x (F.magVal ℚ (n + 1)) with h1 | h1
  · rw [abs_of_nonpos (a := x - F.magVal ℚ (n + 1)) (by linarith), abs_of_nonneg (by linarith)] at this
    linarith
  · rw [abs_of_pos (a := x - F.magVal ℚ (n + 1)) (by linarith), abs_of_nonneg (by linarith)] at this
    linarith

theorem isRNE_lower {x : ℚ} {n : Nat} (h : F.IsRNE x (n + 1)) :
    F.magVal ℚ n + F.magVal ℚ (n + 1) ≤ 2 * x := by
  have h0 := h.1
  have := (h.2 n (by omega)).1
  have hlt : F.magVal ℚ n < F.magVal ℚ (n + 1) := F.magVal_lt_iff.mpr (Nat.lt_succ_self _)
  by_contra hc
  rw [not_le] at hc
  rcases le_or_gt x (F.magVal ℚ n) with h1 | h1
  · rw [abs_of_nonpos (a := x - F.magVal ℚ n) (by linarith), abs_of_neg (by linarith)] at this
    linarith
  · rw [abs_of_pos (a := x - F.magVal ℚ n) (by linarith), abs_of_neg (by linarith)] at this
    linarith

theorem magVal_mono {m n : Nat} (h : m ≤ n) : F.magVal ℚ m ≤ F.magVal ℚ n := F.magVal_le_iff.mpr h

/-- two numbers with no midpoint between them round alike -/
theorem isRNE_eq_of_noMid {p q : ℚ} {r r' : Nat} (hpq : p ≤ q) (hp : F.IsRNE p r) (hq : F.IsRNE q r')
    (h : ∀ m, F.IsMid m → p ≤ m → m ≤ q → False) : r = r' := by
  have hle := IsRNE.mono F hp hq hpq
  rcases hle.eq_or_lt with h1 | h1
  · exact h1
  · exfalso
    obtain ⟨k, rfl⟩ : ∃ k, r' = k + 1 := ⟨r' - 1, by omega⟩
    have hk := hq.1
    have u := F.isRNE_upper hp (by omega)
    have l := F.isRNE_lower hq
    refine h ((F.magVal ℚ r + F.magVal ℚ (r + 1)) / 2) ⟨r, by omega, by ring⟩ (by linarith) ?_
    have := F.magVal_mono (m := r) (n := k) (by omega)
    have := F.magVal_mono (m := r + 1) (n := k + 1) (by omega)
    linarith

end

/-- Every midpoint of the narrow format is a number of the wide format whose low bits are zero, and whose excess bits are
exactly one half if it is normal in the narrow format. -/
theorem mid_code {F B : Fmt} (hW : Wider F B) {q : ℚ} (hq : F.IsMid q) :
    ∃ c, c ≤ B.infRep ∧ B.magVal ℚ c = q ∧ c % 2 ^ (B.s - F.s - 1) = 0 ∧
      (F.magVal ℚ (2 ^ F.s) ≤ q → c % 2 ^ (B.s - F.s) = 2 ^ (B.s - F.s - 1)) ∧
      (q < F.magVal ℚ (2 ^ F.s) → ∃ j : Nat, q = (2 * j + 1) * 2 ^ (-(F.bias : ℤ) - F.s)) := by
  obtain ⟨n, hn, hq⟩ := hq
  obtain ⟨E, m, h1, h2, h3, h4, h5, h6⟩ := F.decompQ n
  have hs := hW.hs; have hb := hW.hb; have hbb := hW.bias
  have hFb := F.pe_bias; have hBb := B.pe_bias
  have hpp := Nat.two_pow_pos F.s
  have hps := F.ps_succ
  have hFpe := F.pe_ge
  have hE : E ≤ 2 ^ F.e - 1 := by
    by_contra hc
    have : (2 ^ F.e - 1) * 2 ^ F.s ≤ (E - 1) * 2 ^ F.s := Nat.mul_le_mul_right _ (by omega)
    unfold infRep at hn; omega
  have hqv : q = ((2 * m + 1 : Nat) : ℚ) * 2 ^ ((E : ℤ) - F.bias - F.s - 1) := by
    have : 2 * q = ((2 * m + 1 : Nat) : ℚ) * 2 ^ ((E : ℤ) - F.bias - F.s) := by rw [hq, h5, h6]; push_cast; ring
    rw [zpow_sub₀ (by norm_num), zpow_one]; linarith
  have hmin := F.magVal_minNormal
  -- the bit length of the significand of the midpoint
  obtain ⟨L, hL⟩ : ∃ L, L = bitLen (2 * m + 1) := ⟨_, rfl⟩
  have hL1 : 2 * m + 1 < 2 ^ L := by rw [hL]; exact lt_two_pow_bitLen _
  have hL0 : 2 ^ (L - 1) ≤ 2 * m + 1 := by rw [hL]; exact two_pow_le_of_bitLen (by omega)
  have hLp : 0 < L := by rw [hL]; exact bitLen_pos (by omega)
  have hLs : L ≤ F.s + 2 := by
    rw [hL, bitLen_le_iff]
    have : 2 ^ (F.s + 2) = 2 * 2 ^ (F.s + 1) := Nat.pow_succ'
    omega
  have hBs' := B.hs'
  obtain ⟨j, hj⟩ : ∃ j, j = B.s + 1 - L := ⟨_, rfl⟩
  have hM0 : 2 ^ B.s ≤ (2 * m + 1) * 2 ^ j := by
    calc 2 ^ B.s = 2 ^ (L - 1) * 2 ^ j := by rw [← Nat.pow_add]; congr 1; omega
      _ ≤ _ := Nat.mul_le_mul_right _ hL0
  have hM1 : (2 * m + 1) * 2 ^ j < 2 ^ (B.s + 1) := by
    calc _ < 2 ^ L * 2 ^ j := Nat.mul_lt_mul_of_pos_right hL1 (Nat.two_pow_pos _)
      _ = 2 ^ (B.s + 1) := by rw [← Nat.pow_add]; congr 1; omega
  obtain ⟨E', hE'⟩ : ∃ E' : Nat, (E' : ℤ) - B.bias - B.s = (E : ℤ) - F.bias - F.s - 1 - j :=
    ⟨E + (B.bias - F.bias) + (B.s - F.s) - 1 - j, by omega⟩
  have hE1 : 1 ≤ E' := by omega
  have hE2 : E' + 1 < 2 ^ B.e := by
    omega
  have hval := B.magVal_at hE1 hM1.le (Or.inl hM0)
  refine ⟨(E' - 1) * 2 ^ B.s + (2 * m + 1) * 2 ^ j, ?_, ?_, ?_, ?_, ?_⟩
  · unfold infRep
    have : (E' + 1) * 2 ^ B.s ≤ (2 ^ B.e - 1) * 2 ^ B.s := Nat.mul_le_mul_right _ (by omega)
    have e : (E' + 1) * 2 ^ B.s = (E' - 1) * 2 ^ B.s + 2 * 2 ^ B.s := by rw [← Nat.add_mul]; congr 1; omega
    have := B.ps_succ
    omega
  · rw [hval, hqv, hE', zpow_sub₀ (by norm_num : (2 : ℚ) ≠ 0) (_ - 1) j, zpow_natCast]
    push_cast
    field_simp
  · have d1 : 2 ^ (B.s - F.s - 1) ∣ 2 ^ B.s := pow_dvd_pow 2 (by omega)
    have d2 : 2 ^ (B.s - F.s - 1) ∣ 2 ^ j := pow_dvd_pow 2 (by omega)
    exact Nat.mod_eq_zero_of_dvd (dvd_add (d1.mul_left _) (d2.mul_left _))
  · intro hle
    have hm : 2 ^ F.s ≤ m := by
      rcases h3 with h | h
      · exact h
      · by_contra hc
        rw [not_le] at hc
        have hc' : ((2 * m + 1 : Nat) : ℚ) < 2 * 2 ^ F.s := by exact_mod_cast (by omega : 2 * m + 1 < 2 * 2 ^ F.s)
        have hp : (0 : ℚ) < 2 ^ ((E : ℤ) - F.bias - F.s - 1) := by positivity
        have := mul_lt_mul_of_pos_right hc' hp
        rw [← hqv] at this
        rw [hmin, h] at *
        have e : (2 : ℚ) * 2 ^ F.s * 2 ^ (((1 : Nat) : ℤ) - F.bias - F.s - 1) = 2 ^ (1 - (F.bias : ℤ)) := by
          rw [show (2 : ℚ) * 2 ^ F.s = 2 ^ ((F.s : ℤ) + 1) by rw [zpow_add₀ (by norm_num), zpow_natCast, zpow_one]; ring,
            ← zpow_add₀ (by norm_num)]
          congr 1; push_cast; ring
        rw [e] at this
        linarith
    have hLeq : L = F.s + 2 := by
      have : 2 ^ (F.s + 1) < 2 ^ L := by omega
      have := (Nat.pow_lt_pow_iff_right (by norm_num : 1 < 2)).mp this
      omega
    have hjd : j = B.s - F.s - 1 := by omega
    rw [hjd]
    obtain ⟨d, hd⟩ : ∃ d, B.s - F.s = d + 1 := ⟨B.s - F.s - 1, by omega⟩
    rw [hd, Nat.add_sub_cancel]
    have d1 : 2 ^ (d + 1) ∣ (E' - 1) * 2 ^ B.s := (pow_dvd_pow 2 (by omega)).mul_left _
    obtain ⟨t, ht⟩ := d1
    rw [ht, show (2 * m + 1) * 2 ^ d = 2 ^ (d + 1) * m + 2 ^ d by rw [Nat.pow_succ]; ring, ← Nat.add_assoc, ← Nat.mul_add,
      Nat.mul_add_mod, Nat.mod_eq_of_lt]
    exact Nat.pow_lt_pow_right (by norm_num) (by omega)
  · intro hlt
    have hE1' : E = 1 := by
      rcases h3 with h | h
      · by_contra hc
        have : F.magVal ℚ (2 ^ F.s) ≤ F.magVal ℚ n := F.magVal_mono (by
          have : 1 * 2 ^ F.s ≤ (E - 1) * 2 ^ F.s := Nat.mul_le_mul_right _ (by omega)
          omega)
        have := F.magVal_mono (Nat.le_succ n)
        linarith
      · exact h
    refine ⟨m, ?_⟩
    rw [hqv, hE1']
    push_cast
    congr 2
    ring

end Fmt
end Verif
