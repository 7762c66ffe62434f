import Verif.Libm.AsinRat
import Verif.Libm.GFvSign
import Verif.Props.LibmSqrt
/-! # The square root and its upper half in `asin` and `acos` -/
namespace Verif
open Fmt Poly
namespace Asin

theorem sqrt_rounds {F : Fmt} {z s : BitVec F.w} {Z : ℝ} {st : Status} (hz : GFv F z Z) (h0 : 0 < Z) (h : Props.SqrtSpec F z s st) :
    F.Rounds (Real.sqrt Z) s := by
  have hv := hz.valQ
  have h1 : 0 ≤ F.val z := by
    have : (0 : ℝ) ≤ ((F.val z : ℚ) : ℝ) := by rw [hv]; exact h0.le
    exact_mod_cast this
  obtain ⟨a, b, -⟩ := h.1 hz.fin h1
  rw [hv] at a
  have hs0 := Real.sqrt_nonneg Z
  refine ⟨by rw [abs_of_nonneg hs0]; exact a, fun _ => ?_⟩
  rw [b, hz.sign_of_pos h0]
  constructor
  · intro h; exact absurd h (by simp)
  · intro h; linarith

theorem sqrt64 (N : FPU f64) {z : BitVec f64.w} {Z : ℝ} (hz : GFv f64 z Z) (h0 : 0 < Z) : ∃ s, sqrtD N z = .ok s ∧ f64.Rounds (Real.sqrt Z) s := by
  obtain ⟨r, st, e, h⟩ := Props.C43_sqrt N z
  refine ⟨r, ?_, sqrt_rounds hz h0 h⟩
  unfold sqrtD; rw [e]; rfl

theorem sqrt32 (N : FPU f32) {z : BitVec f32.w} {Z : ℝ} (hz : GFv f32 z Z) (h0 : 0 < Z) : ∃ s, F32.sqrtS N z = .ok s ∧ f32.Rounds (Real.sqrt Z) s := by
  obtain ⟨r, st, e, h⟩ := Props.C43_sqrtf N z
  refine ⟨r, ?_, sqrt_rounds hz h0 h⟩
  unfold F32.sqrtS; rw [e]; rfl

/-- a positive number with the lowest `c` bits cleared -/
theorem clear_fv {F : Fmt} {b b' : BitVec F.w} {v : ℝ} (h : GFv F b v) {c : ℕ} (hc : c ≤ F.s) (hm : F.mag b' = F.mag b / 2 ^ c * 2 ^ c)
    (hs : F.sign b' = F.sign b) {k : ℤ} (hk : 2 ^ k ≤ v) (hk' : 1 - (F.bias : ℤ) ≤ k) :
    ∃ v0 : ℝ, ∃ j : ℤ, GFv F b' v0 ∧ 0 < v0 ∧ v0 ≤ v ∧ v - v0 ≤ 1 / 2 ^ (F.s - c) * v ∧ Mul2 j v0 ∧ k + c - F.s ≤ j ∧ v0 ≤ 2 ^ (j + F.s + 1 - c) := by
  obtain ⟨d, hd⟩ : ∃ d, F.s = c + d := ⟨F.s - c, by omega⟩
  have hv0 : 0 < v := lt_of_lt_of_le (by positivity) hk
  have hsb := h.sign_of_pos hv0
  obtain ⟨m, hmm⟩ : ∃ m, m = F.mag b := ⟨_, rfl⟩
  rw [← hmm] at hm
  have hc0 : 0 < 2 ^ c := Nat.two_pow_pos c
  have hd0 : 0 < 2 ^ d := Nat.two_pow_pos d
  have hps : 2 ^ F.s = 2 ^ c * 2 ^ d := by rw [hd, pow_add]
  have hfin : F.IsFin b' := by
    have h1 : F.mag b < F.infRep := h.fin
    show F.mag b' < F.infRep
    rw [hm]
    have := Nat.div_mul_le_self m (2 ^ c)
    omega
  have hav : v = F.magVal ℝ m := by rw [hmm, ← h.abs_eq, abs_of_pos hv0]
  have hE : m / 2 ^ F.s ≠ 0 := by
    intro h0
    have h1 : m < 1 * 2 ^ F.s := by
      have := Nat.div_eq_zero_iff.mp h0
      rcases this with h | h
      · exact absurd h (Nat.two_pow_pos _).ne'
      · omega
    have h2 := F.magValR_lt_iff.mpr h1
    have h4 : F.magVal ℝ (1 * 2 ^ F.s) = 2 ^ (1 - (F.bias : ℤ)) := by
      rw [← F.magVal_cast, F.magVal_ex (by rw [Nat.mul_div_cancel _ (Nat.two_pow_pos _)]; norm_num), Nat.mul_div_cancel _ (Nat.two_pow_pos _), Nat.mul_mod_left]
      push_cast
      rw [show (1 : ℤ) - F.bias = F.s + (1 - F.bias - F.s) by ring, zpow_add₀ (by norm_num), zpow_natCast]
      norm_num
    rw [h4, ← hav] at h2
    have h3 : (2 : ℝ) ^ (1 - (F.bias : ℤ)) ≤ 2 ^ k := zpow_le_zpow_right₀ (by norm_num) hk'
    exact absurd (hk.trans_lt h2) (not_lt.mpr h3)
  obtain ⟨E, hEd⟩ : ∃ E, E = m / 2 ^ F.s := ⟨_, rfl⟩
  obtain ⟨f, hf⟩ : ∃ f, f = m % 2 ^ F.s := ⟨_, rfl⟩
  obtain ⟨g, hg⟩ : ∃ g, g = f / 2 ^ c := ⟨_, rfl⟩
  obtain ⟨l, hl⟩ : ∃ l, l = f % 2 ^ c := ⟨_, rfl⟩
  have hfl : f = 2 ^ c * g + l := by rw [hg, hl]; exact (Nat.div_add_mod f (2 ^ c)).symm
  have hll : l < 2 ^ c := by rw [hl]; exact Nat.mod_lt _ hc0
  have hmE : m = 2 ^ c * (2 ^ d * E) + f := by
    rw [← mul_assoc, ← hps, hEd, hf]; exact (Nat.div_add_mod m _).symm
  have hfs : f < 2 ^ c * 2 ^ d := by rw [← hps, hf]; exact Nat.mod_lt _ (Nat.two_pow_pos _)
  have hgd : g < 2 ^ d := by rw [hg]; exact Nat.div_lt_of_lt_mul hfs
  have hmc : m / 2 ^ c = 2 ^ d * E + g := by
    rw [hmE, hfl, ← add_assoc, ← mul_add, Nat.mul_add_div hc0, Nat.div_eq_of_lt hll]; ring
  have e1 : F.magVal ℝ m = ((2 ^ F.s + f : ℕ) : ℝ) * 2 ^ ((E : ℤ) - F.bias - F.s) := by
    rw [← F.magVal_cast, F.magVal_ex (n := m) hE, ← hEd, ← hf]
    push_cast; ring
  have e2 : F.magVal ℝ (m / 2 ^ c * 2 ^ c) = ((2 ^ d + g : ℕ) : ℝ) * 2 ^ ((E : ℤ) - F.bias - F.s + c) := by
    have q : m / 2 ^ c * 2 ^ c = 2 ^ F.s * E + g * 2 ^ c := by rw [hmc, hps]; ring
    have hlt : g * 2 ^ c < 2 ^ F.s := by rw [hps, mul_comm]; exact Nat.mul_lt_mul_of_pos_left hgd hc0
    have hd' : m / 2 ^ c * 2 ^ c / 2 ^ F.s = E := by rw [q, Nat.mul_add_div (Nat.two_pow_pos _), Nat.div_eq_of_lt hlt, add_zero]
    have hmo : m / 2 ^ c * 2 ^ c % 2 ^ F.s = g * 2 ^ c := by rw [q, Nat.mul_add_mod, Nat.mod_eq_of_lt hlt]
    rw [← F.magVal_cast, F.magVal_ex (n := m / 2 ^ c * 2 ^ c) (by rw [hd', hEd]; exact hE), hd', hmo, zpow_add₀ (by norm_num) _ (c : ℤ), zpow_natCast, hps]
    push_cast; ring
  have e3 : F.magVal ℝ m = F.magVal ℝ (m / 2 ^ c * 2 ^ c) + (l : ℝ) * 2 ^ ((E : ℤ) - F.bias - F.s) := by
    rw [e1, e2, hfl, zpow_add₀ (by norm_num) _ (c : ℤ), zpow_natCast, hps]
    push_cast; ring
  have hp : (0 : ℝ) < 2 ^ ((E : ℤ) - F.bias - F.s) := by positivity
  have hg0 : (0 : ℝ) ≤ (l : ℝ) * 2 ^ ((E : ℤ) - F.bias - F.s) := by positivity
  have hkE : k ≤ (E : ℤ) - F.bias := by
    have : (2 : ℝ) ^ k < 2 ^ ((E : ℤ) - F.bias + 1) := by
      refine lt_of_le_of_lt hk ?_
      rw [hav, e1, show (E : ℤ) - F.bias + 1 = (F.s + 1 : ℕ) + ((E : ℤ) - F.bias - F.s) by push_cast; ring, zpow_add₀ (by norm_num) (((F.s + 1 : ℕ)) : ℤ), zpow_natCast]
      refine mul_lt_mul_of_pos_right ?_ hp
      have : 2 ^ F.s + f < 2 ^ (F.s + 1) := by rw [pow_succ]; rw [hps]; omega
      exact_mod_cast this
    have := (zpow_lt_zpow_iff_right₀ (by norm_num : (1 : ℝ) < 2)).mp this
    omega
  have hval : F.valK ℝ b' = F.magVal ℝ (m / 2 ^ c * 2 ^ c) := by
    have := (GFv.self hfin).eq_sign
    rw [this, hs, hsb, hm]; simp
  refine ⟨_, (E : ℤ) - F.bias - F.s + c, ⟨hfin, rfl⟩, ?_, ?_, ?_, ?_, ?_, ?_⟩
  · rw [hval, e2]; positivity
  · rw [hval, hav, e3]; linarith
  · rw [hval, hav, e3, add_sub_cancel_left, ← e3, e1, show F.s - c = d by omega]
    have hl2 : (l : ℝ) ≤ 1 / 2 ^ d * ((2 ^ F.s + f : ℕ) : ℝ) := by
      have h1 : (l : ℝ) ≤ 2 ^ c := by exact_mod_cast hll.le
      push_cast
      have h2 : (2 : ℝ) ^ F.s = 2 ^ c * 2 ^ d := by rw [hd, pow_add]
      rw [h2]
      have h3 : 1 / 2 ^ d * ((2 : ℝ) ^ c * 2 ^ d + f) = 2 ^ c + f / 2 ^ d := by field_simp
      rw [h3]
      have : (0 : ℝ) ≤ (f : ℝ) / 2 ^ d := by positivity
      linarith
    calc _ ≤ 1 / 2 ^ d * ((2 ^ F.s + f : ℕ) : ℝ) * 2 ^ ((E : ℤ) - F.bias - F.s) := mul_le_mul_of_nonneg_right hl2 hp.le
      _ = _ := by ring
  · rw [hval, e2]; exact ⟨((2 ^ d + g : ℕ) : ℤ), by push_cast; ring⟩
  · omega
  · rw [hval, e2, show (E : ℤ) - F.bias - F.s + c + F.s + 1 - c = (d + 1 : ℕ) + ((E : ℤ) - F.bias - F.s + c) by rw [show (F.s : ℤ) = c + d by exact_mod_cast hd]; push_cast; ring,
      zpow_add₀ (by norm_num) (((d + 1 : ℕ)) : ℤ), zpow_natCast]
    refine mul_le_mul_of_nonneg_right ?_ (by positivity)
    have : 2 ^ d + g ≤ 2 ^ (d + 1) := by rw [pow_succ]; omega
    exact_mod_cast this

/-- the square of such a number is exact if at least half of the bits are cleared -/
theorem sq_exact {F : Fmt} (hF : F.Big) (N : FPU F) {b : BitVec F.w} {v : ℝ} (h : GFv F b v) (h0 : 0 < v) {j : ℤ} {c : ℕ} (hj : Mul2 j v)
    (hv : v ≤ 2 ^ (j + F.s + 1 - c)) (hc : F.s + 1 ≤ 2 * c) (hj2 : 1 - (F.bias : ℤ) - F.s ≤ j + j) (h1 : v ≤ 1) : GFv F (N.mul b b) (v * v) := by
  refine GFv.of_rounds hF (h.mulR N h) (hj.mul hj) ?_ hj2 ?_
  · rw [abs_of_nonneg (by positivity)]
    calc v * v ≤ 2 ^ (j + F.s + 1 - c) * 2 ^ (j + F.s + 1 - c) := mul_le_mul hv hv h0.le (by positivity)
      _ = (2 : ℝ) ^ ((j + F.s + 1 - c) + (j + F.s + 1 - c)) := by rw [zpow_add₀ (by norm_num)]
      _ ≤ _ := zpow_le_zpow_right₀ (by norm_num) (by omega)
  · rw [abs_of_nonneg (by positivity)]
    have : v * v ≤ 1 := by nlinarith
    exact this.trans (by norm_num)

/-- doubling is exact -/
theorem dbl {F : Fmt} (hF : F.Big) (N : FPU F) {two b : BitVec F.w} {v : ℝ} (h2 : GFv F two 2) (h : GFv F b v) (hv : |v| ≤ 2 ^ (99 : ℤ)) : GFv F (N.mul two b) (2 * v) := by
  obtain ⟨m, j, e, hm, hj, -⟩ := F.val_dec b
  rw [h.val] at e
  have h9 : |2 * v| ≤ 2 ^ (100 : ℤ) := by
    rw [abs_mul, abs_of_pos (by norm_num : (0 : ℝ) < 2)]
    calc 2 * |v| ≤ 2 * 2 ^ (99 : ℤ) := by linarith
      _ = _ := by norm_num
  have h127 := hF.bias
  have hr : F.Rp (2 * v) := F.rp_of (m := m) (j := j + 1) (by rw [e, zpow_add₀ (by norm_num)]; ring) hm.le (by omega)
  have := h2.mulR N h
  exact ⟨this.fin100 hF h9, this.exactR F hr (h9.trans (zpow_le_zpow_right₀ (by norm_num) (by omega)))⟩
end Asin
end Verif
