import Verif.Libm.HypotCore
/-! # The rounding test of `hypot` -/
namespace Verif
/-- `f64` value as a real -/
local notation "V" => Fmt.valK f64 ℝ
/-- value of a magnitude pattern -/
local notation "γ" => Fmt.magVal f64 ℝ

namespace Hypot

theorem gv {E m : ℕ} (hE : 1 ≤ E) (hm : m ≤ 2 ^ 53) (h : 2 ^ 52 ≤ m ∨ E = 1) : γ ((E - 1) * 2 ^ 52 + m) = m * 2 ^ ((E : ℤ) - 1075) := by
  have := f64.magVal_at hE hm h
  rw [← f64.magVal_cast, s64] at *
  rw [this, b64]
  push_cast
  congr 2
  ring

/-- the distance to the next pattern -/
theorem gstep {n : ℕ} (h : 2 ^ 52 ≤ n) : γ (n + 1) = γ n + 2 ^ (((n / 2 ^ 52 : ℕ) : ℤ) - 1075) := by
  have hE : 1 ≤ n / 2 ^ 52 := by omega
  have h1 := gv (E := n / 2 ^ 52) (m := 2 ^ 52 + n % 2 ^ 52) hE (by omega) (by omega)
  have h2 := gv (E := n / 2 ^ 52) (m := 2 ^ 52 + n % 2 ^ 52 + 1) hE (by omega) (by omega)
  rw [show (n / 2 ^ 52 - 1) * 2 ^ 52 + (2 ^ 52 + n % 2 ^ 52) = n by omega] at h1
  rw [show (n / 2 ^ 52 - 1) * 2 ^ 52 + (2 ^ 52 + n % 2 ^ 52 + 1) = n + 1 by omega] at h2
  rw [h1, h2]
  push_cast
  ring

theorem g_lt {m n : ℕ} : γ m < γ n ↔ m < n := f64.magValR_lt_iff
theorem g_le {m n : ℕ} : γ m ≤ γ n ↔ m ≤ n := f64.magValR_le_iff

theorem g1 : γ (1023 * 2 ^ 52) = 1 := by
  have := gv (E := 1023) (m := 2 ^ 52) (by norm_num) (by norm_num) (by norm_num)
  rw [show (1023 - 1) * 2 ^ 52 + 2 ^ 52 = 1023 * 2 ^ 52 by norm_num] at this
  rw [this]; norm_num
theorem g2 : γ (1024 * 2 ^ 52) = 2 := by
  have := gv (E := 1024) (m := 2 ^ 52) (by norm_num) (by norm_num) (by norm_num)
  rw [show (1024 - 1) * 2 ^ 52 + 2 ^ 52 = 1024 * 2 ^ 52 by norm_num] at this
  rw [this]; norm_num
theorem g4 : γ (1025 * 2 ^ 52) = 4 := by
  have := gv (E := 1025) (m := 2 ^ 52) (by norm_num) (by norm_num) (by norm_num)
  rw [show (1025 - 1) * 2 ^ 52 + 2 ^ 52 = 1025 * 2 ^ 52 by norm_num] at this
  rw [this]; norm_num

theorem step0 {n : ℕ} (h1 : 1022 * 2 ^ 52 ≤ n) (h2 : n < 1023 * 2 ^ 52) : γ (n + 1) = γ n + U := by
  rw [gstep (by omega), show n / 2 ^ 52 = 1022 by omega, show ((1022 : ℕ) : ℤ) - 1075 = -53 by norm_num, zm53]
theorem step1 {n : ℕ} (h1 : 1023 * 2 ^ 52 ≤ n) (h2 : n < 1024 * 2 ^ 52) : γ (n + 1) = γ n + 2 * U := by
  rw [gstep (by omega), show n / 2 ^ 52 = 1023 by omega, show ((1023 : ℕ) : ℤ) - 1075 = -52 by norm_num, zm52]
theorem step2 {n : ℕ} (h1 : 1024 * 2 ^ 52 ≤ n) (h2 : n < 1025 * 2 ^ 52) : γ (n + 1) = γ n + 4 * U := by
  rw [gstep (by omega), show n / 2 ^ 52 = 1024 by omega, show ((1024 : ℕ) : ℤ) - 1075 = -51 by norm_num, zm51]

/-- `n` is a magnitude pattern nearest to `σ`, among those of values in `[1, 4]`; when `σ` is half-way between two, it is the even
one provided `ev` holds -/
def Br (ev : Prop) (σ : ℝ) (n : ℕ) : Prop :=
  ∃ c, 1023 * 2 ^ 52 ≤ c ∧ c + 1 ≤ 1025 * 2 ^ 52 ∧ γ c ≤ σ ∧ σ ≤ γ (c + 1) ∧
    ((2 * σ < γ c + γ (c + 1) ∧ n = c) ∨ (γ c + γ (c + 1) < 2 * σ ∧ n = c + 1) ∨
      (2 * σ = γ c + γ (c + 1) ∧ (n = c ∨ n = c + 1) ∧ (ev → n = c + c % 2)))

/-- where the rounding test of `hypot` is blind: just below the midpoint between the last number of a binade and the next power of
two. The approximation may round to that power of two although the exact value rounds down. -/
def Corner (σ : ℝ) : Prop := 2 - U - 15 * U ^ 2 ≤ σ ∧ σ < 2 - U

theorem notHard {th tl : BitVec f64.w} {E : ℕ} (hE : E = 1023 ∨ E = 1024) (ht : f64.mag th / 2 ^ 52 = E)
    (hl : |V tl| ≤ 2 ^ (E - 1023) * U) (hh : isHard th tl = false) : |V tl| ≤ 2 ^ (E - 1023) * (U - 17 * U ^ 2) := by
  have e1 : (tl &&& ~~~f64.signMask).toNat = f64.mag tl := f64.toNat_and_not_signMask tl
  have e2 : (th &&& f64.expMask).toNat = E * 2 ^ 52 := by
    rw [f64.toNat_and_expMask, s64, ht]
  have hU : γ (970 * 2 ^ 52) = U := by
    have := gv (E := 970) (m := 2 ^ 52) (by norm_num) (by norm_num) (by norm_num)
    rw [show (970 - 1) * 2 ^ 52 + 2 ^ 52 = 970 * 2 ^ 52 by norm_num] at this
    rw [this]; unfold U; norm_num
  have hU' : γ (970 * 2 ^ 52 - 17) = U - 17 * U ^ 2 := by
    have := gv (E := 969) (m := 2 ^ 53 - 17) (by norm_num) (by norm_num) (by norm_num)
    rw [show (969 - 1) * 2 ^ 52 + (2 ^ 53 - 17) = 970 * 2 ^ 52 - 17 by norm_num] at this
    rw [this]; unfold U; norm_num
  have hV : γ (971 * 2 ^ 52) = 2 * U := by
    have := gv (E := 971) (m := 2 ^ 52) (by norm_num) (by norm_num) (by norm_num)
    rw [show (971 - 1) * 2 ^ 52 + 2 ^ 52 = 971 * 2 ^ 52 by norm_num] at this
    rw [this]; unfold U; norm_num
  have hV' : γ (971 * 2 ^ 52 - 17) = 2 * (U - 17 * U ^ 2) := by
    have := gv (E := 970) (m := 2 ^ 53 - 17) (by norm_num) (by norm_num) (by norm_num)
    rw [show (970 - 1) * 2 ^ 52 + (2 ^ 53 - 17) = 971 * 2 ^ 52 - 17 by norm_num] at this
    rw [this]; unfold U; norm_num
  have hm : f64.mag tl < 2 ^ 63 := f64.mag_lt tl
  rw [f64.absvR] at hl ⊢
  unfold isHard at hh
  simp only [Bool.or_eq_false_iff, Bool.not_eq_false', Bool.and_eq_true, decide_eq_true_eq, decide_eq_false_iff_not] at hh
  obtain ⟨h1, h2, h3⟩ := hh
  generalize tl &&& ~~~f64.signMask = a at *
  generalize th &&& f64.expMask = b at *
  have hw : 2 ^ f64.w = 2 ^ 64 := rfl
  have eA : (a + (0x3fe#f64.w <<< 52) - b).toNat = (2 ^ 64 - E * 2 ^ 52 + (f64.mag tl + 1022 * 2 ^ 52) % 2 ^ 64) % 2 ^ 64 := by
    rw [BitVec.toNat_sub, BitVec.toNat_add, e1, e2, show (0x3fe#f64.w <<< 52).toNat = 1022 * 2 ^ 52 by decide]
    rfl
  generalize a + (0x3fe#f64.w <<< 52) - b = d at *
  have h1' : 32 ≤ (d - 0x3c90000000000000#f64.w + 16#f64.w).toNat := by
    by_contra hc
    apply h1
    apply BitVec.eq_of_toNat_eq
    rw [BitVec.toNat_ushiftRight, Nat.shiftRight_eq_div_pow]
    simp only [BitVec.toNat_zero]
    omega
  rw [BitVec.toNat_add, BitVec.toNat_sub, show (0x3c90000000000000#f64.w).toNat = 969 * 2 ^ 52 by decide, show (16#f64.w).toNat = 16 by decide] at h1'
  rw [BitVec.le_def, show (0x39b0000000000000#f64.w).toNat = 923 * 2 ^ 52 by decide] at h2
  rw [BitVec.le_def, show (0x3c9fffffffffff80#f64.w).toNat = 970 * 2 ^ 52 - 128 by decide] at h3
  simp only [hw] at h1'
  generalize d.toNat = D at *
  rcases hE with rfl | rfl
  · rw [show (2 : ℝ) ^ (1023 - 1023) = 1 by norm_num, one_mul] at hl ⊢
    rw [← hU, g_le] at hl
    rw [← hU', g_le]
    omega
  · rw [show (2 : ℝ) ^ (1024 - 1023) = 2 by norm_num] at hl ⊢
    rw [← hV, g_le] at hl
    rw [← hV', g_le]
    omega

/-- the result of the double-double computation is the correctly rounded one if it passes the test, except perhaps in a tiny interval
just below `2 - 2^-53` -/
theorem easy {th tl : BitVec f64.w} {σ : ℝ} (hr : f64.Rounds (V th + V tl) th)
    (h31 : |V th + V tl - σ| ≤ 31 * U ^ 2) (h15 : σ < 2 → |V th + V tl - σ| ≤ 15 * U ^ 2) (s1 : 1 ≤ σ) (s3 : σ < 2.9)
    (hh : isHard th tl = false) : (Br True σ (f64.mag th) ∨ (Corner σ ∧ f64.mag th = 1024 * 2 ^ 52)) ∧ f64.sign th = false := by
  have hU := U_pos
  have hUs' : U ≤ 1 / 100000 := U_le.trans (by norm_num)
  have hU2 : 0 < U ^ 2 := by positivity
  have hUU : U ^ 2 ≤ 1 / 100000 * U := by rw [pow_two]; exact mul_le_mul_of_nonneg_right hUs' hU.le
  obtain ⟨v1, v2⟩ := abs_le.mp h31
  set v := V th + V tl with hv
  have hv0 : 0 < v := by linarith
  have hsg : f64.sign th = false := by
    rw [Bool.eq_false_iff]; intro hc
    have := (hr.2 hv0.ne').mp hc
    linarith
  have hth : V th = γ (f64.mag th) := by
    have := f64.absvR th
    rw [← this, abs_of_nonneg]
    unfold Fmt.valK
    rw [hsg]
    rw [← f64.absvR]
    simp
  set n := f64.mag th with hn
  have hn1 : 1023 * 2 ^ 52 ≤ n := by
    by_contra hc
    rw [not_le] at hc
    have hle : n ≤ 1023 * 2 ^ 52 - 1 := by omega
    rw [← g_le] at hle
    have hst := step0 (n := 1023 * 2 ^ 52 - 1) (by norm_num) (by norm_num)
    rw [show 1023 * 2 ^ 52 - 1 + 1 = 1023 * 2 ^ 52 by norm_num, g1] at hst
    rcases le_or_gt 1 v with h | h
    · have : ((1 : ℕ) : ℝ) ≤ V th := geN (by norm_num) hr (by push_cast; exact h)
      push_cast at this
      linarith
    · have := hr.near f64 (g := 1) (by exact_mod_cast rpNat (n := 1) (by norm_num)) (big64 (k := 0) (by norm_num) (by norm_num))
      rw [abs_of_nonpos (show v - 1 ≤ 0 by linarith)] at this
      have := (abs_le.mp this).2
      linarith
  have hn2 : n < 1025 * 2 ^ 52 := by
    rw [← g_lt, g4, ← hth]
    have : V th ≤ ((3 : ℕ) : ℝ) := leN (by norm_num) hr (by push_cast; linarith)
    push_cast at this
    linarith
  have htl : V tl = v - V th := by rw [hv]; ring
  rcases lt_or_ge n (1024 * 2 ^ 52) with hE | hE
  · -- `[1, 2)`
    have ht2 : V th ≤ 2 - 2 * U := by
      have hst := step1 (n := 1024 * 2 ^ 52 - 1) (by norm_num) (by norm_num)
      rw [show 1024 * 2 ^ 52 - 1 + 1 = 1024 * 2 ^ 52 by norm_num, g2] at hst
      have : γ n ≤ γ (1024 * 2 ^ 52 - 1) := g_le.mpr (by omega)
      linarith
    have hv2 : v ≤ 2 := by
      by_contra hc
      have : ((2 : ℕ) : ℝ) ≤ V th := geN (by norm_num) hr (by push_cast; linarith)
      push_cast at this
      linarith
    have hl := err64 hr (k := 1) (by rw [abs_of_pos hv0]; norm_num; exact hv2) (by norm_num) (by norm_num)
    rw [show (1 : ℤ) - 54 = -53 by norm_num, zm53, abs_sub_comm, ← htl] at hl
    have hb := notHard (E := 1023) (Or.inl rfl) (th := th) (by rw [← hn]; omega) (by norm_num; exact hl) hh
    rw [show (2 : ℝ) ^ (1023 - 1023) = 1 by norm_num, one_mul] at hb
    obtain ⟨b1, b2⟩ := abs_le.mp hb
    have hs2 : σ < 2 := by linarith
    obtain ⟨w1, w2⟩ := abs_le.mp (h15 hs2)
    refine ⟨Or.inl ?_, hsg⟩
    rcases le_or_gt (γ n) σ with hc | hc
    · have hst := step1 (n := n) hn1 hE
      exact ⟨n, hn1, by omega, hc, by linarith, Or.inl ⟨by linarith, rfl⟩⟩
    · have hne : n ≠ 1023 * 2 ^ 52 := by rintro h; rw [h, g1] at hc; linarith
      have hst := step1 (n := n - 1) (by omega) (by omega)
      rw [show n - 1 + 1 = n by omega] at hst
      refine ⟨n - 1, by omega, by omega, by linarith, ?_, Or.inr (Or.inl ⟨?_, by omega⟩)⟩ <;> rw [show n - 1 + 1 = n by omega] <;> linarith
  · have hl := err64 hr (k := 2) (by rw [abs_of_pos hv0]; norm_num; linarith) (by norm_num) (by norm_num)
    rw [show (2 : ℤ) - 54 = -52 by norm_num, zm52, abs_sub_comm, ← htl] at hl
    have hb := notHard (E := 1024) (Or.inr rfl) (th := th) (by rw [← hn]; omega) (by norm_num; exact hl) hh
    rw [show (2 : ℝ) ^ (1024 - 1023) = 2 by norm_num] at hb
    obtain ⟨b1, b2⟩ := abs_le.mp hb
    refine ⟨?_, hsg⟩
    rcases le_or_gt (γ n) σ with hc | hc
    · have hst := step2 (n := n) hE hn2
      exact Or.inl ⟨n, hn1, by omega, hc, by linarith, Or.inl ⟨by linarith, rfl⟩⟩
    · by_cases hne : n = 1024 * 2 ^ 52
      · have hst := step1 (n := 1024 * 2 ^ 52 - 1) (by norm_num) (by norm_num)
        rw [show 1024 * 2 ^ 52 - 1 + 1 = 1024 * 2 ^ 52 by norm_num, g2] at hst
        rw [hne, g2] at hc
        rw [hne, g2] at hth
        obtain ⟨w1, w2⟩ := abs_le.mp (h15 hc)
        have hv2 : 2 - U ≤ v := by
          have hrp : f64.Rp (2 - 2 * U) := by
            have : γ (1024 * 2 ^ 52 - 1) = 2 - 2 * U := by linarith
            rw [← this]
            exact ⟨_, abs_of_nonneg (by rw [this]; linarith)⟩
          have := hr.near f64 hrp (big64 (k := 1) (by rw [abs_of_pos (by linarith)]; norm_num; linarith) (by norm_num))
          rw [hth] at this
          by_contra hcc
          rw [not_le] at hcc
          rw [abs_of_neg (by linarith)] at this
          rcases le_total 0 (v - (2 - 2 * U)) with h | h
          · rw [abs_of_nonneg h] at this; linarith
          · rw [abs_of_nonpos h] at this; linarith
        rcases lt_or_ge σ (2 - U) with hσ | hσ
        · exact Or.inr ⟨⟨by linarith, hσ⟩, hne⟩
        refine Or.inl ⟨1024 * 2 ^ 52 - 1, by norm_num, by norm_num, by linarith, ?_, ?_⟩
        · rw [show 1024 * 2 ^ 52 - 1 + 1 = 1024 * 2 ^ 52 by norm_num, g2]; exact hc.le
        · rw [show 1024 * 2 ^ 52 - 1 + 1 = 1024 * 2 ^ 52 by norm_num, g2]
          rcases hσ.lt_or_eq with h | h
          · exact Or.inr (Or.inl ⟨by linarith, hne⟩)
          · exact Or.inr (Or.inr ⟨by linarith, Or.inr hne, fun _ => by omega⟩)
      · have hst := step2 (n := n - 1) (by omega) (by omega)
        rw [show n - 1 + 1 = n by omega] at hst
        refine Or.inl ⟨n - 1, by omega, by omega, by linarith, ?_, Or.inr (Or.inl ⟨?_, by omega⟩)⟩ <;> rw [show n - 1 + 1 = n by omega] <;> linarith

end Hypot
end Verif
