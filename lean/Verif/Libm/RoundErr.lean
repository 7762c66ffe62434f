import Verif.Libm.FmaWideProofs
import Mathlib.Data.Real.Basic
import Mathlib.Algebra.Order.Round
import Mathlib.Algebra.Order.Archimedean.Real.Basic
/-!
# Rounding errors over the reals

`F.valK ℝ b` is the value of a pattern as a real number. `Rp F v` says that `v` is a number of the format (of either sign).
-/
namespace Verif
namespace Fmt
variable (F : Fmt)

theorem magVal_cast (n : Nat) : ((F.magVal ℚ n : ℚ) : ℝ) = F.magVal ℝ n := by
  unfold magVal; split <;> push_cast <;> rfl

theorem valK_cast (b : BitVec F.w) : ((F.val b : ℚ) : ℝ) = F.valK ℝ b := by
  unfold val valK; rw [← F.magVal_cast]; split <;> push_cast <;> rfl

theorem IsRNE.cast {v : ℚ} {n : Nat} (h : F.IsRNE v n) : F.IsRNE (v : ℝ) n := by
  refine ⟨h.1, fun m hm => ?_⟩
  rw [← F.magVal_cast, ← F.magVal_cast]
  obtain ⟨h1, h2⟩ := h.2 m hm
  constructor
  · exact_mod_cast h1
  · intro h'
    exact h2 (by exact_mod_cast h')

theorem Rounds.cast {v : ℚ} {r : BitVec F.w} (h : F.Rounds v r) : F.Rounds (v : ℝ) r := by
  refine ⟨?_, fun h0 => ?_⟩
  · have := IsRNE.cast F h.1
    rwa [Rat.cast_abs] at this
  · rw [h.2 (by exact_mod_cast h0)]; exact_mod_cast Iff.rfl

theorem absvR (b : BitVec F.w) : |F.valK ℝ b| = F.magVal ℝ (F.mag b) := by
  rw [← F.valK_cast, ← Rat.cast_abs, F.absv, F.magVal_cast]

/-- `v` is (up to overflow) a number of the format -/
def Rp (v : ℝ) : Prop := ∃ c : Nat, |v| = F.magVal ℝ c

theorem magValR_lt_iff {m n : Nat} : F.magVal ℝ m < F.magVal ℝ n ↔ m < n := by
  rw [← F.magVal_cast, ← F.magVal_cast, Rat.cast_lt, F.magVal_lt_iff]
theorem magValR_le_iff {m n : Nat} : F.magVal ℝ m ≤ F.magVal ℝ n ↔ m ≤ n := by
  rw [← not_lt, F.magValR_lt_iff, not_lt]
theorem magValR_infRep : F.magVal ℝ F.infRep = 2 ^ ((F.bias : ℤ) + 1) := by
  rw [← F.magVal_cast, F.magVal_infRep]; push_cast; rfl

theorem rp_val (b : BitVec F.w) : F.Rp (F.valK ℝ b) := ⟨F.mag b, F.absvR b⟩
theorem Rp.neg {v : ℝ} (h : F.Rp v) : F.Rp (-v) := by obtain ⟨c, h⟩ := h; exact ⟨c, by rw [abs_neg, h]⟩

/-- dyadic numbers with few digits are numbers of the format -/
theorem rp_of {v : ℝ} {m j : ℤ} (hv : v = m * 2 ^ j) (hm : |m| ≤ 2 ^ (F.s + 1)) (hj : 1 - (F.bias : ℤ) - F.s ≤ j) : F.Rp v := by
  obtain ⟨n, h1, _⟩ := F.exists_repr (j + F.bias + F.s).toNat (by omega) m.natAbs (by
    have : ((m.natAbs : ℕ) : ℤ) ≤ ((2 ^ (F.s + 1) : ℕ) : ℤ) := by rw [Int.natCast_natAbs]; exact_mod_cast hm
    exact_mod_cast this)
  refine ⟨n, ?_⟩
  rw [← F.magVal_cast, h1, hv, abs_mul, abs_of_pos (show (0 : ℝ) < 2 ^ j by positivity)]
  push_cast
  rw [show ((j + F.bias + F.s).toNat : ℤ) - F.bias - F.s = j by omega]
  congr 1
  rw [← Int.cast_abs, ← Int.natCast_natAbs, Int.cast_natCast]

theorem rp_zero : F.Rp 0 := ⟨0, by rw [← F.magVal_cast, F.magVal_zero]; simp⟩

/-- nothing representable is nearer -/
theorem Rounds.near {v : ℝ} {r : BitVec F.w} (h : F.Rounds v r) {g : ℝ} (hg : F.Rp g) (hgb : |g| ≤ 2 ^ ((F.bias : ℤ) + 1)) :
    |v - F.valK ℝ r| ≤ |v - g| := by
  obtain ⟨c, hc⟩ := hg
  have hci : c ≤ F.infRep := by rw [← F.magValR_le_iff, F.magValR_infRep, ← hc]; exact hgb
  have h1 := (h.1.2 c hci).1
  rw [← hc] at h1
  have h2 : |v - F.valK ℝ r| = |(|v| - F.magVal ℝ (F.mag r))| := by
    by_cases h0 : v = 0
    · rw [h0, zero_sub, abs_neg, F.absvR, abs_zero, zero_sub, abs_neg, abs_of_nonneg (F.magVal_nonneg ℝ _)]
    · have hs := h.2 h0
      rw [← F.valK_cast, F.val_sign, ← F.magVal_cast]
      by_cases hn : v < 0
      · rw [if_pos (hs.mpr hn), abs_of_neg hn, ← abs_neg]; congr 1; push_cast; ring
      · rw [if_neg (fun h => hn (hs.mp h)), abs_of_nonneg (not_lt.mp hn)]; congr 1; push_cast; ring
  rw [h2]
  exact h1.trans (abs_abs_sub_abs_le_abs_sub v g)

theorem Rounds.exactR {v : ℝ} {r : BitVec F.w} (h : F.Rounds v r) (hv : F.Rp v) (hb : |v| ≤ 2 ^ ((F.bias : ℤ) + 1)) :
    F.valK ℝ r = v := by
  have := h.near F hv hb
  rw [sub_self, abs_zero] at this
  have := abs_nonpos_iff.mp this
  linarith

theorem Rounds.le_of {v g : ℝ} {r : BitVec F.w} (h : F.Rounds v r) (hg : F.Rp g) (hgb : |g| ≤ 2 ^ ((F.bias : ℤ) + 1))
    (hv : v ≤ g) : F.valK ℝ r ≤ g := by
  have := h.near F hg hgb
  by_contra hc
  rw [not_le] at hc
  rw [abs_of_neg (by linarith), abs_of_nonpos (by linarith)] at this
  linarith

theorem Rounds.ge_of {v g : ℝ} {r : BitVec F.w} (h : F.Rounds v r) (hg : F.Rp g) (hgb : |g| ≤ 2 ^ ((F.bias : ℤ) + 1))
    (hv : g ≤ v) : g ≤ F.valK ℝ r := by
  have := h.near F hg hgb
  by_contra hc
  rw [not_le] at hc
  rw [abs_of_pos (by linarith), abs_of_nonneg (by linarith)] at this
  linarith

theorem rp_pow {j : ℤ} (hj : 1 - (F.bias : ℤ) - F.s ≤ j) : F.Rp (2 ^ j) :=
  F.rp_of (m := 1) (j := j) (by simp) (by
    have : (1 : ℤ) ≤ 2 ^ (F.s + 1) := one_le_pow₀ (by norm_num)
    simpa using this) hj

/-- absolute error: half a unit in the last place of the binade below `2^k` -/
theorem Rounds.err {v : ℝ} {r : BitVec F.w} (h : F.Rounds v r) {k : ℤ} (hv : |v| ≤ 2 ^ k) (hk : 2 - (F.bias : ℤ) ≤ k)
    (hk' : k ≤ F.bias + 1) : |F.valK ℝ r - v| ≤ 2 ^ (k - F.s - 2) := by
  have hp : (0 : ℝ) < 2 ^ (k - F.s - 1) := by positivity
  have hpe : (2 : ℝ) ^ (k - F.s - 1) = 2 * 2 ^ (k - F.s - 2) := by
    rw [← zpow_one_add₀ (by norm_num)]; congr 1; ring
  have hk2 : (2 : ℝ) ^ k = 2 ^ (F.s + 1) * 2 ^ (k - F.s - 1) := by
    rw [← zpow_natCast, ← zpow_add₀ (by norm_num)]; congr 1; push_cast; ring
  set m := _root_.round (v / 2 ^ (k - F.s - 1)) with hm
  have h1 := abs_sub_round (v / 2 ^ (k - F.s - 1))
  rw [← hm] at h1
  have hmb : |m| ≤ 2 ^ (F.s + 1) := by
    have h2 : |v / 2 ^ (k - F.s - 1)| ≤ 2 ^ (F.s + 1) := by
      rw [abs_div, abs_of_pos hp, div_le_iff₀ hp, ← hk2]; exact hv
    have h3 : |(m : ℝ)| ≤ |v / 2 ^ (k - F.s - 1)| + 1 / 2 := by
      have := abs_sub_abs_le_abs_sub (m : ℝ) (v / 2 ^ (k - F.s - 1))
      rw [abs_sub_comm] at this
      linarith
    have h4 : |(m : ℝ)| < ((2 ^ (F.s + 1) + 1 : ℤ) : ℝ) := by push_cast; linarith
    rw [← Int.cast_abs, Int.cast_lt] at h4
    omega
  have hrp := F.rp_of (v := m * 2 ^ (k - F.s - 1)) rfl hmb (by omega)
  have hb : |(m : ℝ) * 2 ^ (k - F.s - 1)| ≤ 2 ^ ((F.bias : ℤ) + 1) := by
    rw [abs_mul, abs_of_pos hp]
    calc |(m : ℝ)| * 2 ^ (k - F.s - 1) ≤ 2 ^ (F.s + 1) * 2 ^ (k - F.s - 1) :=
          mul_le_mul_of_nonneg_right (by exact_mod_cast hmb) hp.le
      _ = 2 ^ k := hk2.symm
      _ ≤ _ := zpow_le_zpow_right₀ (by norm_num) hk'
  have h5 := h.near F hrp hb
  rw [abs_sub_comm] at h5
  refine h5.trans ?_
  have h6 : v - m * 2 ^ (k - F.s - 1) = (v / 2 ^ (k - F.s - 1) - m) * 2 ^ (k - F.s - 1) := by field_simp
  rw [h6, abs_mul, abs_of_pos hp]
  calc _ ≤ 1 / 2 * (2 : ℝ) ^ (k - F.s - 1) := mul_le_mul_of_nonneg_right h1 hp.le
    _ = _ := by rw [hpe]; ring

/-- relative error in the normal range -/
theorem Rounds.rel {v : ℝ} {r : BitVec F.w} (h : F.Rounds v r) (hv0 : 2 ^ (1 - (F.bias : ℤ)) ≤ |v|) (hv : |v| ≤ 2 ^ (F.bias : ℤ)) :
    |F.valK ℝ r - v| ≤ 2 ^ (-(F.s : ℤ) - 1) * |v| := by
  have hpos : 0 < |v| := lt_of_lt_of_le (by positivity) hv0
  obtain ⟨k, hk1, hk2⟩ := exists_mem_Ico_zpow hpos (show (1 : ℝ) < 2 by norm_num)
  have hkl : 1 - (F.bias : ℤ) < k + 1 := by
    have := lt_of_le_of_lt hv0 hk2
    rwa [zpow_lt_zpow_iff_right₀ (by norm_num)] at this
  have hku : k ≤ F.bias := by
    have := le_trans hk1 hv
    rwa [zpow_le_zpow_iff_right₀ (by norm_num)] at this
  have := h.err F hk2.le (by omega) (by omega)
  refine this.trans ?_
  calc (2 : ℝ) ^ (k + 1 - F.s - 2) = 2 ^ (-(F.s : ℤ) - 1) * 2 ^ k := by
        rw [← zpow_add₀ (by norm_num)]; congr 1; ring
    _ ≤ _ := mul_le_mul_of_nonneg_left hk1 (by positivity)

/-- every finite pattern is a dyadic number -/
theorem val_dec (b : BitVec F.w) : ∃ m j : ℤ, F.valK ℝ b = m * 2 ^ j ∧ |m| < 2 ^ (F.s + 1) ∧ 1 - (F.bias : ℤ) - F.s ≤ j ∧
    (2 ^ F.s ≤ |m| ∨ j = 1 - (F.bias : ℤ) - F.s) := by
  obtain ⟨E, m, h1, h2, h3, h4, h5, _⟩ := F.decompQ (F.mag b)
  have hv := F.val_sign b
  rw [h5] at hv
  have hmi : ∀ t : ℤ, |t| = m → |t| < 2 ^ (F.s + 1) ∧ (2 ^ F.s ≤ |t| ∨ (E : ℤ) - F.bias - F.s = 1 - (F.bias : ℤ) - F.s) := by
    intro t ht
    rw [ht]
    refine ⟨by exact_mod_cast h2, ?_⟩
    rcases h3 with h | h
    · left; exact_mod_cast h
    · right; rw [h]; rfl
  refine ⟨(if F.sign b then -m else m), (E : ℤ) - F.bias - F.s, ?_, ?_, by omega, ?_⟩
  · rw [← F.valK_cast, hv]; split <;> push_cast <;> ring
  · exact (hmi _ (by split <;> simp)).1
  · exact (hmi _ (by split <;> simp)).2

/-- `v` is an integral multiple of `2^j` -/
def Mul2 (j : ℤ) (v : ℝ) : Prop := ∃ m : ℤ, v = m * 2 ^ j

theorem Mul2.mono {i j : ℤ} {v : ℝ} (h : Mul2 j v) (hij : i ≤ j) : Mul2 i v := by
  obtain ⟨m, hm⟩ := h
  refine ⟨m * 2 ^ (j - i).toNat, ?_⟩
  rw [hm]
  push_cast
  rw [mul_assoc, ← zpow_natCast, ← zpow_add₀ (by norm_num)]
  congr 2; omega

theorem Mul2.add {j : ℤ} {v w : ℝ} (h : Mul2 j v) (h' : Mul2 j w) : Mul2 j (v + w) := by
  obtain ⟨a, rfl⟩ := h; obtain ⟨b, rfl⟩ := h'; exact ⟨a + b, by push_cast; ring⟩
theorem Mul2.neg {j : ℤ} {v : ℝ} (h : Mul2 j v) : Mul2 j (-v) := by
  obtain ⟨a, rfl⟩ := h; exact ⟨-a, by push_cast; ring⟩
theorem Mul2.sub {j : ℤ} {v w : ℝ} (h : Mul2 j v) (h' : Mul2 j w) : Mul2 j (v - w) := by
  rw [sub_eq_add_neg]; exact h.add h'.neg
theorem Mul2.mul {i j : ℤ} {v w : ℝ} (h : Mul2 i v) (h' : Mul2 j w) : Mul2 (i + j) (v * w) := by
  obtain ⟨a, rfl⟩ := h; obtain ⟨b, rfl⟩ := h'
  exact ⟨a * b, by rw [zpow_add₀ (by norm_num)]; push_cast; ring⟩

theorem Mul2.rp {j : ℤ} {v : ℝ} (h : Mul2 j v) (hv : |v| ≤ 2 ^ (j + F.s + 1)) (hj : 1 - (F.bias : ℤ) - F.s ≤ j) : F.Rp v := by
  obtain ⟨m, hm⟩ := h
  refine F.rp_of hm ?_ hj
  have hp : (0 : ℝ) < 2 ^ j := by positivity
  rw [hm, abs_mul, abs_of_pos hp, show j + F.s + 1 = ((F.s + 1 : ℕ) : ℤ) + j by push_cast; ring, zpow_add₀ (by norm_num),
    mul_le_mul_iff_left₀ hp, zpow_natCast] at hv
  exact_mod_cast hv

/-- rounding keeps a number on the grid -/
theorem Rounds.grid {v : ℝ} {r : BitVec F.w} (h : F.Rounds v r) {j : ℤ} (hv : Mul2 j v) (hj : 1 - (F.bias : ℤ) - F.s ≤ j)
    (hb : |v| ≤ 2 ^ ((F.bias : ℤ) + 1)) : Mul2 j (F.valK ℝ r) := by
  by_cases hs : |v| ≤ 2 ^ (j + F.s + 1)
  · rw [h.exactR F (hv.rp F hs hj) hb]; exact hv
  · rw [not_le] at hs
    obtain ⟨m, i, h1, h2, h3, h4⟩ := F.val_dec r
    refine Mul2.mono ⟨m, h1⟩ (i := j) (j := i) ?_
    by_contra hij
    rw [not_le] at hij
    -- the result is at least `2^(j+s+1)`
    have hge : (2 : ℝ) ^ (j + F.s + 1) ≤ |F.valK ℝ r| := by
      have hb' : |(2 : ℝ) ^ (j + F.s + 1)| ≤ 2 ^ ((F.bias : ℤ) + 1) := by
        rw [abs_of_pos (by positivity)]; exact hs.le.trans hb
      have hrp := F.rp_pow (j := j + F.s + 1) (by omega)
      rcases le_or_gt 0 v with h0 | h0
      · rw [abs_of_nonneg h0] at hs
        exact (h.ge_of F hrp hb' hs.le).trans (le_abs_self _)
      · rw [abs_of_neg h0] at hs
        have := h.le_of F (hrp.neg F) (by rwa [abs_neg]) (by linarith)
        rw [abs_of_nonpos (by linarith [show (0 : ℝ) < 2 ^ (j + F.s + 1) by positivity])]
        linarith
    have hlt : |F.valK ℝ r| < 2 ^ (j + F.s + 1) := by
      rw [h1, abs_mul, abs_of_pos (show (0 : ℝ) < 2 ^ i by positivity)]
      calc |(m : ℝ)| * 2 ^ i < 2 ^ (F.s + 1) * 2 ^ i := mul_lt_mul_of_pos_right (by exact_mod_cast h2) (by positivity)
        _ = 2 ^ (i + F.s + 1) := by rw [← zpow_natCast, ← zpow_add₀ (by norm_num)]; congr 1; push_cast; ring
        _ ≤ _ := zpow_le_zpow_right₀ (by norm_num) (by omega)
    linarith

/-- the rounding error of a sum is a number of the format -/
theorem rp_sum_err {a b w : BitVec F.w} (hab : |F.valK ℝ b| ≤ |F.valK ℝ a|)
    (h : F.Rounds (F.valK ℝ a + F.valK ℝ b) w) (hb : |F.valK ℝ a| ≤ 2 ^ (F.bias : ℤ)) :
    F.Rp (F.valK ℝ a + F.valK ℝ b - F.valK ℝ w) := by
  obtain ⟨mb, j, b1, b2, b3, b4⟩ := F.val_dec b
  obtain ⟨ma, i, a1, a2, a3, a4⟩ := F.val_dec a
  have hp2 : (2 : ℝ) ^ ((F.bias : ℤ) + 1) = 2 * 2 ^ (F.bias : ℤ) := by rw [zpow_add_one₀ (by norm_num)]; ring
  have hpos : (0 : ℝ) < 2 ^ (F.bias : ℤ) := by positivity
  have hs : |F.valK ℝ a + F.valK ℝ b| ≤ 2 ^ ((F.bias : ℤ) + 1) := by
    rw [hp2]
    exact (abs_add_le _ _).trans (by linarith)
  have hnear := h.near F (F.rp_val a) (by rw [hp2]; linarith)
  rw [add_sub_cancel_left] at hnear
  have hij : j ≤ i := by
    by_contra hc
    rw [not_le] at hc
    have hm : (2 : ℝ) ^ F.s ≤ |(mb : ℝ)| := by
      rcases b4 with h | h
      · exact_mod_cast h
      · omega
    have e1 : |F.valK ℝ a| < 2 ^ (F.s + 1) * 2 ^ i := by
      rw [a1, abs_mul, abs_of_pos (show (0 : ℝ) < 2 ^ i by positivity)]
      exact mul_lt_mul_of_pos_right (by exact_mod_cast a2) (by positivity)
    have e2 : (2 : ℝ) ^ F.s * 2 ^ j ≤ |F.valK ℝ b| := by
      rw [b1, abs_mul, abs_of_pos (show (0 : ℝ) < 2 ^ j by positivity)]
      exact mul_le_mul_of_nonneg_right hm (by positivity)
    have e3 : (2 : ℝ) ^ (F.s + 1) * 2 ^ i ≤ 2 ^ F.s * 2 ^ j := by
      rw [← zpow_natCast, ← zpow_natCast, ← zpow_add₀ (by norm_num), ← zpow_add₀ (by norm_num)]
      exact zpow_le_zpow_right₀ (by norm_num) (by push_cast; omega)
    linarith
  have ga : Mul2 j (F.valK ℝ a) := Mul2.mono ⟨ma, a1⟩ hij
  have gb : Mul2 j (F.valK ℝ b) := ⟨mb, b1⟩
  have gw := h.grid F (ga.add gb) b3 hs
  refine ((ga.add gb).sub gw).rp F (hnear.trans ?_) b3
  rw [b1, abs_mul, abs_of_pos (show (0 : ℝ) < 2 ^ j by positivity)]
  calc |(mb : ℝ)| * 2 ^ j ≤ 2 ^ (F.s + 1) * 2 ^ j := mul_le_mul_of_nonneg_right (by exact_mod_cast b2.le) (by positivity)
    _ = _ := by rw [← zpow_natCast, ← zpow_add₀ (by norm_num)]; congr 1; push_cast; ring

end Fmt
end Verif
