import Verif.Float.Spec
import Mathlib.Tactic.FieldSimp

/-!
# Rounding lemmas

Everything is reduced to integers by measuring in units of the least subnormal number: `valU n` is the
value of magnitude pattern `n` in these units.
-/

namespace Verif
namespace Fmt

variable (F : Fmt)

/-- value of a magnitude pattern in units of the least positive number -/
def valU (n : Nat) : Nat :=
  if n / 2 ^ F.s = 0 then n % 2 ^ F.s else (2 ^ F.s + n % 2 ^ F.s) * 2 ^ (n / 2 ^ F.s - 1)

/-- the least positive number -/
def ulp0 (K : Type*) [Field K] : K := 2 ^ (1 - (F.bias : ℤ) - F.s)

theorem ulp0_pos (K : Type*) [Field K] [LinearOrder K] [IsStrictOrderedRing K] : 0 < F.ulp0 K := by
  unfold ulp0; positivity

theorem valU_eq {E m : Nat} (hE : 1 ≤ E) (hm : m ≤ 2 ^ (F.s + 1)) (h : 2 ^ F.s ≤ m ∨ E = 1) :
    F.valU ((E - 1) * 2 ^ F.s + m) = m * 2 ^ (E - 1) := by
  have hp : 0 < 2 ^ F.s := Nat.two_pow_pos _
  rw [Nat.pow_succ] at hm
  unfold valU
  generalize hP : 2 ^ F.s = P at *
  have hd : ((E - 1) * P + m) / P = (E - 1) + m / P := by
    rw [Nat.add_comm, Nat.add_mul_div_right _ _ hp, Nat.add_comm]
  have hmod : ((E - 1) * P + m) % P = m % P := by
    rw [Nat.add_comm, Nat.add_mul_mod_self_right]
  rw [hd, hmod]
  by_cases h1 : m < P
  · have hE1 : E = 1 := by omega
    subst hE1
    simp [Nat.div_eq_of_lt h1, Nat.mod_eq_of_lt h1]
  · by_cases h2 : m = P * 2
    · subst h2
      have : P * 2 / P = 2 := Nat.mul_div_cancel_left _ hp
      rw [this]
      have h3 : E - 1 + 2 ≠ 0 := by omega
      have h4 : E - 1 + 2 - 1 = (E - 1) + 1 := by omega
      rw [if_neg h3, h4, Nat.pow_succ]
      simp; ring
    · have h3 : m / P = 1 := by
        apply Nat.div_eq_of_lt_le <;> omega
      have h4 : m % P = m - P := by
        rw [Nat.mod_eq_sub_mod (by omega), Nat.mod_eq_of_lt (by omega)]
      rw [h3, h4, if_neg (by omega)]
      congr 1
      omega

/-- every pattern has the form used in `valU_eq` -/
theorem decomp (n : Nat) : ∃ E m, 1 ≤ E ∧ m < 2 ^ (F.s + 1) ∧ (2 ^ F.s ≤ m ∨ E = 1) ∧
    n = (E - 1) * 2 ^ F.s + m := by
  have hp : 0 < 2 ^ F.s := Nat.two_pow_pos _
  have hdm := Nat.div_add_mod n (2 ^ F.s)
  have hlt := Nat.mod_lt n hp
  rw [Nat.pow_succ]
  by_cases h : n / 2 ^ F.s = 0
  · refine ⟨1, n % 2 ^ F.s, le_refl _, by omega, Or.inr rfl, ?_⟩
    rw [h] at hdm; omega
  · refine ⟨n / 2 ^ F.s, 2 ^ F.s + n % 2 ^ F.s, Nat.one_le_iff_ne_zero.mpr h, by omega,
      Or.inl (Nat.le_add_right _ _), ?_⟩
    have h' := Nat.one_le_iff_ne_zero.mpr h
    obtain ⟨k, hk⟩ : ∃ k, n / 2 ^ F.s = k + 1 := ⟨n / 2 ^ F.s - 1, (Nat.sub_add_cancel h').symm⟩
    rw [hk] at hdm ⊢
    rw [Nat.add_sub_cancel]
    rw [Nat.mul_succ, Nat.mul_comm] at hdm
    omega

theorem valU_succ_lt (n : Nat) : F.valU n < F.valU (n + 1) := by
  obtain ⟨E, m, hE, hm, h, rfl⟩ := F.decomp n
  rw [Nat.add_assoc, F.valU_eq hE (le_of_lt hm) h, F.valU_eq hE hm (by omega)]
  exact Nat.mul_lt_mul_of_pos_right (Nat.lt_succ_self m) (Nat.two_pow_pos _)

theorem valU_strictMono : StrictMono F.valU := strictMono_nat_of_lt_succ F.valU_succ_lt

theorem valU_lt_iff {m n : Nat} : F.valU m < F.valU n ↔ m < n := F.valU_strictMono.lt_iff_lt
theorem valU_le_iff {m n : Nat} : F.valU m ≤ F.valU n ↔ m ≤ n := F.valU_strictMono.le_iff_le
theorem valU_inj {m n : Nat} : F.valU m = F.valU n ↔ m = n := F.valU_strictMono.injective.eq_iff

theorem valU_zero : F.valU 0 = 0 := by simp [valU]

theorem valU_small {m : Nat} (hm : m ≤ 2 ^ (F.s + 1)) : F.valU m = m := by
  have := F.valU_eq (E := 1) (m := m) (le_refl _) hm (Or.inr rfl)
  simpa using this

theorem infRep_eq : F.infRep = (2 ^ F.e - 1 - 1) * 2 ^ F.s + 2 ^ F.s := by
  have : 2 ≤ 2 ^ F.e := by
    calc 2 = 2 ^ 1 := rfl
      _ ≤ 2 ^ F.e := Nat.pow_le_pow_right (by omega) (by have := F.he; omega)
  unfold infRep
  obtain ⟨k, hk⟩ : ∃ k, 2 ^ F.e = k + 2 := ⟨2 ^ F.e - 2, by omega⟩
  rw [hk]
  have h1 : k + 2 - 1 = k + 1 := by omega
  have h2 : k + 2 - 1 - 1 = k := by omega
  rw [h2, h1, Nat.succ_mul]

theorem valU_infRep : F.valU F.infRep = 2 ^ F.s * 2 ^ (2 ^ F.e - 2) := by
  have h2 : 2 ≤ 2 ^ F.e := by
    calc 2 = 2 ^ 1 := rfl
      _ ≤ 2 ^ F.e := Nat.pow_le_pow_right (by omega) (by have := F.he; omega)
  rw [infRep_eq, F.valU_eq (by omega) (by rw [Nat.pow_succ]; omega) (Or.inl (le_refl _))]
  congr 1

section
variable {K : Type*} [Field K] [LinearOrder K] [IsStrictOrderedRing K]

theorem magVal_eq (n : Nat) : F.magVal K n = (F.valU n : K) * F.ulp0 K := by
  unfold magVal valU ulp0
  split
  · rfl
  · rename_i h
    push_cast
    rw [mul_assoc]
    congr 1
    rw [← zpow_natCast, ← zpow_add₀ (by norm_num : (2 : K) ≠ 0)]
    congr 1
    rw [Nat.cast_sub (Nat.one_le_iff_ne_zero.mpr h)]
    push_cast
    ring

/-- `IsRNE` in units of the least positive number -/
def IsRNEu (x : K) (n : Nat) : Prop :=
  n ≤ F.infRep ∧ ∀ m, m ≤ F.infRep →
    |x - F.valU n| ≤ |x - F.valU m| ∧ (|x - F.valU n| = |x - F.valU m| → m ≠ n → n % 2 = 0)

theorem isRNE_iff {x : K} {n : Nat} : F.IsRNE (x * F.ulp0 K) n ↔ F.IsRNEu x n := by
  have hu := F.ulp0_pos K
  have key : ∀ m, |x * F.ulp0 K - F.magVal K m| = |x - F.valU m| * F.ulp0 K := by
    intro m
    rw [magVal_eq, ← sub_mul, abs_mul, abs_of_pos hu]
  unfold IsRNE IsRNEu
  simp only [key, mul_le_mul_iff_left₀ hu, mul_left_inj' (ne_of_gt hu)]

theorem isRNEu_exact {n : Nat} (h : n ≤ F.infRep) : F.IsRNEu (F.valU n : K) n := by
  refine ⟨h, fun m hm => ?_⟩
  rw [sub_self, abs_zero]
  refine ⟨abs_nonneg _, fun he hmn => ?_⟩
  exfalso
  have := abs_eq_zero.mp he.symm
  rw [sub_eq_zero, Nat.cast_inj, F.valU_inj] at this
  exact hmn this.symm

theorem isRNEu_overflow {x : K} (h : (F.valU F.infRep : K) ≤ x) : F.IsRNEu x F.infRep := by
  refine ⟨le_refl _, fun m hm => ?_⟩
  have hle : (F.valU m : K) ≤ F.valU F.infRep := by
    exact_mod_cast F.valU_le_iff.mpr hm
  rw [abs_of_nonneg (by linarith), abs_of_nonneg (by linarith)]
  refine ⟨by linarith, fun he hne => ?_⟩
  exfalso
  have : (F.valU m : K) = F.valU F.infRep := by linarith
  rw [Nat.cast_inj, F.valU_inj] at this
  exact hne this

/-- The central lemma: `x` lies between two consecutive patterns. -/
theorem isRNEu_between {x : K} {n r : Nat} (hn : n + 1 ≤ F.infRep)
    (h0 : (F.valU n : K) ≤ x) (h1 : x ≤ F.valU (n + 1))
    (hr : (2 * x < F.valU n + F.valU (n + 1) ∧ r = n) ∨
      ((F.valU n : K) + F.valU (n + 1) < 2 * x ∧ r = n + 1) ∨
      (2 * x = F.valU n + F.valU (n + 1) ∧ r = n + n % 2)) : F.IsRNEu x r := by
  have hlt : (F.valU n : K) < F.valU (n + 1) := by exact_mod_cast F.valU_succ_lt n
  have lo : ∀ m, m ≤ n → (F.valU m : K) ≤ F.valU n := by
    intro m hm; exact_mod_cast F.valU_le_iff.mpr hm
  have lo' : ∀ m, m ≤ n → m ≠ n → (F.valU m : K) < F.valU n := by
    intro m hm hne; exact_mod_cast F.valU_lt_iff.mpr (lt_of_le_of_ne hm hne)
  have hi : ∀ m, n + 1 ≤ m → (F.valU (n + 1) : K) ≤ F.valU m := by
    intro m hm; exact_mod_cast F.valU_le_iff.mpr hm
  have hi' : ∀ m, n + 1 ≤ m → m ≠ n + 1 → (F.valU (n + 1) : K) < F.valU m := by
    intro m hm hne; exact_mod_cast F.valU_lt_iff.mpr (lt_of_le_of_ne hm (Ne.symm hne))
  have an : |x - F.valU n| = x - F.valU n := abs_of_nonneg (by linarith)
  have an1 : |x - F.valU (n + 1)| = F.valU (n + 1) - x := by
    rw [abs_sub_comm]; exact abs_of_nonneg (by linarith)
  have am : ∀ m, m ≤ n → |x - F.valU m| = x - F.valU m := by
    intro m hm; exact abs_of_nonneg (by linarith [lo m hm])
  have am1 : ∀ m, n + 1 ≤ m → |x - F.valU m| = F.valU m - x := by
    intro m hm; rw [abs_sub_comm]; exact abs_of_nonneg (by linarith [hi m hm])
  have caseA : 2 * x ≤ F.valU n + F.valU (n + 1) →
      (2 * x = F.valU n + F.valU (n + 1) → n % 2 = 0) → F.IsRNEu x n := by
    intro hx he
    refine ⟨by omega, fun m _ => ?_⟩
    rw [an]
    rcases Nat.lt_or_ge n m with hm | hm
    · rw [am1 m hm]
      have := hi m hm
      refine ⟨by linarith, fun hq _ => he (by linarith)⟩
    · rw [am m hm]
      have := lo m hm
      refine ⟨by linarith, fun hq hne => ?_⟩
      have := lo' m hm hne
      linarith
  have caseB : F.valU n + F.valU (n + 1) ≤ 2 * x →
      (2 * x = F.valU n + F.valU (n + 1) → (n + 1) % 2 = 0) → F.IsRNEu x (n + 1) := by
    intro hx he
    refine ⟨hn, fun m _ => ?_⟩
    rw [an1]
    rcases Nat.lt_or_ge n m with hm | hm
    · rw [am1 m hm]
      have := hi m hm
      refine ⟨by linarith, fun hq hne => ?_⟩
      have := hi' m hm hne
      linarith
    · rw [am m hm]
      have := lo m hm
      refine ⟨by linarith, fun hq hne => he (by linarith)⟩
  rcases hr with ⟨hx, rfl⟩ | ⟨hx, rfl⟩ | ⟨hx, rfl⟩
  · exact caseA (le_of_lt hx) (fun h => absurd h (ne_of_lt hx))
  · exact caseB (le_of_lt hx) (fun h => absurd h.symm (ne_of_lt hx))
  · rcases Nat.mod_two_eq_zero_or_one n with h | h
    · rw [h]; exact caseA (le_of_eq hx) (fun _ => h)
    · rw [h]; exact caseB (le_of_eq hx.symm) (fun _ => by omega)

/-- Rounding a number `x = (m + f)·2^(E-1)` with `0 ≤ f < 1`, `E ≥ 1` and `m` a full significand
(or `E = 1`, the subnormal range): decide by comparing `f` with one half. -/
theorem isRNEu_of_frac {x f : K} {E m r : Nat} (hE : 1 ≤ E) (hm : m < 2 ^ (F.s + 1))
    (h : 2 ^ F.s ≤ m ∨ E = 1) (hn : (E - 1) * 2 ^ F.s + m < F.infRep)
    (hx : x = ((m : K) + f) * 2 ^ (E - 1)) (hf0 : 0 ≤ f) (hf1 : f ≤ 1)
    (hr : (f < 1 / 2 ∧ r = (E - 1) * 2 ^ F.s + m) ∨
      (1 / 2 < f ∧ r = (E - 1) * 2 ^ F.s + m + 1) ∨
      (f = 1 / 2 ∧ r = (E - 1) * 2 ^ F.s + m + ((E - 1) * 2 ^ F.s + m) % 2)) : F.IsRNEu x r := by
  have v0 : (F.valU ((E - 1) * 2 ^ F.s + m) : K) = (m : K) * 2 ^ (E - 1) := by
    rw [F.valU_eq hE (le_of_lt hm) h]; push_cast; ring
  have v1 : (F.valU ((E - 1) * 2 ^ F.s + m + 1) : K) = ((m : K) + 1) * 2 ^ (E - 1) := by
    rw [Nat.add_assoc, F.valU_eq hE hm (by omega)]; push_cast; ring
  have hp : (0 : K) < 2 ^ (E - 1) := by positivity
  apply F.isRNEu_between (n := (E - 1) * 2 ^ F.s + m) hn
  · rw [v0, hx]; exact mul_le_mul_of_nonneg_right (by linarith) (le_of_lt hp)
  · rw [v1, hx]; exact mul_le_mul_of_nonneg_right (by linarith) (le_of_lt hp)
  · rw [v0, v1, hx]
    generalize (2 : K) ^ (E - 1) = P at hp
    rcases hr with ⟨hf, rfl⟩ | ⟨hf, rfl⟩ | ⟨hf, rfl⟩
    · refine Or.inl ⟨?_, rfl⟩; nlinarith
    · refine Or.inr (Or.inl ⟨?_, rfl⟩); nlinarith
    · refine Or.inr (Or.inr ⟨?_, rfl⟩); subst hf; ring

/-- Round-to-nearest-even determines the result. -/
theorem IsRNEu.unique {x : K} {m n : Nat} (hm : F.IsRNEu x m) (hn : F.IsRNEu x n) : m = n := by
  by_contra hne
  have e1 := hm.2 n hn.1
  have e2 := hn.2 m hm.1
  have eq : |x - F.valU m| = |x - F.valU n| := le_antisymm e1.1 e2.1
  have pm := e1.2 eq (Ne.symm hne)
  have pn := e2.2 eq.symm hne
  -- both even; some odd pattern strictly between is nearer
  wlog hlt : m < n generalizing m n
  · exact this hn hm (Ne.symm hne) e2 e1 eq.symm pn pm (by omega)
  have hm1 : m + 1 < n := by omega
  have h3 := (hm.2 (m + 1) (by have := hn.1; omega)).1
  have v1 : (F.valU m : K) < F.valU (m + 1) := by exact_mod_cast F.valU_lt_iff.mpr (by omega)
  have v2 : (F.valU (m + 1) : K) < F.valU n := by exact_mod_cast F.valU_lt_iff.mpr hm1
  rcases abs_cases (x - (F.valU m : K)) with a | a <;>
  rcases abs_cases (x - (F.valU n : K)) with b | b <;>
  rcases abs_cases (x - (F.valU (m + 1) : K)) with c | c <;> linarith

theorem IsRNE.unique {x : K} {m n : Nat} (hm : F.IsRNE x m) (hn : F.IsRNE x n) : m = n := by
  have hu := F.ulp0_pos K
  have e : x = x / F.ulp0 K * F.ulp0 K := by field_simp
  rw [e] at hm hn
  exact IsRNEu.unique F (F.isRNE_iff.mp hm) (F.isRNE_iff.mp hn)

/-- Rounding is monotone. -/
theorem IsRNEu.mono {x y : K} {m n : Nat} (hm : F.IsRNEu x m) (hn : F.IsRNEu y n) (h : x ≤ y) :
    m ≤ n := by
  by_contra hlt
  rw [not_le] at hlt
  have e1 := (hm.2 n hn.1)
  have e2 := (hn.2 m hm.1)
  have v : (F.valU n : K) < F.valU m := by exact_mod_cast F.valU_lt_iff.mpr hlt
  have eq : |x - F.valU m| = |x - F.valU n| ∧ x = y := by
    rcases abs_cases (x - (F.valU m : K)) with a | a <;>
    rcases abs_cases (x - (F.valU n : K)) with b | b <;>
    rcases abs_cases (y - (F.valU m : K)) with c | c <;>
    rcases abs_cases (y - (F.valU n : K)) with d | d <;>
    constructor <;> linarith [e1.1, e2.1]
  obtain ⟨_, rfl⟩ := eq
  exact absurd (IsRNEu.unique F hm hn) (by omega)

end
end Fmt
end Verif
