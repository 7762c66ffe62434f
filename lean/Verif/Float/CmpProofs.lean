import Verif.Float.Cmp
import Verif.Float.AddProofs
import Mathlib.Order.WithBot
/-! # Correctness of the soft-float comparisons -/
namespace Verif
namespace Fmt
variable (F : Fmt)

/-- signed magnitude -/
def smag (b : BitVec F.w) : Int := if F.sign b then -(F.mag b : Int) else F.mag b

theorem toInt_eq (b : BitVec F.w) :
    b.toInt = if F.sign b then (F.mag b : Int) - 2 ^ (F.e + F.s) else F.mag b := by
  have h := F.toNat_eq b
  have hm := F.mag_lt b
  have hp := F.pw
  have hp2 := F.pes
  have hpw : (2 : Int) ^ F.w = 2 * 2 ^ (F.e + F.s) := by
    have : (2 ^ F.w : Nat) = 2 * 2 ^ (F.e + F.s) := by rw [hp, hp2]
    exact_mod_cast this
  rw [BitVec.toInt_eq_msb_cond]
  show (if F.sign b = true then _ else _) = _
  cases hs : F.sign b
  · rw [hs] at h; simp at h ⊢; omega
  · rw [hs] at h; simp only [if_true] at h ⊢
    rw [h]; push_cast; rw [hpw]; ring

theorem val_lt_iff {a b : BitVec F.w} : F.val a < F.val b ↔ F.smag a < F.smag b := by
  have hu := F.ulp0_pos ℚ
  show F.valK ℚ a < F.valK ℚ b ↔ _
  rw [F.valK_eq, F.valK_eq, mul_lt_mul_iff_left₀ hu]
  unfold smag
  have hz : ∀ n, (0 : ℚ) ≤ F.valU n := fun n => Nat.cast_nonneg _
  have hp : ∀ n, (0 : ℚ) < F.valU n ↔ 0 < n := by
    intro n
    have := F.valU_lt_iff (m := 0) (n := n)
    rw [F.valU_zero] at this
    exact_mod_cast this
  have hl : (F.valU (F.mag a) : ℚ) < F.valU (F.mag b) ↔ F.mag a < F.mag b := by
    exact_mod_cast F.valU_lt_iff
  have hl' : (F.valU (F.mag b) : ℚ) < F.valU (F.mag a) ↔ F.mag b < F.mag a := by
    exact_mod_cast F.valU_lt_iff
  cases F.sign a <;> cases F.sign b
  · simp [hl]
  · simp only [Bool.false_eq_true, if_false, if_true, one_mul, neg_mul]
    constructor
    · intro h; have := hz (F.mag a); have := hz (F.mag b); linarith
    · intro h; omega
  · simp only [Bool.false_eq_true, if_false, if_true, one_mul, neg_mul]
    constructor
    · intro h
      by_contra hc
      have h1 : F.mag a = 0 := by omega
      have h2 : F.mag b = 0 := by omega
      rw [h1, h2, F.valU_zero] at h; simp at h
    · intro h
      have := hz (F.mag a); have := hz (F.mag b)
      by_cases h1 : 0 < F.mag a
      · have := (hp _).mpr h1; linarith
      · have h2 : 0 < F.mag b := by omega
        have := (hp _).mpr h2; linarith
  · simp only [if_true, one_mul, neg_mul, neg_lt_neg_iff, hl', Nat.cast_lt]

theorem extVal_lt_iff {a b : BitVec F.w} (ha : ¬ F.IsNaN a) (hb : ¬ F.IsNaN b) :
    F.extVal a < F.extVal b ↔ F.smag a < F.smag b := by
  have ha' : F.mag a ≤ F.infRep := by unfold IsNaN at ha; omega
  have hb' : F.mag b ≤ F.infRep := by unfold IsNaN at hb; omega
  have hi := F.ps_le_infRep
  have hps := F.ps_ge
  unfold extVal
  by_cases h1 : F.mag a = F.infRep <;> by_cases h2 : F.mag b = F.infRep
  · rw [if_pos h1, if_pos h2]
    unfold smag
    cases F.sign a <;> cases F.sign b <;> simp <;> omega
  · rw [if_pos h1, if_neg h2]
    unfold smag
    cases F.sign a <;> cases hb : F.sign b <;>
      simp <;> omega
  · rw [if_neg h1, if_pos h2]
    have ht : ((F.val a : WithTop ℚ) : WithBot (WithTop ℚ)) <
        ((⊤ : WithTop ℚ) : WithBot (WithTop ℚ)) := by
      rw [WithBot.coe_lt_coe]; exact WithTop.coe_lt_top _
    unfold smag
    cases F.sign a <;> cases hb : F.sign b <;>
      simp only [Bool.false_eq_true, if_false, if_true, ht, not_lt_bot, true_iff, false_iff] <;> omega
  · rw [if_neg h1, if_neg h2, WithBot.coe_lt_coe, WithTop.coe_lt_coe]
    exact F.val_lt_iff

theorem cmp_eq (a b : BitVec F.w) : F.cmp a b =
    if F.IsNaN a ∨ F.IsNaN b then .Unordered
    else if F.smag a < F.smag b then .Less
    else if F.smag b < F.smag a then .Greater else .Equal := by
  unfold cmp
  dsimp only
  simp only [F.abs_gt_inf_iff]
  by_cases hn : F.IsNaN a ∨ F.IsNaN b
  · rw [if_pos hn, if_pos hn]
  rw [if_neg hn, if_neg hn]
  have ha := F.mag_lt a
  have hb := F.mag_lt b
  have hz : a &&& F.absMask ||| b &&& F.absMask = 0#F.w ↔ F.mag a = 0 ∧ F.mag b = 0 := by
    rw [← BitVec.toNat_inj, BitVec.toNat_or, F.toNat_and_absMask, F.toNat_and_absMask]
    simp
  have hand : (a &&& b).toInt ≥ 0 ↔ ¬ (F.sign a = true ∧ F.sign b = true) := by
    rw [F.toInt_eq]
    have hs : F.sign (a &&& b) = (F.sign a && F.sign b) := by unfold sign; rw [BitVec.msb_and]
    have hm := F.mag_lt (a &&& b)
    have hm' : (F.mag (a &&& b) : Int) < 2 ^ (F.e + F.s) := by exact_mod_cast hm
    rw [hs]
    cases F.sign a <;> cases F.sign b <;> simp <;> omega
  have hp : (0 : Int) < 2 ^ (F.e + F.s) := by positivity
  have ha2 : (F.mag a : Int) < 2 ^ (F.e + F.s) := by exact_mod_cast ha
  have hb2 : (F.mag b : Int) < 2 ^ (F.e + F.s) := by exact_mod_cast hb
  simp only [hz, hand]
  simp only [F.toInt_eq]
  clear hz hand
  unfold smag
  generalize (2 : Int) ^ (F.e + F.s) = P at *
  clear ha hb
  cases F.sign a <;> cases F.sign b <;> simp only [Bool.false_eq_true, if_false, if_true, false_and,
    and_false, not_false_eq_true, not_true_eq_false, and_self] <;> split_ifs <;>
    first | rfl | (exfalso; omega)

/-- `cmp` implements the order of the extended rationals. -/
theorem cmp_spec (a b : BitVec F.w) :
    (F.cmp a b = .Unordered ↔ F.IsNaN a ∨ F.IsNaN b) ∧
    (¬ F.IsNaN a → ¬ F.IsNaN b →
      (F.cmp a b = .Less ↔ F.extVal a < F.extVal b) ∧
      (F.cmp a b = .Equal ↔ F.extVal a = F.extVal b) ∧
      (F.cmp a b = .Greater ↔ F.extVal b < F.extVal a)) := by
  rw [F.cmp_eq]
  constructor
  · constructor
    · intro h
      by_contra hc
      rw [if_neg hc] at h
      split at h
      · cases h
      · split at h <;> cases h
    · intro h; rw [if_pos h]
  · intro ha hb
    rw [if_neg (by simp [ha, hb])]
    have h1 := F.extVal_lt_iff ha hb
    have h2 := F.extVal_lt_iff hb ha
    have h3 : F.extVal a = F.extVal b ↔ F.smag a = F.smag b := by
      constructor
      · intro h
        have a1 : ¬ F.extVal a < F.extVal b := by rw [h]; exact lt_irrefl _
        have a2 : ¬ F.extVal b < F.extVal a := by rw [h]; exact lt_irrefl _
        rw [h1] at a1; rw [h2] at a2; omega
      · intro h
        apply le_antisymm
        · rw [← not_lt, h2]; omega
        · rw [← not_lt, h1]; omega
    rw [h1, h2, h3]
    refine ⟨?_, ?_, ?_⟩
    all_goals
      split
      · simp; omega
      · split
        · simp; omega
        · simp; omega

end Fmt
end Verif
