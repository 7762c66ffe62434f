import Verif.Float.CmpProofs
import Verif.Float.MulProofs
import Verif.Float.DivProofs
import Mathlib.Data.Nat.Find
/-!
# Native floating-point operations used by libm

The functions of libm compute with the primitive operators `+ - * /` and the comparisons of the float types. What
these do is not part of the crate (it is the target's FPU, or the soft-float routines proved correct in `C23`-`C27`).
`AddSpec` ... `DivSpec` state IEEE-754 round-to-nearest-even arithmetic; an `FPU F` is any implementation
satisfying them. NaN results are left completely open (any NaN), as in Rust. Every libm theorem quantifies over all `FPU`s.

Comparisons have only one possible behaviour, they are modelled by `Fmt.cmp` (correct by `C23`).
-/
namespace Verif
namespace Fmt
variable (F : Fmt)

/-- Unary minus: flips the sign bit. -/
def neg (a : BitVec F.w) : BitVec F.w := a ^^^ F.signMask

/-- IEEE-754 addition. -/
def AddSpec (a b r : BitVec F.w) : Prop :=
  (F.IsFin a → F.IsFin b → F.Rounds (F.val a + F.val b) r ∧
    (F.val a + F.val b = 0 → F.sign r = (F.sign a && F.sign b))) ∧
  (F.IsNaN a ∨ F.IsNaN b → F.IsNaN r) ∧
  (F.IsInf a → ¬ F.IsNaN b → if F.IsInf b ∧ F.sign a ≠ F.sign b then F.IsNaN r else r = a) ∧
  (F.IsFin a → F.IsInf b → r = b)

/-- IEEE-754 multiplication. -/
def MulSpec (a b r : BitVec F.w) : Prop :=
  (F.IsFin a → F.IsFin b → F.Rounds (F.val a * F.val b) r ∧ F.sign r = (F.sign a ^^ F.sign b)) ∧
  (F.IsNaN a ∨ F.IsNaN b → F.IsNaN r) ∧
  (¬ F.IsNaN a → ¬ F.IsNaN b → F.IsInf a ∨ F.IsInf b →
    if F.IsZero a ∨ F.IsZero b then F.IsNaN r else F.IsInf r ∧ F.sign r = (F.sign a ^^ F.sign b))

/-- IEEE-754 division. -/
def DivSpec (a b r : BitVec F.w) : Prop :=
  (F.IsFin a → F.IsFin b → ¬ F.IsZero b →
    F.Rounds (F.val a / F.val b) r ∧ F.sign r = (F.sign a ^^ F.sign b)) ∧
  (F.IsNaN a ∨ F.IsNaN b → F.IsNaN r) ∧
  (¬ F.IsNaN a → ¬ F.IsNaN b → F.IsInf a ∨ F.IsInf b ∨ F.IsZero b →
    if (F.IsInf a ∧ F.IsInf b) ∨ (F.IsZero a ∧ F.IsZero b) then F.IsNaN r
    else F.sign r = (F.sign a ^^ F.sign b) ∧ (if F.IsInf b then F.IsZero r else F.IsInf r))

end Fmt

/-- An implementation of the native operators of a float type. -/
structure FPU (F : Fmt) where
  add : BitVec F.w → BitVec F.w → BitVec F.w
  sub : BitVec F.w → BitVec F.w → BitVec F.w
  mul : BitVec F.w → BitVec F.w → BitVec F.w
  div : BitVec F.w → BitVec F.w → BitVec F.w
  add_spec : ∀ a b, F.AddSpec a b (add a b)
  sub_spec : ∀ a b, F.AddSpec a (F.neg b) (sub a b)
  mul_spec : ∀ a b, F.MulSpec a b (mul a b)
  div_spec : ∀ a b, F.DivSpec a b (div a b)

namespace Fmt
variable (F : Fmt)

/-- `a < b` -/
def lt (a b : BitVec F.w) : Bool := F.cmp a b == .Less
/-- `a > b` -/
def gt (a b : BitVec F.w) : Bool := F.cmp a b == .Greater
/-- `a <= b` -/
def le (a b : BitVec F.w) : Bool := F.cmp a b == .Less || F.cmp a b == .Equal
/-- `a >= b` -/
def ge (a b : BitVec F.w) : Bool := F.cmp a b == .Greater || F.cmp a b == .Equal
/-- `a == b` -/
def feq (a b : BitVec F.w) : Bool := F.cmp a b == .Equal
/-- `is_nan` -/
def isNan (a : BitVec F.w) : Bool := F.cmp a a == .Unordered

theorem isNan_iff (a : BitVec F.w) : F.isNan a = true ↔ F.IsNaN a := by
  unfold isNan
  rw [beq_iff_eq, (F.cmp_spec a a).1, or_self]

theorem lt_iff (a b : BitVec F.w) :
    F.lt a b = true ↔ ¬ F.IsNaN a ∧ ¬ F.IsNaN b ∧ F.smag a < F.smag b := by
  unfold lt
  rw [beq_iff_eq, F.cmp_eq]
  by_cases ha : F.IsNaN a <;> by_cases hb : F.IsNaN b <;> simp [ha, hb]
  split_ifs <;> simp
theorem gt_iff (a b : BitVec F.w) :
    F.gt a b = true ↔ ¬ F.IsNaN a ∧ ¬ F.IsNaN b ∧ F.smag b < F.smag a := by
  unfold gt
  rw [beq_iff_eq, F.cmp_eq]
  by_cases ha : F.IsNaN a <;> by_cases hb : F.IsNaN b <;> simp [ha, hb]
  split_ifs <;> simp <;> omega
theorem le_iff (a b : BitVec F.w) :
    F.le a b = true ↔ ¬ F.IsNaN a ∧ ¬ F.IsNaN b ∧ F.smag a ≤ F.smag b := by
  unfold le
  rw [Bool.or_eq_true, beq_iff_eq, beq_iff_eq, F.cmp_eq]
  by_cases ha : F.IsNaN a <;> by_cases hb : F.IsNaN b <;> simp [ha, hb]
  split_ifs <;> simp <;> omega
theorem ge_iff (a b : BitVec F.w) :
    F.ge a b = true ↔ ¬ F.IsNaN a ∧ ¬ F.IsNaN b ∧ F.smag b ≤ F.smag a := by
  unfold ge
  rw [Bool.or_eq_true, beq_iff_eq, beq_iff_eq, F.cmp_eq]
  by_cases ha : F.IsNaN a <;> by_cases hb : F.IsNaN b <;> simp [ha, hb]
  split_ifs <;> simp <;> omega
theorem feq_iff (a b : BitVec F.w) :
    F.feq a b = true ↔ ¬ F.IsNaN a ∧ ¬ F.IsNaN b ∧ F.smag a = F.smag b := by
  unfold feq
  rw [beq_iff_eq, F.cmp_eq]
  by_cases ha : F.IsNaN a <;> by_cases hb : F.IsNaN b <;> simp [ha, hb]
  split_ifs <;> simp <;> omega

/-! ### Existence of the rounded result -/

theorem exists_isRNEu {K : Type*} [Field K] [LinearOrder K] [IsStrictOrderedRing K] {x : K} (hx : 0 ≤ x) :
    ∃ n, F.IsRNEu x n := by
  classical
  by_cases h : (F.valU F.infRep : K) ≤ x
  · exact ⟨_, F.isRNEu_overflow h⟩
  have h0 : (F.valU 0 : K) ≤ x := by rw [F.valU_zero]; simpa using hx
  have hg := Nat.findGreatest_spec (P := fun n => (F.valU n : K) ≤ x) (Nat.zero_le F.infRep) h0
  have hgt := Nat.findGreatest_is_greatest (P := fun n => (F.valU n : K) ≤ x) (n := F.infRep)
    (k := Nat.findGreatest (fun n => (F.valU n : K) ≤ x) F.infRep + 1) (Nat.lt_succ_self _)
  have hle := Nat.findGreatest_le (P := fun n => (F.valU n : K) ≤ x) F.infRep
  generalize Nat.findGreatest (fun n => (F.valU n : K) ≤ x) F.infRep = n at *
  have hne : n ≠ F.infRep := by rintro rfl; exact h hg
  have h1 := hgt (by omega)
  rw [not_le] at h1
  rcases lt_trichotomy (2 * x) (F.valU n + F.valU (n + 1)) with h2 | h2 | h2
  · exact ⟨n, F.isRNEu_between (by omega) hg h1.le (Or.inl ⟨h2, rfl⟩)⟩
  · exact ⟨n + n % 2, F.isRNEu_between (by omega) hg h1.le (Or.inr (Or.inr ⟨h2, rfl⟩))⟩
  · exact ⟨n + 1, F.isRNEu_between (by omega) hg h1.le (Or.inr (Or.inl ⟨h2, rfl⟩))⟩

theorem exists_sign_mag (t : Bool) {n : Nat} (h : n < 2 ^ (F.e + F.s)) : ∃ r : BitVec F.w, F.sign r = t ∧ F.mag r = n := by
  have hp := F.pw
  rw [← F.pes] at hp
  refine ⟨BitVec.ofNat F.w ((if t then 2 ^ (F.e + F.s) else 0) + n), F.sign_mag_of h ?_⟩
  rw [BitVec.toNat_ofNat, Nat.mod_eq_of_lt]
  cases t <;> simp <;> omega

/-- Every number has a correctly rounded result, with a sign of choice if it is zero. -/
theorem exists_rounds (x : ℚ) (t : Bool) (ht : x ≠ 0 → (t = true ↔ x < 0)) :
    ∃ r : BitVec F.w, F.Rounds x r ∧ F.sign r = t := by
  have hu := F.ulp0_pos ℚ
  obtain ⟨n, hn⟩ := F.exists_isRNEu (x := |x| / F.ulp0 ℚ) (by positivity)
  obtain ⟨r, h1, h2⟩ := F.exists_sign_mag t (n := n) (lt_of_le_of_lt hn.1 F.infRep_lt)
  refine ⟨r, ⟨?_, fun h => ?_⟩, h1⟩
  · have e : |x| = |x| / F.ulp0 ℚ * F.ulp0 ℚ := by field_simp
    rw [e, F.isRNE_iff, h2]; exact hn
  · rw [h1]; exact ht h

/-- A representable exact value is returned unchanged. -/
theorem Rounds.exact {K : Type*} [Field K] [LinearOrder K] [IsStrictOrderedRing K] {x : K} {r c : BitVec F.w}
    (h : F.Rounds x r) (hc : F.mag c ≤ F.infRep) (hx : x = F.valK K c) :
    F.mag r = F.mag c ∧ (x ≠ 0 → F.sign r = F.sign c) := by
  subst hx
  have h2 := F.rounds_self (K := K) hc
  refine ⟨IsRNE.unique F h.1 h2.1, fun h0 => ?_⟩
  have a := h.2 h0
  have b := h2.2 h0
  rw [Bool.eq_iff_iff, a, b]

theorem isFin_or (b : BitVec F.w) : F.IsFin b ∨ F.IsInf b ∨ F.IsNaN b := by
  unfold IsFin IsInf IsNaN; omega
theorem IsFin.not_nan {b : BitVec F.w} (h : F.IsFin b) : ¬ F.IsNaN b := by unfold IsFin IsNaN at *; omega
theorem IsFin.not_inf {b : BitVec F.w} (h : F.IsFin b) : ¬ F.IsInf b := by unfold IsFin IsInf at *; omega
theorem IsInf.not_nan {b : BitVec F.w} (h : F.IsInf b) : ¬ F.IsNaN b := by unfold IsInf IsNaN at *; omega
theorem IsInf.not_fin {b : BitVec F.w} (h : F.IsInf b) : ¬ F.IsFin b := by unfold IsInf IsFin at *; omega
theorem IsNaN.not_fin {b : BitVec F.w} (h : F.IsNaN b) : ¬ F.IsFin b := by unfold IsNaN IsFin at *; omega
theorem IsNaN.not_inf {b : BitVec F.w} (h : F.IsNaN b) : ¬ F.IsInf b := by unfold IsNaN IsInf at *; omega
theorem IsZero.isFin {b : BitVec F.w} (h : F.IsZero b) : F.IsFin b := by
  have := F.ps_le_infRep; have := F.ps_ge
  unfold IsZero IsFin at *; omega

theorem sign_neg (b : BitVec F.w) : F.sign (F.neg b) = !F.sign b := (F.toNat_xor_signMask b).1
theorem mag_neg (b : BitVec F.w) : F.mag (F.neg b) = F.mag b := (F.toNat_xor_signMask b).2
theorem val_neg (b : BitVec F.w) : F.val (F.neg b) = - F.val b := by
  unfold val valK
  rw [F.sign_neg, F.mag_neg]
  cases F.sign b <;> simp
theorem isFin_neg {b : BitVec F.w} : F.IsFin (F.neg b) ↔ F.IsFin b := by unfold IsFin; rw [F.mag_neg]
theorem isNaN_neg {b : BitVec F.w} : F.IsNaN (F.neg b) ↔ F.IsNaN b := by unfold IsNaN; rw [F.mag_neg]
theorem isInf_neg {b : BitVec F.w} : F.IsInf (F.neg b) ↔ F.IsInf b := by unfold IsInf; rw [F.mag_neg]

theorem magVal_nonneg (K : Type*) [Field K] [LinearOrder K] [IsStrictOrderedRing K] (n : Nat) : 0 ≤ F.magVal K n := by
  rw [F.magVal_eq]; have := F.ulp0_pos K; positivity

theorem val_eq_zero_iff {b : BitVec F.w} : F.val b = 0 ↔ F.mag b = 0 := by
  have hu := F.ulp0_pos ℚ
  show F.valK ℚ b = 0 ↔ _
  unfold valK
  rw [mul_eq_zero, F.magVal_eq, mul_eq_zero]
  have h1 : ¬ ((if F.sign b = true then -1 else 1 : ℚ) = 0) := by split <;> norm_num
  rw [or_iff_right h1, or_iff_left hu.ne', Nat.cast_eq_zero]
  have := F.valU_inj (m := F.mag b) (n := 0)
  rw [F.valU_zero] at this
  exact this

theorem val_neg_iff {b : BitVec F.w} : F.val b < 0 ↔ F.sign b = true ∧ F.mag b ≠ 0 := by
  have h0 := F.magVal_nonneg ℚ (F.mag b)
  have hz := F.val_eq_zero_iff (b := b)
  constructor
  · intro h
    refine ⟨?_, fun h1 => by rw [hz.mpr h1] at h; exact lt_irrefl _ h⟩
    by_contra hs
    have : F.val b = F.magVal ℚ (F.mag b) := by unfold val valK; rw [if_neg hs, one_mul]
    rw [this] at h
    exact absurd h (not_lt.mpr h0)
  · rintro ⟨hs, h1⟩
    have : F.val b = - F.magVal ℚ (F.mag b) := by unfold val valK; rw [if_pos hs]; ring
    have h2 : F.val b ≠ 0 := fun h => h1 (hz.mp h)
    rw [this] at h2 ⊢
    have : F.magVal ℚ (F.mag b) ≠ 0 := fun h => h2 (by rw [h, neg_zero])
    have := lt_of_le_of_ne h0 (Ne.symm this)
    linarith

/-! ### Implementations exist -/

theorem ok_get {α} {m : M α} {P : α → Prop} (h : Ok m P) (d : α) : P (match m with | .ok r => r | .error _ => d) := by
  obtain ⟨a, rfl, h⟩ := h; exact h

/-- The result of a computation that does not fail. -/
def get! {w : Nat} (m : M (BitVec w)) : BitVec w := match m with | .ok r => r | .error _ => 0#w

theorem get!_spec {w : Nat} {m : M (BitVec w)} {P : BitVec w → Prop} (h : Ok m P) : P (get! m) := by
  obtain ⟨a, rfl, h⟩ := h; exact h

theorem add_addSpec (a b : BitVec F.w) : F.AddSpec a b (get! (F.add a b)) :=
  ⟨fun ha hb => get!_spec (F.add_fin ha hb),
   fun h => (get!_spec (F.add_nan h)).1,
   fun ha hb => by
    have := get!_spec (F.add_inf_left ha hb)
    split
    · rename_i h; rw [if_pos h] at this; exact this.1
    · rename_i h; rw [if_neg h] at this; exact this,
   fun ha hb => by rw [F.add_inf_right ha hb]; rfl⟩

theorem mul_mulSpec {O : DOps F.w} (hO : O.Lawful) (a b : BitVec F.w) : F.MulSpec a b (get! (F.mul O a b)) :=
  ⟨fun ha hb => get!_spec (F.mul_fin hO ha hb),
   fun h => (get!_spec (F.mul_nan h)).1,
   fun ha hb h => by
    have := get!_spec (F.mul_inf (O := O) ha hb h)
    split
    · rename_i h; rw [if_pos h] at this; exact this.1
    · rename_i h; rw [if_neg h] at this; exact this⟩

theorem exists_divSpec (a b : BitVec F.w) : ∃ r, F.DivSpec a b r := by
  have hi := F.ps_le_infRep
  have hps := F.ps_ge
  have hil := F.infRep_lt
  unfold DivSpec
  by_cases hn : F.IsNaN a ∨ F.IsNaN b ∨ (F.IsInf a ∧ F.IsInf b) ∨ (F.IsZero a ∧ F.IsZero b)
  · obtain ⟨r, hr⟩ : ∃ r, F.IsNaN r := ⟨_, F.isQNaN_qnanRep.1⟩
    refine ⟨r, ?_, fun _ => hr, fun h1 h2 _ => ?_⟩
    · unfold IsFin IsNaN IsInf IsZero at *
      intros; exfalso; omega
    · rw [if_pos (by tauto)]; exact hr
  push Not at hn
  obtain ⟨h1, h2, h3, h4⟩ := hn
  have hnn : ¬ ((F.IsInf a ∧ F.IsInf b) ∨ (F.IsZero a ∧ F.IsZero b)) := by tauto
  simp only [if_neg hnn]
  by_cases hZ : F.IsInf b
  · obtain ⟨r, hr1, hr2⟩ := F.exists_sign_mag (F.sign a ^^ F.sign b) (n := 0) (by omega)
    refine ⟨r, ?_, ?_, fun _ _ _ => ⟨hr1, by rw [if_pos hZ]; exact hr2⟩⟩
    all_goals
      unfold IsFin IsNaN IsInf IsZero at *
      intros; exfalso; omega
  simp only [if_neg hZ]
  by_cases hI : F.IsInf a ∨ F.IsZero b
  · obtain ⟨r, hr1, hr2⟩ := F.exists_sign_mag (F.sign a ^^ F.sign b) hil
    refine ⟨r, ?_, ?_, fun _ _ _ => ⟨hr1, hr2⟩⟩
    all_goals
      unfold IsFin IsNaN IsInf IsZero at *
      intros; exfalso; omega
  push Not at hI
  have hb0 : F.val b ≠ 0 := fun h => hI.2 (F.val_eq_zero_iff.mp h)
  obtain ⟨r, hr1, hr2⟩ := F.exists_rounds (F.val a / F.val b) (F.sign a ^^ F.sign b) (by
    intro h
    have ha0 : F.val a ≠ 0 := fun h' => h (by rw [h', zero_div])
    have na := F.val_neg_iff (b := a)
    have nb := F.val_neg_iff (b := b)
    have ma : F.mag a ≠ 0 := fun h' => ha0 (F.val_eq_zero_iff.mpr h')
    have mb : F.mag b ≠ 0 := hI.2
    rw [div_neg_iff]
    have pa : 0 < F.val a ↔ ¬ F.val a < 0 := by
      rw [not_lt]; exact ⟨le_of_lt, fun h => lt_of_le_of_ne h (Ne.symm ha0)⟩
    have pb : 0 < F.val b ↔ ¬ F.val b < 0 := by
      rw [not_lt]; exact ⟨le_of_lt, fun h => lt_of_le_of_ne h (Ne.symm hb0)⟩
    rw [pa, pb, na, nb]
    cases F.sign a <;> cases F.sign b <;> simp [ma, mb])
  refine ⟨r, fun _ _ _ => ⟨hr1, hr2⟩, ?_, ?_⟩
  all_goals
    unfold IsFin IsNaN IsInf IsZero at *
    intros; exfalso; omega

end Fmt

/-- For every format there is an `FPU`: the soft-float `add`, `sub`, `mul`, and a correctly rounded division. -/
noncomputable def FPU.ideal (F : Fmt) : FPU F where
  add a b := Fmt.get! (F.add a b)
  sub a b := Fmt.get! (F.sub a b)
  mul a b := Fmt.get! (F.mulPrim a b)
  div a b := Classical.choose (F.exists_divSpec a b)
  add_spec a b := F.add_addSpec a b
  sub_spec a b := F.add_addSpec a (F.neg b)
  mul_spec a b := F.mul_mulSpec (DOps.prim_lawful _) a b
  div_spec a b := Classical.choose_spec (F.exists_divSpec a b)

theorem Fmt.div_divSpec {F : Fmt} {O : DOps F.w} (hO : O.Lawful) {ptr : Nat} (C : F.DivCfg ptr) (a b : BitVec F.w) :
    F.DivSpec a b (Fmt.get! (F.div O ptr a b)) := by
  refine ⟨fun ha hb hz => Fmt.get!_spec (Fmt.div_fin hO C ha hb hz), fun h => (Fmt.get!_spec (Fmt.div_nan C h)).1,
    fun ha hb h => ?_⟩
  have := Fmt.get!_spec (Fmt.div_special (O := O) C ha hb h)
  split
  · rename_i h; rw [if_pos h] at this; exact this.1
  · rename_i h; rw [if_neg h] at this; exact this

/-- The soft-float routines of compiler-builtins as an `FPU`; the division is given its configuration. -/
def FPU.soft (F : Fmt) (O : DOps F.w) (hO : O.Lawful) (ptr : Nat) (C : F.DivCfg ptr) : FPU F where
  add a b := Fmt.get! (F.add a b)
  sub a b := Fmt.get! (F.sub a b)
  mul a b := Fmt.get! (F.mul O a b)
  div a b := Fmt.get! (F.div O ptr a b)
  add_spec a b := F.add_addSpec a b
  sub_spec a b := F.add_addSpec a (F.neg b)
  mul_spec a b := F.mul_mulSpec hO a b
  div_spec a b := Fmt.div_divSpec hO C a b

/-- `f32` with the soft-float routines of a 64-bit target -/
def FPU.softF32 : FPU f32 := FPU.soft f32 (DOps.prim _) (DOps.prim_lawful _) 8 (Fmt.divCfg_f32_full (by omega))
/-- `f64` with the soft-float routines of a 64-bit target -/
def FPU.softF64 : FPU f64 := FPU.soft f64 (DOps.prim _) (DOps.prim_lawful _) 8 (Fmt.divCfg_f64 (by omega))

end Verif
