import Verif.Libm.RoundNearest
/-!
# Model of the min/max families and fdim (libm/src/math/generic/)
-/
namespace Verif
namespace Fmt
variable (F : Fmt)

/-- `canonicalize`, float_traits.rs 227-232. -/
def canonicalize (N : FPU F) (x : BitVec F.w) : BitVec F.w := N.mul x F.one

/-- `fmax`, fmax.rs 24-27. -/
def fmax (N : FPU F) (x y : BitVec F.w) : BitVec F.w :=
  F.canonicalize N (if F.isNan x || F.lt x y then y else x)

/-- `fmin`, fmin.rs 24-27. -/
def fmin (N : FPU F) (x y : BitVec F.w) : BitVec F.w :=
  F.canonicalize N (if F.isNan y || F.lt x y then x else y)

/-- `fmaximum`, fmaximum.rs 16-28. -/
def fmaximum (N : FPU F) (x y : BitVec F.w) : BitVec F.w :=
  F.canonicalize N
    (if F.isNan x then x
     else if F.isNan y then y
     else if F.gt x y || ((y == F.negZero) && !F.sign x) then x
     else y)

/-- `fminimum`, fminimum.rs 16-28. -/
def fminimum (N : FPU F) (x y : BitVec F.w) : BitVec F.w :=
  F.canonicalize N
    (if F.isNan x then x
     else if F.isNan y then y
     else if F.lt x y || ((x == F.negZero) && !F.sign y) then x
     else y)

/-- `fmaximum_num`, fmaximum_num.rs 18-30. -/
def fmaximumNum (N : FPU F) (x y : BitVec F.w) : BitVec F.w :=
  F.canonicalize N
    (if F.gt x y || F.isNan y then x
     else if F.gt y x || F.isNan x then y
     else if !F.sign x then x
     else y)

/-- `fminimum_num`, fminimum_num.rs 18-30. -/
def fminimumNum (N : FPU F) (x y : BitVec F.w) : BitVec F.w :=
  F.canonicalize N
    (if F.gt x y || F.isNan x then y
     else if F.gt y x || F.isNan y then x
     else if !F.sign x then y
     else x)

/-- `fdim`, fdim.rs 4-6. -/
def fdim (N : FPU F) (x y : BitVec F.w) : BitVec F.w :=
  if F.le x y then F.zero else N.sub x y

/-! ### Facts -/

theorem one_val : F.IsFin F.one ∧ F.val F.one = 1 := by
  obtain ⟨o1, o2, _, _⟩ := F.one_facts
  exact ⟨F.isFin_of_exp o2 (by omega), by rw [F.val_sign, o1, o2, F.magVal_one]; simp⟩

theorem canonicalize_nan (N : FPU F) {x : BitVec F.w} (h : F.IsNaN x) : F.IsNaN (F.canonicalize N x) :=
  (N.mul_spec x F.one).2.1 (Or.inl h)

theorem canonicalize_eq (N : FPU F) {x : BitVec F.w} (h : ¬ F.IsNaN x) : F.canonicalize N x = x := by
  obtain ⟨o1, o2⟩ := F.one_val
  obtain ⟨o3, o4, _, _⟩ := F.one_facts
  have hsp := N.mul_spec x F.one
  unfold canonicalize
  rcases F.isFin_or x with hx | hx | hx
  · obtain ⟨h1, h2⟩ := hsp.1 hx o1
    rw [o2, mul_one] at h1
    have := (Rounds.exact F h1 hx.le rfl).1
    rw [o3, Bool.xor_false] at h2
    exact F.ext_sign_mag h2 this
  · have h3 := hsp.2.2 h (IsFin.not_nan F o1) (Or.inl hx)
    rw [if_neg] at h3
    · obtain ⟨h4, h5⟩ := h3
      rw [o3, Bool.xor_false] at h5
      exact F.ext_sign_mag h5 (by unfold IsInf at h4 hx; omega)
    · rintro (hz | hz)
      · exact IsInf.not_fin F hx (IsZero.isFin F hz)
      · rw [show F.val F.one = 0 from F.val_eq_zero_iff.mpr hz] at o2
        norm_num at o2
  · exact absurd hx h

theorem extVal_le_iff {a b : BitVec F.w} (ha : ¬ F.IsNaN a) (hb : ¬ F.IsNaN b) :
    F.extVal a ≤ F.extVal b ↔ F.smag a ≤ F.smag b := by
  rw [← not_lt, F.extVal_lt_iff hb ha, not_lt]

theorem smag_zero_iff {a : BitVec F.w} : F.smag a = 0 ↔ F.mag a = 0 := by
  unfold smag; split <;> omega

/-- equal signed magnitudes: the same pattern, or two zeros -/
theorem eq_or_zero {a b : BitVec F.w} (h : F.smag a = F.smag b) : a = b ∨ (F.mag a = 0 ∧ F.mag b = 0) := by
  by_cases hz : F.mag a = 0
  · exact Or.inr ⟨hz, F.smag_zero_iff.mp (by rw [← h]; exact F.smag_zero_iff.mpr hz)⟩
  · left
    have hb : F.mag b ≠ 0 := fun hb => hz (F.smag_zero_iff.mp (by rw [h]; exact F.smag_zero_iff.mpr hb))
    unfold smag at h
    cases ha : F.sign a <;> cases hb' : F.sign b <;> rw [ha, hb'] at h <;> simp at h
    · exact F.ext_sign_mag (by rw [ha, hb']) h
    · omega
    · omega
    · exact F.ext_sign_mag (by rw [ha, hb']) h

theorem eq_negZero_iff {a : BitVec F.w} : a = F.negZero ↔ F.sign a = true ∧ F.mag a = 0 := by
  obtain ⟨_, _, z3, z4⟩ := F.zero_facts
  constructor
  · rintro rfl; exact ⟨z3, z4⟩
  · rintro ⟨h1, h2⟩; exact F.ext_sign_mag (by rw [h1, z3]) (by rw [h2, z4])

/-! ### Determinism and symmetry of IEEE-754 addition and multiplication -/

theorem Rounds.mag_unique {x : ℚ} {r r' : BitVec F.w} (h : F.Rounds x r) (h' : F.Rounds x r') :
    F.mag r = F.mag r' ∧ (x ≠ 0 → F.sign r = F.sign r') := by
  refine ⟨IsRNE.unique F h.1 h'.1, fun h0 => ?_⟩
  rw [Bool.eq_iff_iff, h.2 h0, h'.2 h0]

theorem Rounds.not_nan {x : ℚ} {r : BitVec F.w} (h : F.Rounds x r) : ¬ F.IsNaN r := by
  have := h.1.1
  unfold IsNaN; omega

theorem AddSpec.unique {a b r r' : BitVec F.w} (h : F.AddSpec a b r) (h' : F.AddSpec a b r') :
    r = r' ∨ (F.IsNaN r ∧ F.IsNaN r') := by
  obtain ⟨h1, h2, h3, h4⟩ := h
  obtain ⟨h1', h2', h3', h4'⟩ := h'
  rcases F.isFin_or a with ha | ha | ha
  · rcases F.isFin_or b with hb | hb | hb
    · obtain ⟨p, q⟩ := h1 ha hb
      obtain ⟨p', q'⟩ := h1' ha hb
      obtain ⟨m, s⟩ := Rounds.mag_unique F p p'
      left
      by_cases h0 : F.val a + F.val b = 0
      · exact F.ext_sign_mag (by rw [q h0, q' h0]) m
      · exact F.ext_sign_mag (s h0) m
    · left; rw [h4 ha hb, h4' ha hb]
    · exact Or.inr ⟨h2 (Or.inr hb), h2' (Or.inr hb)⟩
  · by_cases hb : F.IsNaN b
    · exact Or.inr ⟨h2 (Or.inr hb), h2' (Or.inr hb)⟩
    · have a1 := h3 ha hb
      have a2 := h3' ha hb
      split at a1
      · rename_i hc; rw [if_pos hc] at a2; exact Or.inr ⟨a1, a2⟩
      · rename_i hc; rw [if_neg hc] at a2; left; rw [a1, a2]
  · exact Or.inr ⟨h2 (Or.inl ha), h2' (Or.inl ha)⟩

theorem AddSpec.symm {a b r : BitVec F.w} (h : F.AddSpec a b r) : F.AddSpec b a r := by
  obtain ⟨h1, h2, h3, h4⟩ := h
  refine ⟨fun hb ha => ?_, fun h => h2 h.symm, fun hb ha => ?_, fun hb ha => ?_⟩
  · obtain ⟨p, q⟩ := h1 ha hb
    rw [add_comm] at p q
    exact ⟨p, fun h0 => by rw [q h0, Bool.and_comm]⟩
  · rcases F.isFin_or a with ha' | ha' | ha'
    · rw [if_neg (fun h => IsFin.not_inf F ha' h.1)]; exact h4 ha' hb
    · have := h3 ha' (IsInf.not_nan F hb)
      by_cases hs : F.sign a = F.sign b
      · rw [if_neg (fun h => h.2 hs.symm)]
        rw [if_neg (fun h => h.2 hs)] at this
        rw [this]
        exact F.ext_sign_mag hs (by unfold IsInf at ha' hb; omega)
      · rw [if_pos ⟨ha', fun h => hs h.symm⟩]
        rw [if_pos ⟨hb, hs⟩] at this
        exact this
    · exact absurd ha' ha
  · have := h3 ha (IsFin.not_nan F hb)
    rwa [if_neg (fun h => IsFin.not_inf F hb h.1)] at this

theorem Rounds.neg {x : ℚ} {r : BitVec F.w} (h : F.Rounds x r) : F.Rounds (-x) (F.neg r) := by
  refine ⟨by rw [abs_neg, F.mag_neg]; exact h.1, fun h0 => ?_⟩
  have h0' : x ≠ 0 := fun h => h0 (by rw [h, neg_zero])
  have := h.2 h0'
  rw [F.sign_neg, Bool.not_eq_true', ← Bool.not_eq_true, this, not_lt, neg_lt_zero]
  exact ⟨fun h => lt_of_le_of_ne h h0'.symm, le_of_lt⟩

theorem neg_neg (a : BitVec F.w) : F.neg (F.neg a) = a := by
  unfold Fmt.neg; rw [BitVec.xor_assoc, BitVec.xor_self, BitVec.xor_zero]

/-- negating both operands of a sum negates the result, except for the sign of an exact zero sum -/
theorem AddSpec.neg {a b r : BitVec F.w} (h : F.AddSpec a b r) (hr : ¬ F.IsNaN r) (h0 : ¬ (F.IsFin a ∧ F.IsFin b ∧ F.val a + F.val b = 0)) :
    F.AddSpec (F.neg a) (F.neg b) (F.neg r) := by
  obtain ⟨h1, h2, h3, h4⟩ := h
  refine ⟨fun ha hb => ?_, fun h => ?_, fun ha hb => ?_, fun ha hb => ?_⟩
  · rw [F.isFin_neg] at ha hb
    obtain ⟨p, q⟩ := h1 ha hb
    rw [F.val_neg, F.val_neg]
    have e : -F.val a + -F.val b = -(F.val a + F.val b) := by ring
    rw [e]
    refine ⟨Rounds.neg F p, fun h => absurd ⟨ha, hb, by linarith⟩ h0⟩
  · rw [F.isNaN_neg, F.isNaN_neg] at h
    exact absurd (h2 h) hr
  · rw [F.isInf_neg] at ha
    rw [F.isNaN_neg] at hb
    have := h3 ha hb
    simp only [F.isInf_neg, F.sign_neg]
    have e : ((!F.sign a) ≠ (!F.sign b)) ↔ F.sign a ≠ F.sign b := by
      cases F.sign a <;> cases F.sign b <;> simp
    simp only [e]
    split
    · rename_i hc; rw [if_pos hc] at this; exact absurd this hr
    · rename_i hc; rw [if_neg hc] at this; rw [this]
  · rw [F.isFin_neg] at ha
    rw [F.isInf_neg] at hb
    rw [h4 ha hb]

theorem MulSpec.unique {a b r r' : BitVec F.w} (h : F.MulSpec a b r) (h' : F.MulSpec a b r') :
    r = r' ∨ (F.IsNaN r ∧ F.IsNaN r') := by
  obtain ⟨h1, h2, h3⟩ := h
  obtain ⟨h1', h2', h3'⟩ := h'
  by_cases hn : F.IsNaN a ∨ F.IsNaN b
  · exact Or.inr ⟨h2 hn, h2' hn⟩
  push Not at hn
  by_cases hi : F.IsInf a ∨ F.IsInf b
  · have a1 := h3 hn.1 hn.2 hi
    have a2 := h3' hn.1 hn.2 hi
    split at a1
    · rename_i hc; rw [if_pos hc] at a2; exact Or.inr ⟨a1, a2⟩
    · rename_i hc; rw [if_neg hc] at a2
      left
      exact F.ext_sign_mag (by rw [a1.2, a2.2]) (by have := a1.1; have := a2.1; unfold IsInf at *; omega)
  · push Not at hi
    have ha : F.IsFin a := by have := F.isFin_or a; tauto
    have hb : F.IsFin b := by have := F.isFin_or b; tauto
    obtain ⟨p, q⟩ := h1 ha hb
    obtain ⟨p', q'⟩ := h1' ha hb
    left
    exact F.ext_sign_mag (by rw [q, q']) (Rounds.mag_unique F p p').1

theorem MulSpec.symm {a b r : BitVec F.w} (h : F.MulSpec a b r) : F.MulSpec b a r := by
  obtain ⟨h1, h2, h3⟩ := h
  refine ⟨fun hb ha => ?_, fun h => h2 h.symm, fun hb ha hi => ?_⟩
  · obtain ⟨p, q⟩ := h1 ha hb
    rw [mul_comm] at p
    exact ⟨p, by rw [q, Bool.xor_comm]⟩
  · have := h3 ha hb hi.symm
    simp only [or_comm (a := F.IsZero b), Bool.xor_comm (F.sign b)]; exact this

theorem MulSpec.neg_left {a b r : BitVec F.w} (h : F.MulSpec a b r) : F.MulSpec (F.neg a) b (F.neg r) := by
  obtain ⟨h1, h2, h3⟩ := h
  refine ⟨fun ha hb => ?_, fun h => ?_, fun ha hb hi => ?_⟩
  · rw [F.isFin_neg] at ha
    obtain ⟨p, q⟩ := h1 ha hb
    rw [F.val_neg, neg_mul, F.sign_neg, F.sign_neg, q]
    exact ⟨Rounds.neg F p, by cases F.sign a <;> cases F.sign b <;> rfl⟩
  · rw [F.isNaN_neg] at h ⊢; exact h2 h
  · rw [F.isNaN_neg] at ha
    rw [F.isInf_neg] at hi
    have := h3 ha hb hi
    have hz : F.IsZero (F.neg a) ↔ F.IsZero a := by unfold IsZero; rw [F.mag_neg]
    simp only [hz, F.isInf_neg, F.isNaN_neg, F.sign_neg]
    split
    · rename_i hc; rw [if_pos hc] at this; exact this
    · rename_i hc; rw [if_neg hc] at this
      exact ⟨this.1, by rw [this.2]; cases F.sign a <;> cases F.sign b <;> rfl⟩

end Fmt
end Verif

namespace Verif
namespace Fmt
variable (F : Fmt)

theorem add_total (a b : BitVec F.w) : ∃ r, F.add a b = .ok r := by
  rcases F.isFin_or a with ha | ha | ha
  · rcases F.isFin_or b with hb | hb | hb
    · obtain ⟨r, h, _⟩ := F.add_fin ha hb; exact ⟨r, h⟩
    · exact ⟨_, F.add_inf_right ha hb⟩
    · obtain ⟨r, h, _⟩ := F.add_nan (a := a) (Or.inr hb); exact ⟨r, h⟩
  · by_cases hb : F.IsNaN b
    · obtain ⟨r, h, _⟩ := F.add_nan (a := a) (Or.inr hb); exact ⟨r, h⟩
    · obtain ⟨r, h, _⟩ := F.add_inf_left ha hb; exact ⟨r, h⟩
  · obtain ⟨r, h, _⟩ := F.add_nan (b := b) (Or.inl ha); exact ⟨r, h⟩

theorem mul_total {O : DOps F.w} (hO : O.Lawful) (a b : BitVec F.w) : ∃ r, F.mul O a b = .ok r := by
  by_cases hn : F.IsNaN a ∨ F.IsNaN b
  · obtain ⟨r, h, _⟩ := F.mul_nan (O := O) hn; exact ⟨r, h⟩
  push Not at hn
  by_cases hi : F.IsInf a ∨ F.IsInf b
  · obtain ⟨r, h, _⟩ := F.mul_inf (O := O) hn.1 hn.2 hi; exact ⟨r, h⟩
  push Not at hi
  obtain ⟨r, h, _⟩ := F.mul_fin hO (a := a) (b := b) (by have := F.isFin_or a; tauto) (by have := F.isFin_or b; tauto)
  exact ⟨r, h⟩

end Fmt
end Verif
