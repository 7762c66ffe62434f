import Verif.Libm.LogRed
/-! # The special results `-1/(x*x)` and `(x-x)/0`, in any format -/
namespace Verif
open Fmt
namespace Log
variable {F : Fmt}

/-- `-1/(x*x)` of a zero -/
theorem div_zero_inf (N : FPU F) {x m : BitVec F.w} (hx : F.mag x = 0) (hm : GFv F m (-1)) :
    F.IsInf (N.div m (N.mul x x)) ∧ F.sign (N.div m (N.mul x x)) = true := by
  have h0 : (0 : ℕ) < F.infRep := by
    have := F.magValR_lt_iff (m := 0) (n := F.infRep)
    rw [F.magValR_infRep, ← F.magVal_cast, F.magVal_zero] at this
    exact this.mp (by simp; positivity)
  have hf : F.IsFin x := by unfold IsFin; omega
  have hv : F.val x = 0 := by rw [F.val_sign, hx, F.magVal_zero]; simp
  obtain ⟨⟨hr, hsg⟩, -⟩ := ((N.mul_spec x x).1 hf hf), 0
  have hz : F.mag (N.mul x x) = 0 := by
    have h1 := (hr.1.2 0 (Nat.zero_le _)).1
    rw [hv, zero_mul, abs_zero, F.magVal_zero, sub_zero, zero_sub, abs_neg, abs_zero] at h1
    have h2 := abs_nonpos_iff.mp h1
    rw [← F.magVal_zero, F.magVal_inj] at h2
    exact h2
  obtain ⟨-, -, hd⟩ := N.div_spec m (N.mul x x)
  have hms : F.sign m = true := by
    by_contra hc
    have := hm.nonneg (by simpa using hc)
    linarith
  have hmz : F.mag m ≠ 0 := by
    intro hc
    have := hm.abs_eq
    rw [hc, ← F.magVal_cast, F.magVal_zero] at this
    norm_num at this
  have := hd hm.not_nan (by unfold IsNaN; omega) (Or.inr (Or.inr hz))
  rw [if_neg (by
    rintro (⟨_, h⟩ | ⟨h, _⟩)
    · unfold IsInf at h; omega
    · exact hmz h), if_neg (by unfold IsInf; omega)] at this
  refine ⟨this.2, ?_⟩
  rw [this.1, hms, hsg]
  cases F.sign x <;> rfl

/-- `(x-x)/0` -/
theorem sub_div_nan (N : FPU F) {x : BitVec F.w} : F.IsNaN (N.div (N.sub x x) 0#F.w) := by
  have h0 : (0 : ℕ) < F.infRep := by
    have := F.magValR_lt_iff (m := 0) (n := F.infRep)
    rw [F.magValR_infRep, ← F.magVal_cast, F.magVal_zero] at this
    exact this.mp (by simp; positivity)
  have z0 : F.mag 0#F.w = 0 := by unfold mag; simp
  obtain ⟨-, hd1, hd2⟩ := N.div_spec (N.sub x x) 0#F.w
  by_cases hx : F.IsFin x
  · obtain ⟨hr, -⟩ := N.sub_spec x x
    have hr := (hr hx (by unfold IsFin; rw [F.mag_neg]; exact hx)).1
    rw [F.val_neg, add_neg_cancel] at hr
    have hz : F.mag (N.sub x x) = 0 := by
      have h1 := (hr.1.2 0 (Nat.zero_le _)).1
      rw [abs_zero, F.magVal_zero, sub_zero, zero_sub, abs_neg, abs_zero] at h1
      have h2 := abs_nonpos_iff.mp h1
      rw [← F.magVal_zero, F.magVal_inj] at h2
      exact h2
    have := hd2 (by unfold IsNaN; omega) (by unfold IsNaN; omega) (Or.inr (Or.inr z0))
    rwa [if_pos (Or.inr ⟨hz, z0⟩)] at this
  · refine hd1 (Or.inl ?_)
    obtain ⟨_, h1, h2, _⟩ := N.sub_spec x x
    have hm : F.infRep ≤ F.mag x := not_lt.1 hx
    rcases Nat.eq_or_lt_of_le hm with h | h
    · have hi : F.IsInf x := h.symm
      have hn : F.mag (F.neg x) = F.mag x := F.mag_neg x
      have := h2 hi (by unfold IsNaN; omega)
      rw [if_pos ⟨by unfold IsInf; omega, by rw [F.sign_neg]; cases F.sign x <;> simp⟩] at this
      exact this
    · exact h1 (Or.inl h)
end Log
end Verif
