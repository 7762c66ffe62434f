import Verif.Libm.SqrtMain
/-! # Property C43: square root -/
namespace Verif.Props
open Fmt

/-- Specification of IEEE-754 `squareRoot` (round to nearest), with the status `st`: for a non-negative finite argument the
pattern nearest (ties to even) to the real square root, with the sign of the argument (`sqrt(-0) = -0`); `+∞` for `+∞`; a quiet
NaN, reported as invalid, for a NaN or a negative argument. -/
def SqrtSpec (F : Fmt) (x r : BitVec F.w) (st : Status) : Prop :=
  (F.IsFin x → 0 ≤ F.val x → F.IsRNE (Real.sqrt (F.val x : ℝ)) (F.mag r) ∧ F.sign r = F.sign x ∧ st = Status.OK) ∧
  (F.IsInf x → F.sign x = false → r = x ∧ st = Status.OK) ∧
  (F.IsNaN x ∨ (F.sign x = true ∧ ¬ F.IsZero x) → F.IsQNaN r ∧ st = Status.INVALID)

theorem sqrt_spec {F : Fmt} (hF : SqrtFmt F) (N : FPU F) {C : SqrtCfg F} (hC : IterSpec F C) (x : BitVec F.w) :
    ∃ r st, F.sqrtRound N C x = .ok (r, st) ∧ SqrtSpec F x r st := by
  have hx := F.toNat_eq x
  have hil := F.infRep_lt
  have hip : 0 < F.infRep := by
    unfold infRep
    exact Nat.mul_pos (by have := F.pe_ge; omega) (Nat.two_pow_pos _)
  have hml := F.mag_lt x
  by_cases h0 : F.mag x = 0
  · refine ⟨x, Status.OK, by rw [sqrtRound_special N (Or.inl h0), if_pos (Or.inl h0)], ?_, ?_, ?_⟩
    · intro _ _
      refine ⟨?_, rfl, rfl⟩
      rw [F.val_sign, h0]
      have e : F.magVal ℚ 0 = 0 := by rw [F.magVal_eq]; simp [valU]
      rw [e, mul_zero, Rat.cast_zero, Real.sqrt_zero]
      have := F.isRNEu_exact (K := ℝ) (n := 0) (by omega)
      rw [← F.isRNE_iff, ← F.magVal_eq] at this
      have e' : F.magVal ℝ 0 = 0 := by rw [F.magVal_eq]; simp [valU]
      rwa [e'] at this
    · intro h _; unfold IsInf at h; omega
    · intro h
      exfalso
      unfold IsNaN IsZero at h
      omega
  by_cases h1 : F.sign x = false ∧ F.mag x < F.infRep
  · have hx' : x.toNat = F.mag x := by rw [hx, h1.1]; simp
    obtain ⟨⟨r, st⟩, e, a, b, c⟩ := sqrtRound_pos hF N hC (x := x) (by omega) (by omega)
    dsimp only at a b c
    refine ⟨r, st, e, ?_, ?_, ?_⟩
    · intro _ _
      refine ⟨?_, by rw [b, h1.1], a⟩
      rw [F.val_sign, h1.1]
      simpa using c
    · intro h _; unfold IsInf at h; omega
    · intro h
      exfalso
      unfold IsNaN at h
      rw [h1.1] at h
      rcases h with h | h
      · omega
      · exact Bool.false_ne_true h.1
  · have hge : F.infRep ≤ x.toNat := by
      cases hs : F.sign x
      · have : ¬ F.mag x < F.infRep := fun h => h1 ⟨hs, h⟩
        omega
      · rw [hx, hs]; simp; omega
    by_cases h2 : x = F.expMask
    · refine ⟨x, Status.OK, by rw [sqrtRound_special N (Or.inr hge), if_pos (Or.inr h2)], ?_, ?_, ?_⟩
      all_goals obtain ⟨sx, mx⟩ := F.sign_mag_of (b := x) (t := false) (n := F.infRep) hil (by rw [h2, F.toNat_expMask]; simp)
      · intro h; unfold IsFin at h; omega
      · intro _ _; exact ⟨rfl, rfl⟩
      · intro h
        exfalso
        unfold IsNaN at h
        rw [sx] at h
        rcases h with h | h
        · omega
        · exact Bool.false_ne_true h.1
    · refine ⟨F.qnanRep, Status.INVALID, by
        rw [sqrtRound_special N (Or.inr hge), if_neg (fun hh : F.mag x = 0 ∨ x = F.expMask => hh.elim h0 h2)], ?_, ?_, ?_⟩
      · intro hf hv
        exfalso
        cases hs : F.sign x
        · exact h1 ⟨hs, hf⟩
        · have h3 := F.val_sign x
          rw [hs] at h3
          have h4 := F.magVal_nonneg ℚ (F.mag x)
          have h5 : F.val x = 0 := by
            simp at h3
            linarith
          exact h0 (F.val_eq_zero_iff.mp h5)
      · intro h hs
        exfalso
        apply h2
        apply BitVec.eq_of_toNat_eq
        rw [hx, hs, F.toNat_expMask, h]; simp
      · intro _; exact ⟨F.isQNaN_qnanRep, rfl⟩

theorem sqrtFmt_f16 : SqrtFmt f16 := ⟨by decide, by decide, by decide⟩
theorem sqrtFmt_f32 : SqrtFmt f32 := ⟨by decide, by decide, by decide⟩
theorem sqrtFmt_f64 : SqrtFmt f64 := ⟨by decide, by decide, by decide⟩
theorem sqrtFmt_f128 : SqrtFmt f128 := ⟨by decide, by decide, by decide⟩

/-- C43, `sqrtf16`: every step stays in range and the result is the correctly rounded square root, for all arguments. -/
theorem C43_sqrtf16 (N : FPU f16) (x : BitVec f16.w) : ∃ r st, f16.sqrtRound N SqrtCfg.f16 x = .ok (r, st) ∧ SqrtSpec f16 x r st :=
  sqrt_spec sqrtFmt_f16 N iterSpec_f16 x
/-- C43, `sqrtf`. -/
theorem C43_sqrtf (N : FPU f32) (x : BitVec f32.w) : ∃ r st, f32.sqrtRound N SqrtCfg.f32 x = .ok (r, st) ∧ SqrtSpec f32 x r st :=
  sqrt_spec sqrtFmt_f32 N iterSpec_f32 x
/-- C43, `sqrt`. -/
theorem C43_sqrt (N : FPU f64) (x : BitVec f64.w) : ∃ r st, f64.sqrtRound N SqrtCfg.f64 x = .ok (r, st) ∧ SqrtSpec f64 x r st :=
  sqrt_spec sqrtFmt_f64 N iterSpec_f64 x
/-- C43, `sqrtf128`. -/
theorem C43_sqrtf128 (N : FPU f128) (x : BitVec f128.w) : ∃ r st, f128.sqrtRound N SqrtCfg.f128 x = .ok (r, st) ∧ SqrtSpec f128 x r st :=
  sqrt_spec sqrtFmt_f128 N iterSpec_f128 x

-- sqrt 2, sqrt 9 = 3, the least subnormal, the largest finite number, -0, +inf, -1
example : f64.sqrtRound FPU.softF64 SqrtCfg.f64 0x4000000000000000#f64.w = .ok (0x3ff6a09e667f3bcd#f64.w, Status.OK) ∧
    f64.sqrtRound FPU.softF64 SqrtCfg.f64 0x4022000000000000#f64.w = .ok (0x4008000000000000#f64.w, Status.OK) ∧
    f64.sqrtRound FPU.softF64 SqrtCfg.f64 0x0000000000000001#f64.w = .ok (0x1e60000000000000#f64.w, Status.OK) ∧
    f64.sqrtRound FPU.softF64 SqrtCfg.f64 0x7fefffffffffffff#f64.w = .ok (0x5fefffffffffffff#f64.w, Status.OK) ∧
    f64.sqrtRound FPU.softF64 SqrtCfg.f64 0x8000000000000000#f64.w = .ok (0x8000000000000000#f64.w, Status.OK) ∧
    f64.sqrtRound FPU.softF64 SqrtCfg.f64 0x7ff0000000000000#f64.w = .ok (0x7ff0000000000000#f64.w, Status.OK) ∧
    f64.sqrtRound FPU.softF64 SqrtCfg.f64 0xbff0000000000000#f64.w = .ok (0x7ff8000000000000#f64.w, Status.INVALID) := by
  decide +kernel
example : f16.sqrtRound (FPU.ideal f16) SqrtCfg.f16 0x4000#f16.w = .ok (0x3da8#f16.w, Status.OK) ∧
    f16.sqrtRound (FPU.ideal f16) SqrtCfg.f16 0x0001#f16.w = .ok (0x0c00#f16.w, Status.OK) ∧
    f32.sqrtRound FPU.softF32 SqrtCfg.f32 0x40000000#f32.w = .ok (0x3fb504f3#f32.w, Status.OK) ∧
    f32.sqrtRound FPU.softF32 SqrtCfg.f32 0x00000001#f32.w = .ok (0x1a3504f3#f32.w, Status.OK) ∧
    f128.sqrtRound (FPU.ideal f128) SqrtCfg.f128 0x40000000000000000000000000000000#f128.w =
      .ok (0x3fff6a09e667f3bcc908b2fb1366ea95#f128.w, Status.OK) := by
  decide +kernel

end Verif.Props
