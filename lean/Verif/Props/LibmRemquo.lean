import Verif.Libm.Remquo
/-! # Property C47: remquo and remainder -/
namespace Verif.Props
open Fmt

/-- `n` is the integer nearest to `q`, the even one if two are equally near -/
def NearestEven (q : ℚ) (n : ℤ) : Prop := |q - n| ≤ 1 / 2 ∧ (|q - n| = 1 / 2 → Even n)

/-- The IEEE-754 remainder of finite `x` by finite non-zero `y` together with the low 31 bits of the quotient:
`r = x - n * y` exactly, where `n` is the integer nearest `x / y`; `quo` has the sign of `n` and agrees with it modulo `2^31`;
a zero remainder has the sign of `x`. -/
def IsRemquo (F : Fmt) (x y r : BitVec F.w) (quo : ℤ) : Prop :=
  F.IsFin r ∧ (F.IsZero r → F.sign r = F.sign x) ∧
  ∃ n : ℤ, NearestEven (F.val x / F.val y) n ∧ F.val r = F.val x - n * F.val y ∧ quo = n.tmod (2 ^ 31)

theorem isRemquo_of (F : Fmt) {x y : BitVec F.w} {r : BitVec F.w × Int} (hz : ¬ F.IsZero y)
    (h : F.RqRes (F.sign x) (F.sign y) (F.valU (F.mag x)) (F.valU (F.mag y)) r) : IsRemquo F x y r.1 r.2 := by
  obtain ⟨h1, h2, h3, h4⟩ := h
  have hu := F.ulp0_pos ℚ
  have hY0 : 0 < F.valU (F.mag y) := by
    have := F.valU_lt_iff.mpr (Nat.pos_of_ne_zero hz); rwa [F.valU_zero] at this
  have hx : F.val x = (if F.sign x then -1 else 1) * (F.valU (F.mag x) * F.ulp0 ℚ) := by rw [F.val_sign, F.magVal_eq]
  have hy : F.val y = (if F.sign y then -1 else 1) * (F.valU (F.mag y) * F.ulp0 ℚ) := by rw [F.val_sign, F.magVal_eq]
  have hr : F.val r.1 = (if F.sign r.1 then -1 else 1) * (F.valU (F.mag r.1) * F.ulp0 ℚ) := by rw [F.val_sign, F.magVal_eq]
  have hrz : F.IsZero r.1 ↔ F.valU (F.mag r.1) = 0 := by
    have := F.valU_inj (m := F.mag r.1) (n := 0)
    rw [F.valU_zero] at this
    exact this.symm
  unfold IsRemquo
  rw [hrz]
  generalize F.valU (F.mag r.1) = A at *
  generalize F.valU (F.mag x) = X at *
  generalize F.valU (F.mag y) = Y at *
  rw [h2] at hr
  rw [h2]
  generalize F.sign x = sx at *
  generalize F.sign y = sy at *
  have hRY := Nat.mod_lt X hY0
  have hdm := Nat.div_add_mod X Y
  have hYq : (0 : ℚ) < Y := by exact_mod_cast hY0
  -- the quotient of the magnitudes
  obtain ⟨n0, hn0⟩ : ∃ n0 : ℕ, n0 = X / Y + if RqUp X Y then 1 else 0 := ⟨_, rfl⟩
  rw [← hn0] at h4
  have hdmQ : (Y : ℚ) * (X / Y : Nat) + (X % Y : Nat) = X := by exact_mod_cast hdm
  have hA : (X : ℚ) - n0 * Y = (if RqUp X Y then -1 else 1) * (A : ℚ) := by
    rw [h3, hn0]
    split
    · rw [Nat.cast_sub hRY.le]; push_cast; linarith
    · push_cast; linarith
  have hA2 : 2 * A ≤ Y ∧ (2 * A = Y → n0 % 2 = 0) := by
    rw [h3, hn0]
    by_cases hup : RqUp X Y
    · rw [if_pos hup, if_pos hup]
      unfold RqUp at hup
      omega
    · rw [if_neg hup, if_neg hup]
      unfold RqUp at hup
      omega
  have habs : |(X : ℚ) / Y - n0| = (A : ℚ) / Y := by
    have e : (X : ℚ) / Y - n0 = (if RqUp X Y then -1 else 1) * ((A : ℚ) / Y) := by
      rw [← mul_div_assoc, ← hA]; field_simp
    have h0 : (0 : ℚ) ≤ (A : ℚ) / Y := by positivity
    rw [e]
    split <;> simp [abs_of_nonneg h0]
  have hzero : A = 0 → ¬ RqUp X Y := by
    intro hA0 hup
    rw [if_pos hup] at h3
    omega
  refine ⟨h1, fun hA0 => by simp [hzero hA0], (if sx ^^ sy then -1 else 1) * (n0 : ℤ), ?_, ?_, ?_⟩
  · have hdiv : F.val x / F.val y = (if sx ^^ sy then -1 else 1) * ((X : ℚ) / Y) := by
      rw [hx, hy, mul_div_mul_comm, mul_div_mul_right _ _ hu.ne']
      cases sx <;> cases sy <;> norm_num
    have hdif : F.val x / F.val y - (((if sx ^^ sy then -1 else 1) * (n0 : ℤ) : ℤ) : ℚ) =
        (if sx ^^ sy then -1 else 1) * ((X : ℚ) / Y - n0) := by
      rw [hdiv]
      cases sx <;> cases sy <;> norm_num <;> ring
    have ha : |F.val x / F.val y - (((if sx ^^ sy then -1 else 1) * (n0 : ℤ) : ℤ) : ℚ)| = (A : ℚ) / Y := by
      rw [hdif, abs_mul, habs]
      cases sx <;> cases sy <;> norm_num
    unfold NearestEven
    rw [ha]
    constructor
    · rw [div_le_iff₀ hYq]
      have : (2 : ℚ) * A ≤ Y := by exact_mod_cast hA2.1
      linarith
    · intro he
      rw [div_eq_iff hYq.ne'] at he
      have h5 : (2 : ℚ) * A = Y := by linarith
      have h6 : n0 % 2 = 0 := hA2.2 (by exact_mod_cast h5)
      have h7 : Even (n0 : ℤ) := by exact_mod_cast Nat.even_iff.mpr h6
      exact h7.mul_left _
  · rw [hr, hx, hy]
    have h8 : (X : ℚ) = n0 * Y + (if RqUp X Y then -1 else 1) * (A : ℚ) := by linarith
    rw [h8]
    by_cases hup : RqUp X Y <;> cases sx <;> cases sy <;> simp [hup] <;> ring
  · rw [h4]
    have h9 : ((n0 : ℤ)).tmod (2 ^ 31) = ((n0 % 2 ^ 31 : Nat) : ℤ) := by
      rw [Int.tmod_eq_emod_of_nonneg (by omega)]; norm_num
    split
    · rw [neg_one_mul, neg_one_mul, Int.neg_tmod, h9]
    · rw [one_mul, one_mul, h9]

/-- C47: `remquo` (f64) on finite operands. The computation has no overflow, out-of-range shift or unbounded loop. -/
theorem C47_remquo_finite (N : FPU f64) {x y : BitVec f64.w} (hx : f64.IsFin x) (hy : f64.IsFin y) (hz : ¬ f64.IsZero y) :
    ∃ r quo, remquo N x y = .ok (r, quo) ∧ IsRemquo f64 x y r quo := by
  obtain ⟨⟨r, quo⟩, h1, h2⟩ := f64.remquoG_fin N (incr := fun q => pure (q + 1#32)) (sent := -60) (by decide) (by decide)
    (fun q _ => Ok.pure' (by rw [BitVec.toNat_add]; rfl)) hx hy hz
  exact ⟨r, quo, h1, isRemquo_of f64 hz h2⟩
-- 5.5 = 3 * 2 - 0.5; the tie 5 = 2 * 2 + 1; 1e308 by 3.0 needs more than 31 bits of quotient
example : remquo FPU.softF64 0x4016000000000000#f64.w 0x4000000000000000#f64.w = .ok (0xBFE0000000000000#f64.w, 3) ∧
    remquo FPU.softF64 0xC014000000000000#f64.w 0x4000000000000000#f64.w = .ok (0xBFF0000000000000#f64.w, -2) ∧
    remquo FPU.softF64 0x7FE1CCF385EBC8A0#f64.w 0x4008000000000000#f64.w = .ok (0xBFF0000000000000#f64.w, 715827883) := by
  decide +kernel

/-- C47: `remquof` (f32) on finite operands; in particular the final checked increment of the quotient cannot overflow. -/
theorem C47_remquof_finite (N : FPU f32) {x y : BitVec f32.w} (hx : f32.IsFin x) (hy : f32.IsFin y) (hz : ¬ f32.IsZero y) :
    ∃ r quo, remquof N x y = .ok (r, quo) ∧ IsRemquo f32 x y r quo := by
  obtain ⟨⟨r, quo⟩, h1, h2⟩ := f32.remquoG_fin N (incr := fun q => addC q 1#32) (sent := -30) (by decide) (by decide)
    (fun q hq => by
      have h3 := hq (by decide)
      have h4 := q.isLt
      have h5 : (1#32).toNat = 1 := rfl
      exact Ok.mono (addC_spec (by omega)) (fun r hr => by omega)) hx hy hz
  exact ⟨r, quo, h1, isRemquo_of f32 hz h2⟩
example : remquof FPU.softF32 0x40B00000#f32.w 0xC0000000#f32.w = .ok (0xBF000000#f32.w, -3) := by decide +kernel

/-- C47: infinite divisor and invalid operands. -/
theorem C47_remquo_special (N : FPU f64) (x y : BitVec f64.w) :
    (f64.IsFin x → f64.IsInf y → remquo N x y = .ok (x, 0)) ∧
    (f64.IsInf x ∨ f64.IsNaN x ∨ f64.IsNaN y ∨ f64.IsZero y → ∃ r, remquo N x y = .ok (r, 0) ∧ f64.IsNaN r) := by
  refine ⟨fun h1 h2 => f64.remquoG_inf N _ _ h1 h2, fun h => f64.remquoG_invalid N _ _ ?_⟩
  rcases h with h | h | h
  · exact Or.inl (IsInf.not_fin _ h)
  · exact Or.inl (IsNaN.not_fin _ h)
  · exact Or.inr h
theorem C47_remquof_special (N : FPU f32) (x y : BitVec f32.w) :
    (f32.IsFin x → f32.IsInf y → remquof N x y = .ok (x, 0)) ∧
    (f32.IsInf x ∨ f32.IsNaN x ∨ f32.IsNaN y ∨ f32.IsZero y → ∃ r, remquof N x y = .ok (r, 0) ∧ f32.IsNaN r) := by
  refine ⟨fun h1 h2 => f32.remquoG_inf N _ _ h1 h2, fun h => f32.remquoG_invalid N _ _ ?_⟩
  rcases h with h | h | h
  · exact Or.inl (IsInf.not_fin _ h)
  · exact Or.inl (IsNaN.not_fin _ h)
  · exact Or.inr h
example : remquof FPU.softF32 0x7F7FFFFF#f32.w 0x7F800000#f32.w = .ok (0x7F7FFFFF#f32.w, 0) ∧
    ¬ f32.IsZero 0x7F800000#f32.w := by unfold IsZero; decide +kernel

/-- C47: `remainder` and `remainderf` return the remainder of `remquo`/`remquof`. -/
theorem C47_remainder (N : FPU f64) {x y : BitVec f64.w} (hx : f64.IsFin x) (hy : f64.IsFin y) (hz : ¬ f64.IsZero y) :
    ∃ r, remainder N x y = .ok r ∧ f64.IsFin r ∧ (f64.IsZero r → f64.sign r = f64.sign x) ∧
      ∃ n : ℤ, NearestEven (f64.val x / f64.val y) n ∧ f64.val r = f64.val x - n * f64.val y := by
  obtain ⟨r, quo, h1, h2, h3, n, h4, h5, _⟩ := C47_remquo_finite N hx hy hz
  exact ⟨r, by unfold remainder; rw [h1]; rfl, h2, h3, n, h4, h5⟩
theorem C47_remainderf (N : FPU f32) {x y : BitVec f32.w} (hx : f32.IsFin x) (hy : f32.IsFin y) (hz : ¬ f32.IsZero y) :
    ∃ r, remainderf N x y = .ok r ∧ f32.IsFin r ∧ (f32.IsZero r → f32.sign r = f32.sign x) ∧
      ∃ n : ℤ, NearestEven (f32.val x / f32.val y) n ∧ f32.val r = f32.val x - n * f32.val y := by
  obtain ⟨r, quo, h1, h2, h3, n, h4, h5, _⟩ := C47_remquof_finite N hx hy hz
  exact ⟨r, by unfold remainderf; rw [h1]; rfl, h2, h3, n, h4, h5⟩
example : f32.IsFin 0x40B00000#f32.w ∧ f32.IsFin 0xC0000000#f32.w ∧ ¬ f32.IsZero 0xC0000000#f32.w ∧
    remainderf FPU.softF32 0x40B00000#f32.w 0xC0000000#f32.w = .ok 0xBF000000#f32.w := by
  unfold IsFin IsZero; decide +kernel

end Verif.Props
