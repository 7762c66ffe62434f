import Verif.Libm.HypotTop
import Verif.Props.LibmFma
import Verif.Props.LibmSqrt
import Verif.Props.Conv
/-! # Property C57: `hypot` -/
namespace Verif.Props
open Fmt

/-- the exact value of `hypot` -/
noncomputable def hyp (x y : BitVec f64.w) : ℝ := Real.sqrt ((f64.val x : ℝ) ^ 2 + (f64.val y : ℝ) ^ 2)

/-- Exact values half-way between two numbers for which the wrong one is chosen: just above a power of two, on the first or third
tie. -/
def WrongTie (σ : ℝ) : Prop := ∃ j : ℤ, σ = 2 ^ j * (1 + 1 / 2 ^ 53) ∨ σ = 2 ^ j * (1 + 5 / 2 ^ 53)

/-- Exact values immediately below the half-way point under a power of two, by at most `15 * 2^-106` relative to half that power -/
def BlindSpot (σ : ℝ) : Prop := ∃ j : ℤ, 2 ^ j * (2 - 1 / 2 ^ 53 - 15 / 2 ^ 106) ≤ σ ∧ σ < 2 ^ j * (2 - 1 / 2 ^ 53)

/-- C57, what is claimed of `hypot`: correctly rounded, `+inf` if an argument is infinite, even if the other is NaN, and NaN for
other NaN arguments. -/
def HypotSpec (x y r : BitVec f64.w) : Prop :=
  (f64.IsFin x → f64.IsFin y → f64.sign r = false ∧ f64.IsRNE (hyp x y) (f64.mag r)) ∧
  (f64.IsInf x ∨ f64.IsInf y → r = f64.expMask) ∧
  (f64.IsNaN x ∨ f64.IsNaN y → ¬ f64.IsInf x → ¬ f64.IsInf y → f64.IsNaN r)

/-- the callees of `hypot` when the target has no instruction for `fma` and `sqrt`: `fma_round`, `sqrt` and `as` of this repository -/
def hypotOps (N : FPU f64) (C : IntCast f64) : HypotOps where
  N := N
  fma := f64.fmaRound N C (DOps.prim f64.w)
  sqrt := fun x => do
    let p ← f64.sqrtRound N SqrtCfg.f64 x
    pure p.1
  C := C
  toU64 := f64.floatToUnsigned 64

theorem hypotOps_lawful (N : FPU f64) (C : IntCast f64) : (hypotOps N C).Lawful where
  fma := fun x y z h => C44_fma_f64_partial N C x y z h
  sqrt := by
    intro x hx h0
    obtain ⟨r, st, e, h⟩ := C43_sqrt N x
    refine ⟨r, ?_, (h.1 hx h0).1, (h.1 hx h0).2.1⟩
    show (f64.sqrtRound N SqrtCfg.f64 x >>= _) = _
    rw [e]; rfl
  toU64 := by
    intro x hx h0 h1
    obtain ⟨r, e, h⟩ := C32_unsigned_finite (F := f64) (N := 64) ⟨by simp, by simp⟩ hx
    refine ⟨r, e, ?_⟩
    have ht : truncZ (f64.val x) = ⌊f64.val x⌋ := by unfold truncZ; rw [if_neg (not_lt.mpr h0)]
    have hf0 : 0 ≤ ⌊f64.val x⌋ := Int.floor_nonneg.mpr h0
    have hf1 : ⌊f64.val x⌋ < 2 ^ 64 := Int.floor_lt.mpr (by exact_mod_cast h1)
    unfold satTrunc at h
    rw [ht] at h
    refine Eq.trans (b := max 0 (min (2 ^ 64 - 1) ⌊f64.val x⌋)) h ?_
    omega

theorem wrongTie_of {σ : ℝ} (h : Hypot.Exc σ) : WrongTie σ := by
  obtain ⟨j, h⟩ := h
  unfold U at h
  refine ⟨j, ?_⟩
  rcases h with h | h
  · left; exact h
  · right; rw [h]; ring

theorem blindSpot_of {σ : ℝ} (h : Hypot.Blind σ) : BlindSpot σ := by
  obtain ⟨j, h1, h2⟩ := h
  unfold U at h1 h2
  refine ⟨j, ?_, h2⟩
  rwa [show (2 : ℝ) - 1 / 2 ^ 53 - 15 * (1 / 2 ^ 53) ^ 2 = 2 - 1 / 2 ^ 53 - 15 / 2 ^ 106 by norm_num] at h1

theorem hyp_eq (x y : BitVec f64.w) : hyp x y = Real.sqrt (f64.valK ℝ x ^ 2 + f64.valK ℝ y ^ 2) := by
  unfold hyp
  rw [f64.valK_cast, f64.valK_cast]

/-- C57, `hypot`, except at `WrongTie` and `BlindSpot` values. For all arguments, without overflow checks: no panic; with them: the
same result or an overflow panic. The full claim (`HypotSpec` always, no panic) is false, see `C57_tie_fails`,
`C57_blindspot_fails` and `C57_panics`. -/
theorem C57_hypot_partial {H : HypotOps} (hH : H.Lawful) (x y : BitVec f64.w) :
    ∃ r, Hypot.hypot H false x y = .ok r ∧ (Hypot.hypot H true x y = .ok r ∨ Hypot.hypot H true x y = .error .overflow) ∧
      ((f64.IsFin x → f64.IsFin y → ¬ WrongTie (hyp x y) ∧ ¬ BlindSpot (hyp x y)) → HypotSpec x y r) ∧
      (f64.IsFin x → f64.IsFin y → f64.sign r = false ∧ f64.Faithful (hyp x y) (f64.mag r)) := by
  by_cases h : f64.IsFin x ∧ f64.IsFin y
  · obtain ⟨r, e, h1, h2, h3⟩ := Hypot.hypot_good hH h.1 h.2
    rw [← hyp_eq] at h2 h3
    refine ⟨r, e, ?_, fun hb => ⟨fun _ _ => ⟨h1, ?_⟩, fun hi => ?_, fun hn => ?_⟩, fun _ _ => ⟨h1, h2⟩⟩
    · rcases Hypot.hypot_wk H x y with hw | hw
      · exact Or.inr hw
      · exact Or.inl (hw.trans e)
    · exact h3 (fun hc => (hb h.1 h.2).1 (wrongTie_of hc)) (fun hc => (hb h.1 h.2).2 (blindSpot_of hc))
    · rcases hi with hi | hi
      · exact absurd h.1 (hi.not_fin f64)
      · exact absurd h.2 (hi.not_fin f64)
    · rcases hn with hn | hn
      · exact absurd h.1 (hn.not_fin f64)
      · exact absurd h.2 (hn.not_fin f64)
  · obtain ⟨r, e, h1, h2⟩ := Hypot.hypot_special H false h
    obtain ⟨r', e', h1', _⟩ := Hypot.hypot_special H true h
    refine ⟨r, e, ?_, fun _ => ⟨fun hx hy => absurd ⟨hx, hy⟩ h, h1, fun _ => h2⟩, fun hx hy => absurd ⟨hx, hy⟩ h⟩
    rcases Hypot.hypot_wk H x y with hw | hw
    · exact Or.inr hw
    · exact Or.inl (hw.trans e)

/-- C57, infinite and NaN arguments: no panic, `+inf` if an argument is infinite (even if the other is NaN), NaN otherwise. -/
theorem C57_special (H : HypotOps) (chk : Bool) {x y : BitVec f64.w} (h : ¬ (f64.IsFin x ∧ f64.IsFin y)) :
    ∃ r, Hypot.hypot H chk x y = .ok r ∧ HypotSpec x y r := by
  obtain ⟨r, e, h1, h2⟩ := Hypot.hypot_special H chk h
  exact ⟨r, e, fun hx hy => absurd ⟨hx, hy⟩ h, h1, fun _ => h2⟩

/-- C57, exact results: when the exact value is a number (Pythagorean triples of any size and scale, a zero argument), it is
returned, whether or not it overflows in between. -/
theorem C57_exact {H : HypotOps} (hH : H.Lawful) {x y : BitVec f64.w} (hx : f64.IsFin x) (hy : f64.IsFin y) {z : BitVec f64.w}
    (hz : f64.IsFin z) (hz0 : f64.sign z = false) (h : f64.val x ^ 2 + f64.val y ^ 2 = f64.val z ^ 2) :
    Hypot.hypot H false x y = .ok z := by
  obtain ⟨r, e, _, _, h4⟩ := C57_hypot_partial hH x y
  obtain ⟨h5, h6⟩ := h4 hx hy
  rw [e]
  have hzv : f64.valK ℝ z = f64.magVal ℝ (f64.mag z) := Hypot.val_pos hz0
  have hs : hyp x y = f64.magVal ℝ (f64.mag z) := by
    unfold hyp
    rw [← Rat.cast_pow, ← Rat.cast_pow, ← Rat.cast_add, h, Rat.cast_pow, f64.valK_cast, hzv, Real.sqrt_sq (f64.magVal_nonneg ℝ _)]
  rw [hs] at h6
  have hzl : f64.mag z ≤ f64.infRep := le_of_lt hz
  have := h6.2 _ hzl
  have hm : f64.mag r = f64.mag z := le_antisymm (this.2 (le_refl _)) (this.1 (le_refl _))
  exact congrArg _ (f64.ext_sign_mag (by rw [h5, hz0]) hm)

/-- C57: the result is at least as large as both arguments, and infinite only if the exact value is at least the largest number. -/
theorem C57_bounds {H : HypotOps} (hH : H.Lawful) {x y : BitVec f64.w} (hx : f64.IsFin x) (hy : f64.IsFin y) :
    ∃ r, Hypot.hypot H false x y = .ok r ∧ f64.sign r = false ∧ f64.mag x ≤ f64.mag r ∧ f64.mag y ≤ f64.mag r ∧ ¬ f64.IsNaN r ∧
      (f64.IsInf r → f64.magVal ℝ (f64.infRep - 1) < hyp x y) := by
  obtain ⟨r, e, _, _, h4⟩ := C57_hypot_partial hH x y
  obtain ⟨h5, h6⟩ := h4 hx hy
  have le1 : ∀ z : BitVec f64.w, f64.valK ℝ z ^ 2 ≤ f64.valK ℝ x ^ 2 + f64.valK ℝ y ^ 2 → f64.magVal ℝ (f64.mag z) ≤ hyp x y := by
    intro z hz
    rw [hyp_eq, ← f64.absvR]
    exact Real.abs_le_sqrt hz
  have hxl : f64.mag x ≤ f64.infRep := le_of_lt hx
  have hyl : f64.mag y ≤ f64.infRep := le_of_lt hy
  refine ⟨r, e, h5, (h6.2 _ hxl).1 (le1 x ?_), (h6.2 _ hyl).1 (le1 y ?_), not_lt.mpr h6.1, fun hi => ?_⟩
  · nlinarith [sq_nonneg (f64.valK ℝ y)]
  · nlinarith [sq_nonneg (f64.valK ℝ x)]
  · by_contra hc
    have h7 := (h6.2 (f64.infRep - 1) (by omega)).2 (not_lt.mp hc)
    have hi' : f64.mag r = f64.infRep := hi
    have : 0 < f64.infRep := by rw [Hypot.inf64]; norm_num
    omega

/-- C57: the signs do not matter, and for finite arguments neither does the order. -/
theorem C57_symmetric (H : HypotOps) (chk : Bool) (x y : BitVec f64.w) :
    Hypot.hypot H chk (f64.neg x) y = Hypot.hypot H chk x y ∧ Hypot.hypot H chk x (f64.neg y) = Hypot.hypot H chk x y ∧
      (f64.IsFin x → f64.IsFin y → Hypot.hypot H chk y x = Hypot.hypot H chk x y) := by
  have key : ∀ a : BitVec f64.w, (f64.neg a) &&& ~~~f64.signMask = a &&& ~~~f64.signMask ∧ (f64.neg a) &&& f64.expMask = a &&& f64.expMask ∧
      (f64.neg a) <<< 1 = a <<< 1 := by
    intro a
    have hm := f64.mag_neg a
    refine ⟨BitVec.eq_of_toNat_eq ?_, BitVec.eq_of_toNat_eq ?_, BitVec.eq_of_toNat_eq ?_⟩
    · rw [f64.toNat_and_not_signMask, f64.toNat_and_not_signMask, hm]
    · rw [f64.toNat_and_expMask, f64.toNat_and_expMask, hm]
    · have h1 : ∀ b : BitVec f64.w, (b <<< 1).toNat = f64.mag b * 2 := by
        intro b
        rw [BitVec.toNat_shiftLeft, Nat.shiftLeft_eq]
        have hw : (2 : ℕ) ^ f64.w = 2 ^ 64 := rfl
        have hm : f64.mag b = b.toNat % 2 ^ 63 := rfl
        rw [hw, hm]
        omega
      rw [h1, h1, hm]
  obtain ⟨x1, x2, x3⟩ := key x
  obtain ⟨y1, y2, y3⟩ := key y
  refine ⟨?_, ?_, fun hx hy => ?_⟩
  · rw [Hypot.hypot_eq, Hypot.hypot_eq, x1, x2, x3]
  · rw [Hypot.hypot_eq, Hypot.hypot_eq, y1, y2, y3]
  · obtain ⟨a1, a2, a3, -⟩ := Hypot.abs_facts x
    obtain ⟨b1, b2, b3, -⟩ := Hypot.abs_facts y
    have ex : ¬ (x &&& f64.expMask = f64.expMask) := fun h => Hypot.exp_iff.mp h hx
    have ey : ¬ (y &&& f64.expMask = f64.expMask) := fun h => Hypot.exp_iff.mp h hy
    have o1 : ¬ (x &&& f64.expMask = f64.expMask ∨ y &&& f64.expMask = f64.expMask) := fun h => h.elim ex ey
    have o2 : ¬ (y &&& f64.expMask = f64.expMask ∨ x &&& f64.expMask = f64.expMask) := fun h => h.elim ey ex
    rw [Hypot.hypot_eq, Hypot.hypot_eq, if_neg o1, if_neg o2]
    have hnx : ¬ f64.IsNaN (x &&& ~~~f64.signMask) := by unfold Fmt.IsNaN; rw [a2]; exact hx.not_nan f64
    have hny : ¬ f64.IsNaN (y &&& ~~~f64.signMask) := by unfold Fmt.IsNaN; rw [b2]; exact hy.not_nan f64
    have h1 : f64.lt (x &&& ~~~f64.signMask) (y &&& ~~~f64.signMask) = true ↔ f64.mag x < f64.mag y := by
      rw [f64.lt_iff]; unfold Fmt.smag; rw [a2, b2, a3, b3]; simp [hnx, hny]
    have h2 : f64.lt (y &&& ~~~f64.signMask) (x &&& ~~~f64.signMask) = true ↔ f64.mag y < f64.mag x := by
      rw [f64.lt_iff]; unfold Fmt.smag; rw [a2, b2, a3, b3]; simp [hnx, hny]
    rcases lt_trichotomy (f64.mag x) (f64.mag y) with h | h | h
    · rw [if_pos (h1.mpr h), if_pos (h1.mpr h), if_neg (fun hc => by have := h2.mp hc; omega), if_neg (fun hc => by have := h2.mp hc; omega)]
    · have : x &&& ~~~f64.signMask = y &&& ~~~f64.signMask := BitVec.eq_of_toNat_eq (by rw [a1, b1, h])
      rw [this]
    · rw [if_pos (h2.mpr h), if_pos (h2.mpr h), if_neg (fun hc => by have := h1.mp hc; omega), if_neg (fun hc => by have := h1.mp hc; omega)]

-- 3, 4, 5; 3 * 2^1000, 4 * 2^1000; subnormals; 1e308-sized overflow; far apart; inf with NaN; with overflow checks too
example : Hypot.hypot (hypotOps FPU.softF64 castI64) true 0x4008000000000000#f64.w 0xc010000000000000#f64.w =
      .ok 0x4014000000000000#f64.w ∧
    Hypot.hypot (hypotOps FPU.softF64 castI64) true 0x7e88000000000000#f64.w 0x7e90000000000000#f64.w =
      .ok 0x7e94000000000000#f64.w ∧
    Hypot.hypot (hypotOps FPU.softF64 castI64) true 3#f64.w 4#f64.w = .ok 5#f64.w ∧
    Hypot.hypot (hypotOps FPU.softF64 castI64) true 0x7fe8000000000000#f64.w 0x7fe8000000000000#f64.w =
      .ok 0x7ff0000000000000#f64.w ∧
    Hypot.hypot (hypotOps FPU.softF64 castI64) true 0x3ff0000000000000#f64.w 1#f64.w = .ok 0x3ff0000000000000#f64.w ∧
    Hypot.hypot (hypotOps FPU.softF64 castI64) true 0x3ff0000000000000#f64.w 0x3ff0000000000000#f64.w =
      .ok 0x3ff6a09e667f3bcd#f64.w ∧
    Hypot.hypot (hypotOps FPU.softF64 castI64) true 0x0010000000000000#f64.w 0x0008000000000000#f64.w =
      .ok 0x0011e3779b97f4a8#f64.w ∧
    Hypot.hypot (hypotOps FPU.softF64 castI64) true 0xfff0000000000000#f64.w 0x7ff8000000000001#f64.w =
      .ok 0x7ff0000000000000#f64.w := by
  decide +kernel

-- the hypotheses of `C57_hypot_partial`: `hypot(3, 4) = 5` is neither a wrong tie nor in a blind spot
example : f64.IsFin 0x4008000000000000#f64.w ∧ f64.IsFin 0x4010000000000000#f64.w ∧ ¬ WrongTie 5 ∧ ¬ BlindSpot 5 := by
  refine ⟨by unfold IsFin; decide, by unfold IsFin; decide, ?_, ?_⟩
  · rintro ⟨j, h⟩
    rcases lt_trichotomy j 2 with hj | rfl | hj
    · have hp : (2 : ℝ) ^ j ≤ 2 ^ (1 : ℤ) := zpow_le_zpow_right₀ (by norm_num) (by omega)
      rcases h with h | h <;> norm_num at h hp <;> linarith
    · norm_num at h
    · have hp : (2 : ℝ) ^ (3 : ℤ) ≤ 2 ^ j := zpow_le_zpow_right₀ (by norm_num) (by omega)
      rcases h with h | h <;> norm_num at h hp <;> linarith
  · rintro ⟨j, h1, h2⟩
    rcases le_or_gt j 1 with hj | hj
    · have hp : (2 : ℝ) ^ j ≤ 2 ^ (1 : ℤ) := zpow_le_zpow_right₀ (by norm_num) (by omega)
      norm_num at h2 hp; linarith
    · have hp : (2 : ℝ) ^ (2 : ℤ) ≤ 2 ^ j := zpow_le_zpow_right₀ (by norm_num) (by omega)
      norm_num at h1 hp; linarith

/-! ## Failures -/

/-- C57 fails: with overflow checks, `hypot(6650865, 64455968)` panics: `m2 as i64 - rm2 as i64` (hypot.rs 205) is meant modulo
`2^64` but is written with `-`. -/
theorem C57_panics : Hypot.hypot (hypotOps FPU.softF64 castI64) true 0x41595efc40000000#f64.w 0x418ebc2900000000#f64.w =
    .error .overflow := by
  decide +kernel

theorem val_lit {b : BitVec f64.w} {E M : ℕ} (hb : b.toNat = (E - 1) * 2 ^ 52 + M) (hE : 1 ≤ E) (hE' : E ≤ 2046) (hM : 2 ^ 52 ≤ M) (hM' : M < 2 ^ 53) :
    f64.valK ℝ b = M * 2 ^ ((E : ℤ) - 1075) ∧ f64.IsFin b := by
  have hl : b.toNat < 2047 * 2 ^ 52 := by omega
  refine ⟨?_, Hypot.fin_small hl⟩
  rw [Hypot.val_small (by omega), hb, Hypot.gv hE hM'.le (Or.inl hM)]

/-- C57 fails: `hypot(8034534073192032, 4071351205843455)` is exactly `2^53 + 1`, half-way between two numbers; the result is
`2^53 + 2`, the odd one. The tie is broken on a significand with one bit more than the result (hypot.rs 220). -/
theorem C57_tie_fails : ∃ x y r, Hypot.hypot (hypotOps FPU.softF64 castI64) false x y = .ok r ∧ ¬ HypotSpec x y r := by
  refine ⟨0x433c8b5dbd5e4e60#f64.w, 0x432cedbea4c2a3fe#f64.w, 0x4340000000000001#f64.w, by decide +kernel, ?_⟩
  intro h
  obtain ⟨vx, fx⟩ := val_lit (b := 0x433c8b5dbd5e4e60#f64.w) (E := 1075) (M := 8034534073192032) (by decide) (by norm_num) (by norm_num) (by norm_num) (by norm_num)
  obtain ⟨vy, fy⟩ := val_lit (b := 0x432cedbea4c2a3fe#f64.w) (E := 1074) (M := 8142702411686910) (by decide) (by norm_num) (by norm_num) (by norm_num) (by norm_num)
  obtain ⟨-, hr⟩ := h.1 fx fy
  have hs : hyp 0x433c8b5dbd5e4e60#f64.w 0x432cedbea4c2a3fe#f64.w = 2 ^ 53 + 1 := by
    rw [hyp_eq, vx, vy, show ((8034534073192032 : ℕ) * 2 ^ (((1075 : ℕ) : ℤ) - 1075) : ℝ) ^ 2 +
      ((8142702411686910 : ℕ) * 2 ^ (((1074 : ℕ) : ℤ) - 1075) : ℝ) ^ 2 = (2 ^ 53 + 1) ^ 2 by norm_num, Real.sqrt_sq (by norm_num)]
  have hm : f64.mag 0x4340000000000001#f64.w = 1076 * 2 ^ 52 + 1 := by decide
  rw [hs, hm] at hr
  have g0 := Hypot.gv (E := 1076) (m := 2 ^ 52) (by norm_num) (by norm_num) (by norm_num)
  have g1 := Hypot.gv (E := 1076) (m := 2 ^ 52 + 1) (by norm_num) (by norm_num) (by norm_num)
  rw [show (1076 - 1) * 2 ^ 52 + 2 ^ 52 = 1076 * 2 ^ 52 by norm_num] at g0
  rw [show (1076 - 1) * 2 ^ 52 + (2 ^ 52 + 1) = 1076 * 2 ^ 52 + 1 by norm_num] at g1
  have := (hr.2 (1076 * 2 ^ 52) (by rw [Hypot.inf64]; norm_num)).2 (by rw [g0, g1]; norm_num) (by norm_num)
  norm_num at this

/-- C57 fails: the result is `2`, but the exact value is nearer to the number below `2`. The test for a hard case (hypot.rs
119-124) looks at the exponent of the approximation `2`, under which the numbers are twice as dense as above. -/
theorem C57_blindspot_fails : ∃ x y r, Hypot.hypot (hypotOps FPU.softF64 castI64) false x y = .ok r ∧ ¬ HypotSpec x y r ∧
    ¬ WrongTie (hyp x y) := by
  refine ⟨0x3ffcc26a5e15d271#f64.w, 0x3fec10583b5afc0b#f64.w, 0x4000000000000000#f64.w, by decide +kernel, ?_⟩
  obtain ⟨vx, fx⟩ := val_lit (b := 0x3ffcc26a5e15d271#f64.w) (E := 1023) (M := 8095061448708721) (by decide) (by norm_num) (by norm_num) (by norm_num) (by norm_num)
  obtain ⟨vy, fy⟩ := val_lit (b := 0x3fec10583b5afc0b#f64.w) (E := 1022) (M := 7899270486883339) (by decide) (by norm_num) (by norm_num) (by norm_num) (by norm_num)
  have hs : hyp 0x3ffcc26a5e15d271#f64.w 0x3fec10583b5afc0b#f64.w < 2 - 1 / 2 ^ 53 := by
    rw [hyp_eq, vx, vy, Real.sqrt_lt' (by norm_num)]
    norm_num
  have hs' : 1.9 < hyp 0x3ffcc26a5e15d271#f64.w 0x3fec10583b5afc0b#f64.w := by
    rw [hyp_eq, vx, vy]
    refine Real.lt_sqrt_of_sq_lt ?_
    norm_num
  have hm : f64.mag 0x4000000000000000#f64.w = 1024 * 2 ^ 52 := by decide
  have hsp : HypotSpec 0x3ffcc26a5e15d271#f64.w 0x3fec10583b5afc0b#f64.w 0x4000000000000000#f64.w →
      f64.IsRNE (hyp 0x3ffcc26a5e15d271#f64.w 0x3fec10583b5afc0b#f64.w) (1024 * 2 ^ 52) := by
    intro h; rw [← hm]; exact (h.1 fx fy).2
  generalize hyp 0x3ffcc26a5e15d271#f64.w 0x3fec10583b5afc0b#f64.w = σ at *
  constructor
  · intro h
    have hr := hsp h
    have g0 := Hypot.gv (E := 1023) (m := 2 ^ 53 - 1) (by norm_num) (by norm_num) (by norm_num)
    have g1 := Hypot.gv (E := 1024) (m := 2 ^ 52) (by norm_num) (by norm_num) (by norm_num)
    rw [show (1023 - 1) * 2 ^ 52 + (2 ^ 53 - 1) = 1024 * 2 ^ 52 - 1 by norm_num] at g0
    rw [show (1024 - 1) * 2 ^ 52 + 2 ^ 52 = 1024 * 2 ^ 52 by norm_num] at g1
    have := (hr.2 (1024 * 2 ^ 52 - 1) (by rw [Hypot.inf64]; norm_num)).1
    rw [g0, g1] at this
    norm_num at this hs
    rw [abs_of_neg (by linarith)] at this
    have h2 := le_abs.mp this
    rcases h2 with h2 | h2 <;> linarith
  · rintro ⟨j, h⟩
    rcases le_or_gt j 0 with hj | hj
    · have hp : (2 : ℝ) ^ j ≤ 1 := zpow_le_one_of_nonpos₀ (by norm_num) hj
      rcases h with h | h <;> norm_num at h hs' <;> linarith
    · have hp : (2 : ℝ) ^ (1 : ℤ) ≤ 2 ^ j := zpow_le_zpow_right₀ (by norm_num) hj
      rcases h with h | h <;> norm_num at h hs hp <;> linarith

end Verif.Props
