import Verif.Libm.PartsProofs
/-!
# Model of scalbn / ldexp

The operands of the two `debug_assert!`s are constants of the format of magnitude below `2^18`; the arithmetic on them is
on mathematical integers.
-/
namespace Verif
namespace Fmt
variable (F : Fmt)

/-- scalbn.rs 101-102 and 107-108: the prescale of the `f16` path; the exponent to add and the factor. -/
def scalbnPre16 (n : Int) : M (Int × BitVec F.w) := do
  let t ← i32C (n + (F.s + 1 : Nat))
  let add ← i32C (-(max t (1 - (F.bias : Int))))
  let t ← i32C ((F.bias : Int) - add)
  pure (add, F.fromParts false (t % 2 ^ 32).toNat 0#F.w)

/-- `scalbn`, generic/scalbn.rs 20-121; `ldexp` (ldexp.rs) is the same function. -/
def scalbn (N : FPU F) (x : BitVec F.w) (n : Int) : M (BitVec F.w) := do
  let expMax : Int := F.bias
  let expMin : Int := 1 - F.bias
  let fExpMax := F.fromParts false (F.bias * 2) 0#F.w
  let fExpMin := F.fromParts false 1 0#F.w
  let fPow := F.fromParts false (F.s + 1 + F.bias) 0#F.w
  let (x, n) ←
    (if n > expMax then do
      assertC (decide (-expMin + F.s + expMax ≤ expMax * 3))
      let x := N.mul x fExpMax
      let n ← i32C (n - expMax)
      if n > expMax then do
        let x := N.mul x fExpMax
        let n ← i32C (n - expMax)
        if n > expMax then pure (x, expMax) else pure (x, n)
      else pure (x, n)
    else if n < expMin then
      if F.w > 16 then do
        let mul := N.mul fExpMin fPow
        let add ← i32C (-expMin - (F.s + 1 : Nat))
        assertC (decide (-expMin + F.s + expMax ≤ add * 2 + -expMin))
        let x := N.mul x mul
        let n ← i32C (n + add)
        if n < expMin then do
          let x := N.mul x mul
          let n ← i32C (n + add)
          if n < expMin then pure (x, expMin) else pure (x, n)
        else pure (x, n)
      else do
        let (add, mul) ← F.scalbnPre16 n
        let x := N.mul x mul
        let n ← i32C (n + add)
        if n < expMin then do
          let (add, mul) ← F.scalbnPre16 n
          let x := N.mul x mul
          let n ← i32C (n + add)
          if n < expMin then pure (x, expMin) else pure (x, n)
        else pure (x, n)
    else pure (x, n))
  let t ← i32C ((F.bias : Int) + n)
  let scale := F.fromParts false (t % 2 ^ 32).toNat 0#F.w
  pure (N.mul x scale)

/-! ## Proofs -/

/-- a positive power of two -/
structure IsPow (p : BitVec F.w) (b : Int) : Prop where
  fin : F.IsFin p
  sgn : F.sign p = false
  value : F.magVal ℚ (F.mag p) = 2 ^ b

theorem IsPow.ne {p : BitVec F.w} {b : Int} (h : F.IsPow p b) : ¬ F.IsZero p := by
  intro hz
  have := h.value
  unfold IsZero at hz
  rw [hz, F.magVal_zero] at this
  have : (0 : ℚ) < 2 ^ b := by positivity
  linarith

theorem fromParts_pow {E : Nat} (h1 : 1 ≤ E) (h2 : E < 2 ^ F.e - 1) : F.IsPow (F.fromParts false E 0#F.w) (E - F.bias) := by
  have hps := F.ps_succ
  obtain ⟨a, b⟩ := F.fromParts_facts (t := false) (n := E) (sig := 0#F.w) (by omega) (by simp)
  simp only [BitVec.toNat_ofNat, Nat.zero_mod, Nat.add_zero] at b
  refine ⟨?_, a, ?_⟩
  · unfold IsFin infRep; rw [b]; exact Nat.mul_lt_mul_of_pos_right h2 (Nat.two_pow_pos _)
  · have h := F.magVal_at (E := E) (m := 2 ^ F.s) h1 (by omega) (Or.inl (le_refl _))
    rw [← Nat.succ_mul, show (E - 1).succ = E by omega] at h
    rw [b, h]
    push_cast
    rw [← zpow_natCast, ← zpow_add₀ (by norm_num)]
    congr 1; ring

theorem magVal_infRep : F.magVal ℚ F.infRep = 2 ^ ((F.bias : ℤ) + 1) := by
  have hps := F.ps_succ
  have hpb := F.pe_bias
  have h := F.magVal_at (E := 2 ^ F.e - 1) (m := 2 ^ F.s) (by omega) (by omega) (Or.inl (le_refl _))
  have e : (2 ^ F.e - 1 - 1) * 2 ^ F.s + 2 ^ F.s = F.infRep := by
    unfold infRep; rw [← Nat.succ_mul]; congr 1; omega
  rw [e] at h
  rw [h]
  push_cast
  rw [← zpow_natCast, ← zpow_add₀ (by norm_num)]
  congr 1
  omega

theorem magVal_minNormal : F.magVal ℚ (2 ^ F.s) = 2 ^ (1 - (F.bias : ℤ)) := by
  have hps := F.ps_succ
  have h := F.magVal_at (E := 1) (m := 2 ^ F.s) (by omega) (by omega) (Or.inl (le_refl _))
  rw [Nat.sub_self, Nat.zero_mul, Nat.zero_add] at h
  rw [h]
  push_cast
  rw [← zpow_natCast, ← zpow_add₀ (by norm_num)]
  congr 1; ring

theorem magVal_minSub : F.magVal ℚ 1 = 2 ^ (1 - (F.bias : ℤ) - F.s) := by
  have hps := F.ps_succ
  have := F.ps_ge
  have h := F.magVal_at (E := 1) (m := 1) (by omega) (by omega) (Or.inr rfl)
  rw [Nat.sub_self, Nat.zero_mul, Nat.zero_add] at h
  rw [h]
  push_cast; ring

theorem isRNE_overflow {v : ℚ} (h : 2 ^ ((F.bias : ℤ) + 1) ≤ v) : F.IsRNE v F.infRep := by
  rw [F.isRNE_unit]
  apply F.isRNEu_overflow
  rw [← F.magVal_infRep, F.magVal_eq] at h
  have hu := F.ulp0_pos ℚ
  rw [le_div_iff₀ hu]; exact h

theorem isRNE_tiny {v : ℚ} (h0 : 0 ≤ v) (h : v ≤ 2 ^ (-(F.bias : ℤ) - F.s)) : F.IsRNE v 0 := by
  have hps := F.ps_le_infRep
  have := F.ps_ge
  have e : (2 : ℚ) ^ (1 - (F.bias : ℤ) - F.s) = 2 * 2 ^ (-(F.bias : ℤ) - F.s) := by
    rw [show (1 - (F.bias : ℤ) - F.s) = 1 + (-(F.bias : ℤ) - F.s) by ring, zpow_add₀ (by norm_num), zpow_one]
  have hp : (0 : ℚ) < 2 ^ (-(F.bias : ℤ) - F.s) := by positivity
  apply F.isRNE_between (n := 0) (by omega)
  · rw [F.magVal_zero]; exact h0
  · rw [Nat.zero_add, F.magVal_minSub, e]; linarith
  · rw [Nat.zero_add, F.magVal_minSub, F.magVal_zero, e]
    rcases h.lt_or_eq with h | h
    · left; exact ⟨by linarith, rfl⟩
    · right; right; exact ⟨by rw [h]; ring, rfl⟩

/-- scaling up is exact or overflows -/
theorem scale_up (n : Nat) {a : ℤ} (ha : 0 ≤ a) : ∃ n', F.magVal ℚ n' = F.magVal ℚ n * 2 ^ a := by
  obtain ⟨E, m, h1, h2, _, _, h5, _⟩ := F.decompQ n
  obtain ⟨k, rfl⟩ := Int.eq_ofNat_of_zero_le ha
  obtain ⟨n', h6, _⟩ := F.exists_repr (E + k) (by omega) m h2.le
  refine ⟨n', ?_⟩
  rw [h6, h5, mul_assoc, ← zpow_add₀ (by norm_num)]
  congr 2; push_cast; ring

/-- scaling down is exact or reaches the subnormal range -/
theorem scale_down (n : Nat) {a : ℤ} (ha : a ≤ 0) :
    (∃ n', F.magVal ℚ n' = F.magVal ℚ n * 2 ^ a) ∨ F.magVal ℚ n * 2 ^ a < 2 ^ (1 - (F.bias : ℤ)) := by
  obtain ⟨E, m, h1, h2, _, _, h5, _⟩ := F.decompQ n
  obtain ⟨k, hk⟩ := Int.eq_ofNat_of_zero_le (neg_nonneg.mpr ha)
  have ha' : a = -(k : ℤ) := by omega
  subst ha'
  have hv : F.magVal ℚ n * 2 ^ (-(k : ℤ)) = m * 2 ^ ((E : ℤ) - k - F.bias - F.s) := by
    rw [h5, mul_assoc, ← zpow_add₀ (by norm_num)]; congr 2; ring
  by_cases h : k < E
  · left
    obtain ⟨n', h6, _⟩ := F.exists_repr (E - k) (by omega) m h2.le
    refine ⟨n', ?_⟩
    rw [h6, hv]
    congr 2; omega
  · right
    rw [hv]
    have hp : (0 : ℚ) < 2 ^ ((E : ℤ) - k - F.bias - F.s) := by positivity
    calc (m : ℚ) * 2 ^ ((E : ℤ) - k - F.bias - F.s) < (2 ^ (F.s + 1) : Nat) * 2 ^ ((E : ℤ) - k - F.bias - F.s) :=
          mul_lt_mul_of_pos_right (by exact_mod_cast h2) hp
      _ = 2 ^ ((E : ℤ) - k + 1 - F.bias) := by
          push_cast
          rw [← zpow_natCast, ← zpow_add₀ (by norm_num)]; congr 1; push_cast; ring
      _ ≤ 2 ^ (1 - (F.bias : ℤ)) := zpow_le_zpow_right₀ (by norm_num) (by omega)

/-- `y` is `x * 2^a`, rounded once -/
def Sc (x : BitVec F.w) (a : ℤ) (y : BitVec F.w) : Prop :=
  F.sign y = F.sign x ∧ F.IsRNE (F.magVal ℚ (F.mag x) * 2 ^ a) (F.mag y)

theorem mul_pow_fin (N : FPU F) {y p : BitVec F.w} {b : ℤ} (hp : F.IsPow p b) (hy : F.IsFin y) :
    F.Sc y b (N.mul y p) := by
  have h := (N.mul_spec y p).1 hy hp.fin
  refine ⟨by rw [h.2, hp.sgn]; simp, ?_⟩
  have h2 := h.1.1
  rw [F.val_sign, F.val_sign, hp.sgn, hp.value] at h2
  have e : |(if F.sign y = true then (-1 : ℚ) else 1) * F.magVal ℚ (F.mag y) * ((if false = true then (-1 : ℚ) else 1) * 2 ^ b)| =
      F.magVal ℚ (F.mag y) * 2 ^ b := by
    have h0 := F.magVal_nonneg ℚ (F.mag y)
    have h1 : (0 : ℚ) < 2 ^ b := by positivity
    rw [abs_mul, abs_mul, abs_of_nonneg h0]
    split <;> simp
  rwa [e] at h2

theorem mul_pow_inf (N : FPU F) {y p : BitVec F.w} {b : ℤ} (hp : F.IsPow p b) (hy : F.IsInf y) : N.mul y p = y := by
  have hip := F.ps_le_infRep
  have := F.ps_ge
  have h := (N.mul_spec y p).2.2 (by unfold IsNaN; unfold IsInf at hy; omega) (IsFin.not_nan F hp.fin) (Or.inl hy)
  rw [if_neg (by
    rintro (h | h)
    · unfold IsZero at h; unfold IsInf at hy; omega
    · exact IsPow.ne F hp h)] at h
  apply F.ext_sign_mag
  · rw [h.2, hp.sgn]; simp
  · have := h.1; unfold IsInf at this hy; omega

theorem step_up (N : FPU F) {x y p : BitVec F.w} {a b : ℤ} (ha : 0 ≤ a) (hb : 0 ≤ b) (hp : F.IsPow p b)
    (h : F.Sc x a y) : F.Sc x (a + b) (N.mul y p) := by
  obtain ⟨h1, h2⟩ := h
  obtain ⟨n', hn'⟩ := F.scale_up (F.mag x) ha
  have h0 := F.magVal_nonneg ℚ (F.mag x)
  rw [← hn'] at h2
  by_cases hlt : n' < F.infRep
  · have e := IsRNE.unique F h2 (F.isRNE_self hlt.le)
    obtain ⟨h3, h4⟩ := F.mul_pow_fin N hp (y := y) (by unfold IsFin; omega)
    refine ⟨by rw [h3, h1], ?_⟩
    rw [e, hn', mul_assoc, ← zpow_add₀ (by norm_num)] at h4
    exact h4
  · have hge := F.magVal_le_iff.mpr (not_lt.mp hlt)
    rw [F.magVal_infRep] at hge
    have e := IsRNE.unique F h2 (F.isRNE_overflow hge)
    rw [F.mul_pow_inf N hp e]
    refine ⟨h1, ?_⟩
    rw [e]
    apply F.isRNE_overflow
    refine le_trans hge ?_
    rw [hn', zpow_add₀ (by norm_num), ← mul_assoc]
    have : (1 : ℚ) ≤ 2 ^ b := one_le_zpow₀ (by norm_num) hb
    exact le_mul_of_one_le_right (mul_nonneg h0 (by positivity)) this

/-- `y` is exactly `x * 2^a`, or both are in the subnormal range -/
def Wk (x : BitVec F.w) (a : ℤ) (y : BitVec F.w) : Prop :=
  F.sign y = F.sign x ∧ F.IsFin y ∧ (F.magVal ℚ (F.mag y) = F.magVal ℚ (F.mag x) * 2 ^ a ∨
    (F.magVal ℚ (F.mag x) * 2 ^ a < 2 ^ (1 - (F.bias : ℤ)) ∧ F.mag y ≤ 2 ^ F.s))

theorem wk_of_sc {x y : BitVec F.w} {a : ℤ} (ha : a ≤ 0) (hx : F.IsFin x) (h : F.Sc x a y) : F.Wk x a y := by
  obtain ⟨h1, h2⟩ := h
  have hip := F.ps_le_infRep
  have h0 := F.magVal_nonneg ℚ (F.mag x)
  have hle : F.magVal ℚ (F.mag x) * 2 ^ a ≤ F.magVal ℚ (F.mag x) :=
    mul_le_of_le_one_right h0 (zpow_le_one_of_nonpos₀ (by norm_num) ha)
  have hy : F.IsFin y := by
    have := IsRNE.mono F h2 (F.isRNE_self (le_of_lt hx)) hle
    unfold IsFin at hx ⊢; omega
  refine ⟨h1, hy, ?_⟩
  rcases F.scale_down (F.mag x) ha with ⟨n', hn'⟩ | hs
  · left
    have hn'' : n' < F.infRep := by
      rw [← hn', F.magVal_le_iff] at hle
      unfold IsFin at hx; omega
    rw [← hn'] at h2 ⊢
    rw [IsRNE.unique F h2 (F.isRNE_self hn''.le)]
  · right
    exact ⟨hs, IsRNE.mono F h2 (F.isRNE_self hip) (by rw [F.magVal_minNormal]; exact hs.le)⟩

theorem step_mid (N : FPU F) {x y p : BitVec F.w} {a b : ℤ} (hb : b ≤ 0) (hp : F.IsPow p b)
    (h : F.Wk x a y) : F.Wk x (a + b) (N.mul y p) := by
  obtain ⟨h1, h2, h3⟩ := h
  obtain ⟨w1, w2, w3⟩ := F.wk_of_sc hb h2 (F.mul_pow_fin N hp h2)
  refine ⟨by rw [w1, h1], w2, ?_⟩
  rw [zpow_add₀ (by norm_num), ← mul_assoc]
  rcases h3 with h3 | ⟨h3, h4⟩
  · rw [← h3]; exact w3
  · right
    have hb1 : (2 : ℚ) ^ b ≤ 1 := zpow_le_one_of_nonpos₀ (by norm_num) hb
    refine ⟨lt_of_le_of_lt (mul_le_of_le_one_right (mul_nonneg (F.magVal_nonneg ℚ _) (by positivity)) hb1) h3, ?_⟩
    rcases w3 with w3 | w3
    · rw [← F.magVal_le_iff, w3]
      exact le_trans (mul_le_of_le_one_right (F.magVal_nonneg ℚ _) hb1) (F.magVal_le_iff.mpr h4)
    · exact w3.2

theorem step_down (N : FPU F) {x y p : BitVec F.w} {a b : ℤ} (hb : b ≤ -((F.s : ℤ) + 1)) (hp : F.IsPow p b)
    (h : F.Wk x a y) : F.Sc x (a + b) (N.mul y p) := by
  obtain ⟨h1, h2, h5⟩ := h
  obtain ⟨h3, h4⟩ := F.mul_pow_fin N hp h2
  refine ⟨by rw [h3, h1], ?_⟩
  rw [zpow_add₀ (by norm_num), ← mul_assoc]
  rcases h5 with h5 | ⟨hs, hm⟩
  · rw [h5] at h4; exact h4
  · have hm' := F.magVal_le_iff.mpr hm
    rw [F.magVal_minNormal] at hm'
    have key : ∀ v : ℚ, 0 ≤ v → v ≤ 2 ^ (1 - (F.bias : ℤ)) → F.IsRNE (v * 2 ^ b) 0 := by
      intro v hv0 hv
      apply F.isRNE_tiny (mul_nonneg hv0 (by positivity))
      calc v * 2 ^ b ≤ 2 ^ (1 - (F.bias : ℤ)) * 2 ^ (-((F.s : ℤ) + 1)) :=
            mul_le_mul hv (zpow_le_zpow_right₀ (by norm_num) hb) (by positivity) (by positivity)
        _ = 2 ^ (-(F.bias : ℤ) - F.s) := by rw [← zpow_add₀ (by norm_num)]; congr 1; ring
    have e := IsRNE.unique F h4 (key _ (F.magVal_nonneg ℚ _) hm')
    rw [e]
    exact key _ (mul_nonneg (F.magVal_nonneg ℚ _) (by positivity)) hs.le

theorem sat_up {x y : BitVec F.w} {a b : ℤ} (ha : 3 * (F.bias : ℤ) ≤ a) (hb : 3 * (F.bias : ℤ) ≤ b) (h : F.Sc x a y) :
    F.Sc x b y := by
  have hbg := F.bias_ge
  obtain ⟨h1, h2⟩ := h
  refine ⟨h1, ?_⟩
  have hip := F.ps_le_infRep
  by_cases hz : F.mag x = 0
  · rw [hz, F.magVal_zero, zero_mul] at h2 ⊢; exact h2
  · have key : ∀ c : ℤ, 3 * (F.bias : ℤ) ≤ c → F.IsRNE (F.magVal ℚ (F.mag x) * 2 ^ c) F.infRep := by
      intro c hc
      apply F.isRNE_overflow
      have := F.magVal_le_iff.mpr (show 1 ≤ F.mag x by omega)
      rw [F.magVal_minSub] at this
      calc (2 : ℚ) ^ ((F.bias : ℤ) + 1) ≤ 2 ^ (1 - (F.bias : ℤ) - F.s + c) := zpow_le_zpow_right₀ (by norm_num) (by omega)
        _ = 2 ^ (1 - (F.bias : ℤ) - F.s) * 2 ^ c := zpow_add₀ (by norm_num) _ _
        _ ≤ _ := mul_le_mul_of_nonneg_right this (by positivity)
    rw [IsRNE.unique F h2 (key a ha)]
    exact key b hb

theorem sat_down {x y : BitVec F.w} {a b : ℤ} (ha : a ≤ -(2 * (F.bias : ℤ) + F.s + 1))
    (hb : b ≤ -(2 * (F.bias : ℤ) + F.s + 1)) (hx : F.IsFin x) (h : F.Sc x a y) : F.Sc x b y := by
  obtain ⟨h1, h2⟩ := h
  refine ⟨h1, ?_⟩
  have hm := F.magVal_le_iff.mpr (le_of_lt hx)
  rw [F.magVal_infRep] at hm
  have h0 := F.magVal_nonneg ℚ (F.mag x)
  have key : ∀ c : ℤ, c ≤ -(2 * (F.bias : ℤ) + F.s + 1) → F.IsRNE (F.magVal ℚ (F.mag x) * 2 ^ c) 0 := by
    intro c hc
    apply F.isRNE_tiny (mul_nonneg h0 (by positivity))
    calc F.magVal ℚ (F.mag x) * 2 ^ c ≤ 2 ^ ((F.bias : ℤ) + 1) * 2 ^ c := mul_le_mul_of_nonneg_right hm (by positivity)
      _ = 2 ^ ((F.bias : ℤ) + 1 + c) := (zpow_add₀ (by norm_num) _ _).symm
      _ ≤ _ := zpow_le_zpow_right₀ (by norm_num) (by omega)
  rw [IsRNE.unique F h2 (key a ha)]
  exact key b hb

theorem mod32 {t : Int} (h0 : 0 ≤ t) (h1 : t < 2 ^ 31) : ((t % 2 ^ 32).toNat : Int) = t := by omega

theorem scalbnPre16_spec {n : Int} (hw : ¬ F.w > 16) (hn : -2 ^ 31 ≤ n) (hn' : n < 1 - (F.bias : Int)) :
    Ok (F.scalbnPre16 n) (fun r => r.1 = -(max (n + (F.s + 1 : Nat)) (1 - (F.bias : Int))) ∧ F.IsPow r.2 (-r.1)) := by
  have hs := F.hs
  have he := F.he
  have hw' : F.e + F.s + 1 ≤ 16 := not_lt.mp hw
  have he5 : F.e = 5 := by omega
  have hs10 : F.s = 10 := by omega
  have hpb := F.pe_bias
  rw [he5] at hpb
  have hb : F.bias = 15 := by omega
  unfold scalbnPre16
  rw [hb] at hn' ⊢
  rw [hs10] at ⊢
  refine Ok.bind (i32C_spec (by omega)) ?_
  rintro _ rfl
  refine Ok.bind (i32C_spec (by omega)) ?_
  rintro _ rfl
  refine Ok.bind (i32C_spec (by omega)) ?_
  rintro _ rfl
  refine Ok.pure' ⟨rfl, ?_⟩
  dsimp only
  have h := F.fromParts_pow (E := (((15 : Nat) : Int) - -(max (n + ((10 + 1 : Nat) : Int)) (1 - ((15 : Nat) : Int)))).toNat)
    (by omega) (by rw [he5]; omega)
  have e1 : ((((15 : Nat) : Int) - -(max (n + ((10 + 1 : Nat) : Int)) (1 - ((15 : Nat) : Int)))) % 2 ^ 32).toNat =
     (((15 : Nat) : Int) - -(max (n + ((10 + 1 : Nat) : Int)) (1 - ((15 : Nat) : Int)))).toNat := by omega
  rw [e1]
  rw [hb] at h
  have e2 : ((((15 : Nat) : Int) - -(max (n + ((10 + 1 : Nat) : Int)) (1 - ((15 : Nat) : Int)))).toNat : Int) - ((15 : Nat) : Int) =
    - -(max (n + ((10 + 1 : Nat) : Int)) (1 - ((15 : Nat) : Int))) := by omega
  rw [e2] at h
  exact h

/-- Every scheme of powers of two used by `scalbn` multiplies up to `2^n`. -/
theorem scalbn_path (N : FPU F) (x : BitVec F.w) {n : Int} (P Q : ℤ → BitVec F.w → Prop)
    (hF : F.w > 16 → 3 * F.s + 6 ≤ F.bias) (hn : -2 ^ 31 ≤ n) (hn' : n < 2 ^ 31)
    (hfirst : ∀ p b, F.IsPow p b → P b (N.mul x p))
    (hup : ∀ y p a b, 0 ≤ a → 0 ≤ b → F.IsPow p b → P a y → P (a + b) (N.mul y p))
    (hfirst' : ∀ p b, b ≤ 0 → F.IsPow p b → Q b (N.mul x p))
    (hmid : ∀ y p a b, b ≤ 0 → F.IsPow p b → Q a y → Q (a + b) (N.mul y p))
    (hdown : ∀ y p a b, b ≤ -((F.s : ℤ) + 1) → F.IsPow p b → Q a y → P (a + b) (N.mul y p))
    (hsu : ∀ y a b, 3 * (F.bias : ℤ) ≤ a → 3 * (F.bias : ℤ) ≤ b → P a y → P b y)
    (hsd : ∀ y a b, a ≤ -(2 * (F.bias : ℤ) + F.s + 1) → b ≤ -(2 * (F.bias : ℤ) + F.s + 1) → P a y → P b y) :
    Ok (F.scalbn N x n) (P n) := by
  have hbg := F.bias_ge
  have hpb := F.pe_bias
  have hpl := F.pe_le
  have hmax : F.IsPow (F.fromParts false (F.bias * 2) 0#F.w) F.bias := by
    have := F.fromParts_pow (E := F.bias * 2) (by omega) (by omega)
    rwa [show ((F.bias * 2 : Nat) : Int) - F.bias = F.bias by push_cast; ring] at this
  unfold scalbn
  apply Ok.bind (P := fun r : BitVec F.w × Int => 1 - (F.bias : Int) ≤ r.2 ∧ r.2 ≤ F.bias ∧
    ∀ p, F.IsPow p r.2 → P n (N.mul r.1 p))
  · dsimp only
    split
    · rename_i h1
      refine Ok.bind (assertC_spec (by rw [decide_eq_true_eq]; omega)) ?_
      intro _ _
      have hP1 := hfirst _ _ hmax
      refine Ok.bind (i32C_spec (by omega)) ?_
      rintro _ rfl
      split
      · have hP2 := hup _ _ _ _ (by omega) (by omega) hmax hP1
        refine Ok.bind (i32C_spec (by omega)) ?_
        rintro _ rfl
        split
        · refine Ok.pure' ⟨by dsimp only; omega, by dsimp only; omega, fun p hp => ?_⟩
          exact hsu _ _ _ (by omega) (by omega) (hup _ _ _ _ (by omega) (by omega) hp hP2)
        · refine Ok.pure' ⟨by dsimp only; omega, by dsimp only; omega, fun p hp => ?_⟩
          have := hup _ _ _ _ (by omega) (by dsimp only; omega) hp hP2
          rwa [show ((F.bias : Int) + F.bias + (n - F.bias - F.bias)) = n by ring] at this
      · refine Ok.pure' ⟨by dsimp only; omega, by dsimp only; omega, fun p hp => ?_⟩
        have := hup _ _ _ _ (by omega) (by dsimp only; omega) hp hP1
        rwa [show ((F.bias : Int) + (n - F.bias)) = n by ring] at this
    · split
      · rename_i h1 h2
        split
        · rename_i hw
          have h3 := hF hw
          refine Ok.bind (i32C_spec (by push_cast; omega)) ?_
          rintro _ rfl
          refine Ok.bind (assertC_spec (by rw [decide_eq_true_eq]; push_cast; omega)) ?_
          intro _ _
          have hmul : F.IsPow (N.mul (F.fromParts false 1 0#F.w) (F.fromParts false (F.s + 1 + F.bias) 0#F.w))
              (-(-(1 - (F.bias : Int)) - ((F.s + 1 : Nat) : Int))) := by
            have p1 := F.fromParts_pow (E := 1) (by omega) (by omega)
            have p2 := F.fromParts_pow (E := F.s + 1 + F.bias) (by omega) (by omega)
            have p3 := F.fromParts_pow (E := F.s + 2) (by omega) (by omega)
            obtain ⟨a, b⟩ := F.mul_pow_fin N p2 p1.fin
            have e : F.magVal ℚ (F.mag (F.fromParts false (F.s + 2) 0#F.w)) =
                F.magVal ℚ (F.mag (F.fromParts false 1 0#F.w)) * 2 ^ (((F.s + 1 + F.bias : Nat) : Int) - F.bias) := by
              rw [p3.value, p1.value, ← zpow_add₀ (by norm_num)]; congr 1; push_cast; ring
            rw [← e] at b
            have c := IsRNE.unique F b (F.isRNE_self (le_of_lt p3.fin))
            refine ⟨by have := p3.fin; unfold IsFin at this ⊢; omega, by rw [a, p1.sgn], ?_⟩
            rw [c, p3.value]; congr 1; push_cast; ring
          have hP1 := hfirst' _ _ (by push_cast; omega) hmul
          refine Ok.bind (i32C_spec (by push_cast; omega)) ?_
          rintro _ rfl
          split
          · have hP2 := hmid _ _ _ _ (by push_cast; omega) hmul hP1
            refine Ok.bind (i32C_spec (by push_cast; omega)) ?_
            rintro _ rfl
            split
            · rename_i h4 h5
              push_cast at h4 h5
              refine Ok.pure' ⟨by dsimp only; omega, by dsimp only; omega, fun p hp => ?_⟩
              exact hsd _ _ _ (by push_cast; omega) (by omega) (hdown _ _ _ _ (by dsimp only; omega) hp hP2)
            · rename_i h4 h5
              push_cast at h4 h5
              refine Ok.pure' ⟨by dsimp only; push_cast; omega, by dsimp only; push_cast; omega, fun p hp => ?_⟩
              have := hdown _ _ _ _ (by dsimp only; push_cast; omega) hp hP2
              dsimp only at this ⊢
              convert this using 1
              push_cast; ring
          · rename_i h4
            push_cast at h4
            refine Ok.pure' ⟨by dsimp only; push_cast; omega, by dsimp only; push_cast; omega, fun p hp => ?_⟩
            have := hdown _ _ _ _ (by dsimp only; push_cast; omega) hp hP1
            dsimp only at this ⊢
            convert this using 1
            push_cast; ring
        · rename_i hw
          have hs := F.hs
          have he := F.he
          have hw' : F.e + F.s + 1 ≤ 16 := not_lt.mp hw
          have hs10 : F.s = 10 := by omega
          have he5 : F.e = 5 := by omega
          rw [he5] at hpb
          have hb : F.bias = 15 := by omega
          refine Ok.bind (F.scalbnPre16_spec hw hn h2) ?_
          rintro ⟨add, mul⟩ ⟨ha, hmul⟩
          dsimp only at ha hmul ⊢
          rw [hb, hs10] at ha
          have hP1 := hfirst' _ _ (by omega) hmul
          refine Ok.bind (i32C_spec (by omega)) ?_
          rintro _ rfl
          split
          · rename_i h3
            refine Ok.bind (F.scalbnPre16_spec hw (by omega) h3) ?_
            rintro ⟨add2, mul2⟩ ⟨ha2, hmul2⟩
            dsimp only at ha2 hmul2 ⊢
            rw [hb, hs10] at ha2
            refine Ok.bind (i32C_spec (by omega)) ?_
            rintro _ rfl
            have hP2 := hmid _ _ _ _ (by omega) hmul2 hP1
            split
            · rename_i h4
              refine Ok.pure' ⟨by dsimp only; omega, by dsimp only; omega, fun p hp => ?_⟩
              exact hsd _ _ _ (by omega) (by omega) (hdown _ _ _ _ (by dsimp only; omega) hp hP2)
            · rename_i h4
              refine Ok.pure' ⟨by dsimp only; omega, by dsimp only; omega, fun p hp => ?_⟩
              have := hdown _ _ _ _ (by dsimp only; omega) hp hP2
              dsimp only at this ⊢
              convert this using 1
              ring
          · rename_i h3
            refine Ok.pure' ⟨by dsimp only; omega, by dsimp only; omega, fun p hp => ?_⟩
            have := hdown _ _ _ _ (by dsimp only; omega) hp hP1
            dsimp only at this ⊢
            convert this using 1
            ring
      · refine Ok.pure' ⟨by dsimp only; omega, by dsimp only; omega, fun p hp => hfirst p _ hp⟩
  · rintro ⟨y, m⟩ ⟨h1, h2, h3⟩
    dsimp only at h1 h2 h3 ⊢
    refine Ok.bind (i32C_spec (by omega)) ?_
    rintro _ rfl
    refine Ok.pure' (h3 _ ?_)
    have h := F.fromParts_pow (E := ((F.bias : Int) + m).toNat) (by omega) (by omega)
    have e : (((F.bias : Int) + m) % 2 ^ 32).toNat = ((F.bias : Int) + m).toNat := by omega
    rw [e]
    rwa [show ((((F.bias : Int) + m).toNat : Nat) : Int) - F.bias = m by omega] at h

theorem scalbn_fin (N : FPU F) {x : BitVec F.w} {n : Int} (hF : F.w > 16 → 3 * F.s + 6 ≤ F.bias) (hn : -2 ^ 31 ≤ n)
    (hn' : n < 2 ^ 31) (hx : F.IsFin x) : Ok (F.scalbn N x n) (F.Sc x n) :=
  F.scalbn_path N x (F.Sc x) (F.Wk x) hF hn hn'
    (fun _ _ hp => F.mul_pow_fin N hp hx)
    (fun _ _ _ _ ha hb hp h => F.step_up N ha hb hp h)
    (fun _ _ hb hp => F.wk_of_sc hb hx (F.mul_pow_fin N hp hx))
    (fun _ _ _ _ hb hp h => F.step_mid N hb hp h)
    (fun _ _ _ _ hb hp h => F.step_down N hb hp h)
    (fun _ _ _ ha hb h => F.sat_up ha hb h)
    (fun _ _ _ ha hb h => F.sat_down ha hb hx h)

theorem scalbn_inf (N : FPU F) {x : BitVec F.w} {n : Int} (hF : F.w > 16 → 3 * F.s + 6 ≤ F.bias) (hn : -2 ^ 31 ≤ n)
    (hn' : n < 2 ^ 31) (hx : F.IsInf x) : Ok (F.scalbn N x n) (· = x) :=
  F.scalbn_path N x (fun _ y => y = x) (fun _ y => y = x) hF hn hn'
    (fun _ _ hp => F.mul_pow_inf N hp hx)
    (fun _ _ _ _ _ _ hp h => by rw [h]; exact F.mul_pow_inf N hp hx)
    (fun _ _ _ hp => F.mul_pow_inf N hp hx)
    (fun _ _ _ _ _ hp h => by rw [h]; exact F.mul_pow_inf N hp hx)
    (fun _ _ _ _ _ hp h => by rw [h]; exact F.mul_pow_inf N hp hx)
    (fun _ _ _ _ _ h => h) (fun _ _ _ _ _ h => h)

theorem scalbn_nan (N : FPU F) {x : BitVec F.w} {n : Int} (hF : F.w > 16 → 3 * F.s + 6 ≤ F.bias) (hn : -2 ^ 31 ≤ n)
    (hn' : n < 2 ^ 31) (hx : F.IsNaN x) : Ok (F.scalbn N x n) F.IsNaN :=
  F.scalbn_path N x (fun _ y => F.IsNaN y) (fun _ y => F.IsNaN y) hF hn hn'
    (fun _ _ _ => (N.mul_spec _ _).2.1 (Or.inl hx))
    (fun _ _ _ _ _ _ _ h => (N.mul_spec _ _).2.1 (Or.inl h))
    (fun _ _ _ _ => (N.mul_spec _ _).2.1 (Or.inl hx))
    (fun _ _ _ _ _ _ h => (N.mul_spec _ _).2.1 (Or.inl h))
    (fun _ _ _ _ _ _ h => (N.mul_spec _ _).2.1 (Or.inl h))
    (fun _ _ _ _ _ h => h) (fun _ _ _ _ _ h => h)

end Fmt
end Verif
