import Verif.Libm.Parts
/-! # Correctness of frexp, ilogb, modf, nextafter -/
namespace Verif
namespace Fmt
variable (F : Fmt)

/-- multiples `j ≤ 2^(s+1)` of any power of two not below the smallest subnormal have a pattern -/
theorem exists_repr : ∀ (E : Nat), 1 ≤ E → ∀ j : Nat, j ≤ 2 ^ (F.s + 1) →
    ∃ n, F.magVal ℚ n = j * 2 ^ ((E : ℤ) - F.bias - F.s) ∧ n ≤ (E - 1) * 2 ^ F.s + j := by
  intro E
  induction E with
  | zero => intro h; omega
  | succ E ih =>
    intro _ j hj
    by_cases h : 2 ^ F.s ≤ j ∨ E + 1 = 1
    · exact ⟨_, F.magVal_at (by omega) hj h, le_refl _⟩
    · push Not at h
      have hps := F.ps_succ
      obtain ⟨n, h1, h2⟩ := ih (by omega) (2 * j) (by omega)
      refine ⟨n, ?_, ?_⟩
      · rw [h1]
        push_cast
        have : ((E : ℤ) + 1 - F.bias - F.s) = ((E : ℤ) - F.bias - F.s) + 1 := by ring
        rw [this, zpow_add₀ (by norm_num), zpow_one]; ring
      · obtain ⟨E', rfl⟩ : ∃ E', E = E' + 1 := ⟨E - 1, by omega⟩
        simp only [Nat.add_sub_cancel] at h2 ⊢
        rw [Nat.add_mul]; omega

/-! ### frexp -/

theorem sign_mag_or {x y : BitVec F.w} (hy : y.toNat < 2 ^ (F.e + F.s)) :
    F.sign (y ||| (x &&& F.signMask)) = F.sign x ∧ F.mag (y ||| (x &&& F.signMask)) = y.toNat := by
  apply F.sign_mag_of hy
  rw [BitVec.toNat_or, F.toNat_and_signMask]
  cases F.sign x
  · simp
  · simp only [if_true]
    rw [Nat.or_comm, or_eq_add' hy (dvd_refl _), Nat.add_comm]

theorem frexpFin_spec {ee : Int} {ix : BitVec F.w} (h1 : -2 ^ 20 ≤ ee) (h2 : ee < 2 ^ 20) :
    Ok (F.frexpFin ee ix) (fun r => F.sign r.1 = F.sign ix ∧
      F.mag r.1 = (F.bias - 2) * 2 ^ F.s + (2 ^ F.s + F.mag ix % 2 ^ F.s) ∧ r.2 = ee - F.bias + 1) := by
  have hb := F.bias_ge
  have hpb := F.pe_bias
  have hpl := F.pe_le
  have hlt := Nat.mod_lt (F.mag ix) (Nat.two_pow_pos F.s)
  have hpw := F.pw
  have hpes := F.pes
  have hm : (F.bias - 1) * 2 ^ F.s + 2 ^ F.s ≤ 2 ^ F.e * 2 ^ F.s := by
    rw [← Nat.succ_mul]; exact Nat.mul_le_mul_right _ (by omega)
  have hbw : F.bias - 1 < 2 ^ F.w := by
    have := Nat.le_mul_of_pos_right (F.bias - 1) (Nat.two_pow_pos F.s); omega
  unfold frexpFin
  refine Ok.bind (i32C_spec (by omega)) ?_
  rintro _ rfl
  refine Ok.bind (i32C_spec (by omega)) ?_
  rintro _ rfl
  refine Ok.bind (nsubC_spec (by omega)) ?_
  rintro _ rfl
  refine Ok.bind (castU_spec hbw) ?_
  intro t ht
  refine Ok.bind (shlC_spec (by show F.s < F.e + F.s + 1; omega)) ?_
  intro t' ht'
  rw [ht, Nat.mod_eq_of_lt (by omega)] at ht'
  have hms : (F.bias - 2) * 2 ^ F.s + 2 ^ F.s = (F.bias - 1) * 2 ^ F.s := by
    rw [← Nat.succ_mul]; congr 1; omega
  have := F.sign_mag_of (b := ix &&& (F.signMask ||| F.sigMask) ||| t') (t := F.sign ix)
    (n := (F.bias - 1) * 2 ^ F.s + F.mag ix % 2 ^ F.s) (by omega) (by
      rw [BitVec.and_or_distrib_left, BitVec.toNat_or, BitVec.toNat_or, F.toNat_and_signMask, F.toNat_and_sigMask,
        F.mag_mod, ht', Nat.or_assoc, Nat.or_comm (F.mag ix % _), or_eq_add' hlt (Dvd.intro_left _ rfl), Nat.add_comm (F.mag ix % _)]
      cases F.sign ix
      · simp
      · simp only [if_true]
        rw [or_eq_add' (k := F.e + F.s) (by omega) (dvd_refl _), Nat.add_comm])
  exact Ok.pure' ⟨this.1, by rw [this.2]; omega, by ring⟩

/-- the mantissa in `[1/2, 1)` -/
theorem half_pattern {f : Nat} (hf : f < 2 ^ F.s) :
    F.magVal ℚ ((F.bias - 2) * 2 ^ F.s + (2 ^ F.s + f)) = (2 ^ F.s + f : Nat) * 2 ^ (-1 - (F.s : ℤ)) ∧
    (F.bias - 2) * 2 ^ F.s + (2 ^ F.s + f) < F.infRep := by
  have hb := F.bias_ge
  have hps := F.ps_succ
  have hpb := F.pe_bias
  constructor
  · have := F.magVal_at (E := F.bias - 1) (m := 2 ^ F.s + f) (by omega) (by omega) (Or.inl (by omega))
    have e : F.bias - 1 - 1 = F.bias - 2 := by omega
    rw [e] at this
    rw [this]
    congr 2
    push_cast [show 1 ≤ F.bias by omega]; ring
  · have : (F.bias - 2) * 2 ^ F.s + 2 * 2 ^ F.s = F.bias * 2 ^ F.s := by
      rw [← Nat.add_mul]; congr 1; omega
    have h2 : F.bias * 2 ^ F.s ≤ F.infRep := by
      unfold infRep; exact Nat.mul_le_mul_right _ (by omega)
    omega

theorem half_range {m : Nat} (h1 : 2 ^ F.s ≤ m) (h2 : m < 2 ^ (F.s + 1)) :
    (1 : ℚ) / 2 ≤ m * 2 ^ (-1 - (F.s : ℤ)) ∧ (m : ℚ) * 2 ^ (-1 - (F.s : ℤ)) < 1 := by
  have e : (2 : ℚ) ^ (-1 - (F.s : ℤ)) = (2 ^ (F.s + 1))⁻¹ := by
    rw [← zpow_natCast, ← zpow_neg]; congr 1; push_cast; ring
  have hp : (0 : ℚ) < 2 ^ (F.s + 1) := by positivity
  rw [e, ← div_eq_mul_inv, le_div_iff₀ hp, div_lt_iff₀ hp, one_mul]
  refine ⟨?_, by exact_mod_cast h2⟩
  have : (2 : ℚ) ^ F.s ≤ m := by exact_mod_cast h1
  rw [pow_succ]; linarith

theorem frexp_fin {x : BitVec F.w} (hx : F.IsFin x) (h0 : ¬ F.IsZero x) :
    Ok (F.frexp x) (fun r => F.IsFin r.1 ∧ F.sign r.1 = F.sign x ∧ F.val x = F.val r.1 * 2 ^ r.2 ∧
      1 / 2 ≤ |F.val r.1| ∧ |F.val r.1| < 1) := by
  have hb := F.bias_ge
  have hpb := F.pe_bias
  have hpl := F.pe_le
  have hsu := F.ps_succ
  obtain ⟨z1, z2, _, _⟩ := F.zero_facts
  have habs : ∀ r : BitVec F.w, |F.val r| = F.magVal ℚ (F.mag r) := by
    intro r
    have := F.magVal_nonneg ℚ (F.mag r)
    rw [F.val_sign]
    split <;> simp [abs_of_nonneg this]
  have fin : ∀ (ee : Int) (ix : BitVec F.w) (m : Nat), -2 ^ 20 ≤ ee → ee < 2 ^ 20 → F.sign ix = F.sign x →
      2 ^ F.s ≤ m → m < 2 ^ (F.s + 1) → F.mag ix % 2 ^ F.s = m - 2 ^ F.s →
      F.magVal ℚ (F.mag x) = m * 2 ^ (ee - F.bias - F.s) →
      Ok (F.frexpFin ee ix) (fun r => F.IsFin r.1 ∧ F.sign r.1 = F.sign x ∧ F.val x = F.val r.1 * 2 ^ r.2 ∧
        1 / 2 ≤ |F.val r.1| ∧ |F.val r.1| < 1) := by
    intro ee ix m h1 h2 hs hm1 hm2 hm3 hv
    refine Ok.mono (F.frexpFin_spec h1 h2) ?_
    rintro ⟨r, e⟩ ⟨r1, r2, r3⟩
    simp only at r1 r2 r3 ⊢
    rw [hm3] at r2
    obtain ⟨a, b⟩ := F.half_pattern (f := m - 2 ^ F.s) (by omega)
    have e1 : 2 ^ F.s + (m - 2 ^ F.s) = m := by omega
    rw [e1] at a b r2
    obtain ⟨c, d⟩ := F.half_range hm1 hm2
    refine ⟨by unfold IsFin; rw [r2]; exact b, by rw [r1, hs], ?_, ?_, ?_⟩
    · rw [F.val_sign, F.val_sign r, r1, hs, hv, r2, a, r3, mul_assoc, mul_assoc, ← zpow_add₀ (by norm_num)]
      congr 3; ring
    · rw [habs, r2, a]; exact c
    · rw [habs, r2, a]; exact d
  unfold frexp
  have hex := F.ex_eq x
  have hdm := Nat.div_add_mod (F.mag x) (2 ^ F.s)
  have hml := Nat.mod_lt (F.mag x) (Nat.two_pow_pos F.s)
  by_cases he : F.ex x = 0
  · rw [if_pos he]
    rw [hex] at he
    have hfe : ¬ F.feq x F.zero = true := by
      rw [F.feq_iff]
      rintro ⟨_, _, h⟩
      rw [F.smag_zero_iff.mpr z2] at h
      exact h0 (F.smag_zero_iff.mp h)
    rw [if_neg hfe]
    rw [he, Nat.mul_zero, Nat.zero_add] at hdm
    unfold IsZero at h0
    have hsig : (x &&& F.sigMask).toNat = F.mag x := by rw [F.toNat_and_sigMask, F.mag_mod]; omega
    refine Ok.bind (F.normalize_spec (by omega) (by omega)) ?_
    rintro ⟨ee, ix⟩ ⟨k, hk1, hk2, hk3, hk4, hk5, hk6⟩
    simp only at hk3 hk4 hk5 hk6 ⊢
    rw [hsig] at hk4
    have hs' := F.hs'
    have he5 := F.he
    have h2e : 2 ^ (F.s + 1) ≤ 2 ^ (F.e + F.s) := two_pow_le (by omega)
    obtain ⟨s1, s2⟩ := F.sign_mag_or (x := x) (y := ix) (by omega)
    refine fin ee _ ix.toNat (by omega) (by omega) s1 hk5 hk6 ?_ ?_
    · rw [s2]
      have e : ix.toNat = 2 ^ F.s + (ix.toNat - 2 ^ F.s) := by omega
      conv_lhs => rw [e]
      rw [Nat.add_mod_left, Nat.mod_eq_of_lt (by omega)]
    · have := F.magVal_at (E := 1) (m := F.mag x) (by omega) (by omega) (Or.inr rfl)
      rw [Nat.sub_self, Nat.zero_mul, Nat.zero_add] at this
      rw [this, hk4, hk3]
      push_cast
      rw [mul_assoc, ← zpow_natCast (2 : ℚ) k, ← zpow_add₀ (by norm_num)]
      congr 2; ring
  · rw [if_neg he]
    have hfd := F.mag_isFin_div hx
    have hes := F.expSat_eq
    rw [if_neg (by rw [hex]; omega)]
    rw [hex] at he ⊢
    refine fin _ x (2 ^ F.s + F.mag x % 2 ^ F.s) (by omega) ?_ rfl (by omega) (by omega) (by omega) ?_
    · generalize F.mag x / 2 ^ F.s = q at *
      omega
    · have e : F.mag x = (F.mag x / 2 ^ F.s - 1) * 2 ^ F.s + (2 ^ F.s + F.mag x % 2 ^ F.s) := by
        rw [← Nat.add_assoc, ← Nat.succ_mul]
        have : (F.mag x / 2 ^ F.s - 1).succ = F.mag x / 2 ^ F.s := by omega
        rw [this, Nat.mul_comm]; exact hdm.symm
      conv_lhs => rw [e]
      rw [F.magVal_at (by omega) (by omega) (Or.inl (by omega))]

theorem frexp_special {x : BitVec F.w} (h : F.IsZero x ∨ ¬ F.IsFin x) : F.frexp x = .ok (x, 0) := by
  obtain ⟨z1, z2, _, _⟩ := F.zero_facts
  have hex := F.ex_eq x
  unfold frexp
  rcases h with h | h
  · have h' := h
    unfold IsZero at h
    rw [if_pos (by rw [hex, h]; simp), if_pos]
    · rfl
    · rw [F.feq_iff, F.smag_zero_iff.mpr z2, F.smag_zero_iff.mpr h]
      exact ⟨IsFin.not_nan F (IsZero.isFin F h'), IsFin.not_nan F (IsZero.isFin F z2), rfl⟩
  · have hge : 2 ^ F.e - 1 ≤ F.mag x / 2 ^ F.s := by
      rw [Nat.le_div_iff_mul_le (Nat.two_pow_pos _)]
      unfold IsFin at h; exact not_lt.mp h
    have hlt := F.mag_div_lt x
    have hpe := F.pe_ge
    rw [if_neg (by rw [hex]; omega), if_pos (by rw [hex, F.expSat_eq]; omega)]
    rfl

/-! ### ilogb -/

theorem ilogbLoop_spec : ∀ (t fuel : Nat) (e : Int) (i : BitVec F.w), t < fuel → t < F.w →
    2 ^ (F.w - 1 - t) ≤ i.toNat → i.toNat < 2 ^ (F.w - t) → -2 ^ 20 ≤ e - t → e ≤ 0 →
    Ok (F.ilogbLoop fuel e i) (· = e - t) := by
  intro t
  induction t with
  | zero =>
    intro fuel e i hf _ h1 h2 he1 he2
    obtain ⟨fuel, rfl⟩ : ∃ f, fuel = f + 1 := ⟨fuel - 1, by omega⟩
    unfold ilogbLoop
    refine Ok.bind (shrC_spec (by show F.w - 1 < F.w; show F.e + F.s + 1 - 1 < F.e + F.s + 1; omega)) ?_
    intro r hr
    rw [if_neg]
    · exact Ok.pure' (by simp)
    · intro h
      rw [h] at hr
      have : 0 < i.toNat / 2 ^ (F.w - 1) := Nat.div_pos h1 (Nat.two_pow_pos _)
      rw [← hr] at this
      simp at this
  | succ t ih =>
    intro fuel e i hf hw h1 h2 he1 he2
    obtain ⟨fuel, rfl⟩ : ∃ f, fuel = f + 1 := ⟨fuel - 1, by omega⟩
    unfold ilogbLoop
    refine Ok.bind (shrC_spec (by show F.w - 1 < F.w; show F.e + F.s + 1 - 1 < F.e + F.s + 1; omega)) ?_
    intro r hr
    have hle : 2 ^ (F.w - (t + 1)) ≤ 2 ^ (F.w - 1) := two_pow_le (by omega)
    rw [Nat.div_eq_of_lt (by omega)] at hr
    rw [if_pos (BitVec.eq_of_toNat_eq (by rw [hr]; simp))]
    refine Ok.bind (i32C_spec (by omega)) ?_
    rintro _ rfl
    refine Ok.bind (shlC_spec (by show 1 < F.e + F.s + 1; have := F.he; omega)) ?_
    intro i' hi'
    have e1 : 2 ^ (F.w - t) = 2 ^ (F.w - (t + 1)) * 2 := by rw [← Nat.pow_succ]; congr 1; omega
    have e2 : 2 ^ (F.w - 1 - t) = 2 ^ (F.w - 1 - (t + 1)) * 2 := by rw [← Nat.pow_succ]; congr 1; omega
    have e3 : 2 ^ (F.w - t) ≤ 2 ^ F.w := two_pow_le (by omega)
    rw [Nat.mod_eq_of_lt (by omega)] at hi'
    refine Ok.mono (ih fuel (e - 1) i' (by omega) (by omega) (by omega) (by omega) (by omega) (by omega)) ?_
    rintro _ rfl
    push_cast; ring

theorem shl_sig (x : BitVec F.w) :
    Ok (shlC x (F.e + 1)) (fun r => r.toNat = F.mag x % 2 ^ F.s * 2 ^ (F.e + 1)) := by
  have hs := F.hs
  refine Ok.mono (shlC_spec (by show F.e + 1 < F.e + F.s + 1; omega)) ?_
  intro r hr
  have e : 2 ^ F.w = 2 ^ F.s * 2 ^ (F.e + 1) := by
    rw [← Nat.pow_add]; congr 1; show F.e + F.s + 1 = _; omega
  rw [hr, e, Nat.mul_mod_mul_right, F.mag_mod]

theorem eq_zero_iff {w : Nat} {r : BitVec w} : r = 0#w ↔ r.toNat = 0 := by
  rw [← BitVec.toNat_inj]; simp

/-- `2^e ≤ magVal n < 2^(e+1)` -/
def ExpOf (n : Nat) (e : Int) : Prop := (2 : ℚ) ^ e ≤ F.magVal ℚ n ∧ F.magVal ℚ n < (2 : ℚ) ^ (e + 1)

theorem expOf_of {n m L : Nat} {E : Int} (h : F.magVal ℚ n = m * 2 ^ E) (h1 : 2 ^ L ≤ m) (h2 : m < 2 ^ (L + 1)) :
    F.ExpOf n (L + E) := by
  unfold ExpOf
  have hp : (0 : ℚ) < 2 ^ E := by positivity
  rw [h, zpow_add₀ (by norm_num), show ((L : Int) + E + 1) = ((L + 1 : Nat) : Int) + E by push_cast; ring,
    zpow_add₀ (by norm_num), zpow_natCast, zpow_natCast]
  exact ⟨mul_le_mul_of_nonneg_right (by exact_mod_cast h1) hp.le, mul_lt_mul_of_pos_right (by exact_mod_cast h2) hp⟩

theorem ilogb_fin {x : BitVec F.w} (hx : F.IsFin x) (h0 : ¬ F.IsZero x) :
    Ok (F.ilogb x) (F.ExpOf (F.mag x)) := by
  have hb := F.bias_ge
  have hpb := F.pe_bias
  have hpl := F.pe_le
  have hsu := F.ps_succ
  have hs' := F.hs'
  have hex := F.ex_eq x
  have hdm := Nat.div_add_mod (F.mag x) (2 ^ F.s)
  have hml := Nat.mod_lt (F.mag x) (Nat.two_pow_pos F.s)
  unfold IsZero at h0
  unfold ilogb
  by_cases he : F.ex x = 0
  · rw [if_pos he]
    rw [hex] at he
    rw [he, Nat.mul_zero, Nat.zero_add] at hdm
    refine Ok.bind (F.shl_sig x) ?_
    intro i hi
    rw [hdm] at hi
    rw [if_neg (by
      rw [eq_zero_iff, hi]
      exact Nat.mul_ne_zero h0 (Nat.two_pow_pos _).ne')]
    refine Ok.bind (i32C_spec (by omega)) ?_
    rintro _ rfl
    have hL1 := lt_two_pow_bitLen (F.mag x)
    have hL2 := two_pow_le_of_bitLen h0
    have hL3 := bitLen_pos h0
    have hL4 : bitLen (F.mag x) ≤ F.s := bitLen_le_iff.mpr (by omega)
    generalize bitLen (F.mag x) = L at *
    have hw : F.w = F.e + F.s + 1 := rfl
    refine Ok.mono (F.ilogbLoop_spec (F.s - L) _ _ i (by omega) (by omega) ?_ ?_ (by omega) (by omega)) ?_
    · rw [hi, show F.w - 1 - (F.s - L) = (L - 1) + (F.e + 1) by omega, Nat.pow_add]
      exact Nat.mul_le_mul_right _ hL2
    · rw [hi, show F.w - (F.s - L) = L + (F.e + 1) by omega, Nat.pow_add 2 L]
      exact Nat.mul_lt_mul_of_pos_right hL1 (Nat.two_pow_pos _)
    · rintro _ rfl
      have := F.magVal_at (E := 1) (m := F.mag x) (by omega) (by omega) (Or.inr rfl)
      rw [Nat.sub_self, Nat.zero_mul, Nat.zero_add] at this
      have h := F.expOf_of (L := L - 1) this hL2 (by rwa [Nat.sub_add_cancel hL3])
      have e : (-(F.bias : Int) - ((F.s - L : Nat) : Int)) = ((L - 1 : Nat) : Int) + (((1 : Nat) : Int) - F.bias - F.s) := by
        omega
      show F.ExpOf _ _
      rw [e]; exact h
  · have hfd := F.mag_isFin_div hx
    have hes := F.expSat_eq
    rw [if_neg he, if_neg (by rw [hex]; omega)]
    rw [hex] at he ⊢
    have e : F.mag x = (F.mag x / 2 ^ F.s - 1) * 2 ^ F.s + (2 ^ F.s + F.mag x % 2 ^ F.s) := by
      rw [← Nat.add_assoc, ← Nat.succ_mul]
      have : (F.mag x / 2 ^ F.s - 1).succ = F.mag x / 2 ^ F.s := by omega
      rw [this, Nat.mul_comm]; exact hdm.symm
    have h1 := F.magVal_at (E := F.mag x / 2 ^ F.s) (m := 2 ^ F.s + F.mag x % 2 ^ F.s) (by omega) (by omega) (Or.inl (by omega))
    rw [← e] at h1
    have h2 := F.expOf_of (L := F.s) h1 (by omega) (by omega)
    generalize F.mag x / 2 ^ F.s = q at *
    refine Ok.mono (i32C_spec (by omega)) ?_
    rintro _ rfl
    have e2 : ((q : Int) - F.bias) = (F.s : Int) + (q - F.bias - F.s) := by ring
    show F.ExpOf _ _
    rw [e2]; exact h2

theorem mag_zero_parts {x : BitVec F.w} (h : F.mag x / 2 ^ F.s = 0) : F.mag x % 2 ^ F.s = F.mag x := by
  have hdm := Nat.div_add_mod (F.mag x) (2 ^ F.s)
  rw [h] at hdm; omega

theorem ex_sat_iff (x : BitVec F.w) : F.ex x = F.expSat ↔ ¬ F.IsFin x := by
  have hlt := F.mag_div_lt x
  rw [F.ex_eq, F.expSat_eq]
  unfold IsFin infRep
  rw [not_lt, ← Nat.le_div_iff_mul_le (Nat.two_pow_pos _)]
  generalize F.mag x / 2 ^ F.s = q at *
  omega

/-- for infinities and NaN, the significand tells them apart -/
theorem sat_sig {x : BitVec F.w} (h : ¬ F.IsFin x) : F.mag x % 2 ^ F.s = F.mag x - F.infRep := by
  have hlt := F.mag_div_lt x
  have h2 := (F.ex_sat_iff x).mpr h
  rw [F.ex_eq, F.expSat_eq] at h2
  have hdm := Nat.div_add_mod (F.mag x) (2 ^ F.s)
  rw [h2] at hdm
  unfold infRep
  rw [Nat.mul_comm]
  omega

theorem ilogb_special (x : BitVec F.w) :
    (F.IsZero x ∨ F.IsNaN x → F.ilogb x = .ok (-2 ^ 31)) ∧ (F.IsInf x → F.ilogb x = .ok (2 ^ 31 - 1)) := by
  have hex := F.ex_eq x
  have hpe := F.pe_ge
  obtain ⟨r, hr, hr'⟩ := F.shl_sig x
  have hz : r = 0#F.w ↔ F.mag x % 2 ^ F.s = 0 := by
    rw [eq_zero_iff, hr', Nat.mul_eq_zero]
    have := Nat.two_pow_pos (F.e + 1)
    constructor
    · rintro (h | h) <;> omega
    · exact Or.inl
  have key : ¬ F.IsFin x → F.ilogb x = .ok (if r ≠ 0#F.w then -2 ^ 31 else 2 ^ 31 - 1) := by
    intro h
    unfold ilogb
    have hs := (F.ex_sat_iff x).mpr h
    rw [if_neg (by rw [hs, F.expSat_eq]; omega), if_pos hs, hr]
    rfl
  refine ⟨?_, ?_⟩
  · rintro (h | h)
    · unfold IsZero at h
      unfold ilogb
      rw [if_pos (by rw [hex, h]; simp), hr]
      simp only [ok_bind]
      rw [if_pos (hz.mpr (by rw [h]; simp))]; rfl
    · have hf : ¬ F.IsFin x := fun hf => IsFin.not_nan F hf h
      rw [key hf, if_pos]
      rw [ne_eq, hz, F.sat_sig hf]
      unfold IsNaN at h; omega
  · intro h
    have hf : ¬ F.IsFin x := by unfold IsFin; unfold IsInf at h; omega
    rw [key hf, if_neg]
    rw [ne_eq, hz, F.sat_sig hf]
    unfold IsInf at h; simp [h]

/-! ### modf -/

theorem and_signMask_facts (x : BitVec F.w) : F.sign (x &&& F.signMask) = F.sign x ∧ F.mag (x &&& F.signMask) = 0 := by
  have h := F.sign_mag_or (x := x) (y := 0#F.w) (by simp)
  simpa using h

theorem val_of_mag_zero {x : BitVec F.w} (h : F.mag x = 0) : F.val x = 0 := by
  rw [F.val_sign, h, F.magVal_zero]; simp

/-- specification of `modf` on finite operands -/
def ModfRes (x : BitVec F.w) (r : BitVec F.w × BitVec F.w) : Prop :=
  F.IsFin r.1 ∧ F.IsFin r.2 ∧ F.sign r.1 = F.sign x ∧ F.sign r.2 = F.sign x ∧
  F.magVal ℚ (F.mag r.2) = (⌊F.magVal ℚ (F.mag x)⌋ : ℤ) ∧ F.val r.1 + F.val r.2 = F.val x

theorem modf_fin (N : FPU F) {x : BitVec F.w} (hx : F.IsFin x) : Ok (F.modf N x) (F.ModfRes x) := by
  have hb := F.bias_ge
  have hpb := F.pe_bias
  have hpl := F.pe_le
  have hsu := F.ps_succ
  have hs' := F.hs'
  have hex := F.ex_eq x
  have hfd := F.mag_isFin_div hx
  have hes := F.expSat_eq
  have hip := F.ps_le_infRep
  have hpp := Nat.two_pow_pos F.s
  obtain ⟨s1, s2⟩ := F.and_signMask_facts x
  have s3 : F.IsFin (x &&& F.signMask) := by unfold IsFin; omega
  have s4 := F.val_of_mag_zero s2
  have whole : (⌊F.magVal ℚ (F.mag x)⌋ : ℚ) = F.magVal ℚ (F.mag x) → F.ModfRes x (x &&& F.signMask, x) := by
    intro h
    exact ⟨s3, hx, s1, rfl, h.symm, by simp only; rw [s4, zero_add]⟩
  unfold modf
  rw [hex]
  refine Ok.bind (i32C_spec (by generalize F.mag x / 2 ^ F.s = q at *; omega)) ?_
  rintro _ rfl
  split
  · rename_i h
    refine Ok.bind (F.shl_sig x) ?_
    intro t _
    rw [if_neg (by
      rintro ⟨h, _⟩
      rw [hes] at h
      generalize F.mag x / 2 ^ F.s = q at *
      omega)]
    obtain ⟨k, hk⟩ := F.magVal_big (n := F.mag x) (by generalize F.mag x / 2 ^ F.s = q at *; omega)
    exact Ok.pure' (whole (by rw [hk]; simp))
  · rename_i h1
    split
    · rename_i h2
      have := (F.down_up_small (n := F.mag x) (by generalize F.mag x / 2 ^ F.s = q at *; omega)).1
      unfold Down at this
      exact Ok.pure' ⟨hx, s3, rfl, s1, by simp only; rw [s2]; exact this, by simp only; rw [s4, add_zero]⟩
    · rename_i h2
      obtain ⟨k, hE, hk⟩ : ∃ k : Nat, F.mag x / 2 ^ F.s = F.bias + k ∧ k < F.s := by
        generalize F.mag x / 2 ^ F.s = q at *
        exact ⟨q - F.bias, by omega, by omega⟩
      have e1 : ((F.mag x / 2 ^ F.s : Nat) : Int) - F.bias = (k : Nat) := by rw [hE]; push_cast; ring
      rw [e1, Int.toNat_natCast]
      refine Ok.bind (F.sigMask_shr hk) ?_
      intro m hm
      have hD := (F.down_up_mid hE hk).1
      unfold Down at hD
      have hc : F.mag x / 2 ^ (F.s - k) * 2 ^ (F.s - k) ≤ F.mag x := Nat.div_mul_le_self _ _
      split
      · rename_i hz
        rw [F.and_mask_eq_zero (d := F.s - k) (by omega) hm] at hz
        have : F.mag x / 2 ^ (F.s - k) * 2 ^ (F.s - k) = F.mag x := Nat.div_mul_cancel (Nat.dvd_of_mod_eq_zero hz)
        rw [this] at hD
        exact Ok.pure' (whole hD.symm)
      · rename_i hz
        rw [F.and_mask_eq_zero (d := F.s - k) (by omega) hm] at hz
        obtain ⟨c1, c2⟩ := F.clear_low (x := x) (y := x) (m := m) (d := F.s - k) (by omega) hm (F.toNat_eq x) (F.mag_lt x)
        have hrf : F.IsFin (x &&& ~~~m) := by unfold IsFin at hx ⊢; omega
        obtain ⟨m', m1, m2, m3, m4, m5, _, _⟩ := F.magVal_frac hE hk
        obtain ⟨n, n1, n2⟩ := F.exists_repr (F.bias + k) (by omega) (m' % 2 ^ (F.s - k)) (by
          have := Nat.mod_le m' (2 ^ (F.s - k)); omega)
        -- the exact difference of the magnitudes
        have hdiff : F.magVal ℚ (F.mag x) - F.magVal ℚ (F.mag (x &&& ~~~m)) = F.magVal ℚ n := by
          rw [n1, c2, m4, m5]
          have hp : ((2 ^ (F.s - k) : Nat) : ℚ) ≠ 0 := by positivity
          have e2 : (((F.bias + k : Nat) : ℤ) - F.bias - F.s) = -((F.s - k : Nat) : ℤ) := by omega
          rw [e2, zpow_neg, zpow_natCast]
          have hdm := Nat.div_add_mod m' (2 ^ (F.s - k))
          have hdm' : ((2 ^ (F.s - k) : Nat) : ℚ) * (m' / 2 ^ (F.s - k) : Nat) + (m' % 2 ^ (F.s - k) : Nat) = m' := by
            exact_mod_cast hdm
          rw [← hdm']
          push_cast at hp ⊢
          field_simp
          ring
        have hpos : 0 < F.magVal ℚ n := by
          rw [n1]
          apply mul_pos
          · rw [← m3]; exact_mod_cast Nat.pos_of_ne_zero hz
          · positivity
        have hsub := ((N.sub_spec x (x &&& ~~~m)).1 hx (F.isFin_neg.mpr hrf)).1
        have hval : F.val x + F.val (F.neg (x &&& ~~~m)) = (if F.sign x then -1 else 1) * F.magVal ℚ n := by
          rw [F.val_neg, F.val_sign, F.val_sign (x &&& ~~~m), c1, ← hdiff]; ring
        obtain ⟨r1, r2⟩ := Rounds.of_sign F hsub hpos hval
        have hn : n < F.infRep := by
          have h1 : F.magVal ℚ n ≤ F.magVal ℚ (F.mag x) := by
            rw [← hdiff]; have := F.magVal_nonneg ℚ (F.mag (x &&& ~~~m)); linarith
          rw [F.magVal_le_iff] at h1
          unfold IsFin at hx; omega
        have r3 := IsRNE.unique F r2 (F.isRNE_self hn.le)
        refine Ok.pure' ⟨?_, hrf, r1, c1, ?_, ?_⟩
        · unfold IsFin; simp only; rw [r3]; exact hn
        · simp only; rw [c2]; exact hD
        · simp only
          rw [F.val_sign, r1, r3, F.val_sign (x &&& ~~~m), c1, ← hdiff, F.val_sign]; ring

theorem modf_special (N : FPU F) (x : BitVec F.w) :
    (F.IsNaN x → F.modf N x = .ok (x, x)) ∧ (F.IsInf x → F.modf N x = .ok (x &&& F.signMask, x)) := by
  have hb := F.bias_ge
  have hpb := F.pe_bias
  have hpl := F.pe_le
  have hps := F.hs'
  have key : ¬ F.IsFin x → ∃ t : BitVec F.w, t.toNat = F.mag x % 2 ^ F.s * 2 ^ (F.e + 1) ∧
      F.modf N x = .ok (if t ≠ 0#F.w then (x, x) else (x &&& F.signMask, x)) := by
    intro h
    have hs := (F.ex_sat_iff x).mpr h
    obtain ⟨t, ht, ht'⟩ := F.shl_sig x
    refine ⟨t, ht', ?_⟩
    unfold modf
    rw [hs, F.expSat_eq]
    obtain ⟨i, hi, hi'⟩ := i32C_spec (x := ((2 ^ F.e - 1 : Nat) : Int) - F.bias) (by omega)
    have hi'' : i = _ := hi'
    rw [hi]
    simp only [ok_bind]
    rw [if_pos (by rw [hi'']; omega), ht]
    simp only [ok_bind, hi'', true_and]
    split <;> rfl
  have hz : ∀ t : BitVec F.w, t.toNat = F.mag x % 2 ^ F.s * 2 ^ (F.e + 1) → (t = 0#F.w ↔ F.mag x % 2 ^ F.s = 0) := by
    intro t ht
    rw [eq_zero_iff, ht, Nat.mul_eq_zero]
    have := Nat.two_pow_pos (F.e + 1)
    constructor
    · rintro (h | h) <;> omega
    · exact Or.inl
  refine ⟨fun h => ?_, fun h => ?_⟩
  · have hf : ¬ F.IsFin x := fun hf => IsFin.not_nan F hf h
    obtain ⟨t, h1, h2⟩ := key hf
    rw [h2, if_pos]
    rw [ne_eq, hz t h1, F.sat_sig hf]
    unfold IsNaN at h; omega
  · have hf : ¬ F.IsFin x := by unfold IsFin; unfold IsInf at h; omega
    obtain ⟨t, h1, h2⟩ := key hf
    rw [h2, if_neg]
    rw [ne_eq, hz t h1, F.sat_sig hf]
    unfold IsInf at h; simp [h]

/-! ### nextafter -/

theorem nextafter_spec (N : FPU F) (x y : BitVec F.w) :
    Ok (F.nextafter N x y) (fun r =>
      (F.IsNaN x ∨ F.IsNaN y → F.IsNaN r) ∧
      (¬ F.IsNaN x → ¬ F.IsNaN y →
        (F.smag x = F.smag y → r = y) ∧
        (F.smag x < F.smag y → ¬ F.IsNaN r ∧ F.smag r = F.smag x + 1) ∧
        (F.smag y < F.smag x → ¬ F.IsNaN r ∧ F.smag r = F.smag x - 1) ∧
        (F.smag x ≠ F.smag y → F.sign r = if F.mag x = 0 then F.sign y else F.sign x))) := by
  have hn1 := F.isNan_iff x
  have hn2 := F.isNan_iff y
  have hil := F.infRep_lt
  have hip := F.ps_le_infRep
  have hps := F.ps_ge
  have hpw := F.pw
  have hpes := F.pes
  have h1w : (1#F.w).toNat = 1 := by
    rw [BitVec.toNat_ofNat, Nat.mod_eq_of_lt]
    exact Nat.one_lt_two_pow (by show F.e + F.s + 1 ≠ 0; omega)
  unfold nextafter
  by_cases hn : F.IsNaN x ∨ F.IsNaN y
  · rw [if_pos (by rw [Bool.or_eq_true, hn1, hn2]; exact hn)]
    refine Ok.pure' ⟨fun h => (N.add_spec x y).2.1 h, fun a b => ?_⟩
    tauto
  · rw [if_neg (by rw [Bool.or_eq_true, hn1, hn2]; exact hn)]
    push Not at hn
    obtain ⟨hx, hy⟩ := hn
    suffices h : Ok (if x = y then pure y else
        if (x &&& F.absMask) = 0#F.w then
          if (y &&& F.absMask) = 0#F.w then pure y
          else pure ((y &&& F.signMask) ||| 1#F.w)
        else if (x &&& F.absMask) > (y &&& F.absMask) ∨ (x ^^^ y) &&& F.signMask ≠ 0#F.w then subC x 1#F.w
        else addC x 1#F.w) (fun r => 
        (F.smag x = F.smag y → r = y) ∧
        (F.smag x < F.smag y → ¬ F.IsNaN r ∧ F.smag r = F.smag x + 1) ∧
        (F.smag y < F.smag x → ¬ F.IsNaN r ∧ F.smag r = F.smag x - 1) ∧
        (F.smag x ≠ F.smag y → F.sign r = if F.mag x = 0 then F.sign y else F.sign x)) from
      Ok.mono h (fun r hr => ⟨fun hc => by tauto, fun _ _ => hr⟩)
    have ax : (x &&& F.absMask) = 0#F.w ↔ F.mag x = 0 := by rw [eq_zero_iff, F.toNat_and_absMask]
    have ay : (y &&& F.absMask) = 0#F.w ↔ F.mag y = 0 := by rw [eq_zero_iff, F.toNat_and_absMask]
    have ag : (x &&& F.absMask) > (y &&& F.absMask) ↔ F.mag y < F.mag x := by
      rw [gt_iff_lt, BitVec.lt_def, F.toNat_and_absMask, F.toNat_and_absMask]
    have asg : (x ^^^ y) &&& F.signMask ≠ 0#F.w ↔ F.sign x ≠ F.sign y := by
      rw [ne_eq, eq_zero_iff, F.toNat_and_signMask, F.sign_xor]
      have := Nat.two_pow_pos (F.e + F.s)
      cases F.sign x <;> cases F.sign y <;> simp
    simp only [ax, ay, ag, asg]
    unfold IsNaN at hx hy ⊢
    have tx := F.toNat_eq x
    have ty := F.toNat_eq y
    split
    · rename_i h
      subst h
      exact Ok.pure' ⟨fun _ => rfl, fun h => absurd h (lt_irrefl _), fun h => absurd h (lt_irrefl _), fun h => absurd rfl h⟩
    · rename_i hxy
      have hne : F.sign x = F.sign y → F.mag x ≠ F.mag y := fun h1 h2 => hxy (F.ext_sign_mag h1 h2)
      split
      · rename_i hx0
        have hsx := F.smag_zero_iff.mpr hx0
        split
        · rename_i hy0
          have hsy := F.smag_zero_iff.mpr hy0
          exact Ok.pure' ⟨fun _ => rfl, fun h => by omega, fun h => by omega, fun h => by omega⟩
        · rename_i hy0
          obtain ⟨a, b⟩ := F.sign_mag_or (x := y) (y := 1#F.w) (by omega)
          rw [h1w] at b
          rw [BitVec.or_comm]
          have hsy : F.smag y ≠ 0 := fun h => hy0 (F.smag_zero_iff.mp h)
          have hr : F.smag (1#F.w ||| (y &&& F.signMask)) = if F.sign y then -1 else 1 := by
            unfold smag; rw [a, b]; simp
          have hsg : F.smag y = if F.sign y then -(F.mag y : Int) else F.mag y := rfl
          refine Ok.pure' ⟨fun h => by omega, fun h => ⟨by omega, ?_⟩, fun h => ⟨by omega, ?_⟩, fun _ => ?_⟩
          · rw [hr, hsx]; cases hs : F.sign y <;> rw [hs] at hsg <;> simp at hsg ⊢
            omega
          · rw [hr, hsx]; cases hs : F.sign y <;> rw [hs] at hsg <;> simp at hsg ⊢
            omega
          · exact a
      · rename_i hx0
        have hsg : F.smag y = if F.sign y then -(F.mag y : Int) else F.mag y := rfl
        have hsx : F.smag x = if F.sign x then -(F.mag x : Int) else F.mag x := rfl
        have hmx := F.mag_lt x
        split
        · rename_i hc
          refine Ok.mono (subC_spec (by omega)) ?_
          intro r hr
          obtain ⟨a, b⟩ := F.sign_mag_of (b := r) (t := F.sign x) (n := F.mag x - 1) (by omega) (by omega)
          have hsr : F.smag r = if F.sign r then -(F.mag r : Int) else F.mag r := rfl
          rw [a, b] at hsr
          refine ⟨fun h => ?_, fun h => ⟨by omega, ?_⟩, fun h => ⟨by omega, ?_⟩, fun _ => a⟩ <;>
          cases hs1 : F.sign x <;> cases hs2 : F.sign y <;> simp [hs1, hs2] at hsg hsx hsr hc <;> omega
        · rename_i hc
          push Not at hc
          have := hne hc.2
          refine Ok.mono (addC_spec (by rw [h1w, tx]; split <;> omega)) ?_
          intro r hr
          obtain ⟨a, b⟩ := F.sign_mag_of (b := r) (t := F.sign x) (n := F.mag x + 1) (by omega) (by omega)
          have hsr : F.smag r = if F.sign r then -(F.mag r : Int) else F.mag r := rfl
          rw [a, b] at hsr
          obtain ⟨hc1, hc2⟩ := hc
          refine ⟨fun h => ?_, fun h => ⟨by omega, ?_⟩, fun h => ⟨by omega, ?_⟩, fun _ => a⟩ <;>
          cases hs1 : F.sign x <;> cases hs2 : F.sign y <;> simp [hs1, hs2] at hsg hsx hsr hc2 <;> omega

end Fmt
end Verif
