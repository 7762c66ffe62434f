import Verif.Libm.SqrtFinish
/-! # `sqrt`: correct rounding -/
namespace Verif
namespace Fmt
variable (F : Fmt)

/-! ### The special-case test -/

theorem sqrtTop_spec (hw32 : F.w ≤ 32 ∨ F.e < 31) (x : BitVec F.w) : Ok (F.sqrtTop x) (fun r =>
    (F.w ≤ 32 → r.1 = none) ∧ (¬ F.w ≤ 32 → ∃ t, r.1 = some t ∧ t.toNat = x.toNat / 2 ^ F.s) ∧
    (r.2 = false ↔ 2 ^ F.s ≤ x.toNat ∧ x.toNat < F.infRep)) := by
  have hw : F.w = F.e + F.s + 1 := rfl
  have hx := x.isLt
  have hpw := F.pw
  have hia := F.infRep_add
  have hps := F.ps_ge
  have hpe := F.pe_ge
  have hbig : 32 * 2 ^ F.s ≤ 2 ^ F.e * 2 ^ F.s := Nat.mul_le_mul_right _ hpe
  unfold sqrtTop
  by_cases c : F.w ≤ 32
  · rw [if_pos c]
    refine Ok.bind (shlC_spec (by omega)) ?_
    intro l hl
    rw [F.toNat_one', Nat.one_mul, Nat.mod_eq_of_lt (Nat.pow_lt_pow_right (by omega) (by omega))] at hl
    refine Ok.bind (subC_spec (by rw [F.toNat_expMask, hl]; omega)) ?_
    intro lim hlim
    rw [F.toNat_expMask, hl] at hlim
    refine Ok.pure' ⟨fun _ => rfl, fun h => absurd c h, ?_⟩
    dsimp only
    rw [decide_eq_false_iff_not, BitVec.le_def, hlim, BitVec.toNat_sub, hl]
    by_cases h : 2 ^ F.s ≤ x.toNat
    · have : (2 ^ F.w - 2 ^ F.s + x.toNat) % 2 ^ F.w = x.toNat - 2 ^ F.s := by
        rw [show 2 ^ F.w - 2 ^ F.s + x.toNat = x.toNat - 2 ^ F.s + 2 ^ F.w by omega, Nat.add_mod_right, Nat.mod_eq_of_lt (by omega)]
      rw [this]; omega
    · rw [Nat.mod_eq_of_lt (by omega)]; omega
  · rw [if_neg c]
    refine Ok.bind (shrC_spec (by omega)) ?_
    intro t ht
    have htl : t.toNat < 2 ^ (F.e + 1) := by
      rw [ht, Nat.div_lt_iff_lt_mul (Nat.two_pow_pos _), ← Nat.pow_add]
      exact Nat.lt_of_lt_of_le hx (Nat.pow_le_pow_right (by omega) (by omega))
    have h32 : 2 ^ (F.e + 1) ≤ 2 ^ 31 := Nat.pow_le_pow_right (by omega) (by omega)
    refine Ok.bind (castC_spec (by omega)) ?_
    intro top htop
    refine Ok.bind (nsubC_spec (by rw [F.expSat_eq]; omega)) ?_
    intro lim hlim
    refine Ok.pure' ⟨fun h => absurd h c, fun _ => ⟨top, rfl, by rw [htop, ht]⟩, ?_⟩
    dsimp only
    rw [decide_eq_false_iff_not, BitVec.toNat_sub, hlim, F.expSat_eq]
    have h1 : 2 ^ F.s ≤ x.toNat ↔ 1 ≤ top.toNat := by
      rw [htop, ht, Nat.le_div_iff_mul_le (Nat.two_pow_pos _), Nat.one_mul]
    have h2 : x.toNat < F.infRep ↔ top.toNat < 2 ^ F.e - 1 := by
      rw [htop, ht, Nat.div_lt_iff_lt_mul (Nat.two_pow_pos _)]; rfl
    rw [h1, h2]
    have := top.isLt
    have e1 : (1#32).toNat = 1 := rfl
    rw [e1]
    have : 2 ^ F.e ≤ 2 ^ 31 := Nat.pow_le_pow_right (by omega) (by omega)
    omega

/-- what is known of the argument after the special cases: `x = (2^s + f) 2^(E - bias - s)` -/
structure SqrtArg (x ix : BitVec F.w) (top : Option (BitVec 32)) (E : ℤ) (f E' : Nat) : Prop where
  hf : f < 2 ^ F.s
  lo : 1 - (F.s : ℤ) ≤ E
  hi : E < 2 ^ F.e - 1
  val : F.magVal ℚ (F.mag x) = ((2 ^ F.s + f : Nat) : ℚ) * 2 ^ (E - F.bias - F.s)
  ix_eq : ix.toNat = E' * 2 ^ F.s + f
  par : (E' : ℤ) % 2 = E % 2
  none : top = .none → F.w ≤ 32 ∧ (E' : ℤ) = E % 2 ^ (F.e + 1)
  some : ∀ t, top = .some t → ¬ F.w ≤ 32 ∧ (t.toNat : ℤ) = E % 2 ^ 32

variable {F}

theorem sqrtArg_normal {x : BitVec F.w} (h0 : 2 ^ F.s ≤ x.toNat) (h1 : x.toNat < F.infRep) {top : Option (BitVec 32)}
    (t1 : F.w ≤ 32 → top = .none) (t2 : ¬ F.w ≤ 32 → ∃ t, top = .some t ∧ t.toNat = x.toNat / 2 ^ F.s) :
    F.SqrtArg x x top ((x.toNat / 2 ^ F.s : Nat) : ℤ) (x.toNat % 2 ^ F.s) (x.toNat / 2 ^ F.s) := by
  have hil := F.infRep_lt
  have hmag : F.mag x = x.toNat := Nat.mod_eq_of_lt (by omega)
  have hps := Nat.two_pow_pos F.s
  have hdm := Nat.div_add_mod x.toNat (2 ^ F.s)
  have hml := Nat.mod_lt x.toNat hps
  have hd1 : 1 ≤ x.toNat / 2 ^ F.s := by rw [Nat.le_div_iff_mul_le hps, Nat.one_mul]; exact h0
  have hd2 := F.mag_isFin_div h1
  have hpe := F.pe_ge
  have hpe' := F.pe_le
  refine ⟨hml, by omega, ?_, ?_, ?_, rfl, ?_, ?_⟩
  · have : ((2 ^ F.e : Nat) : ℤ) = (2 : ℤ) ^ F.e := by push_cast; ring
    rw [← this]; omega
  · rw [hmag]
    generalize x.toNat / 2 ^ F.s = q at *
    have e : x.toNat = (q - 1) * 2 ^ F.s + (2 ^ F.s + x.toNat % 2 ^ F.s) := by
      obtain ⟨k, rfl⟩ : ∃ k, q = k + 1 := ⟨q - 1, by omega⟩
      rw [Nat.add_sub_cancel]
      have : 2 ^ F.s * (k + 1) = k * 2 ^ F.s + 2 ^ F.s := by ring
      omega
    conv_lhs => rw [e]
    rw [F.magVal_at hd1 (by rw [F.ps_succ]; omega) (Or.inl (by omega))]
  · rw [Nat.mul_comm]; exact hdm.symm
  · intro h
    have c : F.w ≤ 32 := by
      by_contra c
      obtain ⟨t, ht, _⟩ := t2 c
      rw [ht] at h; cases h
    refine ⟨c, ?_⟩
    rw [Int.emod_eq_of_lt (by omega)]
    have : ((2 ^ (F.e + 1) : Nat) : ℤ) = (2 : ℤ) ^ (F.e + 1) := by push_cast; ring
    rw [← this, Nat.pow_succ]; omega
  · intro t h
    have c : ¬ F.w ≤ 32 := by
      intro c
      rw [t1 c] at h; cases h
    obtain ⟨t', ht', hv⟩ := t2 c
    rw [ht'] at h
    cases h
    refine ⟨c, ?_⟩
    rw [hv, Int.emod_eq_of_lt (by omega) (by omega)]

theorem sqrtScale_spec (N : FPU F) (hev : F.w ≤ 32 ∨ F.s % 2 = 0) {x : BitVec F.w} (h0 : 0 < x.toNat) (h1 : x.toNat < 2 ^ F.s)
    {top : Option (BitVec 32)}
    (t1 : F.w ≤ 32 → top = .none) (t2 : ¬ F.w ≤ 32 → ∃ t, top = .some t ∧ t.toNat = x.toNat / 2 ^ F.s) :
    Ok (F.sqrtScale N x top) (fun r => ∃ E f E', F.SqrtArg x r.1 r.2 E f E') := by
  have hw : F.w = F.e + F.s + 1 := rfl
  have hs10 := F.hs
  have hps := F.ps_ge
  have hpe := F.pe_ge
  have hpe' := F.pe_le
  have hpb := F.pe_bias
  have hbg := F.bias_ge
  have hia := F.infRep_add
  have hbig : 32 * 2 ^ F.s ≤ 2 ^ F.e * 2 ^ F.s := Nat.mul_le_mul_right _ hpe
  have hsx : F.sign x = false ∧ F.mag x = x.toNat :=
    F.sign_mag_of (t := false) (by rw [F.pes]; omega) (by simp)
  obtain ⟨k, hk1, hk2, hm1, hm2⟩ : ∃ k : Nat, 1 ≤ k ∧ k ≤ F.s ∧ 2 ^ F.s ≤ x.toNat * 2 ^ k ∧ x.toNat * 2 ^ k < 2 ^ (F.s + 1) := by
    have hl := lt_two_pow_bitLen x.toNat
    have hg := two_pow_le_of_bitLen (n := x.toNat) (by omega)
    have hb := bitLen_le_iff.mpr h1
    have hb0 := bitLen_pos (n := x.toNat) (by omega)
    refine ⟨F.s + 1 - bitLen x.toNat, by omega, by omega, ?_, ?_⟩
    · calc 2 ^ F.s = 2 ^ (bitLen x.toNat - 1) * 2 ^ (F.s + 1 - bitLen x.toNat) := by rw [← Nat.pow_add]; congr 1; omega
        _ ≤ _ := Nat.mul_le_mul_right _ hg
    · calc _ < 2 ^ bitLen x.toNat * 2 ^ (F.s + 1 - bitLen x.toNat) := Nat.mul_lt_mul_of_pos_right hl (Nat.two_pow_pos _)
        _ = _ := by rw [← Nat.pow_add]; congr 1; omega
  -- values
  have hvx : F.magVal ℚ x.toNat = x.toNat * 2 ^ ((1 : ℤ) - F.bias - F.s) := by
    have := F.magVal_at (E := 1) (m := x.toNat) (le_refl _) (by rw [F.ps_succ]; omega) (Or.inr rfl)
    rw [Nat.sub_self, Nat.zero_mul, Nat.zero_add] at this
    exact_mod_cast this
  obtain ⟨c1, c2⟩ := F.fromParts_facts (t := false) (n := F.s + F.bias) (sig := 0#F.w) (by omega) (by simp)
  simp only [BitVec.toNat_ofNat, Nat.zero_mod, Nat.add_zero] at c2
  have hc2 : F.magVal ℚ ((F.s + F.bias) * 2 ^ F.s) = 2 ^ F.s := by
    have := F.magVal_at (E := F.s + F.bias) (m := 2 ^ F.s) (by omega) (by rw [F.ps_succ]; omega) (Or.inl (le_refl _))
    have e : (F.s + F.bias - 1) * 2 ^ F.s + 2 ^ F.s = (F.s + F.bias) * 2 ^ F.s := by
      rw [← Nat.succ_mul]; congr 1; omega
    rw [e] at this
    rw [this]
    push_cast
    rw [show (F.s : ℤ) + F.bias - F.bias - F.s = 0 by ring, zpow_zero, mul_one]
  -- the product
  obtain ⟨f, hf⟩ : ∃ f, x.toNat * 2 ^ k = 2 ^ F.s + f := ⟨x.toNat * 2 ^ k - 2 ^ F.s, by omega⟩
  have hfl : f < 2 ^ F.s := by rw [F.ps_succ] at hm2; omega
  have hprod : F.val x * F.val (F.fromParts false (F.s + F.bias) 0#F.w) = F.magVal ℚ ((1 + F.s - k) * 2 ^ F.s + f) := by
    have e : (1 + F.s - k) * 2 ^ F.s + f = (1 + F.s - k - 1) * 2 ^ F.s + (2 ^ F.s + f) := by
      obtain ⟨j, hj⟩ : ∃ j, 1 + F.s - k = j + 1 := ⟨F.s - k, by omega⟩
      rw [hj, Nat.add_sub_cancel, Nat.succ_mul, Nat.add_assoc]
    rw [F.val_sign, F.val_sign, hsx.1, hsx.2, c1, c2, hc2, hvx, e,
      F.magVal_at (by omega) (by rw [F.ps_succ]; omega) (Or.inl (by omega)), ← hf]
    simp only [Bool.false_eq_true, if_false, one_mul]
    push_cast [Nat.cast_sub (show k ≤ 1 + F.s by omega)]
    rw [mul_assoc, mul_assoc, ← zpow_natCast, ← zpow_natCast, ← zpow_add₀ (by norm_num), ← zpow_add₀ (by norm_num)]
    congr 2
    ring
  have hfin1 : F.IsFin x := by unfold IsFin; rw [hsx.2]; omega
  have hfin2 : F.IsFin (F.fromParts false (F.s + F.bias) 0#F.w) := by
    unfold IsFin
    rw [c2]
    unfold infRep
    exact Nat.mul_lt_mul_of_pos_right (by omega) (Nat.two_pow_pos _)
  obtain ⟨hr, hsg⟩ := (N.mul_spec x (F.fromParts false (F.s + F.bias) 0#F.w)).1 hfin1 hfin2
  rw [hprod] at hr
  have hsm : (1 + F.s - k) * 2 ^ F.s + f < F.infRep := by
    unfold infRep
    calc (1 + F.s - k) * 2 ^ F.s + f < (1 + F.s - k) * 2 ^ F.s + 2 ^ F.s := by omega
      _ = (1 + F.s - k + 1) * 2 ^ F.s := by ring
      _ ≤ _ := Nat.mul_le_mul_right _ (by omega)
  have hmr : F.mag (N.mul x (F.fromParts false (F.s + F.bias) 0#F.w)) = (1 + F.s - k) * 2 ^ F.s + f := by
    refine IsRNE.unique F hr.1 ?_
    rw [abs_of_nonneg (F.magVal_nonneg ℚ _)]
    exact F.isRNE_self hsm.le
  rw [hsx.1, c1] at hsg
  generalize hsc : N.mul x (F.fromParts false (F.s + F.bias) 0#F.w) = sc at *
  have hsv : sc.toNat = (1 + F.s - k) * 2 ^ F.s + f := by
    rw [F.toNat_eq, hsg, hmr]; simp
  have hvx' : F.magVal ℚ (F.mag x) = ((2 ^ F.s + f : Nat) : ℚ) * 2 ^ ((1 : ℤ) - k - F.bias - F.s) := by
    rw [hsx.2, hvx, ← hf]
    push_cast
    rw [mul_assoc, ← zpow_natCast, ← zpow_add₀ (by norm_num)]
    congr 2
    ring
  have hpeI : ((2 ^ F.e : Nat) : ℤ) = (2 : ℤ) ^ F.e := by push_cast; ring
  unfold sqrtScale
  dsimp only
  rw [hsc]
  by_cases c : F.w ≤ 32
  · rw [t1 c]
    dsimp only
    have hs2 : F.s * 2 ^ F.s < 2 ^ (F.e + F.s) := by
      rw [F.pes]; exact Nat.mul_lt_mul_of_pos_right (by omega) (Nat.two_pow_pos _)
    have hes : 2 ^ (F.e + F.s) ≤ 2 ^ 32 := Nat.pow_le_pow_right (by omega) (by omega)
    have hpw := F.pw
    rw [← F.pes] at hpw
    refine Ok.bind (shlC_spec (by omega)) ?_
    intro t ht
    rw [BitVec.toNat_ofNat, Nat.mod_eq_of_lt (a := F.s) (by omega), Nat.mod_eq_of_lt (by omega)] at ht
    refine Ok.bind (castC_spec (by omega)) ?_
    intro t' ht'
    rw [ht] at ht'
    -- the wrapped exponent
    obtain ⟨E', hE'⟩ : ∃ E' : Nat, (E' : ℤ) = (1 - (k : ℤ)) % 2 ^ (F.e + 1) := ⟨((1 - (k : ℤ)) % 2 ^ (F.e + 1)).toNat, by
      rw [Int.toNat_of_nonneg]; exact Int.emod_nonneg _ (by positivity)⟩
    have hp1 : ((2 ^ (F.e + 1) : Nat) : ℤ) = (2 : ℤ) ^ (F.e + 1) := by push_cast; ring
    have hE2 : (k = 1 ∧ E' = 0) ∨ (2 ≤ k ∧ E' + k = 2 ^ (F.e + 1) + 1) := by
      rw [← hp1] at hE'
      rcases Nat.lt_or_ge k 2 with c | c
      · left; refine ⟨by omega, ?_⟩
        have : (1 - (k : ℤ)) = 0 := by omega
        rw [this, Int.zero_emod] at hE'; exact_mod_cast hE'
      · right; refine ⟨c, ?_⟩
        have : 2 ^ (F.e + 1) = 2 * 2 ^ F.e := by rw [Nat.pow_succ, Nat.mul_comm]
        rw [← Int.add_emod_right, Int.emod_eq_of_lt (by omega) (by omega)] at hE'
        omega
    have hee : 2 ^ (F.e + 1) = 2 * 2 ^ F.e := by rw [Nat.pow_succ, Nat.mul_comm]
    refine Ok.pure' ⟨1 - (k : ℤ), f, E', hfl, by omega, by omega, hvx', ?_, ?_, ?_, ?_⟩
    · dsimp only
      rw [BitVec.toNat_sub, ht', hsv]
      rcases hE2 with ⟨a, b⟩ | ⟨a, b⟩
      · subst b
        have : 1 + F.s - k = F.s := by omega
        rw [this, Nat.zero_mul, Nat.zero_add, show 2 ^ F.w - F.s * 2 ^ F.s + (F.s * 2 ^ F.s + f) = f + 2 ^ F.w by omega,
          Nat.add_mod_right, Nat.mod_eq_of_lt (by omega)]
      · have hsum : 2 ^ F.w - F.s * 2 ^ F.s + ((1 + F.s - k) * 2 ^ F.s + f) = E' * 2 ^ F.s + f := by
          have e1 : (E' + k) * 2 ^ F.s = 2 ^ F.w + 2 ^ F.s := by
            rw [b, Nat.add_mul, Nat.one_mul, ← Nat.pow_add]; congr 2; omega
          have e2 : (1 + F.s - k) * 2 ^ F.s + k * 2 ^ F.s = 2 ^ F.s + F.s * 2 ^ F.s := by
            rw [← Nat.add_mul, show 1 + F.s - k + k = 1 + F.s by omega, Nat.add_mul, Nat.one_mul]
          rw [Nat.add_mul] at e1
          generalize (1 + F.s - k) * 2 ^ F.s = A at *
          generalize k * 2 ^ F.s = B at *
          generalize E' * 2 ^ F.s = C at *
          generalize F.s * 2 ^ F.s = D at *
          omega
        rw [hsum]
        apply Nat.mod_eq_of_lt
        have : (E' + 1) * 2 ^ F.s ≤ 2 ^ (F.e + 1) * 2 ^ F.s := Nat.mul_le_mul_right _ (by omega)
        rw [← Nat.pow_add, show F.e + 1 + F.s = F.w by omega, Nat.add_mul] at this
        omega
    · omega
    · intro _; exact ⟨c, hE'⟩
    · intro t h; cases h
  · have hpar : ((1 + F.s - k : Nat) : ℤ) % 2 = (1 - (k : ℤ)) % 2 := by
      have : F.s % 2 = 0 := hev.resolve_left c
      clear hvx'; omega
    obtain ⟨t, ht, _⟩ := t2 c
    rw [ht]
    dsimp only
    refine Ok.pure' ⟨1 - (k : ℤ), f, 1 + F.s - k, hfl, by omega, by omega, hvx', hsv, hpar, ?_, ?_⟩
    · intro h; cases h
    · intro t' h
      cases h
      refine ⟨c, ?_⟩
      have hex : F.ex sc = 1 + F.s - k := by
        rw [F.ex_eq, hmr, Nat.mul_comm, Nat.mul_add_div (Nat.two_pow_pos _), Nat.div_eq_of_lt hfl, Nat.add_zero]
      rw [BitVec.toNat_sub, hex, BitVec.toNat_ofNat, BitVec.toNat_ofNat, Nat.mod_eq_of_lt (a := F.s) (by omega),
        Nat.mod_eq_of_lt (a := 1 + F.s - k) (by omega)]
      omega

/-! ### Reduction -/

theorem arg_or {s E' f : Nat} (hf : f < 2 ^ s) : (E' * 2 ^ s + f ||| 2 ^ s) % 2 ^ (s + 1) = 2 ^ s + f := by
  have e : (E' * 2 ^ s + f) % 2 ^ (s + 1) = (E' % 2) * 2 ^ s + f := by
    rw [Nat.pow_succ, Nat.mod_mul, Nat.mul_comm E', Nat.mul_add_mod, Nat.mod_eq_of_lt hf, Nat.mul_add_div (Nat.two_pow_pos _),
      Nat.div_eq_of_lt hf, Nat.add_zero, Nat.add_comm, Nat.mul_comm]
  rw [Nat.or_mod_two_pow, e, Nat.mod_eq_of_lt (a := 2 ^ s) (by rw [Nat.pow_succ]; have := Nat.two_pow_pos s; omega)]
  rcases Nat.mod_two_eq_zero_or_one E' with h | h
  · rw [h, Nat.zero_mul, Nat.zero_add, or_eq_add hf (dvd_refl _), Nat.add_comm]
  · have : 1 * 2 ^ s + f = f ||| 2 ^ s := by rw [or_eq_add hf (dvd_refl _)]; omega
    rw [h, this, Nat.or_assoc, Nat.or_self, or_eq_add hf (dvd_refl _), Nat.add_comm]

theorem arg_mod {s E' f : Nat} (hf : f < 2 ^ s) : (E' * 2 ^ s + f) % 2 ^ (s + 1) = (E' % 2) * 2 ^ s + f := by
  rw [Nat.pow_succ, Nat.mod_mul, Nat.mul_comm E', Nat.mul_add_mod, Nat.mod_eq_of_lt hf, Nat.mul_add_div (Nat.two_pow_pos _),
    Nat.div_eq_of_lt hf, Nat.add_zero, Nat.add_comm, Nat.mul_comm]

theorem and_pow_ne {w : Nat} {a b : BitVec w} {s : Nat} (hs : s < w) (hb : b.toNat = 2 ^ s) :
    (a &&& b ≠ 0#w) ↔ a.toNat / 2 ^ s % 2 = 1 := by
  rw [Ne, ← BitVec.toNat_inj, BitVec.toNat_and, hb, BitVec.toNat_ofNat, Nat.zero_mod, Nat.and_two_pow]
  have : a.toNat.testBit s = decide (a.toNat / 2 ^ s % 2 = 1) := Nat.testBit_eq_decide_div_mod_eq
  rw [this]
  by_cases h : a.toNat / 2 ^ s % 2 = 1
  · simp [h, Nat.two_pow_pos s]
  · simp [h]

/-- the exponent of the result -/
theorem sqrtArg_G {x ix : BitVec F.w} {top E f E'} (h : F.SqrtArg x ix top E f E') :
    ∃ G : Nat, (G : ℤ) = (E + F.bias) / 2 ∧ 2 * (G : ℤ) + (1 - (E' % 2 : Nat)) = E + F.bias ∧ 2 ≤ G ∧ G + 1 < 2 ^ F.e ∧ F.bias ≤ 2 * G + F.s := by
  have hpb := F.pe_bias
  have hb := F.bias_ge
  have hpeI : ((2 ^ F.e : Nat) : ℤ) = (2 : ℤ) ^ F.e := by push_cast; ring
  have hodd : F.bias % 2 = 1 := by
    unfold bias
    have he := F.he
    obtain ⟨k, hk⟩ : ∃ k, F.e - 1 = k + 1 := ⟨F.e - 2, by omega⟩
    have := Nat.two_pow_pos k
    rw [hk, Nat.pow_succ]; omega
  have h1 := h.lo
  have h2 := h.hi
  have h3 := h.par
  rw [← hpeI] at h2
  refine ⟨((E + F.bias) / 2).toNat, ?_, ?_, ?_, ?_, ?_⟩ <;> omega

theorem sqrtReduce_spec {x ix : BitVec F.w} {top E f E'} (h : F.SqrtArg x ix top E f E') {G : Nat} (hG : (G : ℤ) = (E + F.bias) / 2) :
    Ok (F.sqrtReduce ix top) (fun r => r.1.toNat = (2 ^ F.s + f) * 2 ^ (F.e - E' % 2) ∧
      (match r.2 with | .inl e => e.toNat = G | .inr e => e.toNat = G * 2 ^ F.s)) := by
  have hw : F.w = F.e + F.s + 1 := rfl
  have hes := F.he
  have hs10 := F.hs
  have hps := F.ps_ge
  have hf := h.hf
  have hpb := F.pe_bias
  have hbg := F.bias_ge
  have hpe := F.pe_ge
  have hpe' := F.pe_le
  have h1 := h.lo
  have h2 := h.hi
  have h3 := h.par
  have hpeI : ((2 ^ F.e : Nat) : ℤ) = (2 : ℤ) ^ F.e := by push_cast; ring
  rw [← hpeI] at h2
  have hpw1 : 2 ^ F.w = 2 ^ (F.s + 1) * 2 ^ F.e := by rw [← Nat.pow_add]; congr 1; omega
  unfold sqrtReduce
  cases top with
  | some t =>
    obtain ⟨c, ht⟩ := h.some t rfl
    dsimp only
    refine Ok.bind (shlC_spec (by omega)) ?_
    intro m hm
    rw [BitVec.toNat_or, F.toNat_implicitBit, h.ix_eq, hpw1, Nat.mul_mod_mul_right, arg_or hf] at hm
    have hpar : decide (t &&& 1#32 ≠ 0#32) = decide (E' % 2 = 1) := by
      rw [decide_eq_decide, and_pow_ne (s := 0) (by omega) rfl, Nat.pow_zero, Nat.div_one]
      omega
    rw [hpar]
    refine Ok.bind (P := fun m => m.toNat = (2 ^ F.s + f) * 2 ^ (F.e - E' % 2)) ?_ ?_
    · by_cases hp : E' % 2 = 1
      · rw [if_pos (by simpa using hp)]
        refine (shrC_spec (by omega)).mono ?_
        intro m' hm'
        rw [hm', hm, hp, Nat.pow_one, show F.e = (F.e - 1) + 1 by omega, Nat.pow_succ, ← Nat.mul_assoc, Nat.mul_div_cancel _ (by omega),
          Nat.add_sub_cancel]
      · rw [if_neg (by simpa using hp)]
        refine Ok.pure' ?_
        rw [hm, show E' % 2 = 0 by omega, Nat.sub_zero]
    intro m' hm'
    have hes2 : F.expSat >>> 1 = F.bias := by rw [F.expSat_bias, Nat.shiftRight_eq_div_pow]; omega
    rw [hes2]
    refine Ok.bind (shrC_spec (by omega)) ?_
    intro e he
    refine Ok.pure' ⟨hm', ?_⟩
    dsimp only
    rw [he, BitVec.toNat_add, BitVec.toNat_ofNat, Nat.mod_eq_of_lt (a := F.bias) (by omega)]
    have : t.toNat + F.bias < 2 ^ 32 + (2 ^ F.e) + F.bias := by have := t.isLt; omega
    omega
  | none =>
    obtain ⟨c, hE'⟩ := h.none rfl
    have hp1 : ((2 ^ (F.e + 1) : Nat) : ℤ) = (2 : ℤ) ^ (F.e + 1) := by push_cast; ring
    have hp2 : 2 ^ (F.e + 1) = 2 * 2 ^ F.e := by rw [Nat.pow_succ, Nat.mul_comm]
    rw [← hp1, hp2] at hE'
    dsimp only
    refine Ok.bind (shlC_spec (by omega)) ?_
    intro l hl
    rw [F.toNat_one', Nat.one_mul, Nat.mod_eq_of_lt (Nat.pow_lt_pow_right (by omega) (by omega))] at hl
    have hdiv : ix.toNat / 2 ^ F.s = E' := by
      rw [h.ix_eq, Nat.mul_comm, Nat.mul_add_div (Nat.two_pow_pos _), Nat.div_eq_of_lt hf, Nat.add_zero]
    have hpar : decide (ix &&& l ≠ 0#F.w) = decide (E' % 2 = 1) := by
      rw [decide_eq_decide, and_pow_ne (s := F.s) (by omega) hl, hdiv]
    rw [hpar]
    refine Ok.bind (shrC_spec (by omega)) ?_
    intro e0 he0
    refine Ok.bind (shrC_spec (by omega)) ?_
    intro t0 ht0
    refine Ok.bind (shrC_spec (by omega)) ?_
    intro t1 ht1
    -- the constant
    have hs1 : 2 ^ F.s = 2 * 2 ^ (F.s - 1) := by rw [← Nat.pow_succ']; congr 1; omega
    have he1 : 2 ^ F.e = 2 * 2 ^ (F.e - 1) := by rw [← Nat.pow_succ']; congr 1; omega
    have hconst : t1.toNat = F.bias * 2 ^ (F.s - 1) := by
      rw [ht1, BitVec.toNat_xor, F.toNat_expMask, ht0, F.toNat_signMask]
      have a1 : 2 ^ (F.e + F.s) / 2 ^ 1 = 2 ^ (F.e - 1) * 2 ^ F.s := by
        rw [F.pes, he1, Nat.mul_assoc, Nat.pow_one, Nat.mul_div_cancel_left _ (by omega)]
      have a2 : F.infRep = F.bias * 2 ^ F.s ||| 2 ^ (F.e - 1) * 2 ^ F.s := by
        rw [or_eq_add (k := F.e - 1 + F.s) (by
          rw [Nat.pow_add]; exact Nat.mul_lt_mul_of_pos_right (by omega) (Nat.two_pow_pos _)) (by rw [Nat.pow_add]), ← Nat.add_mul]
        unfold infRep; congr 1; omega
      have a3 : (F.bias * 2 ^ F.s) &&& (2 ^ (F.e - 1) * 2 ^ F.s) = 0 := by
        have hb2 : F.bias < 2 ^ (F.e - 1) := by omega
        apply Nat.eq_of_testBit_eq
        intro i
        rw [Nat.testBit_and, ← Nat.shiftLeft_eq, ← Nat.shiftLeft_eq, Nat.testBit_shiftLeft, Nat.testBit_shiftLeft, Nat.testBit_two_pow,
          Nat.zero_testBit]
        by_cases hi : F.e - 1 = i - F.s
        · rw [← hi, Nat.testBit_lt_two_pow hb2]; simp
        · simp [hi]
      have a4 : F.infRep ^^^ 2 ^ (F.e - 1) * 2 ^ F.s = F.bias * 2 ^ F.s := by
        rw [a2]
        apply Nat.eq_of_testBit_eq
        intro i
        have := congrArg (fun z => Nat.testBit z i) a3
        simp only [Nat.testBit_and, Nat.zero_testBit] at this
        rw [Nat.testBit_xor, Nat.testBit_or]
        cases h1 : (F.bias * 2 ^ F.s).testBit i <;> cases h2 : (2 ^ (F.e - 1) * 2 ^ F.s).testBit i <;> simp_all
      rw [a1, a4, hs1, Nat.pow_one, ← Nat.mul_assoc, Nat.mul_comm _ 2, Nat.mul_assoc, Nat.mul_div_cancel_left _ (by omega)]
    have hEl : E' < 2 * 2 ^ F.e := by
      have := Int.emod_lt_of_pos E (show (0 : ℤ) < ((2 * 2 ^ F.e : Nat) : ℤ) by positivity)
      omega
    have he0' : e0.toNat = E' * 2 ^ (F.s - 1) + f / 2 := by
      rw [he0, h.ix_eq, hs1, Nat.pow_one, show E' * (2 * 2 ^ (F.s - 1)) = 2 * (E' * 2 ^ (F.s - 1)) by ring, Nat.mul_add_div (by omega)]
    have hsum : e0.toNat + t1.toNat = (E' + F.bias) * 2 ^ (F.s - 1) + f / 2 := by rw [he0', hconst, Nat.add_mul]; omega
    have hlt : (E' + F.bias) * 2 ^ (F.s - 1) + f / 2 < 2 ^ F.w := by
      have : (E' + F.bias + 1) * 2 ^ (F.s - 1) ≤ (4 * 2 ^ F.e) * 2 ^ (F.s - 1) := Nat.mul_le_mul_right _ (by omega)
      rw [Nat.add_mul, Nat.one_mul] at this
      have e : 2 ^ F.w = (4 * 2 ^ F.e) * 2 ^ (F.s - 1) := by rw [F.pw, hs1]; ring
      omega
    refine Ok.bind (addC_spec (by omega)) ?_
    intro e1 he1'
    rw [hsum] at he1'
    refine Ok.bind (shlC_spec (by omega)) ?_
    intro m1 hm1
    refine Ok.bind (shlC_spec (by omega)) ?_
    intro m0 hm0
    refine Ok.pure' ⟨?_, ?_⟩
    · dsimp only
      by_cases hp : E' % 2 = 1
      · rw [if_pos (by simpa using hp), F.toNat_and_not_signMask]
        unfold mag
        rw [hm0, h.ix_eq, hw, Nat.mod_mod_of_dvd _ (Nat.pow_dvd_pow 2 (by omega)), show F.e + F.s = (F.s + 1) + (F.e - 1) by omega, Nat.pow_add,
          Nat.mul_mod_mul_right, arg_mod hf, hp, Nat.one_mul]
      · rw [if_neg (by simpa using hp), BitVec.toNat_or, F.toNat_signMask, hm1, h.ix_eq, hpw1, Nat.mul_mod_mul_right, arg_mod hf,
          show E' % 2 = 0 by omega, Nat.zero_mul, Nat.zero_add, Nat.sub_zero,
          or_eq_add (k := F.e + F.s) (by rw [F.pes, Nat.mul_comm]; exact Nat.mul_lt_mul_of_pos_left hf (Nat.two_pow_pos _)) (dvd_refl _),
          F.pes]
        ring
    · dsimp only
      rw [F.toNat_and_expMask]
      congr 1
      rw [← F.toNat_div_mod, he1']
      have hd : ((E' + F.bias) * 2 ^ (F.s - 1) + f / 2) / 2 ^ F.s = (E' + F.bias) / 2 := by
        have hq := Nat.div_add_mod (E' + F.bias) 2
        have hr := Nat.mod_lt (E' + F.bias) (show 0 < 2 by omega)
        generalize (E' + F.bias) / 2 = q at *
        generalize (E' + F.bias) % 2 = r at *
        have hr1 : r * 2 ^ (F.s - 1) ≤ 1 * 2 ^ (F.s - 1) := Nat.mul_le_mul_right _ (by omega)
        rw [← hq, Nat.add_mul, show 2 * q * 2 ^ (F.s - 1) = 2 ^ F.s * q by rw [hs1]; ring, Nat.add_assoc, Nat.mul_add_div (Nat.two_pow_pos _),
          Nat.div_eq_of_lt (by omega), Nat.add_zero]
      rw [hd]
      have hmm : (E % ((2 * 2 ^ F.e : Nat) : ℤ) = E ∨ E % ((2 * 2 ^ F.e : Nat) : ℤ) = E + 2 * 2 ^ F.e) := by
        rcases Int.lt_or_le E 0 with h0 | h0
        · right
          rw [← Int.add_emod_right, Int.emod_eq_of_lt (by push_cast; omega) (by push_cast; omega)]; push_cast; ring
        · left; exact Int.emod_eq_of_lt h0 (by push_cast; omega)
      rcases hmm with hmm | hmm
      · rw [hmm] at hE'
        rw [Nat.mod_eq_of_lt (by omega)]; omega
      · rw [hmm] at hE'
        rw [← hpeI] at hE'
        have : (E' + F.bias) / 2 = G + 2 ^ F.e := by omega
        rw [this, Nat.add_mod_right, Nat.mod_eq_of_lt (by omega)]

end Fmt
end Verif
