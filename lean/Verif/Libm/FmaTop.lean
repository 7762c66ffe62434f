import Verif.Libm.FmaMain
import Verif.Libm.FmaSpec
/-! # Correctness of `fma_round` -/
namespace Verif
namespace Fmt
variable (F : Fmt)

theorem fma_two_mul (a : Nat) (E : ℤ) : ((2 * a : Nat) : ℚ) * 2 ^ (E - 1) = a * 2 ^ E := by
  rw [zpow_sub₀ (by norm_num), zpow_one]; push_cast; ring

theorem fmaNorm_m {b : BitVec F.w} : Ok (shlC ((b &&& F.sigMask) ||| F.implicitBit) 1)
    (fun r => r.toNat = 2 * (2 ^ F.s + F.mag b % 2 ^ F.s)) := by
  have h5 := F.he
  have hs := F.toNat_and_sigMask b
  rw [F.mag_mod] at hs
  have hlt := Nat.mod_lt (F.mag b) (Nat.two_pow_pos F.s)
  have hor := F.or_implicit (x := b &&& F.sigMask) (by rw [hs]; exact hlt)
  rw [hs] at hor
  refine Ok.mono (shlC_spec (by show 1 < F.e + F.s + 1; omega)) ?_
  intro r hr
  have hpe := F.pe_ge
  have hpw := F.pw
  have : 32 * 2 ^ F.s ≤ 2 ^ F.e * 2 ^ F.s := Nat.mul_le_mul_right _ hpe
  rw [hr, hor, Nat.pow_one, Nat.mod_eq_of_lt (by omega), Nat.mul_comm]

theorem magVal_ex {n : Nat} (h : n / 2 ^ F.s ≠ 0) :
    F.magVal ℚ n = (2 ^ F.s + n % 2 ^ F.s : Nat) * 2 ^ (((n / 2 ^ F.s : Nat) : ℤ) - F.bias - F.s) := by
  unfold magVal; rw [if_neg h]

/-- the scaled subnormal -/
theorem fmaNorm_scaled (N : FPU F) (hF : FmaCfg F) {x : BitVec F.w} (hsub : F.mag x < 2 ^ F.s) :
    let n := F.mag (N.mul x (F.fromParts false (F.w - 1 + F.bias) 0#F.w))
    F.magVal ℚ n = F.magVal ℚ (F.mag x) * 2 ^ (F.w - 1) ∧ (F.mag x = 0 → n = 0) ∧ (F.mag x ≠ 0 → 2 ^ F.s ≤ n) ∧
      n < (F.w - 1 + 1) * 2 ^ F.s := by
  have hw : F.w = F.e + F.s + 1 := rfl
  have h5 := F.he
  have hpb := F.pe_bias
  have hhw := hF.hw
  have hinf := F.ps_le_infRep
  have hps := F.ps_succ
  have hpp := Nat.two_pow_pos F.s
  have hfin : F.IsFin x := by unfold IsFin; omega
  have hsc := (F.mul_pow_fin N (F.fromParts_pow (E := F.w - 1 + F.bias) (by omega) (by omega)) hfin).2
  rw [show ((F.w - 1 + F.bias : Nat) : ℤ) - F.bias = ((F.w - 1 : Nat) : ℤ) by omega] at hsc
  obtain ⟨n', hn'⟩ := F.scale_up (F.mag x) (a := ((F.w - 1 : Nat) : ℤ)) (by omega)
  have hp : (0 : ℚ) < 2 ^ ((F.w - 1 : Nat) : ℤ) := by positivity
  have hub : n' < (F.w - 1 + 1) * 2 ^ F.s := by
    rw [← F.magVal_lt_iff, hn']
    have e1 := F.magVal_at (E := F.w - 1 + 1) (m := 2 ^ F.s) (by omega) (by omega) (Or.inl (le_refl _))
    rw [Nat.add_sub_cancel, show (F.w - 1) * 2 ^ F.s + 2 ^ F.s = (F.w - 1 + 1) * 2 ^ F.s by rw [Nat.add_mul, Nat.one_mul]] at e1
    have e2 : F.magVal ℚ (F.mag x) < F.magVal ℚ (2 ^ F.s) := F.magVal_lt_iff.mpr hsub
    rw [F.magVal_minNormal] at e2
    rw [e1]
    calc _ < 2 ^ (1 - (F.bias : ℤ)) * 2 ^ ((F.w - 1 : Nat) : ℤ) := mul_lt_mul_of_pos_right e2 hp
      _ = _ := by
        push_cast
        rw [← zpow_add₀ (by norm_num), ← zpow_natCast, ← zpow_add₀ (by norm_num)]
        congr 1; omega
  have hle : (F.w - 1 + 1) * 2 ^ F.s ≤ F.infRep := Nat.mul_le_mul_right _ (by omega)
  rw [← hn'] at hsc
  have hnn := IsRNE.unique F hsc (F.isRNE_self (by omega))
  dsimp only
  rw [hnn]
  refine ⟨by rw [hn', zpow_natCast], ?_, ?_, hub⟩
  · intro h0
    rw [h0, F.magVal_zero, zero_mul, ← F.magVal_zero] at hn'
    exact F.magVal_inj.mp hn'
  · intro h0
    rw [← F.magVal_le_iff, hn', F.magVal_minNormal]
    have e2 : F.magVal ℚ 1 ≤ F.magVal ℚ (F.mag x) := F.magVal_le_iff.mpr (by omega)
    rw [F.magVal_minSub] at e2
    calc (2 : ℚ) ^ (1 - (F.bias : ℤ)) ≤ 2 ^ (1 - (F.bias : ℤ) - F.s + (F.w - 1 : Nat)) :=
          zpow_le_zpow_right₀ (by norm_num) (by omega)
      _ = 2 ^ (1 - (F.bias : ℤ) - F.s) * 2 ^ ((F.w - 1 : Nat) : ℤ) := zpow_add₀ (by norm_num) _ _
      _ ≤ _ := mul_le_mul_of_nonneg_right e2 hp.le

/-- What `Norm::from_float` returns. -/
structure NormRes (x : BitVec F.w) (n : FmaNorm F.w) : Prop where
  neg : n.neg = F.sign x
  fin : F.IsFin x → ¬ F.IsZero x → F.NormOk n ∧ F.magVal ℚ (F.mag x) = n.m.toNat * 2 ^ n.e ∧ n.e < F.fmaZin
  zero : F.IsZero x → F.fmaZin < n.e
  inf : ¬ F.IsFin x → n.e = F.fmaZin

theorem fmaNorm_spec (N : FPU F) (hF : FmaCfg F) (x : BitVec F.w) : Ok (F.fmaNorm N x) (F.NormRes x) := by
  have hw : F.w = F.e + F.s + 1 := rfl
  have h5 := F.he; have he' := F.he'; have hs' := F.hs'
  have hpb := F.pe_bias
  have hpl := F.pe_le
  have hhw := hF.hw
  have hinf := F.ps_le_infRep
  have hps := F.ps_succ
  have hps2 : 2 ^ (F.s + 2) = 2 * 2 ^ (F.s + 1) := Nat.pow_succ'
  have hpp := Nat.two_pow_pos F.s
  have hxl := F.mag_div_lt x
  have hes := F.expSat_bias
  unfold fmaNorm
  dsimp only
  by_cases c : F.ex x = 0
  · rw [if_pos c]
    have hsub : F.mag x < 2 ^ F.s := by
      rw [F.ex_eq] at c
      exact (Nat.div_eq_zero_iff_lt hpp).mp c
    have hfin : F.IsFin x := by unfold IsFin; omega
    obtain ⟨v1, v2, v3, v4⟩ := F.fmaNorm_scaled N hF hsub
    generalize N.mul x (F.fromParts false (F.w - 1 + F.bias) 0#F.w) = b at *
    have hexb := F.ex_eq b
    by_cases c2 : F.ex b = 0
    · rw [if_pos c2]
      have hz : F.mag x = 0 := by
        by_contra hc
        have := v3 hc
        rw [hexb] at c2
        have := (Nat.div_eq_zero_iff_lt hpp).mp c2
        omega
      refine Ok.bind (P := fun q => q = (b, ((1 <<< F.e : Nat) : Int))) (Ok.pure' rfl) ?_
      rintro _ rfl
      dsimp only
      rw [Nat.one_shiftLeft]
      refine Ok.bind (i32C_spec (by omega)) ?_
      rintro _ rfl
      refine Ok.bind F.fmaNorm_m ?_
      intro m hm
      refine Ok.pure' ⟨rfl, fun _ h => absurd hz h, fun _ => ?_, fun h => absurd hfin h⟩
      dsimp only; unfold fmaZin; omega
    · rw [if_neg c2]
      have hnz : F.mag x ≠ 0 := by
        intro h
        rw [hexb, v2 h] at c2; simp at c2
      have hexlt : F.ex b < F.w := by
        rw [hexb, Nat.div_lt_iff_lt_mul hpp, show F.w = F.w - 1 + 1 by omega]; exact v4
      refine Ok.bind (P := fun q => q = (b, (F.ex b : Int) - (F.w - 1 : Nat))) ?_ ?_
      · refine Ok.bind (i32C_spec (by omega)) ?_
        rintro _ rfl
        exact Ok.pure' rfl
      rintro _ rfl
      dsimp only
      refine Ok.bind (i32C_spec (by omega)) ?_
      rintro _ rfl
      refine Ok.bind F.fmaNorm_m ?_
      intro m hm
      have hml := Nat.mod_lt (F.mag b) hpp
      refine Ok.pure' ⟨rfl, fun _ _ => ⟨⟨?_, ?_, ?_, ?_, ?_⟩, ?_, ?_⟩, fun h => absurd h hnz, fun h => absurd hfin h⟩
      · dsimp only; omega
      · dsimp only; omega
      · dsimp only; omega
      · dsimp only; omega
      · dsimp only; omega
      · dsimp only
        rw [F.magVal_ex (by rw [← hexb]; exact c2), ← hexb] at v1
        have hp : (2 : ℚ) ^ ((F.w - 1 : Nat) : ℤ) ≠ 0 := by positivity
        rw [← zpow_natCast] at v1
        rw [hm, show (F.ex b : Int) - (F.w - 1 : Nat) - (F.bias + F.s + 1 : Nat) =
          ((F.ex b : Int) - F.bias - F.s - (F.w - 1 : Nat)) - 1 by push_cast; omega, fma_two_mul, zpow_sub₀ (by norm_num),
          ← mul_div_assoc, v1, mul_div_cancel_right₀ _ hp]
      · dsimp only; unfold fmaZin; omega
  · rw [if_neg c]
    have hexx := F.ex_eq x
    refine Ok.bind (P := fun q => q = (x, (F.ex x : Int))) (Ok.pure' rfl) ?_
    rintro _ rfl
    dsimp only
    have hexl : F.ex x < 2 ^ F.e := by rw [hexx]; exact hxl
    refine Ok.bind (i32C_spec (by omega)) ?_
    rintro _ rfl
    refine Ok.bind F.fmaNorm_m ?_
    intro m hm
    have hml := Nat.mod_lt (F.mag x) hpp
    refine Ok.pure' ⟨rfl, fun hf _ => ⟨⟨?_, ?_, ?_, ?_, ?_⟩, ?_, ?_⟩, ?_, ?_⟩
    · dsimp only; omega
    · dsimp only; omega
    · dsimp only; omega
    · dsimp only; omega
    · dsimp only; omega
    · dsimp only
      rw [F.magVal_ex (by rw [← hexx]; exact c), ← hexx, hm]
      rw [show (F.ex x : Int) - (F.bias + F.s + 1 : Nat) = ((F.ex x : Int) - F.bias - F.s) - 1 by
        push_cast; omega, fma_two_mul]
    · have := F.mag_isFin_div hf
      rw [← hexx] at this
      dsimp only; unfold fmaZin; omega
    · intro hz
      exfalso; apply c
      unfold IsZero at hz
      rw [hexx, hz]; simp
    · intro hf
      dsimp only
      unfold IsFin infRep at hf
      have : 2 ^ F.e - 1 ≤ F.ex x := by
        rw [hexx, Nat.le_div_iff_mul_le hpp]; omega
      unfold fmaZin; omega

/-- the exact product of two equal-and-opposite numbers is returned by the native operations -/
theorem fma_zero (N : FPU F) {x y z : BitVec F.w} (hx : F.IsFin x) (hy : F.IsFin y) (hz : F.IsFin z)
    (h : F.val x * F.val y + F.val z = 0) :
    F.Rounds (F.val x * F.val y + F.val z) (N.add (N.mul x y) z) ∧
      (F.val x * F.val y + F.val z = 0 → F.sign (N.add (N.mul x y) z) = ((F.sign x ^^ F.sign y) && F.sign z)) := by
  obtain ⟨m1, m2⟩ := (N.mul_spec x y).1 hx hy
  have hxy : F.val x * F.val y = F.val (F.neg z) := by rw [F.val_neg]; linarith
  have hzl : F.mag (F.neg z) < F.infRep := by rw [F.mag_neg]; exact hz
  have hm := Rounds.exact F m1 hzl.le hxy
  have hpf : F.IsFin (N.mul x y) := by unfold IsFin; rw [hm.1]; exact hzl
  have hv : F.val (N.mul x y) = F.val x * F.val y := by
    by_cases h0 : F.val x * F.val y = 0
    · rw [h0, F.val_eq_zero_iff, hm.1, ← F.val_eq_zero_iff, ← hxy, h0]
    · rw [hxy, F.val_sign, F.val_sign, hm.1, hm.2 h0]
  have ha := (N.add_spec (N.mul x y) z).1 hpf hz
  rw [hv] at ha
  refine ⟨ha.1, fun h => ?_⟩
  rw [ha.2 h, m2]

theorem rounds_signed {neg : Bool} {y v : ℚ} {r : BitVec F.w} (hy : 0 < y) (hv : v = (if neg then -1 else 1) * y)
    (h : F.IsRNE y (F.mag r) ∧ F.sign r = neg) : F.Rounds v r := by
  subst hv
  have e : |(if neg = true then (-1 : ℚ) else 1) * y| = y := by
    cases neg <;> simp [abs_of_pos hy]
  refine ⟨by rw [e]; exact h.1, fun _ => ?_⟩
  rw [h.2]
  cases neg
  · simp; linarith
  · simp; linarith

set_option maxHeartbeats 2000000 in
/-- The generic path on non-zero finite operands. -/
theorem fmaRound_main (N : FPU F) (C : IntCast F) {O : DOps F.w} (hO : O.Lawful) (hF : FmaCfg F) {x y z : BitVec F.w}
    (hx : F.IsFin x) (hy : F.IsFin y) (hz : F.IsFin z) (hxz : ¬ F.IsZero x) (hyz : ¬ F.IsZero y) (hzz : ¬ F.IsZero z)
    {nx ny nz : FmaNorm F.w} (hnx : F.NormRes x nx) (hny : F.NormRes y ny) (hnz : F.NormRes z nz)
    (hb : ¬ F.StickyLost (nx.m.toNat * ny.m.toNat) (nz.e - (nx.e + ny.e))) :
    Ok (do
      let a ← F.fmaAlign O nx ny nz
      let (neg, rhi, rlo, nonzero) ← F.fmaAdd (nx.neg ^^ ny.neg) nz.neg a
      match ← F.fmaShift rhi rlo nonzero a.e with
      | none => pure (N.add (N.mul x y) z)
      | some (rhi, e) => F.fmaFinish N C neg rhi e)
    (fun r => F.Rounds (F.val x * F.val y + F.val z) r ∧
      (F.val x * F.val y + F.val z = 0 → F.sign r = ((F.sign x ^^ F.sign y) && F.sign z))) := by
  obtain ⟨ox, vx, _⟩ := hnx.fin hx hxz
  obtain ⟨oy, vy, _⟩ := hny.fin hy hyz
  obtain ⟨oz, vz, _⟩ := hnz.fin hz hzz
  rw [hnx.neg, hny.neg, hnz.neg]
  refine Ok.bind (F.fmaAlign_spec hO hF ox oy oz hb) ?_
  rintro a ⟨R, Z, ρ, ζ, hR, hZ, hp, hzv, hlt, hge, k1, k2, k3, e0, e1⟩
  have hpv : F.magVal ℚ (F.mag x) * F.magVal ℚ (F.mag y) = ρ * 2 ^ a.e := by
    rw [hp, vx, vy, zpow_add₀ (by norm_num)]; push_cast; ring
  have hzv' : F.magVal ℚ (F.mag z) = ζ * 2 ^ a.e := by rw [hzv, vz]
  have he2 : (0 : ℚ) < 2 ^ a.e := by positivity
  have hxp : 0 < F.magVal ℚ (F.mag x) := by
    rw [← F.magVal_zero, F.magVal_lt_iff]; unfold IsZero at hxz; omega
  have hyp : 0 < F.magVal ℚ (F.mag y) := by
    rw [← F.magVal_zero, F.magVal_lt_iff]; unfold IsZero at hyz; omega
  have hzp : 0 < F.magVal ℚ (F.mag z) := by
    rw [← F.magVal_zero, F.magVal_lt_iff]; unfold IsZero at hzz; omega
  have hρ : 0 < ρ := by
    have := mul_pos hxp hyp
    rw [hpv] at this
    exact (mul_pos_iff_of_pos_right he2).mp this
  have hζ : 0 < ζ := by
    rw [hzv'] at hzp
    exact (mul_pos_iff_of_pos_right he2).mp hzp
  have hval : F.val x * F.val y + F.val z = ((if (F.sign x ^^ F.sign y) then -1 else 1) * ρ +
      (if F.sign z then -1 else 1) * ζ) * 2 ^ a.e := by
    rw [F.val_sign, F.val_sign, F.val_sign, hzv']
    have : ∀ s t : Bool, ((if s then (-1 : ℚ) else 1) * F.magVal ℚ (F.mag x)) * ((if t then -1 else 1) * F.magVal ℚ (F.mag y)) =
        (if (s ^^ t) then -1 else 1) * (ρ * 2 ^ a.e) := by
      intro s t
      rw [← hpv]
      cases s <;> cases t <;> simp
    rw [this]; ring
  obtain ⟨neg, hneg⟩ : ∃ neg, neg = (F.sign x ^^ F.sign y) := ⟨_, rfl⟩
  rw [← hneg] at hval
  -- the rest, given the sum `T` standing for `yy`
  have rest : ∀ (o : Bool × BitVec F.w × BitVec F.w × Bool) (T : Nat) (yy : ℚ), F.StkAt T yy → 0 ≤ yy →
      o.2.1.toNat * 2 ^ F.w + o.2.2.1.toNat = T → o.2.1.toNat < 2 ^ (F.w - 2) → (o.2.2.2 = true ↔ o.2.1 ≠ 0#F.w) →
      F.val x * F.val y + F.val z = (if o.1 then -1 else 1) * yy * 2 ^ a.e →
      Ok (match o with
        | (neg, rhi, rlo, nonzero) => do
          match ← F.fmaShift rhi rlo nonzero a.e with
          | none => pure (N.add (N.mul x y) z)
          | some (rhi, e) => F.fmaFinish N C neg rhi e)
      (fun r => F.Rounds (F.val x * F.val y + F.val z) r ∧
        (F.val x * F.val y + F.val z = 0 → F.sign r = ((F.sign x ^^ F.sign y) && F.sign z))) := by
    rintro ⟨neg', rhi, rlo, nzb⟩ T yy hst hyy hT hl hnzb hv
    dsimp only at hT hl hnzb hv ⊢
    refine Ok.bind (F.fmaShift_spec hnzb hl e0 e1 (by rw [hT]; exact hst)) ?_
    intro o ho
    match o, ho with
    | none, ho =>
      dsimp only at ho
      refine Ok.pure' (F.fma_zero N hx hy hz ?_)
      rw [hv, ho]; ring
    | some (G, e'), ho =>
      dsimp only at ho
      obtain ⟨g0, g1, g2, g3, hne, y', hs', hy'⟩ := ho
      have hyp : 0 < yy := lt_of_le_of_ne hyy (Ne.symm hne)
      refine Ok.mono (F.fmaFinish_spec N C hF neg' g0 g1 hs' g2 g3) ?_
      intro r hr
      rw [hy'] at hr
      have hypos : 0 < yy * 2 ^ a.e := mul_pos hyp he2
      have hv' : F.val x * F.val y + F.val z = (if neg' = true then -1 else 1) * (yy * 2 ^ a.e) := by rw [hv]; ring
      refine ⟨F.rounds_signed hypos hv' hr, fun h0 => ?_⟩
      exfalso
      rw [hv'] at h0
      cases neg' <;> simp at h0 <;> rcases h0 with h0 | h0 <;> linarith
  rw [← hneg]
  by_cases hs : neg = F.sign z
  · refine Ok.bind (F.fmaAdd_same hs hR hZ hlt) ?_
    rintro o ⟨o1, o2, o3, o4⟩
    rw [hneg]
    refine rest o (R + Z) (ρ + ζ) k1 (by linarith) o2 o3 ?_ ?_
    · rw [o4]
      simp only [true_iff]
      intro h0
      rw [h0] at o2
      simp only [BitVec.toNat_ofNat, Nat.zero_mod, Nat.zero_mul, Nat.zero_add] at o2
      have := o.2.2.1.isLt
      omega
    · rw [hval, o1, ← hs]; ring
  · refine Ok.bind (F.fmaAdd_diff hs hR hZ hlt) ?_
    rintro o ⟨o1, o2, o3, o4⟩
    rw [hneg]
    have hsz : (if F.sign z = true then (-1 : ℚ) else 1) = - (if neg = true then -1 else 1) := by
      revert hs
      cases neg <;> cases F.sign z <;> simp
    by_cases c : R < Z
    · rw [if_pos c] at o1 o2
      have hst := k3 c
      refine rest o (Z - R) (ζ - ρ) hst ?_ o2 o3 o4 ?_
      · rcases hst with h | ⟨_, h⟩
        · rw [← h]; positivity
        · have := h.ge_even (A := 0) rfl (Nat.zero_le _)
          have hp : (0 : ℚ) < 2 ^ (bitLen ((Z - R) / 2 ^ F.w) + 1) := by positivity
          push_cast at this
          rw [le_div_iff₀ hp] at this
          linarith
      · have hnn : (if (!neg) = true then (-1 : ℚ) else 1) = - (if neg = true then -1 else 1) := by
          cases neg <;> simp
        rw [hval, o1, hsz, hnn]; ring
    · rw [if_neg c] at o1 o2
      have hst := k2 (by omega)
      refine rest o (R - Z) (ρ - ζ) hst ?_ o2 o3 o4 ?_
      · rcases hst with h | ⟨_, h⟩
        · rw [← h]; positivity
        · have := h.ge_even (A := 0) rfl (Nat.zero_le _)
          have hp : (0 : ℚ) < 2 ^ (bitLen ((R - Z) / 2 ^ F.w) + 1) := by positivity
          push_cast at this
          rw [le_div_iff₀ hp] at this
          linarith
      · rw [hval, o1, hsz]; ring

/-- Significands and exponents for which the shifted-out bits of the product are lost: `P * 2^p` is the exact magnitude of the
product, `ez` the exponent of the addend's significand, all significands having `s + 2` bits. -/
def FmaLost (x y z : BitVec F.w) : Prop :=
  ∃ (mx my mz : Nat) (ex ey ez : ℤ),
    (2 ^ (F.s + 1) ≤ mx ∧ mx < 2 ^ (F.s + 2) ∧ |F.val x| = mx * 2 ^ ex) ∧
    (2 ^ (F.s + 1) ≤ my ∧ my < 2 ^ (F.s + 2) ∧ |F.val y| = my * 2 ^ ey) ∧
    (2 ^ (F.s + 1) ≤ mz ∧ mz < 2 ^ (F.s + 2) ∧ |F.val z| = mz * 2 ^ ez) ∧
    ∃ k : Nat, 0 < k ∧ k < F.w ∧ ez - (ex + ey) = F.w + k ∧ 0 < mx * my % 2 ^ (2 * k) ∧ mx * my % 2 ^ (2 * k) < 2 ^ k

theorem abs_val (b : BitVec F.w) : |F.val b| = F.magVal ℚ (F.mag b) := by
  rw [F.val_sign]
  have := F.magVal_nonneg ℚ (F.mag b)
  cases F.sign b <;> simp [abs_of_nonneg this]

theorem isZero_isFin {x : BitVec F.w} (h : F.IsZero x) : F.IsFin x := by
  have := F.ps_le_infRep
  have := Nat.two_pow_pos F.s
  unfold IsZero at h; unfold IsFin; omega

theorem fma_special (N : FPU F) {x y z : BitVec F.w} (h : ¬ F.IsFin x ∨ ¬ F.IsFin y ∨ F.IsZero x ∨ F.IsZero y) :
    F.FmaSpec x y z (N.add (N.mul x y) z) := by
  obtain ⟨m1, m2, m3⟩ := N.mul_spec x y
  obtain ⟨a1, a2, a3, a4⟩ := N.add_spec (N.mul x y) z
  refine ⟨?_, ?_, ?_, ?_, ?_⟩
  · intro hx hy hz
    have h0 : F.val x * F.val y = 0 := by
      rcases h with h | h | h | h
      · exact absurd hx h
      · exact absurd hy h
      · rw [(F.val_eq_zero_iff).mpr h, zero_mul]
      · rw [(F.val_eq_zero_iff).mpr h, mul_zero]
    obtain ⟨n1, n2⟩ := m1 hx hy
    rw [h0] at n1 ⊢
    have hz0 : F.mag (N.mul x y) = 0 := by
      have := n1.1
      rw [abs_zero] at this
      rw [← F.magVal_zero] at this
      exact IsRNE.unique F this (F.isRNE_self (Nat.zero_le _))
    have hf : F.IsFin (N.mul x y) := F.isZero_isFin hz0
    have hv : F.val (N.mul x y) = 0 := (F.val_eq_zero_iff).mpr hz0
    have := a1 hf hz
    rw [hv, n2] at this
    exact this
  · rintro (h | h | h)
    · exact a2 (Or.inl (m2 (Or.inl h)))
    · exact a2 (Or.inl (m2 (Or.inr h)))
    · exact a2 (Or.inr h)
  · intro _ h
    refine a2 (Or.inl ?_)
    rcases h with ⟨h1, h2⟩ | ⟨h1, h2⟩
    · have := m3 (by unfold IsInf at h1; unfold IsNaN; omega) (IsFin.not_nan F (F.isZero_isFin h2)) (Or.inl h1)
      rwa [if_pos (Or.inr h2)] at this
    · have := m3 (IsFin.not_nan F (F.isZero_isFin h1)) (by unfold IsInf at h2; unfold IsNaN; omega) (Or.inr h2)
      rwa [if_pos (Or.inl h1)] at this
  · intro nx ny nz hi zx zy
    have := m3 nx ny hi
    rw [if_neg (not_or.mpr ⟨zx, zy⟩)] at this
    have h3 := a3 this.1 nz
    rw [this.2] at h3
    by_cases c : F.IsInf z ∧ F.sign z ≠ (F.sign x ^^ F.sign y)
    · rw [if_pos c]
      rwa [if_pos ⟨c.1, fun h => c.2 h.symm⟩] at h3
    · rw [if_neg c]
      rw [if_neg (fun h => c ⟨h.1, fun h' => h.2 h'.symm⟩)] at h3
      rw [h3]; exact this
  · intro hx hy hz
    obtain ⟨n1, n2⟩ := m1 hx hy
    have h0 : F.val x * F.val y = 0 := by
      rcases h with h | h | h | h
      · exact absurd hx h
      · exact absurd hy h
      · rw [(F.val_eq_zero_iff).mpr h, zero_mul]
      · rw [(F.val_eq_zero_iff).mpr h, mul_zero]
    rw [h0] at n1
    have hz0 : F.mag (N.mul x y) = 0 := by
      have := n1.1
      rw [abs_zero] at this
      rw [← F.magVal_zero] at this
      exact IsRNE.unique F this (F.isRNE_self (Nat.zero_le _))
    exact a4 (F.isZero_isFin hz0) hz

set_option maxHeartbeats 1000000 in
/-- `fma_round` computes the fused multiply-add whenever the defect of its alignment step is not triggered. -/
theorem fmaRound_spec (N : FPU F) (C : IntCast F) {O : DOps F.w} (hO : O.Lawful) (hF : FmaCfg F) (x y z : BitVec F.w)
    (hb : ¬ F.FmaLost x y z) : Ok (F.fmaRound N C O x y z) (F.FmaSpec x y z) := by
  unfold fmaRound
  refine Ok.bind (F.fmaNorm_spec N hF x) ?_
  intro nx hnx
  refine Ok.bind (F.fmaNorm_spec N hF y) ?_
  intro ny hny
  refine Ok.bind (F.fmaNorm_spec N hF z) ?_
  intro nz hnz
  have key : ∀ {x : BitVec F.w} {n}, F.NormRes x n → (n.e ≥ F.fmaZin ↔ ¬ F.IsFin x ∨ F.IsZero x) := by
    intro x n h
    constructor
    · intro h1
      by_contra hc
      have h2 := not_or.mp hc
      have := (h.fin (not_not.mp h2.1) h2.2).2.2
      omega
    · rintro (h1 | h1)
      · exact (h.inf h1).ge
      · exact (h.zero h1).le
  by_cases c1 : nx.e ≥ F.fmaZin ∨ ny.e ≥ F.fmaZin
  · rw [if_pos c1]
    rw [key hnx, key hny] at c1
    exact Ok.pure' (F.fma_special N (by tauto))
  rw [if_neg c1]
  rw [key hnx, key hny] at c1
  have hx : F.IsFin x := by tauto
  have hy : F.IsFin y := by tauto
  have hxz : ¬ F.IsZero x := by tauto
  have hyz : ¬ F.IsZero y := by tauto
  have nix : ¬ F.IsInf x := by unfold IsInf; unfold IsFin at hx; omega
  have niy : ¬ F.IsInf y := by unfold IsInf; unfold IsFin at hy; omega
  have nnx := IsFin.not_nan F hx
  have nny := IsFin.not_nan F hy
  by_cases c2 : nz.e ≥ F.fmaZin
  · rw [if_pos c2]
    by_cases c3 : nz.e > F.fmaZin
    · rw [if_pos c3]
      have hz : F.IsZero z := by
        by_contra hc
        by_cases hf : F.IsFin z
        · have := (hnz.fin hf hc).2.2; omega
        · have := hnz.inf hf; omega
      have hv : F.val z = 0 := (F.val_eq_zero_iff).mpr hz
      have hf := F.isZero_isFin hz
      obtain ⟨m1, m2⟩ := (N.mul_spec x y).1 hx hy
      refine Ok.pure' ⟨fun _ _ _ => ?_, ?_, ?_, ?_, ?_⟩
      · rw [hv, add_zero]
        refine ⟨m1, fun h => ?_⟩
        rcases mul_eq_zero.mp h with h | h
        · exact absurd ((F.val_eq_zero_iff).mp h) hxz
        · exact absurd ((F.val_eq_zero_iff).mp h) hyz
      · rintro (h | h | h)
        · exact absurd h nnx
        · exact absurd h nny
        · exact absurd h (IsFin.not_nan F hf)
      · tauto
      · tauto
      · intro _ _ h; unfold IsInf at h; unfold IsFin at hf; omega
    · rw [if_neg c3]
      have hf : ¬ F.IsFin z := by
        rcases (key hnz).mp c2 with h | h
        · exact h
        · have := hnz.zero h; omega
      refine Ok.pure' ⟨fun _ _ h => absurd h hf, ?_, ?_, ?_, fun _ _ _ => rfl⟩
      · tauto
      · tauto
      · tauto
  · rw [if_neg c2]
    have c2' := c2
    rw [key hnz] at c2'
    have hz : F.IsFin z := by tauto
    have hzz : ¬ F.IsZero z := by tauto
    have niz : ¬ F.IsInf z := by unfold IsInf; unfold IsFin at hz; omega
    have nnz := IsFin.not_nan F hz
    refine Ok.mono (F.fmaRound_main N C hO hF hx hy hz hxz hyz hzz hnx hny hnz ?_) ?_
    · rintro ⟨s1, s2, s3, s4⟩
      apply hb
      obtain ⟨ox, vx, _⟩ := hnx.fin hx hxz
      obtain ⟨oy, vy, _⟩ := hny.fin hy hyz
      obtain ⟨oz, vz, _⟩ := hnz.fin hz hzz
      have hhw : F.w = F.e + F.s + 1 := rfl
      generalize hk : (nz.e - (nx.e + ny.e) - F.w).toNat = k at s3 s4
      refine ⟨nx.m.toNat, ny.m.toNat, nz.m.toNat, nx.e, ny.e, nz.e, ⟨ox.lo, ox.hi, by rw [F.abs_val, vx]⟩,
        ⟨oy.lo, oy.hi, by rw [F.abs_val, vy]⟩, ⟨oz.lo, oz.hi, by rw [F.abs_val, vz]⟩, k, by omega, by omega, by omega, ?_⟩
      rw [show 2 * k = k + k by omega, Nat.pow_add, Nat.mod_mul, s4, Nat.mul_zero, Nat.add_zero]
      exact ⟨Nat.pos_of_ne_zero s3, Nat.mod_lt _ (Nat.two_pow_pos k)⟩
    · intro r hr
      refine ⟨fun _ _ _ => hr, ?_, ?_, ?_, ?_⟩
      · tauto
      · tauto
      · tauto
      · tauto

end Fmt
end Verif
