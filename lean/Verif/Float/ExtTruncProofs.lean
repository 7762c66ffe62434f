import Verif.Float.ExtTrunc
import Verif.Float.MulProofs
import Verif.Int.NarrowDivProofs
/-! # Correctness of float extension and truncation -/
namespace Verif

theorem wshl_toNat {w : Nat} {x : BitVec w} {n : Nat} (hn : n < w) (h : x.toNat * 2 ^ n < 2 ^ w) :
    (wshl x n).toNat = x.toNat * 2 ^ n := by
  unfold wshl
  rw [Nat.mod_eq_of_lt hn, BitVec.toNat_shiftLeft, Nat.shiftLeft_eq, Nat.mod_eq_of_lt h]

namespace Fmt

/-- `W` is wider than `N`, with enough room for every subnormal of `N` to be normal in `W` and
every subnormal of `W` to vanish in `N`. Holds for all pairs for which the library has entry points. -/
structure Wider (N W : Fmt) : Prop where
  he : N.e < W.e
  hs : N.s + 2 ≤ W.s
  hb : W.s + N.bias ≤ W.bias

theorem wider_16_32 : Wider f16 f32 := ⟨by decide, by decide, by decide⟩
theorem wider_16_64 : Wider f16 f64 := ⟨by decide, by decide, by decide⟩
theorem wider_16_128 : Wider f16 f128 := ⟨by decide, by decide, by decide⟩
theorem wider_32_64 : Wider f32 f64 := ⟨by decide, by decide, by decide⟩
theorem wider_32_128 : Wider f32 f128 := ⟨by decide, by decide, by decide⟩
theorem wider_64_128 : Wider f64 f128 := ⟨by decide, by decide, by decide⟩

theorem Wider.bias {N W : Fmt} (h : Wider N W) : 2 * N.bias + 1 ≤ W.bias := by
  have h1 := N.pe_bias
  have h2 := W.pe_bias
  have : 2 ^ (N.e + 1) ≤ 2 ^ W.e := two_pow_le h.he
  rw [Nat.pow_succ] at this
  omega

theorem wrap_range_iff {w : Nat} {x u o : BitVec w} (huo : u.toNat ≤ o.toNat) :
    x - u < o - u ↔ u.toNat ≤ x.toNat ∧ x.toNat < o.toNat := by
  have hx := x.isLt; have hu := u.isLt; have ho := o.isLt
  rw [BitVec.lt_def, BitVec.toNat_sub_of_le (x := o) (BitVec.le_def.mpr huo)]
  by_cases h : u.toNat ≤ x.toNat
  · rw [BitVec.toNat_sub_of_le (BitVec.le_def.mpr h)]; omega
  · rw [BitVec.toNat_sub, Nat.mod_eq_of_lt (by omega)]; omega

theorem wrap_range_iff' {w : Nat} {x u o : BitVec w} (huo : u.toNat ≤ o.toNat) :
    x - u < x - o ↔ u.toNat ≤ x.toNat ∧ x.toNat < o.toNat := by
  have hx := x.isLt; have hu := u.isLt; have ho := o.isLt
  rw [BitVec.lt_def]
  by_cases h1 : u.toNat ≤ x.toNat
  · rw [BitVec.toNat_sub_of_le (x := x) (y := u) (BitVec.le_def.mpr h1)]
    by_cases h2 : o.toNat ≤ x.toNat
    · rw [BitVec.toNat_sub_of_le (BitVec.le_def.mpr h2)]; omega
    · rw [BitVec.toNat_sub, Nat.mod_eq_of_lt (by omega)]; omega
  · rw [BitVec.toNat_sub x u, Nat.mod_eq_of_lt (by omega), BitVec.toNat_sub, Nat.mod_eq_of_lt (by omega)]; omega

/-! ### Extension -/

theorem nlz_implicit (F : Fmt) : nlz F.implicitBit = F.e := by
  unfold nlz
  rw [F.toNat_implicitBit]
  have : bitLen (2 ^ F.s) = F.s + 1 := by
    apply le_antisymm
    · rw [bitLen_le_iff, F.ps_succ]; have := Nat.two_pow_pos F.s; omega
    · by_contra h
      have : bitLen (2 ^ F.s) ≤ F.s := by omega
      rw [bitLen_le_iff] at this; omega
  rw [this]; show F.e + F.s + 1 - (F.s + 1) = F.e; omega

theorem xor_implicit (R : Fmt) {x : BitVec R.w} (h0 : 2 ^ R.s ≤ x.toNat) (h1 : x.toNat < 2 ^ (R.s + 1)) :
    (x ^^^ R.implicitBit).toNat = x.toNat - 2 ^ R.s := by
  rw [BitVec.toNat_xor, R.toNat_implicitBit]
  have hp := R.ps_succ
  have hlt : x.toNat - 2 ^ R.s < 2 ^ R.s := by omega
  have e := or_eq_add' (k := R.s) hlt (dvd_refl (2 ^ R.s))
  apply Nat.eq_of_testBit_eq
  intro i
  have hx : x.toNat = 2 ^ R.s ||| (x.toNat - 2 ^ R.s) := by rw [e]; omega
  rw [Nat.testBit_xor]
  conv_lhs => rw [hx]
  rw [Nat.testBit_or, Nat.testBit_two_pow]
  by_cases hi : R.s = i
  · subst hi
    rw [Nat.testBit_lt_two_pow hlt]; simp
  · simp [hi]

theorem extendAbs_fin {F R : Fmt} (hW : Wider F R) {a : BitVec F.w} (ha : F.mag a < F.infRep) :
    Ok (extendAbs F R a) (fun r => r.toNat < R.infRep ∧ R.magVal ℚ r.toNat = F.magVal ℚ (F.mag a)) := by
  obtain ⟨hWe, hWs, hWb⟩ := hW
  have hbb := Wider.bias ⟨hWe, hWs, hWb⟩
  have two0 : (2 : ℚ) ≠ 0 := by norm_num
  have hFps := F.ps_ge; have hRps := R.ps_ge
  have hFe := F.he; have hRe' := R.he'; have hRs' := R.hs'
  have hFpe := F.pe_bias; have hRpe := R.pe_bias
  have hRpel := R.pe_le
  have hwF : F.w = F.e + F.s + 1 := rfl
  have hwR : R.w = R.e + R.s + 1 := rfl
  have hmF := F.mag_lt a
  have hmR : 2 ^ (F.e + F.s) ≤ 2 ^ R.w := two_pow_le (by omega)
  have heR : 2 ^ R.e ≤ 2 ^ R.w := two_pow_le (by omega)
  have hpR : 2 ^ R.s ≤ 2 ^ R.w := two_pow_le (by omega)
  have hRpw := R.pw
  have hinfR := R.infRep_add
  have habs := F.toNat_and_absMask a
  obtain ⟨d, hd⟩ : ∃ d, R.s = F.s + d := ⟨R.s - F.s, by omega⟩
  have hd' : R.s - F.s = d := by omega
  have hpd : 2 ^ R.s = 2 ^ F.s * 2 ^ d := by rw [hd, Nat.pow_add]
  unfold extendAbs
  refine Ok.bind (nsubC_spec (by omega)) ?_
  rintro _ rfl
  refine Ok.bind (nsubC_spec (by omega)) ?_
  rintro _ rfl
  refine Ok.bind (subC_spec (by rw [F.toNat_one', F.toNat_sigMask]; omega)) ?_
  intro _ _
  rw [hd']
  have hinfF := F.ps_le_infRep
  simp only [wrap_range_iff (x := a &&& F.absMask) (u := F.implicitBit) (o := F.expMask)
    (by rw [F.toNat_implicitBit, F.toNat_expMask]; exact hinfF)]
  rw [F.toNat_implicitBit, F.toNat_expMask, habs]
  by_cases h1 : 2 ^ F.s ≤ F.mag a
  · rw [if_pos ⟨h1, ha⟩]
    refine Ok.bind (castC_spec (by rw [habs]; omega)) ?_
    intro x hx
    rw [habs] at hx
    refine Ok.bind (castU_spec (w := R.w) (by omega)) ?_
    intro b hb
    -- decomposition of the magnitude
    have hdm := Nat.div_add_mod (F.mag a) (2 ^ F.s)
    have hml := Nat.mod_lt (F.mag a) (show 0 < 2 ^ F.s by omega)
    have hE1 : 1 ≤ F.mag a / 2 ^ F.s := (Nat.one_le_div_iff (by omega)).mpr h1
    have hE2 := F.mag_isFin_div ha
    generalize hE : F.mag a / 2 ^ F.s = E at *
    generalize hm : F.mag a % 2 ^ F.s = m at *
    obtain ⟨bd, hbd⟩ : ∃ bd, R.bias = F.bias + bd := ⟨R.bias - F.bias, by omega⟩
    have hbd' : R.bias - F.bias = bd := by omega
    rw [hbd'] at hb
    have hmd : m * 2 ^ d < 2 ^ R.s := by
      rw [hpd]; exact Nat.mul_lt_mul_of_pos_right hml (Nat.two_pow_pos _)
    have hxd : x.toNat * 2 ^ d = E * 2 ^ R.s + m * 2 ^ d := by
      rw [hx, ← hdm, hpd]; ring
    have hsum : x.toNat * 2 ^ d + bd * 2 ^ R.s = (E + bd) * 2 ^ R.s + m * 2 ^ d := by rw [hxd]; ring
    have hEbd : (E + bd) * 2 ^ R.s + 2 ^ R.s ≤ R.infRep := by
      unfold infRep
      calc _ = (E + bd + 1) * 2 ^ R.s := by ring
        _ ≤ _ := Nat.mul_le_mul_right _ (by omega)
    have hlt : (E + bd) * 2 ^ R.s + m * 2 ^ d < R.infRep := by omega
    have hltw : R.infRep < 2 ^ R.w := lt_trans R.infRep_lt (by rw [R.pes, R.pw]; omega)
    have hs1 : (wshl x d).toNat = x.toNat * 2 ^ d := wshl_toNat (by omega) (by omega)
    have hs2 : (wshl b R.s).toNat = bd * 2 ^ R.s := by
      rw [← hb]; exact wshl_toNat (by omega) (by rw [hb]; omega)
    refine (addC_spec (by rw [hs1, hs2]; omega)).mono ?_
    intro r hr
    rw [hs1, hs2, hsum] at hr
    refine ⟨by omega, ?_⟩
    have e1 : r.toNat / 2 ^ R.s = E + bd := by
      rw [hr, Nat.add_comm, Nat.add_mul_div_right _ _ (by omega), Nat.div_eq_of_lt hmd, Nat.zero_add]
    have e2 : r.toNat % 2 ^ R.s = m * 2 ^ d := by
      rw [hr, Nat.add_comm, Nat.add_mul_mod_self_right, Nat.mod_eq_of_lt hmd]
    unfold magVal
    rw [e1, e2, hE, hm, if_neg (by omega), if_neg (by omega), hpd, ← Nat.add_mul, hbd]
    push_cast
    rw [mul_assoc]
    congr 1
    rw [← zpow_natCast (2 : ℚ) d, ← zpow_add₀ two0, hd]
    congr 1
    push_cast
    ring
  · rw [if_neg (by omega)]
    rw [if_neg (by rw [ge_iff_le, BitVec.le_def, habs, F.toNat_expMask]; omega)]
    simp only [ne_eq, F.abs_eq_zero_iff]
    by_cases h0 : F.mag a = 0
    · rw [if_neg (by simpa using h0)]
      refine Ok.pure' ⟨by simpa using (by have := R.ps_le_infRep; omega : 0 < R.infRep), ?_⟩
      unfold magVal; rw [h0]; simp
    · rw [if_pos h0]
      have hb := bitLen_le_iff.mpr (show F.mag a < 2 ^ F.s by omega)
      have hb0 := bitLen_pos (n := F.mag a) (by omega)
      have hl := lt_two_pow_bitLen (F.mag a)
      have hg := two_pow_le_of_bitLen (n := F.mag a) (by omega)
      have hnlz : nlz (a &&& F.absMask) = F.w - bitLen (F.mag a) := by unfold nlz; rw [habs]
      refine Ok.bind (nsubC_spec (by rw [hnlz, nlz_implicit]; omega)) ?_
      intro sc hsc
      rw [hnlz, nlz_implicit] at hsc
      refine Ok.bind (castC_spec (by rw [habs]; omega)) ?_
      intro x hx
      rw [habs] at hx
      refine Ok.bind (nsubC_spec (by omega)) ?_
      intro t ht
      refine Ok.bind (castU_spec (w := R.w) (by omega)) ?_
      intro b hbt
      refine Ok.pure' ?_
      have hsc' : sc = F.s + 1 - bitLen (F.mag a) := by omega
      have hx0 : 2 ^ R.s ≤ x.toNat * 2 ^ (d + sc) := by
        rw [hx]
        calc 2 ^ R.s = 2 ^ (bitLen (F.mag a) - 1) * 2 ^ (d + sc) := by rw [← Nat.pow_add]; congr 1; omega
          _ ≤ _ := Nat.mul_le_mul_right _ hg
      have hx1 : x.toNat * 2 ^ (d + sc) < 2 ^ (R.s + 1) := by
        rw [hx]
        calc _ < 2 ^ bitLen (F.mag a) * 2 ^ (d + sc) := Nat.mul_lt_mul_of_pos_right hl (Nat.two_pow_pos _)
          _ = _ := by rw [← Nat.pow_add]; congr 1; omega
      have hp1 : 2 ^ (R.s + 1) ≤ 2 ^ R.w := two_pow_le (by omega)
      have hs1 : (wshl x (d + sc)).toNat = x.toNat * 2 ^ (d + sc) := wshl_toNat (by omega) (by omega)
      have hxor := xor_implicit R (x := wshl x (d + sc)) (by omega) (by omega)
      have hpsR := R.ps_succ
      have hEbd : b.toNat * 2 ^ R.s + 2 ^ R.s ≤ R.infRep := by
        unfold infRep
        calc _ = (b.toNat + 1) * 2 ^ R.s := by ring
          _ ≤ _ := Nat.mul_le_mul_right _ (by omega)
      have hltw : R.infRep < 2 ^ R.w := lt_trans R.infRep_lt (by rw [R.pes, R.pw]; omega)
      have hs2 : (wshl b R.s).toNat = b.toNat * 2 ^ R.s := wshl_toNat (by omega) (by omega)
      have hr : ((wshl x (d + sc) ^^^ R.implicitBit) ||| wshl b R.s).toNat =
          (x.toNat * 2 ^ (d + sc) - 2 ^ R.s) + b.toNat * 2 ^ R.s := by
        rw [BitVec.toNat_or, hxor, hs2, hs1, or_eq_add (by omega) (Dvd.intro_left _ rfl)]
      rw [hr]
      refine ⟨by omega, ?_⟩
      have e1 : ((x.toNat * 2 ^ (d + sc) - 2 ^ R.s) + b.toNat * 2 ^ R.s) / 2 ^ R.s = b.toNat := by
        rw [Nat.add_mul_div_right _ _ (by omega), Nat.div_eq_of_lt (by omega), Nat.zero_add]
      have e2 : ((x.toNat * 2 ^ (d + sc) - 2 ^ R.s) + b.toNat * 2 ^ R.s) % 2 ^ R.s =
          x.toNat * 2 ^ (d + sc) - 2 ^ R.s := by
        rw [Nat.add_mul_mod_self_right, Nat.mod_eq_of_lt (by omega)]
      unfold magVal
      rw [e1, e2, Nat.div_eq_of_lt (show F.mag a < 2 ^ F.s by omega), if_neg (by omega), if_pos rfl,
        Nat.mod_eq_of_lt (show F.mag a < 2 ^ F.s by omega), Nat.add_sub_cancel' hx0, hx]
      push_cast
      rw [mul_assoc]
      congr 1
      rw [← zpow_natCast (2 : ℚ), ← zpow_add₀ two0]
      congr 1
      have : (b.toNat : ℤ) = R.bias - F.bias - sc + 1 := by omega
      rw [this, hd]
      push_cast
      ring

theorem extendAbs_inf {F R : Fmt} (hW : Wider F R) {a : BitVec F.w} (ha : F.infRep ≤ F.mag a) :
    Ok (extendAbs F R a) (fun r => r.toNat = R.infRep + F.mag a % 2 ^ F.s * 2 ^ (R.s - F.s)) := by
  obtain ⟨hWe, hWs, hWb⟩ := hW
  have hbb := Wider.bias ⟨hWe, hWs, hWb⟩
  have hFps := F.ps_ge; have hRps := R.ps_ge
  have hFe := F.he; have hRe' := R.he'; have hRs' := R.hs'
  have hRpe := R.pe_ge
  have hwF : F.w = F.e + F.s + 1 := rfl
  have hwR : R.w = R.e + R.s + 1 := rfl
  have heR : 2 ^ R.e ≤ 2 ^ R.w := two_pow_le (by omega)
  have hpR : 2 ^ R.s ≤ 2 ^ R.w := two_pow_le (by omega)
  have habs := F.toNat_and_absMask a
  obtain ⟨d, hd⟩ : ∃ d, R.s = F.s + d := ⟨R.s - F.s, by omega⟩
  have hd' : R.s - F.s = d := by omega
  have hpd : 2 ^ R.s = 2 ^ F.s * 2 ^ d := by rw [hd, Nat.pow_add]
  unfold extendAbs
  refine Ok.bind (nsubC_spec (by omega)) ?_
  rintro _ rfl
  refine Ok.bind (nsubC_spec (by omega)) ?_
  rintro _ rfl
  refine Ok.bind (subC_spec (by rw [F.toNat_one', F.toNat_sigMask]; omega)) ?_
  intro nc hnc
  rw [hd']
  have hinfF := F.ps_le_infRep
  simp only [wrap_range_iff (x := a &&& F.absMask) (u := F.implicitBit) (o := F.expMask)
    (by rw [F.toNat_implicitBit, F.toNat_expMask]; exact hinfF)]
  rw [F.toNat_implicitBit, F.toNat_expMask, habs, if_neg (by omega),
    if_pos (by rw [ge_iff_le, BitVec.le_def, habs, F.toNat_expMask]; omega)]
  have hml := Nat.mod_lt (F.mag a) (show 0 < 2 ^ F.s by omega)
  have hFR : 2 ^ F.s ≤ 2 ^ R.s := two_pow_le (by omega)
  have hq : ((a &&& F.absMask) &&& F.sigMask).toNat = F.mag a % 2 ^ F.s := by
    rw [F.toNat_and_sigMask, habs]
  have hn : ((a &&& F.absMask) &&& nc).toNat = (F.mag a % 2 ^ F.s) &&& nc.toNat := by
    have : nc.toNat = (2 ^ F.s - 1) &&& nc.toNat := by
      rw [Nat.and_comm, Nat.and_two_pow_sub_one_eq_mod, Nat.mod_eq_of_lt]
      rw [hnc, F.toNat_sigMask]; omega
    rw [BitVec.toNat_and, habs, this, ← Nat.and_assoc, Nat.and_two_pow_sub_one_eq_mod, ← this]
  have hnle : (F.mag a % 2 ^ F.s) &&& nc.toNat ≤ F.mag a % 2 ^ F.s := Nat.and_le_left
  refine Ok.bind (castC_spec (by rw [hq]; omega)) ?_
  intro q hq'
  refine Ok.bind (castC_spec (by rw [hn]; omega)) ?_
  intro n hn'
  refine Ok.bind (castU_spec (w := R.w) (by rw [R.expSat_eq]; omega)) ?_
  intro i hi
  refine Ok.pure' ?_
  rw [hq] at hq'
  rw [hn] at hn'
  rw [R.expSat_eq] at hi
  have hltw : R.infRep < 2 ^ R.w := lt_trans R.infRep_lt (Nat.pow_lt_pow_right (by omega) (by omega))
  have hs1 : (wshl i R.s).toNat = R.infRep := by
    rw [wshl_toNat (by omega) (by rw [hi]; exact hltw), hi]; rfl
  have hmd : ∀ z, z ≤ F.mag a % 2 ^ F.s → z * 2 ^ d < 2 ^ R.s := by
    intro z hz; rw [hpd]; exact Nat.mul_lt_mul_of_pos_right (by omega) (Nat.two_pow_pos _)
  have m1 := hmd _ (le_refl _)
  have m2 := hmd _ hnle
  have hs2 : (wshl q d).toNat = F.mag a % 2 ^ F.s * 2 ^ d := by
    rw [wshl_toNat (by omega) (by rw [hq']; omega), hq']
  have hs3 : (wshl n d).toNat = ((F.mag a % 2 ^ F.s) &&& nc.toNat) * 2 ^ d := by
    rw [wshl_toNat (by omega) (by rw [hn']; omega), hn']
  rw [BitVec.toNat_or, BitVec.toNat_or, hs1, hs2, hs3, Nat.or_assoc]
  have e : F.mag a % 2 ^ F.s * 2 ^ d ||| ((F.mag a % 2 ^ F.s) &&& nc.toNat) * 2 ^ d =
      F.mag a % 2 ^ F.s * 2 ^ d := by
    apply Nat.eq_of_testBit_eq
    intro j
    rw [← Nat.shiftLeft_eq, ← Nat.shiftLeft_eq, Nat.testBit_or, Nat.testBit_shiftLeft, Nat.testBit_shiftLeft,
      Nat.testBit_and]
    cases Nat.testBit (F.mag a % 2 ^ F.s) (j - d) <;> simp
    tauto
  rw [e, or_eq_add' (b := R.infRep) m1 (Dvd.intro_left (2 ^ R.e - 1) rfl), Nat.add_comm]

theorem extend_of {F R : Fmt} (hW : Wider F R) {a : BitVec F.w} {P : Nat → Prop}
    (h : Ok (extendAbs F R a) (fun r => r.toNat < 2 ^ (R.e + R.s) ∧ P r.toNat)) :
    Ok (extend F R a) (fun r => R.sign r = F.sign a ∧ P (R.mag r)) := by
  have hwF : F.w = F.e + F.s + 1 := rfl
  have hwR : R.w = R.e + R.s + 1 := rfl
  have hWe := hW.he; have hWs := hW.hs
  have hp : 2 ^ (F.e + F.s) < 2 ^ R.w := Nat.pow_lt_pow_right (by omega) (by omega)
  unfold extend
  refine Ok.bind h ?_
  rintro r ⟨hr, hP⟩
  have hsm := F.toNat_and_signMask a
  refine Ok.bind (castC_spec (by rw [hsm]; split <;> omega)) ?_
  intro s hs
  rw [hsm] at hs
  refine Ok.bind (nsubC_spec (by omega)) ?_
  rintro _ rfl
  refine Ok.pure' ?_
  have hpp : 2 ^ (F.e + F.s) * 2 ^ (R.w - F.w) = 2 ^ (R.e + R.s) := by
    rw [← Nat.pow_add]; congr 1; omega
  have hlt : 2 ^ (R.e + R.s) < 2 ^ R.w := Nat.pow_lt_pow_right (by omega) (by omega)
  have hs' : (wshl s (R.w - F.w)).toNat = if F.sign a then 2 ^ (R.e + R.s) else 0 := by
    rw [wshl_toNat (by omega), hs]
    · split
      · exact hpp
      · simp
    · rw [hs]; split <;> omega
  have := R.sign_mag_of (b := r ||| wshl s (R.w - F.w)) hr (R.toNat_or_sign' hr hs')
  rw [this.1, this.2]
  exact ⟨rfl, hP⟩

theorem extend_fin {F R : Fmt} (hW : Wider F R) {a : BitVec F.w} (ha : F.IsFin a) :
    Ok (extend F R a) (fun r => R.IsFin r ∧ R.sign r = F.sign a ∧ R.val r = F.val a) := by
  have := extend_of hW (P := fun n => n < R.infRep ∧ R.magVal ℚ n = F.magVal ℚ (F.mag a))
    ((extendAbs_fin hW ha).mono fun r hr => ⟨lt_trans hr.1 R.infRep_lt, hr⟩)
  refine this.mono ?_
  rintro r ⟨h1, h2, h3⟩
  refine ⟨h2, h1, ?_⟩
  unfold val valK
  rw [h1, h3]

theorem extend_special {F R : Fmt} (hW : Wider F R) {a : BitVec F.w} (ha : F.infRep ≤ F.mag a) :
    Ok (extend F R a) (fun r => R.sign r = F.sign a ∧
      R.mag r = R.infRep + (F.mag a - F.infRep) * 2 ^ (R.s - F.s)) := by
  have hs := hW.hs
  have hlt := F.mag_lt a
  have hinf := F.infRep_add
  have hmod : F.mag a % 2 ^ F.s = F.mag a - F.infRep := by
    have e : F.mag a = (F.mag a - F.infRep) + (2 ^ F.e - 1) * 2 ^ F.s := by
      have : (2 ^ F.e - 1) * 2 ^ F.s = F.infRep := rfl
      omega
    conv_lhs => rw [e, Nat.add_mul_mod_self_right]
    rw [F.pes] at hlt
    exact Nat.mod_eq_of_lt (by omega)
  refine extend_of hW (P := fun n => n = R.infRep + (F.mag a - F.infRep) * 2 ^ (R.s - F.s)) ((extendAbs_inf hW ha).mono fun r hr => ⟨?_, ?_⟩)
  · rw [hr, hmod, R.pes]
    have hpd : 2 ^ R.s = 2 ^ F.s * 2 ^ (R.s - F.s) := by rw [← Nat.pow_add]; congr 1; omega
    have : (F.mag a - F.infRep) * 2 ^ (R.s - F.s) < 2 ^ R.s := by
      rw [hpd]; rw [F.pes] at hlt
      exact Nat.mul_lt_mul_of_pos_right (by omega) (Nat.two_pow_pos _)
    have := R.infRep_add
    omega
  · rw [hr, hmod]

/-! ### Truncation -/

theorem truncRound_spec {F R : Fmt} {bits rm hw : BitVec F.w} {r : BitVec R.w} {d : Nat}
    (hrm : rm.toNat = 2 ^ d - 1) (hhw : hw.toNat = 2 ^ (d - 1)) (hr : r.toNat + 1 < 2 ^ R.w) :
    Ok (truncRound F R bits rm hw r) (fun q => q.toNat = r.toNat +
      (if bits.toNat % 2 ^ d < 2 ^ (d - 1) then 0 else if bits.toNat % 2 ^ d = 2 ^ (d - 1) then r.toNat % 2 else 1)) := by
  have h1 : (r &&& 1#R.w).toNat = r.toNat % 2 := by
    rw [BitVec.toNat_and, R.toNat_one']
    exact Nat.and_two_pow_sub_one_eq_mod r.toNat 1
  have hb : (bits &&& rm).toNat = bits.toNat % 2 ^ d := by
    rw [BitVec.toNat_and, hrm, Nat.and_two_pow_sub_one_eq_mod]
  unfold truncRound
  dsimp only
  simp only [gt_iff_lt, BitVec.lt_def, ← BitVec.toNat_inj (x := bits &&& rm), hb, hhw]
  rcases Nat.lt_trichotomy (bits.toNat % 2 ^ d) (2 ^ (d - 1)) with hg | hg | hg
  · rw [if_neg (by omega), if_neg (by omega), if_pos hg]
    exact Ok.pure' rfl
  · rw [if_neg (by omega), if_pos hg, if_neg (by omega), if_pos hg]
    refine (addC_spec (by rw [h1]; omega)).mono ?_
    intro q hq
    rw [hq, h1]
  · rw [if_pos hg, if_neg (by omega), if_neg (by omega)]
    refine (addC_spec (by rw [R.toNat_one']; omega)).mono ?_
    intro q hq
    rw [hq, R.toNat_one']

theorem truncAbs_spec {F R : Fmt} (hW : Wider R F) (a : BitVec F.w) :
    Ok (truncAbs F R a) (fun r =>
      (F.mag a ≤ F.infRep → R.IsRNEu ((F.valU (F.mag a) : ℚ) / 2 ^ (F.bias - R.bias + (F.s - R.s))) r.toNat) ∧
      (F.infRep < F.mag a → R.infRep + 2 ^ (R.s - 1) ≤ r.toNat ∧ r.toNat < R.infRep + 2 ^ R.s)) := by
  obtain ⟨hWe, hWs, hWb⟩ := hW
  have hbb := Wider.bias ⟨hWe, hWs, hWb⟩
  have two0 : (2 : ℚ) ≠ 0 := by norm_num
  have hFps := F.ps_ge; have hRps := R.ps_ge
  have hRe := R.he; have hFe' := F.he'; have hFs' := F.hs'; have hRs := R.hs
  have hFpe := F.pe_bias; have hRpe := R.pe_bias
  have hFpel := F.pe_le
  have hwF : F.w = F.e + F.s + 1 := rfl
  have hwR : R.w = R.e + R.s + 1 := rfl
  have hmF := F.mag_lt a
  have heF : 2 ^ F.e ≤ 2 ^ F.w := two_pow_le (by omega)
  have heR : 2 ^ R.e ≤ 2 ^ R.w := two_pow_le (by omega)
  have hpF : 2 ^ F.s ≤ 2 ^ F.w := two_pow_le (by omega)
  have habs := F.toNat_and_absMask a
  have hFone := F.toNat_one'
  have hRone := R.toNat_one'
  obtain ⟨d, hd⟩ : ∃ d, F.s = R.s + d := ⟨F.s - R.s, by omega⟩
  have hd' : F.s - R.s = d := by omega
  obtain ⟨bd, hbd⟩ : ∃ bd, F.bias = R.bias + bd := ⟨F.bias - R.bias, by omega⟩
  have hbd' : F.bias - R.bias = bd := by omega
  have hpd : 2 ^ F.s = 2 ^ R.s * 2 ^ d := by rw [hd, Nat.pow_add]
  have hdF : 2 ^ d < 2 ^ F.w := Nat.pow_lt_pow_right (by omega) (by omega)
  have hdF1 : 2 ^ (d - 1) < 2 ^ F.w := Nat.pow_lt_pow_right (by omega) (by omega)
  have hsF1 : 2 ^ (F.s - 1) < 2 ^ F.w := Nat.pow_lt_pow_right (by omega) (by omega)
  have hsR1 : 2 ^ (R.s - 1) < 2 ^ R.w := Nat.pow_lt_pow_right (by omega) (by omega)
  have hd0 := Nat.two_pow_pos d
  have hsR0 := Nat.two_pow_pos (R.s - 1)
  have hsF0 := Nat.two_pow_pos (F.s - 1)
  have hinfF := F.infRep_add
  have hinfR := R.infRep_add
  have hinfRw : R.infRep + 2 ^ R.s < 2 ^ R.w := by
    rw [hinfR, R.pw]
    have := Nat.mul_pos (Nat.two_pow_pos R.e) (Nat.two_pow_pos R.s)
    omega
  have hR32 : 2 ^ 5 ≤ 2 ^ R.e := two_pow_le (by omega)
  have hRinf : 2 ^ R.s < R.infRep := by
    have h3 : 2 * 2 ^ R.s ≤ (2 ^ R.e - 1) * 2 ^ R.s := Nat.mul_le_mul_right _ (by omega)
    unfold infRep; omega
  have hexpR : R.expSat = 2 ^ R.e - 1 := R.expSat_eq
  have hexpR2 : (2 ^ R.e - 1) * 2 ^ R.s = R.infRep := rfl
  have hlt2F : 2 ^ (F.e + F.s) < 2 ^ F.w := Nat.pow_lt_pow_right (by omega) (by omega)
  unfold truncAbs
  rw [hbd', hd']
  refine Ok.bind (nsubC_spec (by omega)) ?_
  rintro _ rfl
  rw [hd']
  refine Ok.bind (shlC_spec (by omega)) ?_
  intro t1 ht1
  rw [hFone, Nat.one_mul, Nat.mod_eq_of_lt hdF] at ht1
  refine Ok.bind (subC_spec (by omega)) ?_
  intro rm hrm
  rw [ht1, hFone] at hrm
  refine Ok.bind (nsubC_spec (by omega)) ?_
  rintro _ rfl
  refine Ok.bind (shlC_spec (by omega)) ?_
  intro hw hhw
  rw [hFone, Nat.one_mul, Nat.mod_eq_of_lt hdF1] at hhw
  refine Ok.bind (nsubC_spec (by omega)) ?_
  rintro _ rfl
  refine Ok.bind (shlC_spec (by omega)) ?_
  intro sq hsq
  rw [hFone, Nat.one_mul, Nat.mod_eq_of_lt hsF1] at hsq
  refine Ok.bind (subC_spec (by omega)) ?_
  intro snc hsnc
  rw [hsq, hFone] at hsnc
  refine Ok.bind (nsubC_spec (by omega)) ?_
  rintro _ rfl
  refine Ok.bind (castU_spec (w := F.w) (by omega)) ?_
  intro ue hue
  have hue' : ue.toNat = bd + 1 := by omega
  refine Ok.bind (nsubC_spec (by omega)) ?_
  rintro _ rfl
  refine Ok.bind (castU_spec (w := F.w) (by omega)) ?_
  intro oe hoe
  have hoe' : oe.toNat = bd + (2 ^ R.e - 1) := by omega
  have hofl : (bd + (2 ^ R.e - 1)) * 2 ^ F.s ≤ F.infRep := by
    unfold infRep; exact Nat.mul_le_mul_right _ (by omega)
  have hinfFw : F.infRep < 2 ^ (F.e + F.s) := F.infRep_lt
  have huo : (bd + 1) * 2 ^ F.s ≤ (bd + (2 ^ R.e - 1)) * 2 ^ F.s := Nat.mul_le_mul_right _ (by omega)
  refine Ok.bind (shlC_spec (by omega)) ?_
  intro u hu
  rw [hue', Nat.mod_eq_of_lt (by omega)] at hu
  refine Ok.bind (shlC_spec (by omega)) ?_
  intro o ho
  rw [hoe', Nat.mod_eq_of_lt (by omega)] at ho
  refine Ok.bind (nsubC_spec (by omega)) ?_
  rintro _ rfl
  refine Ok.bind (shlC_spec (by omega)) ?_
  intro dq hdq
  rw [hRone, Nat.one_mul, Nat.mod_eq_of_lt hsR1] at hdq
  refine Ok.bind (subC_spec (by omega)) ?_
  intro dnc hdnc
  rw [hdq, hRone] at hdnc
  dsimp only
  simp only [wrap_range_iff' (x := a &&& F.absMask) (u := u) (o := o) (by omega)]
  rw [hu, ho, habs]
  have hdm := Nat.div_add_mod (F.mag a) (2 ^ F.s)
  have hml := Nat.mod_lt (F.mag a) (show 0 < 2 ^ F.s by omega)
  have hsplit : F.mag a / 2 ^ F.s * 2 ^ F.s + F.mag a % 2 ^ F.s = F.mag a := by
    rw [Nat.mul_comm]; exact hdm
  by_cases hnorm : (bd + 1) * 2 ^ F.s ≤ F.mag a ∧ F.mag a < (bd + (2 ^ R.e - 1)) * 2 ^ F.s
  · -- normal result
    rw [if_pos hnorm]
    obtain ⟨hn1, hn2⟩ := hnorm
    have hE1 : bd + 1 ≤ F.mag a / 2 ^ F.s := (Nat.le_div_iff_mul_le (by omega)).mpr hn1
    have hE2 : F.mag a / 2 ^ F.s < bd + (2 ^ R.e - 1) := (Nat.div_lt_iff_lt_mul (by omega)).mpr hn2
    have hval : F.valU (F.mag a) = (2 ^ F.s + F.mag a % 2 ^ F.s) * 2 ^ (F.mag a / 2 ^ F.s - 1) := by
      unfold valU; rw [if_neg (by omega)]
    rw [hval]
    generalize hE : F.mag a / 2 ^ F.s = E at *
    generalize hm : F.mag a % 2 ^ F.s = m at *
    obtain ⟨E', hE'⟩ : ∃ E', E = bd + E' := ⟨E - bd, by omega⟩
    have hG : (2 ^ F.s + m) / 2 ^ d = 2 ^ R.s + m / 2 ^ d := by
      rw [hpd, Nat.add_comm, Nat.add_mul_div_right _ _ hd0, Nat.add_comm]
    have hGm : (2 ^ F.s + m) % 2 ^ d = F.mag a % 2 ^ d := by
      have e1 : 2 ^ F.s + m = m + 2 ^ R.s * 2 ^ d := by rw [hpd]; ring
      have e2 : F.mag a = m + E * 2 ^ R.s * 2 ^ d := by rw [← hsplit, hpd]; ring
      rw [e1, e2, Nat.add_mul_mod_self_right, Nat.add_mul_mod_self_right]
    have hmd : m / 2 ^ d < 2 ^ R.s := Nat.div_lt_of_lt_mul (by rw [Nat.mul_comm, ← hpd]; exact hml)
    have hmagd : F.mag a / 2 ^ d = E * 2 ^ R.s + m / 2 ^ d := by
      have e2 : F.mag a = m + E * 2 ^ R.s * 2 ^ d := by rw [← hsplit, hpd]; ring
      rw [e2, Nat.add_mul_div_right _ _ hd0, Nat.add_comm]
    refine Ok.bind (shrC_spec (by omega)) ?_
    intro t ht
    rw [habs, hmagd] at ht
    have hbw : (F.bias + (2 ^ 32 - R.bias)) % 2 ^ 32 = bd := by omega
    rw [hbw]
    have hbdR : bd < 2 ^ R.w ∨ 2 ^ R.w ≤ bd := by omega
    -- the lossless cast of the bias difference
    have hbdR : bd < 2 ^ R.w := by
      have h16 : 2 ^ 16 ≤ 2 ^ R.w := two_pow_le (by omega)
      omega
    refine Ok.bind (castU_spec (w := R.w) hbdR) ?_
    intro b hb
    refine Ok.bind (shlC_spec (by omega)) ?_
    intro tmp htmp
    rw [hb] at htmp
    have hres : E' * 2 ^ R.s + m / 2 ^ d < R.infRep := by
      rw [← hexpR2]
      calc E' * 2 ^ R.s + m / 2 ^ d < E' * 2 ^ R.s + 2 ^ R.s := by omega
        _ = (E' + 1) * 2 ^ R.s := by ring
        _ ≤ _ := Nat.mul_le_mul_right _ (by omega)
    have hsub : (t.setWidth R.w - tmp).toNat = E' * 2 ^ R.s + m / 2 ^ d := by
      have e : t.setWidth R.w - tmp = BitVec.ofNat R.w (E' * 2 ^ R.s + m / 2 ^ d) := by
        have h1 : t.setWidth R.w = BitVec.ofNat R.w (E' * 2 ^ R.s + m / 2 ^ d) + tmp := by
          apply BitVec.eq_of_toNat_eq
          rw [BitVec.toNat_setWidth, BitVec.toNat_add, ht, htmp, BitVec.toNat_ofNat]
          rw [← Nat.add_mod]
          congr 1
          rw [hE']; ring
        rw [h1, BitVec.add_sub_cancel]
      rw [e, BitVec.toNat_ofNat, Nat.mod_eq_of_lt (by omega)]
    refine (truncRound_spec (d := d) hrm hhw (by omega)).mono ?_
    intro q hq
    refine ⟨fun _ => ?_, fun h => by omega⟩
    have hEs : (E' - 1) * 2 ^ R.s + (2 ^ R.s + m / 2 ^ d) = E' * 2 ^ R.s + m / 2 ^ d := by
      obtain ⟨j, rfl⟩ : ∃ j, E' = j + 1 := ⟨E' - 1, by omega⟩
      rw [Nat.add_sub_cancel, Nat.succ_mul]; omega
    have hp1 := R.ps_succ
    refine R.isRNEu_of_stk (Stk.exact (2 ^ F.s + m)) (k := d) (E := E') (by omega) (by omega) (by rw [hG]; omega)
      (Or.inl (by rw [hG]; exact Nat.le_add_right _ _)) (by rw [hG, hEs]; exact hres) ?_ ?_
    · push_cast
      have : E - 1 = bd + (E' - 1) := by omega
      rw [this, pow_add, pow_add]
      field_simp
    · rw [hG, hGm, hEs, hq, hsub, habs]
  rw [if_neg hnorm]
  have hgt : a &&& F.absMask > F.expMask ↔ F.infRep < F.mag a := by
    rw [gt_iff_lt, BitVec.lt_def, habs, F.toNat_expMask]
  simp only [hgt]
  by_cases hnan : F.infRep < F.mag a
  · rw [if_pos hnan]
    refine Ok.bind (castU_spec (w := R.w) (by omega)) ?_
    intro ie hie
    refine Ok.bind (shlC_spec (by omega)) ?_
    intro inf hinf
    rw [hie, hexpR, hexpR2, Nat.mod_eq_of_lt (by omega)] at hinf
    refine Ok.bind (shrC_spec (by omega)) ?_
    intro pl hpl
    have hplb : pl.toNat < 2 ^ (R.s - 1) := by
      rw [hpl, BitVec.toNat_and, hsnc, Nat.and_two_pow_sub_one_eq_mod]
      apply Nat.div_lt_of_lt_mul
      rw [← Nat.pow_add]
      have : d + (R.s - 1) = F.s - 1 := by omega
      rw [this]
      exact Nat.mod_lt _ hsF0
    refine Ok.bind (castC_spec (by omega)) ?_
    intro pl' hpl'
    refine Ok.pure' ⟨fun h => by omega, fun _ => ?_⟩
    have h2 : 2 ^ R.s = 2 * 2 ^ (R.s - 1) := by rw [← Nat.pow_succ']; congr 1; omega
    have hand : (dnc &&& pl').toNat < 2 ^ (R.s - 1) := by
      rw [BitVec.toNat_and]; exact lt_of_le_of_lt Nat.and_le_right (by omega)
    have hv : ((inf ||| dq) ||| (dnc &&& pl')).toNat = R.infRep + (2 ^ (R.s - 1) + (dnc &&& pl').toNat) := by
      rw [BitVec.or_assoc, BitVec.toNat_or, BitVec.toNat_or (x := dq), hdq, hinf,
        or_eq_add' hand (dvd_refl _),
        or_eq_add' (b := R.infRep) (k := R.s) (by omega) (Dvd.intro_left (2 ^ R.e - 1) rfl)]
      omega
    rw [hv]
    omega
  rw [if_neg hnan]
  by_cases hov : (bd + (2 ^ R.e - 1)) * 2 ^ F.s ≤ F.mag a
  · rw [if_pos (by rw [ge_iff_le, BitVec.le_def, habs, ho]; exact hov)]
    refine Ok.bind (castU_spec (w := R.w) (by omega)) ?_
    intro ie hie
    refine (shlC_spec (by omega)).mono ?_
    intro inf hinf
    rw [hie, hexpR, hexpR2, Nat.mod_eq_of_lt (by omega)] at hinf
    refine ⟨fun _ => ?_, fun h => by omega⟩
    rw [hinf]
    apply R.isRNEu_overflow
    have hv := F.valU_le_iff.mpr hov
    have he1 : (bd + (2 ^ R.e - 1)) * 2 ^ F.s = ((bd + (2 ^ R.e - 1)) - 1) * 2 ^ F.s + 2 ^ F.s := by
      rw [← Nat.succ_mul]; congr 1; omega
    rw [he1, F.valU_eq (by omega) (by rw [F.ps_succ]; omega) (Or.inl (le_refl _))] at hv
    rw [R.valU_infRep, le_div_iff₀ (by positivity)]
    have e2 : 2 ^ R.s * 2 ^ (2 ^ R.e - 2) * 2 ^ (bd + d) = 2 ^ F.s * 2 ^ (bd + (2 ^ R.e - 1) - 1) := by
      rw [hpd, show bd + (2 ^ R.e - 1) - 1 = bd + (2 ^ R.e - 2) by omega, Nat.pow_add, Nat.pow_add]; ring
    rw [← e2] at hv
    exact_mod_cast hv
  rw [if_neg (by rw [ge_iff_le, BitVec.le_def, habs, ho]; exact hov)]
  have hund : F.mag a < (bd + 1) * 2 ^ F.s := by
    by_contra h
    exact hnorm ⟨by omega, by omega⟩
  have hEle : F.mag a / 2 ^ F.s < bd + 1 := (Nat.div_lt_iff_lt_mul (by omega)).mpr hund
  refine Ok.bind (shrC_spec (by omega)) ?_
  intro t ht
  rw [habs] at ht
  refine Ok.bind (castToU32_spec (by omega)) ?_
  rintro _ rfl
  rw [ht]
  refine Ok.bind (nsubC_spec (by omega)) ?_
  rintro _ rfl
  rw [hbd']
  refine Ok.bind (nsubC_spec (by omega)) ?_
  rintro _ rfl
  have hXnn : (0 : ℚ) ≤ (F.valU (F.mag a) : ℚ) / 2 ^ (bd + d) := by positivity
  have hd4 : 2 ^ 2 ≤ 2 ^ d := two_pow_le (by omega)
  by_cases hsh : bd - F.mag a / 2 ^ F.s + 1 > F.s
  · rw [if_pos hsh]
    refine Ok.pure' ⟨fun _ => ?_, fun h => by omega⟩
    have hz : (0#R.w).toNat = 0 := by simp
    rw [hz]
    refine R.isRNEu_zero hXnn ?_
    rw [div_lt_iff₀ (by positivity)]
    have hv : F.valU (F.mag a) * 2 < 2 ^ (bd + d) := by
      unfold valU
      have hp1 := F.ps_succ
      by_cases hz : F.mag a / 2 ^ F.s = 0
      · rw [if_pos hz, Nat.pow_add]
        have : 2 ^ F.s ≤ 2 ^ bd := two_pow_le (by omega)
        calc F.mag a % 2 ^ F.s * 2 < 2 ^ F.s * 2 := by omega
          _ ≤ 2 ^ bd * 2 := Nat.mul_le_mul_right _ this
          _ ≤ _ := Nat.mul_le_mul_left _ (by omega)
      · rw [if_neg hz]
        have hpp : 2 ^ (F.s + 1) * 2 ^ (F.mag a / 2 ^ F.s - 1) ≤ 2 ^ bd := by
          rw [← Nat.pow_add]; exact two_pow_le (by omega)
        have h1 : (2 ^ F.s + F.mag a % 2 ^ F.s) * 2 ^ (F.mag a / 2 ^ F.s - 1) <
            2 ^ (F.s + 1) * 2 ^ (F.mag a / 2 ^ F.s - 1) :=
          Nat.mul_lt_mul_of_pos_right (by omega) (Nat.two_pow_pos _)
        rw [Nat.pow_add]
        calc _ < 2 ^ bd * 2 := by omega
          _ ≤ _ := Nat.mul_le_mul_left _ (by omega)
    have : ((F.valU (F.mag a) * 2 : Nat) : ℚ) < ((2 ^ (bd + d) : Nat) : ℚ) := by exact_mod_cast hv
    push_cast at this
    linarith
  rw [if_neg hsh]
  have hE1 : F.mag a / 2 ^ F.s ≠ 0 := by omega
  have hval : F.valU (F.mag a) = (2 ^ F.s + F.mag a % 2 ^ F.s) * 2 ^ (F.mag a / 2 ^ F.s - 1) := by
    unfold valU; rw [if_neg hE1]
  have hsig : ((a &&& F.sigMask) ||| F.implicitBit).toNat = 2 ^ F.s + F.mag a % 2 ^ F.s := by
    rw [F.or_implicit (by rw [F.toNat_and_sigMask]; exact Nat.mod_lt _ (by omega)), F.toNat_and_sigMask, F.mag_mod]
  rw [hval]
  generalize hE : F.mag a / 2 ^ F.s = E at *
  generalize hm : F.mag a % 2 ^ F.s = m at *
  obtain ⟨sh, hshd⟩ : ∃ sh, sh = bd - E + 1 := ⟨_, rfl⟩
  rw [← hshd] at hsh ⊢
  refine Ok.bind (nsubC_spec (by omega)) ?_
  rintro _ rfl
  refine Ok.bind (shlC_spec (by omega)) ?_
  intro t1 ht1'
  refine Ok.bind (shrC_spec (by omega)) ?_
  intro t2 ht2
  rw [hsig] at ht1' ht2
  have eW : 2 ^ F.w = 2 ^ (F.w - sh) * 2 ^ sh := by rw [← Nat.pow_add]; congr 1; omega
  have hstk : (if t1 ≠ 0#F.w then 1#F.w else 0#F.w).toNat = if (2 ^ F.s + m) % 2 ^ sh ≠ 0 then 1 else 0 := by
    have e : t1 = 0#F.w ↔ (2 ^ F.s + m) % 2 ^ sh = 0 := by
      rw [← BitVec.toNat_inj, ht1', eW, Nat.mul_comm (2 ^ F.s + m), Nat.mul_mod_mul_left]
      simp
    by_cases hz : (2 ^ F.s + m) % 2 ^ sh = 0
    · rw [if_neg (by simpa using e.mpr hz), if_neg (by simpa using hz)]; rfl
    · rw [if_pos (fun h => hz (e.mp h)), if_pos hz]; exact hFone
  have hden : (t2 ||| (if t1 ≠ 0#F.w then 1#F.w else 0#F.w)).toNat = stickyShr (2 ^ F.s + m) sh := by
    rw [BitVec.toNat_or, hstk, ht2]; rfl
  have hp1 := F.ps_succ
  have hsb : stickyShr (2 ^ F.s + m) sh ≤ 2 ^ F.s := by
    have b : (2 ^ F.s + m) / 2 ^ sh < 2 ^ F.s := by
      rw [Nat.div_lt_iff_lt_mul (Nat.two_pow_pos _)]
      have c : 2 ^ 1 ≤ 2 ^ sh := two_pow_le (by omega)
      have := Nat.mul_le_mul_left (2 ^ F.s) c
      omega
    rw [stickyShr_eq]; split <;> omega
  have hdb : stickyShr (2 ^ F.s + m) sh / 2 ^ d ≤ 2 ^ R.s :=
    Nat.div_le_of_le_mul (by rw [Nat.mul_comm, ← hpd]; exact hsb)
  refine Ok.bind (shrC_spec (by omega)) ?_
  intro t3 ht3
  rw [hden] at ht3
  refine Ok.bind (castC_spec (by omega)) ?_
  intro r hr
  rw [ht3] at hr
  refine (truncRound_spec (d := d) hrm hhw (by omega)).mono ?_
  intro q hq
  refine ⟨fun _ => ?_, fun h => by omega⟩
  rw [hden, hr] at hq
  have hp1R := R.ps_succ
  refine R.isRNEu_of_stk ((Stk.exact (2 ^ F.s + m)).shr sh) (k := d) (E := 1) (by omega) (le_refl _) (by omega)
    (Or.inr rfl) ?_ ?_ ?_
  · rw [Nat.sub_self, Nat.zero_mul, Nat.zero_add]; omega
  · push_cast
    rw [pow_zero, mul_one, pow_add]
    have : bd = (E - 1) + sh := by omega
    rw [this, pow_add]
    field_simp
  · rw [Nat.sub_self, Nat.zero_mul, Nat.zero_add]; exact hq

theorem trunc_of {F R : Fmt} (hW : Wider R F) {a : BitVec F.w} {P : Nat → Prop}
    (h : Ok (truncAbs F R a) (fun r => r.toNat < 2 ^ (R.e + R.s) ∧ P r.toNat)) :
    Ok (trunc F R a) (fun r => R.sign r = F.sign a ∧ P (R.mag r)) := by
  have hwF : F.w = F.e + F.s + 1 := rfl
  have hwR : R.w = R.e + R.s + 1 := rfl
  have hWe := hW.he; have hWs := hW.hs
  unfold trunc
  refine Ok.bind h ?_
  rintro r ⟨hr, hP⟩
  have hsm := F.toNat_and_signMask a
  refine Ok.bind (nsubC_spec (by omega)) ?_
  rintro _ rfl
  have hpp : 2 ^ (F.e + F.s) = 2 ^ (R.e + R.s) * 2 ^ (F.w - R.w) := by
    rw [← Nat.pow_add]; congr 1; omega
  have hlt : 2 ^ (R.e + R.s) < 2 ^ R.w := Nat.pow_lt_pow_right (by omega) (by omega)
  have hs' : (wshr (a &&& F.signMask) (F.w - R.w)).toNat = if F.sign a then 2 ^ (R.e + R.s) else 0 := by
    unfold wshr
    rw [BitVec.toNat_ushiftRight, hsm, Nat.mod_eq_of_lt (by omega), Nat.shiftRight_eq_div_pow]
    split
    · rw [hpp, Nat.mul_div_cancel _ (Nat.two_pow_pos _)]
    · simp
  refine Ok.bind (castC_spec (by rw [hs']; split <;> omega)) ?_
  intro s hs
  rw [hs'] at hs
  refine Ok.pure' ?_
  have := R.sign_mag_of (b := r ||| s) hr (R.toNat_or_sign' hr hs)
  rw [this.1, this.2]
  exact ⟨rfl, hP⟩

theorem ulp0_ratio {F R : Fmt} (hW : Wider R F) :
    F.ulp0 ℚ = R.ulp0 ℚ / 2 ^ (F.bias - R.bias + (F.s - R.s)) := by
  have h1 := hW.bias; have h2 := hW.hs
  unfold ulp0
  rw [eq_div_iff (by positivity), ← zpow_natCast, ← zpow_add₀ (by norm_num)]
  congr 1
  rw [Nat.cast_add, Nat.cast_sub (by omega), Nat.cast_sub (by omega)]
  ring

/-- finite or infinite operand -/
theorem trunc_num {F R : Fmt} (hW : Wider R F) {a : BitVec F.w} (ha : ¬ F.IsNaN a) :
    Ok (trunc F R a) (fun r => R.sign r = F.sign a ∧
      R.IsRNEu ((F.valU (F.mag a) : ℚ) / 2 ^ (F.bias - R.bias + (F.s - R.s))) (R.mag r)) := by
  refine trunc_of hW ((truncAbs_spec hW a).mono ?_)
  rintro r ⟨h1, _⟩
  have h := h1 (by unfold IsNaN at ha; omega)
  exact ⟨lt_of_le_of_lt h.1 R.infRep_lt, h⟩

theorem trunc_fin {F R : Fmt} (hW : Wider R F) {a : BitVec F.w} (ha : F.IsFin a) :
    Ok (trunc F R a) (fun r => R.sign r = F.sign a ∧ R.Rounds (F.val a) r) := by
  refine (trunc_num hW (by unfold IsNaN; unfold IsFin at ha; omega)).mono ?_
  rintro r ⟨h1, h2⟩
  refine ⟨h1, R.rounds_of (t := F.sign a) (by positivity) ?_ (fun _ => h1) h2⟩
  rw [val, F.valK_eq, ulp0_ratio hW]
  field_simp

theorem trunc_inf {F R : Fmt} (hW : Wider R F) {a : BitVec F.w} (ha : F.IsInf a) :
    Ok (trunc F R a) (fun r => R.sign r = F.sign a ∧ R.IsInf r) := by
  have ha' : F.mag a = F.infRep := ha
  refine (trunc_num hW (by unfold IsNaN; omega)).mono ?_
  rintro r ⟨h1, h2⟩
  refine ⟨h1, ?_⟩
  refine IsRNEu.unique R h2 (R.isRNEu_overflow ?_)
  have hb := hW.bias; have hs := hW.hs
  have hRpe := R.pe_bias; have hFpe := F.pe_bias
  rw [ha', F.valU_infRep, R.valU_infRep, le_div_iff₀ (by positivity)]
  have : 2 ^ R.s * 2 ^ (2 ^ R.e - 2) * 2 ^ (F.bias - R.bias + (F.s - R.s)) ≤ 2 ^ F.s * 2 ^ (2 ^ F.e - 2) := by
    rw [← Nat.pow_add, ← Nat.pow_add, ← Nat.pow_add]
    exact two_pow_le (by omega)
  exact_mod_cast this

theorem trunc_nan {F R : Fmt} (hW : Wider R F) {a : BitVec F.w} (ha : F.IsNaN a) :
    Ok (trunc F R a) (fun r => R.sign r = F.sign a ∧ R.IsQNaN r) := by
  have hinf := R.infRep_add
  have hpes := R.pes
  have hs := R.hs
  have h0 := Nat.two_pow_pos (R.s - 1)
  have h2 : 2 ^ R.s = 2 * 2 ^ (R.s - 1) := by rw [← Nat.pow_succ']; congr 1; omega
  refine (trunc_of hW (P := fun n => R.infRep + 2 ^ (R.s - 1) ≤ n ∧ n < R.infRep + 2 ^ R.s)
    ((truncAbs_spec hW a).mono ?_)).mono ?_
  · rintro r ⟨_, h1⟩
    have h := h1 ha
    exact ⟨by omega, h⟩
  · rintro r ⟨h1, h3, h4⟩
    refine ⟨h1, by unfold IsNaN; omega, ?_⟩
    -- the quiet bit
    have hm : R.mag r / 2 ^ (R.s - 1) % 2 = 1 := by
      have e : R.mag r = (R.mag r - R.infRep - 2 ^ (R.s - 1)) + (2 * (2 ^ R.e - 1) + 1) * 2 ^ (R.s - 1) := by
        have : (2 * (2 ^ R.e - 1) + 1) * 2 ^ (R.s - 1) = R.infRep + 2 ^ (R.s - 1) := by
          unfold infRep; rw [h2]; ring
        omega
      rw [e, Nat.add_mul_div_right _ _ h0, Nat.div_eq_of_lt (by omega)]
      omega
    have hb : r.getLsbD (R.s - 1) = (R.mag r).testBit (R.s - 1) := by
      unfold mag
      rw [Nat.testBit_mod_two_pow, BitVec.testBit_toNat]
      simp; omega
    rw [hb, Nat.testBit_eq_decide_div_mod_eq, hm]; rfl

/-! ### Round trip -/

theorem trunc_extend {F R : Fmt} (hW : Wider F R) {a : BitVec F.w} (ha : ¬ F.IsNaN a) :
    ∃ b, extend F R a = .ok b ∧ trunc R F b = .ok a := by
  have ha' : F.mag a ≤ F.infRep := by unfold IsNaN at ha; omega
  rcases Nat.lt_or_eq_of_le ha' with hlt | heq
  · obtain ⟨b, hb, hfin, hsb, hv⟩ := extend_fin hW (a := a) hlt
    refine ⟨b, hb, ?_⟩
    obtain ⟨r, hr, hsr, hrd⟩ := trunc_fin hW hfin
    rw [hr]
    congr 1
    rw [hv] at hrd
    have h2 := F.rounds_self (K := ℚ) (b := a) ha'
    exact F.ext_sign_mag (hsr.trans hsb) (IsRNE.unique F hrd.1 h2.1)
  · obtain ⟨b, hb, hsb, hm⟩ := extend_special hW (a := a) (by omega)
    refine ⟨b, hb, ?_⟩
    rw [heq, Nat.sub_self, Nat.zero_mul, Nat.add_zero] at hm
    obtain ⟨r, hr, hsr, hri⟩ := trunc_inf hW (a := b) hm
    rw [hr]
    congr 1
    exact F.ext_sign_mag (hsr.trans hsb) (by rw [heq]; exact hri)

end Fmt
end Verif
