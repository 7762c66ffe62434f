import Verif.Int.DivProofs
/-! Correctness of `impl_binary_long`. -/
namespace Verif

theorem binaryLongLoop_spec {w} (d s : Nat) (dv : BitVec w) (hdv : dv.toNat + 1 = d * 2 ^ s)
    (hD : d * 2 ^ s ≤ 2 ^ (w - 1)) (hw : 0 < w) :
    ∀ (i j ρ q : Nat) (duo : BitVec w), i + j = s → duo.toNat = 2 ^ j * ρ + q → q < 2 ^ j →
      ρ < d * 2 ^ i →
      ∃ ρ' q', (binaryLongLoop dv i duo).toNat = 2 ^ s * ρ' + q' ∧ q' < 2 ^ s ∧ ρ' < d ∧
        ρ + q * 2 ^ i * d = ρ' + q' * d := by
  have e2 : 2 ^ w = 2 ^ (w - 1) + 2 ^ (w - 1) := by
    obtain ⟨m, rfl⟩ : ∃ m, w = m + 1 := ⟨w - 1, by omega⟩
    simp [Nat.pow_succ]; omega
  intro i
  induction i with
  | zero =>
    intro j ρ q duo hij hduo hq hρ
    refine ⟨ρ, q, ?_, ?_, ?_, ?_⟩
    · rw [← hij]; simpa [binaryLongLoop] using hduo
    · rw [← hij]; simpa using hq
    · simpa using hρ
    · simp
  | succ i ih =>
    intro j ρ q duo hij hduo hq hρ
    obtain ⟨e, he⟩ : ∃ e, d * 2 ^ i = e := ⟨_, rfl⟩
    have hDe : d * 2 ^ s = 2 * (2 ^ j * e) := by
      rw [← hij, ← he, show i + 1 + j = i + j + 1 by omega, Nat.pow_succ, Nat.pow_add]; ring
    have hρ' : ρ < 2 * e := by rw [← he]; rw [Nat.pow_succ] at hρ; calc ρ < _ := hρ
                                _ = _ := by ring
    have hp : 2 ^ (j + 1) = 2 * 2 ^ j := by ring
    have hlt : 2 ^ j * ρ + q < 2 * (2 ^ j * e) := by
      calc 2 ^ j * ρ + q < 2 ^ j * ρ + 2 ^ j := by omega
        _ = 2 ^ j * (ρ + 1) := by ring
        _ ≤ 2 ^ j * (2 * e) := Nat.mul_le_mul_left _ (by omega)
        _ = _ := by ring
    have hsh : (duo <<< 1).toNat = 2 * duo.toNat := by
      rw [BitVec.toNat_shiftLeft, Nat.shiftLeft_eq, Nat.mod_eq_of_lt (by omega)]; omega
    unfold binaryLongLoop
    simp only []
    by_cases hc : e ≤ ρ
    · obtain ⟨r, rfl⟩ : ∃ r, ρ = e + r := ⟨ρ - e, by omega⟩
      have hb : 2 * duo.toNat = 2 * (2 ^ j * e) + (2 * (2 ^ j * r) + 2 * q) := by rw [hduo]; ring
      have hle : dv.toNat ≤ (duo <<< 1).toNat := by rw [hsh]; omega
      have hbr : 2 ^ j * r + q < 2 ^ j * e := by
        calc 2 ^ j * r + q < 2 ^ j * r + 2 ^ j := by omega
          _ = 2 ^ j * (r + 1) := by ring
          _ ≤ 2 ^ j * e := Nat.mul_le_mul_left _ (by omega)
      have hmsb : (duo <<< 1 - dv).msb = false := sub_msb_of_le hle (by rw [hsh]; omega)
      have hval : (duo <<< 1 - dv).toNat = 2 ^ (j + 1) * r + (2 * q + 1) := by
        rw [BitVec.toNat_sub_of_le hle, hsh, hp, Nat.mul_assoc]; omega
      rw [sshiftRight_sign, hmsb]
      simp only [Bool.false_eq_true, if_false, BitVec.and_zero, BitVec.add_zero]
      obtain ⟨ρ', q', h1, h2, h3, h4⟩ := ih (j + 1) r (2 * q + 1) _ (by omega) hval (by omega) (by omega)
      refine ⟨ρ', q', h1, h2, h3, ?_⟩
      rw [← h4, ← he]; ring
    · have hbr : 2 ^ j * ρ + q < 2 ^ j * e := by
        calc 2 ^ j * ρ + q < 2 ^ j * ρ + 2 ^ j := by omega
          _ = 2 ^ j * (ρ + 1) := by ring
          _ ≤ 2 ^ j * e := Nat.mul_le_mul_left _ (by omega)
      have hlt : (duo <<< 1).toNat < dv.toNat := by rw [hsh]; omega
      have hmsb : (duo <<< 1 - dv).msb = true := sub_msb_of_lt hlt (by rw [hsh]; omega)
      rw [sshiftRight_sign, hmsb]
      simp only [if_true, BitVec.and_allOnes, BitVec.sub_add_cancel]
      have hval : (duo <<< 1).toNat = 2 ^ (j + 1) * ρ + 2 * q := by rw [hsh, hduo]; ring
      obtain ⟨ρ', q', h1, h2, h3, h4⟩ := ih (j + 1) ρ (2 * q) _ (by omega) hval (by omega) (by omega)
      refine ⟨ρ', q', h1, h2, h3, ?_⟩
      rw [← h4]; ring

theorem toNat_one_of_pos {w} (hw : 0 < w) : (1#w).toNat = 1 := by
  have : 1 < 2 ^ w := Nat.one_lt_two_pow (by omega)
  simp [Nat.mod_eq_of_lt this]

/-- The tail of the algorithm: loop and unpacking. -/
theorem binaryLong_tail {w} (hw : 0 < w) (d s Q : Nat) (hd : d ≠ 0) (div duo mask quo : BitVec w)
    (hdiv : div.toNat = d * 2 ^ s) (hD : d * 2 ^ s ≤ 2 ^ (w - 1)) (hduo : duo.toNat < d * 2 ^ s)
    (hmask : mask.toNat = 2 ^ s - 1) (hquo : quo.toNat = Q * 2 ^ s) (hsw : s < w) :
    Ok (do
      let duo := binaryLongLoop (div - 1#w) s duo
      let rem ← shrC duo s
      pure ((duo &&& mask) ||| quo, rem))
    (fun r => r.1.toNat * d + r.2.toNat = quo.toNat * d + duo.toNat ∧ r.2.toNat < d) := by
  have h1w := toNat_one_of_pos hw
  have hDpos : 0 < d * 2 ^ s := Nat.mul_pos (by omega) (Nat.two_pow_pos _)
  have hdv : (div - 1#w).toNat + 1 = d * 2 ^ s := by
    rw [BitVec.toNat_sub_of_le (BitVec.le_def.2 (by rw [h1w, hdiv]; omega)), h1w, hdiv]; omega
  obtain ⟨ρ', q', h1, h2, h3, h4⟩ := binaryLongLoop_spec d s _ hdv hD hw s 0 duo.toNat 0 duo rfl
    (by simp) (by simp) hduo
  simp only []
  refine Ok.bind (shrC_spec hsw) ?_
  intro rem hrem
  apply Ok.pure'
  have hp := Nat.two_pow_pos s
  have hr : rem.toNat = ρ' := by
    rw [hrem, h1, Nat.mul_add_div hp, Nat.div_eq_of_lt h2, Nat.add_zero]
  have hq : ((binaryLongLoop (div - 1#w) s duo &&& mask) ||| quo).toNat = q' + Q * 2 ^ s := by
    rw [BitVec.toNat_or, BitVec.toNat_and, hmask, Nat.and_two_pow_sub_one_eq_mod, h1, Nat.mul_add_mod,
      Nat.mod_eq_of_lt h2, hquo]
    exact or_eq_add h2 (Nat.dvd_mul_left _ _)
  simp only [hq, hr, hquo]
  refine ⟨?_, h3⟩
  rw [Nat.zero_mul, Nat.zero_mul, Nat.add_zero] at h4
  rw [h4]; ring

theorem binaryLong_spec {w k : Nat} (hwk : w = 2 ^ (k + 1)) (useLz : Bool) :
    IsDivRem (binaryLong (w := w) useLz) := by
  intro duo div hd
  have hw : 0 < w := by rw [hwk]; exact Nat.two_pow_pos _
  have e2 : 2 ^ w = 2 ^ (w - 1) + 2 ^ (w - 1) := by
    obtain ⟨m, rfl⟩ : ∃ m, w = m + 1 := ⟨w - 1, by omega⟩
    simp [Nat.pow_succ]; omega
  have h1w := toNat_one_of_pos hw
  suffices h : Ok (binaryLong useLz duo div)
      (fun r => r.1.toNat * div.toNat + r.2.toNat = duo.toNat ∧ r.2.toNat < div.toNat) from
    Ok.mono h (fun r hr => divRem_of hr.1 hr.2)
  unfold binaryLong
  simp only [toNat_ne_zero hd, if_false]
  split
  · rename_i h
    exact Ok.pure' ⟨by simp, h⟩
  · rename_i hle
    have hle : div.toNat ≤ duo.toNat := by omega
    refine Ok.bind (normShift_full hwk useLz duo div hd hle) ?_
    intro shl ⟨hs1, hs2⟩
    have hsw : shl < w := lt_of_mul_pow_lt hd hs1 duo.isLt
    refine Ok.bind (shlC_spec hsw) ?_
    intro dv hdv
    rw [Nat.mod_eq_of_lt (by have := duo.isLt; omega)] at hdv
    refine Ok.bind (shlC_spec hsw) ?_
    intro quo hquo
    rw [h1w, Nat.one_mul, Nat.mod_eq_of_lt (Nat.pow_lt_pow_right (by omega) hsw)] at hquo
    have hsub : (duo - dv).toNat = duo.toNat - dv.toNat := BitVec.toNat_sub_of_le (BitVec.le_def.2 (by omega))
    have hs2' : duo.toNat < 2 * dv.toNat := by rw [hdv]; rw [Nat.pow_succ] at hs2; linarith
    have hs1' : dv.toNat ≤ duo.toNat := by omega
    have hprod : quo.toNat * div.toNat = dv.toNat := by rw [hquo, hdv]; ring
    split
    · rename_i h
      apply Ok.pure'
      refine ⟨?_, h⟩
      simp only [hprod, hsub]; omega
    · rename_i hge
      split
      · rename_i hmsb
        rw [BitVec.msb_eq_decide, decide_eq_true_eq] at hmsb
        have hs0 : shl ≠ 0 := by
          rintro rfl
          simp at hdv; omega
        obtain ⟨s, rfl⟩ : ∃ s, shl = s + 1 := ⟨shl - 1, by omega⟩
        refine Ok.bind (shrC_spec (by omega)) ?_
        intro dv2 hdv2
        have hdd : dv.toNat = 2 * (div.toNat * 2 ^ s) := by rw [hdv]; ring
        have hdv2 : dv2.toNat = div.toNat * 2 ^ s := by rw [hdv2, hdd]; omega
        refine Ok.bind (nsubC_spec (by omega)) ?_
        intro s' hs'
        rw [Nat.add_sub_cancel] at hs'
        rw [hs']
        refine Ok.bind (shlC_spec (by omega)) ?_
        intro tmp htmp
        rw [h1w, Nat.one_mul, Nat.mod_eq_of_lt (Nat.pow_lt_pow_right (by omega) (by omega))] at htmp
        have hp := Nat.two_pow_pos s
        refine Ok.bind (subC_spec (by rw [h1w, htmp]; omega)) ?_
        intro mask hmask
        rw [h1w, htmp] at hmask
        have hdvlt := dv.isLt
        have hD : div.toNat * 2 ^ s ≤ 2 ^ (w - 1) := by omega
        have hor : (quo ||| tmp).toNat = 3 * 2 ^ s := by
          rw [BitVec.toNat_or, hquo, htmp, or_eq_add' (k := s + 1) (by rw [Nat.pow_succ]; omega) (Nat.dvd_refl _)]
          ring
        by_cases hc : dv2.toNat ≤ (duo - dv).toNat
        · have hm : (duo - dv - dv2).msb = false := sub_msb_of_le hc (by omega)
          have hv : (duo - dv - dv2).toNat = (duo - dv).toNat - dv2.toNat := BitVec.toNat_sub_of_le hc
          simp only [hm, Bool.false_eq_true, if_false]
          split
          · rename_i h
            apply Ok.pure'
            refine ⟨?_, h⟩
            simp only [hor]
            have : 3 * 2 ^ s * div.toNat = 3 * (div.toNat * 2 ^ s) := by ring
            omega
          · rename_i h
            refine Ok.mono (binaryLong_tail hw div.toNat s 3 hd dv2 (duo - dv - dv2) mask (quo ||| tmp) hdv2 hD
              (by omega) hmask hor (by omega)) ?_
            rintro r ⟨hr1, hr2⟩
            refine ⟨?_, hr2⟩
            rw [hr1, hor]
            have : 3 * 2 ^ s * div.toNat = 3 * (div.toNat * 2 ^ s) := by ring
            omega
        · have hm : (duo - dv - dv2).msb = true := sub_msb_of_lt (by omega) (by omega)
          simp only [hm, if_true]
          split
          · rename_i h
            apply Ok.pure'
            refine ⟨?_, h⟩
            simp only [hprod]; omega
          · rename_i h
            refine Ok.mono (binaryLong_tail hw div.toNat s 2 hd dv2 (duo - dv) mask quo hdv2 hD
              (by omega) hmask (by rw [hquo]; ring) (by omega)) ?_
            rintro r ⟨hr1, hr2⟩
            refine ⟨?_, hr2⟩
            rw [hr1, hprod]
            omega
      · rename_i hmsb
        rw [BitVec.msb_eq_decide, decide_eq_true_eq] at hmsb
        have hp := Nat.two_pow_pos shl
        refine Ok.bind (subC_spec (by rw [h1w, hquo]; omega)) ?_
        intro mask hmask
        rw [h1w, hquo] at hmask
        refine Ok.mono (binaryLong_tail hw div.toNat shl 1 hd dv (duo - dv) mask quo hdv (by omega)
          (by omega) hmask (by rw [hquo]; ring) hsw) ?_
        rintro r ⟨hr1, hr2⟩
        refine ⟨?_, hr2⟩
        rw [hr1, hprod]
        omega

end Verif
