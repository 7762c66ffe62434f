import Verif.Int.DelegateProofs
/-! Correctness of `impl_asymmetric`. -/
namespace Verif

set_option linter.unusedSimpArgs false

theorem asymDiv_spec {n} (duo : BitVec (2 * n)) (div : BitVec n) (hd : div.toNat ≠ 0)
    (hlt : duo.toNat / 2 ^ n < div.toNat) :
    Ok (asymDiv duo div) (fun r => r.1.toNat = duo.toNat / div.toNat ∧ r.2.toNat = duo.toNat % div.toNat) := by
  have h1 : duo.toNat / div.toNat < 2 ^ n := by
    rw [Nat.div_lt_iff_lt_mul (by omega)]
    rw [Nat.div_lt_iff_lt_mul (Nat.two_pow_pos _)] at hlt
    rwa [Nat.mul_comm (2 ^ n)]
  have h2 : ¬ (2 ^ n ≤ duo.toNat / div.toNat) := by omega
  refine ⟨(BitVec.ofNat n (duo.toNat / div.toNat), BitVec.ofNat n (duo.toNat % div.toNat)),
    by simp only [asymDiv, toNat_ne_zero hd, if_false, h2], ?_⟩
  have h3 := Nat.mod_lt duo.toNat (Nat.pos_of_ne_zero hd)
  have h4 := div.isLt
  simp only [BitVec.toNat_ofNat]
  exact ⟨Nat.mod_eq_of_lt h1, Nat.mod_eq_of_lt (by omega)⟩

theorem eqn_of {D d q r : Nat} (hd : d ≠ 0) (h1 : q = D / d) (h2 : r = D % d) :
    q * d + r = D ∧ r < d := by
  subst h1 h2
  exact ⟨by rw [Nat.mul_comm]; exact Nat.div_add_mod _ _, Nat.mod_lt _ (by omega)⟩

/-- The quotient estimate from the leading bits of the divisor is too large by at most one. -/
theorem asym_arith {n e u v D d : Nat} (he : 1 ≤ e) (hen : e ≤ n) (hD : D < 2 ^ (2 * n))
    (hd : 2 ^ (n + e - 1) ≤ d) (hv : v = d / 2 ^ e) (hu : u = D / 2 / v / 2 ^ (e - 1)) :
    D / d ≤ u ∧ u * d ≤ D + d := by
  have hpe := Nat.two_pow_pos e
  have e1 : 2 * 2 ^ (e - 1) = 2 ^ e := by rw [← two_pow_half (by omega)]
  have hu' : u = D / (v * 2 ^ e) := by
    rw [hu, Nat.div_div_eq_div_mul, Nat.div_div_eq_div_mul, ← e1]; congr 1; ring
  have hv1 : 2 ^ (n - 1) ≤ v := by
    rw [hv, Nat.le_div_iff_mul_le hpe, ← Nat.pow_add]
    calc _ = 2 ^ (n + e - 1) := by congr 1; omega
      _ ≤ d := hd
  have hvp : 0 < v := Nat.lt_of_lt_of_le (Nat.two_pow_pos _) hv1
  have hve : 0 < v * 2 ^ e := Nat.mul_pos hvp hpe
  have hvd : v * 2 ^ e ≤ d := by rw [hv]; exact Nat.div_mul_le_self _ _
  obtain ⟨t, ht⟩ : ∃ t, d = v * 2 ^ e + t := ⟨d - v * 2 ^ e, by omega⟩
  have htlt : t < 2 ^ e := by
    have := Nat.mod_add_div d (2 ^ e)
    have h2 := Nat.mod_lt d hpe
    rw [← hv] at this
    have : 2 ^ e * v = v * 2 ^ e := by ring
    omega
  constructor
  · rw [hu']; exact Nat.div_le_div_left hvd hve
  · have h1 : u * (v * 2 ^ e) ≤ D := by rw [hu']; exact Nat.div_mul_le_self _ _
    have h2 : u * t ≤ d := by
      have hu2 : u < 2 ^ (n + 1 - e) := by
        rw [hu', Nat.div_lt_iff_lt_mul hve]
        calc D < 2 ^ (2 * n) := hD
          _ = 2 ^ (n + 1 - e) * (2 ^ (n - 1) * 2 ^ e) := by
            rw [← Nat.pow_add, ← Nat.pow_add]; congr 1; omega
          _ ≤ _ := Nat.mul_le_mul_left _ (Nat.mul_le_mul_right _ hv1)
      rcases Nat.eq_or_lt_of_le he with rfl | h2
      · have : t ≤ 1 := by omega
        calc u * t ≤ u * 1 := Nat.mul_le_mul_left _ this
          _ ≤ d := by
            have : 2 ^ (n + 1 - 1) = 2 ^ n := by congr 1
            omega
      · calc u * t ≤ 2 ^ (n + 1 - e) * 2 ^ e := Nat.mul_le_mul (by omega) (by omega)
          _ = 2 ^ (n + 1) := by rw [← Nat.pow_add]; congr 1; omega
          _ ≤ 2 ^ (n + e - 1) := Nat.pow_le_pow_right (by omega) (by omega)
          _ ≤ d := hd
    calc u * d = u * (v * 2 ^ e) + u * t := by rw [ht]; ring
      _ ≤ _ := by omega

theorem asymmetric_spec {n} (hn : 0 < n) {half : DivRem n} (hh : IsDivRem half) :
    IsDivRem (asymmetric half) := by
  intro duo div hd
  have h1w : (1#n).toNat = 1 := by
    have : 1 < 2 ^ n := Nat.one_lt_two_pow (by omega)
    simp [Nat.mod_eq_of_lt this]
  have hN := two_pow_two_mul n
  have hp := Nat.two_pow_pos n
  have hduo := lo_add_hi duo
  have hdiv := lo_add_hi div
  suffices h : Ok (asymmetric half duo div)
      (fun r => r.1.toNat * div.toNat + r.2.toNat = duo.toNat ∧ r.2.toNat < div.toNat) from
    Ok.mono h (fun r hr => divRem_of hr.1 hr.2)
  unfold asymmetric
  simp only []
  by_cases hdh : hi div = 0#n
  · simp only [hdh, if_true]
    have hdl : (lo div).toNat = div.toNat := by
      rw [← hdiv, hdh]; simp
    have hdl0 : (lo div).toNat ≠ 0 := by omega
    simp only [toNat_ne_zero hdl0, if_false]
    split
    · rename_i hlt
      rw [toNat_hi] at hlt
      refine Ok.bind (asymDiv_spec duo (lo div) hdl0 hlt) ?_
      rintro ⟨a, b⟩ ⟨h1, h2⟩
      apply Ok.pure'
      simp only [toNat_zeroWiden] at *
      rw [hdl] at h1 h2
      exact eqn_of hd h1 h2
    · rename_i hge
      refine Ok.bind (hh.eqn _ _ hdl0) ?_
      rintro ⟨quoHi, r⟩ ⟨h1, h2⟩
      simp only at h1 h2 ⊢
      refine Ok.bind (shlC_spec (by omega)) ?_
      intro rh hrh
      have hrlt : r.toNat * 2 ^ n < 2 ^ (2 * n) := by
        rw [hN]; exact Nat.mul_lt_mul_of_pos_right r.isLt hp
      rw [toNat_zeroWiden, Nat.mod_eq_of_lt hrlt] at hrh
      have hmid : (zeroWiden (lo duo) ||| rh).toNat = (lo duo).toNat + r.toNat * 2 ^ n := by
        rw [BitVec.toNat_or, toNat_zeroWiden, hrh]
        exact or_eq_add (lo duo).isLt (Nat.dvd_mul_left _ _)
      have hq : (zeroWiden (lo duo) ||| rh).toNat / 2 ^ n < (lo div).toNat := by
        rw [hmid, Nat.add_mul_div_right _ _ hp, Nat.div_eq_of_lt (lo duo).isLt]; omega
      refine Ok.bind (asymDiv_spec _ (lo div) hdl0 hq) ?_
      rintro ⟨a, b⟩ ⟨g1, g2⟩
      refine Ok.bind (shlC_spec (by omega)) ?_
      intro qh hqh
      have hqlt : quoHi.toNat * 2 ^ n < 2 ^ (2 * n) := by
        rw [hN]; exact Nat.mul_lt_mul_of_pos_right quoHi.isLt hp
      rw [toNat_zeroWiden, Nat.mod_eq_of_lt hqlt] at hqh
      apply Ok.pure'
      simp only [BitVec.toNat_or, toNat_zeroWiden] at g1 g2 ⊢
      rw [← toNat_zeroWiden (lo duo), ← BitVec.toNat_or, hmid] at g1 g2
      rw [hqh, or_eq_add a.isLt (Nat.dvd_mul_left _ _)]
      have := eqn_of hdl0 g1 g2
      rw [hdl] at this
      refine ⟨?_, this.2⟩
      rw [Nat.add_mul]
      have e : quoHi.toNat * 2 ^ n * div.toNat = quoHi.toNat * div.toNat * 2 ^ n := by ring
      rw [hdl] at h1
      have e2 : 2 ^ n * (hi duo).toNat = quoHi.toNat * div.toNat * 2 ^ n + r.toNat * 2 ^ n := by
        rw [← h1]; ring
      omega
  · simp only [hdh, if_false]
    have hdh0 := ne_zero_toNat hdh
    have hbl := bitLen_le_width (hi div)
    have hbp := bitLen_pos hdh0
    obtain ⟨e, he⟩ : ∃ e, bitLen (hi div).toNat = e := ⟨_, rfl⟩
    have hlz : nlz (hi div) = n - e := by rw [nlz, he]
    rw [hlz]
    refine Ok.bind (nsubC_spec (by omega)) ?_
    intro ex hex
    have hex : ex = e := by omega
    rw [hex]
    refine Ok.bind (shrC_spec (by omega)) ?_
    intro ds hds
    have hdlo : 2 ^ (n + e - 1) ≤ div.toNat := by
      have h3 := two_pow_le_of_bitLen hdh0
      calc 2 ^ (n + e - 1) = 2 ^ n * 2 ^ (e - 1) := by rw [← Nat.pow_add]; congr 1; omega
        _ ≤ 2 ^ n * (hi div).toNat := Nat.mul_le_mul_left _ (by rw [← he]; exact h3)
        _ ≤ _ := by omega
    have hdup : div.toNat < 2 ^ (n + e) := by
      have h3 := lt_two_pow_bitLen (hi div).toNat
      rw [he] at h3
      have h4 : 2 ^ n * ((hi div).toNat + 1) ≤ 2 ^ n * 2 ^ e := Nat.mul_le_mul_left _ h3
      have h5 := (lo div).isLt
      rw [Nat.pow_add]; rw [Nat.mul_add] at h4; omega
    have hdslt : div.toNat / 2 ^ e < 2 ^ n := by
      rw [Nat.div_lt_iff_lt_mul (Nat.two_pow_pos _), ← Nat.pow_add]; exact hdup
    have hds' : (lo ds).toNat = div.toNat / 2 ^ e := by
      rw [toNat_lo, hds, Nat.mod_eq_of_lt hdslt]
    have hdsge : 2 ^ (n - 1) ≤ (lo ds).toNat := by
      rw [hds', Nat.le_div_iff_mul_le (Nat.two_pow_pos _), ← Nat.pow_add]
      calc _ = 2 ^ (n + e - 1) := by congr 1; omega
        _ ≤ _ := hdlo
    have hpn := Nat.two_pow_pos (n - 1)
    have e2 := two_pow_half hn
    refine Ok.bind (shrC_spec (by omega)) ?_
    intro u1 hu1
    have hfit : u1.toNat / 2 ^ n < (lo ds).toNat := by
      refine Nat.lt_of_lt_of_le ?_ hdsge
      rw [Nat.div_lt_iff_lt_mul hp, hu1, ← Nat.pow_add]
      have h3 := duo.isLt
      have h4 := two_pow_half (w := 2 * n) (by omega)
      rw [show n - 1 + n = 2 * n - 1 by omega]
      omega
    refine Ok.bind (asymDiv_spec u1 (lo ds) (by omega) hfit) ?_
    rintro ⟨t, t'⟩ ⟨ht, -⟩
    simp only at ht ⊢
    refine Ok.bind (nsubC_spec (by omega)) ?_
    intro sh hsh
    have hsh : sh = e - 1 := by omega
    rw [hsh]
    refine Ok.bind (shrC_spec (by omega)) ?_
    intro u hu
    rw [ht, hu1, Nat.pow_one] at hu
    obtain ⟨hA, hB⟩ := asym_arith (n := n) (e := e) (by omega) (by omega) duo.isLt hdlo hds' hu
    have hdp : 0 < div.toNat := by omega
    have hdm := Nat.div_add_mod duo.toNat div.toNat
    have hml := Nat.mod_lt duo.toNat hdp
    have hstep : Ok (if u ≠ 0#n then subC u 1#n else pure u)
        (fun x => x.toNat * div.toNat ≤ duo.toNat ∧ duo.toNat < (x.toNat + 2) * div.toNat) := by
      have h5 : duo.toNat < (u.toNat + 1) * div.toNat := by
        have h6 : duo.toNat / div.toNat * div.toNat ≤ u.toNat * div.toNat := Nat.mul_le_mul_right _ hA
        rw [Nat.mul_comm] at hdm
        rw [Nat.add_mul]; omega
      split
      · rename_i hu0
        have hu0 := ne_zero_toNat hu0
        refine Ok.mono (subC_spec (by omega)) ?_
        intro x hx
        have h7 : u.toNat = x.toNat + 1 := by omega
        rw [h7] at hB h5
        refine ⟨?_, ?_⟩
        · rw [Nat.add_mul] at hB; omega
        · exact h5
      · rename_i hu0
        have hu0 : u = 0#n := by simpa using hu0
        have : u.toNat = 0 := by rw [hu0]; simp
        apply Ok.pure'
        rw [this] at h5 ⊢
        constructor
        · omega
        · omega
    refine Ok.bind hstep ?_
    intro x ⟨hx1, hx2⟩
    have hxm : (zeroWiden x * div).toNat = x.toNat * div.toNat := by
      rw [BitVec.toNat_mul, toNat_zeroWiden, Nat.mod_eq_of_lt]
      have := duo.isLt; omega
    refine Ok.bind (subC_spec (by rw [hxm]; exact hx1)) ?_
    intro rem hrem
    rw [hxm] at hrem
    rw [Nat.add_mul] at hx2
    split
    · rename_i hle
      have hxlt : x.toNat + 1 < 2 ^ n := by
        by_contra hc
        have h6 : 2 ^ n * 2 ^ n ≤ (x.toNat + 1) * div.toNat := Nat.mul_le_mul (by omega) (by
          calc 2 ^ n ≤ 2 ^ (n + e - 1) := Nat.pow_le_pow_right (by omega) (by omega)
            _ ≤ _ := hdlo)
        rw [Nat.add_mul] at h6
        have := duo.isLt
        omega
      refine Ok.bind (addC_spec (by rw [h1w]; exact hxlt)) ?_
      intro x2 hx2'
      refine Ok.bind (subC_spec hle) ?_
      intro rem2 hrem2
      apply Ok.pure'
      simp only [toNat_zeroWiden, hx2', h1w, hrem2, hrem]
      rw [Nat.add_mul]
      constructor <;> omega
    · rename_i hle
      apply Ok.pure'
      simp only [toNat_zeroWiden]
      constructor <;> omega

end Verif
