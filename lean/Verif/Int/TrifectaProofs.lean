import Verif.Int.DelegateProofs
/-! Correctness of `impl_trifecta`. -/
namespace Verif

set_option linter.unusedSimpArgs false

/-- The product of a half-width and a full-width number, assembled from two half-width products. -/
theorem carrying_spec {n} (p : BitVec n) (div : BitVec (2 * n)) :
    (carryingMulAdd p (hi div) (carryingMul p (lo div)).2).2.toNat * 2 ^ (2 * n) +
      ((carryingMulAdd p (hi div) (carryingMul p (lo div)).2).1.toNat * 2 ^ n + (carryingMul p (lo div)).1.toNat)
      = p.toNat * div.toNat := by
  have hN := two_pow_two_mul n
  have hp := Nat.two_pow_pos n
  have hdiv := lo_add_hi div
  have e1 : (zeroWiden p * zeroWiden (lo div)).toNat = p.toNat * (lo div).toNat := toNat_zeroWidenMul p (lo div)
  obtain ⟨c, hc⟩ : ∃ c, hi (zeroWiden p * zeroWiden (lo div)) = c := ⟨_, rfl⟩
  have hle : p.toNat * (hi div).toNat + c.toNat < 2 ^ (2 * n) := by
    have h1 := p.isLt
    have h2 := (hi div).isLt
    have h3 := c.isLt
    rw [hN]
    obtain ⟨N, hN'⟩ : ∃ N, 2 ^ n = N := ⟨_, rfl⟩
    rw [hN'] at h1 h2 h3 ⊢
    have : p.toNat * (hi div).toNat ≤ (N - 1) * (N - 1) := Nat.mul_le_mul (by omega) (by omega)
    obtain ⟨m, rfl⟩ : ∃ m, N = m + 1 := ⟨N - 1, by omega⟩
    simp only [Nat.add_sub_cancel] at this
    have e : (m + 1) * (m + 1) = m * m + m + (m + 1) := by ring
    omega
  have e2 : (zeroWiden p * zeroWiden (hi div) + zeroWiden c).toNat = p.toNat * (hi div).toNat + c.toNat := by
    have := toNat_zeroWidenMul p (hi div)
    unfold zeroWidenMul at this
    rw [BitVec.toNat_add, this, toNat_zeroWiden, Nat.mod_eq_of_lt hle]
  simp only [carryingMul, carryingMulAdd, hc]
  have f1 := lo_add_hi (zeroWiden p * zeroWiden (lo div))
  have f2 := lo_add_hi (zeroWiden p * zeroWiden (hi div) + zeroWiden c)
  rw [e1, hc] at f1
  rw [e2] at f2
  rw [hN, ← hdiv]
  obtain ⟨a, ha⟩ : ∃ a, (lo (zeroWiden p * zeroWiden (lo div))).toNat = a := ⟨_, rfl⟩
  obtain ⟨b, hb⟩ : ∃ a, (lo (zeroWiden p * zeroWiden (hi div) + zeroWiden c)).toNat = a := ⟨_, rfl⟩
  obtain ⟨d, hd⟩ : ∃ a, (hi (zeroWiden p * zeroWiden (hi div) + zeroWiden c)).toNat = a := ⟨_, rfl⟩
  rw [ha] at f1 ⊢
  rw [hb, hd] at f2 ⊢
  calc d * (2 ^ n * 2 ^ n) + (b * 2 ^ n + a) = (b + 2 ^ n * d) * 2 ^ n + a := by ring
    _ = (p.toNat * (hi div).toNat + c.toNat) * 2 ^ n + a := by rw [f2]
    _ = p.toNat * (2 ^ n * (hi div).toNat) + (a + 2 ^ n * c.toNat) := by ring
    _ = _ := by rw [f1]; ring

/-- The two possibility estimate: too large by at most one. -/
theorem two_poss_arith {q s D d : Nat} (hD : D < 2 ^ (s + 2 * q)) (hv : 2 ^ q ≤ d / 2 ^ s) :
    D / d ≤ D / 2 ^ s / (d / 2 ^ s) ∧ D / 2 ^ s / (d / 2 ^ s) * d ≤ D + d ∧
      D / 2 ^ s / (d / 2 ^ s) < 2 ^ (2 * q) := by
  have hps := Nat.two_pow_pos s
  have hpq := Nat.two_pow_pos q
  obtain ⟨v, hv'⟩ : ∃ v, d / 2 ^ s = v := ⟨_, rfl⟩
  rw [hv'] at hv ⊢
  have hvd : v * 2 ^ s ≤ d := by rw [← hv']; exact Nat.div_mul_le_self _ _
  obtain ⟨t, ht⟩ : ∃ t, d = v * 2 ^ s + t := ⟨d - v * 2 ^ s, by omega⟩
  have htlt : t < 2 ^ s := by
    have h1 := Nat.mod_add_div d (2 ^ s)
    have h2 := Nat.mod_lt d hps
    rw [hv'] at h1
    have : 2 ^ s * v = v * 2 ^ s := by ring
    omega
  have e : D / 2 ^ s / v = D / (v * 2 ^ s) := by rw [Nat.div_div_eq_div_mul, Nat.mul_comm]
  rw [e]
  have hvp : 0 < v * 2 ^ s := Nat.mul_pos (by omega) hps
  have hu : D / (v * 2 ^ s) < 2 ^ q := by
    rw [Nat.div_lt_iff_lt_mul hvp]
    calc D < 2 ^ (s + 2 * q) := hD
      _ = 2 ^ q * (2 ^ q * 2 ^ s) := by rw [← Nat.pow_add, ← Nat.pow_add]; congr 1; omega
      _ ≤ _ := Nat.mul_le_mul_left _ (Nat.mul_le_mul_right _ hv)
  refine ⟨Nat.div_le_div_left hvd hvp, ?_, ?_⟩
  · have h1 : D / (v * 2 ^ s) * (v * 2 ^ s) ≤ D := Nat.div_mul_le_self _ _
    have h2 : D / (v * 2 ^ s) * t ≤ v * 2 ^ s := Nat.mul_le_mul (by omega) (by omega)
    calc D / (v * 2 ^ s) * d = D / (v * 2 ^ s) * (v * 2 ^ s) + D / (v * 2 ^ s) * t := by rw [ht]; ring
      _ ≤ _ := by omega
  · exact Nat.lt_of_lt_of_le hu (Nat.pow_le_pow_right (by omega) (by omega))

theorem bitLen_shift {d s k : Nat} (h : k + s < bitLen d) : 2 ^ k ≤ d / 2 ^ s := by
  rw [Nat.le_div_iff_mul_le (Nat.two_pow_pos _), ← Nat.pow_add]
  have hd : d ≠ 0 := by rintro rfl; simp [bitLen_zero] at h
  calc 2 ^ (k + s) ≤ 2 ^ (bitLen d - 1) := Nat.pow_le_pow_right (by omega) (by omega)
    _ ≤ d := two_pow_le_of_bitLen hd

theorem lo_shift {n} {x y : BitVec (2 * n)} {s : Nat} (hy : y.toNat = x.toNat / 2 ^ s)
    (h : bitLen x.toNat ≤ n + s) : (lo y).toNat = x.toNat / 2 ^ s := by
  rw [toNat_lo, hy, Nat.mod_eq_of_lt]
  rw [Nat.div_lt_iff_lt_mul (Nat.two_pow_pos _), ← Nat.pow_add]
  exact bitLen_le_iff.1 h

theorem add_sub_wrap {w} {a b c : BitVec w} {r : Nat} (h : a.toNat + b.toNat = c.toNat + r ∨
    a.toNat + b.toNat = 2 ^ w + c.toNat + r) (hr : r < 2 ^ w) : (a + b - c).toNat = r := by
  have hc := c.isLt
  rw [BitVec.toNat_sub, BitVec.toNat_add]
  have ha := a.isLt
  have hb := b.isLt
  generalize 2 ^ w = M at *
  have e1 : (a.toNat + b.toNat) % M = a.toNat + b.toNat ∧ a.toNat + b.toNat < M ∨
      (a.toNat + b.toNat) % M = a.toNat + b.toNat - M ∧ M ≤ a.toNat + b.toNat := by
    by_cases h : a.toNat + b.toNat < M
    · exact Or.inl ⟨Nat.mod_eq_of_lt h, h⟩
    · refine Or.inr ⟨?_, by omega⟩
      rw [Nat.mod_eq_sub_mod (by omega), Nat.mod_eq_of_lt (by omega)]
  rcases e1 with ⟨e1, e2⟩ | ⟨e1, e2⟩ <;> rw [e1] <;> rcases h with h | h
  · rw [show M - c.toNat + (a.toNat + b.toNat) = M + r by omega, Nat.add_mod_left, Nat.mod_eq_of_lt hr]
  · omega
  · rw [show M - c.toNat + (a.toNat + b.toNat - M) = r by omega, Nat.mod_eq_of_lt hr]
  · rw [show M - c.toNat + (a.toNat + b.toNat - M) = M + r by omega, Nat.add_mod_left, Nat.mod_eq_of_lt hr]

theorem assemble {n} (hn : 0 < n) (a b : BitVec n) :
    Ok (shlC (zeroWiden b) n) (fun th => (zeroWiden a ||| th).toNat = b.toNat * 2 ^ n + a.toNat) := by
  refine Ok.mono (shlC_spec (by omega)) ?_
  intro th hth
  have : b.toNat * 2 ^ n < 2 ^ (2 * n) := by
    rw [two_pow_two_mul]; exact Nat.mul_lt_mul_of_pos_right b.isLt (Nat.two_pow_pos _)
  rw [toNat_zeroWiden, Nat.mod_eq_of_lt this] at hth
  rw [BitVec.toNat_or, toNat_zeroWiden, hth, or_eq_add a.isLt (Nat.dvd_mul_left _ _)]; omega

/-- From the estimate to the exact answer. -/
theorem two_poss_finish {D d u : Nat} (hd : 0 < d) (h1 : D / d ≤ u) (h2 : u * d ≤ D + d) :
    (u * d ≤ D → D - u * d < d) ∧ (D < u * d → u ≠ 0 ∧ D + d - u * d < d) := by
  have hm := Nat.div_add_mod D d
  have hl := Nat.mod_lt D hd
  have h3 : D / d * d ≤ u * d := Nat.mul_le_mul_right _ h1
  rw [Nat.mul_comm] at hm
  refine ⟨fun h => by omega, fun h => ⟨?_, by omega⟩⟩
  rintro rfl
  simp at h

theorem trifectaTwoLoop_spec {q} (hq : 0 < q) {half : DivRem (2 * q)} (hh : IsDivRem half)
    (duo div quo : BitVec (2 * (2 * q))) (duoLz : Nat) (hlz : duoLz = nlz duo) (hd : div.toNat ≠ 0)
    (h1 : duoLz < 2 * q) (h2 : duoLz < nlz div) (h3 : nlz div < duoLz + q)
    (hov : duo.toNat + div.toNat < 2 ^ (2 * (2 * q)))
    (hquo : quo.toNat + duo.toNat / div.toNat < 2 ^ (2 * (2 * q))) :
    Ok (trifectaTwoLoop half duo div quo duoLz) (fun r =>
      r.1.toNat * div.toNat + r.2.toNat = quo.toNat * div.toNat + duo.toNat ∧ r.2.toNat < div.toNat) := by
  have h1w : (1#(2 * q)).toNat = 1 := by
    have : 1 < 2 ^ (2 * q) := Nat.one_lt_two_pow (by omega)
    simp [Nat.mod_eq_of_lt this]
  have hb1 := bitLen_le_width duo
  have hb2 := bitLen_le_width div
  simp only [nlz] at hlz h2 h3
  unfold trifectaTwoLoop
  simp only []
  refine Ok.bind (nsubC_spec (by omega)) ?_
  intro s hs
  have hsb : bitLen duo.toNat = 2 * q + s := by omega
  refine Ok.bind (shrC_spec (by omega)) ?_
  intro ds hds
  have hds := lo_shift hds (by omega)
  refine Ok.bind (shrC_spec (by omega)) ?_
  intro vs hvs
  have hvs := lo_shift hvs (by omega)
  have hvge : 2 ^ q ≤ div.toNat / 2 ^ s := bitLen_shift (by omega)
  have hpq := Nat.two_pow_pos q
  refine Ok.bind (hh _ _ (by omega)) ?_
  rintro ⟨p, p'⟩ ⟨hp, -⟩
  simp only at hp ⊢
  rw [hds, hvs] at hp
  have hDlt : duo.toNat < 2 ^ (s + 2 * q) := by
    have := lt_two_pow_bitLen duo.toNat
    rwa [hsb, Nat.add_comm] at this
  obtain ⟨t1, t2, -⟩ := two_poss_arith hDlt hvge
  rw [← hp] at t1 t2
  have hcar := carrying_spec p div
  have hprod : p.toNat * div.toNat < 2 ^ (2 * (2 * q)) := by omega
  have hc0 : (carryingMulAdd p (hi div) (carryingMul p (lo div)).2).2.toNat = 0 := by
    by_contra hc
    have := Nat.mul_le_mul_right (2 ^ (2 * (2 * q))) (Nat.pos_of_ne_zero hc)
    omega
  rw [hc0, Nat.zero_mul, Nat.zero_add] at hcar
  refine Ok.bind (assemble (by omega) (carryingMul p (lo div)).1 _) ?_
  intro th hth
  rw [hcar] at hth
  generalize zeroWiden (carryingMul p (lo div)).1 ||| th = tmp at hth ⊢
  obtain ⟨f1, f2⟩ := two_poss_finish (Nat.pos_of_ne_zero hd) t1 t2
  have hge : duo.toNat / div.toNat ≤ p.toNat := t1
  split
  · rename_i hlt
    rw [hth] at hlt
    obtain ⟨hp0, f2⟩ := f2 hlt
    refine Ok.bind (subC_spec (by omega)) ?_
    intro p2 hp2
    rw [h1w] at hp2
    have hp3 : p2.toNat = duo.toNat / div.toNat := by
      have : p2.toNat * div.toNat + (duo.toNat + div.toNat - p.toNat * div.toNat) = duo.toNat := by
        have e : p.toNat = p2.toNat + 1 := by omega
        have e2 : p.toNat * div.toNat = p2.toNat * div.toNat + div.toNat := by rw [e]; ring
        omega
      exact (divRem_of this f2).1
    refine Ok.bind (addC_spec (by rw [toNat_zeroWiden]; omega)) ?_
    intro qq hqq
    rw [toNat_zeroWiden] at hqq
    apply Ok.pure'
    have hr : (duo + div - tmp).toNat = duo.toNat + div.toNat - p.toNat * div.toNat := by
      apply add_sub_wrap
      · left; rw [hth]; omega
      · omega
    simp only [hqq, hr]
    refine ⟨?_, f2⟩
    have e : p.toNat = p2.toNat + 1 := by omega
    have e2 : p.toNat * div.toNat = p2.toNat * div.toNat + div.toNat := by rw [e]; ring
    rw [Nat.add_mul]; omega
  · rename_i hlt
    rw [hth] at hlt
    have f1 := f1 (by omega)
    have hp3 : p.toNat = duo.toNat / div.toNat := by
      have : p.toNat * div.toNat + (duo.toNat - p.toNat * div.toNat) = duo.toNat := by omega
      exact (divRem_of this f1).1
    refine Ok.bind (addC_spec (by rw [toNat_zeroWiden]; omega)) ?_
    intro qq hqq
    rw [toNat_zeroWiden] at hqq
    refine Ok.bind (subC_spec (by omega)) ?_
    intro rr hrr
    apply Ok.pure'
    simp only [hqq, hrr, hth]
    refine ⟨?_, f1⟩
    rw [Nat.add_mul]; omega

/-- One undersubtracting step never subtracts too much and always makes progress. -/
theorem undersub_arith {q D d ud ex de S : Nat} (hq : 0 < q) (hD0 : 2 ^ (2 * q - 1) ≤ D / 2 ^ ud)
    (hS : S = d / 2 ^ de) (hSq : S < 2 ^ q) (hex : ud = de + ex) :
    1 ≤ D / 2 ^ ud / (S + 1) ∧ d * (D / 2 ^ ud / (S + 1)) * 2 ^ ex ≤ D := by
  constructor
  · rw [Nat.le_div_iff_mul_le (by omega), Nat.one_mul]
    calc S + 1 ≤ 2 ^ q := hSq
      _ ≤ 2 ^ (2 * q - 1) := Nat.pow_le_pow_right (by omega) (by omega)
      _ ≤ _ := hD0
  · have h1 : d ≤ (S + 1) * 2 ^ de := by
      have := Nat.mod_add_div d (2 ^ de)
      have h2 := Nat.mod_lt d (Nat.two_pow_pos de)
      rw [← hS] at this
      rw [Nat.add_mul, Nat.mul_comm S]; omega
    have h2 : D / 2 ^ ud / (S + 1) * (S + 1) ≤ D / 2 ^ ud := Nat.div_mul_le_self _ _
    have h3 : D / 2 ^ ud * 2 ^ ud ≤ D := Nat.div_mul_le_self _ _
    obtain ⟨u, hu⟩ : ∃ u, D / 2 ^ ud / (S + 1) = u := ⟨_, rfl⟩
    rw [hu] at h2 ⊢
    calc d * u * 2 ^ ex ≤ ((S + 1) * 2 ^ de) * u * 2 ^ ex :=
          Nat.mul_le_mul_right _ (Nat.mul_le_mul_right _ h1)
      _ = u * (S + 1) * 2 ^ ud := by rw [hex, Nat.pow_add]; ring
      _ ≤ D / 2 ^ ud * 2 ^ ud := Nat.mul_le_mul_right _ h2
      _ ≤ D := h3

theorem trifectaLoop_spec {q} (hq : 0 < q) {half : DivRem (2 * q)} (hh : IsDivRem half)
    (div : BitVec (2 * (2 * q))) (hd : div.toNat ≠ 0) (divLz divExtra : Nat) (S1 : BitVec (2 * q))
    (hdl : divLz = nlz div) (hde : divExtra + divLz = 3 * q) (hS : S1.toNat = div.toNat / 2 ^ divExtra + 1) :
    ∀ (fuel : Nat) (duo quo : BitVec (2 * (2 * q))) (duoLz : Nat), duo.toNat < fuel →
      duoLz = nlz duo → duoLz < 2 * q → duoLz < divLz →
      (divLz < duoLz + q → duo.toNat + div.toNat < 2 ^ (2 * (2 * q))) →
      quo.toNat + duo.toNat / div.toNat < 2 ^ (2 * (2 * q)) →
      Ok (trifectaLoop half div divLz divExtra S1 fuel duo quo duoLz) (fun r =>
        r.1.toNat * div.toNat + r.2.toNat = quo.toNat * div.toNat + duo.toNat ∧ r.2.toNat < div.toNat) := by
  have h1w : (1#(2 * (2 * q))).toNat = 1 := by
    have : 1 < 2 ^ (2 * (2 * q)) := Nat.one_lt_two_pow (by omega)
    simp [Nat.mod_eq_of_lt this]
  have hb2 := bitLen_le_width div
  have hdp : 0 < div.toNat := Nat.pos_of_ne_zero hd
  have hbd : bitLen div.toNat = q + divExtra := by simp only [nlz] at hdl; omega
  have hSlt : div.toNat / 2 ^ divExtra < 2 ^ q := by
    rw [Nat.div_lt_iff_lt_mul (Nat.two_pow_pos _), ← Nat.pow_add]
    have := lt_two_pow_bitLen div.toNat
    rwa [hbd] at this
  intro fuel
  induction fuel with
  | zero => intro duo quo duoLz h; omega
  | succ fuel ih =>
    intro duo quo duoLz hf hlz h1 h2 hov hquo
    have hb1 := bitLen_le_width duo
    have hlz' := hlz
    simp only [nlz] at hlz
    unfold trifectaLoop
    simp only []
    refine Ok.bind (nsubC_spec (by omega)) ?_
    intro ud hud
    have hsb : bitLen duo.toNat = 2 * q + ud := by omega
    refine Ok.bind (shrC_spec (by omega)) ?_
    intro ds hds
    have hds := lo_shift hds (by omega)
    split
    · rename_i hle
      refine Ok.bind (hh _ _ (by rw [hS]; exact Nat.succ_ne_zero _)) ?_
      rintro ⟨p, p'⟩ ⟨hp, -⟩
      simp only at hp ⊢
      rw [hds, hS] at hp
      refine Ok.bind (nsubC_spec hle) ?_
      intro ex hex
      have hex : ud = divExtra + ex := by omega
      have hD0 : 2 ^ (2 * q - 1) ≤ duo.toNat / 2 ^ ud := bitLen_shift (by omega)
      obtain ⟨g1, g2⟩ := undersub_arith (D := duo.toNat) (d := div.toNat) hq hD0 rfl hSlt hex
      rw [← hp] at g1 g2
      have hduo := duo.isLt
      have g3 : p.toNat * 2 ^ ex ≤ duo.toNat / div.toNat := by
        rw [Nat.le_div_iff_mul_le hdp]
        calc _ = div.toNat * p.toNat * 2 ^ ex := by ring
          _ ≤ _ := g2
      have g4 : p.toNat * 2 ^ ex ≤ duo.toNat := Nat.le_trans g3 (Nat.div_le_self _ _)
      have g5 : div.toNat * p.toNat ≤ duo.toNat :=
        Nat.le_trans (Nat.le_mul_of_pos_right _ (Nat.two_pow_pos _)) g2
      refine Ok.bind (shlC_spec (by omega)) ?_
      intro qs hqs
      rw [toNat_zeroWiden, Nat.mod_eq_of_lt (by omega)] at hqs
      refine Ok.bind (addC_spec (by omega)) ?_
      intro quo' hquo'
      refine Ok.bind (shlC_spec (by omega)) ?_
      intro sb hsbv
      rw [BitVec.toNat_mul, toNat_zeroWiden, Nat.mod_eq_of_lt (a := div.toNat * p.toNat) (by omega), Nat.mod_eq_of_lt (by omega)] at hsbv
      refine Ok.bind (subC_spec (by omega)) ?_
      intro duo' hduo'
      have hkey : quo'.toNat * div.toNat + duo'.toNat = quo.toNat * div.toNat + duo.toNat := by
        rw [hquo', hqs, Nat.add_mul]
        have : p.toNat * 2 ^ ex * div.toNat = div.toNat * p.toNat * 2 ^ ex := by ring
        omega
      have hprog : duo'.toNat + div.toNat ≤ duo.toNat := by
        have : div.toNat * 1 * 1 ≤ div.toNat * p.toNat * 2 ^ ex :=
          Nat.mul_le_mul (Nat.mul_le_mul_left _ g1) (Nat.two_pow_pos _)
        omega
      have hquo2 : quo'.toNat + duo'.toNat / div.toNat = quo.toNat + duo.toNat / div.toNat := by
        have k1 : (quo'.toNat * div.toNat + duo'.toNat) / div.toNat = quo'.toNat + duo'.toNat / div.toNat := by
          rw [Nat.mul_comm, Nat.mul_add_div hdp]
        have k2 : (quo.toNat * div.toNat + duo.toNat) / div.toNat = quo.toNat + duo.toNat / div.toNat := by
          rw [Nat.mul_comm, Nat.mul_add_div hdp]
        rw [← k1, ← k2, hkey]
      have hb3 := bitLen_le_width duo'
      split
      · rename_i hc
        have hbl : bitLen duo'.toNat ≤ bitLen div.toNat := by simp only [nlz] at hc hdl; omega
        have hlt2 : duo'.toNat < 2 * div.toNat := by
          have k1 := bitLen_le_iff.1 hbl
          have k2 := two_pow_le_of_bitLen hd
          have k3 := two_pow_half (w := bitLen div.toNat) (bitLen_pos hd)
          omega
        split
        · rename_i hge
          have k4 : 1 ≤ duo'.toNat / div.toNat := by
            rw [Nat.le_div_iff_mul_le hdp]; omega
          refine Ok.bind (addC_spec (by rw [h1w]; omega)) ?_
          intro q2 hq2
          refine Ok.bind (subC_spec hge) ?_
          intro r2 hr2
          apply Ok.pure'
          simp only [hq2, hr2, h1w]
          rw [Nat.add_mul]
          constructor <;> omega
        · rename_i hge
          apply Ok.pure'
          simp only
          constructor <;> omega
      · rename_i hc
        split
        · rename_i hc2
          have hbl : bitLen duo'.toNat ≤ 2 * q := by simp only [nlz] at hc2; omega
          have hbl2 : bitLen div.toNat ≤ 2 * q := by simp only [nlz] at hc hc2 hdl; omega
          have e1 : (lo duo').toNat = duo'.toNat := by
            rw [toNat_lo, Nat.mod_eq_of_lt (bitLen_le_iff.1 hbl)]
          have e2 : (lo div).toNat = div.toNat := by
            rw [toNat_lo, Nat.mod_eq_of_lt (bitLen_le_iff.1 hbl2)]
          refine Ok.bind (hh _ _ (by omega)) ?_
          rintro ⟨a, b⟩ ⟨ha, hb⟩
          simp only at ha hb ⊢
          rw [e1, e2] at ha hb
          refine Ok.bind (addC_spec (by rw [toNat_zeroWiden, ha]; omega)) ?_
          intro q2 hq2
          apply Ok.pure'
          rw [toNat_zeroWiden] at hq2
          simp only [hq2, toNat_zeroWiden]
          have k1 := Nat.div_add_mod duo'.toNat div.toNat
          rw [← ha, ← hb] at k1
          refine ⟨?_, by rw [hb]; exact Nat.mod_lt _ hdp⟩
          rw [Nat.add_mul, Nat.mul_comm a.toNat]; omega
        · rename_i hc2
          refine Ok.mono (ih duo' quo' (nlz duo') (by omega) rfl (by omega) (by omega) (by omega) (by omega)) ?_
          rintro r ⟨k1, k2⟩
          exact ⟨by omega, k2⟩
    · rename_i hle
      exact trifectaTwoLoop_spec hq hh duo div quo duoLz hlz' hd h1 (by omega) (by omega) (hov (by omega)) hquo

theorem trifecta_spec {q} (hq : 0 < q) {half : DivRem (2 * q)} (hh : IsDivRem half) :
    IsDivRem (trifecta half) := by
  intro duo div hd
  have h1w : (1#(2 * q)).toNat = 1 := by
    have : 1 < 2 ^ (2 * q) := Nat.one_lt_two_pow (by omega)
    simp [Nat.mod_eq_of_lt this]
  have h1w' : (1#(2 * (2 * q))).toNat = 1 := by
    have : 1 < 2 ^ (2 * (2 * q)) := Nat.one_lt_two_pow (by omega)
    simp [Nat.mod_eq_of_lt this]
  have hb1 := bitLen_le_width duo
  have hb2 := bitLen_le_width div
  have hdp : 0 < div.toNat := Nat.pos_of_ne_zero hd
  suffices h : Ok (trifecta half duo div)
      (fun r => r.1.toNat * div.toNat + r.2.toNat = duo.toNat ∧ r.2.toNat < div.toNat) from
    Ok.mono h (fun r hr => divRem_of hr.1 hr.2)
  unfold trifecta
  simp only [toNat_ne_zero hd, if_false]
  split
  · rename_i hc
    have hbl : bitLen duo.toNat ≤ bitLen div.toNat := by simp only [nlz] at hc; omega
    have hlt2 : duo.toNat < 2 * div.toNat := by
      have k1 := bitLen_le_iff.1 hbl
      have k2 := two_pow_le_of_bitLen hd
      have k3 := two_pow_half (w := bitLen div.toNat) (bitLen_pos hd)
      omega
    split
    · rename_i hge
      refine Ok.bind (subC_spec hge) ?_
      intro r2 hr2
      apply Ok.pure'
      simp only [h1w', hr2]
      constructor <;> omega
    · rename_i hge
      apply Ok.pure'
      constructor
      · simp
      · show duo.toNat < _; omega
  · rename_i hc
    simp only [nlz] at hc
    split
    · rename_i hc2
      have hbl : bitLen duo.toNat ≤ 2 * q := by simp only [nlz] at hc2; omega
      have hbl2 : bitLen div.toNat ≤ 2 * q := by omega
      have e1 : (lo duo).toNat = duo.toNat := by
        rw [toNat_lo, Nat.mod_eq_of_lt (bitLen_le_iff.1 hbl)]
      have e2 : (lo div).toNat = div.toNat := by
        rw [toNat_lo, Nat.mod_eq_of_lt (bitLen_le_iff.1 hbl2)]
      refine Ok.bind (hh.eqn _ _ (by omega)) ?_
      rintro ⟨a, b⟩ ⟨ha, hb⟩
      apply Ok.pure'
      simp only [toNat_zeroWiden, e1, e2] at *
      exact ⟨ha, hb⟩
    · rename_i hc2
      simp only [nlz] at hc2
      split
      · rename_i hc3
        have hbl : bitLen div.toNat ≤ q := by simp only [nlz] at hc3; omega
        have e : (zeroWiden (div.setWidth q)).toNat = div.toNat := by
          rw [toNat_zeroWiden, toNat_setWidth_le _ (bitLen_le_iff.1 hbl)]
        have := shortDiv_spec hq hh duo (hi duo) (zeroWiden (div.setWidth q)) rfl (by omega)
          (by rw [e]; exact bitLen_le_iff.1 hbl)
        rw [e] at this
        exact this
      · rename_i hc3
        simp only [nlz] at hc3
        refine Ok.bind (nsubC_spec (by simp only [nlz]; omega)) ?_
        intro lzd hlzd
        simp only [nlz] at hlzd
        split
        · rename_i hc4
          refine Ok.bind (nsubC_spec (by simp only [nlz]; omega)) ?_
          intro s hs
          simp only [nlz] at hs
          have hsb : bitLen duo.toNat = 2 * q + s := by omega
          refine Ok.bind (shrC_spec (by omega)) ?_
          intro ds hds
          have hds := lo_shift hds (by omega)
          refine Ok.bind (shrC_spec (by omega)) ?_
          intro vs hvs
          have hvs := lo_shift hvs (by omega)
          have hvge : 2 ^ q ≤ div.toNat / 2 ^ s := bitLen_shift (by omega)
          have hpq := Nat.two_pow_pos q
          refine Ok.bind (hh _ _ (by omega)) ?_
          rintro ⟨p, p'⟩ ⟨hp, -⟩
          simp only at hp ⊢
          rw [hds, hvs] at hp
          have hDlt : duo.toNat < 2 ^ (s + 2 * q) := by
            have := lt_two_pow_bitLen duo.toNat
            rwa [hsb, Nat.add_comm] at this
          obtain ⟨t1, t2, -⟩ := two_poss_arith hDlt hvge
          rw [← hp] at t1 t2
          have hcar := carrying_spec p div
          refine Ok.bind (assemble (by omega) (carryingMul p (lo div)).1 _) ?_
          intro th hth
          rw [← hth] at hcar
          generalize zeroWiden (carryingMul p (lo div)).1 ||| th = tmp at hth hcar ⊢
          obtain ⟨c, hceq⟩ : ∃ c, (carryingMulAdd p (hi div) (carryingMul p (lo div)).2).2 = c := ⟨_, rfl⟩
          rw [hceq] at hcar ⊢
          obtain ⟨f1, f2⟩ := two_poss_finish hdp t1 t2
          have hdl := duo.isLt
          have htl := tmp.isLt
          have hvl := div.isLt
          split
          · rename_i hor
            have hgt : duo.toNat < p.toNat * div.toNat := by
              rcases hor with h0 | h0
              · have h0 := ne_zero_toNat h0
                have := Nat.mul_le_mul_right (2 ^ (2 * (2 * q))) (Nat.pos_of_ne_zero h0)
                omega
              · have := Nat.zero_le (c.toNat * 2 ^ (2 * (2 * q)))
                omega
            obtain ⟨hp0, f2⟩ := f2 hgt
            refine Ok.bind (subC_spec (by omega)) ?_
            intro p2 hp2
            rw [h1w] at hp2
            apply Ok.pure'
            have hr : (duo + div - tmp).toNat = duo.toNat + div.toNat - p.toNat * div.toNat := by
              apply add_sub_wrap _ (by omega)
              have hc2 : c.toNat < 2 := by
                by_contra hc2
                have := Nat.mul_le_mul_right (2 ^ (2 * (2 * q))) (Nat.not_lt.1 hc2)
                omega
              have hc2 : c.toNat = 0 ∨ c.toNat = 1 := by omega
              rcases hc2 with h0 | h0 <;> rw [h0] at hcar
              · left; omega
              · right; omega
            simp only [hr, toNat_zeroWiden]
            refine ⟨?_, f2⟩
            have e : p.toNat = p2.toNat + 1 := by omega
            have e2 : p.toNat * div.toNat = p2.toNat * div.toNat + div.toNat := by rw [e]; ring
            omega
          · rename_i hor
            have hor1 : c = 0#_ := by
              by_contra hc; exact hor (Or.inl hc)
            have hor2 : ¬ duo.toNat < tmp.toNat := fun h => hor (Or.inr h)
            have hc0 : c.toNat = 0 := by rw [hor1]; simp
            rw [hc0, Nat.zero_mul, Nat.zero_add] at hcar
            have f1 := f1 (by omega)
            refine Ok.bind (subC_spec (by omega)) ?_
            intro rr hrr
            apply Ok.pure'
            simp only [hrr, hcar, toNat_zeroWiden]
            refine ⟨?_, f1⟩
            omega
        · rename_i hc4
          refine Ok.bind (nsubC_spec (by simp only [nlz]; omega)) ?_
          intro ex hex
          have hex' := hex
          simp only [nlz] at hex
          refine Ok.bind (shrC_spec (by omega)) ?_
          intro vs hvs
          have hlt : div.toNat / 2 ^ ex < 2 ^ q := by
            rw [Nat.div_lt_iff_lt_mul (Nat.two_pow_pos _), ← Nat.pow_add]
            exact bitLen_le_iff.1 (by omega)
          have e1 : (zeroWiden (vs.setWidth q)).toNat = div.toNat / 2 ^ ex := by
            rw [toNat_zeroWiden, toNat_setWidth_le _ (by rw [hvs]; exact hlt), hvs]
          have e2 : 2 ^ q < 2 ^ (2 * q) := Nat.pow_lt_pow_right (by omega) (by omega)
          refine Ok.bind (addC_spec (by rw [e1, h1w]; omega)) ?_
          intro S1 hS1
          rw [e1, h1w] at hS1
          refine Ok.mono (trifectaLoop_spec hq hh div hd (nlz div) ex S1 rfl (by simp only [nlz]; omega) hS1
            (duo.toNat + 1) duo 0#_ (nlz duo) (by omega) rfl (by simp only [nlz]; omega)
            (by simp only [nlz]; omega) (by simp only [nlz]; omega) ?_) ?_
          · have := Nat.div_le_self duo.toNat div.toNat
            have h3 := duo.isLt
            simp; omega
          · rintro r ⟨k1, k2⟩
            simp at k1
            exact ⟨k1, k2⟩

end Verif
