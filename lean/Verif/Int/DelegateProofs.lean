import Verif.Int.DivProofs
/-! Correctness of `impl_delegate`. -/
namespace Verif

set_option linter.unusedSimpArgs false

theorem toNat_shr_one {w} (x : BitVec w) : (x >>> 1).toNat = x.toNat / 2 := by
  rw [BitVec.toNat_ushiftRight, Nat.shiftRight_eq_div_pow]

theorem two_pow_half {w : Nat} (hw : 0 < w) : 2 ^ w = 2 * 2 ^ (w - 1) := by
  obtain ⟨m, rfl⟩ : ∃ m, w = m + 1 := ⟨w - 1, by omega⟩
  simp [Nat.pow_succ]; omega

theorem hi_eq_zero_iff {n} (x : BitVec (2 * n)) : hi x = 0#n ↔ x.toNat < 2 ^ n := by
  constructor
  · intro h
    have := congrArg BitVec.toNat h
    rw [toNat_hi] at this
    simp at this
    have := Nat.two_pow_pos n
    omega
  · intro h
    apply BitVec.eq_of_toNat_eq
    rw [toNat_hi, Nat.div_eq_of_lt h]; simp

theorem delegateLoopHi_spec {n} (d : Nat) (hdn : d < 2 ^ n) :
    ∀ (s fuel : Nat) (duo div : BitVec (2 * n)) (pow quo : BitVec n) (Q : Nat),
      s < n → s < fuel → div.toNat = d * 2 ^ s → pow.toNat = 2 ^ s → quo.toNat = Q * 2 ^ (s + 1) →
      d ≤ duo.toNat → duo.toNat < 2 * (d * 2 ^ s) →
      Ok (delegateLoopHi fuel duo div pow quo) (fun r =>
        r.1.toNat + r.2.toNat * d = duo.toNat + quo.toNat * d ∧ r.1.toNat < 2 ^ n ∧
        ∃ t Q', r.2.toNat = Q' * 2 ^ t ∧ r.1.toNat < d * 2 ^ t) := by
  intro s
  induction s with
  | zero =>
    intro fuel duo div pow quo Q hs hf hdiv hpow hquo h1 h2
    obtain ⟨f, rfl⟩ : ∃ f, fuel = f + 1 := ⟨fuel - 1, by omega⟩
    have hle : div.toNat ≤ duo.toNat := by omega
    have hsub : (duo - div).toNat = duo.toNat - div.toNat := BitVec.toNat_sub_of_le (BitVec.le_def.2 hle)
    have hb : 2 ^ n ≤ 2 ^ (2 * n - 1) := Nat.pow_le_pow_right (by omega) (by omega)
    have hm : (duo - div).msb = false := sub_msb_of_le hle (by omega)
    have hz : hi (duo - div) = 0#n := by rw [hi_eq_zero_iff]; omega
    have hor : (quo ||| pow).toNat = quo.toNat + 1 := by
      rw [BitVec.toNat_or, hpow, or_eq_add' (k := 1) (by norm_num) (by rw [hquo]; exact ⟨Q, by ring⟩)]; omega
    unfold delegateLoopHi
    simp only [hm, hz, if_true]
    apply Ok.pure'
    simp only [hor, hsub]
    refine ⟨?_, by omega, 0, quo.toNat + 1, by simp, by omega⟩
    have : (quo.toNat + 1) * d = quo.toNat * d + d := by ring
    omega
  | succ s ih =>
    intro fuel duo div pow quo Q hs hf hdiv hpow hquo h1 h2
    obtain ⟨f, rfl⟩ : ∃ f, fuel = f + 1 := ⟨fuel - 1, by omega⟩
    have hdd : d * 2 ^ (s + 1) = 2 * (d * 2 ^ s) := by ring
    have hdh : (div >>> 1).toNat = d * 2 ^ s := by rw [toNat_shr_one, hdiv, hdd]; omega
    have hph : (pow >>> 1).toNat = 2 ^ s := by rw [toNat_shr_one, hpow, Nat.pow_succ]; omega
    have hb : d * 2 ^ (s + 1) ≤ 2 ^ (2 * n - 1) := by
      calc d * 2 ^ (s + 1) ≤ 2 ^ n * 2 ^ (n - 1) :=
            Nat.mul_le_mul (by omega) (Nat.pow_le_pow_right (by omega) (by omega))
        _ = 2 ^ (2 * n - 1) := by rw [← Nat.pow_add]; congr 1; omega
    have hor : (quo ||| pow).toNat = (2 * Q + 1) * 2 ^ (s + 1) := by
      rw [BitVec.toNat_or, hpow, hquo, or_eq_add' (k := s + 2) (Nat.pow_lt_pow_right (by omega) (by omega))
        (Nat.dvd_mul_left _ _)]
      ring
    unfold delegateLoopHi
    by_cases hle : div.toNat ≤ duo.toNat
    · have hsub : (duo - div).toNat = duo.toNat - div.toNat := BitVec.toNat_sub_of_le (BitVec.le_def.2 hle)
      have hm : (duo - div).msb = false := sub_msb_of_le hle (by omega)
      have hprod : (quo ||| pow).toNat * d = quo.toNat * d + d * 2 ^ (s + 1) := by rw [hor, hquo]; ring
      simp only [hm, if_true]
      split
      · rename_i hz
        rw [hi_eq_zero_iff] at hz
        apply Ok.pure'
        simp only [hprod]
        refine ⟨?_, hz, s + 1, _, hor, ?_⟩ <;> omega
      · rename_i hz
        rw [hi_eq_zero_iff] at hz
        refine Ok.mono (ih f _ _ _ _ (2 * Q + 1) (by omega) (by omega) hdh hph hor (by omega) (by omega)) ?_
        rintro r ⟨h3, h4⟩
        refine ⟨?_, h4⟩
        rw [h3, hprod]; omega
    · have hm : (duo - div).msb = true := sub_msb_of_lt (by omega) (by omega)
      simp only [hm, Bool.true_eq_false, if_false]
      refine Ok.mono (ih f _ _ _ _ (2 * Q) (by omega) (by omega) hdh hph (by rw [hquo]; ring) h1 (by omega)) ?_
      rintro r ⟨h3, h4⟩
      exact ⟨h3, h4⟩

theorem delegateLoopFull_spec {n} (D : BitVec (2 * n)) :
    ∀ (s fuel : Nat) (duo div : BitVec (2 * n)) (pow quo : BitVec n) (Q : Nat),
      s < n → s < fuel → div.toNat = D.toNat * 2 ^ s → pow.toNat = 2 ^ s → quo.toNat = Q * 2 ^ (s + 1) →
      D.toNat ≤ duo.toNat → duo.toNat < 2 * (D.toNat * 2 ^ s) →
      (div.toNat ≤ 2 ^ (2 * n - 1) ∨ 2 ^ (2 * n - 1) ≤ duo.toNat) →
      Ok (delegateLoopFull D fuel duo div pow quo) (fun r =>
        r.1.toNat + r.2.toNat * D.toNat = duo.toNat + quo.toNat * D.toNat ∧ r.1.toNat < D.toNat) := by
  intro s
  induction s with
  | zero =>
    intro fuel duo div pow quo Q hs hf hdiv hpow hquo h1 h2 hsign
    obtain ⟨f, rfl⟩ : ∃ f, fuel = f + 1 := ⟨fuel - 1, by omega⟩
    have hle : div.toNat ≤ duo.toNat := by omega
    have hsub : (duo - div).toNat = duo.toNat - div.toNat := BitVec.toNat_sub_of_le (BitVec.le_def.2 hle)
    have hlt := duo.isLt
    have hb := two_pow_half (w := 2 * n) (by omega)
    have hm : (duo - div).msb = false := sub_msb_of_le hle (by omega)
    have hz : (duo - div).toNat < D.toNat := by omega
    have hor : (quo ||| pow).toNat = quo.toNat + 1 := by
      rw [BitVec.toNat_or, hpow, or_eq_add' (k := 1) (by norm_num) (by rw [hquo]; exact ⟨Q, by ring⟩)]; omega
    unfold delegateLoopFull
    simp only [hm, hz, if_true]
    apply Ok.pure'
    simp only [hor, hsub]
    refine ⟨?_, by omega⟩
    have : (quo.toNat + 1) * D.toNat = quo.toNat * D.toNat + D.toNat := by ring
    omega
  | succ s ih =>
    intro fuel duo div pow quo Q hs hf hdiv hpow hquo h1 h2 hsign
    obtain ⟨f, rfl⟩ : ∃ f, fuel = f + 1 := ⟨fuel - 1, by omega⟩
    have hdd : D.toNat * 2 ^ (s + 1) = 2 * (D.toNat * 2 ^ s) := by ring
    have hdh : (div >>> 1).toNat = D.toNat * 2 ^ s := by rw [toNat_shr_one, hdiv, hdd]; omega
    have hph : (pow >>> 1).toNat = 2 ^ s := by rw [toNat_shr_one, hpow, Nat.pow_succ]; omega
    have hb := two_pow_half (w := 2 * n) (by omega)
    have hlt := duo.isLt
    have hlt' := div.isLt
    have hor : (quo ||| pow).toNat = (2 * Q + 1) * 2 ^ (s + 1) := by
      rw [BitVec.toNat_or, hpow, hquo, or_eq_add' (k := s + 2) (Nat.pow_lt_pow_right (by omega) (by omega))
        (Nat.dvd_mul_left _ _)]
      ring
    unfold delegateLoopFull
    by_cases hle : div.toNat ≤ duo.toNat
    · have hsub : (duo - div).toNat = duo.toNat - div.toNat := BitVec.toNat_sub_of_le (BitVec.le_def.2 hle)
      have hm : (duo - div).msb = false := sub_msb_of_le hle (by omega)
      have hprod : (quo ||| pow).toNat * D.toNat = quo.toNat * D.toNat + D.toNat * 2 ^ (s + 1) := by
        rw [hor, hquo]; ring
      simp only [hm, if_true]
      split
      · rename_i hz
        apply Ok.pure'
        simp only [hprod]
        refine ⟨?_, hz⟩; omega
      · rename_i hz
        refine Ok.mono (ih f _ _ _ _ (2 * Q + 1) (by omega) (by omega) hdh hph hor (by omega) (by omega)
          (by omega)) ?_
        rintro r ⟨h3, h4⟩
        refine ⟨?_, h4⟩
        rw [h3, hprod]; omega
    · have hm : (duo - div).msb = true := sub_msb_of_lt (by omega) (by omega)
      simp only [hm, Bool.true_eq_false, if_false]
      exact ih f _ _ _ _ (2 * Q) (by omega) (by omega) hdh hph (by rw [hquo]; ring) h1 (by omega) (by omega)

theorem toNat_setWidth_le {w v} (x : BitVec w) (h : x.toNat < 2 ^ v) : (x.setWidth v).toNat = x.toNat := by
  rw [BitVec.toNat_setWidth, Nat.mod_eq_of_lt h]

/-- Base `2^q` short division with three digits. -/
theorem short_arith {A B C d N q2 r3 q1 r2 q0 r1 : Nat} (h3 : q2 * d + r3 = A)
    (h2 : q1 * d + r2 = B + r3 * N) (h1 : q0 * d + r1 = C + r2 * N) :
    (q0 + q1 * N + q2 * (N * N)) * d + r1 = C + B * N + A * (N * N) := by
  have e : C = q0 * d + r1 - r2 * N := by omega
  calc (q0 + q1 * N + q2 * (N * N)) * d + r1
      = (q0 * d + r1) + (q1 * d) * N + (q2 * d) * (N * N) := by ring
    _ = (C + r2 * N) + (q1 * d) * N + (q2 * d) * (N * N) := by rw [h1]
    _ = C + (q1 * d + r2) * N + (q2 * d) * (N * N) := by ring
    _ = C + (B + r3 * N) * N + (q2 * d) * (N * N) := by rw [h2]
    _ = C + B * N + (q2 * d + r3) * (N * N) := by ring
    _ = _ := by rw [h3]

theorem IsDivRem.eqn {w} {f : DivRem w} (hf : IsDivRem f) (a b : BitVec w) (hb : b.toNat ≠ 0) :
    Ok (f a b) (fun r => r.1.toNat * b.toNat + r.2.toNat = a.toNat ∧ r.2.toNat < b.toNat) := by
  refine Ok.mono (hf a b hb) ?_
  rintro ⟨x, y⟩ ⟨h1, h2⟩
  simp only at *
  rw [h1, h2, Nat.mul_comm]
  exact ⟨Nat.div_add_mod _ _, Nat.mod_lt _ (by omega)⟩

theorem shortDiv_spec {q} (hq : 0 < q) {half : DivRem (2 * q)} (hh : IsDivRem half)
    (duo : BitVec (2 * (2 * q))) (duoHi div0 : BitVec (2 * q)) (hdh : duoHi = hi duo)
    (hd0 : div0.toNat ≠ 0) (hdq : div0.toNat < 2 ^ q) :
    Ok (shortDiv half duo duoHi div0) (fun r =>
      r.1.toNat * div0.toNat + r.2.toNat = duo.toNat ∧ r.2.toNat < div0.toNat) := by
  subst hdh
  have hN := two_pow_two_mul q
  have hp := Nat.two_pow_pos q
  unfold shortDiv
  refine Ok.bind (hh.eqn _ _ hd0) ?_
  rintro ⟨quoHi, rem3⟩ ⟨a1, a2⟩
  simp only at a1 a2 ⊢
  refine Ok.bind (shrC_spec (by omega)) ?_
  intro d hd
  refine Ok.bind (shlC_spec (by omega)) ?_
  intro r3 hr3
  have m3 : rem3.toNat * 2 ^ q < 2 ^ (2 * q) := by
    rw [hN]; exact Nat.mul_lt_mul_of_pos_right (by omega) hp
  rw [Nat.mod_eq_of_lt m3] at hr3
  have hmid : (zeroWiden (d.setWidth q) ||| r3).toNat = duo.toNat / 2 ^ q % 2 ^ q + rem3.toNat * 2 ^ q := by
    rw [BitVec.toNat_or, toNat_zeroWiden, BitVec.toNat_setWidth, hd, hr3]
    exact or_eq_add (Nat.mod_lt _ hp) (Nat.dvd_mul_left _ _)
  refine Ok.bind (hh.eqn _ _ hd0) ?_
  rintro ⟨quo1, rem2⟩ ⟨b1, b2⟩
  simp only at b1 b2 ⊢
  rw [hmid] at b1
  refine Ok.bind (shlC_spec (by omega)) ?_
  intro r2 hr2
  have m2 : rem2.toNat * 2 ^ q < 2 ^ (2 * q) := by
    rw [hN]; exact Nat.mul_lt_mul_of_pos_right (by omega) hp
  rw [Nat.mod_eq_of_lt m2] at hr2
  have hlo : (zeroWiden (duo.setWidth q) ||| r2).toNat = duo.toNat % 2 ^ q + rem2.toNat * 2 ^ q := by
    rw [BitVec.toNat_or, toNat_zeroWiden, BitVec.toNat_setWidth, hr2]
    exact or_eq_add (Nat.mod_lt _ hp) (Nat.dvd_mul_left _ _)
  refine Ok.bind (hh.eqn _ _ hd0) ?_
  rintro ⟨quo0, rem1⟩ ⟨c1, c2⟩
  simp only at c1 c2 ⊢
  rw [hlo] at c1
  refine Ok.bind (shlC_spec (by omega)) ?_
  intro s1 hs1
  refine Ok.bind (shlC_spec (by omega)) ?_
  intro s2 hs2
  rw [toNat_zeroWiden] at hs1 hs2
  have small : ∀ {x r y C}, x * div0.toNat + r = C + y * 2 ^ q → y < div0.toNat → C < 2 ^ q → x < 2 ^ q := by
    intro x r y C h1 h2 h3
    by_contra hc
    have h4 : 2 ^ q * div0.toNat ≤ x * div0.toNat := Nat.mul_le_mul_right _ (by omega)
    have h5 : (y + 1) * 2 ^ q ≤ div0.toNat * 2 ^ q := Nat.mul_le_mul_right _ (by omega)
    have h6 : (y + 1) * 2 ^ q = y * 2 ^ q + 2 ^ q := by ring
    have h7 : 2 ^ q * div0.toNat = div0.toNat * 2 ^ q := by ring
    omega
  have k1 : quo1.toNat < 2 ^ q := small b1 a2 (Nat.mod_lt _ hp)
  have k0 : quo0.toNat < 2 ^ q := small c1 b2 (Nat.mod_lt _ hp)
  have hN2 := two_pow_two_mul (2 * q)
  have n1 : quo1.toNat * 2 ^ q < 2 ^ (2 * q) := by
    rw [hN]; exact Nat.mul_lt_mul_of_pos_right k1 hp
  have n1' : 2 ^ (2 * q) ≤ 2 ^ (2 * (2 * q)) := Nat.pow_le_pow_right (by omega) (by omega)
  have n2 : quoHi.toNat * 2 ^ (2 * q) < 2 ^ (2 * (2 * q)) := by
    rw [hN2]; exact Nat.mul_lt_mul_of_pos_right quoHi.isLt (Nat.two_pow_pos _)
  rw [Nat.mod_eq_of_lt (by omega)] at hs1
  rw [Nat.mod_eq_of_lt n2] at hs2
  have hres : (zeroWiden quo0 ||| s1 ||| s2).toNat = quo0.toNat + quo1.toNat * 2 ^ q + quoHi.toNat * (2 ^ q * 2 ^ q) := by
    rw [BitVec.toNat_or, BitVec.toNat_or, toNat_zeroWiden, hs1, hs2,
      or_eq_add (k := q) (by omega) (Nat.dvd_mul_left _ _),
      or_eq_add (k := 2 * q) ?_ (Nat.dvd_mul_left _ _), hN]
    have : (quo1.toNat + 1) * 2 ^ q ≤ 2 ^ q * 2 ^ q := Nat.mul_le_mul_right _ (by omega)
    have e : (quo1.toNat + 1) * 2 ^ q = quo1.toNat * 2 ^ q + 2 ^ q := by ring
    omega
  apply Ok.pure'
  simp only [hres, toNat_zeroWiden]
  refine ⟨?_, c2⟩
  rw [toNat_hi] at a1
  rw [short_arith a1 b1 c1, hN]
  generalize duo.toNat = D
  have e1 := Nat.mod_add_div D (2 ^ q)
  have e2 := Nat.mod_add_div (D / 2 ^ q) (2 ^ q)
  rw [Nat.div_div_eq_div_mul] at e2
  generalize D / (2 ^ q * 2 ^ q) = A at *
  generalize D / 2 ^ q % 2 ^ q = B at *
  generalize D / 2 ^ q = E at *
  rw [← e1, ← e2]
  simp only [Nat.add_assoc]
  congr 1
  · rw [e2, e1]
  · ring

theorem delegate_spec {q k} (hqk : 2 * q = 2 ^ (k + 1)) (useLz : Bool) {half : DivRem (2 * q)}
    (hh : IsDivRem half) : IsDivRem (delegate useLz half) := by
  intro duo div hd
  have hq : 0 < q := by have := Nat.two_pow_pos k; rw [Nat.pow_succ] at hqk; omega
  have h1w : (1#(2 * q)).toNat = 1 := by
    have : 1 < 2 ^ (2 * q) := Nat.one_lt_two_pow (by omega)
    simp [Nat.mod_eq_of_lt this]
  have h1w' : (1#(2 * (2 * q))).toNat = 1 := by
    have : 1 < 2 ^ (2 * (2 * q)) := Nat.one_lt_two_pow (by omega)
    simp [Nat.mod_eq_of_lt this]
  obtain ⟨n, hn⟩ : ∃ n, 2 * q = n := ⟨_, rfl⟩
  have hN := two_pow_two_mul (2 * q)
  have hp := Nat.two_pow_pos (2 * q)
  have hduo := lo_add_hi duo
  have hdiv := lo_add_hi div
  suffices h : Ok (delegate useLz half duo div)
      (fun r => r.1.toNat * div.toNat + r.2.toNat = duo.toNat ∧ r.2.toNat < div.toNat) from
    Ok.mono h (fun r hr => divRem_of hr.1 hr.2)
  unfold delegate
  simp only []
  by_cases hdh : hi div = 0#(2 * q)
  · simp only [hdh, if_true]
    have hdl : (lo div).toNat = div.toNat := by
      rw [← hdiv, hdh]; simp
    have hdl0 : (lo div).toNat ≠ 0 := by omega
    have hdlt := (lo div).isLt
    simp only [toNat_ne_zero hdl0, if_false]
    by_cases huh : hi duo = 0#(2 * q)
    · simp only [huh, if_true]
      have hul : (lo duo).toNat = duo.toNat := by rw [← hduo, huh]; simp
      refine Ok.bind (hh.eqn _ _ hdl0) ?_
      rintro ⟨a, b⟩ ⟨h1, h2⟩
      apply Ok.pure'
      simp only [toNat_zeroWiden, ← hdl, ← hul]
      exact ⟨h1, h2⟩
    · simp only [huh, if_false]
      have huh0 := ne_zero_toNat huh
      have hdge : 2 ^ (2 * q) ≤ duo.toNat := by
        have : 2 ^ (2 * q) * 1 ≤ 2 ^ (2 * q) * (hi duo).toNat := Nat.mul_le_mul_left _ (by omega)
        omega
      split
      · -- duo_hi < div_lo
        rename_i hlt
        refine Ok.bind (normShift_half hqk useLz (lo div) (hi duo) huh0 (by omega)) ?_
        intro ns ⟨hns1, hns2⟩
        have hbl := bitLen_le_width (lo div)
        have hbp := bitLen_pos huh0
        have hduolt : duo.toNat < ((hi duo).toNat + 1) * 2 ^ (2 * q) := by
          have := (lo duo).isLt
          calc duo.toNat < 2 ^ (2 * q) + 2 ^ (2 * q) * (hi duo).toNat := by omega
            _ = _ := by ring
        have hshl : Ok (if ns = 0 then nsubC (2 * q) 1 else nsubC (2 * q) ns)
            (fun s => s < 2 * q ∧ duo.toNat < 2 * (div.toNat * 2 ^ s)) := by
          split
          · rename_i h0
            refine Ok.mono (nsubC_spec (by omega)) ?_
            rintro s rfl
            refine ⟨by omega, ?_⟩
            have e := two_pow_half (w := 2 * q) (by omega)
            have : ((hi duo).toNat + 1) * 2 ^ (2 * q) ≤ div.toNat * 2 ^ (2 * q) := Nat.mul_le_mul_right _ (by omega)
            calc duo.toNat < _ := hduolt
              _ ≤ _ := this
              _ = div.toNat * (2 * 2 ^ (2 * q - 1)) := by rw [← e]
              _ = _ := by ring
          · rename_i h0
            refine Ok.mono (nsubC_spec (by omega)) ?_
            rintro s rfl
            refine ⟨by omega, ?_⟩
            have e : 2 ^ (2 * q) = 2 ^ ns * 2 ^ (2 * q - ns) := by rw [← Nat.pow_add]; congr 1; omega
            have h3 : ((hi duo).toNat + 1) * 2 ^ ns ≤ 2 * div.toNat := by
              have e2 := two_pow_half (w := bitLen (lo div).toNat) (bitLen_pos hdl0)
              calc ((hi duo).toNat + 1) * 2 ^ ns ≤ 2 ^ bitLen (hi duo).toNat * 2 ^ ns :=
                    Nat.mul_le_mul_right _ (lt_two_pow_bitLen _)
                _ = 2 ^ (bitLen (hi duo).toNat + ns) := (Nat.pow_add ..).symm
                _ ≤ 2 ^ bitLen (lo div).toNat := Nat.pow_le_pow_right (by omega) hns1
                _ ≤ 2 * (lo div).toNat := by
                  rw [e2]; exact Nat.mul_le_mul_left _ (two_pow_le_of_bitLen hdl0)
                _ = _ := by rw [hdl]
            calc duo.toNat < _ := hduolt
              _ = (((hi duo).toNat + 1) * 2 ^ ns) * 2 ^ (2 * q - ns) := by rw [e]; ring
              _ ≤ (2 * div.toNat) * 2 ^ (2 * q - ns) := Nat.mul_le_mul_right _ h3
              _ = _ := by ring
        refine Ok.bind hshl ?_
        intro s ⟨hs1, hs2⟩
        refine Ok.bind (shlC_spec (by omega)) ?_
        intro dv hdv
        have hdvlt : div.toNat * 2 ^ s < 2 ^ (2 * (2 * q)) := by
          rw [hN]
          exact Nat.mul_lt_mul'' (by omega) (Nat.pow_lt_pow_right (by omega) hs1)
        rw [Nat.mod_eq_of_lt hdvlt] at hdv
        refine Ok.bind (shlC_spec hs1) ?_
        intro pow hpow
        rw [h1w, Nat.one_mul, Nat.mod_eq_of_lt (Nat.pow_lt_pow_right (by omega) hs1)] at hpow
        refine Ok.bind (delegateLoopHi_spec div.toNat (by omega) s (2 * q + 1) duo dv pow 0#(2 * q) 0 hs1
          (by omega) hdv hpow (by simp) (by omega) hs2) ?_
        rintro ⟨duo', quo'⟩ ⟨l1, l2, t, Q', l3, l4⟩
        simp only at l1 l2 l3 l4 ⊢
        refine Ok.bind (hh.eqn _ _ hdl0) ?_
        rintro ⟨a, b⟩ ⟨h1, h2⟩
        apply Ok.pure'
        simp only [toNat_zeroWiden] at *
        rw [hdl, toNat_lo, Nat.mod_eq_of_lt l2] at h1
        have ha : a.toNat < 2 ^ t := by
          by_contra hc
          have : 2 ^ t * div.toNat ≤ a.toNat * div.toNat := Nat.mul_le_mul_right _ (by omega)
          have e : 2 ^ t * div.toNat = div.toNat * 2 ^ t := by ring
          omega
        rw [BitVec.toNat_or, or_eq_add' ha (by rw [l3]; exact Nat.dvd_mul_left _ _)]
        simp only [BitVec.toNat_ofNat, Nat.zero_mod, Nat.zero_mul, Nat.add_zero] at l1
        refine ⟨?_, by omega⟩
        rw [Nat.add_mul]; omega
      · rename_i hge
        split
        · rename_i heq
          refine Ok.bind (hh.eqn _ _ hdl0) ?_
          rintro ⟨a, b⟩ ⟨h1, h2⟩
          refine Ok.bind (shlC_spec (by omega)) ?_
          intro one hone
          rw [h1w', Nat.one_mul, Nat.mod_eq_of_lt (Nat.pow_lt_pow_right (by omega) (by omega))] at hone
          apply Ok.pure'
          simp only [BitVec.toNat_or, toNat_zeroWiden] at *
          rw [hone, or_eq_add' a.isLt (Nat.dvd_refl _)]
          refine ⟨?_, by omega⟩
          have e : (hi duo).toNat = div.toNat := by rw [heq, hdl]
          rw [hdl] at h1
          rw [← hduo, e, ← h1]; ring
        · rename_i hne
          refine Ok.bind (shrC_spec (by omega)) ?_
          intro s hs
          split
          · rename_i hs0
            have hsz : (lo div).toNat / 2 ^ q = 0 := by rw [← hs, hs0]; simp
            have hlt : (lo div).toNat < 2 ^ q := by
              rw [Nat.div_eq_zero_iff] at hsz
              have := Nat.two_pow_pos q; omega
            have e : (zeroWiden ((lo div).setWidth q)).toNat = div.toNat := by
              rw [toNat_zeroWiden, toNat_setWidth_le _ hlt, hdl]
            have := shortDiv_spec hq hh duo (hi duo) (zeroWiden ((lo div).setWidth q)) rfl (by omega) (by omega)
            rw [e] at this
            exact this
          · refine Ok.bind (hh.eqn _ _ hdl0) ?_
            rintro ⟨quoHi, r⟩ ⟨h1, h2⟩
            simp only at h1 h2 ⊢
            refine Ok.bind (shlC_spec (by omega)) ?_
            intro rh hrh
            rw [toNat_zeroWiden] at hrh
            have hrlt : r.toNat * 2 ^ (2 * q) < 2 ^ (2 * (2 * q)) := by
              rw [hN]; exact Nat.mul_lt_mul_of_pos_right r.isLt hp
            rw [Nat.mod_eq_of_lt hrlt] at hrh
            have hmid : (zeroWiden (lo duo) ||| rh).toNat = (lo duo).toNat + r.toNat * 2 ^ (2 * q) := by
              rw [BitVec.toNat_or, toNat_zeroWiden, hrh]
              exact or_eq_add (lo duo).isLt (Nat.dvd_mul_left _ _)
            have hqlt : quoHi.toNat * 2 ^ (2 * q) < 2 ^ (2 * (2 * q)) := by
              rw [hN]; exact Nat.mul_lt_mul_of_pos_right quoHi.isLt hp
            have hmain : quoHi.toNat * 2 ^ (2 * q) * div.toNat + (zeroWiden (lo duo) ||| rh).toNat = duo.toNat := by
              rw [hmid, ← hduo, ← h1, hdl]; ring
            generalize hX : zeroWiden (lo duo) ||| rh = X at hmid hmain ⊢
            split
            · rename_i hlt
              refine Ok.bind (shlC_spec (by omega)) ?_
              intro qh hqh
              rw [toNat_zeroWiden, Nat.mod_eq_of_lt hqlt] at hqh
              apply Ok.pure'
              refine ⟨?_, hlt⟩
              simp only [hqh]; exact hmain
            · rename_i hge2
              refine Ok.bind (shlC_spec (by omega)) ?_
              intro dv hdv
              have hdvlt : div.toNat * 2 ^ (2 * q - 1) < 2 ^ (2 * (2 * q)) := by
                rw [hN]
                exact Nat.mul_lt_mul'' (by omega) (Nat.pow_lt_pow_right (by omega) (by omega))
              rw [Nat.mod_eq_of_lt hdvlt] at hdv
              refine Ok.bind (shlC_spec (by omega)) ?_
              intro pow hpow
              rw [h1w, Nat.one_mul, Nat.mod_eq_of_lt (Nat.pow_lt_pow_right (by omega) (by omega))] at hpow
              have e := two_pow_half (w := 2 * q) (by omega)
              have hXlt : X.toNat < 2 * (div.toNat * 2 ^ (2 * q - 1)) := by
                have h3 : (r.toNat + 1) * 2 ^ (2 * q) ≤ div.toNat * 2 ^ (2 * q) := Nat.mul_le_mul_right _ (by omega)
                have h4 := (lo duo).isLt
                calc X.toNat < (r.toNat + 1) * 2 ^ (2 * q) := by rw [Nat.add_mul]; omega
                  _ ≤ _ := h3
                  _ = div.toNat * (2 * 2 ^ (2 * q - 1)) := by rw [← e]
                  _ = _ := by ring
              refine Ok.bind (delegateLoopHi_spec div.toNat (by omega) (2 * q - 1) (2 * q + 1) X dv pow
                0#(2 * q) 0 (by omega) (by omega) hdv hpow (by simp) (by omega) hXlt) ?_
              rintro ⟨duo', quo'⟩ ⟨l1, l2, t, Q', l3, l4⟩
              simp only at l1 l2 l3 l4 ⊢
              refine Ok.bind (hh.eqn _ _ hdl0) ?_
              rintro ⟨a, b⟩ ⟨g1, g2⟩
              refine Ok.bind (shlC_spec (by omega)) ?_
              intro qh hqh
              rw [toNat_zeroWiden, Nat.mod_eq_of_lt hqlt] at hqh
              apply Ok.pure'
              simp only [toNat_zeroWiden, BitVec.toNat_or] at *
              rw [hdl, toNat_lo, Nat.mod_eq_of_lt l2] at g1
              have ha : a.toNat < 2 ^ t := by
                by_contra hc
                have : 2 ^ t * div.toNat ≤ a.toNat * div.toNat := Nat.mul_le_mul_right _ (by omega)
                have e : 2 ^ t * div.toNat = div.toNat * 2 ^ t := by ring
                omega
              have hor : (quo' ||| a).toNat = a.toNat + quo'.toNat := by
                rw [BitVec.toNat_or, or_eq_add' ha (by rw [l3]; exact Nat.dvd_mul_left _ _)]
              have hor' : a.toNat ||| quo'.toNat = a.toNat + quo'.toNat :=
                or_eq_add ha (by rw [l3]; exact Nat.dvd_mul_left _ _)
              have hlt2 := (quo' ||| a).isLt
              rw [hor', or_eq_add (k := 2 * q) (by omega) (by rw [hqh]; exact Nat.dvd_mul_left _ _), hqh]
              simp only [BitVec.toNat_ofNat, Nat.zero_mod, Nat.zero_mul, Nat.add_zero] at l1
              refine ⟨?_, by omega⟩
              rw [Nat.add_mul, Nat.add_mul]; omega
  · simp only [hdh, if_false]
    have hdh0 := ne_zero_toNat hdh
    have hdge : 2 ^ (2 * q) ≤ div.toNat := by
      have : 2 ^ (2 * q) * 1 ≤ 2 ^ (2 * q) * (hi div).toNat := Nat.mul_le_mul_left _ (by omega)
      omega
    by_cases huh : hi duo = 0#(2 * q)
    · simp only [huh, if_true]
      rw [hi_eq_zero_iff] at huh
      apply Ok.pure'
      refine ⟨by simp, ?_⟩
      show duo.toNat < _
      omega
    · simp only [huh, if_false]
      split
      · rename_i hlt
        exact Ok.pure' ⟨by simp, hlt⟩
      · rename_i hge
        have hge : div.toNat ≤ duo.toNat := by omega
        have hle : (hi div).toNat ≤ (hi duo).toNat := by
          rw [toNat_hi, toNat_hi]; exact Nat.div_le_div_right hge
        refine Ok.bind (normShift_half hqk useLz (hi duo) (hi div) hdh0 hle) ?_
        intro s ⟨hs1, hs2⟩
        have hbw := bitLen_le_width (hi duo)
        have hbp := bitLen_pos hdh0
        have hs : s < 2 * q := by omega
        have hdvlt : div.toNat * 2 ^ s < 2 ^ (2 * q + bitLen (hi duo).toNat) := by
          have h3 := (lo div).isLt
          have h4 : div.toNat < 2 ^ (2 * q) * 2 ^ bitLen (hi div).toNat := by
            have h5 : 2 ^ (2 * q) * ((hi div).toNat + 1) ≤ 2 ^ (2 * q) * 2 ^ bitLen (hi div).toNat :=
              Nat.mul_le_mul_left _ (lt_two_pow_bitLen _)
            rw [Nat.mul_add] at h5
            omega
          calc div.toNat * 2 ^ s < 2 ^ (2 * q) * 2 ^ bitLen (hi div).toNat * 2 ^ s :=
                Nat.mul_lt_mul_of_pos_right h4 (Nat.two_pow_pos _)
            _ = 2 ^ (2 * q + (bitLen (hi div).toNat + s)) := by rw [Nat.pow_add, Nat.pow_add]; ring
            _ ≤ _ := Nat.pow_le_pow_right (by omega) (by omega)
        have hdvlt2 : div.toNat * 2 ^ s < 2 ^ (2 * (2 * q)) :=
          Nat.lt_of_lt_of_le hdvlt (Nat.pow_le_pow_right (by omega) (by omega))
        refine Ok.bind (shlC_spec (by omega)) ?_
        intro dv hdv
        rw [Nat.mod_eq_of_lt hdvlt2] at hdv
        refine Ok.bind (shlC_spec hs) ?_
        intro pow hpow
        rw [h1w, Nat.one_mul, Nat.mod_eq_of_lt (Nat.pow_lt_pow_right (by omega) hs)] at hpow
        have hup : duo.toNat < 2 * (div.toNat * 2 ^ s) := by
          have h3 := (lo duo).isLt
          have h4 : 2 ^ (2 * q) * ((hi duo).toNat + 1) ≤ 2 ^ (2 * q) * ((hi div).toNat * 2 ^ (s + 1)) :=
            Nat.mul_le_mul_left _ hs2
          have h5 : (2 ^ (2 * q) * (hi div).toNat) * 2 ^ (s + 1) ≤ div.toNat * 2 ^ (s + 1) :=
            Nat.mul_le_mul_right _ (by omega)
          calc duo.toNat < 2 ^ (2 * q) * ((hi duo).toNat + 1) := by rw [Nat.mul_add]; omega
            _ ≤ _ := h4
            _ = (2 ^ (2 * q) * (hi div).toNat) * 2 ^ (s + 1) := by ring
            _ ≤ _ := h5
            _ = _ := by ring
        have hsign : dv.toNat ≤ 2 ^ (2 * (2 * q) - 1) ∨ 2 ^ (2 * (2 * q) - 1) ≤ duo.toNat := by
          rw [hdv]
          by_cases hb : bitLen (hi duo).toNat = 2 * q
          · right
            have h3 := two_pow_le_of_bitLen (ne_zero_toNat huh)
            rw [hb] at h3
            calc 2 ^ (2 * (2 * q) - 1) = 2 ^ (2 * q) * 2 ^ (2 * q - 1) := by rw [← Nat.pow_add]; congr 1; omega
              _ ≤ 2 ^ (2 * q) * (hi duo).toNat := Nat.mul_le_mul_left _ h3
              _ ≤ _ := by omega
          · left
            exact Nat.le_of_lt (Nat.lt_of_lt_of_le hdvlt (Nat.pow_le_pow_right (by omega) (by omega)))
        refine Ok.bind (delegateLoopFull_spec div s (2 * q + 1) duo dv pow 0#(2 * q) 0 hs
          (by omega) hdv hpow (by simp) hge hup hsign) ?_
        rintro ⟨duo', quo'⟩ ⟨l1, l2⟩
        apply Ok.pure'
        simp only [toNat_zeroWiden] at *
        simp only [BitVec.toNat_ofNat, Nat.zero_mod, Nat.zero_mul, Nat.add_zero] at l1
        exact ⟨by omega, l2⟩

end Verif
