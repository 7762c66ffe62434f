import Verif.Libm.RemPio2Frac
/-! # The complement and the test whether more terms are needed -/
namespace Verif
open Fmt

namespace Pio2
open Hypot

/-- the loop body of `complement` -/
def compStep (i : Nat) (s : Int × (Nat → Int)) : M (Int × (Nat → Int)) := do
      let (carry, iq) := s
      let j ← rd 20 iq i
      if carry = 0 then
        if j ≠ 0 then do
          let d ← i32C (0x1000000 - j)
          let iq ← wr 20 iq i d
          pure (1, iq)
        else pure (carry, iq)
      else do
        let d ← i32C (0xffffff - j)
        let iq ← wr 20 iq i d
        pure (carry, iq)

theorem dig_update {iq : ℕ → ℤ} {n : ℕ} (h : Dig iq n) {v : ℤ} (h0 : 0 ≤ v) (h1 : v < 2 ^ 24) : Dig (Function.update iq n v) (n + 1) := by
  intro s hs
  by_cases h' : s = n
  · subst h'; rw [Function.update_self]; exact ⟨h0, h1⟩
  · rw [Function.update_of_ne h']; exact h s (by omega)

theorem compLoop {iq : ℕ → ℤ} {jz : ℕ} (hj : jz < 20) (hd : Dig iq jz) :
    Ok (forUp compStep jz 0 (0, iq)) fun r => (r.1 = 0 ∨ r.1 = 1) ∧ Dig r.2 jz ∧ dg r.2 jz = r.1 * 2 ^ (24 * jz) - dg iq jz := by
  have := forUp_inv (f := compStep) (fun i (s : Int × (ℕ → ℤ)) => (s.1 = 0 ∨ s.1 = 1) ∧ Dig s.2 i ∧ (∀ t, i ≤ t → s.2 t = iq t) ∧
      dg s.2 i = s.1 * 2 ^ (24 * i) - dg iq i) (c := jz) (i := 0) (s := (0, iq))
    ⟨Or.inl rfl, fun s hs => by omega, fun _ _ => rfl, by simp [dg]⟩ ?_
  · obtain ⟨r, h1, h2, h3, h4, h5⟩ := this
    rw [Nat.zero_add] at h3 h5
    exact ⟨r, h1, h2, h3, h5⟩
  · rintro i ⟨c, u⟩ _ hi ⟨hc, hD, hu, hg⟩
    simp only at hc hD hu hg
    obtain ⟨d0, d1⟩ := hd i (by omega)
    have hui := hu i (le_refl _)
    have hpw : (2 : ℤ) ^ (24 * (i + 1)) = 2 ^ 24 * 2 ^ (24 * i) := by rw [mul_add, pow_add]; ring
    unfold compStep
    simp only
    rw [rd_ok (by omega), ok_bind, hui]
    by_cases h0 : c = 0
    · rw [if_pos h0]
      subst h0
      by_cases hj0 : iq i = 0
      · rw [if_neg (by simpa using hj0)]
        refine ⟨_, rfl, Or.inl rfl, ?_, fun t ht => hu t (by omega), ?_⟩
        · intro s hs
          by_cases h' : s = i
          · subst h'; simp only; rw [hui]; exact ⟨d0, d1⟩
          · exact hD s (by omega)
        · simp only
          rw [dg_succ, dg_succ, hg, hui, hj0]; ring
      · rw [if_pos hj0, i32_ok (by omega) (by omega), ok_bind, wr_ok (by omega), ok_bind]
        refine ⟨_, rfl, Or.inr rfl, dig_update hD (by omega) (by omega), ?_, ?_⟩
        · intro t ht
          simp only
          rw [Function.update_of_ne (by omega)]; exact hu t (by omega)
        · simp only
          rw [dg_succ, dg_succ, dg_update (le_refl _), hg, Function.update_self, hpw]; ring
    · have h1 : c = 1 := by omega
      subst h1
      rw [if_neg h0, i32_ok (by omega) (by omega), ok_bind, wr_ok (by omega), ok_bind]
      refine ⟨_, rfl, Or.inr rfl, dig_update hD (by omega) (by omega), ?_, ?_⟩
      · intro t ht
        simp only
        rw [Function.update_of_ne (by omega)]; exact hu t (by omega)
      · simp only
        rw [dg_succ, dg_succ, dg_update (le_refl _), hg, Function.update_self, hpw]; ring

theorem andI_mask {v : ℤ} (h0 : 0 ≤ v) (h1 : v < 2 ^ 24) {a : ℕ} (ha : a ≤ 30) : andI v (2 ^ a - 1) = v % 2 ^ a := by
  obtain ⟨k, rfl⟩ := Int.eq_ofNat_of_zero_le h0
  unfold andI
  have hp : (2 : ℤ) ^ a - 1 = ((2 ^ a - 1 : ℕ) : ℤ) := by
    rw [Nat.cast_sub Nat.one_le_two_pow]; push_cast; rfl
  have hpa : 2 ^ a ≤ 2 ^ 30 := Nat.pow_le_pow_right (by norm_num) ha
  have hk : k < 2 ^ 24 := by exact_mod_cast h1
  rw [hp, BitVec.ofInt_natCast, BitVec.ofInt_natCast]
  have e : ((BitVec.ofNat 32 k) &&& (BitVec.ofNat 32 (2 ^ a - 1))).toNat = k % 2 ^ a := by
    rw [BitVec.toNat_and, BitVec.toNat_ofNat, BitVec.toNat_ofNat, Nat.mod_eq_of_lt (by omega), Nat.mod_eq_of_lt (by omega),
      Nat.and_two_pow_sub_one_eq_mod]
  have hl : k % 2 ^ a ≤ k := Nat.mod_le _ _
  rw [BitVec.toInt_eq_toNat_of_lt (by rw [e]; omega), e]
  push_cast; rfl

/-- the mask of the top digit -/
theorem mask_spec {iq : ℕ → ℤ} {m a : ℕ} (ha : a = 1 ∨ a = 2) (hm : m + 1 < 20) {D : ℤ} (hD0 : 0 < D) (hd : Dig iq (m + 1))
    (hD : D < 2 ^ (24 - a) * 2 ^ (24 * m)) (hg : dg iq (m + 1) = 2 ^ (24 * (m + 1)) - D) :
    Ok (do let j ← nsubC (m + 1) 1
           let v ← rd 20 iq j
           wr 20 iq j (andI v (2 ^ (24 - a) - 1))) fun iq' => Dig iq' (m + 1) ∧ dg iq' (m + 1) = 2 ^ (24 - a) * 2 ^ (24 * m) - D := by
  obtain ⟨d0, d1⟩ := hd m (by omega)
  rw [nsub_ok (by omega), ok_bind, Nat.add_sub_cancel, rd_ok (by omega), ok_bind, wr_ok (by omega), andI_mask d0 d1 (by omega)]
  refine ⟨_, rfl, ?_, ?_⟩
  · refine dig_update (fun s hs => hd s (by omega)) (Int.emod_nonneg _ (by positivity)) ?_
    have := Int.emod_lt_of_pos (iq m) (b := 2 ^ (24 - a)) (by positivity)
    rcases ha with rfl | rfl <;> norm_num at this ⊢ <;> omega
  · obtain ⟨b1, b2⟩ := dg_bounds (n := m) fun s hs => hd s (by omega)
    rw [dg_succ] at hg
    have hpw : (2 : ℤ) ^ (24 * (m + 1)) = 2 ^ 24 * 2 ^ (24 * m) := by rw [mul_add, pow_add]; ring
    rw [hpw] at hg
    have hp : (0 : ℤ) < 2 ^ (24 * m) := by positivity
    rw [dg_succ, dg_update (le_refl _), Function.update_self]
    generalize (2 : ℤ) ^ (24 * m) = P at *
    have hlow : (2 : ℤ) ^ 24 - 2 ^ (24 - a) ≤ iq m := by
      by_contra hc
      have : iq m + 1 ≤ (2 : ℤ) ^ 24 - 2 ^ (24 - a) := by omega
      nlinarith
    have hmod : iq m % 2 ^ (24 - a) = iq m - (2 ^ 24 - 2 ^ (24 - a)) := by
      rcases ha with rfl | rfl <;> norm_num at hlow ⊢ <;> omega
    rw [hmod]
    linarith

section
variable {N : FPU f64}

/-- the end of `complement` -/
def compMask (q0 : Int) (jz : Nat) (iq : Nat → Int) : M (Nat → Int) :=
  if q0 = 1 then do
        let j ← nsubC jz 1
        let v ← rd 20 iq j
        wr 20 iq j (andI v 0x7fffff)
      else if q0 = 2 then do
        let j ← nsubC jz 1
        let v ← rd 20 iq j
        wr 20 iq j (andI v 0x3fffff)
      else pure iq
/-- the end of `complement` -/
def compZ (N : FPU f64) (q0 ih carry : Int) (z : D) : M D :=
  if ih = 2 then do
        let z := N.sub cone z
        if carry ≠ 0 then do
          let t ← f64.scalbn N cone q0
          pure (N.sub z t)
        else pure z
      else pure z

theorem complement_eq (q0 : Int) (jz : Nat) (n ih : Int) (z : D) (iq : Nat → Int) (h : ih > 0) :
    complement N q0 jz n ih z iq = (do
      let n ← i32C (n + 1)
      let r ← forUp compStep jz 0 (0, iq)
      let iq ← compMask q0 jz r.2
      let z ← compZ N q0 ih r.1 z
      pure (n, z, iq)) := by
  unfold complement
  rw [if_pos h]
  rfl

theorem compZ_two {q0 c : ℤ} (h1 : -27 ≤ q0) (h2 : q0 < 0) (hc : c = 0 ∨ c = 1) {z : D} {ζ : ℝ} (hz : Fv z ζ) (z0 : 0 ≤ ζ) (z1 : ζ < 1)
    (hg : Mul2 q0 ζ) : Ok (compZ N q0 2 c z) fun z' => Fv z' (1 - ζ - c * 2 ^ q0) := by
  have g1 : Mul2 q0 1 := Mul2.mono (j := 0) ⟨1, by simp⟩ (by omega)
  have hb : (1 : ℝ) ≤ 2 ^ (q0 + 53) := by
    calc (1 : ℝ) = 2 ^ (0 : ℤ) := by norm_num
      _ ≤ _ := zpow_le_zpow_right₀ (by norm_num) (by omega)
  have f1 : Fv (N.sub cone z) (1 - ζ) := fv_cone.sub N hz (g1.sub hg) (by rw [abs_of_nonneg (by linarith)]; linarith) (by omega) (by omega)
  unfold compZ
  rw [if_pos rfl]
  simp only
  rcases hc with rfl | rfl
  · rw [if_neg (by simp)]
    exact ⟨_, rfl, by simpa using f1⟩
  · rw [if_pos (by simp)]
    have gq : Mul2 q0 ((2 : ℝ) ^ q0) := ⟨1, by simp⟩
    have hq1 : (2 : ℝ) ^ q0 ≤ 1 := by
      calc (2 : ℝ) ^ q0 ≤ 2 ^ (0 : ℤ) := zpow_le_zpow_right₀ (by norm_num) (by omega)
        _ = 1 := by norm_num
    have hq0 : (0 : ℝ) < 2 ^ q0 := by positivity
    obtain ⟨t, e, ft⟩ := fv_cone.scalbn N (n := q0) (j := q0) (by omega) (by omega) (by rw [one_mul]; exact gq)
      (by rw [one_mul, abs_of_pos hq0]; linarith) (by omega) (by omega)
    rw [one_mul] at ft
    rw [e, ok_bind]
    refine ⟨_, rfl, ?_⟩
    push_cast
    rw [one_mul]
    exact f1.sub N ft ((g1.sub hg).sub gq) (by rw [abs_le]; constructor <;> linarith) (by omega) (by omega)

theorem complement_spec {q0 : ℤ} (h1 : -27 ≤ q0) (h2 : q0 ≤ 2) {jz : ℕ} (hj0 : 0 < jz) (hj : jz < 20) {n ih : ℤ} (hn0 : 0 ≤ n) (hn : n ≤ 10)
    {z : D} {iq : ℕ → ℤ} {φ : ℝ} (hst : St q0 jz z iq φ) (hφ0 : 0 ≤ φ) (hφ1 : φ < 1)
    (hih : (ih = 0 ∧ φ < 1 / 2) ∨ (ih = (if q0 < 0 then 2 else 1) ∧ 1 / 2 ≤ φ)) :
    Ok (complement N q0 jz n ih z iq) fun r => ∃ φ', St q0 jz r.2.1 r.2.2 φ' ∧ 0 ≤ φ' ∧ φ' ≤ 1 / 2 ∧
      ((ih = 0 ∧ r.1 = n ∧ φ' = φ) ∨ (0 < ih ∧ r.1 = n + 1 ∧ φ' = 1 - φ)) := by
  rcases hih with ⟨h0, hlt⟩ | ⟨hi, hge⟩
  · subst h0
    exact ⟨_, rfl, φ, hst, hφ0, hlt.le, Or.inl ⟨rfl, rfl, rfl⟩⟩
  have hpos : ih > 0 := by rw [hi]; split <;> norm_num
  obtain ⟨hd, htop, ζ, fz, z0, z1, zz, zg, hφ⟩ := hst
  obtain ⟨fr0, fr1⟩ := fr_bounds hd
  have hp : (0 : ℝ) < 2 ^ q0 := by positivity
  obtain ⟨⟨c, u⟩, e1, hc, hud, hug⟩ := compLoop hj hd
  simp only at hc hud hug
  rw [complement_eq _ _ _ _ _ _ hpos, i32_ok (by omega) (by omega), ok_bind, e1, ok_bind]
  simp only
  have hugR : (dg u jz : ℝ) = c * 2 ^ (24 * jz) - dg iq jz := by exact_mod_cast hug
  have hfu : fr u jz = c - fr iq jz := by
    unfold fr
    rw [hugR, sub_div, mul_div_assoc, div_self (by positivity), mul_one]
  by_cases hq : q0 < 0
  · rw [if_pos hq] at hi
    subst hi
    have hζ1 : ζ < 1 := by
      have : 0 ≤ fr iq jz * 2 ^ q0 := by positivity
      linarith
    obtain ⟨z', e2, f2⟩ := compZ_two (N := N) h1 hq hc fz z0 hζ1 zg
    unfold compMask
    rw [if_neg (by omega), if_neg (by omega)]
    change Ok (compZ N q0 2 c z >>= _) _
    rw [e2, ok_bind]
    have hle := mul2_lt_one hq.le zg (m := 1) (by simpa using hζ1)
    push_cast at hle
    have hgz : Mul2 q0 (1 - ζ - c * 2 ^ q0) :=
      ((Mul2.mono (j := 0) ⟨1, by simp⟩ (by omega)).sub zg).sub ⟨c, rfl⟩
    have hc0 : (0 : ℝ) ≤ c * 2 ^ q0 := by
      rcases hc with rfl | rfl
      · simp
      · push_cast; linarith
    have hc1 : (c : ℝ) * 2 ^ q0 ≤ 2 ^ q0 := by
      rcases hc with rfl | rfl
      · push_cast; linarith
      · push_cast; linarith
    refine ⟨_, rfl, 1 - φ, ⟨hud, fun h => by omega, 1 - ζ - c * 2 ^ q0, f2, ?_, ?_, fun h => by omega, hgz, ?_⟩, by linarith, by linarith,
      Or.inr ⟨hpos, rfl, rfl⟩⟩
    · linarith
    · linarith
    · simp only
      rw [hfu, hφ]; ring
  · rw [if_neg hq] at hi
    subst hi
    have hz0 := zz (by omega)
    rw [hz0, zero_add] at hφ
    -- the carry is 1
    have hc1 : c = 1 := by
      rcases hc with rfl | h
      · exfalso
        obtain ⟨b1, _⟩ := dg_bounds hud
        rw [zero_mul, zero_sub] at hug
        obtain ⟨b2, _⟩ := dg_bounds hd
        have : dg iq jz = 0 := by omega
        have : fr iq jz = 0 := by unfold fr; rw [this]; simp
        rw [this, zero_mul] at hφ
        linarith
      · exact h
    subst hc1
    rw [one_mul] at hug
    have hcz : compZ N q0 1 1 z = .ok z := by unfold compZ; rw [if_neg (by norm_num)]; rfl
    obtain ⟨m, rfl⟩ : ∃ m, jz = m + 1 := ⟨jz - 1, by omega⟩
    -- the result
    have key : ∀ a : ℕ, q0 = a → a ≤ 2 → ∀ iq' : ℕ → ℤ, Dig iq' (m + 1) → dg iq' (m + 1) = 2 ^ (24 - a) * 2 ^ (24 * m) - dg iq (m + 1) →
        ∃ φ', St q0 (m + 1) z iq' φ' ∧ 0 ≤ φ' ∧ φ' ≤ 1 / 2 ∧ (((1 : ℤ) = 0 ∧ n + 1 = n ∧ φ' = φ) ∨ ((0 : ℤ) < 1 ∧ n + 1 = n + 1 ∧ φ' = 1 - φ)) := by
      intro a hqa ha iq' hd' hg'
      have hg'R : (dg iq' (m + 1) : ℝ) = 2 ^ (24 - a) * 2 ^ (24 * m) - dg iq (m + 1) := by exact_mod_cast hg'
      have hpw : (2 : ℝ) ^ (24 - a) * 2 ^ (24 * m) * 2 ^ a = 2 ^ (24 * (m + 1)) := by
        rw [← pow_add, ← pow_add]; congr 1; omega
      have hf : fr iq' (m + 1) * 2 ^ q0 = 1 - φ := by
        rw [hφ, hqa, zpow_natCast]
        unfold fr
        rw [hg'R, div_mul_eq_mul_div, sub_mul, hpw, sub_div, div_self (by positivity), div_mul_eq_mul_div]
      refine ⟨1 - φ, ⟨hd', fun _ => by rw [hf]; linarith, ζ, fz, z0, z1, zz, zg, by rw [hz0, hf, zero_add]⟩, by linarith, by linarith,
        Or.inr ⟨by norm_num, rfl, rfl⟩⟩
    have hmask : ∀ a : ℕ, q0 = a → (a = 1 ∨ a = 2) → 0 < dg iq (m + 1) ∧ dg iq (m + 1) < 2 ^ (24 - a) * 2 ^ (24 * m) := by
      intro a hqa ha
      have hpw : (2 : ℝ) ^ (24 - a) * 2 ^ (24 * m) * 2 ^ a = 2 ^ (24 * (m + 1)) := by
        rw [← pow_add, ← pow_add]; congr 1; omega
      have ht := htop (by omega)
      rw [hqa, zpow_natCast] at ht hφ
      constructor
      · obtain ⟨b2, _⟩ := dg_bounds hd
        rcases lt_or_eq_of_le b2 with h | h
        · exact h
        · exfalso
          have : fr iq (m + 1) = 0 := by unfold fr; rw [← h]; simp
          rw [this, zero_mul] at hφ
          linarith
      · unfold fr at ht
        rw [div_mul_eq_mul_div, div_lt_one (by positivity), ← hpw] at ht
        have := lt_of_mul_lt_mul_right ht (by positivity)
        exact_mod_cast this
    have hmid : ∀ iq' : ℕ → ℤ, compMask q0 (m + 1) u = .ok iq' →
        (compMask q0 (m + 1) u >>= fun iq => compZ N q0 1 1 z >>= fun z => pure (n + 1, z, iq)) = .ok (n + 1, z, iq') := by
      intro iq' h
      rw [h, ok_bind, hcz, ok_bind]; rfl
    rcases (show q0 = 0 ∨ q0 = 1 ∨ q0 = 2 by omega) with h | h | h
    · have e3 : compMask q0 (m + 1) u = .ok u := by unfold compMask; rw [if_neg (by omega), if_neg (by omega)]; rfl
      refine ⟨_, hmid _ e3, ?_⟩
      refine key 0 (by simpa using h) (by omega) u hud ?_
      rw [hug, Nat.sub_zero, ← pow_add]; congr 2; ring
    · obtain ⟨m1, m2⟩ := hmask 1 (by simpa using h) (by omega)
      obtain ⟨iq', e3, g1, g2⟩ := mask_spec (a := 1) (by omega) hj m1 hud m2 hug
      refine ⟨_, hmid iq' ?_, key 1 (by simpa using h) (by omega) iq' g1 g2⟩
      unfold compMask; rw [if_pos h]; exact e3
    · obtain ⟨m1, m2⟩ := hmask 2 (by simpa using h) (by omega)
      obtain ⟨iq', e3, g1, g2⟩ := mask_spec (a := 2) (by omega) hj m1 hud m2 hug
      refine ⟨_, hmid iq' ?_, key 2 (by simpa using h) (by omega) iq' g1 g2⟩
      unfold compMask; rw [if_neg (by omega), if_pos h]; exact e3

/-! ### The test -/

theorem scanK_spec {iq : ℕ → ℤ} {jk : ℕ} (hjk : jk ≤ 20) (hne : ∃ i, i < jk ∧ iq i ≠ 0) :
    ∀ (fuel k : ℕ), 1 ≤ k → k ≤ jk + 1 → jk + 2 ≤ fuel + k → (∀ i, jk < i + k → i < jk → iq i = 0) → Ok (scanK iq jk fuel k) fun r => 1 ≤ r ∧ r ≤ jk := by
  obtain ⟨i0, hi0, hv0⟩ := hne
  intro fuel
  induction fuel with
  | zero => intro k h1 h2 h3; omega
  | succ f ih =>
    intro k h1 h2 h3 hz
    have hk : k ≤ jk := by
      by_contra hc
      exact hv0 (hz i0 (by omega) hi0)
    rw [scanK, nsub_ok hk, ok_bind, rd_ok (by omega), ok_bind]
    by_cases hv : iq (jk - k) = 0
    · rw [if_pos hv]
      refine ih (k + 1) (by omega) (by omega) (by omega) fun i a b => ?_
      by_cases hi : i = jk - k
      · rw [hi]; exact hv
      · exact hz i (by omega) b
    · rw [if_neg hv]
      exact ⟨k, rfl, h1, hk⟩

theorem ofInt_zero_iff {v : ℤ} (h0 : 0 ≤ v) (h1 : v < 2 ^ 24) : BitVec.ofInt 32 v = 0#32 ↔ v = 0 := by
  obtain ⟨k, rfl⟩ := Int.eq_ofNat_of_zero_le h0
  have hk : k < 2 ^ 24 := by exact_mod_cast h1
  rw [BitVec.ofInt_natCast, ← BitVec.toNat_inj, BitVec.toNat_ofNat, Nat.mod_eq_of_lt (by omega)]
  simp

theorem dg_le_of {iq : ℕ → ℤ} {n t : ℕ} (h : Dig iq n) (ht : t < n) (hv : iq t ≠ 0) : (2 : ℤ) ^ (24 * t) ≤ dg iq n := by
  unfold dg
  refine le_trans ?_ (Finset.single_le_sum (f := fun s => iq s * 2 ^ (24 * s)) (fun s hs => ?_) (Finset.mem_range.mpr ht))
  · have := (h t ht).1
    have : 1 ≤ iq t := by omega
    nlinarith [show (0 : ℤ) < 2 ^ (24 * t) by positivity]
  · exact mul_nonneg (h s (Finset.mem_range.mp hs)).1 (by positivity)

theorem dg_zeros {iq : ℕ → ℤ} {m : ℕ} : ∀ n, m ≤ n → (∀ t, m ≤ t → t < n → iq t = 0) → dg iq n = dg iq m := by
  intro n h
  induction n, h using Nat.le_induction with
  | base => intro _; rfl
  | succ n hn ih =>
    intro hz
    rw [dg_succ, ih fun t a b => hz t a (by omega), hz n hn (by omega)]; ring

theorem needMore_spec {q0 : ℤ} {jk jz : ℕ} (hjk : 0 < jk) (hle : jk ≤ jz) (hj : jz < 20) {z : D} {iq : ℕ → ℤ} {φ : ℝ} (hst : St q0 jz z iq φ)
    (hφ : 0 < φ) :
    Ok (needMore jk jz z iq) fun o => match o with
      | none => 2 ^ q0 / 2 ^ (24 * (jz - jk)) ≤ φ
      | some k => 1 ≤ k ∧ k ≤ jk ∧ φ < 2 ^ q0 / 2 ^ (24 * (jz - jk)) := by
  obtain ⟨hd, htop, ζ, fz, z0, z1, zz, zg, he⟩ := hst
  obtain ⟨fr0, fr1⟩ := fr_bounds hd
  have hp : (0 : ℝ) < 2 ^ q0 := by positivity
  have hfeq := feq_fv fz fv_zero
  have hQ : (2 : ℝ) ^ (24 * jz) = 2 ^ (24 * (jz - jk)) * 2 ^ (24 * jk) := by rw [← pow_add]; congr 1; omega
  have hone : (1 : ℝ) ≤ 2 ^ (24 * (jz - jk)) := one_le_pow₀ (by norm_num)
  unfold needMore
  by_cases hz : ζ = 0
  · rw [if_pos (hfeq.mpr hz), nsub_ok (by omega), ok_bind]
    have hloop := forDn_inv (f := fun t (j : BitVec 32) => do
        let v ← rd 20 iq (jk + t)
        pure (j ||| BitVec.ofInt 32 v)) (fun k (j : BitVec 32) => j = 0#32 ↔ ∀ t, k ≤ t → t < jz - jk → iq (jk + t) = 0) (c := jz - jk) (s := 0#32)
      ⟨fun _ t a b => by omega, fun _ => rfl⟩ (by
        intro k s hk hi
        rw [rd_ok (by omega), ok_bind]
        refine ⟨_, rfl, ?_⟩
        obtain ⟨d0, d1⟩ := hd (jk + k) (by omega)
        rw [BitVec.or_eq_zero_iff, hi, ofInt_zero_iff d0 d1]
        constructor
        · rintro ⟨a, b⟩ t h1 h2
          by_cases h : t = k
          · rw [h]; exact b
          · exact a t (by omega) h2
        · intro h
          exact ⟨fun t a b => h t (by omega) b, h k (le_refl _) hk⟩)
    obtain ⟨j, e, hj⟩ := hloop
    rw [e, ok_bind]
    rw [hz, zero_add] at he
    by_cases hj0 : j = 0#32
    · rw [if_pos hj0]
      have hzero := hj.mp hj0
      have hdk : dg iq jz = dg iq jk := dg_zeros jz hle fun t a b => by
        have := hzero (t - jk) (by omega) (by omega)
        rwa [show jk + (t - jk) = t by omega] at this
      have hdpos : 0 < dg iq jz := by
        rcases lt_or_eq_of_le (dg_bounds hd).1 with h | h
        · exact h
        · exfalso
          have : fr iq jz = 0 := by unfold fr; rw [← h]; simp
          rw [he, this, zero_mul] at hφ
          exact lt_irrefl _ hφ
      have hne : ∃ i, i < jk ∧ iq i ≠ 0 := by
        by_contra hc
        push Not at hc
        have := dg_zeros (iq := iq) (m := 0) jk (by omega) fun t _ b => hc t b
        rw [hdk, this] at hdpos
        simp [dg] at hdpos
      obtain ⟨k, ek, k1, k2⟩ := scanK_spec (by omega) hne (jk + 2) 1 (le_refl _) (by omega) (by omega) fun i a b => by omega
      rw [ek, ok_bind]
      refine ⟨_, rfl, k1, k2, ?_⟩
      have hlt : (dg iq jz : ℝ) < 2 ^ (24 * jk) := by
        have := (dg_bounds (n := jk) fun s hs => hd s (by omega)).2
        rw [hdk]; exact_mod_cast this
      rw [he]
      unfold fr
      rw [hQ, div_mul_eq_mul_div, div_lt_div_iff₀ (by positivity) (by positivity)]
      have : (dg iq jz : ℝ) * (2 ^ q0 * 2 ^ (24 * (jz - jk))) < 2 ^ (24 * jk) * (2 ^ q0 * 2 ^ (24 * (jz - jk))) :=
        mul_lt_mul_of_pos_right hlt (by positivity)
      linarith
    · rw [if_neg hj0]
      refine ⟨_, rfl, ?_⟩
      have : ∃ t, t < jz - jk ∧ iq (jk + t) ≠ 0 := by
        by_contra hc
        push Not at hc
        exact hj0 (hj.mpr fun t _ b => hc t b)
      obtain ⟨t, t1, t2⟩ := this
      have hge := dg_le_of hd (t := jk + t) (by omega) t2
      have hge2 : (2 : ℝ) ^ (24 * jk) ≤ dg iq jz := by
        have h1 : (2 : ℤ) ^ (24 * jk) ≤ 2 ^ (24 * (jk + t)) := pow_le_pow_right₀ (by norm_num) (by omega)
        exact_mod_cast h1.trans hge
      simp only
      rw [he]
      unfold fr
      rw [hQ, div_mul_eq_mul_div, div_le_div_iff₀ (by positivity) (by positivity)]
      have : (2 : ℝ) ^ (24 * jk) * (2 ^ q0 * 2 ^ (24 * (jz - jk))) ≤ dg iq jz * (2 ^ q0 * 2 ^ (24 * (jz - jk))) :=
        mul_le_mul_of_nonneg_right hge2 (by positivity)
      linarith
  · rw [if_neg (fun h => hz (hfeq.mp h))]
    refine ⟨_, rfl, ?_⟩
    simp only
    obtain ⟨k, hk⟩ := zg
    have hk1 : 1 ≤ k := by
      by_contra hc
      have : k ≤ 0 := by omega
      have hkR : (k : ℝ) ≤ 0 := by exact_mod_cast this
      exact hz (le_antisymm (by rw [hk]; nlinarith) z0)
    have hkR : (1 : ℝ) ≤ k := by exact_mod_cast hk1
    have : (2 : ℝ) ^ q0 ≤ ζ := by rw [hk]; nlinarith
    have h2 : (2 : ℝ) ^ q0 / 2 ^ (24 * (jz - jk)) ≤ 2 ^ q0 := div_le_self hp.le hone
    have : 0 ≤ fr iq jz * 2 ^ q0 := by positivity
    linarith

end
end Pio2
end Verif
