import Verif.Libm.RemPio2Loop
/-! # The end of `rem_pio2_large`: the product with `π/2` -/
namespace Verif
open Fmt

namespace Pio2
open Hypot

section
variable {N : FPU f64}

theorem chopZ_spec {iq : ℕ → ℤ} : ∀ (jz : ℕ) (q0 : ℤ), jz < 20 → -2 ^ 20 ≤ q0 - 24 * jz → q0 ≤ 100 → (∃ i, i ≤ jz ∧ iq i ≠ 0) →
    Ok (chopZ iq jz q0) fun r => r.1 ≤ jz ∧ r.2 = q0 - 24 * (jz - r.1 : ℕ) ∧ iq r.1 ≠ 0 ∧ ∀ t, r.1 < t → t ≤ jz → iq t = 0
  | 0, q0, h20, _, _, ⟨i, hi, hne⟩ => by
    have : i = 0 := by omega
    subst this
    rw [chopZ, rd_ok (by omega), ok_bind, if_neg hne]
    exact ⟨_, rfl, le_refl _, by simp, hne, fun t a b => by simp only at a; omega⟩
  | jz + 1, q0, h20, h1, h2, ⟨i, hi, hne⟩ => by
    rw [chopZ, rd_ok (by omega), ok_bind]
    push_cast at h1
    by_cases hv : iq (jz + 1) = 0
    · rw [if_pos hv, i32_ok (by omega) (by omega), ok_bind]
      have hij : i ≠ jz + 1 := fun h => hne (by rw [h]; exact hv)
      refine Ok.mono (chopZ_spec jz (q0 - 24) (by omega) (by omega) (by omega) ⟨i, by omega, hne⟩) ?_
      rintro ⟨a, b⟩ ⟨a1, a2, a3, a4⟩
      simp only at a1 a2 a3 a4 ⊢
      refine ⟨by omega, by omega, a3, fun t h3 h4 => ?_⟩
      by_cases ht : t = jz + 1
      · rw [ht]; exact hv
      · exact a4 t h3 (by omega)
    · rw [if_neg hv]
      refine ⟨_, rfl, le_refl _, by simp, hv, fun t a b => ?_⟩
      simp only at a
      omega

/-- what `chop` returns: the digits of `φ` with the leading one not zero -/
def Chopped (q0 : ℤ) (jz : ℕ) (φ : ℝ) (r : ℕ × ℤ × (ℕ → ℤ)) : Prop :=
  r.1 ≤ jz + 1 ∧ r.2.1 = q0 - 24 * jz + 24 * r.1 ∧ Dig r.2.2 (r.1 + 1) ∧ r.2.2 r.1 ≠ 0 ∧ φ = dg r.2.2 (r.1 + 1) * 2 ^ (q0 - 24 * jz)

theorem fr_eq (iq : ℕ → ℤ) (jz : ℕ) (q0 : ℤ) : fr iq jz * 2 ^ q0 = dg iq jz * 2 ^ (q0 - 24 * jz) := by
  unfold fr
  rw [zpow_sub₀ (by norm_num), show (24 * (jz : ℤ)) = ((24 * jz : ℕ) : ℤ) by push_cast; rfl, zpow_natCast]
  ring

theorem chop_spec {q0 : ℤ} (hq1 : -27 ≤ q0) (hq2 : q0 ≤ 2) {jz : ℕ} (hj0 : 0 < jz) (hj : jz ≤ 18) {z : D} {iq : ℕ → ℤ} {φ : ℝ} (hst : St q0 jz z iq φ)
    (hφ : 0 < φ) : Ok (chop N q0 jz z iq) (Chopped q0 jz φ) := by
  obtain ⟨hd, htop, ζ, fz, z0, z1, zz, zg, he⟩ := hst
  have hfeq := feq_fv fz fv_zero
  rw [fr_eq] at he
  unfold chop
  by_cases hz : ζ = 0
  · rw [if_pos (hfeq.mpr hz), nsub_ok (by omega), ok_bind, i32_ok (by omega) (by omega), ok_bind]
    rw [hz, zero_add] at he
    have hne : ∃ i, i ≤ jz - 1 ∧ iq i ≠ 0 := by
      by_contra hc
      push Not at hc
      have := dg_zeros (iq := iq) (m := 0) jz (by omega) fun t _ b => hc t (by omega)
      rw [he, this] at hφ
      simp [dg] at hφ
    obtain ⟨⟨j, q⟩, e, a1, a2, a3, a4⟩ := chopZ_spec (jz - 1) (q0 - 24) (by omega) (by omega) (by omega) hne
    simp only at a1 a2 a3 a4
    rw [e, ok_bind]
    refine ⟨_, rfl, by simp only; omega, by simp only; omega, fun s hs => hd s (by simp only at hs; omega), a3, ?_⟩
    rw [he, dg_zeros (m := j + 1) jz (by omega) fun t h1 h2 => a4 t (by omega) (by omega)]
  · rw [if_neg (fun h => hz (hfeq.mp h)), i32_ok (by omega) (by omega), ok_bind]
    have hqneg : q0 < 0 := by
      by_contra hc
      exact hz (zz (by omega))
    obtain ⟨Y, hY⟩ := zg
    have hp : (0 : ℝ) < 2 ^ q0 := by positivity
    have hY1 : 1 ≤ Y := by
      by_contra hc
      have : Y ≤ 0 := by omega
      have hkR : (Y : ℝ) ≤ 0 := by exact_mod_cast this
      exact hz (le_antisymm (by rw [hY]; nlinarith) z0)
    have hscal : ζ * 2 ^ (-q0) = Y := by
      rw [hY, mul_assoc, ← zpow_add₀ (by norm_num), add_neg_cancel, zpow_zero, mul_one]
    have hY27R : (Y : ℝ) ≤ 2 ^ 27 := by
      rw [← hscal]
      calc ζ * 2 ^ (-q0) ≤ 1 * 2 ^ (-q0) := mul_le_mul_of_nonneg_right z1 (by positivity)
        _ ≤ 2 ^ (27 : ℤ) := by rw [one_mul]; exact zpow_le_zpow_right₀ (by norm_num) (by omega)
        _ = 2 ^ 27 := by norm_num
    have hY27 : Y ≤ 2 ^ 27 := by exact_mod_cast hY27R
    have hrange : ∀ v : ℤ, 0 ≤ v → v ≤ 2 ^ 27 → Mul2 0 (v : ℝ) ∧ |(v : ℝ)| ≤ 2 ^ ((0 : ℤ) + 53) := by
      intro v h0 h1
      refine ⟨⟨v, by simp⟩, ?_⟩
      rw [abs_of_nonneg (by exact_mod_cast h0)]
      have : (v : ℝ) ≤ 2 ^ 27 := by exact_mod_cast h1
      refine this.trans ?_
      norm_num
    obtain ⟨g1, g2⟩ := hrange Y (by omega) hY27
    obtain ⟨y, ey, fy⟩ := fz.scalbn N (n := -q0) (j := 0) (by omega) (by omega) (by rw [hscal]; exact g1) (by rw [hscal]; exact g2)
      (by norm_num) (by norm_num)
    rw [hscal] at fy
    rw [ey, ok_bind]
    have hWj : (2 : ℝ) ^ q0 = 2 ^ (24 * jz) * 2 ^ (q0 - 24 * jz) := by
      rw [← zpow_natCast, ← zpow_add₀ (by norm_num)]; congr 1; push_cast; ring
    have hge := ge_fv fy fv_x1p24
    by_cases hbig : (2 : ℝ) ^ 24 ≤ Y
    · rw [if_pos (hge.mpr hbig)]
      have hbigZ : (2 : ℤ) ^ 24 ≤ Y := by exact_mod_cast hbig
      obtain ⟨k, hk⟩ : ∃ k, k = Y / 2 ^ 24 := ⟨_, rfl⟩
      obtain ⟨l, hl⟩ : ∃ l, l = Y % 2 ^ 24 := ⟨_, rfl⟩
      have hkl : Y = k * 2 ^ 24 + l := by omega
      have hk1 : 1 ≤ k := by omega
      have hk8 : k ≤ 8 := by omega
      have hl0 : 0 ≤ l := by omega
      have hl1 : l < 2 ^ 24 := by omega
      have hklR : (Y : ℝ) = k * 2 ^ 24 + l := by exact_mod_cast hkl
      have fm : Fv (N.mul x1m24 y) (1 / 2 ^ 24 * Y) := by
        refine fv_x1m24.mul N fy (j := -24) ⟨Y, ?_⟩ ?_ (by norm_num) (by norm_num)
        · rw [zpow_neg]; norm_num; ring
        · rw [abs_of_nonneg (by positivity)]
          norm_num
          norm_num at hY27R
          linarith
      have hfl : ⌊(1 / 2 ^ 24 * Y : ℝ)⌋ = k := by
        rw [Int.floor_eq_iff, hklR]
        have h1 : (0 : ℝ) ≤ l := by exact_mod_cast hl0
        have h2 : (l : ℝ) < 2 ^ 24 := by exact_mod_cast hl1
        norm_num at h2 ⊢
        constructor <;> linarith
      have ek := toI32_floor fm (by positivity) (by norm_num; norm_num at hY27R; linarith)
      rw [hfl] at ek
      obtain ⟨fw, efw, ffw⟩ := ofI32_spec (k := k) (by omega) (by omega)
      obtain ⟨g3, g4⟩ := hrange (2 ^ 24 * k) (by omega) (by omega)
      have hc24 : ((2 ^ 24 * k : ℤ) : ℝ) = 2 ^ 24 * (k : ℝ) := by push_cast; norm_num
      rw [hc24] at g3 g4
      have f3 := fv_x1p24.mul N ffw g3 g4 (by norm_num) (by norm_num)
      obtain ⟨g5, g6⟩ := hrange l (by omega) (by omega)
      have hsub : (Y : ℝ) - 2 ^ 24 * k = l := by rw [hklR]; ring
      have f4 := fy.sub N f3 (by rw [hsub]; exact g5) (by rw [hsub]; exact g6) (by norm_num) (by norm_num)
      rw [hsub] at f4
      rw [ek, ok_bind, efw, ok_bind, toI32_int f4 (by omega) (by omega), ok_bind, wr_ok (by omega), ok_bind, i32_ok (by omega) (by omega), ok_bind,
        toI32_int ffw (by omega) (by omega), ok_bind, wr_ok (by omega), ok_bind]
      refine ⟨_, rfl, le_refl _, ?_, ?_, ?_, ?_⟩
      · simp only; push_cast; ring
      · simp only
        refine dig_update (dig_update hd hl0 hl1) (by omega) (by omega)
      · simp only
        rw [Function.update_self]; omega
      · simp only
        rw [dg_succ, dg_update (le_refl _), Function.update_self, dg_succ, dg_update (le_refl _), Function.update_self, he, hY, hWj, hklR]
        rw [mul_add 24 jz 1, pow_add]
        push_cast
        ring
    · rw [if_neg (fun h => hbig (hge.mp h))]
      have hsm : Y < 2 ^ 24 := by
        have := not_le.mp hbig
        exact_mod_cast this
      rw [toI32_int fy (by omega) (by omega), ok_bind, wr_ok (by omega), ok_bind]
      refine ⟨_, rfl, by simp only; omega, by simp only; ring, ?_, ?_, ?_⟩
      · simp only
        exact dig_update hd (by omega) hsm
      · simp only
        rw [Function.update_self]; omega
      · simp only
        rw [dg_succ, dg_update (le_refl _), Function.update_self, he, hY, hWj]
        push_cast
        ring

theorem toFloats_spec {q0 : ℤ} (hq1 : -500 ≤ q0) (hq2 : q0 ≤ 100) {jz : ℕ} (hj : jz < 20) {iq : ℕ → ℤ} (hd : Dig iq (jz + 1)) (q : ℕ → D) :
    Ok (toFloats N q0 jz iq q) fun r => ∀ i, i ≤ jz → Fv (r i) (iq i * 2 ^ (q0 - 24 * (jz - i : ℕ))) := by
  have hone : ∀ t : ℤ, (-1074 ≤ t) → t ≤ 100 → Mul2 t ((2 : ℝ) ^ t) ∧ |(2 : ℝ) ^ t| ≤ 2 ^ (t + 53) := by
    intro t _ _
    refine ⟨⟨1, by simp⟩, ?_⟩
    rw [abs_of_pos (by positivity)]
    exact zpow_le_zpow_right₀ (by norm_num) (by omega)
  obtain ⟨g1, g2⟩ := hone q0 (by omega) hq2
  obtain ⟨fw, e, f⟩ := fv_cone.scalbn N (n := q0) (j := q0) (by omega) (by omega) (by rwa [one_mul]) (by rwa [one_mul]) (by omega) (by omega)
  rw [one_mul] at f
  unfold toFloats
  rw [e, ok_bind]
  have key := forDn_inv (c := jz + 1) (s := (fw, q)) (f := fun i (s : D × (Nat → D)) => do
    let (fw, q) := s
    let v ← rd 20 iq i
    let d ← ofI32 v
    let q ← wr 20 q i (N.mul fw d)
    pure (N.mul fw x1m24, q)) (fun k s => Fv s.1 (2 ^ (q0 - 24 * (jz + 1 - k : ℕ))) ∧
      ∀ i, k ≤ i → i ≤ jz → Fv (s.2 i) (iq i * 2 ^ (q0 - 24 * (jz - i : ℕ)))) ⟨by simpa using f, fun i a b => by omega⟩ ?_
  · obtain ⟨⟨w, r⟩, e2, _, h2⟩ := key
    rw [e2, ok_bind]
    exact ⟨r, rfl, fun i hi => h2 i (by omega) hi⟩
  · rintro k ⟨w, r⟩ hk ⟨h1, h2⟩
    simp only at h1 h2
    obtain ⟨d0, d1⟩ := hd k hk
    obtain ⟨d, e3, f3⟩ := ofI32_spec (k := iq k) (by omega) (by omega)
    simp only
    rw [rd_ok (by omega), ok_bind, e3, ok_bind, wr_ok (by omega), ok_bind]
    have hex : ((jz + 1 - (k + 1) : ℕ) : ℤ) = ((jz - k : ℕ) : ℤ) := by omega
    rw [hex] at h1
    obtain ⟨t, ht⟩ : ∃ t, t = q0 - 24 * (jz - k : ℕ) := ⟨_, rfl⟩
    have htt : -1050 ≤ t ∧ t ≤ 100 := by omega
    rw [← ht] at h1
    have hp : (0 : ℝ) < 2 ^ t := by positivity
    refine ⟨_, rfl, ?_, ?_⟩
    · simp only
      have e5 : q0 - 24 * ((jz + 1 - k : ℕ) : ℤ) = t - 24 := by rw [ht]; omega
      rw [e5]
      obtain ⟨g3, g4⟩ := hone (t - 24) (by omega) (by omega)
      have e6 : (2 : ℝ) ^ t * (1 / 2 ^ 24) = 2 ^ (t - 24) := by rw [zpow_sub₀ (by norm_num)]; norm_num; ring
      have := h1.mul N fv_x1m24 (j := t - 24) (by rw [e6]; exact g3) (by rw [e6]; exact g4) (by omega) (by omega)
      rwa [e6] at this
    · intro i hki hi
      simp only
      by_cases hik : i = k
      · subst hik
        rw [Function.update_self, ← ht, mul_comm]
        refine h1.mul N f3 (j := t) ⟨iq i, by ring⟩ ?_ (by omega) (by omega)
        have h3 : (0 : ℝ) ≤ iq i := by exact_mod_cast d0
        have h4 : (iq i : ℝ) ≤ 2 ^ 24 := by exact_mod_cast d1.le
        rw [abs_of_nonneg (by positivity), zpow_add₀ (by norm_num)]
        refine mul_le_mul_of_nonneg_left (h4.trans ?_) hp.le
        norm_num
      · rw [Function.update_of_ne hik]
        exact h2 i (by omega) hi

/-! ### The product with `π/2` -/

/-- the numbers `PIO2[k]`, multiplied by `2^(23+24k)` -/
def pd (k : ℕ) : ℕ := [13176794, 10625384, 12727492, 13001355, 8444956].getD k 0

theorem pd_lt (k : ℕ) : pd k < 2 ^ 24 := by
  by_cases h : k < 5
  · interval_cases k <;> decide
  · have : pd k = 0 := by unfold pd; rw [List.getD_eq_getElem?_getD, List.getElem?_eq_none (by simp; omega)]; rfl
    omega

theorem pio2_fv {k : ℕ} (hk : k < 5) : Fv (PIO2 k) (pd k * 2 ^ (-23 - 24 * (k : ℤ))) := by
  have h : f64.mag (PIO2 k) < f64.infRep ∧ f64.val (PIO2 k) = pd k * 2 ^ (-23 - 24 * (k : ℤ)) := by
    interval_cases k <;> decide +kernel
  have := fv_const h.1 h.2
  push_cast at this
  exact this

/-- `fq[d]`, multiplied by `2^(23+24d-q0)`: the first `c` terms -/
def Fq (iq : ℕ → ℤ) (i c : ℕ) : ℤ := ∑ k ∈ Finset.range c, (pd k : ℤ) * iq (i + k)

theorem Fq_succ (iq : ℕ → ℤ) (i c : ℕ) : Fq iq i (c + 1) = Fq iq i c + pd c * iq (i + c) := Finset.sum_range_succ _ _

theorem Fq_bounds {iq : ℕ → ℤ} {jz i c : ℕ} (hd : Dig iq (jz + 1)) (hc : i + c ≤ jz + 1) : 0 ≤ Fq iq i c ∧ Fq iq i c ≤ c * 2 ^ 48 := by
  induction c with
  | zero => simp [Fq]
  | succ c ih =>
    obtain ⟨h1, h2⟩ := ih (by omega)
    obtain ⟨d0, d1⟩ := hd (i + c) (by omega)
    have hp : ((pd c : ℕ) : ℤ) ≤ 2 ^ 24 := by exact_mod_cast (pd_lt c).le
    have hp0 : (0 : ℤ) ≤ (pd c : ℕ) := Int.natCast_nonneg _
    rw [Fq_succ]
    constructor
    · positivity
    · have : (pd c : ℤ) * iq (i + c) ≤ 2 ^ 24 * 2 ^ 24 := mul_le_mul hp d1.le d0 (by norm_num)
      push_cast
      linarith

theorem pioDot_spec {q0 : ℤ} (hq1 : -500 ≤ q0) (hq2 : q0 ≤ 100) {jz jp d i : ℕ} (hj : jz < 20) (hi : i + d = jz) (hjp : jp ≤ 4) {iq : ℕ → ℤ}
    (hd : Dig iq (jz + 1)) {q : ℕ → D} (hq : ∀ i, i ≤ jz → Fv (q i) (iq i * 2 ^ (q0 - 24 * (jz - i : ℕ)))) :
    Ok (pioDot N jp d i q) fun r => Fv r (Fq iq i (min jp d + 1) * 2 ^ (q0 - 23 - 24 * d)) := by
  have hj0 : (jz : ℤ) = i + d := by omega
  obtain ⟨t, ht⟩ : ∃ t, t = q0 - 23 - 24 * (d : ℤ) := ⟨_, rfl⟩
  have htt : -1050 ≤ t ∧ t ≤ 100 := by omega
  rw [← ht]
  have hp : (0 : ℝ) < 2 ^ t := by positivity
  have hrange : ∀ v : ℤ, 0 ≤ v → v ≤ 2 ^ 53 → Mul2 t ((v : ℝ) * 2 ^ t) ∧ |(v : ℝ) * 2 ^ t| ≤ 2 ^ (t + 53) := by
    intro v h0 h1
    refine ⟨⟨v, rfl⟩, ?_⟩
    have h0' : (0 : ℝ) ≤ v := by exact_mod_cast h0
    rw [abs_of_nonneg (by positivity), add_comm, zpow_add₀ (by norm_num)]
    have : (v : ℝ) ≤ 2 ^ 53 := by exact_mod_cast h1
    exact mul_le_mul_of_nonneg_right (by exact_mod_cast this) hp.le
  have := forUp_inv (c := min jp d + 1) (i := 0) (s := 0#f64.w) (f := fun k fw => do
    let a ← rd 8 PIO2 k
    let b ← rd 20 q (i + k)
    pure (N.add fw (N.mul a b))) (fun c (r : D) => Fv r (Fq iq i c * 2 ^ t)) (by simpa [Fq] using fv_zero) ?_
  · rw [zero_add] at this; exact this
  · intro k r _ hk ih
    rw [rd_ok (by omega), ok_bind, rd_ok (by omega), ok_bind]
    refine ⟨_, rfl, ?_⟩
    have f1 := pio2_fv (k := k) (by omega)
    have f2 := hq (i + k) (by omega)
    obtain ⟨d0, d1⟩ := hd (i + k) (by omega)
    have hpd : ((pd k : ℕ) : ℤ) ≤ 2 ^ 24 := by exact_mod_cast (pd_lt k).le
    have hpd0 : (0 : ℤ) ≤ (pd k : ℕ) := Int.natCast_nonneg _
    have hprod0 : 0 ≤ (pd k : ℤ) * iq (i + k) := mul_nonneg hpd0 d0
    have hprod1 : (pd k : ℤ) * iq (i + k) ≤ 2 ^ 48 := by
      have : (pd k : ℤ) * iq (i + k) ≤ 2 ^ 24 * 2 ^ 24 := mul_le_mul hpd d1.le d0 (by norm_num)
      linarith
    have e1 : (pd k : ℝ) * 2 ^ (-23 - 24 * (k : ℤ)) * (iq (i + k) * 2 ^ (q0 - 24 * (jz - (i + k) : ℕ))) = ((pd k : ℤ) * iq (i + k) : ℤ) * 2 ^ t := by
      have : (2 : ℝ) ^ t = 2 ^ (-23 - 24 * (k : ℤ)) * 2 ^ (q0 - 24 * ((jz - (i + k) : ℕ) : ℤ)) := by
        rw [← zpow_add₀ (by norm_num)]; congr 1; omega
      rw [this]; push_cast; ring
    obtain ⟨g1, g2⟩ := hrange _ hprod0 (by omega)
    have f3 := f1.mul N f2 (j := t) (by rw [e1]; exact g1) (by rw [e1]; exact g2) (by omega) (by omega)
    rw [e1] at f3
    obtain ⟨b0, b1⟩ := Fq_bounds (i := i) (c := k + 1) hd (by omega)
    have hk4 : ((k + 1 : ℕ) : ℤ) * 2 ^ 48 ≤ 5 * 2 ^ 48 := mul_le_mul_of_nonneg_right (by omega) (by norm_num)
    obtain ⟨g3, g4⟩ := hrange _ b0 (by omega)
    have e2 : (Fq iq i k : ℝ) * 2 ^ t + ((pd k : ℤ) * iq (i + k) : ℤ) * 2 ^ t = Fq iq i (k + 1) * 2 ^ t := by
      rw [Fq_succ]; push_cast; ring
    have := ih.add N f3 (j := t) (by rw [e2]; exact g3) (by rw [e2]; exact g4) (by omega) (by omega)
    rwa [e2] at this

theorem fqs_spec {q0 : ℤ} (hq1 : -500 ≤ q0) (hq2 : q0 ≤ 100) {jz jp : ℕ} (hj : jz < 20) (hjp : jp ≤ 4) {iq : ℕ → ℤ}
    (hd : Dig iq (jz + 1)) {q : ℕ → D} (hq : ∀ i, i ≤ jz → Fv (q i) (iq i * 2 ^ (q0 - 24 * (jz - i : ℕ)))) :
    Ok (fqs N jp jz q) fun fq => ∀ d, d ≤ jz → Fv (fq d) (Fq iq (jz - d) (min jp d + 1) * 2 ^ (q0 - 23 - 24 * d)) := by
  refine Ok.mono (forDn_inv (fun k (fq : ℕ → D) => ∀ d, d ≤ jz → k ≤ jz - d → Fv (fq d) (Fq iq (jz - d) (min jp d + 1) * 2 ^ (q0 - 23 - 24 * d)))
    (by intro d h1 h2; omega) ?_) (fun fq h d hd => h d hd (by omega))
  intro k fq hk ih
  obtain ⟨r, e, f⟩ := pioDot_spec (N := N) hq1 hq2 (d := jz - k) (i := k) hj (by omega) hjp hd hq
  rw [nsub_ok (by omega), ok_bind, e, ok_bind, wr_ok (by omega)]
  refine ⟨_, rfl, fun d h1 h2 => ?_⟩
  by_cases hdk : d = jz - k
  · subst hdk
    rw [Function.update_self, show jz - (jz - k) = k by omega]
    exact f
  · rw [Function.update_of_ne hdk]
    exact ih d h1 (by omega)

end
end Pio2
end Verif
