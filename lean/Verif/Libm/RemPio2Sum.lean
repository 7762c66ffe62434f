import Verif.Libm.RemPio2Tail
/-! # The end of `rem_pio2_large`: the sum -/
namespace Verif
open Fmt

namespace Pio2
open Hypot

/-! ### Digits of `π` -/

theorem pi_tight : (5683930888933848816878670980902029103959271520756131718105814861217795224704 : ℝ) / 2 ^ 250 ≤ Real.pi ∧
    Real.pi ≤ 5683930888933848816878670980902029103959271520756131718105814861217795227284 / 2 ^ 250 := by
  have h := pi_bounds 250 6
  have e1 : piLo 250 6 = 5683930888933848816878670980902029103959271520756131718105814861217795224704 := by decide +kernel
  have e2 : piHi 250 6 = 5683930888933848816878670980902029103959271520756131718105814861217795227284 := by decide +kernel
  rw [e1, e2] at h
  push_cast at h
  constructor
  · rw [div_le_iff₀ (by positivity)]; linarith [h.1]
  · rw [le_div_iff₀ (by positivity)]; linarith [h.2]

/-- the first `c` of the numbers `PIO2[k]` -/
noncomputable def pis (c : ℕ) : ℝ := ∑ k ∈ Finset.range c, (pd k : ℝ) * 2 ^ (-23 - 24 * (k : ℤ))

theorem pis_err {jp : ℕ} (h : jp = 3 ∨ jp = 4) : |pis (jp + 1) - Real.pi / 2| ≤ 1 / 2 ^ (24 * jp) := by
  obtain ⟨h1, h2⟩ := pi_tight
  have e : ∀ k : ℕ, (2 : ℝ) ^ (-23 - 24 * (k : ℤ)) = 1 / (2 ^ 23 * 2 ^ (24 * k)) := by
    intro k
    rw [zpow_sub₀ (by norm_num), zpow_neg, show (24 * (k : ℤ)) = ((24 * k : ℕ) : ℤ) by push_cast; rfl, zpow_natCast]
    rw [div_eq_mul_inv, one_div, mul_inv]
    rfl
  unfold pis
  simp only [e]
  rw [abs_le]
  rcases h with rfl | rfl <;>
  · simp only [Finset.sum_range_succ, Finset.range_zero, Finset.sum_empty, pd, List.getD_cons_zero, List.getD_cons_succ]
    norm_num
    norm_num at h1 h2
    constructor <;> linarith

/-! ### The sum of the products -/

/-- `fq[d]` -/
noncomputable def av (iq : ℕ → ℤ) (q0 : ℤ) (jp jz d : ℕ) : ℝ := Fq iq (jz - d) (min jp d + 1) * 2 ^ (q0 - 23 - 24 * (d : ℤ))

theorem dg_split {iq : ℕ → ℤ} {k n : ℕ} (h : k ≤ n) : dg iq n = dg iq k + ∑ s ∈ Finset.range (n - k), iq (k + s) * 2 ^ (24 * (k + s)) := by
  unfold dg
  conv_lhs => rw [show n = k + (n - k) by omega]
  rw [Finset.sum_range_add]

theorem sum_av {iq : ℕ → ℤ} {q0 : ℤ} {jp jz : ℕ} :
    ∑ d ∈ Finset.range (jz + 1), av iq q0 jp jz d = ∑ k ∈ Finset.range (jp + 1), (pd k : ℝ) * 2 ^ (-23 - 24 * (k : ℤ)) *
      (((dg iq (jz + 1) - dg iq (min k (jz + 1)) : ℤ) : ℝ) * 2 ^ (q0 - 24 * jz)) := by
  have h1 : ∀ d, av iq q0 jp jz d = ∑ k ∈ Finset.range (jp + 1), if k ≤ d then (pd k : ℝ) * iq (jz - d + k) * 2 ^ (q0 - 23 - 24 * (d : ℤ)) else 0 := by
    intro d
    rw [← Finset.sum_filter]
    unfold av Fq
    push_cast
    rw [Finset.sum_mul]
    refine Finset.sum_congr ?_ fun _ _ => rfl
    ext k
    simp only [Finset.mem_range, Finset.mem_filter]
    omega
  rw [Finset.sum_congr rfl fun d _ => h1 d, Finset.sum_comm]
  refine Finset.sum_congr rfl fun k _ => ?_
  by_cases hk : k ≤ jz + 1
  · rw [min_eq_left hk, dg_split hk, add_sub_cancel_left]
    conv_lhs => rw [show jz + 1 = k + (jz + 1 - k) by omega]
    rw [Finset.sum_range_add]
    have hz : ∑ d ∈ Finset.range k, (if k ≤ d then (pd k : ℝ) * iq (jz - d + k) * 2 ^ (q0 - 23 - 24 * (d : ℤ)) else 0) = 0 :=
      Finset.sum_eq_zero fun d hd => if_neg (by have := Finset.mem_range.mp hd; omega)
    rw [hz, zero_add, ← Finset.sum_range_reflect]
    push_cast
    rw [Finset.sum_mul, Finset.mul_sum]
    refine Finset.sum_congr rfl fun s hs => ?_
    have hs' := Finset.mem_range.mp hs
    rw [if_pos (by omega), show jz - (k + (jz + 1 - k - 1 - s)) + k = k + s by omega]
    have : (2 : ℝ) ^ (q0 - 23 - 24 * ((k : ℤ) + ((jz + 1 - k - 1 - s : ℕ) : ℤ))) =
        2 ^ (-23 - 24 * (k : ℤ)) * (2 ^ (24 * (k + s)) * 2 ^ (q0 - 24 * jz)) := by
      rw [← zpow_natCast, ← zpow_add₀ (by norm_num), ← zpow_add₀ (by norm_num)]
      congr 1
      push_cast
      omega
    rw [this]; ring
  · rw [min_eq_right (by omega), sub_self]
    push_cast
    rw [zero_mul, mul_zero]
    exact Finset.sum_eq_zero fun d hd => if_neg (by have := Finset.mem_range.mp hd; omega)

theorem sum_err {iq : ℕ → ℤ} {q0 : ℤ} {jp jz : ℕ} (hjp : jp = 3 ∨ jp = 4) (hd : Dig iq (jz + 1)) {φ : ℝ} (hφ : φ = dg iq (jz + 1) * 2 ^ (q0 - 24 * jz)) :
    |∑ d ∈ Finset.range (jz + 1), av iq q0 jp jz d - φ * (Real.pi / 2)| ≤ φ * (1 / 2 ^ (24 * jp)) + 10 * 2 ^ (q0 - 24 * jz) := by
  obtain ⟨w, hw⟩ : ∃ w : ℝ, w = 2 ^ (q0 - 24 * jz) := ⟨_, rfl⟩
  have hw0 : 0 < w := by rw [hw]; positivity
  have hφ0 : 0 ≤ φ := by
    have : (0 : ℝ) ≤ dg iq (jz + 1) := by exact_mod_cast (dg_bounds hd).1
    rw [hφ]; positivity
  have e1 : ∑ d ∈ Finset.range (jz + 1), av iq q0 jp jz d = φ * pis (jp + 1) -
      ∑ k ∈ Finset.range (jp + 1), (pd k : ℝ) * 2 ^ (-23 - 24 * (k : ℤ)) * (dg iq (min k (jz + 1)) * w) := by
    rw [sum_av, pis, Finset.mul_sum, ← Finset.sum_sub_distrib, hφ, ← hw]
    refine Finset.sum_congr rfl fun k _ => ?_
    push_cast; ring
  have e2 : ∀ k ∈ Finset.range (jp + 1), (pd k : ℝ) * 2 ^ (-23 - 24 * (k : ℤ)) * (dg iq (min k (jz + 1)) * w) ≤ 2 * w := by
    intro k _
    have h1 : (pd k : ℝ) ≤ 2 ^ 24 := by exact_mod_cast (pd_lt k).le
    have hdk := dg_bounds (n := min k (jz + 1)) (iq := iq) fun s hs => hd s (by omega)
    have h2 : (dg iq (min k (jz + 1)) : ℝ) ≤ 2 ^ (24 * k) := by
      have h3 : (2 : ℤ) ^ (24 * min k (jz + 1)) ≤ 2 ^ (24 * k) := pow_le_pow_right₀ (by norm_num) (by omega)
      exact_mod_cast hdk.2.le.trans h3
    have h0 : (0 : ℝ) ≤ dg iq (min k (jz + 1)) := by exact_mod_cast hdk.1
    have h4 : (2 : ℝ) ^ (-23 - 24 * (k : ℤ)) * 2 ^ (24 * k) = 1 / 2 ^ 23 := by
      rw [← zpow_natCast, ← zpow_add₀ (by norm_num), show -23 - 24 * (k : ℤ) + ((24 * k : ℕ) : ℤ) = -23 by push_cast; ring, zpow_neg]; norm_num
    calc (pd k : ℝ) * 2 ^ (-23 - 24 * (k : ℤ)) * (dg iq (min k (jz + 1)) * w)
        ≤ 2 ^ 24 * 2 ^ (-23 - 24 * (k : ℤ)) * (2 ^ (24 * k) * w) := by gcongr
      _ = 2 ^ 24 * (2 ^ (-23 - 24 * (k : ℤ)) * 2 ^ (24 * k)) * w := by ring
      _ = 2 * w := by rw [h4]; norm_num
  have e3 : ∀ k ∈ Finset.range (jp + 1), 0 ≤ (pd k : ℝ) * 2 ^ (-23 - 24 * (k : ℤ)) * (dg iq (min k (jz + 1)) * w) := by
    intro k _
    have hdk := dg_bounds (n := min k (jz + 1)) (iq := iq) fun s hs => hd s (by omega)
    have h0 : (0 : ℝ) ≤ dg iq (min k (jz + 1)) := by exact_mod_cast hdk.1
    positivity
  have s1 := Finset.sum_le_card_nsmul _ _ _ e2
  have s0 := Finset.sum_nonneg e3
  rw [Finset.card_range, nsmul_eq_mul] at s1
  have hjp5 : ((jp + 1 : ℕ) : ℝ) ≤ 5 := by exact_mod_cast (show jp + 1 ≤ 5 by omega)
  have hpe := pis_err hjp
  rw [e1, ← hw]
  generalize ∑ k ∈ Finset.range (jp + 1), (pd k : ℝ) * 2 ^ (-23 - 24 * (k : ℤ)) * (dg iq (min k (jz + 1)) * w) = s at *
  have s2 : s ≤ 10 * w := by nlinarith
  generalize pis (jp + 1) = P at *
  rw [show φ * P - s - φ * (Real.pi / 2) = φ * (P - Real.pi / 2) - s by ring]
  have h5 : |φ * (P - Real.pi / 2)| ≤ φ * (1 / 2 ^ (24 * jp)) := by
    rw [abs_mul, abs_of_nonneg hφ0]; exact mul_le_mul_of_nonneg_left hpe hφ0
  rw [abs_le] at h5 ⊢
  constructor <;> linarith [h5.1, h5.2]

/-! ### Rounded addition -/

section
variable {N : FPU f64}

theorem radd {a b : D} {v w : ℝ} {j : ℤ} (ha : Fv a v) (hb : Fv b w) (hg : Mul2 j (v + w)) (hj : -1022 ≤ j) (hv : |v + w| ≤ 2 ^ (200 : ℤ)) :
    ∃ r, Fv (N.add a b) r ∧ |r - (v + w)| ≤ U * |v + w| ∧ Mul2 j r ∧ ∀ g, f64.Rp g → |g| ≤ 2 ^ (200 : ℤ) → g ≤ v + w → g ≤ r := by
  have h := addR N ha.fin hb.fin
  rw [ha.val, hb.val] at h
  have hbig : (2 : ℝ) ^ (200 : ℤ) ≤ 2 ^ ((f64.bias : ℤ) + 1) := by rw [b64]; exact zpow_le_zpow_right₀ (by norm_num) (by norm_num)
  have hv10 : |v + w| ≤ 2 ^ (1000 : ℤ) := hv.trans (zpow_le_zpow_right₀ (by norm_num) (by norm_num))
  refine ⟨_, ⟨fin64 h hv10, rfl⟩, ?_, h.grid f64 hg (by rw [b64, s64]; omega) (hv.trans hbig), fun g h1 h2 h3 => h.ge_of f64 h1 (h2.trans hbig) h3⟩
  by_cases h0 : v + w = 0
  · rw [h0] at h ⊢
    rw [h.exactR f64 f64.rp_zero (by rw [abs_zero]; positivity)]
    simp
  · refine rel64 h ?_ (hv.trans (zpow_le_zpow_right₀ (by norm_num) (by norm_num)))
    obtain ⟨m, hm⟩ := hg
    have hm0 : m ≠ 0 := fun hc => h0 (by rw [hm, hc]; simp)
    have : (1 : ℝ) ≤ |(m : ℝ)| := by
      have : (1 : ℤ) ≤ |m| := Int.one_le_abs hm0
      exact_mod_cast this
    rw [hm, abs_mul, abs_of_pos (show (0 : ℝ) < 2 ^ j by positivity)]
    calc (2 : ℝ) ^ (-1022 : ℤ) ≤ 2 ^ j := zpow_le_zpow_right₀ (by norm_num) hj
      _ ≤ |(m : ℝ)| * 2 ^ j := by nlinarith [show (0 : ℝ) < 2 ^ j by positivity]

/-- the sum of `a k, ..., a jz` -/
noncomputable def Tk (a : ℕ → ℝ) (jz k : ℕ) : ℝ := ∑ d ∈ Finset.Ico k (jz + 1), a d

theorem Tk_succ {a : ℕ → ℝ} {jz k : ℕ} (h : k ≤ jz) : Tk a jz k = a k + Tk a jz (k + 1) := Finset.sum_eq_sum_Ico_succ_bot (by omega) _

theorem Tk_nonneg {a : ℕ → ℝ} {jz : ℕ} (ha : ∀ d, d ≤ jz → 0 ≤ a d) (k : ℕ) : 0 ≤ Tk a jz k :=
  Finset.sum_nonneg fun d hd => ha d (by have := Finset.mem_Ico.mp hd; omega)

theorem sumFq_spec {jz : ℕ} (hj : jz < 20) {fq : ℕ → D} {a : ℕ → ℝ} (hf : ∀ d, d ≤ jz → Fv (fq d) (a d)) (ha : ∀ d, d ≤ jz → 0 ≤ a d)
    {j0 : ℤ} (hj0 : -1022 ≤ j0) (hg : ∀ d, d ≤ jz → Mul2 j0 (a d)) {E : ℕ → ℝ} (hE0 : E (jz + 1) = 0)
    (hE : ∀ k, k ≤ jz → U * Tk a jz k + (1 + U) * E (k + 1) ≤ E k) (hEb : ∀ k, k ≤ jz + 1 → E k ≤ 2 ^ (100 : ℤ)) (hT : Tk a jz 0 ≤ 2 ^ (100 : ℤ)) :
    Ok (sumFq N jz fq) fun r => ∃ y, Fv r y ∧ 0 ≤ y ∧ a 0 ≤ y ∧ Mul2 j0 y ∧ |y - Tk a jz 0| ≤ E 0 := by
  have hU : (0 : ℝ) < U := by unfold U; positivity
  have hTk : ∀ k, k ≤ jz + 1 → Tk a jz k ≤ 2 ^ (100 : ℤ) := by
    intro k hk
    refine le_trans ?_ hT
    refine Finset.sum_le_sum_of_subset_of_nonneg ?_ fun d hd _ => ha d (by have := Finset.mem_Ico.mp hd; omega)
    intro d hd
    have := Finset.mem_Ico.mp hd
    exact Finset.mem_Ico.mpr ⟨by omega, this.2⟩
  have hTk0 := Tk_nonneg (a := a) (jz := jz) ha
  have key := forDn_inv (c := jz + 1) (s := 0#f64.w) (f := fun i fw => do
    let v ← rd 20 fq i
    pure (N.add fw v)) (fun k r => ∃ y, Fv r y ∧ 0 ≤ y ∧ (k ≤ jz → a k ≤ y) ∧ Mul2 j0 y ∧ |y - Tk a jz k| ≤ E k)
    ⟨0, fv_zero, le_refl _, fun h => by omega, ⟨0, by simp⟩, by rw [hE0]; simp [Tk]⟩ ?_
  · refine Ok.mono key ?_
    rintro r ⟨y, h1, h2, h3, h4⟩
    exact ⟨y, h1, h2, h3 (by omega), h4⟩
  · rintro k r hk ⟨y, f, y0, _, yg, ye⟩
    have hkj : k ≤ jz := by omega
    rw [rd_ok (by omega), ok_bind]
    refine ⟨_, rfl, ?_⟩
    have hTs := Tk_succ (a := a) hkj
    have hp9 : (0 : ℝ) < 2 ^ (100 : ℤ) := by positivity
    have hp10 : 4 * (2 : ℝ) ^ (100 : ℤ) ≤ 2 ^ (200 : ℤ) := by
      rw [show (200 : ℤ) = 100 + 100 by norm_num, zpow_add₀ (by norm_num)]
      exact mul_le_mul_of_nonneg_right (by norm_num) (by positivity)
    have hak := ha k hkj
    have hT1 := hTk k (by omega)
    have hT2 := hTk0 (k + 1)
    have hE1 := hEb (k + 1) (by omega)
    have hab := abs_le.mp ye
    have hy1 : y ≤ Tk a jz (k + 1) + 2 ^ (100 : ℤ) := by linarith [hab.2]
    obtain ⟨s, fs, se, sg, sm⟩ := radd (N := N) f (hf k hkj) (yg.add (hg k hkj)) hj0 (by rw [abs_of_nonneg (by linarith)]; linarith)
    have hak0 : a k ≤ s := by
      refine sm (a k) ?_ ?_ (by linarith)
      · rw [← (hf k hkj).val]; exact f64.rp_val _
      · rw [abs_of_nonneg hak]; linarith
    refine ⟨s, fs, hak.trans hak0, fun _ => hak0, sg, ?_⟩
    rw [abs_of_nonneg (show 0 ≤ y + a k by linarith)] at se
    refine le_trans ?_ (hE k hkj)
    have h5 : U * (y + a k) ≤ U * (Tk a jz k + E (k + 1)) := mul_le_mul_of_nonneg_left (by linarith [hab.2]) hU.le
    have h6 := abs_le.mp se
    rw [abs_le]
    constructor <;> nlinarith [hab.1, hab.2, h6.1, h6.2]

/-- the second loop of `compress` -/
theorem tailSum_spec {jz : ℕ} (hj : jz ≤ 18) {fq : ℕ → D} {a : ℕ → ℝ} (hf : ∀ d, d ≤ jz → Fv (fq d) (a d))
    {j0 : ℤ} (hj0 : -1022 ≤ j0) (hg : ∀ d, d ≤ jz → Mul2 j0 (a d)) {s : D} {v0 y B : ℝ} (hs : Fv s v0) (hv : v0 = a 0 - y) (hvg : Mul2 j0 v0)
    (hB0 : 0 ≤ B) (hBb : B ≤ 2 ^ (100 : ℤ)) (hB : ∀ i, 1 ≤ i → i ≤ jz → |Tk a jz 0 - Tk a jz (i + 1) - y| ≤ B) :
    Ok (forUp (fun i fw => do
      let v ← rd 20 fq i
      pure (N.add fw v)) jz 1 s) fun r => ∃ v, Fv r v ∧ |v - (Tk a jz 0 - y)| ≤ ((1 + U) ^ jz - 1) * B := by
  have hU : (0 : ℝ) < U := by unfold U; positivity
  have hU1 : U ≤ 1 / 2 ^ 50 := by unfold U; norm_num
  have hpw : ∀ i, i ≤ 18 → (1 + U) ^ i - 1 ≤ 1 := by
    intro i hi
    have h1 : (1 + U) ^ i ≤ (1 + U) ^ 18 := pow_le_pow_right₀ (by linarith) hi
    have h2 : (1 + U) ^ 18 ≤ 2 := by unfold U; norm_num
    linarith
  have key := forUp_inv (c := jz) (i := 1) (s := s) (f := fun i fw => do
      let v ← rd 20 fq i
      pure (N.add fw v)) (fun k r => ∃ v, Fv r v ∧ Mul2 j0 v ∧ |v - (Tk a jz 0 - Tk a jz k - y)| ≤ ((1 + U) ^ (k - 1) - 1) * B)
    ⟨v0, hs, hvg, by
      have := Tk_succ (a := a) (jz := jz) (k := 0) (by omega)
      rw [hv, this]; simp⟩ ?_
  · refine Ok.mono key ?_
    rintro r ⟨v, h1, h2, h3⟩
    refine ⟨v, h1, ?_⟩
    have : Tk a jz (1 + jz) = 0 := by unfold Tk; rw [Finset.Ico_eq_empty (by omega)]; simp
    rw [this, sub_zero, show 1 + jz - 1 = jz by omega] at h3
    exact h3
  · rintro k r hk1 hk2 ⟨v, f, vg, ve⟩
    have hkj : k ≤ jz := by omega
    rw [rd_ok (by omega), ok_bind]
    refine ⟨_, rfl, ?_⟩
    have hTs := Tk_succ (a := a) hkj
    have hBk := hB k hk1 hkj
    have hab := abs_le.mp ve
    have hBa := abs_le.mp hBk
    obtain ⟨e, he⟩ : ∃ e, e = ((1 + U) ^ (k - 1) - 1) * B := ⟨_, rfl⟩
    have hpk := hpw (k - 1) (by omega)
    have hpk0 : (0 : ℝ) ≤ (1 + U) ^ (k - 1) - 1 := by
      have : (1 : ℝ) ≤ (1 + U) ^ (k - 1) := one_le_pow₀ (by linarith)
      linarith
    have heB : e ≤ B := by rw [he]; nlinarith
    have he0 : 0 ≤ e := by rw [he]; positivity
    rw [← he] at hab
    have hsum : |v + a k| ≤ B + e := by rw [abs_le]; constructor <;> linarith [hab.1, hab.2, hBa.1, hBa.2]
    have hp10 : 4 * (2 : ℝ) ^ (100 : ℤ) ≤ 2 ^ (200 : ℤ) := by
      rw [show (200 : ℤ) = 100 + 100 by norm_num, zpow_add₀ (by norm_num)]
      exact mul_le_mul_of_nonneg_right (by norm_num) (by positivity)
    have hp9 : (0 : ℝ) < 2 ^ (100 : ℤ) := by positivity
    obtain ⟨t, ft, te, tg, _⟩ := radd (N := N) f (hf k hkj) (vg.add (hg k hkj)) hj0 (by linarith)
    refine ⟨t, ft, tg, ?_⟩
    have h5 : U * |v + a k| ≤ U * (B + e) := mul_le_mul_of_nonneg_left hsum hU.le
    have h6 := abs_le.mp (te.trans h5)
    have h7 : ((1 + U) ^ (k + 1 - 1) - 1) * B = e + U * (B + e) := by
      rw [he, show k + 1 - 1 = (k - 1) + 1 by omega, pow_succ]; ring
    rw [h7, abs_le]
    constructor <;> linarith [h6.1, h6.2, hab.1, hab.2]

end
end Pio2
end Verif
