import Verif.Libm.RemPio2Compl
/-! # The loop of `rem_pio2_large`: the product with `2/π` modulo 8, and how often more digits are needed -/
namespace Verif
open Fmt

namespace Pio2
open Hypot

/-! ### The product -/

theorem tabK_succ {k : ℕ} (hk : k < 690) : tabK (k + 1) = tabK k * 2 ^ 24 + ipio2 k := by
  have hlen : IPIO2.length = 690 := by decide +kernel
  have h1 : IPIO2.take (k + 1) = IPIO2.take k ++ [ipio2 k] := by
    rw [List.take_succ_eq_append_getElem (by omega)]
    congr 2
    unfold ipio2
    rw [List.getD_eq_getElem?_getD, List.getElem?_eq_getElem (by omega), Option.getD_some]
  have e : tabN [ipio2 k] = ipio2 k := by simp [tabN]
  rw [tabK, h1, tabN_append, e, tabK]
  rfl

/-- the number of the first `m` digits -/
def tabZ (m : ℤ) : ℕ := if m < 0 then 0 else tabK m.toNat

theorem tabZ_succ {m : ℤ} (hm : m < 690) : tabZ (m + 1) = tabZ m * 2 ^ 24 + tz m := by
  unfold tabZ tz
  by_cases h : m < 0
  · rw [if_pos h, if_pos h]
    by_cases h' : m + 1 < 0
    · rw [if_pos h']; rfl
    · rw [if_neg h', show m + 1 = 0 by omega]; rfl
  · rw [if_neg h, if_neg h, if_neg (by omega), show (m + 1).toNat = m.toNat + 1 by omega, tabK_succ (by omega)]

theorem tabZ_add {a : ℤ} {c : ℕ} (h : a + c ≤ 690) :
    tabZ (a + c) = tabZ a * 2 ^ (24 * c) + ∑ i ∈ Finset.range c, tz (a + i) * 2 ^ (24 * (c - 1 - i)) := by
  induction c with
  | zero => simp
  | succ c ih =>
    push_cast at h
    have ih' := ih (by omega)
    have e : a + ((c + 1 : ℕ) : ℤ) = a + c + 1 := by push_cast; ring
    rw [e, tabZ_succ (by omega), ih', Finset.sum_range_succ, add_mul, Finset.sum_mul]
    have h2 : ∑ i ∈ Finset.range c, tz (a + i) * 2 ^ (24 * (c - 1 - i)) * 2 ^ 24 = ∑ i ∈ Finset.range c, tz (a + i) * 2 ^ (24 * (c + 1 - 1 - i)) := by
      refine Finset.sum_congr rfl fun i hi => ?_
      have := Finset.mem_range.mp hi
      rw [mul_assoc, ← pow_add]; congr 2; omega
    rw [h2]
    have h3 : c + 1 - 1 - c = 0 := by omega
    rw [h3, mul_add, pow_add]; ring

theorem Gs_eq (qd : ℕ → ℕ) (jz : ℕ) : ∀ i, i ≤ jz → Gs qd jz i = ∑ s ∈ Finset.range (i + 1), (qd (jz - s) : ℤ) * 2 ^ (24 * s)
  | 0, _ => by simp [Gs]
  | i + 1, h => by
    rw [Gs, Gs_eq qd jz i (by omega), Finset.sum_range_succ _ (i + 1)]; ring

theorem Gs_eq' (qd : ℕ → ℕ) (jz : ℕ) : Gs qd jz jz = ∑ i ∈ Finset.range (jz + 1), (qd i : ℤ) * 2 ^ (24 * (jz - i)) := by
  rw [Gs_eq qd jz jz (le_refl _), ← Finset.sum_range_reflect]
  refine Finset.sum_congr rfl fun i hi => ?_
  have := Finset.mem_range.mp hi
  rw [show jz - (jz + 1 - 1 - i) = i by omega, show jz + 1 - 1 - i = jz - i by omega]

/-- the number with the digits `x[0], ..., x[c-1]` -/
noncomputable def Xv (xd : ℕ → ℕ) (e0 : ℤ) (c : ℕ) : ℝ := ∑ j ∈ Finset.range c, (xd j : ℝ) * 2 ^ (e0 - 24 * j)

theorem prod_mod8 {xd : ℕ → ℕ} (hx : ∀ j, xd j < 2 ^ 24) {jv jz : ℕ} {e0 q0 : ℤ} (hq : q0 = e0 - 24 * (jv + 1)) (hjv : jv = 0 ∨ -21 ≤ q0)
    (ht : jv + jz + 1 ≤ 690) : ∀ c : ℕ, c ≤ jz + 1 → ∃ (A : ℤ) (δ : ℝ), 0 ≤ δ ∧ δ ≤ c * 2 ^ 24 * (2 ^ q0 / 2 ^ (24 * jz)) ∧
      Xv xd e0 c * (2 / Real.pi) = 8 * A + (∑ i ∈ Finset.range (jz + 1), (qdp xd jv i c : ℝ) * 2 ^ (24 * (jz - i))) * (2 ^ q0 / 2 ^ (24 * jz)) + δ := by
  intro c
  induction c with
  | zero =>
    intro _
    exact ⟨0, 0, le_refl _, by simp, by simp [Xv, qdp]⟩
  | succ c ih =>
    intro hc
    obtain ⟨A, δ, h1, h2, h3⟩ := ih (by omega)
    obtain ⟨n, hn⟩ : ∃ n, n = jv + jz + 1 - c := ⟨_, rfl⟩
    obtain ⟨b1, b2⟩ := tabK_bounds (k := n) (by omega)
    have e1 : (n : ℤ) = ((jv : ℤ) - c) + ((jz + 1 : ℕ) : ℤ) := by push_cast; omega
    have e2 : tabK n = tabZ n := by unfold tabZ; rw [if_neg (by omega), Int.toNat_natCast]
    have e3 := tabZ_add (a := (jv : ℤ) - c) (c := jz + 1) (by push_cast; omega)
    rw [← e1, ← e2] at e3
    have e3R : (tabK n : ℝ) = tabZ ((jv : ℤ) - c) * 2 ^ (24 * (jz + 1)) +
        ∑ i ∈ Finset.range (jz + 1), (tz ((jv : ℤ) + i - c) : ℝ) * 2 ^ (24 * (jz - i)) := by
      rw [e3]; push_cast
      congr 1
      refine Finset.sum_congr rfl fun i _ => ?_
      rw [show (jv : ℤ) - c + i = jv + i - c by ring]
    obtain ⟨w, hw⟩ : ∃ w : ℝ, w = 2 ^ q0 / 2 ^ (24 * jz) := ⟨_, rfl⟩
    have hw0 : 0 < w := by rw [hw]; positivity
    rw [← hw] at h2 h3 ⊢
    -- multiple of eight
    have h8 : ∃ B : ℤ, (xd c : ℝ) * w * (tabZ ((jv : ℤ) - c) * 2 ^ (24 * (jz + 1))) = 8 * B := by
      rcases hjv with h0 | hq21
      · refine ⟨0, ?_⟩
        have : tabZ ((jv : ℤ) - c) = 0 := by
          unfold tabZ
          split
          · rfl
          · rw [show ((jv : ℤ) - c).toNat = 0 by omega]; rfl
        rw [this]; simp
      · refine ⟨xd c * tabZ ((jv : ℤ) - c) * 2 ^ (q0 + 21).toNat, ?_⟩
        have : w * 2 ^ (24 * (jz + 1)) = 8 * 2 ^ (q0 + 21).toNat := by
          rw [hw, mul_add, pow_add, ← mul_assoc, div_mul_cancel₀ _ (by positivity)]
          rw [← zpow_natCast (2 : ℝ) (q0 + 21).toNat, show (((q0 + 21).toNat : ℕ) : ℤ) = q0 + 21 by omega, zpow_add₀ (by norm_num)]
          norm_num; ring
        push_cast
        linear_combination (xd c : ℝ) * tabZ ((jv : ℤ) - c) * this
    obtain ⟨B, hB⟩ := h8
    obtain ⟨θ, hθ⟩ : ∃ θ : ℝ, θ = 2 / Real.pi * 2 ^ (24 * n) - tabK n := ⟨_, rfl⟩
    have t0 : 0 ≤ θ := by rw [hθ]; linarith
    have t1 : θ ≤ 1 := by rw [hθ]; linarith
    have hxc : (xd c : ℝ) ≤ 2 ^ 24 := by exact_mod_cast (hx c).le
    have hxc0 : (0 : ℝ) ≤ xd c := Nat.cast_nonneg _
    have hwt : (2 : ℝ) ^ (e0 - 24 * c) = w * 2 ^ (24 * n) := by
      rw [hw, ← zpow_natCast, ← zpow_natCast, ← zpow_sub₀ (by norm_num), ← zpow_add₀ (by norm_num)]
      congr 1
      push_cast
      omega
    refine ⟨A + B, δ + xd c * w * θ, by positivity, ?_, ?_⟩
    · have : (xd c : ℝ) * w * θ ≤ 2 ^ 24 * w := by
        calc (xd c : ℝ) * w * θ ≤ xd c * w * 1 := mul_le_mul_of_nonneg_left t1 (by positivity)
          _ ≤ 2 ^ 24 * w := by rw [mul_one]; exact mul_le_mul_of_nonneg_right hxc hw0.le
      push_cast
      linarith
    · have hq1 : ∀ i, (qdp xd jv i (c + 1) : ℝ) = qdp xd jv i c + xd c * tz ((jv : ℤ) + i - c) := by
        intro i
        have : qdp xd jv i (c + 1) = qdp xd jv i c + xd c * tz ((jv : ℤ) + i - c) := by unfold qdp; rw [Finset.sum_range_succ]
        exact_mod_cast this
      have hs1 : ∑ i ∈ Finset.range (jz + 1), (qdp xd jv i (c + 1) : ℝ) * 2 ^ (24 * (jz - i)) =
          ∑ i ∈ Finset.range (jz + 1), (qdp xd jv i c : ℝ) * 2 ^ (24 * (jz - i)) +
          xd c * ∑ i ∈ Finset.range (jz + 1), (tz ((jv : ℤ) + i - c) : ℝ) * 2 ^ (24 * (jz - i)) := by
        rw [Finset.mul_sum, ← Finset.sum_add_distrib]
        refine Finset.sum_congr rfl fun i _ => ?_
        rw [hq1]; ring
      have hX : Xv xd e0 (c + 1) = Xv xd e0 c + xd c * 2 ^ (e0 - 24 * c) := by unfold Xv; rw [Finset.sum_range_succ]
      rw [hs1, hX, add_mul, h3, hwt]
      generalize ∑ i ∈ Finset.range (jz + 1), (qdp xd jv i c : ℝ) * 2 ^ (24 * (jz - i)) = T1 at *
      generalize ∑ i ∈ Finset.range (jz + 1), (tz ((jv : ℤ) + i - c) : ℝ) * 2 ^ (24 * (jz - i)) = T2 at *
      push_cast
      rw [e3R] at hθ
      linear_combination (xd c : ℝ) * w * (-hθ) + hB

/-! ### The loop -/

section
variable {N : FPU f64} {p64 : Bool}

/-- what the loop establishes: the product is `n ± φ` modulo 8, up to the truncation `δ` -/
structure Red (X : ℝ) (q0 : ℤ) (jk jz : ℕ) (n ih : ℤ) (z : D) (iq : ℕ → ℤ) (φ δ : ℝ) (A : ℤ) : Prop where
  st : St q0 jz z iq φ
  pos : 0 < φ
  half : φ ≤ 1 / 2
  big : 2 ^ q0 / 2 ^ (24 * (jz - jk)) ≤ φ
  d0 : 0 ≤ δ
  d1 : δ ≤ 3 * 2 ^ 24 * (2 ^ q0 / 2 ^ (24 * jz))
  n0 : 0 ≤ n
  n1 : n ≤ 11
  eq : (ih = 0 ∧ X = 8 * A + n + φ + δ) ∨ (0 < ih ∧ X = 8 * A + n - φ + δ)

theorem recompute_spec {nx : ℕ} {x : ℕ → D} {xd : ℕ → ℕ} {jv jx jk : ℕ} {e0 q0 : ℤ} {Δ : ℝ} (hx : ∀ j, xd j < 2 ^ 24)
    (hxv : ∀ j, j < nx → Fv (x j) (xd j)) (hn : nx = jx + 1) (hjx : jx < 3) (hjk : jk = 3 ∨ jk = 4) (hjv : jv ≤ 41)
    (hq : q0 = e0 - 24 * (jv + 1)) (hjv' : jv = 0 ∨ -21 ≤ q0) (hq1 : -27 ≤ q0) (hq2 : q0 ≤ 2)
    (hΔ : ∀ P : ℤ, Δ ≤ |Xv xd e0 nx * (2 / Real.pi) - P|) (hΔ1 : (2 : ℝ) ^ (-62 : ℤ) ≤ Δ) (hΔ2 : 3 * 2 ^ 24 * (2 ^ q0 / 2 ^ (24 * jk)) < Δ) :
    ∀ (fuel jz : ℕ) (f q : ℕ → D) (iq : ℕ → ℤ), 1 ≤ fuel → jk + 4 ≤ fuel + jz → jk ≤ jz → jz ≤ 2 * jk + 2 →
      (∀ k, k ≤ jx + jz → Fv (f k) (tz ((jv : ℤ) - jx + k))) → (∀ i, i ≤ jz → Fv (q i) (qdp xd jv i nx)) →
      Ok (recompute N p64 nx x jv jx jk q0 fuel jz f q iq) fun r => jk ≤ r.1 ∧ r.1 ≤ 2 * jk + 2 ∧ ∃ (φ δ : ℝ) (A : ℤ),
        Red (Xv xd e0 nx * (2 / Real.pi)) q0 jk r.1 r.2.1 r.2.2.1 r.2.2.2.1 r.2.2.2.2 φ δ A := by
  intro fuel
  induction fuel with
  | zero => intro jz f q iq h; omega
  | succ fuel ih =>
    intro jz f q iq _ hfuel hjz1 hjz2 hf hqv
    have hp : (0 : ℝ) < 2 ^ q0 := by positivity
    obtain ⟨A, δ, d0, d1, hprod⟩ := prod_mod8 hx hq hjv' (jz := jz) (by omega) nx (by omega)
    obtain ⟨⟨z1, iq1⟩, e1, dg1, Z, fZ, hZ, hG⟩ := distill_spec (N := N) (q := q) (iq := iq) (qd := fun i => qdp xd jv i nx) (jz := jz) (by omega) hqv
      (fun i => (qdp_le hx jv i nx).trans (Nat.mul_le_mul_right _ (by omega)))
    simp only at dg1 fZ hG
    have hGR : (Z : ℝ) * 2 ^ (24 * jz) + dg iq1 jz = ∑ i ∈ Finset.range (jz + 1), (qdp xd jv i nx : ℝ) * 2 ^ (24 * (jz - i)) := by
      rw [Gs_eq'] at hG; exact_mod_cast hG
    have hS : (∑ i ∈ Finset.range (jz + 1), (qdp xd jv i nx : ℝ) * 2 ^ (24 * (jz - i))) * (2 ^ q0 / 2 ^ (24 * jz)) = (Z + fr iq1 jz) * 2 ^ q0 := by
      rw [← hGR]; unfold fr; field_simp
    rw [hS] at hprod
    obtain ⟨⟨n2, ih2, z2, iq2⟩, e2, φ, K, hst, φ0, φ1, hSe, n0, n1, hih⟩ := computeN_spec (N := N) hq1 hq2 (by omega) (by omega) fZ hZ dg1
    simp only at hst hSe n0 n1 hih
    obtain ⟨⟨n3, z3, iq3⟩, e3, φ', hst', φ0', φh', hcase⟩ := complement_spec (N := N) hq1 hq2 (by omega) (by omega) n0 n1 hst φ0 φ1 hih
    simp only at hst' hcase
    rw [hSe] at hprod
    -- the sum is the product
    obtain ⟨A', hA', hn3⟩ : ∃ A' : ℤ, ((ih2 = 0 ∧ Xv xd e0 nx * (2 / Real.pi) = 8 * A' + n3 + φ' + δ) ∨
        (0 < ih2 ∧ Xv xd e0 nx * (2 / Real.pi) = 8 * A' + n3 - φ' + δ)) ∧ 0 ≤ n3 ∧ n3 ≤ 11 := by
      refine ⟨A + K, ?_, ?_⟩
      · rcases hcase with ⟨a, b, c⟩ | ⟨a, b, c⟩
        · left; refine ⟨a, ?_⟩; rw [hprod, b, c]; push_cast; ring
        · right; refine ⟨a, ?_⟩; rw [hprod, b, c]; push_cast; ring
      · rcases hcase with ⟨a, b, c⟩ | ⟨a, b, c⟩ <;> omega
    have hE : 2 ^ q0 / 2 ^ (24 * jz) ≤ (2 : ℝ) ^ q0 / 2 ^ (24 * jk) :=
      div_le_div_of_nonneg_left hp.le (by positivity) (pow_le_pow_right₀ (by norm_num) (by omega))
    have hnx3 : (nx : ℝ) ≤ 3 := by exact_mod_cast (show nx ≤ 3 by omega)
    have hw0 : (0 : ℝ) < 2 ^ q0 / 2 ^ (24 * jz) := by positivity
    have hd1' : δ ≤ 3 * 2 ^ 24 * (2 ^ q0 / 2 ^ (24 * jz)) := d1.trans (mul_le_mul_of_nonneg_right (mul_le_mul_of_nonneg_right hnx3 (by positivity)) hw0.le)
    have hdist : Δ ≤ φ' + δ := by
      rcases hA' with ⟨_, h⟩ | ⟨_, h⟩
      · have := hΔ (8 * A' + n3)
        rw [h] at this
        push_cast at this
        rw [show 8 * (A' : ℝ) + n3 + φ' + δ - (8 * A' + n3) = φ' + δ by ring, abs_of_nonneg (by positivity)] at this
        exact this
      · have := hΔ (8 * A' + n3)
        rw [h] at this
        push_cast at this
        rw [show 8 * (A' : ℝ) + n3 - φ' + δ - (8 * A' + n3) = δ - φ' by ring] at this
        exact this.trans (abs_le.mpr ⟨by linarith, by linarith⟩)
    have hφ'pos : 0 < φ' := by
      have : δ < Δ := lt_of_le_of_lt (hd1'.trans (mul_le_mul_of_nonneg_left hE (by positivity))) hΔ2
      linarith
    obtain ⟨o, e4, ho⟩ := needMore_spec (by omega) hjz1 (by omega) hst' hφ'pos
    rw [recompute, e1, ok_bind]
    simp only
    rw [e2, ok_bind]
    simp only
    rw [e3, ok_bind]
    simp only
    rw [e4, ok_bind]
    cases o with
    | none =>
      simp only at ho
      exact ⟨_, rfl, hjz1, hjz2, φ', δ, A', hst', hφ'pos, φh', ho, d0, hd1', hn3.1, hn3.2, hA'⟩
    | some k =>
      simp only at ho
      obtain ⟨k1, k2, hlt⟩ := ho
      -- few terms are needed
      have hj2 : jz ≤ jk + 2 := by
        by_contra hc
        have h72 : (2 : ℝ) ^ 72 ≤ 2 ^ (24 * (jz - jk)) := pow_le_pow_right₀ (by norm_num) (by omega)
        have hq4 : (2 : ℝ) ^ q0 ≤ 4 := by
          calc (2 : ℝ) ^ q0 ≤ 2 ^ (2 : ℤ) := zpow_le_zpow_right₀ (by norm_num) hq2
            _ = 4 := by norm_num
        have h1 : (2 : ℝ) ^ q0 / 2 ^ (24 * (jz - jk)) ≤ 4 / 2 ^ 72 := div_le_div₀ (by norm_num) hq4 (by positivity) h72
        have h144 : (2 : ℝ) ^ 144 ≤ 2 ^ (24 * jz) := pow_le_pow_right₀ (by norm_num) (by omega)
        have h2 : (2 : ℝ) ^ q0 / 2 ^ (24 * jz) ≤ 4 / 2 ^ 144 := div_le_div₀ (by norm_num) hq4 (by positivity) h144
        have h3 : Δ ≤ 4 / 2 ^ 72 + 3 * 2 ^ 24 * (4 / 2 ^ 144) := by
          have := mul_le_mul_of_nonneg_left h2 (show (0 : ℝ) ≤ 3 * 2 ^ 24 by positivity)
          linarith
        have h4 := hΔ1.trans h3
        norm_num at h4
      obtain ⟨⟨f', q'⟩, e5, hf', hq'⟩ := moreTerms_spec (N := N) (p64 := p64) (k := k) hx hxv hn hjx (by omega)
        (by unfold nTab; split <;> omega) hf (by rw [← hn]; exact hqv)
      rw [← hn] at hq'
      simp only
      rw [e5, ok_bind]
      exact ih (jz + k) f' q' iq3 (by omega) (by omega) (by omega) (by omega) hf' hq'

end
end Pio2
end Verif
