import Verif.Libm.RemPio2Int
/-! # The fraction: integer part, complement, and the test whether more terms are needed -/
namespace Verif
open Fmt

namespace Pio2
open Hypot

/-- the number `0.iq[n-1] ... iq[0]` -/
noncomputable def fr (iq : ℕ → ℤ) (n : ℕ) : ℝ := (dg iq n : ℝ) / 2 ^ (24 * n)

theorem fr_bounds {iq : ℕ → ℤ} {n : ℕ} (h : Dig iq n) : 0 ≤ fr iq n ∧ fr iq n < 1 := by
  obtain ⟨h1, h2⟩ := dg_bounds h
  have h1' : (0 : ℝ) ≤ dg iq n := by exact_mod_cast h1
  have h2' : (dg iq n : ℝ) < 2 ^ (24 * n) := by exact_mod_cast h2
  unfold fr
  exact ⟨by positivity, by rw [div_lt_one (by positivity)]; exact h2'⟩

/-- `z` and `iq` represent the fraction `φ` -/
structure St (q0 : ℤ) (jz : ℕ) (z : D) (iq : ℕ → ℤ) (φ : ℝ) : Prop where
  dig : Dig iq jz
  top : 0 < q0 → fr iq jz * 2 ^ q0 < 1
  zeta : ∃ ζ : ℝ, Fv z ζ ∧ 0 ≤ ζ ∧ ζ ≤ 1 ∧ (0 ≤ q0 → ζ = 0) ∧ Mul2 q0 ζ ∧ φ = ζ + fr iq jz * 2 ^ q0

theorem mul2_lt_one {q0 : ℤ} (hq : q0 ≤ 0) {ζ : ℝ} (h : Mul2 q0 ζ) {m : ℤ} (hlt : ζ < m) : ζ ≤ m - 2 ^ q0 := by
  obtain ⟨k, rfl⟩ := h
  have hp : (0 : ℝ) < 2 ^ q0 := by positivity
  have e : (m : ℝ) = (m * 2 ^ (-q0).toNat : ℤ) * 2 ^ q0 := by
    push_cast
    rw [mul_assoc, ← zpow_natCast, ← zpow_add₀ (by norm_num)]
    have : (((-q0).toNat : ℕ) : ℤ) + q0 = 0 := by omega
    rw [this, zpow_zero, mul_one]
  rw [e] at hlt ⊢
  have h1 := lt_of_mul_lt_mul_right hlt hp.le
  have h2 : k ≤ m * 2 ^ (-q0).toNat - 1 := by have : k < m * 2 ^ (-q0).toNat := by exact_mod_cast h1
                                              omega
  have h3 : (k : ℝ) ≤ (m * 2 ^ (-q0).toNat : ℤ) - 1 := by exact_mod_cast h2
  nlinarith

/-- the bit after the point -/
theorem half_iff {iq : ℕ → ℤ} {m : ℕ} (h : Dig iq (m + 1)) {a : ℕ} (ha : a ≤ 2) :
    ((1 : ℝ) / 2 ≤ fr iq (m + 1) * 2 ^ a ↔ 1 ≤ iq m / 2 ^ (23 - a)) := by
  obtain ⟨h1, h2⟩ := dg_bounds (n := m) fun s hs => h s (by omega)
  have hp : (0 : ℤ) < 2 ^ (24 * m) := by positivity
  have e1 : ((1 : ℝ) / 2 ≤ fr iq (m + 1) * 2 ^ a ↔ (2 : ℤ) ^ (23 - a) * 2 ^ (24 * m) ≤ dg iq (m + 1)) := by
    have hpR : (0 : ℝ) < 2 ^ (24 * (m + 1)) := by positivity
    unfold fr
    rw [div_mul_eq_mul_div, le_div_iff₀ hpR]
    have e2 : (1 : ℝ) / 2 * 2 ^ (24 * (m + 1)) = (2 ^ (23 - a) * 2 ^ (24 * m)) * 2 ^ a := by
      have : (2 : ℝ) ^ (23 - a) * 2 ^ a = 2 ^ 23 := by rw [← pow_add]; congr 1; omega
      rw [mul_right_comm, this, mul_add, pow_add]; norm_num; ring
    rw [e2, mul_le_mul_iff_left₀ (by positivity)]
    exact_mod_cast Iff.rfl
  rw [e1, dg_succ, Int.le_ediv_iff_mul_le (by positivity), one_mul]
  constructor
  · intro h3
    by_contra hc
    rw [not_le] at hc
    have : iq m + 1 ≤ 2 ^ (23 - a) := hc
    nlinarith
  · intro h3
    nlinarith

section
variable {N : FPU f64}

/-- `z` modulo 8 and its integer part -/
theorem computeZ {z : D} {Z : ℕ} (hz : Fv z Z) (hZ : Z ≤ 2 ^ 50) {q0 : ℤ} (h1 : -27 ≤ q0) (h2 : q0 ≤ 2) :
    ∃ z1 fl n0 nf, f64.scalbn N z q0 = .ok z1 ∧ floorD (N.mul z1 c0125) = .ok fl ∧ toI32 (N.sub z1 (N.mul ceight fl)) = .ok n0 ∧
      ofI32 n0 = .ok nf ∧ 0 ≤ n0 ∧ n0 ≤ 7 ∧ ∃ (ζ : ℝ) (K : ℤ), Fv (N.sub (N.sub z1 (N.mul ceight fl)) nf) ζ ∧ 0 ≤ ζ ∧ ζ < 1 ∧
      (0 ≤ q0 → ζ = 0) ∧ Mul2 q0 ζ ∧ (Z : ℝ) * 2 ^ q0 = 8 * K + n0 + ζ := by
  have hp : (0 : ℝ) < 2 ^ q0 := by positivity
  have hZR : (Z : ℝ) ≤ 2 ^ 50 := by exact_mod_cast hZ
  have hg0 : Mul2 q0 ((Z : ℝ) * 2 ^ q0) := ⟨Z, by push_cast; rfl⟩
  have hle : (Z : ℝ) * 2 ^ q0 ≤ 2 ^ (q0 + 50) := by
    rw [add_comm, zpow_add₀ (by norm_num)]
    exact mul_le_mul_of_nonneg_right (by exact_mod_cast hZR) hp.le
  have hnn : (0 : ℝ) ≤ (Z : ℝ) * 2 ^ q0 := by positivity
  have hmono : (2 : ℝ) ^ (q0 + 50) ≤ 2 ^ (q0 + 53) := zpow_le_zpow_right₀ (by norm_num) (by omega)
  obtain ⟨z1, e1, f1⟩ := hz.scalbn N (n := q0) (by omega) (by omega) hg0
    (by rw [abs_of_nonneg hnn]; exact hle.trans hmono) (by omega) (by omega)
  obtain ⟨W, hW⟩ : ∃ W, W = (Z : ℝ) * 2 ^ q0 := ⟨_, rfl⟩
  rw [← hW] at f1 hg0 hle hnn ⊢
  have hW52 : W ≤ 2 ^ 52 := hle.trans (by
    calc (2 : ℝ) ^ (q0 + 50) ≤ 2 ^ (52 : ℤ) := zpow_le_zpow_right₀ (by norm_num) (by omega)
      _ = _ := by norm_num)
  -- division by 8
  have f2 : Fv (N.mul z1 c0125) (W * (1 / 2 ^ 3)) := by
    refine f1.mul N fv_c0125 (j := q0 - 3) ?_ ?_ (by omega) (by omega)
    · refine Mul2.mono (hg0.mul (j := -3) ⟨1, ?_⟩) (by omega)
      rw [zpow_neg]; norm_num
    · rw [abs_of_nonneg (by positivity), show q0 - 3 + 53 = q0 + 50 by ring]
      refine le_trans ?_ hle
      nlinarith
  obtain ⟨fl, e3, f3⟩ := floorD_spec f2
  set K := ⌊W * (1 / 2 ^ 3)⌋ with hK
  have k1 := Int.floor_le (W * (1 / 2 ^ 3))
  have k2 := Int.lt_floor_add_one (W * (1 / 2 ^ 3))
  rw [← hK] at k1 k2
  have k0 : 0 ≤ K := Int.floor_nonneg.mpr (by positivity)
  have k0R : (0 : ℝ) ≤ K := by exact_mod_cast k0
  have f4 : Fv (N.mul ceight fl) (8 * K) := by
    refine fv_ceight.mul N f3 (j := 0) ⟨8 * K, by push_cast; simp⟩ ?_ (by norm_num) (by norm_num)
    rw [abs_of_nonneg (by positivity)]
    norm_num
    norm_num at k1
    linarith
  have r0 : 0 ≤ W - 8 * K := by linarith
  have r8 : W - 8 * K < 8 := by linarith
  have hmin : Mul2 (min q0 0) (W - 8 * K) := by
    refine (hg0.mono (min_le_left _ _)).sub (Mul2.mono (j := 0) ⟨8 * K, by push_cast; simp⟩ (min_le_right _ _))
  have hb53 : (8 : ℝ) ≤ 2 ^ (min q0 0 + 53) := by
    calc (8 : ℝ) = 2 ^ (3 : ℤ) := by norm_num
      _ ≤ _ := zpow_le_zpow_right₀ (by norm_num) (by omega)
  have f5 : Fv (N.sub z1 (N.mul ceight fl)) (W - 8 * K) :=
    f1.sub N f4 hmin (by rw [abs_of_nonneg r0]; linarith) (by omega) (by omega)
  set n0 := ⌊W - 8 * K⌋ with hn0
  have n1 := Int.floor_le (W - 8 * K)
  have n2 := Int.lt_floor_add_one (W - 8 * K)
  rw [← hn0] at n1 n2
  have n3 : 0 ≤ n0 := Int.floor_nonneg.mpr r0
  have n4 : n0 ≤ 7 := by
    have : n0 < 8 := by rw [hn0, Int.floor_lt]; exact_mod_cast r8
    omega
  have e6 : toI32 (N.sub z1 (N.mul ceight fl)) = .ok n0 := toI32_floor f5 r0 (by linarith)
  obtain ⟨nf, e7, f7⟩ := ofI32_spec (k := n0) (by omega) (by omega)
  refine ⟨z1, fl, n0, nf, e1, e3, e6, e7, n3, n4, W - 8 * K - n0, K, ?_, by linarith, by linarith, ?_, ?_, by ring⟩
  · refine f5.sub N f7 (j := min q0 0) (hmin.sub (Mul2.mono (j := 0) ⟨n0, by simp⟩ (min_le_right _ _))) ?_ (by omega) (by omega)
    rw [abs_of_nonneg (by linarith)]; linarith
  · intro hq
    have : Mul2 0 (W - 8 * K) := by rwa [min_eq_right hq] at hmin
    obtain ⟨k, hk⟩ := this
    rw [zpow_zero, mul_one] at hk
    rw [hn0, hk, Int.floor_intCast, sub_self]
  · by_cases hq : 0 ≤ q0
    · have : Mul2 0 (W - 8 * K) := by rwa [min_eq_right hq] at hmin
      obtain ⟨k, hk⟩ := this
      rw [zpow_zero, mul_one] at hk
      rw [hn0, hk, Int.floor_intCast, sub_self]
      exact ⟨0, by simp⟩
    · rw [min_eq_left (by omega)] at hmin
      exact hmin.sub (Mul2.mono (j := 0) ⟨n0, by simp⟩ (by omega))

theorem sar_ok {a n : Int} (h : 0 ≤ n) (h' : n < 32) : sarI a n = .ok (a / 2 ^ n.toNat) := if_pos ⟨h, h'⟩

/-- what `computeN` returns -/
def CN (q0 : ℤ) (jz : ℕ) (S : ℝ) (r : Int × Int × D × (ℕ → ℤ)) : Prop :=
  ∃ (φ : ℝ) (K : ℤ), St q0 jz r.2.2.1 r.2.2.2 φ ∧ 0 ≤ φ ∧ φ < 1 ∧ S = 8 * K + r.1 + φ ∧ 0 ≤ r.1 ∧ r.1 ≤ 10 ∧
    ((r.2.1 = 0 ∧ φ < 1 / 2) ∨ (r.2.1 = (if q0 < 0 then 2 else 1) ∧ 1 / 2 ≤ φ))

theorem computeN_pos {m : ℕ} {a : ℕ} (ha : a = 1 ∨ a = 2) (hm : m + 1 < 20) {z : D} {iq : ℕ → ℤ} {Z : ℕ} (hz : Fv z Z)
    (hZ : Z ≤ 2 ^ 50) (hd : Dig iq (m + 1)) :
    Ok (computeN N (a : ℤ) (m + 1) z iq) (CN a (m + 1) ((Z + fr iq (m + 1)) * 2 ^ (a : ℤ))) := by
  obtain ⟨z1, fl, n0, nf, e1, e2, e3, e4, n1, n2, ζ, K, f, z0, z01, zz, zg, hS⟩ :=
    computeZ (N := N) hz hZ (q0 := (a : ℤ)) (by omega) (by omega)
  obtain ⟨d0, d1⟩ := hd m (by omega)
  have hs1 : i32C (24 - (a : ℤ)) = .ok (24 - (a : ℤ)) := i32_ok (by omega) (by omega)
  have hs2 : i32C (23 - (a : ℤ)) = .ok (23 - (a : ℤ)) := i32_ok (by omega) (by omega)
  have ht1 : (24 - (a : ℤ)).toNat = 24 - a := by omega
  have ht2 : (23 - (a : ℤ)).toNat = 23 - a := by omega
  obtain ⟨i, hi⟩ : ∃ i, i = iq m / 2 ^ (24 - a) := ⟨_, rfl⟩
  obtain ⟨v, hv⟩ : ∃ v, v = iq m % 2 ^ (24 - a) := ⟨_, rfl⟩
  have hdm := Int.mul_ediv_add_emod (iq m) (2 ^ (24 - a))
  rw [← hi, ← hv] at hdm
  have hv0 : 0 ≤ v := by rw [hv]; exact Int.emod_nonneg _ (by positivity)
  have hv1 : v < 2 ^ (24 - a) := by rw [hv]; exact Int.emod_lt_of_pos _ (by positivity)
  have hi0 : 0 ≤ i := by rw [hi]; exact Int.ediv_nonneg d0 (by positivity)
  have hi3 : i ≤ 3 := by
    rcases ha with rfl | rfl <;> norm_num at hdm hv1 <;> omega
  have hsal : salI i (24 - (a : ℤ)) = .ok (i * 2 ^ (24 - a)) := by
    rw [salI, if_pos (by omega), ht1, i32W_eq]
    rcases ha with rfl | rfl <;> norm_num at hdm hv1 ⊢ <;> omega
  have hvsub : iq m - i * 2 ^ (24 - a) = v := by linarith
  have hv24 : v < 2 ^ 24 := by rcases ha with rfl | rfl <;> norm_num at hv1 ⊢ <;> omega
  have hv32 : i32C v = .ok v := i32_ok (by omega) (by omega)
  refine ⟨(n0 + i, v / 2 ^ (23 - a), N.sub (N.sub z1 (N.mul ceight fl)) nf, Function.update iq m v), ?_, ?_⟩
  · unfold computeN
    rw [e1, ok_bind, e2, ok_bind]
    simp only
    rw [e3, ok_bind, e4, ok_bind, if_pos (by omega), nsub_ok (by omega), ok_bind, Nat.add_sub_cancel, rd_ok (by omega), ok_bind, hs1, ok_bind,
      sar_ok (by omega) (by omega), ok_bind, ht1, ← hi, i32_ok (x := n0 + i) (by omega) (by omega), ok_bind, hsal, ok_bind, hvsub, hv32, ok_bind,
      wr_ok (by omega), ok_bind, hs2, ok_bind, sar_ok (by omega) (by omega), ok_bind, ht2]
    rfl
  · have hd' : Dig (Function.update iq m v) (m + 1) := by
      intro s hs
      by_cases h : s = m
      · subst h; rw [Function.update_self]; exact ⟨hv0, hv24⟩
      · rw [Function.update_of_ne h]; exact hd s hs
    have hdg : dg iq (m + 1) = dg (Function.update iq m v) (m + 1) + i * (2 ^ (24 - a) * 2 ^ (24 * m)) := by
      rw [dg_succ, dg_succ, dg_update (le_refl _), Function.update_self, ← hdm]; ring
    have hpw : (2 : ℝ) ^ (24 - a) * 2 ^ (24 * m) * 2 ^ a = 2 ^ (24 * (m + 1)) := by
      rw [← pow_add, ← pow_add]; congr 1; omega
    have hfr : fr iq (m + 1) * 2 ^ a = fr (Function.update iq m v) (m + 1) * 2 ^ a + i := by
      have hdgR : (dg iq (m + 1) : ℝ) = dg (Function.update iq m v) (m + 1) + i * (2 ^ (24 - a) * 2 ^ (24 * m)) := by exact_mod_cast hdg
      unfold fr
      rw [hdgR, add_div, add_mul]
      congr 1
      rw [div_mul_eq_mul_div, mul_assoc, hpw, mul_div_assoc, div_self (by positivity), mul_one]
    obtain ⟨fr0, _⟩ := fr_bounds hd'
    have htop : fr (Function.update iq m v) (m + 1) * 2 ^ a < 1 := by
      have h1 : dg (Function.update iq m v) (m + 1) < 2 ^ (24 - a) * 2 ^ (24 * m) := by
        obtain ⟨_, b2⟩ := dg_bounds (n := m) fun s hs => hd s (by omega)
        rw [dg_succ, dg_update (le_refl _), Function.update_self]
        have hp : (0 : ℤ) < 2 ^ (24 * m) := by positivity
        nlinarith
      have h1R : (dg (Function.update iq m v) (m + 1) : ℝ) < 2 ^ (24 - a) * 2 ^ (24 * m) := by exact_mod_cast h1
      unfold fr
      rw [div_mul_eq_mul_div, div_lt_one (by positivity), ← hpw]
      exact mul_lt_mul_of_pos_right h1R (by positivity)
    have hhalf := half_iff hd' (a := a) (by omega)
    rw [Function.update_self] at hhalf
    have hz0 := zz (by omega)
    rw [zpow_natCast] at hS
    refine ⟨fr (Function.update iq m v) (m + 1) * 2 ^ a, K, ⟨hd', fun _ => by rw [zpow_natCast]; exact htop, ζ, f, z0, z01.le, fun _ => hz0, zg, ?_⟩,
      by positivity, htop, ?_, by simp only; omega, by simp only; omega, ?_⟩
    · rw [hz0, zpow_natCast, zero_add]
    · rw [zpow_natCast, add_mul, hS, hfr, hz0]; push_cast; ring
    · simp only
      rw [if_neg (by omega)]
      have hvd0 : 0 ≤ v / 2 ^ (23 - a) := Int.ediv_nonneg hv0 (by positivity)
      have hvd1 : v / 2 ^ (23 - a) < 2 := by
        rw [Int.ediv_lt_iff_lt_mul (by positivity), ← pow_succ', show 23 - a + 1 = 24 - a by omega]; exact hv1
      by_cases hc : (1 : ℝ) / 2 ≤ fr (Function.update iq m v) (m + 1) * 2 ^ a
      · right; exact ⟨by have := hhalf.mp hc; omega, hc⟩
      · left
        refine ⟨?_, not_le.mp hc⟩
        have : ¬ 1 ≤ v / 2 ^ (23 - a) := fun h => hc (hhalf.mpr h)
        omega

theorem computeN_zero {m : ℕ} (hm : m + 1 < 20) {z : D} {iq : ℕ → ℤ} {Z : ℕ} (hz : Fv z Z) (hZ : Z ≤ 2 ^ 50) (hd : Dig iq (m + 1)) :
    Ok (computeN N 0 (m + 1) z iq) (CN 0 (m + 1) ((Z + fr iq (m + 1)) * 2 ^ (0 : ℤ))) := by
  obtain ⟨z1, fl, n0, nf, e1, e2, e3, e4, n1, n2, ζ, K, f, z0, z01, zz, zg, hS⟩ :=
    computeZ (N := N) hz hZ (q0 := 0) (by omega) (by omega)
  obtain ⟨d0, d1⟩ := hd m (by omega)
  refine ⟨(n0, iq m / 2 ^ 23, N.sub (N.sub z1 (N.mul ceight fl)) nf, iq), ?_, ?_⟩
  · unfold computeN
    rw [e1, ok_bind, e2, ok_bind]
    simp only
    rw [e3, ok_bind, e4, ok_bind, if_neg (by omega), if_pos trivial, nsub_ok (by omega), ok_bind, Nat.add_sub_cancel, rd_ok (by omega), ok_bind,
      sar_ok (by omega) (by omega), ok_bind]
    rfl
  · obtain ⟨fr0, fr1⟩ := fr_bounds hd
    have hz0 := zz (le_refl _)
    have hhalf := half_iff hd (a := 0) (by omega)
    rw [pow_zero, mul_one] at hhalf
    rw [zpow_zero, mul_one] at hS
    refine ⟨fr iq (m + 1), K, ⟨hd, fun h => by omega, ζ, f, z0, z01.le, fun _ => hz0, zg, ?_⟩,
      by positivity, fr1, ?_, by simp only; omega, by simp only; omega, ?_⟩
    · rw [hz0, zpow_zero, zero_add, mul_one]
    · rw [zpow_zero, mul_one, hS, hz0, add_zero]
    · simp only
      rw [if_neg (by omega)]
      by_cases hc : (1 : ℝ) / 2 ≤ fr iq (m + 1)
      · right; exact ⟨by have := hhalf.mp hc; omega, hc⟩
      · left
        refine ⟨?_, not_le.mp hc⟩
        have : ¬ 1 ≤ iq m / 2 ^ (23 - 0) := fun h => hc (hhalf.mpr h)
        omega

theorem computeN_neg {jz : ℕ} {q0 : ℤ} (h1 : -27 ≤ q0) (h2 : q0 < 0) {z : D} {iq : ℕ → ℤ} {Z : ℕ} (hz : Fv z Z)
    (hZ : Z ≤ 2 ^ 50) (hd : Dig iq jz) :
    Ok (computeN N q0 jz z iq) (CN q0 jz ((Z + fr iq jz) * 2 ^ q0)) := by
  obtain ⟨z1, fl, n0, nf, e1, e2, e3, e4, n1, n2, ζ, K, f, z0, z01, zz, zg, hS⟩ :=
    computeZ (N := N) hz hZ (q0 := q0) (by omega) (by omega)
  have hp : (0 : ℝ) < 2 ^ q0 := by positivity
  obtain ⟨fr0, fr1⟩ := fr_bounds hd
  refine ⟨(n0, if f64.ge (N.sub (N.sub z1 (N.mul ceight fl)) nf) chalf then 2 else 0, N.sub (N.sub z1 (N.mul ceight fl)) nf, iq), ?_, ?_⟩
  · unfold computeN
    rw [e1, ok_bind, e2, ok_bind]
    simp only
    rw [e3, ok_bind, e4, ok_bind, if_neg (by omega), if_neg (by omega)]
    rfl
  · have hge := ge_fv f fv_chalf
    have hz1 := mul2_lt_one h2.le zg (m := 1) (by simpa using z01)
    push_cast at hz1
    have hfl : fr iq jz * 2 ^ q0 < 2 ^ q0 := by nlinarith
    refine ⟨ζ + fr iq jz * 2 ^ q0, K, ⟨hd, fun h => by omega, ζ, f, z0, z01.le, fun h => by omega, zg, rfl⟩,
      by positivity, by linarith, by rw [add_mul, hS]; simp only; ring, by simp only; omega, by simp only; omega, ?_⟩
    simp only
    rw [if_pos h2]
    by_cases hc : (1 : ℝ) / 2 ≤ ζ
    · right
      rw [if_pos (hge.mpr hc)]
      exact ⟨rfl, by have : 0 ≤ fr iq jz * 2 ^ q0 := by positivity
                     linarith⟩
    · left
      rw [if_neg (fun h => hc (hge.mp h))]
      refine ⟨rfl, ?_⟩
      -- twice the number
      have hg2 : Mul2 (q0 + 1) (2 * ζ) := by
        obtain ⟨k, hk⟩ := zg
        exact ⟨k, by rw [hk, zpow_add_one₀ (by norm_num)]; ring⟩
      have := mul2_lt_one (by omega) hg2 (m := 1) (by push_cast; linarith)
      push_cast at this
      rw [zpow_add_one₀ (by norm_num)] at this
      linarith

theorem computeN_spec {jz : ℕ} {q0 : ℤ} (h1 : -27 ≤ q0) (h2 : q0 ≤ 2) (hj0 : 0 < jz) (hj : jz < 20) {z : D} {iq : ℕ → ℤ} {Z : ℕ} (hz : Fv z Z)
    (hZ : Z ≤ 2 ^ 50) (hd : Dig iq jz) :
    Ok (computeN N q0 jz z iq) (CN q0 jz ((Z + fr iq jz) * 2 ^ q0)) := by
  obtain ⟨m, rfl⟩ : ∃ m, jz = m + 1 := ⟨jz - 1, by omega⟩
  rcases lt_trichotomy q0 0 with h | h | h
  · exact computeN_neg h1 h hz hZ hd
  · subst h; exact computeN_zero hj hz hZ hd
  · have : q0 = ((q0.toNat : ℕ) : ℤ) := by omega
    rw [this]
    exact computeN_pos (by omega) hj hz hZ hd

end
end Pio2
end Verif
