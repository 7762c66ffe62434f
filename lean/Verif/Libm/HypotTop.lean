import Verif.Libm.HypotMain
import Verif.Libm.HypotDen
/-! # `hypot`: subnormal arguments, arguments far apart, and the whole function -/
namespace Verif
/-- `f64` value as a real -/
local notation "V" => Fmt.valK f64 ℝ
/-- value of a magnitude pattern -/
local notation "γ" => Fmt.magVal f64 ℝ

/-- the nearest number is one of the two around -/
theorem Fmt.IsRNE.faithful (F : Fmt) {v : ℝ} {n : ℕ} (h : F.IsRNE v n) : F.Faithful v n := by
  refine ⟨h.1, fun m hm => ⟨fun h1 => ?_, fun h1 => ?_⟩⟩ <;> by_contra hc
  · have hlt := F.magValR_lt_iff.mpr (not_le.mp hc)
    have := (h.2 m hm).1
    rw [abs_of_nonneg (by linarith), abs_of_nonneg (by linarith)] at this
    linarith
  · have hlt := F.magValR_lt_iff.mpr (not_le.mp hc)
    have := (h.2 m hm).1
    rw [abs_of_nonpos (by linarith), abs_of_nonpos (by linarith)] at this
    linarith

namespace Hypot

/-- what is shown of the result `r` for the exact value `σ` -/
def Good (σ : ℝ) (r : BitVec f64.w) : Prop :=
  f64.sign r = false ∧ f64.Faithful σ (f64.mag r) ∧ (¬ Exc σ → ¬ Blind σ → f64.IsRNE σ (f64.mag r))

theorem Good.of {σ : ℝ} {r : BitVec f64.w} (h : f64.sign r = false) (h' : f64.IsRNE σ (f64.mag r)) : Good σ r :=
  ⟨h, h'.faithful f64, fun _ _ => h'⟩

/-! ## Both subnormal -/

theorem den_good {H : HypotOps} (hH : H.Lawful) {A B : ℕ} (ha : A < 2 ^ 52) (hb : B < 2 ^ 52) (ha0 : 0 < A) (hb0 : 0 < B) {σ : ℝ}
    (hσ0 : 0 < σ) (hσ : σ ^ 2 = (A * 2 ^ (-1074 : ℤ)) ^ 2 + (B * 2 ^ (-1074 : ℤ)) ^ 2) :
    ∃ r, denorm H (BitVec.ofNat f64.w A) (BitVec.ofNat f64.w B) = .ok r ∧ Good σ r := by
  obtain ⟨s, s0, s3, s1, s2, hr⟩ := denorm_spec hH ha hb ha0 hb0
  refine ⟨_, hr, ?_⟩
  obtain ⟨n, rfl⟩ := Int.eq_ofNat_of_zero_le s0
  obtain ⟨τ, hτ⟩ : ∃ τ : ℝ, σ = τ * 2 ^ (-1074 : ℤ) := ⟨σ / 2 ^ (-1074 : ℤ), by field_simp⟩
  have hp : (0 : ℝ) < 2 ^ (-1074 : ℤ) := by positivity
  have hτ0 : 0 < τ := by
    rw [hτ] at hσ0; exact pos_of_mul_pos_left hσ0 hp.le
  have hτ2 : τ ^ 2 = (A : ℝ) ^ 2 + (B : ℝ) ^ 2 := by
    rw [hτ, mul_pow, mul_pow, mul_pow, ← add_mul] at hσ
    exact mul_right_cancel₀ (by positivity) hσ
  have t1 : ((n : ℝ)) * n ≤ τ ^ 2 := by rw [hτ2]; exact_mod_cast s1
  have t2 : τ ^ 2 < ((n : ℝ) + 1) * (n + 1) := by rw [hτ2]; exact_mod_cast s2
  have hn0 : (0 : ℝ) ≤ n := by positivity
  have l1 : (n : ℝ) ≤ τ := by nlinarith
  have l2 : τ < (n : ℝ) + 1 := by nlinarith
  have hn : n < 2 ^ 53 := by exact_mod_cast s3
  have g0 := gv (E := 1) (m := n) (by norm_num) (by omega) (by norm_num)
  have g1 := gv (E := 1) (m := n + 1) (by norm_num) (by omega) (by norm_num)
  have he : ((1 : ℕ) : ℤ) - 1075 = -1074 := by norm_num
  rw [he, show (1 - 1) * 2 ^ 52 + n = n by omega] at g0
  rw [he, show (1 - 1) * 2 ^ 52 + (n + 1) = n + 1 by omega] at g1
  push_cast at g1
  have key : ∀ N : ℕ, nearSqrt ((A : ℤ) ^ 2 + (B : ℤ) ^ 2) n = N → N ≤ n + 1 → f64.IsRNE σ N →
      Good σ (BitVec.ofInt f64.w (nearSqrt ((A : ℤ) ^ 2 + (B : ℤ) ^ 2) n)) := by
    intro N h1 h2 h3
    rw [h1, BitVec.ofInt_natCast]
    have tN : (BitVec.ofNat f64.w N).toNat = N := toNat64 (by omega)
    exact Good.of (sign_small (by omega)) (by rw [mag_small (by omega), tN]; exact h3)
  have b0 : γ n ≤ σ := by rw [g0, hτ]; exact mul_le_mul_of_nonneg_right l1 hp.le
  have b1 : σ ≤ γ (n + 1) := by rw [g1, hτ]; exact mul_le_mul_of_nonneg_right l2.le hp.le
  have hinf : n + 1 ≤ f64.infRep := by rw [inf64]; omega
  by_cases hc : (A : ℤ) ^ 2 + (B : ℤ) ^ 2 - n * n ≤ n
  · refine key n (by unfold nearSqrt; rw [if_pos hc]) (by omega) ?_
    refine f64.isRNE_betweenR hinf b0 b1 (Or.inl ⟨?_, rfl⟩)
    have hcr : τ ^ 2 - n * n ≤ n := by rw [hτ2]; exact_mod_cast hc
    rw [g0, g1, hτ, ← mul_assoc, ← add_mul]
    refine mul_lt_mul_of_pos_right ?_ hp
    nlinarith
  · refine key (n + 1) (by unfold nearSqrt; rw [if_neg hc]; push_cast; rfl) (le_refl _) ?_
    refine f64.isRNE_betweenR hinf b0 b1 (Or.inr (Or.inl ⟨?_, rfl⟩))
    have hcr : (n : ℝ) + 1 ≤ τ ^ 2 - n * n := by
      rw [hτ2]; exact_mod_cast (show (n : ℤ) + 1 ≤ (A : ℤ) ^ 2 + (B : ℤ) ^ 2 - n * n by omega)
    rw [g0, g1, hτ, ← mul_assoc, ← add_mul]
    refine mul_lt_mul_of_pos_right ?_ hp
    nlinarith

/-! ## Arguments far apart -/

theorem c27 : V 0x3e40000000000000#f64.w = 2 ^ (-27 : ℤ) ∧ f64.IsFin 0x3e40000000000000#f64.w := by
  have hm : (0x3e40000000000000#f64.w).toNat = (996 - 1) * 2 ^ 52 + 2 ^ 52 := by decide
  constructor
  · rw [val_small (by rw [hm]; norm_num), hm, gv (by norm_num) (by norm_num) (by norm_num)]
    norm_num
  · exact fin_small (by rw [hm]; norm_num)

/-- the defect of `fma_round` is not triggered when a factor is a power of two -/
theorem not_lost {v u : BitVec f64.w} : ¬ f64.FmaLost 0x3e40000000000000#f64.w v u := by
  rintro ⟨mx, my, mz, ex, ey, ez, ⟨hx, hx', vx⟩, ⟨hy, hy', _⟩, _, k, hk, hk', _, h0, h1⟩
  have hv : |f64.val 0x3e40000000000000#f64.w| = (2 : ℚ) ^ (-27 : ℤ) := by
    have h2 := c27.1
    rw [← f64.valK_cast] at h2
    have h3 : f64.val 0x3e40000000000000#f64.w = (2 : ℚ) ^ (-27 : ℤ) := by
      apply Rat.cast_injective (α := ℝ)
      rw [h2]; push_cast; rfl
    rw [h3, abs_of_pos (by positivity)]
  rw [hv] at vx
  have hx : 2 ^ 53 ≤ mx := hx
  have hx' : mx < 2 ^ 54 := hx'
  have hy : 2 ^ 53 ≤ my := hy
  have hy' : my < 2 ^ 54 := hy'
  have hk' : k < 64 := hk'
  have hmx : (mx : ℚ) = 2 ^ (-27 - ex) := by
    rw [zpow_sub₀ (by norm_num), vx, mul_div_assoc, div_self (by positivity), mul_one]
  have hq1 : (2 : ℚ) ^ (53 : ℤ) ≤ 2 ^ (-27 - ex) := by rw [← hmx]; exact_mod_cast hx
  have hq2 : (2 : ℚ) ^ (-27 - ex) < 2 ^ (54 : ℤ) := by rw [← hmx]; exact_mod_cast hx'
  rw [zpow_le_zpow_iff_right₀ (by norm_num)] at hq1
  rw [zpow_lt_zpow_iff_right₀ (by norm_num)] at hq2
  have hmx' : mx = 2 ^ 53 := by
    rw [show -27 - ex = 53 by omega] at hmx
    exact_mod_cast hmx
  subst hmx'
  rcases Nat.lt_or_ge k 54 with h | h
  · -- the product is a multiple of `2^(min 53 2k)`
    have hd : 2 ^ min 53 (2 * k) ∣ 2 ^ 53 * my % 2 ^ (2 * k) :=
      (Nat.dvd_mod_iff (pow_dvd_pow 2 (min_le_right _ _))).mpr (Dvd.dvd.mul_right (pow_dvd_pow 2 (min_le_left _ _)) _)
    have h2 := Nat.le_of_dvd h0 hd
    have h3 : 2 ^ k ≤ 2 ^ min 53 (2 * k) := Nat.pow_le_pow_right (by norm_num) (by omega)
    omega
  · have h2 : 2 ^ 108 ≤ 2 ^ (2 * k) := Nat.pow_le_pow_right (by norm_num) (by omega)
    have h3 : 2 ^ k ≤ 2 ^ 64 := Nat.pow_le_pow_right (by norm_num) (by omega)
    rw [Nat.mod_eq_of_lt (by omega)] at h1
    omega

theorem far_good {H : HypotOps} (hH : H.Lawful) {u v : BitVec f64.w} {E M : ℕ} {σ : ℝ} (hE : 1 ≤ E) (hE' : E ≤ 2046)
    (hM : 2 ^ 52 ≤ M) (hM' : M < 2 ^ 53) (hu : u = BitVec.ofNat f64.w ((E - 1) * 2 ^ 52 + M)) (hv : f64.IsFin v) (hv0 : 0 < V v)
    (hvu : V v < 2 ^ (-27 : ℤ) * V u) (hσ0 : 0 < σ) (hσ : σ ^ 2 = V u ^ 2 + V v ^ 2) :
    ∃ r, H.fma 0x3e40000000000000#f64.w v u = .ok r ∧ Good σ r := by
  have tu : u.toNat = (E - 1) * 2 ^ 52 + M := by rw [hu, toNat64 (by omega)]
  have fu : f64.IsFin u := fin_small (by omega)
  have vu : V u = γ ((E - 1) * 2 ^ 52 + M) := by rw [val_small (by omega), tu]
  have gu := gv hE hM'.le (Or.inl hM)
  have gst := gstep (n := (E - 1) * 2 ^ 52 + M) (by omega)
  rw [show ((E - 1) * 2 ^ 52 + M) / 2 ^ 52 = E by omega] at gst
  obtain ⟨r, e1, e2⟩ := hH.fma _ v u not_lost
  have hr := (e2.1 c27.2 hv fu).1.cast f64
  rw [Rat.cast_add, Rat.cast_mul, f64.valK_cast, f64.valK_cast, f64.valK_cast, c27.1] at hr
  refine ⟨r, e1, ?_⟩
  obtain ⟨w, hw⟩ : ∃ w : ℝ, w = V v := ⟨_, rfl⟩
  obtain ⟨z, hz⟩ : ∃ z : ℝ, z = V u := ⟨_, rfl⟩
  rw [← hw] at hr hv0 hvu hσ
  rw [← hz] at hr hvu hσ vu
  have hz0 : 0 < z := by
    have : (0 : ℝ) < 2 ^ (-27 : ℤ) := by positivity
    nlinarith
  -- half an ulp of `u` is at least `2^-54 u`
  have hh : z * 2 ^ (-53 : ℤ) < 2 ^ ((E : ℤ) - 1075) := by
    rw [vu, gu, show (M : ℝ) * 2 ^ ((E : ℤ) - 1075) * 2 ^ (-53 : ℤ) = (M * 2 ^ (-53 : ℤ)) * 2 ^ ((E : ℤ) - 1075) by ring]
    refine mul_lt_of_lt_one_left (by positivity) ?_
    have h1 : (M : ℝ) < 9007199254740992 := by exact_mod_cast hM'
    rw [show (2 : ℝ) ^ (-53 : ℤ) = 1 / 9007199254740992 by norm_num]
    linarith
  have near : ∀ t : ℝ, z < t → t < z + z * 2 ^ (-54 : ℤ) → f64.IsRNE t ((E - 1) * 2 ^ 52 + M) := by
    intro t h1 h2
    have h3 : z * 2 ^ (-54 : ℤ) * 2 < 2 ^ ((E : ℤ) - 1075) := by
      rw [show z * 2 ^ (-54 : ℤ) * 2 = z * 2 ^ (-53 : ℤ) by norm_num; ring]; exact hh
    refine f64.isRNE_betweenR (by rw [inf64]; omega) (by rw [← vu]; exact h1.le) ?_ (Or.inl ⟨?_, rfl⟩)
    · rw [gst, ← vu]
      have : 0 < z * 2 ^ (-54 : ℤ) := by positivity
      linarith
    · rw [gst, ← vu]; linarith
  have q1 : 2 ^ (-27 : ℤ) * w < z * 2 ^ (-54 : ℤ) := by
    have : (2 : ℝ) ^ (-27 : ℤ) * w < 2 ^ (-27 : ℤ) * (2 ^ (-27 : ℤ) * z) := mul_lt_mul_of_pos_left hvu (by positivity)
    calc _ < _ := this
      _ = z * 2 ^ (-54 : ℤ) := by norm_num; ring
  have q0 : 0 < (2 : ℝ) ^ (-27 : ℤ) * w := by positivity
  have n1 := near (2 ^ (-27 : ℤ) * w + z) (by linarith) (by linarith)
  have n2 := near σ (by nlinarith) (by
    have hb : 0 < z * 2 ^ (-54 : ℤ) := by positivity
    refine lt_of_pow_lt_pow_left₀ 2 (by positivity) ?_
    have h1 : w ^ 2 < (2 ^ (-27 : ℤ) * z) ^ 2 := pow_lt_pow_left₀ hvu hv0.le (by norm_num)
    have h2 : (2 ^ (-27 : ℤ) * z) ^ 2 = 2 ^ (-54 : ℤ) * z ^ 2 := by norm_num; ring
    have h3 : (z + z * 2 ^ (-54 : ℤ)) ^ 2 = z ^ 2 + 2 * (2 ^ (-54 : ℤ) * z ^ 2) + (z * 2 ^ (-54 : ℤ)) ^ 2 := by ring
    have h4 : 0 < (2 : ℝ) ^ (-54 : ℤ) * z ^ 2 := by positivity
    have h5 : 0 < (z * 2 ^ (-54 : ℤ)) ^ 2 := by positivity
    linarith)
  have hm : f64.mag r = (E - 1) * 2 ^ 52 + M := by
    have := hr.1
    rw [abs_of_pos (by linarith)] at this
    exact Fmt.IsRNE.unique f64 this n1
  refine Good.of ?_ (by rw [hm]; exact n2)
  rw [Bool.eq_false_iff]; intro hc
  have := (hr.2 (by linarith)).mp hc
  linarith

/-! ## A normal number and a smaller one, given by exponent and significand -/

theorem pair_good {H : HypotOps} (hH : H.Lawful) {u v yd : BitVec f64.w} {E M m : ℕ} {e : ℤ} {σ : ℝ} (hE : 1 ≤ E) (hE' : E ≤ 2046)
    (hM : 2 ^ 52 ≤ M) (hM' : M < 2 ^ 53) (hm : 2 ^ 52 ≤ m) (hm' : m < 2 ^ 53) (hu : u = BitVec.ofNat f64.w ((E - 1) * 2 ^ 52 + M))
    (hy : yd = BitVec.ofInt f64.w ((e - 1) * 2 ^ 52 + m)) (he : -100 ≤ e) (hv : f64.IsFin v) (hvv : V v = m * 2 ^ (e - 1075))
    (hle : 0 ≤ (E - e) * 2 ^ 52 + M - m) (hσ0 : 0 < σ) (hσ : σ ^ 2 = V u ^ 2 + V v ^ 2) :
    ∃ r, (if u - yd > 27#f64.w <<< 52 then H.fma 0x3e40000000000000#f64.w v u else main H false u yd) = .ok r ∧ Good σ r := by
  have vu : V u = M * 2 ^ ((E : ℤ) - 1075) := by
    have tu : u.toNat = (E - 1) * 2 ^ 52 + M := by rw [hu, toNat64 (by omega)]
    rw [val_small (by omega), tu, gv hE hM'.le (Or.inl hM)]
  obtain ⟨D, hD⟩ := Int.eq_ofNat_of_zero_le hle
  have hcmp : (u - yd > 27#f64.w <<< 52) ↔ 27 * 2 ^ 52 < D := by
    have hd : u - yd = BitVec.ofNat f64.w D := by
      rw [hu, hy, ← BitVec.ofInt_natCast, ← ofInt_sub', ← BitVec.ofInt_natCast]
      exact congrArg _ (by omega)
    rw [gt_iff_lt, BitVec.lt_def, hd, toNat64 (by omega), show (27#f64.w <<< 52).toNat = 27 * 2 ^ 52 by decide]
  have hv0 : 0 < V v := by
    rw [hvv]
    have : (0 : ℝ) < m := by exact_mod_cast (by omega : 0 < m)
    positivity
  by_cases hc : 27 * 2 ^ 52 < D
  · rw [if_pos (hcmp.mpr hc)]
    refine far_good hH hE hE' hM hM' hu hv hv0 ?_ hσ0 hσ
    rw [hvv, vu, show (2 : ℝ) ^ (-27 : ℤ) * (M * 2 ^ ((E : ℤ) - 1075)) = M * (2 ^ (-27 : ℤ) * 2 ^ ((E : ℤ) - 1075)) by ring,
      ← zpow_add₀ (by norm_num)]
    have hMp : (0 : ℝ) < M := by exact_mod_cast (by omega : 0 < M)
    rcases eq_or_lt_of_le (show e + 27 ≤ E by omega) with h | h
    · rw [show -27 + ((E : ℤ) - 1075) = e - 1075 by omega]
      refine mul_lt_mul_of_pos_right ?_ (by positivity)
      exact_mod_cast (show m < M by omega)
    · have h1 : (m : ℝ) < 2 * M := by exact_mod_cast (show m < 2 * M by omega)
      have h2 : (2 : ℝ) * 2 ^ (e - 1075) ≤ 2 ^ (-27 + ((E : ℤ) - 1075)) := by
        rw [← zpow_one_add₀ (by norm_num)]
        exact zpow_le_zpow_right₀ (by norm_num) (by omega)
      calc (m : ℝ) * 2 ^ (e - 1075) < 2 * M * 2 ^ (e - 1075) := mul_lt_mul_of_pos_right h1 (by positivity)
        _ = M * (2 * 2 ^ (e - 1075)) := by ring
        _ ≤ _ := mul_le_mul_of_nonneg_left h2 hMp.le
  · rw [if_neg (fun h => hc (hcmp.mp h))]
    obtain ⟨δ, hδ⟩ := Int.eq_ofNat_of_zero_le (show 0 ≤ (E : ℤ) - e by omega)
    exact main_spec hH (δ := δ) (e := e) hE hE' hM hM' hm hm' hu hy (by omega) (by omega) (fun h => by subst h; omega) hσ0
      (by rw [hσ, vu, hvv])

/-! ## Normalising a subnormal -/

theorem renorm_spec {v : BitVec f64.w} (h0 : v ≠ 0#f64.w) (h : v.toNat < 2 ^ 52) :
    ∃ (m : ℕ) (e : ℤ), 2 ^ 52 ≤ m ∧ m < 2 ^ 53 ∧ -100 ≤ e ∧ e ≤ 0 ∧ renorm v = .ok (BitVec.ofInt f64.w ((e - 1) * 2 ^ 52 + m)) ∧
      V v = m * 2 ^ (e - 1075) := by
  have c1 := BitVec.two_pow_sub_clz_le_toNat_of_ne_zero (by decide) h0
  have c2 := BitVec.toNat_lt_two_pow_sub_clz (x := v)
  have hw : f64.w = 64 := rfl
  have cl : v.clz.toNat < 64 := by
    have := BitVec.clz_lt_iff_ne_zero.mpr h0
    rw [BitVec.lt_def] at this
    exact this
  obtain ⟨z, hz⟩ : ∃ z, v.clz.toNat = z := ⟨_, rfl⟩
  rw [hz] at c1 c2 cl
  have c1 : 2 ^ (63 - z) ≤ v.toNat := by
    refine le_trans (Nat.pow_le_pow_right (by norm_num) ?_) c1
    show 63 - z ≤ 64 - 1 - z
    omega
  have c2 : v.toNat < 2 ^ (64 - z) := c2
  have hz12 : 12 ≤ z := by
    by_contra hc
    have : 2 ^ 52 ≤ 2 ^ (63 - z) := Nat.pow_le_pow_right (by norm_num) (by omega)
    omega
  obtain ⟨n, hn⟩ : ∃ n, v.toNat = n := ⟨_, rfl⟩
  rw [hn] at c1 c2 h
  have m1 : 2 ^ 52 ≤ n * 2 ^ (z - 11) := by
    calc 2 ^ 52 = 2 ^ (63 - z) * 2 ^ (z - 11) := by rw [← pow_add]; congr 1; omega
      _ ≤ _ := Nat.mul_le_mul_right _ c1
  have m2 : n * 2 ^ (z - 11) < 2 ^ 53 := by
    calc n * 2 ^ (z - 11) < 2 ^ (64 - z) * 2 ^ (z - 11) := Nat.mul_lt_mul_of_pos_right c2 (by positivity)
      _ = _ := by rw [← pow_add]; congr 1; omega
  refine ⟨n * 2 ^ (z - 11), 12 - z, m1, m2, by omega, by omega, ?_, ?_⟩
  · unfold renorm
    rw [hz]
    dsimp only
    have hs : nsubC z 11 = .ok (z - 11) := by unfold nsubC; rw [if_pos (by omega)]
    have hsh : shlC v (z - 11) = .ok (v <<< (z - 11)) := by unfold shlC; rw [if_pos (by omega)]
    have ht : subI64C (BitVec.ofNat f64.w z) 12#f64.w = .ok (BitVec.ofInt f64.w (z - 12)) := by
      rw [bi_nat, show (12#f64.w) = BitVec.ofInt f64.w 12 from rfl]
      exact subI (ab62 (by omega) (by omega)) (by norm_num) (ab62 (by omega) (by omega))
    rw [hs, ok_bind, hsh, ok_bind, ht, ok_bind]
    have hand : v <<< (z - 11) &&& BitVec.allOnes f64.w >>> 12 = BitVec.ofInt f64.w ((n * 2 ^ (z - 11) : ℕ) - 2 ^ 52) := by
      have hall : BitVec.allOnes f64.w >>> 12 = BitVec.ofNat f64.w (2 ^ 52 - 1) := by decide
      apply BitVec.eq_of_toNat_eq
      obtain ⟨q, hq⟩ := Nat.exists_eq_add_of_le m1
      have hi : ((n * 2 ^ (z - 11) : ℕ) : ℤ) - 2 ^ 52 = (q : ℤ) := by rw [hq]; push_cast; ring
      rw [hi, BitVec.ofInt_natCast, toNat64 (by omega), BitVec.toNat_and, BitVec.toNat_shiftLeft, hall, toNat64 (by norm_num), hn,
        Nat.and_two_pow_sub_one_eq_mod, Nat.shiftLeft_eq, hq]
      have hw' : (2 : ℕ) ^ f64.w = 2 ^ 64 := rfl
      rw [hw']
      omega
    rw [hand, BitVec.shiftLeft_eq_mul_twoPow, show BitVec.twoPow f64.w 52 = BitVec.ofInt f64.w (2 ^ 52) by decide, ← BitVec.ofInt_mul,
      ← ofInt_sub']
    show Except.ok _ = Except.ok _
    exact congrArg (fun t => Except.ok (BitVec.ofInt f64.w t)) (by ring)
  · rw [val_small (by omega), hn]
    have g0 := gv (E := 1) (m := n) (by norm_num) (by omega) (by norm_num)
    rw [show (1 - 1) * 2 ^ 52 + n = n by omega] at g0
    rw [g0]
    push_cast
    have : ((2 : ℝ) ^ (z - 11)) = 2 ^ ((z : ℤ) - 11) := by
      rw [← zpow_natCast]; congr 1; omega
    rw [this, mul_assoc, ← zpow_add₀ (by norm_num)]
    congr 2; ring

/-! ## Finite arguments -/

/-- hypot.rs 61-134, from the larger magnitude `u` and the smaller one `v` -/
def body (H : HypotOps) (chk : Bool) (u v : BitVec f64.w) : M (BitVec f64.w) :=
  if v >>> 52 = 0#f64.w then
    if v = 0#f64.w then pure u
    else if u >>> 52 = 0#f64.w then
      if u = 0#f64.w then pure 0#f64.w
      else denorm H u v
    else do
      let yd ← renorm v
      if u - yd > 27#f64.w <<< 52 then H.fma 0x3e40000000000000#f64.w v u
      else main H chk u yd
  else if u - v > 27#f64.w <<< 52 then H.fma 0x3e40000000000000#f64.w v u
  else main H chk u v

theorem shr_zero {v : BitVec f64.w} : v >>> 52 = 0#f64.w ↔ v.toNat < 2 ^ 52 := by
  have hlt : v.toNat < 2 ^ 64 := v.isLt
  constructor
  · intro h
    have := congrArg BitVec.toNat h
    rw [BitVec.toNat_ushiftRight, Nat.shiftRight_eq_div_pow] at this
    have h0 : (0#f64.w).toNat = 0 := rfl
    rw [h0] at this
    omega
  · intro h
    apply BitVec.eq_of_toNat_eq
    rw [BitVec.toNat_ushiftRight, Nat.shiftRight_eq_div_pow]
    have h0 : (0#f64.w).toNat = 0 := rfl
    rw [h0]
    omega

theorem split {u : BitVec f64.w} (h : 2 ^ 52 ≤ u.toNat) (h' : u.toNat < 2047 * 2 ^ 52) :
    ∃ E M : ℕ, 1 ≤ E ∧ E ≤ 2046 ∧ 2 ^ 52 ≤ M ∧ M < 2 ^ 53 ∧ u.toNat = (E - 1) * 2 ^ 52 + M ∧ u = BitVec.ofNat f64.w ((E - 1) * 2 ^ 52 + M) ∧
      V u = M * 2 ^ ((E : ℤ) - 1075) := by
  have he : u.toNat = (u.toNat / 2 ^ 52 - 1) * 2 ^ 52 + (2 ^ 52 + u.toNat % 2 ^ 52) := by omega
  refine ⟨u.toNat / 2 ^ 52, 2 ^ 52 + u.toNat % 2 ^ 52, by omega, by omega, by omega, by omega, he, ?_, ?_⟩
  · rw [← he, BitVec.ofNat_toNat, BitVec.setWidth_eq]
  · rw [val_small (by omega), ← gv (by omega) (by omega) (by omega), ← he]

theorem g0' : γ 0 = 0 := by rw [← f64.magVal_cast, f64.magVal_zero, Rat.cast_zero]

theorem body_good {H : HypotOps} (hH : H.Lawful) {u v : BitVec f64.w} (hu : u.toNat < 2047 * 2 ^ 52) (hle : v.toNat ≤ u.toNat) {σ : ℝ}
    (hσ0 : 0 ≤ σ) (hσ : σ ^ 2 = V u ^ 2 + V v ^ 2) : ∃ r, body H false u v = .ok r ∧ Good σ r := by
  unfold body
  by_cases hv0 : v = 0#f64.w
  · subst hv0
    rw [if_pos (by decide), if_pos rfl]
    have hz : V 0#f64.w = 0 := by
      have t0 : (0#f64.w).toNat = 0 := rfl
      rw [val_small (by rw [t0]; norm_num), t0, g0']
    have hu0 : 0 ≤ V u := by rw [val_small (by omega)]; exact f64.magVal_nonneg ℝ _
    have hs : σ = V u := by
      rw [hz] at hσ
      have h2 : σ ^ 2 = V u ^ 2 := by rw [hσ]; ring
      exact (pow_left_inj₀ hσ0 hu0 (by norm_num)).mp h2
    refine ⟨u, rfl, Good.of (sign_small (by omega)) ?_⟩
    rw [hs, val_small (by omega), mag_small (by omega)]
    exact f64.isRNE_exactR (by rw [inf64]; omega)
  have hvn : v.toNat ≠ 0 := fun h => hv0 (BitVec.eq_of_toNat_eq h)
  have hσp : 0 < σ := by
    have h1 : 0 < V v := by
      rw [val_small (by omega), ← g0']; exact g_lt.mpr (by omega)
    have h2 : 0 < σ ^ 2 := by rw [hσ]; positivity
    exact lt_of_le_of_ne hσ0 (fun h => by rw [← h] at h2; norm_num at h2)
  by_cases hv : v.toNat < 2 ^ 52
  · rw [if_pos (shr_zero.mpr hv), if_neg hv0]
    by_cases hus : u.toNat < 2 ^ 52
    · have hun : u ≠ 0#f64.w := fun h => by
        have := congrArg BitVec.toNat h
        have h0 : (0#f64.w).toNat = 0 := rfl
        omega
      rw [if_pos (shr_zero.mpr hus), if_neg hun]
      have vs : ∀ w : BitVec f64.w, w.toNat < 2 ^ 52 → V w = w.toNat * 2 ^ (-1074 : ℤ) := by
        intro w hw
        have g0 := gv (E := 1) (m := w.toNat) (by norm_num) (by omega) (by norm_num)
        rw [show (1 - 1) * 2 ^ 52 + w.toNat = w.toNat by omega, show ((1 : ℕ) : ℤ) - 1075 = -1074 by norm_num] at g0
        rw [val_small (by omega), g0]
      have := den_good hH hus hv (by omega) (by omega) hσp (by rw [hσ, vs u hus, vs v hv])
      rwa [BitVec.ofNat_toNat, BitVec.setWidth_eq, BitVec.ofNat_toNat, BitVec.setWidth_eq] at this
    · rw [if_neg (fun h => hus (shr_zero.mp h))]
      obtain ⟨E, M, h1, h2, h3, h4, _, h6, _⟩ := split (not_lt.mp hus) hu
      obtain ⟨m, e, m1, m2, e1, e2, hr, hvv⟩ := renorm_spec hv0 hv
      rw [hr, ok_bind]
      exact pair_good hH h1 h2 h3 h4 m1 m2 h6 rfl e1 (fin_small (by omega)) hvv (by omega) hσp hσ
  · rw [if_neg (fun h => hv (shr_zero.mp h))]
    obtain ⟨E, M, h1, h2, h3, h4, h5, h6, _⟩ := split (by omega) hu
    obtain ⟨e, m, k1, k2, k3, k4, k5, k6, k7⟩ := split (not_lt.mp hv) (by omega)
    refine pair_good hH (e := e) h1 h2 h3 h4 k3 k4 h6 ?_ (by omega) (fin_small (by omega)) k7 (by omega) hσp hσ
    rw [k6, ← BitVec.ofInt_natCast]
    exact congrArg _ (by omega)

/-! ## Overflow checks -/

/-- `a` panics with an overflow, or is `b` -/
def Wk {α : Type} (a b : M α) : Prop := a = .error .overflow ∨ a = b

theorem Wk.refl {α : Type} (a : M α) : Wk a a := Or.inr rfl
theorem Wk.bind {α β : Type} {a b : M α} {f g : α → M β} (h : Wk a b) (h' : ∀ x, Wk (f x) (g x)) : Wk (a >>= f) (b >>= g) := by
  rcases h with rfl | rfl
  · exact Or.inl rfl
  · cases a with
    | error e => exact Or.inr rfl
    | ok x => exact h' x
theorem Wk.ite {α : Type} {p : Prop} [Decidable p] {a b c d : M α} (h : Wk a b) (h' : Wk c d) : Wk (if p then a else c) (if p then b else d) := by
  split_ifs
  · exact h
  · exact h'

theorem subI64_wk (a b : BitVec f64.w) : Wk (subI64 true a b) (subI64 false a b) := by
  unfold subI64
  by_cases h : a.ssubOverflow b = true
  · exact Or.inl (by simp [h])
  · exact Or.inr (by simp [h])

theorem loop_wk (m2 : BitVec f64.w) (k : Int) (n : ℕ) : ∀ rm, Wk (loop true m2 k n rm) (loop false m2 k n rm) := by
  induction n with
  | zero => intro rm; exact Wk.refl _
  | succ n ih =>
    intro rm
    unfold loop
    exact Wk.bind (Wk.refl _) fun _ => Wk.bind (Wk.refl _) fun _ => Wk.bind (Wk.refl _) fun _ => Wk.bind (subI64_wk _ _) fun _ =>
      Wk.ite (Wk.refl _) (ih _)

theorem round_wk (N : FPU f64) (m2 : BitVec f64.w) (k : Int) (rm d : BitVec f64.w) : Wk (round N true m2 k rm d) (round N false m2 k rm d) := by
  unfold round
  exact Wk.ite (Wk.refl _) (Wk.ite (Wk.bind (Wk.refl _) fun _ => Wk.bind (Wk.refl _) fun _ => Wk.bind (Wk.refl _) fun _ =>
    Wk.bind (Wk.refl _) fun _ => Wk.bind (subI64_wk _ _) fun _ => Wk.refl _) (Wk.refl _))

theorem hard_wk (H : HypotOps) (x y : BitVec f64.w) : Wk (hard H true x y) (hard H false x y) := by
  unfold hard
  refine Wk.bind (Wk.refl _) fun _ => Wk.bind (Wk.refl _) fun _ => Wk.bind (Wk.refl _) fun _ => Wk.bind (Wk.refl _) fun _ =>
    Wk.bind (Wk.refl _) fun _ => Wk.bind (Wk.refl _) fun _ => Wk.bind (Wk.refl _) fun _ => Wk.bind (loop_wk _ _ _ _) fun _ =>
    Wk.bind (round_wk _ _ _ _ _) fun _ => Wk.refl _

theorem main_wk (H : HypotOps) (x y : BitVec f64.w) : Wk (main H true x y) (main H false x y) := by
  unfold main
  exact Wk.bind (Wk.refl _) fun _ => Wk.bind (Wk.refl _) fun _ => Wk.bind (Wk.ite (hard_wk _ _ _) (Wk.refl _)) fun _ => Wk.refl _

theorem body_wk (H : HypotOps) (u v : BitVec f64.w) : Wk (body H true u v) (body H false u v) := by
  unfold body
  refine Wk.ite (Wk.ite (Wk.refl _) (Wk.ite (Wk.refl _) (Wk.bind (Wk.refl _) fun _ => Wk.ite (Wk.refl _) (main_wk _ _ _))))
    (Wk.ite (Wk.refl _) (main_wk _ _ _))

/-! ## The whole function -/

theorem hypot_eq (H : HypotOps) (chk : Bool) (x y : BitVec f64.w) : hypot H chk x y =
    if x &&& f64.expMask = f64.expMask ∨ y &&& f64.expMask = f64.expMask then
      (if (decide (x <<< 1 = f64.expMask <<< 1) ^^ decide (y <<< 1 = f64.expMask <<< 1)) &&
          (f64.isNan (x &&& ~~~f64.signMask) ^^ f64.isNan (y &&& ~~~f64.signMask)) then pure f64.expMask
       else pure (H.N.add (x &&& ~~~f64.signMask) (y &&& ~~~f64.signMask)))
    else body H chk (if f64.lt (x &&& ~~~f64.signMask) (y &&& ~~~f64.signMask) then y &&& ~~~f64.signMask else x &&& ~~~f64.signMask)
      (if f64.lt (x &&& ~~~f64.signMask) (y &&& ~~~f64.signMask) then x &&& ~~~f64.signMask else y &&& ~~~f64.signMask) := rfl

theorem hypot_wk (H : HypotOps) (x y : BitVec f64.w) : Wk (hypot H true x y) (hypot H false x y) := by
  rw [hypot_eq, hypot_eq]
  exact Wk.ite (Wk.refl _) (body_wk _ _ _)

theorem mag_lt64 (x : BitVec f64.w) : f64.mag x < 2 ^ 63 := Nat.mod_lt _ (by norm_num)

theorem exp_iff {x : BitVec f64.w} : x &&& f64.expMask = f64.expMask ↔ ¬ f64.IsFin x := by
  have h1 : (x &&& f64.expMask).toNat = f64.mag x / 2 ^ 52 * 2 ^ 52 := by rw [f64.toNat_and_expMask, s64]
  have h2 : f64.expMask.toNat = 2047 * 2 ^ 52 := by decide
  have := mag_lt64 x
  unfold Fmt.IsFin
  rw [inf64]
  constructor
  · intro h
    rw [h, h2] at h1
    omega
  · intro h
    apply BitVec.eq_of_toNat_eq
    rw [h1, h2]; omega

theorem shl_iff {x : BitVec f64.w} : x <<< 1 = f64.expMask <<< 1 ↔ f64.IsInf x := by
  have h2 : (f64.expMask <<< 1).toNat = 2047 * 2 ^ 53 := by decide
  have h1 : (x <<< 1).toNat = f64.mag x * 2 := by
    rw [BitVec.toNat_shiftLeft, Nat.shiftLeft_eq]
    have hw : (2 : ℕ) ^ f64.w = 2 ^ 64 := rfl
    have hm : f64.mag x = x.toNat % 2 ^ 63 := rfl
    rw [hw, hm]
    omega
  unfold Fmt.IsInf
  rw [inf64]
  constructor
  · intro h
    rw [h, h2] at h1
    omega
  · intro h
    apply BitVec.eq_of_toNat_eq
    rw [h1, h2]; omega

theorem abs_facts (x : BitVec f64.w) : (x &&& ~~~f64.signMask).toNat = f64.mag x ∧ f64.mag (x &&& ~~~f64.signMask) = f64.mag x ∧
    f64.sign (x &&& ~~~f64.signMask) = false ∧ V (x &&& ~~~f64.signMask) = |V x| := by
  have h1 := f64.toNat_and_not_signMask x
  have hl := mag_lt64 x
  have h2 : f64.mag (x &&& ~~~f64.signMask) = f64.mag x := by rw [mag_small (by omega), h1]
  have h3 : f64.sign (x &&& ~~~f64.signMask) = false := sign_small (by omega)
  refine ⟨h1, h2, h3, ?_⟩
  rw [f64.absvR, val_pos h3, h2]

/-- finite arguments -/
theorem hypot_good {H : HypotOps} (hH : H.Lawful) {x y : BitVec f64.w} (hx : f64.IsFin x) (hy : f64.IsFin y) :
    ∃ r, hypot H false x y = .ok r ∧ Good (Real.sqrt (V x ^ 2 + V y ^ 2)) r := by
  obtain ⟨x1, x2, x3, x4⟩ := abs_facts x
  obtain ⟨y1, y2, y3, y4⟩ := abs_facts y
  rw [hypot_eq, if_neg (by rw [exp_iff, exp_iff]; tauto)]
  have hxl : f64.mag x < 2047 * 2 ^ 52 := by have := hx; unfold Fmt.IsFin at this; rwa [inf64] at this
  have hyl : f64.mag y < 2047 * 2 ^ 52 := by have := hy; unfold Fmt.IsFin at this; rwa [inf64] at this
  have hnx : ¬ f64.IsNaN (x &&& ~~~f64.signMask) := by unfold Fmt.IsNaN; rw [x2, inf64]; omega
  have hny : ¬ f64.IsNaN (y &&& ~~~f64.signMask) := by unfold Fmt.IsNaN; rw [y2, inf64]; omega
  have hs0 : (0 : ℝ) ≤ V x ^ 2 + V y ^ 2 := by positivity
  have hlt : f64.lt (x &&& ~~~f64.signMask) (y &&& ~~~f64.signMask) = true ↔ f64.mag x < f64.mag y := by
    rw [f64.lt_iff]
    unfold Fmt.smag
    rw [x2, y2, x3, y3]
    simp [hnx, hny]
  by_cases hc : f64.mag x < f64.mag y
  · rw [if_pos (hlt.mpr hc), if_pos (hlt.mpr hc)]
    refine body_good hH (by omega) (by omega) (Real.sqrt_nonneg _) ?_
    rw [Real.sq_sqrt hs0, x4, y4, sq_abs, sq_abs]; ring
  · rw [if_neg (fun h => hc (hlt.mp h)), if_neg (fun h => hc (hlt.mp h))]
    refine body_good hH (by omega) (by omega) (Real.sqrt_nonneg _) ?_
    rw [Real.sq_sqrt hs0, x4, y4, sq_abs, sq_abs]

/-- the classification tests of lines 48-49 -/
theorem special_tests (x : BitVec f64.w) :
    (f64.IsInf x → decide (x <<< 1 = f64.expMask <<< 1) = true ∧ f64.isNan (x &&& ~~~f64.signMask) = false) ∧
    (f64.IsNaN x → decide (x <<< 1 = f64.expMask <<< 1) = false ∧ f64.isNan (x &&& ~~~f64.signMask) = true) ∧
    (f64.IsFin x → decide (x <<< 1 = f64.expMask <<< 1) = false ∧ f64.isNan (x &&& ~~~f64.signMask) = false) := by
  have h1 : decide (x <<< 1 = f64.expMask <<< 1) = true ↔ f64.IsInf x := by rw [decide_eq_true_iff]; exact shl_iff
  have h2 : f64.isNan (x &&& ~~~f64.signMask) = true ↔ f64.IsNaN x := by
    rw [f64.isNan_iff]; unfold Fmt.IsNaN; rw [(abs_facts x).2.1]
  refine ⟨fun h => ⟨h1.mpr h, ?_⟩, fun h => ⟨?_, h2.mpr h⟩, fun h => ⟨?_, ?_⟩⟩ <;> rw [Bool.eq_false_iff]
  · exact fun hc => (h.not_nan f64) (h2.mp hc)
  · exact fun hc => (h.not_inf f64) (h1.mp hc)
  · exact fun hc => (h.not_inf f64) (h1.mp hc)
  · exact fun hc => (h.not_nan f64) (h2.mp hc)

/-- infinite and NaN arguments -/
theorem hypot_special (H : HypotOps) (chk : Bool) {x y : BitVec f64.w} (h : ¬ (f64.IsFin x ∧ f64.IsFin y)) :
    ∃ r, hypot H chk x y = .ok r ∧ (f64.IsInf x ∨ f64.IsInf y → r = f64.expMask) ∧
      (¬ f64.IsInf x → ¬ f64.IsInf y → f64.IsNaN r) := by
  obtain ⟨x1, x2, x3, -⟩ := abs_facts x
  obtain ⟨y1, y2, y3, -⟩ := abs_facts y
  obtain ⟨tx1, tx2, tx3⟩ := special_tests x
  obtain ⟨ty1, ty2, ty3⟩ := special_tests y
  have hadd := H.N.add_spec (x &&& ~~~f64.signMask) (y &&& ~~~f64.signMask)
  have hor : x &&& f64.expMask = f64.expMask ∨ y &&& f64.expMask = f64.expMask := by
    rw [exp_iff, exp_iff]
    by_cases hx : f64.IsFin x
    · exact Or.inr fun hy => h ⟨hx, hy⟩
    · exact Or.inl hx
  rw [hypot_eq, if_pos hor]
  have hI : f64.expMask.toNat = f64.infRep := by decide
  have inf_eq : ∀ z : BitVec f64.w, f64.IsInf z → z &&& ~~~f64.signMask = f64.expMask := fun z hz =>
    BitVec.eq_of_toNat_eq (by rw [(abs_facts z).1, hI]; exact hz)
  rcases f64.isFin_or x with hx | hx | hx <;> rcases f64.isFin_or y with hy | hy | hy
  · exact absurd ⟨hx, hy⟩ h
  · rw [(tx3 hx).1, (tx3 hx).2, (ty1 hy).1, (ty1 hy).2, if_neg (by decide)]
    refine ⟨_, rfl, fun _ => ?_, fun _ h => absurd hy h⟩
    rw [hadd.2.2.2 (by unfold Fmt.IsFin; rw [x2]; exact hx) (by unfold Fmt.IsInf; rw [y2]; exact hy), inf_eq y hy]
  · rw [(tx3 hx).1, (tx3 hx).2, (ty2 hy).1, (ty2 hy).2, if_neg (by decide)]
    refine ⟨_, rfl, fun h => ?_, fun _ _ => hadd.2.1 (Or.inr (by unfold Fmt.IsNaN; rw [y2]; exact hy))⟩
    rcases h with h | h
    · exact absurd h (hx.not_inf f64)
    · exact absurd h (hy.not_inf f64)
  · rw [(tx1 hx).1, (tx1 hx).2, (ty3 hy).1, (ty3 hy).2, if_neg (by decide)]
    refine ⟨_, rfl, fun _ => ?_, fun h _ => absurd hx h⟩
    have := hadd.2.2.1 (by unfold Fmt.IsInf; rw [x2]; exact hx) (by unfold Fmt.IsNaN; rw [y2]; exact (hy.not_nan f64))
    rw [x3, y3, if_neg (by simp)] at this
    rw [this, inf_eq x hx]
  · rw [(tx1 hx).1, (tx1 hx).2, (ty1 hy).1, (ty1 hy).2, if_neg (by decide)]
    refine ⟨_, rfl, fun _ => ?_, fun h _ => absurd hx h⟩
    have := hadd.2.2.1 (by unfold Fmt.IsInf; rw [x2]; exact hx) (by unfold Fmt.IsNaN; rw [y2]; exact (hy.not_nan f64))
    rw [x3, y3, if_neg (by simp)] at this
    rw [this, inf_eq x hx]
  · rw [(tx1 hx).1, (tx1 hx).2, (ty2 hy).1, (ty2 hy).2, if_pos (by decide)]
    exact ⟨_, rfl, fun _ => rfl, fun h _ => absurd hx h⟩
  · rw [(tx2 hx).1, (tx2 hx).2, (ty3 hy).1, (ty3 hy).2, if_neg (by decide)]
    refine ⟨_, rfl, fun h => ?_, fun _ _ => hadd.2.1 (Or.inl (by unfold Fmt.IsNaN; rw [x2]; exact hx))⟩
    rcases h with h | h
    · exact absurd h (hx.not_inf f64)
    · exact absurd h (hy.not_inf f64)
  · rw [(tx2 hx).1, (tx2 hx).2, (ty1 hy).1, (ty1 hy).2, if_pos (by decide)]
    exact ⟨_, rfl, fun _ => rfl, fun _ h => absurd hy h⟩
  · rw [(tx2 hx).1, (tx2 hx).2, (ty2 hy).1, (ty2 hy).2, if_neg (by decide)]
    refine ⟨_, rfl, fun h => ?_, fun _ _ => hadd.2.1 (Or.inl (by unfold Fmt.IsNaN; rw [x2]; exact hx))⟩
    rcases h with h | h
    · exact absurd h (hx.not_inf f64)
    · exact absurd h (hy.not_inf f64)

end Hypot
end Verif
