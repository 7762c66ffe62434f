import Verif.Libm.HypotHard2
/-! # `hypot` for arguments scaled to the binade of `1` -/
namespace Verif
/-- `f64` value as a real -/
local notation "V" => Fmt.valK f64 ℝ
/-- value of a magnitude pattern -/
local notation "γ" => Fmt.magVal f64 ℝ

namespace Hypot

theorem mag_small {x : BitVec f64.w} (h : x.toNat < 2 ^ 63) : f64.mag x = x.toNat := by
  unfold Fmt.mag
  exact Nat.mod_eq_of_lt h
theorem sign_small {x : BitVec f64.w} (h : x.toNat < 2 ^ 63) : f64.sign x = false := by
  rw [Bool.eq_false_iff]
  intro hc
  unfold Fmt.sign at hc
  have := (BitVec.msb_eq_true_iff_two_mul_ge).mp hc
  have hw' : (2 : ℕ) ^ f64.w = 2 ^ 64 := rfl
  rw [hw'] at this
  omega

theorem val_small {x : BitVec f64.w} (h : x.toNat < 2 ^ 63) : V x = γ x.toNat := by
  unfold Fmt.valK
  rw [sign_small h, mag_small h]
  simp
theorem val_pos {x : BitVec f64.w} (h : f64.sign x = false) : V x = γ (f64.mag x) := by
  unfold Fmt.valK
  rw [h]; simp
theorem mag_pos {x : BitVec f64.w} (h : f64.sign x = false) : f64.mag x = x.toNat := by
  apply mag_small
  unfold Fmt.sign at h
  have := (BitVec.msb_eq_false_iff_two_mul_lt).mp h
  have hw' : (2 : ℕ) ^ f64.w = 2 ^ 64 := rfl
  rw [hw'] at this
  omega
theorem fin_small {x : BitVec f64.w} (h : x.toNat < 2047 * 2 ^ 52) : f64.IsFin x := by
  unfold Fmt.IsFin
  rw [mag_small (by omega)]
  exact h

/-- the square root of the rounded sum of squares is near the exact one -/
theorem near_sqrt {H : HypotOps} (hH : H.Lawful) {x y : BitVec f64.w} {j : ℤ} (hs : Scaled x y j) {σ : ℝ} (hσ0 : 1 < σ)
    (hσ : σ ^ 2 = V x ^ 2 + V y ^ 2) :
    ∃ r, H.sqrt (H.N.add (H.N.mul x x) (H.N.mul y y)) = .ok r ∧ 1023 * 2 ^ 52 ≤ r.toNat ∧ r.toNat < 1025 * 2 ^ 52 ∧
      |γ r.toNat - σ| ≤ 4.5 * U := by
  obtain ⟨dx, dy, e1, e2, fdx, fdy, fc, fp, hsum, hcase⟩ := sums hH hs
  have hU := U_pos
  have hUs' : U ≤ 1 / 100000 := U_le.trans (by norm_num)
  generalize hc : H.N.add (H.N.mul x x) (H.N.mul y y) = c at *
  generalize hp : H.N.add (H.N.sub (H.N.mul x x) c) (H.N.mul y y) = p at *
  have hσ' : σ ^ 2 = V c + (V p + (V dx + V dy)) := by rw [hσ, ← add_assoc, ← hsum]; ring
  have c1 : 1 ≤ V c := by rcases hcase with ⟨h1, _⟩ | ⟨h1, _⟩ | ⟨h1, _⟩ | ⟨h1, _⟩ <;> linarith
  have c8 : V c ≤ 8 := by rcases hcase with ⟨_, h1, _⟩ | ⟨_, h1, _⟩ | ⟨h1, _⟩ | ⟨_, h1, _⟩ <;> linarith
  obtain ⟨th, es, hth⟩ := sqrtR hH fc (by linarith)
  set q := Real.sqrt (V c) with hq
  have hqq : q * q = V c := Real.mul_self_sqrt (by linarith)
  have q0 : 0 ≤ q := Real.sqrt_nonneg _
  have q1 : 1 ≤ q := by rw [hq, Real.one_le_sqrt]; exact c1
  have q3 : q ≤ 2.829 := by nlinarith
  have herr2 : |V th - q| ≤ 2 * U := by
    have := err64 hth (k := 2) (by rw [abs_of_nonneg q0]; norm_num; linarith) (by norm_num) (by norm_num)
    rwa [show (2 : ℤ) - 54 = -52 by norm_num, zm52] at this
  have herr1 : q ≤ 2 → |V th - q| ≤ U := by
    intro hq2
    have := err64 hth (k := 1) (by rw [abs_of_nonneg q0]; norm_num; linarith) (by norm_num) (by norm_num)
    rwa [show (1 : ℤ) - 54 = -53 by norm_num, zm53] at this
  have hP : |V p + (V dx + V dy)| ≤ |V p| + |V dx + V dy| := abs_add_le _ _
  -- distance of the two square roots
  have key : ∀ {A B : ℝ}, 0 < A → A ≤ q + σ → |V p| + |V dx + V dy| ≤ B → |q - σ| * A ≤ B := by
    intro A B hA hA' hB
    calc |q - σ| * A ≤ |q - σ| * (q + σ) := mul_le_mul_of_nonneg_left hA' (abs_nonneg _)
      _ = |σ ^ 2 - V c| := by
        rw [← abs_of_pos (show 0 < q + σ by linarith), ← abs_mul, abs_sub_comm (σ ^ 2), ← hqq]
        congr 1; ring
      _ ≤ B := by rw [hσ', add_sub_cancel_left]; exact hP.trans hB
  have hd : |V th - σ| ≤ 4.5 * U := by
    have htri : |V th - σ| ≤ |V th - q| + |q - σ| := by
      have := abs_add_le (V th - q) (q - σ)
      rwa [sub_add_sub_cancel] at this
    rcases hcase with ⟨h1, h2, he, hb⟩ | ⟨h1, h2, he, hb⟩ | ⟨h1, he, hb⟩ | ⟨h1, h2, he, hb⟩
    · have := key (A := 2) (by norm_num) (by linarith) hb
      have := herr1 (by nlinarith)
      linarith
    · have := key (A := 2) (by norm_num) (by linarith) hb
      have := herr1 (by nlinarith)
      linarith
    · have hq2 : q = 2 := by nlinarith
      have := key (A := 3) (by norm_num) (by linarith) hb
      have := herr1 hq2.le
      linarith
    · have hq2 : 2 ≤ q := by nlinarith
      have hs2 : 1.9 ≤ σ := by
        have : |V p + (V dx + V dy)| ≤ 8 * U := hP.trans hb
        have := (abs_le.mp this).1
        nlinarith
      have := key (A := 3.9) (by norm_num) (by linarith) hb
      linarith
  have h1 : ((1 : ℕ) : ℝ) ≤ V th := geN (by norm_num) hth (by push_cast; exact q1)
  have h3 : V th ≤ ((3 : ℕ) : ℝ) := leN (by norm_num) hth (by push_cast; linarith)
  push_cast at h1 h3
  have hsg : f64.sign th = false := by
    rw [Bool.eq_false_iff]; intro hc
    have := (hth.2 (show q ≠ 0 by linarith)).mp hc
    linarith
  have hv : V th = γ th.toNat := by rw [val_pos hsg, mag_pos hsg]
  refine ⟨th, es, ?_, ?_, by rw [← hv]; exact hd⟩
  · rw [← g_le, g1, ← hv]; exact h1
  · rw [← g_lt, g4, ← hv]; linarith

set_option maxHeartbeats 1000000 in
/-- the result for arguments scaled to the binade of `1` -/
theorem mid_spec {H : HypotOps} (hH : H.Lawful) {x y : BitVec f64.w} {δ : ℕ} {σ : ℝ} (hx : x.toNat / 2 ^ 52 = 1023)
    (hy : y.toNat / 2 ^ 52 + δ = 1023) (hδ : δ ≤ 27) (hyx : y.toNat ≤ x.toNat) (hσ0 : 0 < σ)
    (hσ : σ ^ 2 = γ x.toNat ^ 2 + γ y.toNat ^ 2) :
    ∃ th tl n, fast H x y = .ok (th, tl) ∧ (if isHard th tl then hard H false x y else pure th) = .ok (BitVec.ofNat f64.w n) ∧
      (Br (¬ Exc σ) σ n ∨ (Corner σ ∧ n = 1024 * 2 ^ 52)) := by
  have hmx : x.toNat % 2 ^ 52 < 2 ^ 52 := Nat.mod_lt _ (by norm_num)
  have hmy : y.toNat % 2 ^ 52 < 2 ^ 52 := Nat.mod_lt _ (by norm_num)
  have vx : V x = γ x.toNat := val_small (by omega)
  have vy : V y = γ y.toNat := val_small (by omega)
  have ex : γ x.toNat = (2 ^ 52 + x.toNat % 2 ^ 52 : ℕ) * 2 ^ (-52 : ℤ) := by
    have := gv (E := 1023) (m := 2 ^ 52 + x.toNat % 2 ^ 52) (by norm_num) (by omega) (by omega)
    rw [show (1023 - 1) * 2 ^ 52 + (2 ^ 52 + x.toNat % 2 ^ 52) = x.toNat by omega] at this
    rw [this]; norm_num
  have ey : γ y.toNat = (2 ^ 52 + y.toNat % 2 ^ 52 : ℕ) * 2 ^ (-52 - (δ : ℤ)) := by
    have := gv (E := 1023 - δ) (m := 2 ^ 52 + y.toNat % 2 ^ 52) (by omega) (by omega) (by omega)
    rw [show (1023 - δ - 1) * 2 ^ 52 + (2 ^ 52 + y.toNat % 2 ^ 52) = y.toNat by omega] at this
    rw [this]; congr 2; omega
  have x1 : 1 ≤ γ x.toNat := by rw [← g1, g_le]; omega
  have x2 : γ x.toNat < 2 := by rw [← g2, g_lt]; omega
  have y0 : 0 < γ y.toNat := by rw [ey]; positivity
  have yx : γ y.toNat ≤ γ x.toNat := g_le.mpr hyx
  have hs : Scaled x y (-52 - (δ : ℤ)) := by
    refine ⟨fin_small (by omega), fin_small (by omega), by rw [vx]; exact x1, by rw [vx]; exact x2, ?_, by rw [vy]; exact y0,
      by rw [vx, vy]; exact yx, ?_, ?_, by omega, by omega⟩
    · rw [vx, ex]; exact ⟨((2 ^ 52 + x.toNat % 2 ^ 52 : ℕ) : ℤ), by push_cast; rfl⟩
    · rw [vy, ey]; exact ⟨((2 ^ 52 + y.toNat % 2 ^ 52 : ℕ) : ℤ), by push_cast; rfl⟩
    · rw [vy, ey, zpow_add₀ (by norm_num), mul_comm]
      apply mul_lt_mul_of_pos_left _ (by positivity)
      have : 2 ^ 52 + y.toNat % 2 ^ 52 < 2 ^ 53 := by omega
      exact_mod_cast this
  have hσV : σ ^ 2 = V x ^ 2 + V y ^ 2 := by rw [vx, vy]; exact hσ
  have hX1 : 1 ≤ γ x.toNat ^ 2 := by nlinarith
  have hX4 : γ x.toNat ^ 2 ≤ 4 := by nlinarith
  have hYX : γ y.toNat ^ 2 ≤ γ x.toNat ^ 2 := by nlinarith
  have hY0 : 0 < γ y.toNat ^ 2 := by positivity
  have s1 : 1 < σ := by nlinarith
  have s3 : σ < 2.9 := by nlinarith
  obtain ⟨th, tl, e1, f1, f2, hr, h31, h15⟩ := fast_spec hH hs hσ0 hσV
  obtain ⟨ri, r1, r2, r3, r4⟩ := near_sqrt hH hs s1 hσV
  refine ⟨th, tl, ?_⟩
  cases hh : isHard th tl
  · obtain ⟨hb, hsg⟩ := easy hr h31 h15 s1.le s3 hh
    refine ⟨f64.mag th, e1, ?_, ?_⟩
    · rw [if_neg (by simp), mag_pos hsg, BitVec.ofNat_toNat, BitVec.setWidth_eq]; rfl
    · rcases hb with ⟨c, c1, c2, c3, c4, c5⟩ | hb
      · refine Or.inl ⟨c, c1, c2, c3, c4, ?_⟩
        rcases c5 with h | h | ⟨h, h', h''⟩
        · exact Or.inl h
        · exact Or.inr (Or.inl h)
        · exact Or.inr (Or.inr ⟨h, h', fun _ => h'' trivial⟩)
      · exact Or.inr hb
  · obtain ⟨n, n1, n2⟩ := hard_spec hx hy hδ r1 r2 r3 r4 s1 s3 hσ
    exact ⟨n, e1, by rw [if_pos rfl]; exact n1, Or.inl n2⟩

end Hypot
end Verif
