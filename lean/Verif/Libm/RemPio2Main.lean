import Verif.Libm.RemPio2Comp
/-! # `rem_pio2_large`: the whole function -/
namespace Verif
open Fmt

namespace Pio2
open Hypot

section
variable {N : FPU f64} {p64 : Bool}

theorem andI_seven {n : ℤ} (h0 : 0 ≤ n) (h1 : n ≤ 11) : andI n 7 = n % 8 := by
  have := andI_mask (v := n) h0 (by omega) (a := 3) (by norm_num)
  norm_num at this
  exact this

theorem init_jk {prec jk : ℕ} (h : (prec = 0 ∧ jk = 3) ∨ (prec = 1 ∧ jk = 4)) : rd 4 INIT_JK prec = .ok jk := by
  rcases h with ⟨rfl, rfl⟩ | ⟨rfl, rfl⟩ <;> rfl

theorem pi_gt3 : (3 : ℝ) < Real.pi := by
  have := pi_tight.1
  norm_num at this
  linarith

theorem pi_lt4 : Real.pi < 3.1416 := by
  have := pi_tight.2
  norm_num at this ⊢
  linarith

/-- everything up to the last step -/
theorem large_core {nx ny prec jk : ℕ} {x : ℕ → D} {xd : ℕ → ℕ} {e0 : ℤ} {Δ : ℝ} (hpk : (prec = 0 ∧ jk = 3) ∨ (prec = 1 ∧ jk = 4))
    (hx : ∀ j, xd j < 2 ^ 24) (hxv : ∀ j, j < nx → Fv (x j) (xd j)) (hn1 : 1 ≤ nx) (hn3 : nx ≤ 3) (he1 : -3 ≤ e0) (he2 : e0 ≤ 1010)
    (hΔ : ∀ P : ℤ, Δ ≤ |Xv xd e0 nx * (2 / Real.pi) - P|) (hΔ1 : (2 : ℝ) ^ (-62 : ℤ) ≤ Δ) (hΔ2 : 3 * 2 ^ 26 / 2 ^ (24 * jk) < Δ) :
    ∃ (jz : ℕ) (q0 ih : ℤ) (iq : ℕ → ℤ) (fq : ℕ → D) (n A : ℤ) (φ δ : ℝ),
      remPio2Large N p64 nx x ny e0 prec = (compress N prec ny jz ih fq >>= fun y => pure (andI n 7, y)) ∧
      jz ≤ 12 ∧ -400 ≤ q0 ∧ q0 ≤ 30 ∧ Dig iq (jz + 1) ∧ iq jz ≠ 0 ∧ (∀ d, d ≤ jz → Fv (fq d) (av iq q0 jk jz d)) ∧ 0 ≤ n ∧ n ≤ 11 ∧
      0 < φ ∧ φ ≤ 1 / 2 ∧ 0 ≤ δ ∧ δ ≤ 3 * 2 ^ 24 / 2 ^ (24 * jk) * φ ∧
      |Tk (av iq q0 jk jz) jz 0 - φ * (Real.pi / 2)| ≤ 11 / 2 ^ (24 * jk) * φ ∧
      ((ih = 0 ∧ Xv xd e0 nx * (2 / Real.pi) = 8 * A + n + φ + δ) ∨ (ih ≠ 0 ∧ Xv xd e0 nx * (2 / Real.pi) = 8 * A + n - φ + δ)) := by
  obtain ⟨jx, rfl⟩ : ∃ jx, nx = jx + 1 := ⟨nx - 1, by omega⟩
  have hjk : jk = 3 ∨ jk = 4 := by omega
  -- the position of the first digit
  obtain ⟨jv, hjv⟩ : ∃ jv : ℕ, (jv : ℤ) = max ((e0 - 3).tdiv 24) 0 := ⟨(max ((e0 - 3).tdiv 24) 0).toNat, by omega⟩
  obtain ⟨q0, hq⟩ : ∃ q0 : ℤ, q0 = e0 - 24 * (jv + 1) := ⟨_, rfl⟩
  have hfacts : jv ≤ 41 ∧ (jv = 0 ∨ -21 ≤ q0) ∧ -27 ≤ q0 ∧ q0 ≤ 2 := by
    by_cases h : 0 ≤ e0 - 3
    · rw [Int.tdiv_eq_ediv_of_nonneg h] at hjv
      omega
    · have h2 : (e0 - 3).tdiv 24 ≤ 0 := by
        have : (e0 - 3).tdiv 24 = -((3 - e0).tdiv 24) := by rw [← Int.neg_tdiv]; congr 1; ring
        have h3 : 0 ≤ (3 - e0).tdiv 24 := Int.tdiv_nonneg (by omega) (by norm_num)
        omega
      rw [max_eq_right h2] at hjv
      omega
  obtain ⟨hj41, hj21, hq1, hq2⟩ := hfacts
  have hqp : (0 : ℝ) < 2 ^ q0 := by positivity
  have hq4 : (2 : ℝ) ^ q0 ≤ 4 := by
    calc (2 : ℝ) ^ q0 ≤ 2 ^ (2 : ℤ) := zpow_le_zpow_right₀ (by norm_num) hq2
      _ = 4 := by norm_num
  have hΔ3 : 3 * 2 ^ 24 * (2 ^ q0 / 2 ^ (24 * jk)) < Δ := by
    refine lt_of_le_of_lt ?_ hΔ2
    rw [mul_div_assoc']
    refine div_le_div_of_nonneg_right ?_ (by positivity)
    calc (3 : ℝ) * 2 ^ 24 * 2 ^ q0 ≤ 3 * 2 ^ 24 * 4 := mul_le_mul_of_nonneg_left hq4 (by positivity)
      _ = 3 * 2 ^ 26 := by norm_num
  obtain ⟨f, ef, hf⟩ := fInit_spec (p64 := p64) (jv := jv) (jx := jx) (m := jx + jk) (by omega) (by omega) (by omega) (by unfold nTab; split <;> omega)
  obtain ⟨q, eq', hqv⟩ := qInit_spec (N := N) (jv := jv) hx hxv rfl (by omega) (jk := jk) (by omega) hf
  obtain ⟨⟨jz, n, ih, z, iq⟩, er, hz1, hz2, φ, δ, A, hr⟩ := recompute_spec (N := N) (p64 := p64) hx hxv rfl (by omega) hjk hj41 hq hj21 hq1 hq2 hΔ hΔ1 hΔ3
    20 jk f q (fun _ => 0) (by omega) (by omega) (le_refl _) (by omega) hf hqv
  simp only at hz1 hz2 hr
  obtain ⟨hst, φ0, φh, hbig, d0, d1, n0, n1, hX⟩ := hr
  obtain ⟨⟨jz', q0', iq'⟩, ec, c1, c2, c3, c4, c5⟩ := chop_spec (N := N) hq1 hq2 (by omega) (by omega) hst φ0
  simp only at c1 c2 c3 c4 c5
  obtain ⟨q', et, hq'⟩ := toFloats_spec (N := N) (q0 := q0') (by omega) (by omega) (jz := jz') (by omega) c3 q
  obtain ⟨fq, eqf, hfq⟩ := fqs_spec (N := N) (q0 := q0') (by omega) (by omega) (jz := jz') (jp := jk) (by omega) (by omega) c3 hq'
  have hW : q0' - 24 * (jz' : ℤ) = q0 - 24 * jz := by omega
  have herr := sum_err (q0 := q0') hjk c3 (φ := φ) (by rw [c5, hW])
  rw [hW] at herr
  have hWb : (2 : ℝ) ^ (q0 - 24 * (jz : ℤ)) ≤ φ / 2 ^ (24 * jk) := by
    rw [le_div_iff₀ (by positivity)]
    refine le_trans (le_of_eq ?_) hbig
    rw [eq_div_iff (by positivity), ← zpow_natCast, ← zpow_natCast, ← zpow_add₀ (by norm_num), ← zpow_add₀ (by norm_num)]
    congr 1
    push_cast
    omega
  have hWe : (2 : ℝ) ^ q0 / 2 ^ (24 * jz) = 2 ^ (q0 - 24 * (jz : ℤ)) := by
    rw [← zpow_natCast, ← zpow_sub₀ (by norm_num)]; congr 1
  refine ⟨jz', q0', ih, iq', fq, n, A, φ, δ, ?_, by omega, by omega, by omega, c3, c4, hfq, n0, n1, φ0, φh, d0, ?_, ?_, ?_⟩
  · unfold remPio2Large
    have e1 : assertC (!p64 || decide (e0 ≤ 16360)) = .ok () := by
      have : decide (e0 ≤ 16360) = true := decide_eq_true (by omega)
      rw [this, Bool.or_true]; rfl
    have e2 : (max ((e0 - 3).tdiv 24) 0).toNat = jv := by omega
    rw [e1, ok_bind, init_jk hpk, ok_bind, nsub_ok (by omega), ok_bind, Nat.add_sub_cancel, i32_ok (x := e0 - 3) (by omega) (by omega), ok_bind]
    simp only
    rw [e2, ← hjv, i32_ok (x := 24 * ((jv : ℤ) + 1)) (by omega) (by omega), ok_bind, ← hq, i32_ok (x := q0) (by omega) (by omega), ok_bind,
      ef, ok_bind, eq', ok_bind, er, ok_bind]
    simp only
    rw [ec, ok_bind]
    simp only
    rw [et, ok_bind, eqf, ok_bind]
  · rw [hWe] at d1
    refine d1.trans ?_
    calc (3 : ℝ) * 2 ^ 24 * 2 ^ (q0 - 24 * (jz : ℤ)) ≤ 3 * 2 ^ 24 * (φ / 2 ^ (24 * jk)) := mul_le_mul_of_nonneg_left hWb (by positivity)
      _ = _ := by ring
  · rw [← Tk_zero] at herr
    refine herr.trans ?_
    have : φ * (1 / 2 ^ (24 * jk)) + 10 * (φ / 2 ^ (24 * jk)) = 11 / 2 ^ (24 * jk) * φ := by ring
    linarith
  · rcases hX with h | ⟨h, h'⟩
    · exact Or.inl h
    · exact Or.inr ⟨by omega, h'⟩

/-- the sign of the result -/
theorem sign_cases {ih A n : ℤ} {X φ δ : ℝ} (h : (ih = 0 ∧ X * (2 / Real.pi) = 8 * A + n + φ + δ) ∨ (ih ≠ 0 ∧ X * (2 / Real.pi) = 8 * A + n - φ + δ)) :
    X - (8 * A + n : ℤ) * (Real.pi / 2) = (if ih = 0 then 1 else -1) * (φ * (Real.pi / 2)) + δ * (Real.pi / 2) := by
  have hpi := Real.pi_pos
  have e : X = X * (2 / Real.pi) * (Real.pi / 2) := by field_simp
  push_cast
  rcases h with ⟨h1, h2⟩ | ⟨h1, h2⟩
  · rw [if_pos h1, e, h2]; ring
  · rw [if_neg h1, e, h2]; ring

theorem large_one {nx ny : ℕ} {x : ℕ → D} {xd : ℕ → ℕ} {e0 : ℤ} (hx : ∀ j, xd j < 2 ^ 24) (hxv : ∀ j, j < nx → Fv (x j) (xd j)) (hn1 : 1 ≤ nx)
    (hn3 : nx ≤ 3) (hny : 2 ≤ ny) (he1 : -3 ≤ e0) (he2 : e0 ≤ 1010) (hΔ : ∀ P : ℤ, (2 : ℝ) ^ (-62 : ℤ) ≤ |Xv xd e0 nx * (2 / Real.pi) - P|) :
    ∃ (k : ℤ) (y : ℕ → D) (r0 r1 : ℝ), remPio2Large N p64 nx x ny e0 1 = .ok (k % 8, y) ∧ Fv (y 0) r0 ∧ Fv (y 1) r1 ∧
      |Xv xd e0 nx - k * (Real.pi / 2) - (r0 + r1)| ≤ 1 / 2 ^ 69 * |r0| ∧ |r1| ≤ 1.502 / 2 ^ 53 * |r0| ∧
      |r0 + r1| ≤ Real.pi / 4 * (1 + 1 / 2 ^ 69) := by
  obtain ⟨jz, q0, ih, iq, fq, n, A, φ, δ, e, h12, h400, h30, hd, ht, hf, n0, n1, φ0, φh, d0, d1, hT, hX⟩ :=
    large_core (N := N) (p64 := p64) (ny := ny) (prec := 1) (jk := 4) (by omega) hx hxv hn1 hn3 he1 he2 hΔ (le_refl _) (by rw [zpow_neg]; norm_num)
  obtain ⟨y, ey, y0, y1, f0, f1, e0', e1'⟩ := compress1 (N := N) h12 (by norm_num) h400 h30 hd ht hf ih (prec := 1) (by omega) hny
  have hs := sign_cases hX
  have hpi := Real.pi_pos
  have hpi3 := pi_gt3
  obtain ⟨σ, hσ⟩ : ∃ σ : ℝ, σ = if ih = 0 then 1 else -1 := ⟨_, rfl⟩
  have hσ1 : |σ| = 1 := by rw [hσ]; split <;> simp
  rw [← hσ] at f0 f1 hs
  generalize Tk (av iq q0 4 jz) jz 0 = T at *
  obtain ⟨ψ, hψ⟩ : ∃ ψ, ψ = φ * (Real.pi / 2) := ⟨_, rfl⟩
  have hψ0 : 0 < ψ := by rw [hψ]; positivity
  have hφψ : φ ≤ ψ * (2 / 3) := by rw [hψ]; nlinarith
  have hψ4 : ψ ≤ Real.pi / 4 := by rw [hψ]; nlinarith
  have hδψ : δ * (Real.pi / 2) ≤ 3 * 2 ^ 24 / 2 ^ 96 * ψ := by
    calc δ * (Real.pi / 2) ≤ 3 * 2 ^ 24 / 2 ^ (24 * 4) * φ * (Real.pi / 2) := mul_le_mul_of_nonneg_right d1 (by positivity)
      _ = _ := by rw [hψ]; ring
  have hδ0 : 0 ≤ δ * (Real.pi / 2) := by positivity
  rw [← hψ] at hs hT
  have hTa := abs_le.mp hT
  have e0a := abs_le.mp e0'
  have e1a := abs_le.mp e1'
  norm_num at hTa e0a e1a hδψ
  have hT0 : 0 < T := by linarith [hTa.1]
  have hy0 : 0 < y0 := by linarith [e0a.1]
  have hnm := andI_seven n0 n1
  refine ⟨8 * A + n, y, σ * y0, σ * y1, ?_, f0, f1, ?_, ?_, ?_⟩
  · rw [e, ey, ok_bind, hnm]
    have : (8 * A + n) % 8 = n % 8 := by omega
    rw [this]; rfl
  · rw [hs, abs_mul, hσ1, one_mul, abs_of_pos hy0]
    rw [show σ * ψ + δ * (Real.pi / 2) - (σ * y0 + σ * y1) = σ * (ψ - (y0 + y1)) + δ * (Real.pi / 2) by ring]
    refine (abs_add_le _ _).trans ?_
    rw [abs_mul, hσ1, one_mul, abs_of_nonneg hδ0]
    have : |ψ - (y0 + y1)| ≤ 1 / 2 ^ 70 * T + 11 / 2 ^ 96 * φ := by
      rw [abs_le]; norm_num
      constructor <;> linarith [hTa.1, hTa.2, e1a.1, e1a.2]
    norm_num at this ⊢
    linarith [hTa.1, hTa.2, e0a.1, e0a.2]
  · rw [abs_mul, hσ1, one_mul, abs_mul, hσ1, one_mul, abs_of_pos hy0, abs_le]
    norm_num
    constructor <;> linarith [hTa.1, hTa.2, e1a.1, e1a.2, e0a.1, e0a.2]
  · rw [← mul_add, abs_mul, hσ1, one_mul, abs_le]
    norm_num
    constructor <;> linarith [hTa.1, hTa.2, e1a.1, e1a.2, e0a.1, e0a.2]

theorem large_zero {x : ℕ → D} {xd : ℕ → ℕ} {e0 : ℤ} (hx : ∀ j, xd j < 2 ^ 24) (hxv : ∀ j, j < 1 → Fv (x j) (xd j))
    (he1 : -3 ≤ e0) (he2 : e0 ≤ 1010) (hΔ : ∀ P : ℤ, (2 : ℝ) ^ (-36 : ℤ) ≤ |Xv xd e0 1 * (2 / Real.pi) - P|) :
    ∃ (k : ℤ) (y : ℕ → D) (r0 : ℝ), remPio2Large N p64 1 x 1 e0 0 = .ok (k % 8, y) ∧ Fv (y 0) r0 ∧
      |Xv xd e0 1 - k * (Real.pi / 2) - r0| ≤ 1 / 2 ^ 46 * |r0| ∧ |r0| ≤ Real.pi / 4 * (1 + 1 / 2 ^ 46) := by
  obtain ⟨jz, q0, ih, iq, fq, n, A, φ, δ, e, h12, h400, h30, hd, ht, hf, n0, n1, φ0, φh, d0, d1, hT, hX⟩ :=
    large_core (N := N) (p64 := p64) (ny := 1) (prec := 0) (jk := 3) (by omega) hx hxv (le_refl _) (by norm_num) he1 he2 hΔ
      (zpow_le_zpow_right₀ (by norm_num) (by norm_num)) (by rw [zpow_neg]; norm_num)
  obtain ⟨y, ey, y0, f0, e0'⟩ := compress0 (N := N) h12 (by norm_num) h400 h30 hd ht hf ih
  have hs := sign_cases hX
  have hpi := Real.pi_pos
  have hpi3 := pi_gt3
  obtain ⟨σ, hσ⟩ : ∃ σ : ℝ, σ = if ih = 0 then 1 else -1 := ⟨_, rfl⟩
  have hσ1 : |σ| = 1 := by rw [hσ]; split <;> simp
  rw [← hσ] at f0 hs
  generalize Tk (av iq q0 3 jz) jz 0 = T at *
  obtain ⟨ψ, hψ⟩ : ∃ ψ, ψ = φ * (Real.pi / 2) := ⟨_, rfl⟩
  have hψ0 : 0 < ψ := by rw [hψ]; positivity
  have hφψ : φ ≤ ψ * (2 / 3) := by rw [hψ]; nlinarith
  have hψ4 : ψ ≤ Real.pi / 4 := by rw [hψ]; nlinarith
  have hδψ : δ * (Real.pi / 2) ≤ 3 * 2 ^ 24 / 2 ^ 72 * ψ := by
    calc δ * (Real.pi / 2) ≤ 3 * 2 ^ 24 / 2 ^ (24 * 3) * φ * (Real.pi / 2) := mul_le_mul_of_nonneg_right d1 (by positivity)
      _ = _ := by rw [hψ]; ring
  have hδ0 : 0 ≤ δ * (Real.pi / 2) := by positivity
  rw [← hψ] at hs hT
  have hTa := abs_le.mp hT
  have e0a := abs_le.mp e0'
  norm_num at hTa e0a hδψ
  have hT0 : 0 < T := by linarith [hTa.1]
  have hy0 : 0 < y0 := by linarith [e0a.1]
  have hnm := andI_seven n0 n1
  refine ⟨8 * A + n, y, σ * y0, ?_, f0, ?_, ?_⟩
  · rw [e, ey, ok_bind, hnm]
    have : (8 * A + n) % 8 = n % 8 := by omega
    rw [this]; rfl
  · rw [hs, abs_mul, hσ1, one_mul, abs_of_pos hy0]
    rw [show σ * ψ + δ * (Real.pi / 2) - σ * y0 = σ * (ψ - y0) + δ * (Real.pi / 2) by ring]
    refine (abs_add_le _ _).trans ?_
    rw [abs_mul, hσ1, one_mul, abs_of_nonneg hδ0]
    have : |ψ - y0| ≤ 1 / 2 ^ 51 * T + 11 / 2 ^ 72 * φ := by
      rw [abs_le]; norm_num
      constructor <;> linarith [hTa.1, hTa.2, e0a.1, e0a.2]
    norm_num at this ⊢
    linarith [hTa.1, hTa.2, e0a.1, e0a.2]
  · rw [abs_mul, hσ1, one_mul, abs_le]
    norm_num
    constructor <;> linarith [hTa.1, hTa.2, e0a.1, e0a.2]

end
end Pio2
end Verif
