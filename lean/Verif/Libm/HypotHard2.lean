import Verif.Libm.HypotRound
/-! # The exact part of `hypot`, `as_hypot_hard` -/
namespace Verif
/-- value of a magnitude pattern -/
local notation "γ" => Fmt.magVal f64 ℝ

namespace Hypot

/-- half-way cases that `as_hypot_hard` rounds up instead of to even: half a unit above a power of two, or two and a half -/
def Exc (σ : ℝ) : Prop := ∃ j : ℤ, σ = 2 ^ j * (1 + U) ∨ σ = 2 ^ j * (1 + 5 * U)

theorem stepB {n : ℕ} (h1 : 1022 * 2 ^ 52 ≤ n) (h2 : n < 1025 * 2 ^ 52) :
    γ n + U ≤ γ (n + 1) ∧ γ (n + 1) ≤ γ n + 4 * U ∧ (1023 * 2 ^ 52 ≤ n → γ n + 2 * U ≤ γ (n + 1)) := by
  have hU := U_pos
  rcases lt_or_ge n (1023 * 2 ^ 52) with h | h
  · rw [step0 h1 h]; exact ⟨by linarith, by linarith, fun _ => by omega⟩
  rcases lt_or_ge n (1024 * 2 ^ 52) with h' | h'
  · rw [step1 h h']; exact ⟨by linarith, by linarith, fun _ => by linarith⟩
  · rw [step2 h' h2]; exact ⟨by linarith, by linarith, fun _ => by linarith⟩

theorem sig_or (x : BitVec f64.w) :
    (x &&& (BitVec.allOnes f64.w >>> 12)) ||| (1#f64.w <<< 52) = BitVec.ofNat f64.w (2 ^ 52 + x.toNat % 2 ^ 52) := by
  apply BitVec.eq_of_toNat_eq
  have hm : x.toNat % 2 ^ 52 < 2 ^ 52 := Nat.mod_lt _ (by norm_num)
  rw [toNat64 (by omega), BitVec.toNat_or, BitVec.toNat_and, show (BitVec.allOnes f64.w >>> 12).toNat = 2 ^ 52 - 1 by decide,
    show (1#f64.w <<< 52).toNat = 2 ^ 52 by decide, Nat.and_two_pow_sub_one_eq_mod, Nat.or_comm]
  have := Nat.two_pow_add_eq_or_of_lt hm 1
  rw [Nat.mul_one] at this
  omega

theorem pow_even (k : ℕ) : (1020 + k) * 2 ^ 52 % 2 = 0 := by omega

set_option maxRecDepth 8000 in
set_option maxHeartbeats 1000000 in
theorem hard_spec {H : HypotOps} {x y ri : BitVec f64.w} {δ : ℕ} {σ : ℝ} (hx : x.toNat / 2 ^ 52 = 1023)
    (hy : y.toNat / 2 ^ 52 + δ = 1023) (hδ : δ ≤ 27) (hri : H.sqrt (H.N.add (H.N.mul x x) (H.N.mul y y)) = .ok ri)
    (n1 : 1023 * 2 ^ 52 ≤ ri.toNat) (n2 : ri.toNat < 1025 * 2 ^ 52) (hnear : |γ ri.toNat - σ| ≤ 4.5 * U)
    (s1 : 1 < σ) (s3 : σ < 2.9) (hσ : σ ^ 2 = γ x.toNat ^ 2 + γ y.toNat ^ 2) :
    ∃ n, hard H false x y = .ok (BitVec.ofNat f64.w n) ∧ Br (¬ Exc σ) σ n := by
  have hU := U_pos
  have hUs' : U ≤ 1 / 100000 := U_le.trans (by norm_num)
  have hmx : x.toNat % 2 ^ 52 < 2 ^ 52 := Nat.mod_lt _ (by norm_num)
  have hmy : y.toNat % 2 ^ 52 < 2 ^ 52 := Nat.mod_lt _ (by norm_num)
  unfold hard
  simp only [hri, ok_bind, sig_or]
  rw [show (x >>> 52).toNat = 1023 by rw [BitVec.toNat_ushiftRight, Nat.shiftRight_eq_div_pow, hx],
    show (y >>> 52).toNat = 1023 - δ by rw [BitVec.toNat_ushiftRight, Nat.shiftRight_eq_div_pow]; omega,
    show (ri >>> 52).toNat = ri.toNat / 2 ^ 52 by rw [BitVec.toNat_ushiftRight, Nat.shiftRight_eq_div_pow]]
  have ex : γ x.toNat = (2 ^ 52 + x.toNat % 2 ^ 52 : ℕ) * 2 ^ (-52 : ℤ) := by
    have := gv (E := 1023) (m := 2 ^ 52 + x.toNat % 2 ^ 52) (by norm_num) (by omega) (by omega)
    rw [show (1023 - 1) * 2 ^ 52 + (2 ^ 52 + x.toNat % 2 ^ 52) = x.toNat by omega] at this
    rw [this]; norm_num
  have ey : γ y.toNat = (2 ^ 52 + y.toNat % 2 ^ 52 : ℕ) * 2 ^ (-52 - (δ : ℤ)) := by
    have := gv (E := 1023 - δ) (m := 2 ^ 52 + y.toNat % 2 ^ 52) (by omega) (by omega) (by omega)
    rw [show (1023 - δ - 1) * 2 ^ 52 + (2 ^ 52 + y.toNat % 2 ^ 52) = y.toNat by omega] at this
    rw [this]; congr 2; omega
  generalize hr0 : ri.toNat = n0 at *
  generalize ha : 2 ^ 52 + x.toNat % 2 ^ 52 = a at *
  generalize hb : 2 ^ 52 + y.toNat % 2 ^ 52 = b at *
  obtain ⟨I, hI, hC⟩ := sumSq_spec (a := a) (b := b) (δ := δ) (be := 1023) (le := (1023 - δ : ℕ)) (by omega) hδ (by omega)
  have hCI : Cmp I (σ ^ 2 * 2 ^ 108) := by
    convert hC using 1
    rw [hσ, ex, ey]
    have e1 : (2 : ℝ) ^ (108 : ℕ) = (2 ^ (54 : ℤ)) ^ 2 := by norm_num
    have e2 : (2 : ℝ) ^ (-52 : ℤ) * 2 ^ (54 : ℤ) = 4 := by rw [← zpow_add₀ (by norm_num)]; norm_num
    have e3 : (2 : ℝ) ^ (-52 - (δ : ℤ)) * 2 ^ (54 : ℤ) = 2 ^ (2 - (δ : ℤ)) := by rw [← zpow_add₀ (by norm_num)]; congr 1; ring
    rw [← e3, ← e2, e1]
    ring
  obtain ⟨t1, t2⟩ := abs_le.mp hnear
  have hn3 : n0 < 1024 * 2 ^ 52 + 2 ^ 51 := by
    have := gv (E := 1024) (m := 2 ^ 52 + 2 ^ 51) (by norm_num) (by norm_num) (by norm_num)
    rw [show (1024 - 1) * 2 ^ 52 + (2 ^ 52 + 2 ^ 51) = 1024 * 2 ^ 52 + 2 ^ 51 by norm_num] at this
    rw [← g_lt, this]
    norm_num
    linarith
  -- three decrements
  rw [i32E (by omega) (by omega), ok_bind]
  obtain ⟨r1, k1, e1, d1, p1, p2, p3, p4, p5⟩ := dec_spec (rm := 2 ^ 52 + n0 % 2 ^ 52) (N := n0) (k := n0 / 2 ^ 52 - 1021) (re := ((n0 / 2 ^ 52 : ℕ) : ℤ) - 1023)
    (by omega) (by omega) (by omega) (by omega) (by omega) (by omega)
  obtain ⟨r2, k2, e2, d2, q1, q2, q3, q4, q5⟩ := dec_spec (rm := r1) (N := n0 - 1) (k := k1) (re := e1) (by omega) (by omega) (by omega) (by omega) (by omega) (by omega)
  obtain ⟨rm, k, re, d3, w1, w2, w3, w4, w5⟩ := dec_spec (rm := r2) (N := n0 - 1 - 1) (k := k2) (re := e2) (by omega) (by omega) (by omega) (by omega) (by omega) (by omega)
  simp only [d1, d2, d3, ok_bind]
  rw [show ((1023 : ℕ) : ℤ) = 1023 from rfl, hI, ok_bind, i32E (by omega) (by omega), ok_bind, show (2 : ℤ) + re = (k : ℤ) by omega]
  have hN : n0 - 3 = (1020 + k) * 2 ^ 52 + rm := by omega
  have hk1 : 1 ≤ k := by omega
  -- the least pattern whose value is at least σ
  have hex : ∃ L, σ ≤ γ L := ⟨1025 * 2 ^ 52, by rw [g4]; linarith⟩
  classical
  obtain ⟨L, hL⟩ : ∃ L, L = Nat.find hex := ⟨_, rfl⟩
  have hL1 : σ ≤ γ L := by rw [hL]; exact Nat.find_spec hex
  have hL2 : ∀ c, c < L → γ c < σ := by
    intro c hc
    rw [hL] at hc
    have := Nat.find_min hex hc
    linarith
  have up : ∀ c, 1023 * 2 ^ 52 ≤ c → c < 1025 * 2 ^ 52 → γ c + 2 * U ≤ γ (c + 1) := fun c h1 h2 => (stepB (by omega) h2).2.2 h1
  have upB : ∀ c, 1022 * 2 ^ 52 ≤ c → c < 1025 * 2 ^ 52 → γ (c + 1) ≤ γ c + 4 * U := fun c h1 h2 => (stepB h1 h2).2.1
  have hLu : L ≤ n0 + 3 := by
    by_contra hc
    have h0 := hL2 (n0 + 3) (by omega)
    have h1 := up n0 (by omega) (by omega)
    have h2 := up (n0 + 1) (by omega) (by omega)
    have h3 := up (n0 + 2) (by omega) (by omega)
    linarith
  have hLl : 1023 * 2 ^ 52 < L := by
    by_contra hc
    have : γ L ≤ γ (1023 * 2 ^ 52) := g_le.mpr (by omega)
    rw [g1] at this
    linarith
  have hNL : n0 - 3 < L := by
    by_contra hc
    have h0 : γ L ≤ γ (n0 - 3) := g_le.mpr (by omega)
    have h1 := up (n0 - 3) (by omega) (by omega)
    have h2 := up (n0 - 3 + 1) (by omega) (by omega)
    have h3 := up (n0 - 3 + 1 + 1) (by omega) (by omega)
    rw [show n0 - 3 + 1 + 1 + 1 = n0 by omega] at h3
    linarith
  have hrange : ∀ c, n0 - 3 ≤ c → c ≤ n0 + 3 → |γ c - σ| ≤ 16.5 * U := by
    intro c h1 h2
    have a1 := upB n0 (by omega) (by omega)
    have a2 := upB (n0 + 1) (by omega) (by omega)
    have a3 := upB (n0 + 2) (by omega) (by omega)
    have b1 := upB (n0 - 3) (by omega) (by omega)
    have b2 := upB (n0 - 3 + 1) (by omega) (by omega)
    have b3 := upB (n0 - 3 + 1 + 1) (by omega) (by omega)
    rw [show n0 - 3 + 1 + 1 + 1 = n0 by omega] at b3
    have c1 : γ c ≤ γ (n0 + 3) := g_le.mpr h2
    have c2 : γ (n0 - 3) ≤ γ c := g_le.mpr h1
    rw [show n0 + 2 + 1 = n0 + 3 by omega] at a3
    rw [show n0 + 1 + 1 = n0 + 2 by omega] at a2
    rw [abs_le]; constructor <;> linarith
  have hsq : ∀ G : ℝ, |G - σ| ≤ 16.5 * U → |σ ^ 2 - G ^ 2| * 2 ^ 108 ≤ 2 ^ 62 := by
    intro G hG
    obtain ⟨g1, g2⟩ := abs_le.mp hG
    rw [show σ ^ 2 - G ^ 2 = -((G - σ) * (G + σ)) by ring, abs_neg, abs_mul, abs_of_pos (show 0 < G + σ by linarith)]
    have : |G - σ| * (G + σ) ≤ 16.5 * U * 6 := mul_le_mul hG (by linarith) (by linarith) (by linarith)
    calc _ ≤ 16.5 * U * 6 * 2 ^ 108 := mul_le_mul_of_nonneg_right this (by positivity)
      _ ≤ _ := by unfold U; norm_num
  have hRep : Rep k rm (n0 - 3) := Or.inl ⟨by omega, by omega, hN⟩
  obtain ⟨rm', l1, l2, l3⟩ := loop_spec hk1 w4 hCI (by linarith) hL1 (by omega) 64 rm (n0 - 3) hRep hNL (by omega)
    (fun c _ h => hL2 c h) (fun c h1 h2 => hsq _ (hrange c (by omega) (by omega)))
  simp only [l1, ok_bind]
  have hprev : γ (L - 1) < σ := hL2 _ (by omega)
  obtain ⟨rm'', r1, r2⟩ := round_spec H.N hk1 w4 hCI (by linarith) l2 (by omega) (by
      intro h1
      by_contra hc
      rcases l2 with ⟨_, _, h⟩ | ⟨h, _⟩
      · omega
      · omega) (hsq _ (hrange L (by omega) (by omega))) (hsq _ (by
      obtain ⟨a1, a2⟩ := abs_le.mp (hrange L (by omega) (by omega))
      obtain ⟨b1, b2⟩ := abs_le.mp (hrange (L - 1) (by omega) (by omega))
      rw [abs_le]; constructor <;> linarith)) hL1
  have hle := l2.le
  rw [r1, ok_bind, pack_spec w4 w5 (by
    rcases r2 with ⟨_, h⟩ | ⟨_, h⟩ | ⟨_, h⟩ | ⟨_, h⟩ <;> omega)]
  refine ⟨_, rfl, L - 1, by omega, by omega, hprev.le, ?_, ?_⟩
  · rw [show L - 1 + 1 = L by omega]; exact hL1
  rw [show L - 1 + 1 = L by omega]
  -- the pattern of `rm'` is `L`, that of `rm' - 1` is `L - 1`
  have f1 : (if 2 ^ 53 ≤ rm' then (1021 + k) * 2 ^ 52 + rm' / 2 else (1020 + k) * 2 ^ 52 + rm') = L := by
    rcases l2 with ⟨_, _, h⟩ | ⟨h, _, _, h'⟩
    · split <;> omega
    · rw [if_pos (by omega)]; omega
  have f2 : (if 2 ^ 53 ≤ rm' - 1 then (1021 + k) * 2 ^ 52 + (rm' - 1) / 2 else (1020 + k) * 2 ^ 52 + (rm' - 1)) = L - 1 := by
    rcases l2 with ⟨_, _, h⟩ | ⟨h, _, _, h'⟩
    · rw [if_neg (by omega)]; omega
    · rw [if_pos (by omega)]; omega
  rcases r2 with ⟨h, rfl⟩ | ⟨h, rfl⟩ | ⟨h, rfl⟩ | ⟨h, rfl⟩
  · rw [f1]; exact Or.inr (Or.inl ⟨by rw [h] at hprev ⊢; linarith, rfl⟩)
  · rw [f1]; exact Or.inr (Or.inl ⟨by linarith, rfl⟩)
  · rw [f2]; exact Or.inl ⟨by linarith, rfl⟩
  · refine Or.inr (Or.inr ⟨by linarith, ?_⟩)
    rcases l2 with ⟨u1, u2, u3⟩ | ⟨u1, u2, u3, u4⟩
    · rcases Nat.mod_two_eq_zero_or_one rm' with hm | hm
      · rw [hm, Nat.sub_zero, f1]
        exact ⟨Or.inr rfl, fun _ => by omega⟩
      · rw [hm, f2]
        exact ⟨Or.inl rfl, fun _ => by omega⟩
    · rw [u2, Nat.sub_zero, f1]
      refine ⟨Or.inr rfl, fun hne => ?_⟩
      by_contra hodd
      apply hne
      have hLo : L % 2 = 1 := by omega
      -- `L` is just above the power of two
      obtain ⟨i, hi⟩ : ∃ i, L = (1022 + k) * 2 ^ 52 + i := by
        have hge : (1022 + k) * 2 ^ 52 ≤ L := by
          have h0 : 2 ^ 52 ≤ rm' / 2 := by omega
          rw [u4, show 1022 + k = (1021 + k) + 1 by ring, Nat.add_mul]
          exact Nat.add_le_add_left (by rw [Nat.one_mul]; exact h0) _
        exact Nat.exists_eq_add_of_le hge
      have hi5 : i = 1 ∨ i = 3 ∨ i = 5 := by omega
      have hk2 : k = 1 ∨ k = 2 := by omega
      obtain ⟨B, P, hB, hP, hBP⟩ : ∃ (B : ℕ) (P : ℝ), L = B + i ∧ (∃ j : ℤ, P = 2 ^ j) ∧ ∀ c ≤ 5, γ (B + c) = P * (1 + 2 * c * U) ∧ (5 * U ≤ 5 * U * P) ∧ (i = 5 → n0 = B + 2) := by
        refine ⟨(1022 + k) * 2 ^ 52, 2 ^ (k - 1), hi, ⟨((k - 1 : ℕ) : ℤ), by rw [zpow_natCast]⟩, fun c hc => ⟨?_, ?_, by omega⟩⟩
        · have := gv (E := 1022 + k) (m := 2 ^ 52 + c) (by omega) (by omega) (by omega)
          rw [show (1022 + k - 1) * 2 ^ 52 + (2 ^ 52 + c) = (1022 + k) * 2 ^ 52 + c by omega] at this
          have hU53 : (2 : ℝ) ^ 52 * (2 * U) = 1 := by unfold U; norm_num
          rw [this, Nat.cast_add, Nat.cast_pow, Nat.cast_ofNat]
          rcases hk2 with rfl | rfl
          · rw [show ((1022 + 1 : ℕ) : ℤ) - 1075 = -52 by norm_num, zm52, Nat.sub_self, pow_zero]
            linear_combination hU53
          · rw [show ((1022 + 2 : ℕ) : ℤ) - 1075 = -51 by norm_num, zm51, show 2 - 1 = 1 from rfl, pow_one]
            linear_combination 2 * hU53
        · refine le_mul_of_one_le_right (by linarith) (one_le_pow₀ (by norm_num))
      obtain ⟨j, hj⟩ := hP
      rcases hi5 with rfl | rfl | rfl
      · have b0 := (hBP 0 (by norm_num)).1
        have b1 := (hBP 1 (by norm_num)).1
        rw [hB, show B + 1 - 1 = B + 0 by omega, b0, b1] at h
        refine ⟨j, Or.inl ?_⟩
        rw [h, ← hj]; push_cast; ring
      · have b0 := (hBP 2 (by norm_num)).1
        have b1 := (hBP 3 (by norm_num)).1
        rw [hB, show B + 3 - 1 = B + 2 by omega, b0, b1] at h
        refine ⟨j, Or.inr ?_⟩
        rw [h, ← hj]; push_cast; ring
      · exfalso
        have b0 := (hBP 4 (by norm_num)).1
        have b1 := (hBP 5 (by norm_num)).1
        obtain ⟨b2, b3, b4⟩ := hBP 2 (by norm_num)
        rw [b4 rfl, b2] at t1
        rw [hB, show B + 5 - 1 = B + 4 by omega, b0, b1] at h
        push_cast at h t1
        linarith

end Hypot
end Verif
