import Verif.Libm.HypotMid
/-! # `hypot`: scaling, the nearly exact case, overflow -/
namespace Verif
/-- `f64` value as a real -/
local notation "V" => Fmt.valK f64 ℝ
/-- value of a magnitude pattern -/
local notation "γ" => Fmt.magVal f64 ℝ

namespace Fmt
variable (F : Fmt)

/-- Specification: `n` is the magnitude pattern of one of the two numbers around `v`, and of `v` itself when that is a number: no
number lies strictly between. (The pattern of infinity counts as `2^(bias+1)`.) -/
def Faithful (v : ℝ) (n : ℕ) : Prop :=
  n ≤ F.infRep ∧ ∀ m, m ≤ F.infRep → (F.magVal ℝ m ≤ v → m ≤ n) ∧ (v ≤ F.magVal ℝ m → n ≤ m)

theorem isRNE_betweenR {x : ℝ} {n r : Nat} (hn : n + 1 ≤ F.infRep)
    (h0 : F.magVal ℝ n ≤ x) (h1 : x ≤ F.magVal ℝ (n + 1))
    (hr : (2 * x < F.magVal ℝ n + F.magVal ℝ (n + 1) ∧ r = n) ∨
      (F.magVal ℝ n + F.magVal ℝ (n + 1) < 2 * x ∧ r = n + 1) ∨
      (2 * x = F.magVal ℝ n + F.magVal ℝ (n + 1) ∧ r = n + n % 2)) : F.IsRNE x r := by
  have hu := F.ulp0_pos ℝ
  have e : x = x / F.ulp0 ℝ * F.ulp0 ℝ := by field_simp
  generalize x / F.ulp0 ℝ = t at e
  subst e
  rw [F.isRNE_iff]
  simp only [F.magVal_eq, ← add_mul, ← mul_assoc, mul_lt_mul_iff_left₀ hu, mul_le_mul_iff_left₀ hu, mul_left_inj' hu.ne'] at h0 h1 hr
  exact F.isRNEu_between hn h0 h1 hr

theorem isRNE_overflowR {v : ℝ} (h : F.magVal ℝ F.infRep ≤ v) : F.IsRNE v F.infRep := by
  have hu := F.ulp0_pos ℝ
  have e : v = v / F.ulp0 ℝ * F.ulp0 ℝ := by field_simp
  generalize v / F.ulp0 ℝ = t at e
  subst e
  rw [F.isRNE_iff]
  rw [F.magVal_eq, mul_le_mul_iff_left₀ hu] at h
  exact F.isRNEu_overflow h

theorem isRNE_exactR {n : ℕ} (h : n ≤ F.infRep) : F.IsRNE (F.magVal ℝ n) n := by
  rw [F.magVal_eq, F.isRNE_iff]
  exact F.isRNEu_exact h

theorem faithful_exact {n : ℕ} (h : n ≤ F.infRep) : F.Faithful (F.magVal ℝ n) n :=
  ⟨h, fun _ _ => ⟨fun h => F.magValR_le_iff.mp h, fun h => F.magValR_le_iff.mp h⟩⟩

theorem faithful_between {v : ℝ} {c n : ℕ} (hc : c + 1 ≤ F.infRep) (h0 : F.magVal ℝ c ≤ v) (h1 : v ≤ F.magVal ℝ (c + 1))
    (hn : (n = c ∧ v < F.magVal ℝ (c + 1)) ∨ (n = c + 1 ∧ F.magVal ℝ c < v)) : F.Faithful v n := by
  refine ⟨by omega, fun m hm => ⟨fun h => ?_, fun h => ?_⟩⟩
  · rcases hn with ⟨rfl, hv⟩ | ⟨rfl, hv⟩
    · have := F.magValR_lt_iff.mp (h.trans_lt hv); omega
    · exact F.magValR_le_iff.mp (h.trans h1)
  · rcases hn with ⟨rfl, hv⟩ | ⟨rfl, hv⟩
    · exact F.magValR_le_iff.mp (h0.trans h)
    · have := F.magValR_lt_iff.mp (hv.trans_le h); omega

theorem faithful_overflow {v : ℝ} (h : F.magVal ℝ F.infRep ≤ v) : F.Faithful v F.infRep :=
  ⟨le_refl _, fun _ hm => ⟨fun _ => hm, fun h' => F.magValR_le_iff.mp (h.trans h')⟩⟩

end Fmt

namespace Hypot

/-- where the rounding test is blind, for any exponent -/
def Blind (σ : ℝ) : Prop := ∃ j : ℤ, 2 ^ j * (2 - U - 15 * U ^ 2) ≤ σ ∧ σ < 2 ^ j * (2 - U)

theorem inf64 : f64.infRep = 2047 * 2 ^ 52 := by decide

theorem g_shift {c E C : ℕ} (hc : 1023 * 2 ^ 52 ≤ c) (hE : 1 ≤ E) (hC : C + 1023 * 2 ^ 52 = c + E * 2 ^ 52) :
    γ C = γ c * 2 ^ ((E : ℤ) - 1023) := by
  have h1 := gv (E := c / 2 ^ 52) (m := 2 ^ 52 + c % 2 ^ 52) (by omega) (by omega) (by omega)
  have h2 := gv (E := c / 2 ^ 52 + E - 1023) (m := 2 ^ 52 + c % 2 ^ 52) (by omega) (by omega) (by omega)
  rw [show (c / 2 ^ 52 - 1) * 2 ^ 52 + (2 ^ 52 + c % 2 ^ 52) = c by omega] at h1
  rw [show (c / 2 ^ 52 + E - 1023 - 1) * 2 ^ 52 + (2 ^ 52 + c % 2 ^ 52) = C by omega] at h2
  have he : ((c / 2 ^ 52 + E - 1023 : ℕ) : ℤ) - 1075 = ((c / 2 ^ 52 : ℕ) : ℤ) - 1075 + (E - 1023) := by omega
  rw [h1, h2, mul_assoc, ← zpow_add₀ (by norm_num), he]

theorem range_of {τ : ℝ} {n : ℕ} {p q : Prop} (h : Br p τ n ∨ (q ∧ n = 1024 * 2 ^ 52)) : 1023 * 2 ^ 52 ≤ n ∧ n ≤ 1025 * 2 ^ 52 := by
  rcases h with ⟨c, c1, c2, _, _, c5⟩ | ⟨_, h⟩
  · omega
  · omega

/-- scaling the result back -/
theorem scale_back {σ τ : ℝ} {n E N : ℕ} (hE : 1 ≤ E) (hN : N + 1023 * 2 ^ 52 = n + E * 2 ^ 52) (hτ : σ = τ * 2 ^ ((E : ℤ) - 1023))
    (h : Br (¬ Exc τ) τ n ∨ (Corner τ ∧ n = 1024 * 2 ^ 52)) :
    f64.Faithful σ (min N (2047 * 2 ^ 52)) ∧
    (¬ Exc σ → ¬ Blind σ → f64.IsRNE σ (min N (2047 * 2 ^ 52))) := by
  have hU := U_pos
  have hUs' : U ≤ 1 / 100000 := U_le.trans (by norm_num)
  have hp : (0 : ℝ) < 2 ^ ((E : ℤ) - 1023) := by positivity
  have hexc : Exc τ → Exc σ := by
    rintro ⟨j, h | h⟩
    · exact ⟨j + (E - 1023), Or.inl (by rw [hτ, h, zpow_add₀ (by norm_num)]; ring)⟩
    · exact ⟨j + (E - 1023), Or.inr (by rw [hτ, h, zpow_add₀ (by norm_num)]; ring)⟩
  have hbl : Corner τ → Blind σ := by
    rintro ⟨h1, h2⟩
    refine ⟨E - 1023, ?_, ?_⟩ <;> rw [hτ, mul_comm τ]
    · exact mul_le_mul_of_nonneg_left h1 hp.le
    · exact mul_lt_mul_of_pos_left h2 hp
  -- a bracket, whatever the case
  obtain ⟨c, c1, c2, c3, c4, c5, c6⟩ : ∃ c, 1023 * 2 ^ 52 ≤ c ∧ c + 1 ≤ 1025 * 2 ^ 52 ∧ γ c ≤ τ ∧ τ ≤ γ (c + 1) ∧
      ((n = c ∧ τ < γ (c + 1)) ∨ (n = c + 1 ∧ γ c < τ)) ∧ (Br (¬ Exc τ) τ n → ((2 * τ < γ c + γ (c + 1) ∧ n = c) ∨
        (γ c + γ (c + 1) < 2 * τ ∧ n = c + 1) ∨ (2 * τ = γ c + γ (c + 1) ∧ (¬ Exc τ → n = c + c % 2)))) := by
    rcases h with ⟨c, c1, c2, c3, c4, c5⟩ | ⟨⟨h1, h2⟩, h3⟩
    · have hlt : γ c < γ (c + 1) := g_lt.mpr (by omega)
      refine ⟨c, c1, c2, c3, c4, ?_, fun _ => ?_⟩
      · rcases c5 with ⟨h, h'⟩ | ⟨h, h'⟩ | ⟨h, h' | h', h''⟩
        · exact Or.inl ⟨h', by linarith⟩
        · exact Or.inr ⟨h', by linarith⟩
        · exact Or.inl ⟨h', by linarith⟩
        · exact Or.inr ⟨h', by linarith⟩
      · rcases c5 with h | h | ⟨h, h'⟩
        · exact Or.inl h
        · exact Or.inr (Or.inl h)
        · exact Or.inr (Or.inr ⟨h, h'.2⟩)
    · have hst := step1 (n := 1024 * 2 ^ 52 - 1) (by norm_num) (by norm_num)
      rw [show 1024 * 2 ^ 52 - 1 + 1 = 1024 * 2 ^ 52 by norm_num, g2] at hst
      have hU2 : U ^ 2 ≤ 1 / 100000 * U := by rw [pow_two]; exact mul_le_mul_of_nonneg_right hUs' hU.le
      refine ⟨1024 * 2 ^ 52 - 1, by norm_num, by norm_num, by linarith, ?_, Or.inr ⟨by omega, by linarith⟩, ?_⟩
      · rw [show 1024 * 2 ^ 52 - 1 + 1 = 1024 * 2 ^ 52 by norm_num, g2]; linarith
      · rintro ⟨c, c1, c2, c3, c4, c5⟩
        exfalso
        -- a bracket containing a corner value cannot round up
        have hc : c = 1024 * 2 ^ 52 - 1 := by
          have a1 : γ c < γ (1024 * 2 ^ 52) := by rw [g2]; linarith
          have a2 : γ (1024 * 2 ^ 52 - 1) < γ (c + 1) := by linarith
          rw [g_lt] at a1 a2
          omega
        subst hc
        rw [show 1024 * 2 ^ 52 - 1 + 1 = 1024 * 2 ^ 52 by norm_num, g2] at c5
        rcases c5 with ⟨_, h⟩ | ⟨h, _⟩ | ⟨h, _⟩
        · omega
        · linarith
        · linarith
  obtain ⟨C, hC⟩ : ∃ C, C + 1023 * 2 ^ 52 = c + E * 2 ^ 52 := by
    obtain ⟨d, rfl⟩ := Nat.exists_eq_add_of_le c1
    exact ⟨d + E * 2 ^ 52, by ring⟩
  have e0 := g_shift c1 hE hC
  have e1 := g_shift (c := c + 1) (C := C + 1) (by omega) hE (by omega)
  have v0 : γ C ≤ σ := by rw [e0, hτ]; exact mul_le_mul_of_nonneg_right c3 hp.le
  have v1 : σ ≤ γ (C + 1) := by rw [e1, hτ]; exact mul_le_mul_of_nonneg_right c4 hp.le
  rcases lt_or_ge C (2047 * 2 ^ 52) with hC' | hC'
  · have hmin : min N (2047 * 2 ^ 52) = N := min_eq_left (by omega)
    rw [hmin]
    refine ⟨?_, fun hx hb => ?_⟩
    · refine f64.faithful_between (c := C) (by rw [inf64]; omega) v0 v1 ?_
      rcases c5 with ⟨h1, h2⟩ | ⟨h1, h2⟩
      · exact Or.inl ⟨by omega, by rw [e1, hτ]; exact mul_lt_mul_of_pos_right h2 hp⟩
      · exact Or.inr ⟨by omega, by rw [e0, hτ]; exact mul_lt_mul_of_pos_right h2 hp⟩
    · have hBr : Br (¬ Exc τ) τ n := by
        rcases h with h | h
        · exact h
        · exact absurd (hbl h.1) hb
      have hpar : C % 2 = c % 2 := by omega
      refine f64.isRNE_betweenR (n := C) (by rw [inf64]; omega) v0 v1 ?_
      rw [hpar, e0, e1, ← add_mul, hτ, ← mul_assoc, mul_lt_mul_iff_left₀ hp, mul_lt_mul_iff_left₀ hp, mul_left_inj' hp.ne']
      rcases c6 hBr with ⟨h1, h2⟩ | ⟨h1, h2⟩ | ⟨h1, h2⟩
      · exact Or.inl ⟨h1, by omega⟩
      · exact Or.inr (Or.inl ⟨h1, by omega⟩)
      · have := h2 (fun h => hx (hexc h))
        exact Or.inr (Or.inr ⟨h1, by omega⟩)
  · have hmin : min N (2047 * 2 ^ 52) = f64.infRep := by rw [inf64]; exact min_eq_right (by omega)
    have hov : γ f64.infRep ≤ σ := (g_le.mpr (by rw [inf64]; exact hC')).trans v0
    rw [hmin]
    exact ⟨f64.faithful_overflow hov, fun _ _ => f64.isRNE_overflowR hov⟩

theorem overflow_spec (N : FPU f64) : f64.mag (overflow N) = 2047 * 2 ^ 52 ∧ f64.sign (overflow N) = false := by
  have hm : (0x7fefffffffffffff#f64.w).toNat = 2047 * 2 ^ 52 - 1 := by decide
  have hv : V 0x7fefffffffffffff#f64.w = γ (2047 * 2 ^ 52 - 1) := by rw [val_small (by rw [hm]; norm_num), hm]
  have hf : f64.IsFin 0x7fefffffffffffff#f64.w := fin_small (by rw [hm]; norm_num)
  have hr := addR N hf hf
  rw [hv] at hr
  have h2 : γ f64.infRep ≤ γ (2047 * 2 ^ 52 - 1) + γ (2047 * 2 ^ 52 - 1) := by
    have h1 := gv (E := 2046) (m := 2 ^ 53 - 1) (by norm_num) (by norm_num) (by norm_num)
    rw [show (2046 - 1) * 2 ^ 52 + (2 ^ 53 - 1) = 2047 * 2 ^ 52 - 1 by norm_num] at h1
    have h3 := gv (E := 2046) (m := 2 ^ 53) (by norm_num) (by norm_num) (by norm_num)
    rw [show (2046 - 1) * 2 ^ 52 + 2 ^ 53 = f64.infRep by rw [inf64]; norm_num] at h3
    rw [h1, h3, ← add_mul]
    exact mul_le_mul_of_nonneg_right (by norm_num) (by positivity)
  have hp : 0 < γ (2047 * 2 ^ 52 - 1) + γ (2047 * 2 ^ 52 - 1) := by
    have : 0 < γ f64.infRep := by rw [f64.magValR_infRep]; positivity
    linarith
  unfold overflow
  constructor
  · have := hr.1
    rw [abs_of_pos hp] at this
    rw [← inf64]
    exact Fmt.IsRNE.unique f64 this (f64.isRNE_overflowR h2)
  · rw [Bool.eq_false_iff]; intro hc
    have := (hr.2 hp.ne').mp hc
    linarith

theorem ofInt_sub' (a b : ℤ) : BitVec.ofInt f64.w (a - b) = BitVec.ofInt f64.w a - BitVec.ofInt f64.w b := by
  rw [sub_eq_add_neg, BitVec.ofInt_add, BitVec.ofInt_neg, BitVec.sub_eq_add_neg]

theorem main_step {H : HypotOps} {chk : Bool} {xd yd off x y th tl t : BitVec f64.w}
    (h0 : subI64C (0x3ff#f64.w <<< 52) (xd &&& f64.expMask) = .ok off) (hx : xd + off = x) (hy : yd + off = y)
    (h1 : fast H x y = .ok (th, tl)) (h2 : (if isHard th tl then hard H chk x y else pure th) = .ok t) :
    main H chk xd yd = if 0x7ff#f64.w <<< 52 ≤ t - off then pure (overflow H.N) else pure (t - off) := by
  subst hx hy
  unfold main
  rw [h0, ok_bind]
  show (fast H (xd + off) (yd + off) >>= _) = _
  rw [h1, ok_bind]
  show ((if isHard th tl then hard H chk (xd + off) (yd + off) else pure th) >>= _) = _
  rw [h2, ok_bind]

/-- scaled arguments, the fast and the exact parts, and the final overflow test -/
theorem main_spec {H : HypotOps} (hH : H.Lawful) {xd yd : BitVec f64.w} {E M m δ : ℕ} {e : ℤ} {σ : ℝ} (hE : 1 ≤ E) (hE' : E ≤ 2046)
    (hM : 2 ^ 52 ≤ M) (hM' : M < 2 ^ 53) (hm : 2 ^ 52 ≤ m) (hm' : m < 2 ^ 53) (hx : xd = BitVec.ofNat f64.w ((E - 1) * 2 ^ 52 + M))
    (hy : yd = BitVec.ofInt f64.w ((e - 1) * 2 ^ 52 + m)) (he : e + δ = E) (hδ : δ ≤ 27) (hle : δ = 0 → m ≤ M)
    (hσ0 : 0 < σ) (hσ : σ ^ 2 = (M * 2 ^ ((E : ℤ) - 1075)) ^ 2 + (m * 2 ^ (e - 1075)) ^ 2) :
    ∃ r, main H false xd yd = .ok r ∧ f64.sign r = false ∧ f64.Faithful σ (f64.mag r) ∧
      (¬ Exc σ → ¬ Blind σ → f64.IsRNE σ (f64.mag r)) := by
  have hxt : xd.toNat = (E - 1) * 2 ^ 52 + M := by rw [hx, toNat64 (by omega)]
  have hmask : xd &&& f64.expMask = BitVec.ofInt f64.w (E * 2 ^ 52 : ℕ) := by
    apply BitVec.eq_of_toNat_eq
    rw [f64.toNat_and_expMask, s64, mag_small (by omega), BitVec.ofInt_natCast, toNat64 (by omega), hxt]
    congr 1
    omega
  have hone : (0x3ff#f64.w <<< 52) = BitVec.ofInt f64.w ((1023 * 2 ^ 52 : ℕ) : ℤ) := by decide
  have hoff : subI64C (0x3ff#f64.w <<< 52) (xd &&& f64.expMask) = .ok (BitVec.ofInt f64.w (1023 * 2 ^ 52 - E * 2 ^ 52)) := by
    unfold subI64C subI64
    have i1 : (0x3ff#f64.w <<< 52).toInt = 1023 * 2 ^ 52 := by decide
    have i2 : (xd &&& f64.expMask).toInt = E * 2 ^ 52 := by
      rw [hmask, BitVec.ofInt_natCast, BitVec.toInt_eq_toNat_of_lt, toNat64 (by omega)]
      · push_cast; rfl
      · have hw' : (2 : ℕ) ^ f64.w = 2 ^ 64 := rfl
        rw [toNat64 (by omega), hw']; omega
    have hov : (0x3ff#f64.w <<< 52).ssubOverflow (xd &&& f64.expMask) = false := by
      unfold BitVec.ssubOverflow
      rw [i1, i2]
      simp only [ge_iff_le, Bool.or_eq_false_iff, decide_eq_false_iff_not]
      have h1 : (2 : ℤ) ^ (f64.w - 1) = 2 ^ 63 := rfl
      rw [h1]
      omega
    rw [hov, hmask, hone, ← ofInt_sub']
    push_cast
    rfl
  have hx' : xd + BitVec.ofInt f64.w (1023 * 2 ^ 52 - E * 2 ^ 52) = BitVec.ofNat f64.w (1022 * 2 ^ 52 + M) := by
    rw [hx, ← BitVec.ofInt_natCast, ← BitVec.ofInt_add, ← BitVec.ofInt_natCast]
    exact congrArg _ (by omega)
  have hy' : yd + BitVec.ofInt f64.w (1023 * 2 ^ 52 - E * 2 ^ 52) = BitVec.ofNat f64.w ((1022 - δ) * 2 ^ 52 + m) := by
    rw [hy, ← BitVec.ofInt_add, ← BitVec.ofInt_natCast]
    exact congrArg _ (by omega)
  have tx : (BitVec.ofNat f64.w (1022 * 2 ^ 52 + M)).toNat = 1022 * 2 ^ 52 + M := toNat64 (by omega)
  have ty : (BitVec.ofNat f64.w ((1022 - δ) * 2 ^ 52 + m)).toNat = (1022 - δ) * 2 ^ 52 + m := toNat64 (by omega)
  have hp : (0 : ℝ) < 2 ^ ((E : ℤ) - 1023) := by positivity
  obtain ⟨th, tl, n, e1, e2, e3⟩ := mid_spec hH (x := BitVec.ofNat f64.w (1022 * 2 ^ 52 + M))
    (y := BitVec.ofNat f64.w ((1022 - δ) * 2 ^ 52 + m)) (δ := δ) (σ := σ / 2 ^ ((E : ℤ) - 1023)) (by omega) (by omega) hδ (by omega)
    (by positivity) (by
      rw [tx, ty]
      have h1 := gv (E := 1023) (m := M) (by norm_num) hM'.le (Or.inl hM)
      have h2 := gv (E := 1023 - δ) (m := m) (by omega) hm'.le (Or.inl hm)
      rw [show 1023 - δ - 1 = 1022 - δ by omega] at h2
      rw [show (1023 - 1) * 2 ^ 52 = 1022 * 2 ^ 52 by norm_num] at h1
      rw [h1, h2, div_pow, hσ, div_eq_iff (by positivity), add_mul, ← mul_pow, ← mul_pow, mul_assoc, mul_assoc,
        ← zpow_add₀ (by norm_num), ← zpow_add₀ (by norm_num)]
      rw [show ((1023 : ℕ) : ℤ) - 1075 + (E - 1023) = E - 1075 by omega, show ((1023 - δ : ℕ) : ℤ) - 1075 + (E - 1023) = e - 1075 by omega])
  obtain ⟨n1, n2⟩ := range_of e3
  obtain ⟨N, hN0⟩ : ∃ N, N + 1023 * 2 ^ 52 = n + E * 2 ^ 52 := by
    obtain ⟨d, rfl⟩ := Nat.exists_eq_add_of_le n1
    exact ⟨d + E * 2 ^ 52, by ring⟩
  obtain ⟨b3, b4⟩ := scale_back (σ := σ) hE hN0 (by field_simp) e3
  clear tx ty hxt
  have hNi : (n : ℤ) - (1023 * 2 ^ 52 - E * 2 ^ 52) = N := by clear * - hN0; omega
  have hN : BitVec.ofNat f64.w n - BitVec.ofInt f64.w (1023 * 2 ^ 52 - E * 2 ^ 52) = BitVec.ofNat f64.w N := by
    have := ofInt_sub' (n : ℤ) (1023 * 2 ^ 52 - E * 2 ^ 52)
    rw [hNi, BitVec.ofInt_natCast, BitVec.ofInt_natCast] at this
    exact this.symm
  rw [main_step hoff hx' hy' e1 e2, hN]
  have tN : (BitVec.ofNat f64.w N).toNat = N := toNat64 (by omega)
  have hcmp : (0x7ff#f64.w <<< 52 ≤ BitVec.ofNat f64.w N) ↔ 2047 * 2 ^ 52 ≤ N := by
    rw [BitVec.le_def, tN, show (0x7ff#f64.w <<< 52).toNat = 2047 * 2 ^ 52 by decide]
  by_cases hc : 2047 * 2 ^ 52 ≤ N
  · rw [if_pos (hcmp.mpr hc)]
    obtain ⟨o1, o2⟩ := overflow_spec H.N
    rw [min_eq_right hc] at b3 b4
    exact ⟨_, rfl, o2, by rw [o1]; exact b3, by rw [o1]; exact b4⟩
  · rw [if_neg (fun h => hc (hcmp.mp h))]
    rw [min_eq_left (by omega)] at b3 b4
    refine ⟨_, rfl, sign_small (by omega), ?_, ?_⟩ <;> rw [mag_small (by omega), tN]
    · exact b3
    · exact b4

end Hypot
end Verif
