import Verif.Libm.RemPio2Med
/-! # `rem_pio2` for all arguments -/
namespace Verif
open Fmt

namespace Pio2
open Hypot

/-! ### The high word -/

/-- `ix` -/
def hi (x : D) : Nat := (x.toNat >>> 32) &&& 0x7fffffff

theorem hi_eq (x : D) : hi x = f64.mag x / 2 ^ 32 := by
  unfold hi
  rw [Nat.shiftRight_eq_div_pow, show 0x7fffffff = 2 ^ 31 - 1 from rfl, Nat.and_two_pow_sub_one_eq_mod]
  show x.toNat / 2 ^ 32 % 2 ^ 31 = x.toNat % 2 ^ (11 + 52) / 2 ^ 32
  have : x.toNat < 2 ^ 64 := x.isLt
  omega

theorem hi_lt {x : D} {X : ℝ} (h : Fv x X) {c : ℕ} {q : ℚ} (hc : f64.magVal ℚ (c * 2 ^ 32) = q) : hi x < c ↔ |X| < q := by
  rw [hi_eq, abs_fv h, ← hc, f64.magVal_cast, f64.magValR_lt_iff, Nat.div_lt_iff_lt_mul (by positivity)]

theorem hi_expo (x : D) : ((hi x >>> 20 : ℕ) : ℤ) = expo x := by
  rw [hi_eq, expo_eq, Nat.shiftRight_eq_div_pow]
  congr 1
  omega

section
variable {N : FPU f64} {p64 : Bool}

/-! ### Small arguments -/

theorem one_spec {k : ℕ} (hk1 : 1 ≤ k) (hk4 : k ≤ 4) {sign : Bool} {x p pt : D} {X PT η L : ℝ} (hx : Fv x X) (hX : 1 / 2 ≤ |X|)
    (hs : if sign then X ≤ 0 else 0 ≤ X) (hp : Fv p (k * P1)) (hpt : Fv pt PT) (gpt : Mul2 (-300) PT) (hη : |PT - k * P1T| ≤ η)
    (hη2 : η ≤ 1 / 2 ^ 60) (hL : L ≤ abs (|X| - k * (Real.pi / 2))) (hR : abs (|X| - k * (Real.pi / 2)) ≤ Real.pi / 4 + 1 / 2 ^ 17) (hL0 : 1 / 2 ^ 22 ≤ L)
    (hEL : k / 2 ^ 87 + η + 1.01 * U * (k * P1T + η) + 1 / 2 ^ 100 * L ≤ 0.999 / 2 ^ 64 * L) : Red2 X (oneRound N sign k x p pt) := by
  have hc := c_P1
  have hk4' : (k : ℝ) ≤ 4 := by exact_mod_cast hk4
  have hk1' : (1 : ℝ) ≤ k := by exact_mod_cast hk1
  have hP1T0 : 0 ≤ P1T := by unfold P1T; norm_num
  have bP1T : P1T ≤ 1.05 / 2 ^ 34 := by unfold P1T; norm_num
  have hkT : k * P1T ≤ 4 * (1.05 / 2 ^ 34) := mul_le_mul hk4' bP1T hP1T0 (by norm_num)
  have hkT0 : 0 ≤ k * P1T := by positivity
  have hkc : (k : ℝ) * |Real.pi / 2 - P1 - P1T| ≤ k * (1 / 2 ^ 87) := mul_le_mul_of_nonneg_left hc (by positivity)
  have hpi4 := pi_lt4
  have gX : Mul2 (-53) X := by
    have := mul2_of_ge hx (k := -1) (by norm_num; linarith)
    norm_num at this; exact this
  have gk : Mul2 (-30) ((k : ℝ) * P1) := by
    have := Mul2.mul (i := 0) (v := (k : ℝ)) ⟨(k : ℤ), by simp⟩ g_P1
    norm_num at this; exact this
  have hE : |PT - k * (Real.pi / 2 - P1)| ≤ k / 2 ^ 87 + η := by
    rw [show PT - k * (Real.pi / 2 - P1) = (PT - k * P1T) - k * (Real.pi / 2 - P1 - P1T) by ring]
    refine (abs_sub _ _).trans ?_
    rw [abs_mul, abs_of_nonneg (show (0 : ℝ) ≤ k by positivity)]
    linarith
  have hPT : |PT| ≤ k * P1T + η := by
    rw [show PT = (PT - k * P1T) + k * P1T by ring]
    refine (abs_add_le _ _).trans ?_
    rw [abs_of_nonneg hkT0]; linarith
  have hk87 : (k : ℝ) / 2 ^ 87 ≤ 1 / 2 ^ 85 := by norm_num at hk4' ⊢; linarith [show (k : ℝ) ≤ 4 by exact_mod_cast hk4]
  have hW : k * P1T + η ≤ 1 / 4 * L := by norm_num at *; linarith
  have key : ∀ Y : ℝ, |Y| = abs (|X| - k * (Real.pi / 2)) → ∀ Z, (Z = Y + k * (Real.pi / 2 - P1) ∨ Z = Y - k * (Real.pi / 2 - P1)) → |Z| ≤ 1 := by
    intro Y hY Z hZ
    have : |(k : ℝ) * (Real.pi / 2 - P1)| ≤ 1 / 2 ^ 30 := by
      rw [show (k : ℝ) * (Real.pi / 2 - P1) = PT - (PT - k * (Real.pi / 2 - P1)) by ring]
      refine (abs_sub _ _).trans ?_
      norm_num at *
      linarith
    rw [← hY] at hR
    rcases hZ with rfl | rfl
    · refine (abs_add_le _ _).trans ?_
      norm_num at *; linarith
    · refine (abs_sub _ _).trans ?_
      norm_num at *; linarith
  unfold oneRound
  cases sign
  · simp only [Bool.false_eq_true, if_false] at hs ⊢
    rw [abs_of_nonneg hs] at hL hR key
    have fz : Fv (N.sub x p) (X - k * P1) := by
      refine hx.sub N hp (j := -53) (gX.sub (gk.mono (by norm_num))) ?_ (by norm_num) (by norm_num)
      have := key _ rfl (X - k * P1) (Or.inl (by ring))
      norm_num; exact this
    refine red2_of (k := k) rfl (by push_cast; rfl) ((gX.sub (gk.mono (by norm_num))).mono (by norm_num)) gpt hR hPT hW (fz.subR hpt) (fun v hv => fz.subR hv)
      (fun v hv => hv.subR hpt) ?_ hL hEL (lt_of_lt_of_le (by positivity) hL0)
    rw [show X - k * (Real.pi / 2) - (X - k * P1 - PT) = PT - k * (Real.pi / 2 - P1) by ring]
    exact hE
  · simp only [if_true] at hs ⊢
    rw [abs_of_nonpos hs, ← abs_neg, show -(-X - k * (Real.pi / 2)) = X + k * (Real.pi / 2) by ring] at hL hR key
    have fz : Fv (N.add x p) (X + k * P1) := by
      refine hx.add N hp (j := -53) (gX.add (gk.mono (by norm_num))) ?_ (by norm_num) (by norm_num)
      have := key _ rfl (X + k * P1) (Or.inr (by ring))
      norm_num; exact this
    have e0 : X - ((-(k : ℤ) : ℤ) : ℝ) * (Real.pi / 2) = X + k * (Real.pi / 2) := by push_cast; ring
    refine red2_of (k := -k) (ω := -PT) rfl rfl ((gX.add (gk.mono (by norm_num))).mono (by norm_num)) gpt.neg (by rw [e0]; exact hR) (by rw [abs_neg]; exact hPT) hW
      (by rw [sub_neg_eq_add]; exact fz.addR hpt) (fun v hv => fz.subR hv)
      (fun v hv => by rw [sub_neg_eq_add]; exact hv.addR hpt) ?_ (by rw [e0]; exact hL) hEL (lt_of_lt_of_le (by positivity) hL0)
    rw [e0, show X + k * (Real.pi / 2) - (X + k * P1 - -PT) = -(PT - k * (Real.pi / 2 - P1)) by ring, abs_neg]
    exact hE

/-- multiples of the constants -/
theorem mulc {c : D} {k : ℕ} (hk4 : k ≤ 4) (hc : Fv c k) :
    Fv (N.mul c PIO2_1) (k * P1) ∧ ∃ PT, Fv (N.mul c PIO2_1T) PT ∧ Mul2 (-300) PT ∧ |PT - k * P1T| ≤ U * (k * P1T) := by
  have hk4' : (k : ℝ) ≤ 4 := by exact_mod_cast hk4
  have g0 : Mul2 0 (k : ℝ) := ⟨(k : ℤ), by simp⟩
  have hP1T0 : 0 ≤ P1T := by unfold P1T; norm_num
  have bP1T : P1T ≤ 1 := by unfold P1T; norm_num
  have hP10 : 0 ≤ P1 := by unfold P1; norm_num
  have bP1 : P1 ≤ 2 := by unfold P1; norm_num
  constructor
  · have g : Mul2 (-30) ((k : ℝ) * P1) := by have := g0.mul g_P1; norm_num at this; exact this
    refine hc.mul N fv_P1 g ?_ (by norm_num) (by norm_num)
    rw [abs_of_nonneg (by positivity)]
    norm_num
    nlinarith
  · have g : Mul2 (-86) ((k : ℝ) * P1T) := by have := g0.mul g_P1T; norm_num at this; exact this
    obtain ⟨PT, h1, h2, h3⟩ := rnd (hc.mulR fv_P1T (N := N)) g (by norm_num) (by
      rw [abs_of_nonneg (by positivity)]; norm_num; nlinarith)
    rw [abs_of_nonneg (show 0 ≤ (k : ℝ) * P1T by positivity)] at h2
    exact ⟨PT, h1, h3.mono (by norm_num), h2⟩

/-- multiplying by a power of two is exact -/
theorem mulc_exact {c : D} {k : ℕ} (hk : k = 2 ∨ k = 4) (hc : Fv c k) : Fv (N.mul c PIO2_1T) (k * P1T) := by
  obtain ⟨m, hm⟩ := g_P1T
  have hP1T0 : 0 ≤ P1T := by unfold P1T; norm_num
  have hb : P1T ≤ 1.05 / 2 ^ 34 := by unfold P1T; norm_num
  rcases hk with rfl | rfl
  · refine hc.mul N fv_P1T (j := -85) ⟨m, by rw [hm]; norm_num; ring⟩ ?_ (by norm_num) (by norm_num)
    rw [abs_of_nonneg (by positivity)]
    norm_num at hb ⊢; linarith
  · refine hc.mul N fv_P1T (j := -84) ⟨m, by rw [hm]; norm_num; ring⟩ ?_ (by norm_num) (by norm_num)
    rw [abs_of_nonneg (by positivity)]
    norm_num at hb ⊢; linarith

theorem fv_c2 : Fv c2 (2 : ℕ) := by
  have := fv_const (b := c2) (q := 2) (by decide +kernel) (by decide +kernel); push_cast at this ⊢; exact this
theorem fv_c3 : Fv c3 (3 : ℕ) := by
  have := fv_const (b := c3) (q := 3) (by decide +kernel) (by decide +kernel); push_cast at this ⊢; exact this
theorem fv_c4 : Fv c4 (4 : ℕ) := by
  have := fv_const (b := c4) (q := 4) (by decide +kernel) (by decide +kernel); push_cast at this ⊢; exact this

/-! ### Large arguments -/

theorem split_bits (x : D) : ((x &&& (0xfffffffffffffffe#f64.w >>> 12)) ||| (0x416#f64.w <<< 52)).toNat = 0x416 * 2 ^ 52 + f64.mag x % 2 ^ 52 := by
  have e1 : (0xfffffffffffffffe#f64.w >>> 12).toNat = 2 ^ 52 - 1 := by decide +kernel
  have e2 : (0x416#f64.w <<< 52).toNat = 0x416 <<< 52 := by decide +kernel
  have e3 : f64.mag x % 2 ^ 52 = x.toNat % 2 ^ 52 := by
    show x.toNat % 2 ^ (11 + 52) % 2 ^ 52 = x.toNat % 2 ^ 52
    omega
  rw [BitVec.toNat_or, BitVec.toNat_and, e1, e2, Nat.and_two_pow_sub_one_eq_mod, Nat.or_comm,
    ← Nat.shiftLeft_add_eq_or_of_lt (Nat.mod_lt _ (by positivity)), e3, Nat.shiftLeft_eq]

/-- digits of the significand -/
def dig3 (m : ℕ) (j : ℕ) : ℕ := if j = 0 then m / 2 ^ 29 else if j = 1 then m % 2 ^ 29 / 2 ^ 5 else if j = 2 then m % 2 ^ 5 * 2 ^ 19 else 0

theorem split_spec {x : D} {X : ℝ} (hx : Fv x X) {e : ℤ} (he : expo x = e + 1023) (he1 : -1022 ≤ e) :
    ∃ m : ℕ, 2 ^ 52 ≤ m ∧ m < 2 ^ 53 ∧ |X| = m * 2 ^ (e - 52) ∧
      Ok (splitX N x) fun tx => ∀ j, j < 3 → Fv (tx j) (dig3 m j) := by
  obtain ⟨M, hM⟩ : ∃ M, M = f64.mag x % 2 ^ 52 := ⟨_, rfl⟩
  have hM1 : M < 2 ^ 52 := by rw [hM]; exact Nat.mod_lt _ (by positivity)
  obtain ⟨E, hE⟩ : ∃ E : ℕ, E = f64.mag x / 2 ^ 52 := ⟨_, rfl⟩
  have hEe : (E : ℤ) = e + 1023 := by rw [hE, ← expo_eq, he]
  have mv : ∀ E : ℕ, 1 ≤ E → f64.magVal ℝ (E * 2 ^ 52 + M) = ((2 ^ 52 + M : ℕ) : ℝ) * 2 ^ ((E : ℤ) - 1023 - 52) := by
    intro E hE1
    have h := f64.magVal_at (E := E) (m := 2 ^ 52 + M) hE1 (by rw [s64]; omega) (Or.inl (by rw [s64]; omega))
    rw [s64, b64] at h
    have : (E - 1) * 2 ^ 52 + (2 ^ 52 + M) = E * 2 ^ 52 + M := by
      obtain ⟨k, rfl⟩ : ∃ k, E = k + 1 := ⟨E - 1, by omega⟩
      rw [Nat.add_sub_cancel]; ring
    rw [this] at h
    rw [← f64.magVal_cast, h]
    push_cast
    rfl
  refine ⟨2 ^ 52 + M, by omega, by omega, ?_, ?_⟩
  · have : f64.mag x = E * 2 ^ 52 + M := by rw [hE, hM]; omega
    rw [abs_fv hx, this, mv E (by omega), hEe]
    congr 2
    ring
  obtain ⟨m, hm⟩ : ∃ m, m = 2 ^ 52 + M := ⟨_, rfl⟩
  rw [← hm]
  have hb := split_bits x
  rw [← hM] at hb
  have fz : Fv ((x &&& (0xfffffffffffffffe#f64.w >>> 12)) ||| (0x416#f64.w <<< 52)) (m / 2 ^ 29) := by
    generalize (x &&& (0xfffffffffffffffe#f64.w >>> 12)) ||| (0x416#f64.w <<< 52) = b at hb
    have h1 : f64.mag b = 0x416 * 2 ^ 52 + M := by
      show b.toNat % 2 ^ (11 + 52) = _
      rw [hb]; omega
    have h2 : f64.sign b = false := by
      show b.msb = false
      rw [BitVec.msb_eq_false_iff_two_mul_lt, hb]
      show _ < 2 ^ 64
      omega
    refine ⟨?_, ?_⟩
    · show f64.mag b < f64.infRep
      have e1 : f64.infRep = 2047 * 2 ^ 52 := by decide +kernel
      omega
    · rw [← f64.valK_cast, f64.val_sign, h2]
      simp only [Bool.false_eq_true, if_false, one_mul]
      rw [f64.magVal_cast, h1, mv _ (by norm_num), ← hm]
      norm_num [div_eq_mul_inv]
  have hmr : m = m / 2 ^ 29 * 2 ^ 29 + (m % 2 ^ 29 / 2 ^ 5 * 2 ^ 5 + m % 2 ^ 5) := by omega
  generalize hd0 : m / 2 ^ 29 = d0 at *
  generalize hd1 : m % 2 ^ 29 / 2 ^ 5 = d1 at *
  generalize hd2 : m % 2 ^ 5 = d2 at *
  have b0 : d0 < 2 ^ 24 := by omega
  have b1 : d1 < 2 ^ 24 := by omega
  have b2 : d2 < 2 ^ 5 := by omega
  have hmR : (m : ℝ) = d0 * 2 ^ 29 + (d1 * 2 ^ 5 + d2) := by rw [hmr]; push_cast; norm_num
  have b0' : (d0 : ℝ) ≤ 16777215 := by exact_mod_cast (show d0 ≤ 16777215 by omega)
  have b1' : (d1 : ℝ) ≤ 16777215 := by exact_mod_cast (show d1 ≤ 16777215 by omega)
  have b2' : (d2 : ℝ) ≤ 31 := by exact_mod_cast (show d2 ≤ 31 by omega)
  have p0 : (0 : ℝ) ≤ d0 := by positivity
  have p1 : (0 : ℝ) ≤ d1 := by positivity
  have p2 : (0 : ℝ) ≤ d2 := by positivity
  -- first digit
  have hz0 : (m : ℝ) / 2 ^ 29 = d0 + (d1 * 2 ^ 5 + d2) / 2 ^ 29 := by rw [hmR]; ring
  rw [hz0] at fz
  have fl0 : ⌊(d0 : ℝ) + (d1 * 2 ^ 5 + d2) / 2 ^ 29⌋ = (d0 : ℤ) := by
    rw [Int.floor_eq_iff]; push_cast
    constructor
    · have : (0 : ℝ) ≤ (d1 * 2 ^ 5 + d2) / 2 ^ 29 := by positivity
      linarith
    · norm_num; linarith
  have t0 := toI32_floor fz (by positivity) (by norm_num; linarith)
  rw [fl0] at t0
  obtain ⟨v0, u0, fv0⟩ := ofI32_spec (k := (d0 : ℤ)) (by omega) (by omega)
  rw [Int.cast_natCast] at fv0
  have g0 : Mul2 (-29) (((d1 : ℝ) * 2 ^ 5 + d2) / 2 ^ 29) := by
    have := mul2_div (d1 * 2 ^ 5 + d2 : ℕ) 29
    push_cast at this
    norm_num at this ⊢; exact this
  have s0 := fz.sub N fv0 (j := -29) (by rw [add_sub_cancel_left]; exact g0) (by
    rw [add_sub_cancel_left, abs_of_nonneg (by positivity)]; norm_num; linarith) (by norm_num) (by norm_num)
  rw [add_sub_cancel_left] at s0
  have e1 : ((d1 : ℝ) * 2 ^ 5 + d2) / 2 ^ 29 * 2 ^ 24 = d1 + d2 / 2 ^ 5 := by ring
  have g1 : Mul2 (-5) ((d2 : ℝ) / 2 ^ 5) := by have := mul2_div (d2 : ℕ) 5; push_cast at this ⊢; exact this
  have s1 := s0.mul N fv_x1p24 (j := -5) (by rw [e1]; exact Mul2.add ((show Mul2 0 (d1 : ℝ) from ⟨(d1 : ℤ), by simp⟩).mono (by norm_num)) g1) (by
    rw [e1, abs_of_nonneg (by positivity)]; norm_num; linarith) (by norm_num) (by norm_num)
  rw [e1] at s1
  -- second digit
  have fl1 : ⌊(d1 : ℝ) + d2 / 2 ^ 5⌋ = (d1 : ℤ) := by
    rw [Int.floor_eq_iff]; push_cast
    constructor
    · have : (0 : ℝ) ≤ (d2 : ℝ) / 2 ^ 5 := by positivity
      linarith
    · norm_num; linarith
  have t1 := toI32_floor s1 (by positivity) (by norm_num; linarith)
  rw [fl1] at t1
  obtain ⟨v1, u1, fv1⟩ := ofI32_spec (k := (d1 : ℤ)) (by omega) (by omega)
  rw [Int.cast_natCast] at fv1
  have s2 := s1.sub N fv1 (j := -5) (by rw [add_sub_cancel_left]; exact g1) (by
    rw [add_sub_cancel_left, abs_of_nonneg (by positivity)]; norm_num; linarith) (by norm_num) (by norm_num)
  rw [add_sub_cancel_left] at s2
  have e2 : (d2 : ℝ) / 2 ^ 5 * 2 ^ 24 = ((d2 * 2 ^ 19 : ℕ) : ℝ) := by push_cast; ring
  have s3 := s2.mul N fv_x1p24 (j := 0) (by rw [e2]; exact ⟨(d2 * 2 ^ 19 : ℕ), by simp⟩) (by
    rw [e2]; push_cast; rw [abs_of_nonneg (by positivity)]; norm_num; linarith) (by norm_num) (by norm_num)
  rw [e2] at s3
  unfold splitX
  simp only [forUp]
  rw [t0, ok_bind, u0, ok_bind, wr_ok (by norm_num), ok_bind, rd_ok (by norm_num), ok_bind, Function.update_self]
  simp only [pure_bind]
  rw [t1, ok_bind, u1, ok_bind, wr_ok (by norm_num), ok_bind, rd_ok (by norm_num), ok_bind, Function.update_self]
  simp only [pure_bind]
  show Ok (wr 3 _ 2 _) _
  rw [wr_ok (by norm_num)]
  refine ⟨_, rfl, fun j hj => ?_⟩
  unfold dig3
  rw [hd0, hd1, hd2]
  interval_cases j
  · simpa using fv0
  · simpa using fv1
  · simpa using s3

theorem dig3_lt {m : ℕ} (hm : m < 2 ^ 53) (j : ℕ) : dig3 m j < 2 ^ 24 := by
  unfold dig3
  split_ifs <;> omega

theorem dig3_sum (m : ℕ) (e0 : ℤ) : Xv (dig3 m) e0 3 = m * 2 ^ (e0 - 29) := by
  have hmr : m = m / 2 ^ 29 * 2 ^ 29 + (m % 2 ^ 29 / 2 ^ 5 * 2 ^ 5 + m % 2 ^ 5) := by omega
  unfold Xv
  rw [Finset.sum_range_succ, Finset.sum_range_succ, Finset.sum_range_one]
  simp only [dig3, if_true, if_false, one_ne_zero, OfNat.ofNat_ne_zero, OfNat.ofNat_ne_one]
  generalize m / 2 ^ 29 = d0 at *
  generalize m % 2 ^ 29 / 2 ^ 5 = d1 at *
  generalize m % 2 ^ 5 = d2 at *
  have hmR : (m : ℝ) = d0 * 2 ^ 29 + (d1 * 2 ^ 5 + d2) := by rw [hmr]; push_cast; norm_num
  rw [hmR, show e0 - 24 * ((0 : ℕ) : ℤ) = (e0 - 29) + 29 by push_cast; ring, show e0 - 24 * ((1 : ℕ) : ℤ) = (e0 - 29) + 5 by push_cast; ring,
    show e0 - 24 * ((2 : ℕ) : ℤ) = (e0 - 29) + -19 by push_cast; ring]
  generalize e0 - 29 = g
  rw [zpow_add₀ (by norm_num), zpow_add₀ (by norm_num), zpow_add₀ (by norm_num)]
  push_cast
  norm_num
  ring

theorem skipZ_spec {tx : ℕ → D} {xd : ℕ → ℕ} (h : ∀ j, j < 3 → Fv (tx j) (xd j)) (e0 : ℤ) {i : ℕ} (hi : i ≤ 2) :
    Ok (skipZ tx i) fun k => k ≤ i ∧ Xv xd e0 (k + 1) = Xv xd e0 (i + 1) := by
  induction i with
  | zero => exact ⟨0, rfl, le_refl _, rfl⟩
  | succ i ih =>
    unfold skipZ
    have hf := feq_fv (h (i + 1) (by omega)) fv_zero
    rw [rd_ok (by omega), ok_bind]
    by_cases hz : xd (i + 1) = 0
    · rw [if_pos (hf.2 (by rw [hz]; simp))]
      obtain ⟨k, h1, h2, h3⟩ := ih (by omega)
      refine ⟨k, h1, by omega, ?_⟩
      rw [h3]
      unfold Xv
      rw [Finset.sum_range_succ _ (i + 1), hz]
      simp
    · have : ¬ ((xd (i + 1) : ℕ) : ℝ) = 0 := by exact_mod_cast hz
      rw [if_neg (fun h => this (hf.1 h))]
      exact ⟨i + 1, rfl, le_refl _, rfl⟩

theorem remLarge_spec {x : D} {X : ℝ} (hx : Fv x X) {sign : Bool} (hs : if sign then X ≤ 0 else 0 ≤ X) {ix : ℕ} (hix : ((ix >>> 20 : ℕ) : ℤ) = expo x)
    (h1 : 0x413 ≤ expo x) (h2 : expo x ≤ 0x7fe) : Ok (remLarge N p64 x sign ix) (Red2 X) := by
  obtain ⟨m, hm1, hm2, hX, tx, ht, htx⟩ := split_spec (N := N) hx (e := expo x - 1023) (by ring) (by omega)
  obtain ⟨e0, he0⟩ : ∃ e0, e0 = expo x - (0x3ff + 23) := ⟨_, rfl⟩
  obtain ⟨i, hsk, hi, hXi⟩ := skipZ_spec htx e0 (le_refl 2)
  rw [dig3_sum, show (e0 - 29 : ℤ) = expo x - 1023 - 52 by omega, ← hX] at hXi
  have hX1 : 1 / 2 ≤ |X| := by
    by_contra hlt
    have := (expo_lt hx (k := -1) (by norm_num)).2 (by norm_num at hlt ⊢; linarith)
    omega
  obtain ⟨xa, hXfv⟩ : ∃ b, Fv b |X| := by
    rcases abs_choice X with h | h <;> rw [h]
    · exact ⟨_, hx⟩
    · exact ⟨_, hx.neg⟩
  obtain ⟨k, y, r0, r1, hL, f0, f1, hA, hB, hC⟩ := large_one (N := N) (p64 := p64) (ny := 3) (fun j => dig3_lt hm2 j) (fun j hj => htx j (by omega)) (show 1 ≤ i + 1 by omega)
    (show i + 1 ≤ 3 by omega) (by norm_num) (show -3 ≤ e0 by omega) (show e0 ≤ 1010 by omega) (fun P => by
      rw [hXi]; exact dist_fv hXfv (by rw [abs_abs]; exact hX1) P)
  rw [hXi] at hA
  have hpi := pi_gt3
  have hpi4 := pi_lt4
  have hr0 : |r0| ≤ 1 := by
    have : |r0| ≤ |r0 + r1| + |r1| := by
      have := abs_sub (r0 + r1) r1
      rwa [add_sub_cancel_right] at this
    norm_num at *; linarith
  have hD : abs (|X| - k * (Real.pi / 2)) ≤ Real.pi / 4 + 1 / 2 ^ 17 := by
    have := abs_add_le (|X| - k * (Real.pi / 2) - (r0 + r1)) (r0 + r1)
    rw [sub_add_cancel] at this
    norm_num at *; linarith
  have hA' : abs (|X| - k * (Real.pi / 2) - (r0 + r1)) ≤ 1 / 2 ^ 64 * |r0| := hA.trans (mul_le_mul_of_nonneg_right (by norm_num) (abs_nonneg _))
  unfold remLarge
  rw [ht, ok_bind, hsk, ok_bind, hix, ← he0, i32_ok (by omega) (by omega), ok_bind, hL, ok_bind]
  simp only
  rw [rd_ok (by norm_num), ok_bind, rd_ok (by norm_num), ok_bind]
  cases sign
  · simp only [Bool.false_eq_true, if_false] at hs ⊢
    rw [abs_of_nonneg hs] at hA' hD
    exact ⟨_, rfl, k, r0, r1, by simp, f0, f1, hA', hB, hD⟩
  · simp only [if_true] at hs ⊢
    rw [abs_of_nonpos hs] at hA' hD
    rw [i32_ok (by omega) (by omega), ok_bind]
    refine ⟨_, rfl, -k, -r0, -r1, by show -(k % 8) % 8 = -k % 8; omega, f0.neg, f1.neg, ?_, by rw [abs_neg, abs_neg]; exact hB, ?_⟩
    · rw [abs_neg, ← abs_neg]
      convert hA' using 2
      push_cast; ring
    · rw [← abs_neg]
      convert hD using 2
      push_cast; ring

/-! ### The top level -/

theorem sign_fv {x : D} {X : ℝ} (hx : Fv x X) : if x.msb then X ≤ 0 else 0 ≤ X := by
  have h := hx.val
  rw [← f64.valK_cast, f64.val_sign] at h
  have hm : (0 : ℝ) ≤ f64.magVal ℝ (f64.mag x) := f64.magVal_nonneg ℝ _
  rw [← f64.magVal_cast] at hm
  have e : f64.sign x = x.msb := rfl
  rw [e] at h
  cases hs : x.msb <;> rw [hs] at h <;> simp at h ⊢ <;> rw [← h]
  · exact_mod_cast hm
  · linarith

theorem hi_inf {x : D} {X : ℝ} (h : Fv x X) : hi x < 0x7ff00000 := by
  rw [hi_eq, Nat.div_lt_iff_lt_mul (by positivity)]
  exact h.1

theorem pi_gt20 : (3.14159265358 : ℝ) < Real.pi := by
  have := pi_tight.1
  norm_num at this
  linarith
theorem pi_lt20 : Real.pi < 3.14159265359 := by
  have := pi_tight.2
  norm_num at this
  linarith

theorem far {Y c a b l h L H : ℝ} (hl : l ≤ Y) (hh : Y ≤ h) (hab : Y ≤ a ∨ b ≤ Y) (h1 : L ≤ c - a) (h2 : L ≤ b - c) (h3 : c - l ≤ H) (h4 : h - c ≤ H) :
    L ≤ |Y - c| ∧ |Y - c| ≤ H := by
  constructor
  · rw [le_abs]
    rcases hab with h | h
    · right; linarith
    · left; linarith
  · rw [abs_le]
    constructor <;> linarith

theorem remPio2_spec {x : D} {X : ℝ} (hx : Fv x X) (hlo : 0x3fe921fb < hi x) : Ok (remPio2 N p64 x) (Red2 X) := by
  have hs := sign_fv hx
  have he := hi_expo x
  have hI := hi_inf hx
  have q0 := hi_lt hx (c := 0x3fe921fc) (q := 0x1921fc / 2 ^ 21) (by decide +kernel)
  have q1 := hi_lt hx (c := 0x3ff921fb) (q := 0x1921fb / 2 ^ 20) (by decide +kernel)
  have q2 := hi_lt hx (c := 0x3ff921fc) (q := 0x1921fc / 2 ^ 20) (by decide +kernel)
  have q3 := hi_lt hx (c := 0x4002d97d) (q := 0x12d97d / 2 ^ 19) (by decide +kernel)
  have q4 := hi_lt hx (c := 0x400921fb) (q := 0x1921fb / 2 ^ 19) (by decide +kernel)
  have q5 := hi_lt hx (c := 0x400921fc) (q := 0x1921fc / 2 ^ 19) (by decide +kernel)
  have q6 := hi_lt hx (c := 0x400f6a7b) (q := 0x1f6a7b / 2 ^ 19) (by decide +kernel)
  have q7 := hi_lt hx (c := 0x4012d97c) (q := 0x12d97c / 2 ^ 18) (by decide +kernel)
  have q8 := hi_lt hx (c := 0x4012d97d) (q := 0x12d97d / 2 ^ 18) (by decide +kernel)
  have q9 := hi_lt hx (c := 0x4015fdbd) (q := 0x15fdbd / 2 ^ 18) (by decide +kernel)
  have q10 := hi_lt hx (c := 0x401921fb) (q := 0x1921fb / 2 ^ 18) (by decide +kernel)
  have q11 := hi_lt hx (c := 0x401921fc) (q := 0x1921fc / 2 ^ 18) (by decide +kernel)
  have q12 := hi_lt hx (c := 0x401c463c) (q := 0x1c463c / 2 ^ 18) (by decide +kernel)
  have q13 := hi_lt hx (c := 0x413921fb) (q := 0x1921fb) (by decide +kernel)
  have q14 := hi_lt hx (c := 0x3ff00000) (q := 1) (by decide +kernel)
  have hmed : 0x3ff00000 ≤ hi x → hi x < 0x413921fb → Ok (medium N x (hi x)) (Red2 X) := by
    intro h1 h2
    refine medium_spec hx ?_ ?_ he
    · have := not_lt.1 (mt q14.2 (by omega)); push_cast at this; exact this
    · have := q13.1 h2; push_cast at this; linarith
  have hX0 : 1 / 2 ≤ |X| := by
    have := not_lt.1 (mt q0.2 (by omega))
    push_cast at this; norm_num at this; linarith
  have hU : U = 1 / 2 ^ 53 := rfl
  have pl := pi_gt20
  have pu := pi_lt20
  have bT : P1T ≤ 1.05 / 2 ^ 34 := by unfold P1T; norm_num
  unfold remPio2
  have hdef : (x.toNat >>> 32) &&& 0x7fffffff = hi x := rfl
  simp only [hdef]
  by_cases c1 : hi x ≤ 0x400f6a7a
  · rw [if_pos c1]
    have hand : hi x &&& 0xfffff = hi x % 2 ^ 20 := by
      rw [show 0xfffff = 2 ^ 20 - 1 from rfl, Nat.and_two_pow_sub_one_eq_mod]
    by_cases c2 : hi x &&& 0xfffff = 0x921fb
    · rw [if_pos c2]
      exact hmed (by omega) (by omega)
    rw [if_neg c2]
    by_cases c3 : hi x ≤ 0x4002d97c
    · rw [if_pos c3]
      obtain ⟨d1, d2⟩ := far (Y := |X|) (c := 1 * (Real.pi / 2)) (a := 0x1921fb / 2 ^ 20) (b := 0x1921fc / 2 ^ 20) (l := 0x1921fc / 2 ^ 21) (h := 0x12d97d / 2 ^ 19)
        (L := 0.3288 / 2 ^ 20) (H := Real.pi / 4 + 1 / 2 ^ 17)
        (by have := not_lt.1 (mt q0.2 (by omega)); push_cast at this; exact this)
        (by have := q3.1 (by omega); push_cast at this; exact this.le)
        (by
          rcases Nat.lt_or_ge (hi x) 0x3ff921fb with h | h
          · have := q1.1 h; push_cast at this; exact Or.inl this.le
          · have := not_lt.1 (mt q2.2 (by omega)); push_cast at this; exact Or.inr this)
        (by norm_num at pl pu ⊢; linarith) (by norm_num at pl pu ⊢; linarith) (by norm_num at pl pu ⊢; linarith) (by norm_num at pl pu ⊢; linarith)
      refine ⟨_, rfl, one_spec (k := 1) (η := 0) (L := 0.3288 / 2 ^ 20) (by norm_num) (by norm_num) hx hX0 hs (by push_cast; rw [one_mul]; exact fv_P1) fv_P1T (g_P1T.mono (by norm_num))
        (by norm_num) (by norm_num) (by push_cast; exact d1) (by push_cast; exact d2) (by norm_num) ?_⟩
      rw [hU]; push_cast; norm_num at bT ⊢; linarith
    · rw [if_neg c3]
      obtain ⟨d1, d2⟩ := far (Y := |X|) (c := 2 * (Real.pi / 2)) (a := 0x1921fb / 2 ^ 19) (b := 0x1921fc / 2 ^ 19) (l := 0x12d97d / 2 ^ 19) (h := 0x1f6a7b / 2 ^ 19)
        (L := 0.3288 / 2 ^ 19) (H := Real.pi / 4 + 1 / 2 ^ 17)
        (by have := not_lt.1 (mt q3.2 (by omega)); push_cast at this; exact this)
        (by have := q6.1 (by omega); push_cast at this; exact this.le)
        (by
          rcases Nat.lt_or_ge (hi x) 0x400921fb with h | h
          · have := q4.1 h; push_cast at this; exact Or.inl this.le
          · have := not_lt.1 (mt q5.2 (by omega)); push_cast at this; exact Or.inr this)
        (by norm_num at pl pu ⊢; linarith) (by norm_num at pl pu ⊢; linarith) (by norm_num at pl pu ⊢; linarith) (by norm_num at pl pu ⊢; linarith)
      refine ⟨_, rfl, one_spec (k := 2) (η := 0) (L := 0.3288 / 2 ^ 19) (by norm_num) (by norm_num) hx hX0 hs (mulc (by norm_num) fv_c2).1 (mulc_exact (Or.inl rfl) fv_c2)
        ?_ (by norm_num) (by norm_num) (by push_cast; exact d1) (by push_cast; exact d2) (by norm_num) ?_⟩
      · exact ((show Mul2 0 ((2 : ℕ) : ℝ) from ⟨2, by simp⟩).mul g_P1T).mono (by norm_num)
      rw [hU]; push_cast; norm_num at bT ⊢; linarith
  rw [if_neg c1]
  by_cases c4 : hi x ≤ 0x401c463b
  · rw [if_pos c4]
    by_cases c5 : hi x ≤ 0x4015fdbc
    · rw [if_pos c5]
      by_cases c6 : hi x = 0x4012d97c
      · rw [if_pos c6]
        exact hmed (by omega) (by omega)
      rw [if_neg c6]
      obtain ⟨d1, d2⟩ := far (Y := |X|) (c := 3 * (Real.pi / 2)) (a := 0x12d97c / 2 ^ 18) (b := 0x12d97d / 2 ^ 18) (l := 0x1f6a7b / 2 ^ 19) (h := 0x15fdbd / 2 ^ 18)
        (L := 0.49 / 2 ^ 18) (H := Real.pi / 4 + 1 / 2 ^ 17)
        (by have := not_lt.1 (mt q6.2 (by omega)); push_cast at this; exact this)
        (by have := q9.1 (by omega); push_cast at this; exact this.le)
        (by
          rcases Nat.lt_or_ge (hi x) 0x4012d97c with h | h
          · have := q7.1 h; push_cast at this; exact Or.inl this.le
          · have := not_lt.1 (mt q8.2 (by omega)); push_cast at this; exact Or.inr this)
        (by norm_num at pl pu ⊢; linarith) (by norm_num at pl pu ⊢; linarith) (by norm_num at pl pu ⊢; linarith) (by norm_num at pl pu ⊢; linarith)
      obtain ⟨m1, PT, m2, m3, m4⟩ := mulc (N := N) (k := 3) (by norm_num) fv_c3
      refine ⟨_, rfl, one_spec (k := 3) (η := U * ((3 : ℕ) * P1T)) (L := 0.49 / 2 ^ 18) (by norm_num) (by norm_num) hx hX0 hs m1 m2 m3 m4
        ?_ (by push_cast; exact d1) (by push_cast; exact d2) (by norm_num) ?_⟩
      · rw [hU]; push_cast; norm_num at bT ⊢; linarith
      · rw [hU]; push_cast; norm_num at bT ⊢; linarith
    · rw [if_neg c5]
      by_cases c6 : hi x = 0x401921fb
      · rw [if_pos c6]
        exact hmed (by omega) (by omega)
      rw [if_neg c6]
      obtain ⟨d1, d2⟩ := far (Y := |X|) (c := 4 * (Real.pi / 2)) (a := 0x1921fb / 2 ^ 18) (b := 0x1921fc / 2 ^ 18) (l := 0x15fdbd / 2 ^ 18) (h := 0x1c463c / 2 ^ 18)
        (L := 0.3288 / 2 ^ 18) (H := Real.pi / 4 + 1 / 2 ^ 17)
        (by have := not_lt.1 (mt q9.2 (by omega)); push_cast at this; exact this)
        (by have := q12.1 (by omega); push_cast at this; exact this.le)
        (by
          rcases Nat.lt_or_ge (hi x) 0x401921fb with h | h
          · have := q10.1 h; push_cast at this; exact Or.inl this.le
          · have := not_lt.1 (mt q11.2 (by omega)); push_cast at this; exact Or.inr this)
        (by norm_num at pl pu ⊢; linarith) (by norm_num at pl pu ⊢; linarith) (by norm_num at pl pu ⊢; linarith) (by norm_num at pl pu ⊢; linarith)
      refine ⟨_, rfl, one_spec (k := 4) (η := 0) (L := 0.3288 / 2 ^ 18) (by norm_num) (by norm_num) hx hX0 hs (mulc (by norm_num) fv_c4).1 (mulc_exact (Or.inr rfl) fv_c4)
        ?_ (by norm_num) (by norm_num) (by push_cast; exact d1) (by push_cast; exact d2) (by norm_num) ?_⟩
      · exact ((show Mul2 0 ((4 : ℕ) : ℝ) from ⟨4, by simp⟩).mul g_P1T).mono (by norm_num)
      rw [hU]; push_cast; norm_num at bT ⊢; linarith
  rw [if_neg c4]
  by_cases c7 : hi x < 0x413921fb
  · rw [if_pos c7]
    exact hmed (by omega) c7
  rw [if_neg c7, if_neg (by omega)]
  rw [Nat.shiftRight_eq_div_pow] at he
  refine remLarge_spec hx hs (hi_expo x) ?_ ?_ <;> rw [← he] <;> omega

end
end Pio2
end Verif
