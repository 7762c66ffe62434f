import Verif.Libm.HypotBr
/-! # The exact part of `hypot`, `as_hypot_hard`: integer arithmetic -/
namespace Verif
/-- value of a magnitude pattern -/
local notation "γ" => Fmt.magVal f64 ℝ

theorem i32E {x : Int} (h : -2 ^ 31 ≤ x) (h' : x < 2 ^ 31) : i32C x = .ok x := by rw [i32C, if_pos ⟨h, h'⟩]
theorem shlE {w} {a : BitVec w} {n : Int} {k : ℕ} (h : n = k) (h' : k < w) : shlI a n = .ok (a <<< k) := by
  rw [shlI, if_pos (by omega), h, Int.toNat_natCast]
theorem shrE {w} {a : BitVec w} {n : Int} {k : ℕ} (h : n = k) (h' : k < w) : shrI a n = .ok (a >>> k) := by
  rw [shrI, if_pos (by omega), h, Int.toNat_natCast]

namespace Hypot

/-- `I` compares with squares of even numbers as `S` does -/
structure Cmp (I : ℕ) (S : ℝ) : Prop where
  near : |(I : ℝ) - S| ≤ 1
  lt : ∀ t : ℕ, t % 2 = 0 → ((t : ℝ) ^ 2 < S ↔ t ^ 2 < I)
  gt : ∀ t : ℕ, t % 2 = 0 → (S < (t : ℝ) ^ 2 ↔ I < t ^ 2)

theorem Cmp.exact (I : ℕ) : Cmp I (I : ℝ) := by
  refine ⟨by simp, fun t _ => ?_, fun t _ => ?_⟩ <;> exact_mod_cast Iff.rfl

theorem Cmp.sticky {J : ℕ} {f : ℝ} (h0 : 0 < f) (h1 : f < 1) : Cmp (J + (1 - J % 2)) (J + f) := by
  have hsq : ∀ t : ℕ, t % 2 = 0 → t ^ 2 % 2 = 0 := by intro t ht; rw [pow_two, Nat.mul_mod, ht]
  have hJ : J % 2 = 0 ∨ J % 2 = 1 := by omega
  refine ⟨?_, fun t ht => ?_, fun t ht => ?_⟩
  · rcases hJ with h | h <;> rw [h] <;> push_cast <;> rw [abs_le] <;> constructor <;> norm_num <;> linarith
  · have := hsq t ht
    constructor
    · intro h
      have h2 : ((t ^ 2 : ℕ) : ℝ) < ((J + 1 : ℕ) : ℝ) := by push_cast; linarith
      have h3 : t ^ 2 < J + 1 := by exact_mod_cast h2
      omega
    · intro h
      have h3 : t ^ 2 ≤ J := by omega
      have h2 : ((t ^ 2 : ℕ) : ℝ) ≤ (J : ℝ) := by exact_mod_cast h3
      push_cast at h2
      linarith
  · have := hsq t ht
    constructor
    · intro h
      have h2 : (J : ℝ) < ((t ^ 2 : ℕ) : ℝ) := by push_cast; linarith
      have h3 : J < t ^ 2 := by exact_mod_cast h2
      omega
    · intro h
      have h3 : J + 1 ≤ t ^ 2 := by omega
      have h2 : ((J + 1 : ℕ) : ℝ) ≤ ((t ^ 2 : ℕ) : ℝ) := by exact_mod_cast h3
      push_cast at h2
      linarith

theorem ofNat_shl (a k : ℕ) : BitVec.ofNat f64.w a <<< k = BitVec.ofNat f64.w (a * 2 ^ k) := by
  apply BitVec.eq_of_toNat_eq
  rw [BitVec.toNat_shiftLeft, BitVec.toNat_ofNat, BitVec.toNat_ofNat, Nat.shiftLeft_eq, Nat.mod_mul_mod]

theorem or_one (J : ℕ) : BitVec.ofNat f64.w J ||| 1#f64.w = BitVec.ofNat f64.w (J + (1 - J % 2)) := by
  apply BitVec.eq_of_toNat_eq
  have hw : 2 ^ f64.w = 2 ^ 64 := rfl
  rw [BitVec.toNat_or, BitVec.toNat_ofNat, BitVec.toNat_ofNat, BitVec.toNat_ofNat]
  simp only [hw]
  rw [show 1 % 2 ^ 64 = 1 by norm_num]
  have h1 : ∀ a : ℕ, a ||| 1 = a + (1 - a % 2) := by
    intro a
    rcases Nat.mod_two_eq_zero_or_one a with h | h
    · rw [h]
      have := Nat.two_pow_add_eq_or_of_lt (i := 1) (b := 1) (by norm_num) (a / 2)
      rw [show 2 ^ 1 * (a / 2) = a by omega] at this
      omega
    · rw [h]
      have := Nat.two_pow_add_eq_or_of_lt (i := 1) (b := 1) (by norm_num) (a / 2)
      have e : a = 2 ^ 1 * (a / 2) + 1 := by omega
      have e2 : a ||| 1 = (2 ^ 1 * (a / 2) ||| 1) ||| 1 := by rw [← this, ← e]
      rw [e2, Nat.or_assoc, Nat.or_self, ← this]
      omega
  rw [h1]
  omega

theorem sumSq_spec {a b δ : ℕ} {be le : ℤ} (hb : b < 2 ^ 53) (hδ : δ ≤ 27) (he : be - le = δ) :
    ∃ I : ℕ, sumSq (BitVec.ofNat f64.w a) (BitVec.ofNat f64.w b) be le = .ok (BitVec.ofNat f64.w I) ∧
      Cmp I ((4 * a : ℝ) ^ 2 + (b * 2 ^ (2 - (δ : ℤ))) ^ 2) := by
  have hw : f64.w = 64 := rfl
  unfold sumSq
  simp only [he]
  rw [shlE (k := 2) (by norm_num) (by rw [hw]; norm_num), ok_bind, i32E (by omega) (by omega), ok_bind,
    i32E (by omega) (by omega), ok_bind, ofNat_shl]
  by_cases h : δ ≤ 2
  · rw [if_pos (by omega), shlE (k := 2 - δ) (by omega) (by rw [hw]; omega), ok_bind, ofNat_shl]
    refine ⟨(a * 2 ^ 2) * (a * 2 ^ 2) + (b * 2 ^ (2 - δ)) * (b * 2 ^ (2 - δ)), ?_, ?_⟩
    · rw [← BitVec.ofNat_mul, ← BitVec.ofNat_mul, ← BitVec.ofNat_add]; rfl
    · have := Cmp.exact ((a * 2 ^ 2) * (a * 2 ^ 2) + (b * 2 ^ (2 - δ)) * (b * 2 ^ (2 - δ)))
      convert this using 1
      rw [show (2 : ℤ) - δ = ((2 - δ : ℕ) : ℤ) by omega, zpow_natCast]
      push_cast
      ring
  · rw [if_neg (by omega)]
    have hb2 : b * b < 2 ^ 106 := by
      calc b * b < 2 ^ 53 * 2 ^ 53 := Nat.mul_lt_mul'' hb hb
        _ = _ := by norm_num
    have e1 : ((BitVec.ofNat f64.w b).setWidth 128).toNat = b := by
      rw [BitVec.toNat_setWidth, BitVec.toNat_ofNat, hw, Nat.mod_eq_of_lt (show b < 2 ^ 64 by omega), Nat.mod_eq_of_lt (by omega)]
    have e2 : mulC ((BitVec.ofNat f64.w b).setWidth 128) ((BitVec.ofNat f64.w b).setWidth 128) = .ok (BitVec.ofNat 128 (b * b)) := by
      unfold mulC
      rw [e1, if_pos (by omega)]
      congr 1
      apply BitVec.eq_of_toNat_eq
      rw [BitVec.toNat_mul, e1, BitVec.toNat_ofNat]
    obtain ⟨n, hn⟩ : ∃ n : ℕ, n = 2 * (δ - 2) := ⟨_, rfl⟩
    rw [e2, ok_bind, i32E (by omega) (by omega), ok_bind, i32E (by omega) (by omega), ok_bind,
      shrE (k := n) (by omega) (by omega), ok_bind, i32E (by omega) (by omega), ok_bind,
      shlE (k := 128 - n) (by omega) (by omega), ok_bind]
    have hS : (4 * a : ℝ) ^ 2 + (b * 2 ^ (2 - (δ : ℤ))) ^ 2 =
        ((a * 2 ^ 2) * (a * 2 ^ 2) + b * b / 2 ^ n : ℕ) + (b * b % 2 ^ n : ℕ) / (2 : ℝ) ^ n := by
      have hd := Nat.div_add_mod (b * b) (2 ^ n)
      have hd' : (2 : ℝ) ^ n * (b * b / 2 ^ n : ℕ) + (b * b % 2 ^ n : ℕ) = b * b := by exact_mod_cast hd
      have hz : ((2 : ℝ) ^ (2 - (δ : ℤ))) ^ 2 = 1 / 2 ^ n := by
        rw [← zpow_natCast, ← zpow_mul, ← zpow_natCast, one_div, ← zpow_neg]; congr 1; push_cast; omega
      rw [mul_pow (b : ℝ), hz, pow_two (b : ℝ), ← hd', Nat.cast_add]
      field_simp
      push_cast
      ring
    have hmod : b * b % 2 ^ n < 2 ^ n := Nat.mod_lt _ (by positivity)
    have e3 : (BitVec.ofNat 128 (b * b) >>> n).setWidth f64.w = BitVec.ofNat f64.w (b * b / 2 ^ n) := by
      apply BitVec.eq_of_toNat_eq
      rw [BitVec.toNat_setWidth, BitVec.toNat_ushiftRight, BitVec.toNat_ofNat, Nat.shiftRight_eq_div_pow, BitVec.toNat_ofNat,
        Nat.mod_eq_of_lt (show b * b < 2 ^ 128 by omega)]
    have e4 : (BitVec.ofNat 128 (b * b) <<< (128 - n) ≠ 0#128) ↔ b * b % 2 ^ n ≠ 0 := by
      rw [not_iff_not, ← BitVec.toNat_inj, BitVec.toNat_shiftLeft, BitVec.toNat_ofNat, Nat.shiftLeft_eq, BitVec.toNat_zero, Nat.mod_mul_mod]
      have : 2 ^ 128 = 2 ^ n * 2 ^ (128 - n) := by rw [← pow_add]; congr 1; omega
      rw [this, Nat.mul_mod_mul_right]
      constructor
      · intro h
        rcases Nat.mul_eq_zero.mp h with h | h
        · exact h
        · have : 0 < 2 ^ (128 - n) := by positivity
          omega
      · intro h; rw [h, Nat.zero_mul]
    rw [e3, ← BitVec.ofNat_mul, ← BitVec.ofNat_add, hS]
    by_cases hz : b * b % 2 ^ n = 0
    · refine ⟨(a * 2 ^ 2) * (a * 2 ^ 2) + b * b / 2 ^ n, ?_, ?_⟩
      · rw [show decide (BitVec.ofNat 128 (b * b) <<< (128 - n) ≠ 0#128) = false from decide_eq_false (fun h => e4.mp h hz)]
        unfold ofBoolW
        rw [if_neg (by simp), BitVec.or_zero]; rfl
      · rw [hz, Nat.cast_zero, zero_div, add_zero]
        exact Cmp.exact _
    · refine ⟨_, ?_, Cmp.sticky (J := (a * 2 ^ 2) * (a * 2 ^ 2) + b * b / 2 ^ n) ?_ ?_⟩
      · rw [show decide (BitVec.ofNat 128 (b * b) <<< (128 - n) ≠ 0#128) = true from decide_eq_true (e4.mpr hz)]
        unfold ofBoolW
        rw [if_pos rfl, or_one]; rfl
      · have : 0 < b * b % 2 ^ n := Nat.pos_of_ne_zero hz
        positivity
      · rw [div_lt_one (by positivity)]
        exact_mod_cast hmod

/-- `rm` at scale `k` stands for the magnitude pattern `N` -/
def Rep (k rm N : ℕ) : Prop :=
  (2 ^ 52 ≤ rm ∧ rm ≤ 2 ^ 53 ∧ N = (1020 + k) * 2 ^ 52 + rm) ∨
  (2 ^ 53 < rm ∧ rm % 2 = 0 ∧ rm ≤ 2 ^ 54 ∧ N = (1021 + k) * 2 ^ 52 + rm / 2)

theorem Rep.val {k rm N : ℕ} (h : Rep k rm N) : γ N * 2 ^ 54 = rm * 2 ^ k := by
  have hz : ∀ i : ℤ, (2 : ℝ) ^ (i - 54) * 2 ^ 54 = 2 ^ i := by
    intro i; rw [zpow_sub₀ (by norm_num)]; norm_num
  rcases h with ⟨h1, h2, rfl⟩ | ⟨h1, h2, h3, rfl⟩
  · have := gv (E := 1021 + k) (m := rm) (by omega) (by omega) (Or.inl h1)
    rw [show 1021 + k - 1 = 1020 + k by omega] at this
    rw [this, mul_assoc, show ((1021 + k : ℕ) : ℤ) - 1075 = (k : ℤ) - 54 by push_cast; ring, hz, zpow_natCast]
  · have := gv (E := 1022 + k) (m := rm / 2) (by omega) (by omega) (Or.inl (by omega))
    rw [show 1022 + k - 1 = 1021 + k by omega] at this
    rw [this, mul_assoc, show ((1022 + k : ℕ) : ℤ) - 1075 = ((k : ℤ) + 1) - 54 by push_cast; ring, hz, zpow_add_one₀ (by norm_num), zpow_natCast]
    have h4 : ((rm / 2 : ℕ) : ℝ) * 2 = rm := by
      have : rm / 2 * 2 = rm := by omega
      exact_mod_cast this
    rw [← h4]; ring

theorem Rep.succ {k rm N : ℕ} (h : Rep k rm N) (hr : rm < 2 ^ 54) : Rep k (rm + (1 + if 2 ^ 53 ≤ rm then 1 else 0)) (N + 1) := by
  rcases h with ⟨h1, h2, rfl⟩ | ⟨h1, h2, h3, rfl⟩
  · by_cases h : rm = 2 ^ 53
    · subst h
      rw [if_pos (le_refl _)]
      right
      refine ⟨by norm_num, by norm_num, by norm_num, ?_⟩
      omega
    · rw [if_neg (by omega)]
      left
      omega
  · rw [if_pos (by omega)]
    right
    omega

theorem Rep.le {k rm N : ℕ} (h : Rep k rm N) : 2 ^ 52 ≤ rm ∧ rm ≤ 2 ^ 54 := by
  rcases h with h | h <;> omega

theorem Rep.lt {k rm N : ℕ} (h : Rep k rm N) (hN : N < (1022 + k) * 2 ^ 52 + 2 ^ 52) : rm < 2 ^ 54 := by
  rcases h with h | h <;> omega

/-- signed difference modulo `2^64` -/
theorem diff_toInt {I t : ℕ} (h : |(I : ℤ) - t| < 2 ^ 63) : (BitVec.ofNat f64.w I - BitVec.ofNat f64.w t).toInt = (I : ℤ) - t := by
  have hw : f64.w = 64 := rfl
  rw [BitVec.toInt_sub, BitVec.toInt_ofNat', BitVec.toInt_ofNat', Int.sub_bmod_bmod, Int.bmod_sub_bmod]
  obtain ⟨h1, h2⟩ := abs_lt.mp h
  rw [hw]
  apply Int.bmod_eq_of_le <;> omega

theorem toNat64 {a : ℕ} (h : a < 2 ^ 64) : (BitVec.ofNat f64.w a).toNat = a := by
  rw [BitVec.toNat_ofNat]; exact Nat.mod_eq_of_lt h

theorem addE {a b : ℕ} (h : a + b < 2 ^ 64) : addC (BitVec.ofNat f64.w a) (BitVec.ofNat f64.w b) = .ok (BitVec.ofNat f64.w (a + b)) := by
  unfold addC
  rw [toNat64 (by omega), toNat64 (by omega), if_pos (show _ < 2 ^ f64.w from h), BitVec.ofNat_add]
theorem subE {a b : ℕ} (h : b ≤ a) (ha : a < 2 ^ 64) : subC (BitVec.ofNat f64.w a) (BitVec.ofNat f64.w b) = .ok (BitVec.ofNat f64.w (a - b)) := by
  unfold subC
  rw [toNat64 (by omega), toNat64 (by omega), if_pos h]
  congr 1
  apply BitVec.eq_of_toNat_eq
  rw [BitVec.toNat_sub_of_le (by rw [BitVec.le_def, toNat64 (by omega), toNat64 (by omega)]; exact h), toNat64 (by omega), toNat64 (by omega), toNat64 (by omega)]

theorem sq_even {rm k : ℕ} (hk : 1 ≤ k) : rm * 2 ^ k % 2 = 0 := by
  obtain ⟨j, rfl⟩ : ∃ j, k = j + 1 := ⟨k - 1, by omega⟩
  rw [pow_succ, ← Nat.mul_assoc, Nat.mul_mod_left]

/-- the comparison of the loop -/
theorem cmp_sign {I t : ℕ} {σ G : ℝ} (hI : Cmp I (σ ^ 2 * 2 ^ 108)) (ht : t % 2 = 0) (hG : G * 2 ^ 54 = t) (hG0 : 0 ≤ G) (hσ0 : 0 ≤ σ)
    (hb : |σ ^ 2 - G ^ 2| * 2 ^ 108 ≤ 2 ^ 62) :
    (BitVec.ofNat f64.w I - BitVec.ofNat f64.w (t * t)).toInt = (I : ℤ) - (t * t : ℕ) ∧
      (0 < (I : ℤ) - (t * t : ℕ) ↔ G < σ) ∧ ((I : ℤ) - (t * t : ℕ) < 0 ↔ σ < G) := by
  have ht2 : ((t : ℝ)) ^ 2 = G ^ 2 * 2 ^ 108 := by rw [← hG, mul_pow]; norm_num
  have h1 := hI.lt t ht
  have h2 := hI.gt t ht
  rw [ht2, mul_lt_mul_iff_left₀ (by positivity), pow_lt_pow_iff_left₀ hG0 hσ0 (by norm_num), pow_two] at h1
  rw [ht2, mul_lt_mul_iff_left₀ (by positivity), pow_lt_pow_iff_left₀ hσ0 hG0 (by norm_num), pow_two] at h2
  refine ⟨diff_toInt ?_, by rw [h1]; omega, by rw [h2]; omega⟩
  have h3 : |(I : ℝ) - (t * t : ℕ)| ≤ 2 ^ 62 + 1 := by
    have e : (I : ℝ) - (t * t : ℕ) = ((I : ℝ) - σ ^ 2 * 2 ^ 108) + (σ ^ 2 - G ^ 2) * 2 ^ 108 := by
      push_cast; rw [← pow_two, ht2]; ring
    rw [e]
    refine (abs_add_le _ _).trans ?_
    rw [abs_mul, abs_of_pos (show (0 : ℝ) < 2 ^ 108 by positivity)]
    linarith [hI.near]
  have h4 : ((|(I : ℤ) - (t * t : ℕ)| : ℤ) : ℝ) < ((2 ^ 63 : ℤ) : ℝ) := by
    rw [Int.cast_abs]; push_cast; push_cast at h3
    refine lt_of_le_of_lt h3 (by norm_num)
  exact_mod_cast h4

theorem loop_spec {I k L : ℕ} {σ : ℝ} (hk : 1 ≤ k) (hk3 : k ≤ 3) (hI : Cmp I (σ ^ 2 * 2 ^ 108)) (hσ0 : 0 ≤ σ) (hσL : σ ≤ γ L)
    (hL : L ≤ (1022 + k) * 2 ^ 52 + 2 ^ 51) :
    ∀ (n rm N : ℕ), Rep k rm N → N < L → L ≤ N + n → (∀ c, N < c → c < L → γ c < σ) → (∀ c, N < c → c ≤ L → |σ ^ 2 - γ c ^ 2| * 2 ^ 108 ≤ 2 ^ 62) →
      ∃ rm', loop false (BitVec.ofNat f64.w I) k n (BitVec.ofNat f64.w rm) =
        .ok (BitVec.ofNat f64.w rm', BitVec.ofNat f64.w I - BitVec.ofNat f64.w ((rm' * 2 ^ k) * (rm' * 2 ^ k))) ∧ Rep k rm' L ∧ rm < rm' := by
  intro n
  induction n with
  | zero => intro rm N _ h1 h2; omega
  | succ n ih =>
    intro rm N hR hN hn hlt hbd
    have hw : f64.w = 64 := rfl
    have hle := hR.le
    have hlt54 := hR.lt (by omega)
    have hR' := hR.succ hlt54
    have hp : 2 ^ k ≤ 2 ^ 3 := Nat.pow_le_pow_right (by norm_num) hk3
    unfold loop
    have hd : decide ((1#f64.w <<< 53) ≤ BitVec.ofNat f64.w rm) = decide (2 ^ 53 ≤ rm) := by
      apply decide_eq_decide.mpr
      rw [BitVec.le_def, toNat64 (by omega), show (1#f64.w <<< 53).toNat = 2 ^ 53 by decide]
    have hb : ofBoolW f64.w (decide (2 ^ 53 ≤ rm)) = BitVec.ofNat f64.w (if 2 ^ 53 ≤ rm then 1 else 0) := by
      unfold ofBoolW
      by_cases h : 2 ^ 53 ≤ rm
      · rw [if_pos h, if_pos (decide_eq_true h)]
      · rw [if_neg h, if_neg (by rw [decide_eq_true_iff]; exact h)]
    generalize hi : (if 2 ^ 53 ≤ rm then 1 else 0) = i at hR' hb
    have hi1 : i ≤ 1 := by rw [← hi]; split <;> omega
    rw [hd, hb, addE (by omega), ok_bind, addE (by omega), ok_bind, shlE (k := k) rfl (by rw [hw]; omega), ok_bind, ofNat_shl]
    generalize hr' : rm + (1 + i) = rm' at hR' ⊢
    dsimp only
    unfold subI64
    rw [Bool.false_and, if_neg (by simp), ok_bind, ← BitVec.ofNat_mul]
    obtain ⟨s1, s2, s3⟩ := cmp_sign (t := rm' * 2 ^ k) hI (sq_even hk) (by rw [hR'.val]; push_cast; rfl) (by
      exact f64.magVal_nonneg ℝ _) hσ0 (hbd (N + 1) (by omega) (by omega))
    rw [s1]
    by_cases hc : N + 1 = L
    · rw [if_pos (by
        rw [hc] at s2
        by_contra hcon
        exact absurd (s2.mp (by omega)) (by linarith))]
      exact ⟨rm', rfl, by rw [← hc]; exact hR', by omega⟩
    · rw [if_neg (by
        have := s2.mpr (hlt (N + 1) (by omega) (by omega))
        omega)]
      obtain ⟨r, a1, a2, a3⟩ := ih rm' (N + 1) hR' (by omega) (by omega) (fun c h => hlt c (by omega)) (fun c h => hbd c (by omega))
      exact ⟨r, a1, a2, by omega⟩

end Hypot
end Verif
