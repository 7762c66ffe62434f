import Verif.Libm.PowExp2D
/-! The reduction of the argument of the logarithm of `pow`. -/
namespace Verif
open Fmt
namespace Power
namespace Dbl
open Pio2
local notation "W" => BitVec f64.w

theorem setHi_val (x : W) {e f : ℕ} (he : 1 ≤ e) (he2 : e ≤ 2046) (hf : f < 2 ^ 20) :
    GFv f64 (setHi x (e * 2 ^ 20 + f)) ((2 ^ 52 + (f * 2 ^ 32 + x.toNat % 2 ^ 32 : ℕ)) * 2 ^ ((e : ℤ) - 1075)) := by
  have h := (CbrtD.of_bits false (m := e * 2 ^ f64.s + (f * 2 ^ 32 + x.toNat % 2 ^ 32)) (by rw [show f64.infRep = 2047 * 2 ^ 52 by decide +kernel, show f64.s = 52 from rfl]; omega)).1
  rw [Exp2.magVal_at he (by rw [show f64.s = 52 from rfl]; omega)] at h
  rw [setHi_eq]
  have e1 : CbrtD.sb false + (e * 2 ^ f64.s + (f * 2 ^ 32 + x.toNat % 2 ^ 32)) = (e * 2 ^ 20 + f) * 2 ^ 32 + x.toNat % 2 ^ 32 := by
    rw [show f64.s = 52 from rfl, show CbrtD.sb false = 0 from rfl]; omega
  rw [e1] at h
  have e2 : CbrtD.sg false = 1 := rfl
  rw [e2, one_mul, show f64.s = 52 from rfl, show f64.bias = 1023 from rfl] at h
  have e3 : (e : ℤ) - 1075 = (e : ℤ) - (1023 : ℕ) - (52 : ℕ) := by push_cast; ring
  rw [e3]
  exact h

theorem or29 {x : ℕ} (h : x < 2 ^ 29) : x ||| 0x20000000 = x + 2 ^ 29 := by
  rw [Nat.or_comm, show (0x20000000 : ℕ) = 1 <<< 29 from rfl, ← Nat.shiftLeft_add_eq_or_of_lt h]; omega
theorem or20 {x : ℕ} (h : x < 2 ^ 20) : x ||| 0x3ff00000 = x + 1023 * 2 ^ 20 := by
  rw [Nat.or_comm, show (0x3ff00000 : ℕ) = 1023 <<< 20 from rfl, ← Nat.shiftLeft_add_eq_or_of_lt h]; omega

theorem ofI32_g {k : ℤ} (h0 : -2 ^ 31 ≤ k) (h1 : k < 2 ^ 31) : ∃ r, ofI32 k = .ok r ∧ GFv f64 r k := by
  obtain ⟨r, a, b⟩ := ofI32_spec h0 h1
  exact ⟨r, a, b.1, b.2⟩

theorem logD_words (N : FPU f64) (ax : W) {ix E j : ℕ} {n0 : ℤ} (hix : ix = E * 2 ^ 20 + j) (hj : j < 2 ^ 20) (hE : E ≤ 2046) (hn0 : |n0| ≤ 60) :
    ∃ (k : ℕ) (n : ℤ) (e' w : ℕ) (t : W), logD N ax ix n0 = .ok (logMain N KD Asin.clearLow (setHi ax (e' * 2 ^ 20 + j)) (KD.BP.getD k 0) (KD.DP_H.getD k 0) (KD.DP_L.getD k 0) (setHi 0 w) t) ∧
      GFv f64 t n ∧
      ((k = 0 ∧ j ≤ 0x3988E ∧ e' = 1023 ∧ n = n0 + E - 1023 ∧ w = 1024 * 2 ^ 20 + j / 2) ∨
       (k = 1 ∧ 0x3988E < j ∧ j < 0xBB67A ∧ e' = 1023 ∧ n = n0 + E - 1023 ∧ w = 1024 * 2 ^ 20 + (j / 2 + 2 ^ 18)) ∨
       (k = 0 ∧ 0xBB67A ≤ j ∧ e' = 1022 ∧ n = n0 + E - 1023 + 1 ∧ w = 1023 * 2 ^ 20 + (j / 2 + 2 ^ 19))) := by
  have h1 : ix >>> 20 = E := by rw [Nat.shiftRight_eq_div_pow]; omega
  have h2 : ix &&& 0x000fffff = j := by rw [show (0x000fffff : ℕ) = 2 ^ 20 - 1 from rfl, Nat.and_two_pow_sub_one_eq_mod]; omega
  rw [abs_le] at hn0
  have h3 : i32C (n0 + ((E : ℤ) - 0x3ff)) = .ok (n0 + E - 1023) := by rw [show n0 + ((E : ℤ) - 0x3ff) = n0 + E - 1023 by ring]; unfold i32C; rw [if_pos (by omega)]
  have h3' : i32C (n0 + E - 1023 + 1) = .ok (n0 + E - 1023 + 1) := by unfold i32C; rw [if_pos (by omega)]
  have h4 : nsubC (j + 1023 * 2 ^ 20) 0x00100000 = .ok (1022 * 2 ^ 20 + j) := by
    have h : j + 1023 * 2 ^ 20 - 0x00100000 = 1022 * 2 ^ 20 + j := by omega
    unfold nsubC; rw [if_pos (by omega), h]
  have rd0 : ∀ (a : ℕ → W), rd 2 a 0 = .ok (a 0) := fun a => rfl
  have rd1 : ∀ (a : ℕ → W), rd 2 a 1 = .ok (a 1) := fun a => rfl
  have u : ∀ {a b : ℕ}, a < 2 ^ 32 → a = b → Log.u32C a = .ok b := by
    intro a b h e; unfold Log.u32C; rw [if_pos h, e]
  have s1 : ∀ m : ℕ, (m * 2 ^ 20 + j) >>> 1 = m * 2 ^ 19 + j / 2 := by intro m; rw [Nat.shiftRight_eq_div_pow]; omega
  unfold logD
  dsimp only
  rw [h1, h2, h3, ok_bind, or20 hj]
  by_cases c1 : j ≤ 0x3988E
  · obtain ⟨t, t1, t2⟩ := ofI32_g (k := n0 + E - 1023) (by omega) (by omega)
    refine ⟨0, _, 1023, _, t, ?_, t2, Or.inl ⟨rfl, c1, rfl, rfl, rfl⟩⟩
    rw [if_pos c1, pure_bind]
    dsimp only
    rw [Nat.add_comm j, s1 1023, or29 (by omega), rd0, ok_bind, u (b := 1024 * 2 ^ 20 + j / 2) (by omega) (by omega), ok_bind, u (b := 1024 * 2 ^ 20 + j / 2) (by rw [Nat.shiftLeft_eq]; omega) (by rw [Nat.shiftLeft_eq]; omega), ok_bind,
      rd0, ok_bind, t1, ok_bind, rd0, ok_bind]
    rfl
  · rw [if_neg c1]
    by_cases c2 : j < 0xBB67A
    · obtain ⟨t, t1, t2⟩ := ofI32_g (k := n0 + E - 1023) (by omega) (by omega)
      refine ⟨1, _, 1023, _, t, ?_, t2, Or.inr (Or.inl ⟨rfl, by omega, c2, rfl, rfl, rfl⟩)⟩
      rw [if_pos c2, pure_bind]
      dsimp only
      rw [Nat.add_comm j, s1 1023, or29 (by omega), rd1, ok_bind, u (b := 1024 * 2 ^ 20 + j / 2) (by omega) (by omega), ok_bind, u (b := 1024 * 2 ^ 20 + (j / 2 + 2 ^ 18)) (by rw [Nat.shiftLeft_eq]; omega) (by rw [Nat.shiftLeft_eq]; omega), ok_bind,
        rd1, ok_bind, t1, ok_bind, rd1, ok_bind]
      rfl
    · rw [if_neg c2]
      obtain ⟨t, t1, t2⟩ := ofI32_g (k := n0 + E - 1023 + 1) (by omega) (by omega)
      refine ⟨0, _, 1022, _, t, ?_, t2, Or.inr (Or.inr ⟨rfl, by omega, rfl, rfl, rfl⟩)⟩
      rw [h3', ok_bind, h4, ok_bind, pure_bind]
      dsimp only
      rw [s1 1022, or29 (by omega), rd0, ok_bind, u (b := 1023 * 2 ^ 20 + (j / 2 + 2 ^ 19)) (by omega) (by omega), ok_bind, u (b := 1023 * 2 ^ 20 + (j / 2 + 2 ^ 19)) (by rw [Nat.shiftLeft_eq]; omega) (by rw [Nat.shiftLeft_eq]; omega), ok_bind,
        rd0, ok_bind, t1, ok_bind, rd0, ok_bind]
      rfl

theorem lg15 : |Real.logb 2 (3 / 2) - 0.58496250072| ≤ 1 / 10 ^ 10 := by
  have h1 := log15_near
  have h2 := Log2.ln2_near
  rw [abs_le] at h1 h2 ⊢
  unfold Real.logb
  have hp : 0 < Real.log 2 := Real.log_pos (by norm_num)
  have e : Real.log (3 / 2) / Real.log 2 - 0.58496250072 = (Real.log (3 / 2) - 0.58496250072 * Real.log 2) / Real.log 2 := by field_simp
  rw [e]
  norm_num at h1 h2 ⊢
  constructor
  · rw [le_div_iff₀ hp]; linarith [h1.1, h2.2, h2.1]
  · rw [div_le_iff₀ hp]; linarith [h1.2, h2.2, h2.1]

theorem lg_sq {A : ℝ} (hA : 0 < A) : Real.logb 2 (A ^ 2) = 2 * Real.logb 2 A := by
  rw [Real.logb_pow]; norm_num

theorem lg_lo {A : ℝ} (hA : 0 < A) : 1 - 1 / A ≤ Real.log A := by
  have := Real.one_sub_inv_le_log_of_pos hA
  rwa [one_div]

/-- the logarithms at the ends of the intervals -/
theorem lg_ends {A : ℝ} (hA : 0 < A) : (1 ≤ A → 0 ≤ Real.logb 2 A) ∧ (A ≤ 1 → Real.logb 2 A ≤ 0) ∧ (3 / 2 ≤ A ^ 2 → 0.29248 ≤ Real.logb 2 A) ∧ (A ^ 2 ≤ 3 → Real.logb 2 A ≤ 0.79249) ∧
    (A ^ 2 ≤ 3 / 2 * 1.00001 → Real.logb 2 A ≤ 0.29249) ∧ (3 / 4 ≤ A ^ 2 * 1.00001 → -0.20753 ≤ Real.logb 2 A) := by
  have h := lg15
  rw [abs_le] at h
  have hA2 : 0 < A ^ 2 := by positivity
  have sq := lg_sq hA
  have l2 : Real.logb 2 2 = 1 := Real.logb_self_eq_one (by norm_num)
  have l3 : Real.logb 2 3 = 1 + Real.logb 2 (3 / 2) := by
    rw [← l2, ← Real.logb_mul (by norm_num) (by norm_num)]; norm_num
  have l34 : Real.logb 2 (3 / 4) = Real.logb 2 (3 / 2) - 1 := by
    rw [← l2, ← Real.logb_div (by norm_num) (by norm_num)]; norm_num
  have lk : Real.logb 2 1.00001 ≤ 0.000015 := by
    unfold Real.logb
    have h2 := Log2.ln2_near
    rw [abs_le] at h2
    rw [div_le_iff₀ (Real.log_pos (by norm_num))]
    have := Real.log_le_sub_one_of_pos (show (0 : ℝ) < 1.00001 by norm_num)
    norm_num at this h2 ⊢
    linarith [h2.1]
  norm_num at h
  refine ⟨fun h' => Real.logb_nonneg (by norm_num) h', fun h' => Real.logb_nonpos (by norm_num) hA.le h', fun h' => ?_, fun h' => ?_, fun h' => ?_, fun h' => ?_⟩
  · have := Real.logb_le_logb_of_le (b := 2) (by norm_num) (by norm_num) h'
    norm_num; linarith [h.1]
  · have := Real.logb_le_logb_of_le (b := 2) (by norm_num) hA2 h'
    norm_num; linarith [h.2]
  · have := Real.logb_le_logb_of_le (b := 2) (by norm_num) hA2 h'
    rw [Real.logb_mul (by norm_num) (by norm_num)] at this
    norm_num at lk this ⊢; linarith [h.2]
  · have := Real.logb_le_logb_of_le (b := 2) (by norm_num) (by norm_num) h'
    rw [Real.logb_mul hA2.ne' (by norm_num)] at this
    norm_num at lk this ⊢; linarith [h.1]

theorem bp_val : GFv f64 (KD.BP.getD 0 0) 1 ∧ GFv f64 (KD.BP.getD 1 0) (3 / 2) ∧ GFv f64 (KD.DP_H.getD 0 0) 0 ∧ GFv f64 (KD.DP_L.getD 0 0) 0 ∧
    GFv f64 (KD.DP_H.getD 1 0) (f64.val dh1 : ℚ) ∧ GFv f64 (KD.DP_L.getD 1 0) (f64.val dl1 : ℚ) := by
  have c : ∀ (b : W) (q : ℚ), f64.IsFin b → f64.val b = q → GFv f64 b q := fun b q h1 h2 => ⟨h1, by rw [← f64.valK_cast, h2]⟩
  refine ⟨?_, ?_, ?_, ?_, ?_, ?_⟩
  · have := c (KD.BP.getD 0 0) 1 (by unfold IsFin; decide +kernel) (by decide +kernel)
    push_cast at this; exact this
  · have := c (KD.BP.getD 1 0) (3 / 2) (by unfold IsFin; decide +kernel) (by decide +kernel)
    push_cast at this; exact this
  · have := c (KD.DP_H.getD 0 0) 0 (by unfold IsFin; decide +kernel) (by decide +kernel)
    push_cast at this; exact this
  · have := c (KD.DP_L.getD 0 0) 0 (by unfold IsFin; decide +kernel) (by decide +kernel)
    push_cast at this; exact this
  · exact c _ _ (by unfold IsFin; decide +kernel) (by decide +kernel)
  · exact c _ _ (by unfold IsFin; decide +kernel) (by decide +kernel)

theorem dp_small : |((f64.val dh1 : ℚ) : ℝ)| ≤ 0.59 ∧ |((f64.val dl1 : ℚ) : ℝ)| ≤ 0.00001 := by
  have c : |f64.val dh1| ≤ 59 / 100 ∧ |f64.val dl1| ≤ 1 / 100000 := by decide +kernel
  have c1 := Rat.cast_le (K := ℝ).mpr c.1
  have c2 := Rat.cast_le (K := ℝ).mpr c.2
  push_cast at c1 c2
  exact ⟨c1.trans (by norm_num), c2.trans (by norm_num)⟩

end Dbl
end Power
end Verif
