import Verif.Libm.LogK
/-! # The result of `log`, `logf` from the reduced argument, and the reduction, in any format -/
namespace Verif
open Fmt
namespace Log
variable {F : Fmt}

theorem ev_nonneg {p : List ℚ} (h : (p.all fun c => decide (0 ≤ c)) = true) {t : ℝ} (ht : 0 ≤ t) : 0 ≤ Poly.ev p t := by
  induction p with
  | nil => simp [Poly.ev]
  | cons a p ih =>
    rw [List.all_cons, Bool.and_eq_true, decide_eq_true_iff] at h
    have : (0 : ℝ) ≤ a := by exact_mod_cast h.1
    simp only [Poly.ev]
    have := mul_nonneg ht (ih h.2)
    linarith

/-- the value of a pattern with a changed exponent -/
theorem magVal_shift {n n' : ℕ} {k : ℤ} (hn : 2 ^ F.s ≤ n) (hn' : 2 ^ F.s ≤ n') (h : (n : ℤ) = n' + k * 2 ^ F.s) :
    F.magVal ℝ n = F.magVal ℝ n' * 2 ^ k := by
  have hp : 0 < 2 ^ F.s := Nat.two_pow_pos _
  have hpz : ((2 ^ F.s : ℕ) : ℤ) = 2 ^ F.s := by push_cast; rfl
  have e1 : (n : ℤ) % (2 ^ F.s : ℕ) = (n' : ℤ) % (2 ^ F.s : ℕ) := by
    rw [h, hpz, Int.add_mul_emod_self_right]
  have e2 : (n : ℤ) / (2 ^ F.s : ℕ) = (n' : ℤ) / (2 ^ F.s : ℕ) + k := by
    rw [h, hpz, Int.add_mul_ediv_right _ _ (by positivity)]
  have e1' : n % 2 ^ F.s = n' % 2 ^ F.s := by exact_mod_cast e1
  have d1 : 0 < n / 2 ^ F.s := Nat.div_pos hn hp
  have d2 : 0 < n' / 2 ^ F.s := Nat.div_pos hn' hp
  have e2' : ((n / 2 ^ F.s : ℕ) : ℤ) = (n' / 2 ^ F.s : ℕ) + k := by push_cast; push_cast at e2; exact e2
  rw [F.magVal_eq, F.magVal_eq]
  unfold valU
  rw [if_neg d1.ne', if_neg d2.ne', e1']
  push_cast
  have : (2 : ℝ) ^ (n / 2 ^ F.s - 1) = 2 ^ (n' / 2 ^ F.s - 1) * 2 ^ k := by
    rw [← zpow_natCast, ← zpow_natCast, ← zpow_add₀ (by norm_num)]
    congr 1
    omega
  rw [this]
  ring

theorem infRep_lt : F.infRep < 2 ^ (F.e + F.s) := by
  unfold infRep
  rw [Nat.pow_add]
  exact Nat.mul_lt_mul_of_pos_right (Nat.sub_lt (Nat.two_pow_pos _) one_pos) (Nat.two_pow_pos _)

theorem of_nat {n : ℕ} (h : n < F.infRep) : GFv F (BitVec.ofNat F.w n) (F.magVal ℝ n) ∧ (BitVec.ofNat F.w n).toNat = n := by
  have h1 := h.trans (infRep_lt (F := F))
  have hw : F.w = F.e + F.s + 1 := by unfold Fmt.w; omega
  have h2 : 2 ^ F.w = 2 * 2 ^ (F.e + F.s) := by rw [hw, pow_succ]; ring
  have e1 : (BitVec.ofNat F.w n).toNat = n := by
    rw [BitVec.toNat_ofNat, Nat.mod_eq_of_lt (by omega)]
  have e2 : F.mag (BitVec.ofNat F.w n) = n := by unfold mag; rw [e1, Nat.mod_eq_of_lt h1]
  have e3 : F.sign (BitVec.ofNat F.w n) = false := by
    unfold sign
    rw [BitVec.msb_eq_false_iff_two_mul_lt, e1]
    omega
  exact ⟨⟨by unfold IsFin; omega, by unfold valK; rw [e2, e3]; simp⟩, e1⟩

theorem pos_bits {b : BitVec F.w} {v : ℝ} (h : GFv F b v) (hv : 0 < v) : b.toNat < F.infRep ∧ v = F.magVal ℝ b.toNat ∧ F.mag b = b.toNat := by
  have h1 := h.sign_of_pos hv
  have h2 := h.eq_sign
  rw [h1] at h2
  have hw : F.w = F.e + F.s + 1 := by unfold Fmt.w; omega
  have e : F.mag b = b.toNat := by
    unfold mag
    unfold sign at h1
    rw [BitVec.msb_eq_false_iff_two_mul_lt] at h1
    have h2 : 2 ^ F.w = 2 * 2 ^ (F.e + F.s) := by rw [hw, pow_succ]; ring
    exact Nat.mod_eq_of_lt (by omega)
  have h3 : F.mag b < F.infRep := h.fin
  rw [e] at h2 h3
  exact ⟨h3, by simpa using h2, e⟩

/-- the result from the reduced argument -/
theorem whole (hF : F.Big) (hs : F.s = 23 ∨ F.s = 52) (N : FPU F) {x one half two dk hi lo : BitVec F.w} {r : BitVec F.w → BitVec F.w} {X h l : ℝ}
    {k : ℤ} (hx : GFv F x X) (h1 : GFv F one 1) (hh : GFv F half (1 / 2)) (h2 : GFv F two 2) (hdk : GFv F dk k) (hhi : GFv F hi h) (hlo : GFv F lo l)
    (hX0 : 7071 / 10000 ≤ X) (hX1 : X ≤ 141422 / 100000) {P : List ℚ}
    (hr : ∀ s S, Ex.Holds F 1 s S ⟨1716 / 10000, 33 / 100 / 2 ^ (F.s + 1), false⟩ →
      Ex.Holds F 1 (r s) (S * S * Poly.ev P (S * S)) ⟨2 / 100, 14 / 100 / 2 ^ (F.s + 1), false⟩)
    (hP0 : (P.all fun c => decide (0 ≤ c)) = true) {B : ℚ} {n : ℕ} (hP : Poly.chk (0 :: Poly.sub P Poly.logL) B n 0 (2945 / 100000) = true)
    (hB : (B : ℝ) + 1 / 2 ^ 68 ≤ 4 / 100 * (1 / 2 ^ (F.s + 1))) {jh : ℤ} (hg : Mul2 jh h) (hj : -2 - (F.s : ℤ) ≤ jh) (hj2 : jh ≤ 0)
    (hkh : |k * h| ≤ 2 ^ (jh + F.s + 1))
    (hk9 : |(k : ℝ)| ≤ 2000) (hkl : |k * l| ≤ 14 / 10000) (hd : |(k : ℝ)| * |h + l - Real.log 2| ≤ 1 / 200 * (1 / 2 ^ (F.s + 1)))
    (hne : k = 0 → X ≠ 1) :
    ∃ W, GFv F (N.add (N.add (N.sub (N.add (N.mul (N.div (N.sub x one) (N.add two (N.sub x one)))
        (N.add (N.mul (N.mul half (N.sub x one)) (N.sub x one)) (r (N.div (N.sub x one) (N.add two (N.sub x one)))))) (N.mul dk lo))
        (N.mul (N.mul half (N.sub x one)) (N.sub x one))) (N.sub x one)) (N.mul dk hi)) W ∧
      |W - (Real.log X + k * Real.log 2)| ≤ 2 * (1 / 2 ^ (F.s + 1)) * |Real.log X + k * Real.log 2| := by
  have h127 := hF.bias
  have hu0 : (0 : ℝ) < 1 / 2 ^ (F.s + 1) := by positivity
  have hu2 : (1 : ℝ) / 2 ^ 53 ≤ 1 / 2 ^ (F.s + 1) :=
    one_div_le_one_div_of_le (by positivity) (pow_le_pow_right₀ (by norm_num) (by rcases hs with h | h <;> omega))
  have hgX : Mul2 (-1 - (F.s : ℤ)) X := by
    have := F.mul2_ge (b := x) (k := -1) (by
      rw [hx.val, abs_of_pos (by linarith), show (2 : ℝ) ^ (-1 : ℤ) = 1 / 2 by norm_num]; linarith)
    rwa [hx.val] at this
  have hg1 : Mul2 (-1 - (F.s : ℤ)) (X - 1) := hgX.sub ((show Mul2 0 (1 : ℝ) from ⟨1, by simp⟩).mono (by omega))
  have hf9 : |X - 1| ≤ 1 := by rw [abs_le]; constructor <;> linarith
  have hf : GFv F (N.sub x one) (X - 1) := GFv.of_rounds hF (hx.subR N h1) hg1
    (by rw [show -1 - (F.s : ℤ) + F.s + 1 = 0 by ring, zpow_zero]; exact hf9) (by omega) (hf9.trans (by norm_num))
  have a0 : (-0.2929 : ℝ) ≤ X - 1 := by norm_num; linarith
  have a1 : X - 1 ≤ 0.41422 := by norm_num; linarith
  have hs1 := s_spec hF hs N hf h2 a0 a1
  have hsl := s_le rfl a0 a1
  have hr1 := hr _ _ ⟨hs1.1, by simp only [Ex.sv, Bool.false_eq_true, if_false, mul_one]; push_cast; norm_num at hsl ⊢; exact hsl, hs1.2.2⟩
  have hhf := half_spec hF N hf hh hg1 hf9
  have hR := mul_nonneg (mul_self_nonneg ((X - 1) / (2 + (X - 1)))) (ev_nonneg hP0 (mul_self_nonneg ((X - 1) / (2 + (X - 1)))))
  have hap := Poly.log_rat hP rfl (by linarith) hsl
  have hap' := hap.trans (mul_le_mul_of_nonneg_right (hB.trans (le_of_eq (show (4 : ℝ) / 100 * (1 / 2 ^ (F.s + 1)) = 0.04 * (1 / 2 ^ (F.s + 1)) by norm_num)))
    (abs_nonneg _))
  have eX : 1 + (X - 1) = X := by ring
  by_cases hk0 : k = 0
  · have hz : GFv F dk 0 := hdk.cast (by rw [hk0]; simp)
    have hz0 : ∀ {c : BitVec F.w} {v : ℝ}, GFv F c v → GFv F (N.mul dk c) 0 := fun hc =>
      GFv.of_rounds hF (j := 0) (by have := hz.mulR N hc; rwa [zero_mul] at this) ⟨0, by simp⟩ (by simp; positivity) (by omega) (by simp)
    obtain ⟨W, w1, w2⟩ := core0 hF hs N hf h2 hhf hr1 hR hap' a0 a1 (mul2_min hg1 (sub_ne_zero.mpr (hne hk0))) (sub_ne_zero.mpr (hne hk0)) (hz0 hlo) (hz0 hhi)
    refine ⟨W, w1, ?_⟩
    rw [eX] at w2
    rw [hk0]
    simpa using w2
  · have hKg : Mul2 jh (k * h) := by
      have := (show Mul2 0 (k : ℝ) from ⟨k, by simp⟩).mul hg
      rwa [zero_add] at this
    have hK : GFv F (N.mul dk hi) (k * h) := GFv.of_rounds hF (hdk.mulR N hhi) hKg hkh (by omega)
      (hkh.trans (zpow_le_zpow_right₀ (by norm_num) (by rcases hs with h | h <;> rw [h] <;> omega)))
    obtain ⟨L, l1, l2⟩ := GFv.rnd hF (hdk.mulR N hlo) (hkl.trans (by norm_num))
    have hT : (1 : ℝ) / 2 ^ 150 ≤ 1 / 10000 * (1 / 2 ^ 53) := by norm_num
    have l3 : |L - k * l| ≤ 2 / 1000 * (1 / 2 ^ (F.s + 1)) := by
      have := mul_le_mul_of_nonneg_left hkl hu0.le
      linarith
    have hl : Ex.Holds F 1 (N.mul dk lo) (k * l) ⟨14 / 10000, 1 / 100 / 2 ^ (F.s + 1), false⟩ := by
      refine ⟨l1.fin, ?_, ?_⟩
      · simp only [Ex.sv, Bool.false_eq_true, if_false, mul_one]; push_cast; linarith
      · simp only [Ex.sv, Bool.false_eq_true, if_false, mul_one]; rw [l1.val]; push_cast
        have : (1 : ℝ) / 100 / 2 ^ (F.s + 1) = 1 / 100 * (1 / 2 ^ (F.s + 1)) := by ring
        rw [this]; linarith
    obtain ⟨W, w1, w2⟩ := coreK hF hs N hf h2 hhf hr1 hR hap' a0 a1 hl hK (hKg.mono hj) hk0 hk9 (by
      rw [show (k : ℝ) * h + k * l - k * Real.log 2 = k * (h + l - Real.log 2) by ring, abs_mul]
      linarith)
    rw [eX] at w2
    exact ⟨W, w1, w2⟩
end Log
end Verif
