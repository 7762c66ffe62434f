import Verif.Libm.ExpScale
/-! # The reduction of the argument of `exp`, `expf`, in any format -/
namespace Verif
open Fmt
namespace Exp
variable {F : Fmt}

theorem ln2_lo : (0.693147 : ℝ) < Real.log 2 := by
  have h := Poly.ln2_gt
  have : (0.693147 : ℝ) < (Poly.ln2L : ℚ) := by unfold Poly.ln2L; push_cast; norm_num
  linarith
theorem ln2_hi : Real.log 2 < 0.693148 := by
  have h := Poly.ln2_lt
  have : ((Poly.ln2H : ℚ) : ℝ) < 0.693148 := by unfold Poly.ln2H; push_cast; norm_num
  linarith

/-- the multiple of `ln 2` -/
theorem kpick (hF : F.Big) (N : FPU F) (hp : Props.ConvPair F 32) {x inv half : BitVec F.w} {X v η : ℝ} (hx : GFv F x X) (hi : GFv F inv v)
    (hh : GFv F half η) (hη : 0 ≤ X ∧ η = 1 / 2 ∨ X ≤ 0 ∧ η = -(1 / 2)) (h1000 : |X| ≤ 1000) (hv0 : 0 ≤ v) (hv : v ≤ 3 / 2)
    (h1 : |v * X * Real.log 2 - X| ≤ 1 / 100000) (h2 : |X| * (1 / 2 ^ (F.s + 1)) ≤ 1 / 100000) :
    ∃ r, F.floatToSigned 32 (N.add (N.mul inv x) half) = .ok r ∧ |X - r.toInt * Real.log 2| ≤ 0.34665 := by
  have l1 := ln2_lo
  have l2 := ln2_hi
  have hu1 : (1 : ℝ) / 2 ^ (F.s + 1) ≤ 1 / 16777216 := by
    have := hF.s
    rw [show (16777216 : ℝ) = 2 ^ 24 by norm_num]
    exact one_div_le_one_div_of_le (by norm_num) (pow_le_pow_right₀ (by norm_num) (by omega))
  have hu0 : (0 : ℝ) < 1 / 2 ^ (F.s + 1) := by positivity
  have hT : (1 : ℝ) / 2 ^ 150 ≤ 1 / 1000000 := by norm_num
  have h2p : (2000 : ℝ) ≤ 2 ^ (100 : ℤ) := by norm_num
  have hvX : |v * X| ≤ 3 / 2 * |X| := by rw [abs_mul, abs_of_nonneg hv0]; exact mul_le_mul_of_nonneg_right hv (abs_nonneg _)
  obtain ⟨t, ht, et⟩ := GFv.rnd hF (hi.mulR N hx) (by linarith [abs_nonneg X])
  have et2 : |t - v * X| ≤ 3 / 100000 := by nlinarith [abs_nonneg X]
  have htb : |t| ≤ 1501 := by
    have := abs_add_le (t - v * X) (v * X); rw [sub_add_cancel] at this; linarith
  have hηa : |η| = 1 / 2 := by rcases hη with ⟨_, h⟩ | ⟨_, h⟩ <;> rw [h] <;> norm_num
  have hs1 : |t + η| ≤ 3 / 2 * |X| + 1 := by
    have := abs_add_le t η
    have := abs_add_le (t - v * X) (v * X); rw [sub_add_cancel] at this; linarith
  obtain ⟨w, hw, ew⟩ := GFv.rnd hF (ht.addR N hh) (by linarith [abs_nonneg X])
  have ew2 : |w - (t + η)| ≤ 3 / 100000 := by nlinarith [abs_nonneg X]
  obtain ⟨r, hr, r1, r2⟩ := hw.toI32 hp (by
    have := abs_add_le (w - (t + η)) (t + η); rw [sub_add_cancel] at this; norm_num; linarith)
  refine ⟨r, hr, ?_⟩
  -- `|v X - k| ≤ 1/2 + ...`
  have hk : |v * X - r.toInt| ≤ 1 / 2 + 7 / 100000 := by
    rw [abs_le] at et2 ew2 ⊢
    rcases hη with ⟨hX0, h⟩ | ⟨hX0, h⟩
    · have hvX0 : 0 ≤ v * X := mul_nonneg hv0 hX0
      obtain ⟨_, a2, a3⟩ := r1 (by linarith [et2.1, ew2.1])
      constructor <;> linarith [et2.1, et2.2, ew2.1, ew2.2]
    · have hvX0 : v * X ≤ 0 := mul_nonpos_of_nonneg_of_nonpos hv0 hX0
      obtain ⟨_, a2, a3⟩ := r2 (by linarith [et2.2, ew2.2])
      constructor <;> linarith [et2.1, et2.2, ew2.1, ew2.2]
  have e : X - r.toInt * Real.log 2 = -(v * X * Real.log 2 - X) + (v * X - r.toInt) * Real.log 2 := by ring
  rw [e]
  refine (abs_add_le _ _).trans ?_
  rw [abs_neg, abs_mul, abs_of_pos (by linarith : (0 : ℝ) < Real.log 2)]
  have : |v * X - r.toInt| * Real.log 2 ≤ (1 / 2 + 7 / 100000) * 0.6931472 := by
    refine mul_le_mul hk ?_ (by linarith) (by norm_num)
    have h := Poly.ln2_lt
    have : ((Poly.ln2H : ℚ) : ℝ) < 0.6931472 := by unfold Poly.ln2H; push_cast; norm_num
    linarith
  norm_num at *
  linarith

/-- the reduced argument -/
theorem reduce (hF : F.Big) (hs : F.s ≤ 52) (N : FPU F) {x kd a b : BitVec F.w} {X h l : ℝ} {k : ℤ} (hx : GFv F x X) (hk : GFv F kd k) (hh : GFv F a h)
    (hl : GFv F b l) (hX : 1 / 4 ≤ |X|) {jh : ℤ} (hg : Mul2 jh h) (hj : -2 - (F.s : ℤ) ≤ jh) (hkh : |k * h| ≤ 2 ^ (jh + F.s + 1))
    (hkh' : |k * h| ≤ 2000) (hr : |X - k * Real.log 2| ≤ 0.34665) (hkl : |k * l| ≤ 1 / 4600)
    (hd : |(k : ℝ)| * |h + l - Real.log 2| ≤ 1 / 2 ^ (F.s + 1) / 2000) :
    ∃ H L X', GFv F (N.sub x (N.mul kd a)) H ∧ GFv F (N.mul kd b) L ∧ GFv F (N.sub (N.sub x (N.mul kd a)) (N.mul kd b)) X' ∧
      |X'| ≤ 0.3467 ∧ |H| ≤ 0.347 ∧ |L| ≤ 1 / 4096 ∧ |H - L - X'| ≤ 1 / 2 ^ (F.s + 1) / 4 ∧
      |X - k * Real.log 2 - (H - L)| ≤ 1 / 2 ^ (F.s + 1) / 1000 := by
  have h127 := hF.bias
  have h23 := hF.s
  have hu1 : (1 : ℝ) / 2 ^ (F.s + 1) ≤ 1 / 16777216 := by
    rw [show (16777216 : ℝ) = 2 ^ 24 by norm_num]
    exact one_div_le_one_div_of_le (by norm_num) (pow_le_pow_right₀ (by norm_num) (by omega))
  have hu0 : (0 : ℝ) < 1 / 2 ^ (F.s + 1) := by positivity
  have h2p : (2000 : ℝ) ≤ 2 ^ (100 : ℤ) := by norm_num
  have hgk : Mul2 jh (k * h) := by
    have : Mul2 0 (k : ℝ) := ⟨k, by simp⟩
    have := this.mul hg
    rwa [zero_add] at this
  have p1 : GFv F (N.mul kd a) (k * h) := GFv.of_rounds hF (hk.mulR N hh) hgk hkh (by omega) (hkh'.trans h2p)
  have hgx : Mul2 (-2 - F.s) X := by
    have := F.mul2_ge (b := x) (k := -2) (by rw [hx.val]; norm_num at hX ⊢; exact hX)
    rwa [hx.val] at this
  have hdX : |X - k * h| ≤ 0.3469 := by
    have e : X - k * h = (X - k * Real.log 2) + k * l - k * (h + l - Real.log 2) := by ring
    rw [e]
    refine ((abs_sub _ _).trans (add_le_add (abs_add_le _ _) (le_refl _))).trans ?_
    rw [abs_mul (k : ℝ) (h + l - _)]
    norm_num at *
    linarith
  have hh1 : (1 : ℝ) / 2 = 2 ^ (-2 - (F.s : ℤ) + F.s + 1) := by rw [show -2 - (F.s : ℤ) + F.s + 1 = -1 by ring]; norm_num
  have hdX' : |X - k * h| ≤ 1 / 2 := by norm_num at *; linarith
  have p2 : GFv F (N.sub x (N.mul kd a)) (X - k * h) :=
    GFv.of_rounds hF (hx.subR N p1) (hgx.sub (hgk.mono hj)) (by rw [← hh1]; exact hdX') (by omega) (by linarith)
  obtain ⟨L, p3, e3⟩ := GFv.rnd hF (hk.mulR N hl) (by linarith)
  have hT : (1 : ℝ) / 2 ^ 150 ≤ 1 / 2 ^ (F.s + 1) / 8000 := by
    have : (1 : ℝ) / 2 ^ 53 ≤ 1 / 2 ^ (F.s + 1) := one_div_le_one_div_of_le (by positivity) (pow_le_pow_right₀ (by norm_num) (by omega))
    have h5 : (1 : ℝ) / 2 ^ 150 ≤ 1 / 2 ^ 53 / 8000 := by norm_num
    linarith
  have e3' : |L - k * l| ≤ 1 / 2 ^ (F.s + 1) / 4000 + 1 / 2 ^ 150 := by nlinarith
  have hT2 : (1 : ℝ) / 2 ^ 150 ≤ 1 / 1000000 := by norm_num
  have hL : |L| ≤ 1 / 4096 := by
    have := abs_add_le (L - k * l) (k * l); rw [sub_add_cancel] at this
    linarith
  have hHL : |X - k * Real.log 2 - (X - k * h - L)| ≤ 1 / 2 ^ (F.s + 1) / 1000 := by
    have e : X - k * Real.log 2 - (X - k * h - L) = k * (h + l - Real.log 2) + (L - k * l) := by ring
    rw [e]
    refine (abs_add_le _ _).trans ?_
    rw [abs_mul]
    linarith
  have hHLb : |X - k * h - L| ≤ 0.34666 := by
    have := abs_sub_abs_le_abs_sub (X - k * h - L) (X - k * Real.log 2)
    rw [abs_sub_comm (X - k * h - L)] at this
    norm_num at *
    linarith
  have hR := p2.subR N p3
  have he := hR.err F (k := -1) (by norm_num at hHLb ⊢; linarith) (by omega) (by omega)
  have hz : (2 : ℝ) ^ (-1 - (F.s : ℤ) - 2) = 1 / 2 ^ (F.s + 1) / 4 := by
    rw [show -1 - (F.s : ℤ) - 2 = -2 - ((F.s + 1 : ℕ) : ℤ) by push_cast; ring, zpow_sub₀ (by norm_num), zpow_natCast]; norm_num; ring
  rw [hz] at he
  have hf := hR.fin100 hF (by norm_num at hHLb h2p ⊢; linarith)
  refine ⟨X - k * h, L, _, p2, p3, ⟨hf, rfl⟩, ?_, ?_, hL, by rw [abs_sub_comm]; exact he, hHL⟩
  · have := abs_add_le (F.valK ℝ (N.sub (N.sub x (N.mul kd a)) (N.mul kd b)) - (X - k * h - L)) (X - k * h - L)
    rw [sub_add_cancel] at this
    norm_num at *
    linarith
  · norm_num at *
    linarith
end Exp
end Verif
