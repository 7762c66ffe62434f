import Verif.Libm.PowNearD
import Verif.Libm.PowFinishD
/-! The general path of `pow`. -/
namespace Verif
open Fmt
namespace Power
namespace Dbl
open Pio2
local notation "W" => BitVec f64.w

theorem good_huge (N : FPU f64) {P : ℝ} (h : 1024 ≤ P) : Good (huge N KD KD.one) P :=
  ⟨fun h' => absurd h' (by norm_num; linarith), fun _ => huge_inf N⟩
theorem good_tiny (N : FPU f64) {P : ℝ} (hP : P ≤ -1074) : Good (tiny N KD KD.one) P := by
  obtain ⟨k1, k2, k3⟩ := tiny_zero N
  refine ⟨fun _ => ⟨k1, k2, ?_⟩, fun h => ?_⟩
  · have k4 := (GFv.self k1).nonneg k2
    have k5 : Real.exp (P * Real.log 2) ≤ 2 ^ (-1074 : ℤ) := by
      rw [← exp_two]
      apply Real.exp_le_exp.mpr
      refine mul_le_mul_of_nonneg_right ?_ (Real.log_nonneg (by norm_num))
      push_cast; linarith
    have k6 := Real.exp_pos (P * Real.log 2)
    refine le_trans ?_ (le_add_of_nonneg_left (by positivity))
    rw [abs_le]; constructor <;> linarith
  · norm_num at h; linarith
theorem huge_eq (N : FPU f64) : N.mul KD.HUGE KD.HUGE = huge N KD KD.one := by
  unfold huge; rw [one_mul_fp N (not_nan (by unfold IsFin; decide +kernel))]
theorem tiny_eq (N : FPU f64) : N.mul KD.TINY KD.TINY = tiny N KD KD.one := by
  unfold tiny; rw [one_mul_fp N (not_nan (by unfold IsFin; decide +kernel))]

/-- the logarithm from the fields -/
theorem log_bits {x : W} {X : ℝ} (g : GFv f64 x X) (hs : f64.sign x = false) (h1 : 1 ≤ f64.mag x / 2 ^ 52) :
    x.toNat = f64.mag x / 2 ^ 52 * 2 ^ 52 + f64.mag x % 2 ^ 52 ∧ f64.mag x / 2 ^ 52 ≤ 2046 ∧
      Real.logb 2 X = (((f64.mag x / 2 ^ 52 : ℕ) : ℤ) - 1023 : ℤ) + Real.logb 2 (1 + ((f64.mag x % 2 ^ 52 : ℕ) : ℝ) / 2 ^ 52) := by
  have e := f64.toNat_eq x
  rw [hs] at e
  have hf : f64.mag x < 0x7ff0000000000000 := by have := g.fin; unfold Fmt.IsFin at this; rwa [show f64.infRep = 0x7ff0000000000000 by decide +kernel] at this
  refine ⟨by simp at e; omega, by omega, ?_⟩
  have ev := g.eq_sign
  rw [hs] at ev
  simp only [Bool.false_eq_true, if_false, one_mul] at ev
  obtain ⟨E, hE⟩ : ∃ E, E = f64.mag x / 2 ^ 52 := ⟨_, rfl⟩
  obtain ⟨k, hk⟩ : ∃ k, k = f64.mag x % 2 ^ 52 := ⟨_, rfl⟩
  have hm : f64.mag x = E * 2 ^ f64.s + k := by rw [show f64.s = 52 from rfl]; omega
  rw [hm, Exp2.magVal_at (by omega) (by rw [show f64.s = 52 from rfl]; omega), show f64.s = 52 from rfl, show f64.bias = 1023 from rfl] at ev
  rw [← hE, ← hk]
  have hp : (0 : ℝ) < 1 + (k : ℝ) / 2 ^ 52 := by positivity
  have : X = 2 ^ ((E : ℤ) - 1023) * (1 + (k : ℝ) / 2 ^ 52) := by
    rw [ev, show ((E : ℤ) - (1023 : ℕ) - (52 : ℕ)) = ((E : ℤ) - 1023) + -52 by push_cast; ring, zpow_add₀ (by norm_num)]
    norm_num; ring
  rw [this, Real.logb_mul (by positivity) hp.ne', ← Real.rpow_intCast, Real.logb_rpow (by norm_num) (by norm_num)]

theorem twop : GFv f64 KD.TWOP (2 ^ 53) := by
  have := GFv.const (F := f64) (b := KD.TWOP) (q := 2 ^ 53) (by decide +kernel) (by decide +kernel)
  push_cast at this; exact this

theorem abs_lg {X : ℝ} (hX : 0 < X) {x : W} (g : GFv f64 x X) : |Real.logb 2 X| ≤ 1200 := by
  have hav := g.abs_eq
  rw [abs_of_pos hX] at hav
  have hm0 : f64.mag x ≠ 0 := by
    intro h
    have z : f64.magVal ℝ 0 = 0 := by unfold magVal; simp
    rw [h, z] at hav
    linarith
  have h1 : (2 : ℝ) ^ (-1074 : ℤ) ≤ X := by
    have h := f64.magValR_le_iff.mpr (show 1 ≤ f64.mag x by omega)
    rw [← hav] at h
    refine le_trans (le_of_eq ?_) h
    unfold magVal
    rw [if_pos (by decide), show (1 : ℤ) - f64.bias - f64.s = -1074 from rfl, show 1 % 2 ^ f64.s = 1 from rfl]; norm_num
  have h2 : X ≤ (2 : ℝ) ^ (1024 : ℤ) := by
    have hf := g.fin
    unfold IsFin at hf
    have h := f64.magValR_le_iff.mpr (show f64.mag x ≤ 2047 * 2 ^ f64.s + 0 by rw [show f64.infRep = 2047 * 2 ^ f64.s by decide +kernel] at hf; omega)
    rw [← hav, Exp2.magVal_at (by norm_num) (by positivity), show f64.s = 52 from rfl, show f64.bias = 1023 from rfl] at h
    refine h.trans (le_of_eq ?_)
    rw [Nat.cast_zero, add_zero, ← zpow_natCast, ← zpow_add₀ (by norm_num)]; norm_num
  have a1 := Real.logb_le_logb_of_le (b := 2) (by norm_num) (by positivity) h1
  have a2 := Real.logb_le_logb_of_le (b := 2) (by norm_num) hX h2
  rw [← Real.rpow_intCast, Real.logb_rpow (by norm_num) (by norm_num)] at a1 a2
  push_cast at a1 a2
  rw [abs_le]; constructor <;> linarith

theorem coreD_spec (N : FPU f64) {x y : W} {X Y : ℝ} (gx : GFv f64 x X) (hX : 0 < X) (hX1 : X ≠ 1) (gy : GFv f64 y Y) (_hY : Y ≠ 0) :
    ∃ r, coreD N KD.one x y (f64.mag x / 2 ^ 32) (y.toNat >>> 32) (f64.mag y / 2 ^ 32) = .ok r ∧ Good r (Y * Real.logb 2 X) := by
  have hs := gx.sign_of_pos hX
  have wx1 := word_ge gx (e := 1022) (f := 0xfffff) (by norm_num) (by norm_num)
  have wx2 := word_ge gx (e := 1023) (f := 0) (by norm_num) (by norm_num)
  have wx3 := word_ge gx (e := 1023) (f := 1) (by norm_num) (by norm_num)
  have wy1 := word_ge gy (e := 1054) (f := 1) (by norm_num) (by norm_num)
  have wy2 := word_ge gy (e := 1087) (f := 1) (by norm_num) (by norm_num)
  obtain ⟨my, hmy'⟩ : ∃ m, f64.mag y / 2 ^ 32 = m := ⟨_, rfl⟩
  obtain ⟨mx, hmx'⟩ : ∃ m, f64.mag x / 2 ^ 32 = m := ⟨_, rfl⟩
  rw [hmy'] at wy1 wy2
  rw [hmx'] at wx1 wx2 wx3
  rw [abs_of_pos hX] at wx1 wx2 wx3
  norm_num at wx1 wx2 wx3 wy1 wy2
  have hm0 : f64.mag x ≠ 0 := by
    intro h
    have := gx.abs_eq
    have z : f64.magVal ℝ 0 = 0 := by unfold magVal; simp
    rw [h, abs_of_pos hX, z] at this
    linarith
  have hmy : f64.mag y / 2 ^ 32 < 2 ^ 31 := by have : f64.mag y < 2 ^ 63 := f64.mag_lt y; omega
  have hav := gx.abs_eq
  rw [abs_of_pos hX] at hav
  have below : X < 1 → X ≤ 1 - 1 / 2 ^ 53 := by
    intro h
    have h1 : f64.mag x < 1023 * 2 ^ f64.s + 0 := by
      rw [← f64.magValR_lt_iff, Exp2.magVal_at (by norm_num) (by positivity), ← hav, show f64.s = 52 from rfl, show f64.bias = 1023 from rfl]
      norm_num; exact h
    rw [show f64.s = 52 from rfl] at h1
    have h2 := f64.magValR_le_iff.mpr (show f64.mag x ≤ 1022 * 2 ^ f64.s + (2 ^ 52 - 1) by rw [show f64.s = 52 from rfl]; omega)
    rw [Exp2.magVal_at (by norm_num) (by rw [show f64.s = 52 from rfl]; norm_num), ← hav, show f64.s = 52 from rfl, show f64.bias = 1023 from rfl] at h2
    norm_num at h2 ⊢; linarith
  have above : 1 < X → 1 + 1 / 2 ^ 52 ≤ X := by
    intro h
    have h1 : 1023 * 2 ^ f64.s + 0 < f64.mag x := by
      rw [← f64.magValR_lt_iff, Exp2.magVal_at (by norm_num) (by positivity), ← hav, show f64.s = 52 from rfl, show f64.bias = 1023 from rfl]
      norm_num; exact h
    rw [show f64.s = 52 from rfl] at h1
    have h2 := f64.magValR_le_iff.mpr (show 1023 * 2 ^ f64.s + 1 ≤ f64.mag x by rw [show f64.s = 52 from rfl]; omega)
    rw [Exp2.magVal_at (by norm_num) (by rw [show f64.s = 52 from rfl]; norm_num), ← hav, show f64.s = 52 from rfl, show f64.bias = 1023 from rfl] at h2
    norm_num at h2 ⊢; linarith
  have hL0 : Real.logb 2 X ≠ 0 := by
    intro h
    rcases Real.logb_eq_zero.mp h with h | h | h | h | h | h <;> norm_num at h <;> first | exact hX1 h | linarith
  -- the immediate branches
  have big1 : ∀ {c d : ℝ}, 0 ≤ d → c ≤ |Y| → 1074 ≤ c * d → 0 ≤ c → Real.logb 2 X ≤ -d →
      (f64.sign y = true → Good (huge N KD KD.one) (Y * Real.logb 2 X)) ∧ (f64.sign y = false → Good (tiny N KD KD.one) (Y * Real.logb 2 X)) := by
    intro c d hd h1 h2 h3 h4
    refine ⟨fun h => good_huge N ?_, fun h => good_tiny N ?_⟩
    · rw [abs_of_nonpos (gy.nonpos h)] at h1
      nlinarith [mul_le_mul h1 (show d ≤ -Real.logb 2 X by linarith) hd (by linarith)]
    · rw [abs_of_nonneg (gy.nonneg h)] at h1
      nlinarith [mul_le_mul h1 (show d ≤ -Real.logb 2 X by linarith) hd (by linarith)]
  have big2 : ∀ {c d : ℝ}, 0 ≤ d → c ≤ |Y| → 1074 ≤ c * d → 0 ≤ c → d ≤ Real.logb 2 X →
      (f64.sign y = false → Good (huge N KD KD.one) (Y * Real.logb 2 X)) ∧ (f64.sign y = true → Good (tiny N KD KD.one) (Y * Real.logb 2 X)) := by
    intro c d hd h1 h2 h3 h4
    refine ⟨fun h => good_huge N ?_, fun h => good_tiny N ?_⟩
    · rw [abs_of_nonneg (gy.nonneg h)] at h1
      nlinarith [mul_le_mul h1 h4 hd (by linarith)]
    · rw [abs_of_nonpos (gy.nonpos h)] at h1
      nlinarith [mul_le_mul h1 h4 hd (by linarith)]
  unfold coreD
  rw [hi64 y]
  rw [hmy'] at hmy ⊢
  rw [hmx']
  have br : ∀ {p q : W} {P : ℝ}, (f64.sign y = true → Good p P) → (f64.sign y = false → Good q P) →
      ∃ r, (.ok (if (if f64.sign y = true then 2 ^ 31 else 0) + my ≥ 2 ^ 31 then p else q) : M W) = .ok r ∧ Good r P := by
    intro p q P h1 h2
    refine ⟨_, rfl, ?_⟩
    cases hsy : f64.sign y
    · rw [if_neg (by simp; omega)]; exact h2 hsy
    · rw [if_pos (by simp)]; exact h1 hsy
  have br2 : ∀ {p q : W} {P : ℝ}, 0 < my → (f64.sign y = false → Good p P) → (f64.sign y = true → Good q P) →
      ∃ r, (.ok (if 0 < (if f64.sign y = true then 2 ^ 31 else 0) + my ∧ (if f64.sign y = true then 2 ^ 31 else 0) + my < 2 ^ 31 then p else q) : M W) = .ok r ∧ Good r P := by
    intro p q P h0 h1 h2
    refine ⟨_, rfl, ?_⟩
    cases hsy : f64.sign y
    · rw [if_pos (by simp; omega)]; exact h1 hsy
    · rw [if_neg (by simp)]; exact h2 hsy
  by_cases c1 : my > 0x41e00000
  · rw [if_pos c1]
    have y1 := wy1.mp (by omega)
    by_cases c2 : my > 0x43f00000
    · have y2 := wy2.mp (by omega)
      by_cases c3 : mx ≤ 0x3fefffff
      · rw [if_pos ⟨c2, c3⟩, huge_eq, tiny_eq]
        have hx1 : X < 1 := by by_contra h; have := wx2.mpr (not_lt.mp h); omega
        have hl := lg_below hX (by norm_num) (below hx1)
        obtain ⟨b1, b2⟩ := big1 (by norm_num) y2 (by norm_num) (by norm_num) hl
        exact br b1 b2
      · rw [if_neg (by omega), if_pos ⟨c2, by omega⟩, huge_eq, tiny_eq]
        have hx1 : 1 < X := lt_of_le_of_ne (wx2.mp (by omega)) (Ne.symm hX1)
        have hl := lg_above (by norm_num) (by norm_num) (above hx1)
        obtain ⟨b1, b2⟩ := big2 (by norm_num) y2 (by norm_num) (by norm_num) hl
        exact br2 (by omega) b1 b2
    · rw [if_neg (by omega), if_neg (by omega)]
      by_cases c3 : mx < 0x3fefffff
      · rw [if_pos c3]
        have hx1 : X ≤ 1 - 1 / 2 ^ 21 := by by_contra h; have := wx1.mpr (by rw [not_le] at h; norm_num at h ⊢; linarith); omega
        have hl := lg_below hX (by norm_num) hx1
        obtain ⟨b1, b2⟩ := big1 (by norm_num) y1 (by norm_num) (by norm_num) hl
        exact br b1 b2
      · rw [if_neg c3]
        by_cases c4 : mx > 0x3ff00000
        · rw [if_pos c4]
          have hl := lg_above (δ := 1 / 2 ^ 20) (by norm_num) (by norm_num) (le_trans (by norm_num) (wx3.mp (by omega)))
          obtain ⟨b1, b2⟩ := big2 (by norm_num) y1 (by norm_num) (by norm_num) hl
          exact br2 (by omega) b1 b2
        · rw [if_neg c4]
          dsimp only
          have hx1 := wx1.mp (by omega)
          have hx2 : X < 1 + 1 / 2 ^ 20 := by by_contra h; have := wx3.mpr (by rw [not_lt] at h; norm_num at h ⊢; linarith); omega
          have hy2 : |Y| ≤ 2 ^ 66 := by
            by_contra h
            have := wy2.mpr (by rw [not_le] at h; norm_num at h ⊢; linarith)
            omega
          have ha : 1 / 2 ^ 53 ≤ |X - 1| := by
            rcases lt_or_gt_of_ne hX1 with h | h
            · have := below h; rw [abs_of_neg (by linarith)]; linarith
            · have := above h; rw [abs_of_pos (by linarith)]; norm_num at this ⊢; linarith
          obtain ⟨T1, T2, g1, g2, e1, e2⟩ := logNear_spec N gx ha (by rw [abs_le]; norm_num at hx1 hx2 ⊢; constructor <;> linarith) rfl
          exact finishD_spec N gy hy2 g1 g2 e1 e2 (abs_lg hX gx) rfl
  · rw [if_neg c1]
    have hy2 : |Y| ≤ 2 ^ 66 := by
      by_contra h
      have := wy2.mpr (by rw [not_le] at h; norm_num at h ⊢; linarith)
      omega
    have hmx0 : f64.mag x / 2 ^ 52 = mx / 2 ^ 20 := by omega
    by_cases c2 : mx < 0x00100000
    · rw [if_pos c2]
      dsimp only
      have hsub : f64.mag x < 2 ^ 52 := by omega
      have hv : X = (f64.mag x : ℤ) * 2 ^ (-1074 : ℤ) := by
        rw [hav]; unfold magVal
        rw [if_pos (by rw [show f64.s = 52 from rfl]; omega)]
        rw [show (1 : ℤ) - f64.bias - f64.s = -1074 from rfl, Nat.mod_eq_of_lt (show f64.mag x < 2 ^ f64.s from hsub)]; push_cast; rfl
      have hv2 : X * 2 ^ 53 = (f64.mag x : ℤ) * 2 ^ (-1021 : ℤ) := by
        rw [hv, mul_assoc, ← zpow_natCast, ← zpow_add₀ (by norm_num)]; norm_num
      have hp : (0 : ℝ) < 2 ^ (-1021 : ℤ) := by positivity
      have hv3 : X * 2 ^ 53 ≤ 2 ^ (-969 : ℤ) := by
        rw [hv2, show (-969 : ℤ) = 52 + -1021 by norm_num, zpow_add₀ (by norm_num)]
        refine mul_le_mul_of_nonneg_right ?_ hp.le
        have : (f64.mag x : ℝ) ≤ 2 ^ 52 := by exact_mod_cast hsub.le
        push_cast; norm_num at this ⊢; exact this
      have hv4 : 2 ^ (-1021 : ℤ) ≤ X * 2 ^ 53 := by
        rw [hv2]
        refine le_mul_of_one_le_left hp.le ?_
        have : 1 ≤ f64.mag x := by omega
        exact_mod_cast this
      have hR := gx.mulR N twop
      have g : GFv f64 (N.mul x KD.TWOP) (X * 2 ^ 53) := by
        have ha : |X * 2 ^ 53| ≤ 2 ^ (-969 : ℤ) := by rw [abs_of_pos (by positivity)]; exact hv3
        exact GFv.of_rounds big hR (j := -1021) ⟨f64.mag x, hv2⟩ (ha.trans (zpow_le_zpow_right₀ (by norm_num) (by decide))) (by decide) (ha.trans (zpow_le_zpow_right₀ (by norm_num) (by norm_num)))
      have hs' := g.sign_of_pos (by positivity)
      have hE : 1 ≤ f64.mag (N.mul x KD.TWOP) / 2 ^ 52 := by
        have h := f64.magValR_le_iff (m := 2 * 2 ^ f64.s + 0) (n := f64.mag (N.mul x KD.TWOP))
        have ga := g.abs_eq
        rw [abs_of_pos (by positivity)] at ga
        rw [Exp2.magVal_at (by norm_num) (by positivity), ← ga, show f64.s = 52 from rfl, show f64.bias = 1023 from rfl] at h
        have := h.mp (le_trans (le_of_eq ?_) hv4)
        · omega
        · rw [Nat.cast_zero, add_zero, ← zpow_natCast, ← zpow_add₀ (by norm_num)]; norm_num
      obtain ⟨q1, q2, q3⟩ := log_bits g hs' hE
      have hL : Real.logb 2 X = ((-53 + ((f64.mag (N.mul x KD.TWOP) / 2 ^ 52 : ℕ) : ℤ) - 1023 : ℤ) : ℝ) + Real.logb 2 (1 + ((f64.mag (N.mul x KD.TWOP) % 2 ^ 52 : ℕ) : ℝ) / 2 ^ 52) := by
        rw [Real.logb_mul hX.ne' (by norm_num), Real.logb_pow, Real.logb_self_eq_one (by norm_num)] at q3
        push_cast at q3 ⊢
        linarith
      obtain ⟨t, T1, T2, r1, g1, g2, e1, e2⟩ := logD_spec N (ax := N.mul x KD.TWOP) (n0 := -53) hE q2 (Nat.mod_lt _ (by norm_num)) q1 (by norm_num) hL hL0
      rw [r1, ok_bind]
      exact finishD_spec N gy hy2 g1 g2 e1 e2 (abs_lg hX gx) rfl
    · rw [if_neg c2]
      obtain ⟨q1, q2, q3⟩ := log_bits gx hs (by omega)
      have hw : mx = x.toNat >>> 32 := by rw [hi64, hs]; simp [← hmx']
      obtain ⟨t, T1, T2, r1, g1, g2, e1, e2⟩ := logD_spec N (ax := x) (n0 := 0) (by omega) q2 (Nat.mod_lt _ (by norm_num)) q1 (by norm_num) (by rw [q3]; push_cast; ring) hL0
      rw [hw, r1, ok_bind]
      exact finishD_spec N gy hy2 g1 g2 e1 e2 (abs_lg hX gx) rfl
end Dbl
end Power
end Verif
