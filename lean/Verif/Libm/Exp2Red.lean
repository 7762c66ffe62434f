import Verif.Libm.LogRed
import Verif.Libm.FaithfulTo
/-! # The argument reduction of `exp2`, `exp2f`, in any format -/
namespace Verif
open Fmt
namespace Exp2
variable {F : Fmt}

/-- a pattern with the exponent of `2^e` -/
theorem magVal_at {e f : ℕ} (he : 1 ≤ e) (hf : f < 2 ^ F.s) : F.magVal ℝ (e * 2 ^ F.s + f) = (2 ^ F.s + f) * 2 ^ ((e : ℤ) - F.bias - F.s) := by
  have hp : 0 < 2 ^ F.s := Nat.two_pow_pos _
  have e1 : (e * 2 ^ F.s + f) / 2 ^ F.s = e := by
    rw [Nat.mul_comm, Nat.mul_add_div hp, Nat.div_eq_of_lt hf, Nat.add_zero]
  have e2 : (e * 2 ^ F.s + f) % 2 ^ F.s = f := by
    rw [Nat.mul_comm, Nat.mul_add_mod, Nat.mod_eq_of_lt hf]
  unfold magVal
  rw [e1, e2, if_neg (by omega)]
  push_cast
  rfl

/-- what the reduction gives: the bits of `x + redux`, the nearest multiple of `2^-m`, the rest -/
theorem red (hF : F.Big) (N : FPU F) {m p : ℕ} (hp : 11 ≤ p) (hs : F.s = m + p + 1) (hpb : p + 2 ≤ F.bias) {x R : BitVec F.w} {X : ℝ} (hx : GFv F x X) (hX : |X| ≤ 1100)
    (hR : R.toNat = (F.bias + p + 1) * 2 ^ F.s + 2 ^ (F.s - 1)) (hRv : GFv F R (3 * 2 ^ p)) :
    ∃ n : ℤ, ((N.add x R).toNat : ℤ) = R.toNat + n ∧ |(n : ℝ)| ≤ 2 ^ m * |X| + 1 / 2 ∧
      GFv F (N.sub (N.add x R) R) (n / 2 ^ m) ∧ GFv F (N.sub x (N.sub (N.add x R) R)) (X - n / 2 ^ m) ∧ |X - n / 2 ^ m| ≤ 1 / 2 ^ (m + 1) := by
  have h127 := hF.bias
  have h23 := hF.s
  have hX' := hX
  rw [abs_le] at hX'
  have hP : (2048 : ℝ) ≤ 2 ^ p := by
    calc (2048 : ℝ) = 2 ^ 11 := by norm_num
      _ ≤ 2 ^ p := pow_le_pow_right₀ (by norm_num) hp
  have hP9 : (2 : ℝ) ^ p * 4 = 2 ^ ((p : ℤ) + 2) := by rw [zpow_add₀ (by norm_num), zpow_natCast]; norm_num
  have hP8 : (2 : ℝ) ^ p * 2 = 2 ^ ((p : ℤ) + 1) := by rw [zpow_add₀ (by norm_num), zpow_natCast]; norm_num
  have hbig := F.bias_ge
  have sum := hx.addR N hRv
  have s1 : |X + 3 * 2 ^ p| ≤ 2 ^ ((p : ℤ) + 2) := by
    rw [← hP9, abs_of_pos (by linarith)]; linarith
  have s2 := sum.err F s1 (by omega) (by omega)
  have e1 : (2 : ℝ) ^ ((p : ℤ) + 2 - F.s - 2) = 1 / 2 ^ (m + 1) := by
    rw [hs, one_div, ← zpow_natCast, ← zpow_neg]; congr 1; push_cast; ring
  rw [e1] at s2
  have hm1 : (1 : ℝ) / 2 ^ (m + 1) ≤ 1 / 2 := by
    rw [pow_succ, one_div, one_div, mul_inv]
    have : ((2 : ℝ) ^ m)⁻¹ ≤ 1 := inv_le_one_of_one_le₀ (one_le_pow₀ (by norm_num))
    linarith
  obtain ⟨u, hu⟩ : ∃ u, u = N.add x R := ⟨_, rfl⟩
  rw [← hu] at sum s2 ⊢
  have hs2 := s2
  rw [abs_le] at s2
  have u1 : 2 ^ ((p : ℤ) + 1) ≤ |F.valK ℝ u| := by
    rw [← hP8]; refine le_trans ?_ (le_abs_self _); linarith [s2.1]
  have uf : F.IsFin u := by
    unfold Fmt.IsFin
    rw [← F.magValR_lt_iff, F.magValR_infRep, ← F.absvR, abs_of_pos (by linarith [s2.1])]
    refine lt_of_lt_of_le (b := 2 ^ ((p : ℤ) + 2)) ?_ (zpow_le_zpow_right₀ (by norm_num) (by omega))
    rw [← hP9]; linarith [s2.2]
  obtain ⟨n', hn'⟩ := F.mul2_ge u1
  have e2 : (2 : ℝ) ^ ((p : ℤ) + 1 - F.s) = 1 / 2 ^ m := by
    rw [hs, one_div, ← zpow_natCast, ← zpow_neg]; congr 1; push_cast; ring
  rw [e2] at hn'
  have hM : (0 : ℝ) < 2 ^ m := by positivity
  have hM1 : (1 : ℝ) / 2 ^ m * 2 ^ m = 1 := by field_simp
  have hsP : (2 : ℝ) ^ F.s = 2 ^ p * 2 * 2 ^ m := by rw [hs, pow_succ, pow_add]; ring
  have b1 : (2 : ℝ) ^ F.s ≤ n' := by
    have : F.valK ℝ u * 2 ^ m = n' := by rw [hn', mul_assoc, hM1, mul_one]
    rw [← this, hsP]
    exact mul_le_mul_of_nonneg_right (by linarith [s2.1]) hM.le
  have b2 : (n' : ℝ) < 2 * 2 ^ F.s := by
    have : F.valK ℝ u * 2 ^ m = n' := by rw [hn', mul_assoc, hM1, mul_one]
    rw [← this, hsP, ← mul_assoc]
    exact mul_lt_mul_of_pos_right (by linarith [s2.2]) hM
  have b1' : 2 ^ F.s ≤ n' := by exact_mod_cast b1
  have b2' : n' < 2 * 2 ^ F.s := by exact_mod_cast b2
  obtain ⟨f, hf⟩ : ∃ f : ℕ, (f : ℤ) = n' - 2 ^ F.s := ⟨(n' - 2 ^ F.s).toNat, by omega⟩
  have hfz : ((2 ^ F.s : ℕ) : ℤ) = 2 ^ F.s := by push_cast; rfl
  have hf2 : f < 2 ^ F.s := by omega
  have hval : F.valK ℝ u = F.magVal ℝ ((F.bias + p + 1) * 2 ^ F.s + f) := by
    rw [magVal_at (by omega) hf2, hn']
    have : ((f : ℤ) : ℝ) = n' - 2 ^ F.s := by rw [hf]; push_cast; rfl
    rw [show ((f : ℕ) : ℝ) = ((f : ℤ) : ℝ) by push_cast; rfl, this, ← e2]
    rw [show ((F.bias + p + 1 : ℕ) : ℤ) - F.bias - F.s = (p : ℤ) + 1 - F.s by push_cast; ring]
    ring
  have hub := Log.pos_bits (GFv.self uf) (by linarith [s2.1])
  have hbits : u.toNat = (F.bias + p + 1) * 2 ^ F.s + f := by
    have h := hub.2.1
    rw [hval] at h
    exact le_antisymm (F.magValR_le_iff.mp h.symm.le) (F.magValR_le_iff.mp h.le)
  have h2s : 2 ^ F.s = 2 * 2 ^ (F.s - 1) := by
    rw [← pow_succ']; congr 1; omega
  have gu := GFv.self uf
  have key : F.valK ℝ u - 3 * 2 ^ p = ((n' - 3 * 2 ^ (F.s - 1) : ℤ) : ℝ) / 2 ^ m := by
    rw [hn', hs, show m + p + 1 - 1 = p + m by omega]
    push_cast
    rw [pow_add]
    field_simp
  obtain ⟨n, hn⟩ : ∃ n : ℤ, n = n' - 3 * 2 ^ (F.s - 1) := ⟨_, rfl⟩
  rw [← hn] at key
  have hmj : (2 : ℝ) ^ (-(m : ℤ)) = 1 / 2 ^ m := by rw [zpow_neg, zpow_natCast, one_div]
  have gm : Mul2 (-(m : ℤ)) ((n : ℝ) / 2 ^ m) := ⟨n, by rw [hmj]; ring⟩
  have hd : |X - n / 2 ^ m| ≤ 1 / 2 ^ (m + 1) := by
    rw [← key, abs_sub_comm, show F.valK ℝ u - 3 * 2 ^ p - X = F.valK ℝ u - (X + 3 * 2 ^ p) by ring]; exact hs2
  have hnX : |(n : ℝ) / 2 ^ m| ≤ |X| + 1 / 2 ^ (m + 1) := by
    have := abs_sub_abs_le_abs_sub ((n : ℝ) / 2 ^ m) X
    rw [abs_sub_comm] at this
    linarith
  have gz : GFv F (N.sub u R) (n / 2 ^ m) := by
    have := gu.subR N hRv
    rw [key] at this
    refine GFv.of_rounds hF this gm (hnX.trans ?_) (by omega) ?_
    · rw [hs, show -(m : ℤ) + ((m + p + 1 : ℕ) : ℤ) + 1 = (p : ℤ) + 2 by push_cast; ring, ← hP9]; linarith
    · refine hnX.trans ?_
      have : (2 : ℝ) ^ 20 ≤ 2 ^ (100 : ℤ) := by norm_num
      norm_num at this hm1 ⊢
      linarith
  refine ⟨n, ?_, ?_, gz, ?_, hd⟩
  · rw [hbits, hR, hn]
    push_cast
    rw [hf]
    have : (2 : ℤ) ^ F.s = 2 * 2 ^ (F.s - 1) := by exact_mod_cast h2s
    rw [this]; ring
  · have : |(n : ℝ)| = |(n : ℝ) / 2 ^ m| * 2 ^ m := by
      rw [abs_div, abs_of_pos hM]; field_simp
    rw [this]
    calc |(n : ℝ) / 2 ^ m| * 2 ^ m ≤ (|X| + 1 / 2 ^ (m + 1)) * 2 ^ m := mul_le_mul_of_nonneg_right hnX hM.le
      _ = _ := by rw [pow_succ]; field_simp
  · have hr := hx.subR N gz
    rcases le_or_gt (1 / 2 ^ (m + 1)) |X| with hc | hc
    · have e3 : (2 : ℝ) ^ (-(m : ℤ) - 1) = 1 / 2 ^ (m + 1) := by
        rw [one_div, ← zpow_natCast, ← zpow_neg]; congr 1; push_cast; ring
      have g1 := F.mul2_ge (b := x) (k := -(m : ℤ) - 1) (by rw [e3, hx.val]; exact hc)
      rw [hx.val] at g1
      refine GFv.of_rounds hF hr (g1.sub (gm.mono (by omega))) (hd.trans ?_) (by omega) ?_
      · rw [← e3]; exact zpow_le_zpow_right₀ (by norm_num) (by omega)
      · refine (hd.trans hm1).trans ?_
        have : (1 : ℝ) ≤ 2 ^ (100 : ℤ) := one_le_zpow₀ (by norm_num) (by norm_num)
        linarith
    · have hn0 : n = 0 := by
        have h3 : |(n : ℝ) / 2 ^ m| < 1 / 2 ^ m := by
          refine lt_of_le_of_lt hnX ?_
          have : (1 : ℝ) / 2 ^ m = 1 / 2 ^ (m + 1) + 1 / 2 ^ (m + 1) := by rw [pow_succ]; field_simp; norm_num
          linarith
        rw [abs_div, abs_of_pos hM, div_lt_div_iff_of_pos_right hM] at h3
        have : |n| < 1 := by exact_mod_cast h3
        exact Int.abs_lt_one_iff.mp this
      rw [hn0] at hr ⊢
      have h0 : X - ((0 : ℤ) : ℝ) / 2 ^ m = X := by simp
      rw [h0] at hr ⊢
      have h9 : |X| ≤ 2 ^ (100 : ℤ) := by
        have : (1 : ℝ) ≤ 2 ^ (100 : ℤ) := one_le_zpow₀ (by norm_num) (by norm_num)
        linarith
      refine ⟨hr.fin100 hF h9, ?_⟩
      have hrp := F.rp_val x
      rw [hx.val] at hrp
      exact hr.exactR F hrp (h9.trans (zpow_le_zpow_right₀ (by norm_num) (by omega)))
end Exp2
end Verif
