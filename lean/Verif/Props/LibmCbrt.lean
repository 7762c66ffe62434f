import Verif.Libm.CbrtTop
import Verif.Props.LibmFma
/-! # Property C100: `cbrt` (f64) -/
namespace Verif.Props
open Fmt

/-- `fma` of this crate fulfils the hypothesis of the theorems below (C44). -/
theorem cbrt_fma_ok (N : FPU f64) (C : IntCast f64) : CbrtD.FmaOk (f64.fmaRound N C (DOps.prim f64.w)) :=
  fun x y z h => C44_fma_f64_partial N C x y z h

/-- C100: for every finite nonzero `x`, `cbrt(x)` is finite, has the sign of `x`, and is a nearest `f64` number to the real cube root of `x`, unless that root
is within `2^-100` (relatively) of the middle of the result and another number `c`. It is within `2^-53 + 2^-98` of the root relatively. Computing it does not
panic. -/
theorem C100_cbrt (N : FPU f64) (C : IntCast f64) {x : BitVec f64.w} (hx : f64.IsFin x) (h0 : f64.val x ≠ 0) :
    ∃ r, CbrtD.cbrt N (f64.fmaRound N C (DOps.prim f64.w)) x = .ok r ∧ f64.IsFin r ∧ f64.sign r = f64.sign x ∧
      ∀ y : ℝ, y ^ 3 = ((f64.val x : ℚ) : ℝ) →
        (∀ c, f64.IsFin c → |((f64.val c : ℚ) : ℝ) - y| < |((f64.val r : ℚ) : ℝ) - y| →
          |(((f64.val r : ℚ) : ℝ) + ((f64.val c : ℚ) : ℝ)) / 2 - y| ≤ 1 / 2 ^ 100 * |y|) ∧
        |((f64.val r : ℚ) : ℝ) - y| ≤ (1 / 2 ^ 53 + 1 / 2 ^ 98) * |y| := by
  have hm0 : f64.mag x ≠ 0 := by
    intro h
    apply h0
    have := f64.absv x
    rw [h, magVal_zero] at this
    exact abs_eq_zero.mp this
  obtain ⟨r, e1, e2, e3, e4⟩ := CbrtD.cbrt_spec N (cbrt_fma_ok N C) hx hm0
  refine ⟨r, e1, e2, e3, fun y hy => ?_⟩
  rw [f64.valK_cast] at hy
  obtain ⟨v, hv, -, hn⟩ := e4 y hy
  refine ⟨fun c hc h => ?_, ?_⟩
  · have h1 := hn c hc
    rw [f64.valK_cast, f64.valK_cast] at *
    refine le_trans ?_ hv
    generalize f64.valK ℝ r = R at *
    generalize f64.valK ℝ c = B at *
    -- the middle is between `y` and `v`
    rw [abs_sub_comm v R, abs_sub_comm v B] at h1
    have s1 := sq_lt_sq.mpr h
    have s2 := sq_le_sq.mpr h1
    have k1 : 0 < (R - B) * ((R + B) / 2 - y) := by nlinarith
    have k2 : (R - B) * ((R + B) / 2 - v) ≤ 0 := by nlinarith
    rcases lt_or_ge 0 (R - B) with hp | hp
    · have a1 : 0 < (R + B) / 2 - y := by
        by_contra hh
        have := mul_nonneg hp.le (neg_nonneg.mpr (not_lt.mp hh))
        linarith
      have a2 : (R + B) / 2 - v ≤ 0 := by
        by_contra hh
        have := mul_pos hp (not_le.mp hh)
        linarith
      rw [abs_of_pos a1]
      exact le_trans (by linarith) (le_abs_self _)
    · have a1 : (R + B) / 2 - y < 0 := by
        by_contra hh
        have := mul_nonneg (neg_nonneg.mpr hp) (not_lt.mp hh)
        linarith
      have a2 : 0 ≤ (R + B) / 2 - v := by
        by_contra hh
        have hp' : R - B < 0 := lt_of_le_of_ne hp (by intro h; rw [h] at k1; simp at k1)
        have := mul_pos_of_neg_of_neg hp' (not_le.mp hh)
        linarith
      rw [abs_of_neg a1]
      exact le_trans (by linarith) (neg_le_abs _)
  · rw [f64.valK_cast]
    have gx := GFv.self hx
    have hax := gx.abs_eq
    rw [← hy, abs_pow] at hax
    -- the range of the root
    have y1 : (2 : ℝ) ^ (-359 : ℤ) ≤ |y| := by
      have hh : f64.magVal ℝ 1 ≤ f64.magVal ℝ (f64.mag x) := f64.magValR_le_iff.mpr (by omega)
      have h1 : f64.magVal ℝ 1 = 2 ^ (-1074 : ℤ) := by
        rw [← f64.magVal_cast, show f64.magVal ℚ 1 = 2 ^ (-1074 : ℤ) from magVal_minSub f64]; push_cast; rfl
      rw [← CbrtD.cube_le (by positivity) (abs_nonneg _), hax]
      refine le_trans ?_ hh
      rw [h1, ← zpow_natCast, ← zpow_mul]
      exact zpow_le_zpow_right₀ (by norm_num) (by norm_num)
    have y2 : |y| ≤ 2 ^ (342 : ℤ) := by
      have hh : f64.magVal ℝ (f64.mag x) ≤ f64.magVal ℝ f64.infRep := f64.magValR_le_iff.mpr (le_of_lt hx)
      rw [f64.magValR_infRep] at hh
      rw [← CbrtD.cube_le (abs_nonneg _) (by positivity), hax]
      refine le_trans hh ?_
      rw [← zpow_natCast, ← zpow_mul]
      exact zpow_le_zpow_right₀ (by norm_num) (by decide)
    have yp : 0 < |y| := lt_of_lt_of_le (by positivity) y1
    -- a number near `y`
    obtain ⟨q, q1, q2⟩ := exists_rat_btwn (show y < y + 1 / 2 ^ 110 * |y| from lt_add_of_pos_right _ (by positivity))
    have hqy : |(q : ℝ) - y| ≤ 1 / 2 ^ 110 * |y| := by rw [abs_le]; constructor <;> linarith
    have hq1 := abs_sub_abs_le_abs_sub (q : ℝ) y
    have hq2 := abs_sub_abs_le_abs_sub y (q : ℝ)
    rw [abs_sub_comm y] at hq2
    obtain ⟨b, hb, -⟩ := f64.exists_rounds q (decide (q < 0)) (fun _ => by simp)
    have hb : f64.Rounds (q : ℝ) b := hb.cast f64
    have hlo : (2 : ℝ) ^ (1 - (f64.bias : ℤ)) ≤ |(q : ℝ)| := by
      have : (2 : ℝ) ^ (1 - (f64.bias : ℤ)) ≤ 2 ^ (-360 : ℤ) := zpow_le_zpow_right₀ (by norm_num) (by decide)
      have h2 : (2 : ℝ) ^ (-360 : ℤ) = 2 ^ (-359 : ℤ) / 2 := by rw [show (-360 : ℤ) = -359 - 1 by norm_num, zpow_sub₀ (by norm_num)]; norm_num
      norm_num at hqy
      linarith
    have hhi : |(q : ℝ)| ≤ 2 ^ (343 : ℤ) := by
      have h2 : (2 : ℝ) ^ (343 : ℤ) = 2 ^ (342 : ℤ) * 2 := by rw [show (343 : ℤ) = 342 + 1 by norm_num, zpow_add₀ (by norm_num)]; norm_num
      rw [h2]
      generalize (2 : ℝ) ^ (342 : ℤ) = P at *
      clear hlo y1 h2
      norm_num at hqy
      linarith
    have hr := hb.rel f64 hlo (hhi.trans (zpow_le_zpow_right₀ (by norm_num) (by decide)))
    have e3 : (2 : ℝ) ^ (-(f64.s : ℤ) - 1) = 1 / 2 ^ 53 := by
      rw [show -(f64.s : ℤ) - 1 = -(53 : ℤ) by decide, zpow_neg]; norm_num
    rw [e3] at hr
    have hbf : f64.IsFin b := by
      by_contra hf
      have h1 : f64.infRep ≤ f64.mag b := not_lt.mp hf
      have h2 := f64.magValR_le_iff.mpr h1
      rw [f64.magValR_infRep, ← f64.absvR] at h2
      have h3 : (2 : ℝ) ^ (345 : ℤ) ≤ 2 ^ ((f64.bias : ℤ) + 1) := zpow_le_zpow_right₀ (by norm_num) (by decide)
      have h4 : (2 : ℝ) ^ (345 : ℤ) = 2 ^ (343 : ℤ) * 4 := by rw [show (345 : ℤ) = 343 + 2 by norm_num, zpow_add₀ (by norm_num)]; norm_num
      have h5 := abs_sub_abs_le_abs_sub (f64.valK ℝ b) (q : ℝ)
      have h6 : (0 : ℝ) < 2 ^ (343 : ℤ) := by positivity
      rw [h4] at h3
      clear hlo y1 y2 h4
      generalize (2 : ℝ) ^ (343 : ℤ) = P at *
      generalize (2 : ℝ) ^ ((f64.bias : ℤ) + 1) = P' at *
      norm_num at hr
      linarith
    have h1 := hn b hbf
    have h2 := abs_sub_le (f64.valK ℝ r) v y
    have h3 := abs_sub_le v y (f64.valK ℝ b)
    have h4 := abs_sub_le y (q : ℝ) (f64.valK ℝ b)
    rw [abs_sub_comm (f64.valK ℝ r) v] at h2
    rw [abs_sub_comm y (q : ℝ), abs_sub_comm (q : ℝ) (f64.valK ℝ b)] at h4
    clear hlo hhi y1 y2 e3
    norm_num at hv hr hqy ⊢
    linarith

/-- C100: the cube root of a cube is exact: if `x` is the cube of the nonzero `f64` number `c`, `cbrt(x)` is `c`. -/
theorem C100_cbrt_exact (N : FPU f64) (C : IntCast f64) {x c : BitVec f64.w} (hx : f64.IsFin x) (hc : f64.IsFin c) (h0 : f64.val c ≠ 0)
    (h : f64.val c ^ 3 = f64.val x) : CbrtD.cbrt N (f64.fmaRound N C (DOps.prim f64.w)) x = .ok c := by
  have hx0 : f64.val x ≠ 0 := by rw [← h]; exact pow_ne_zero 3 h0
  obtain ⟨r, e, f, -, hr⟩ := C100_cbrt N C hx hx0
  rw [e]
  obtain ⟨h1, -⟩ := hr ((f64.val c : ℚ) : ℝ) (by rw [← h]; push_cast; rfl)
  have h1 := h1 c hc
  rw [sub_self, abs_zero] at h1
  have h0' : ((f64.val c : ℚ) : ℝ) ≠ 0 := by exact_mod_cast h0
  have hcp := abs_pos.mpr h0'
  have gc : GFv f64 c ((f64.val c : ℚ) : ℝ) := ⟨hc, (f64.valK_cast c).symm⟩
  have gr : GFv f64 r ((f64.val r : ℚ) : ℝ) := ⟨f, (f64.valK_cast r).symm⟩
  have h3 : ((f64.val r : ℚ) : ℝ) = ((f64.val c : ℚ) : ℝ) := by
    -- the gap between two different numbers
    have key : ∀ {a b : BitVec f64.w} {u v : ℝ}, GFv f64 a u → GFv f64 b v → 0 < v → u < v → v / 2 ^ 53 ≤ v - u := by
      intro a b u v ga gb hv huv
      have := f64.gap_rel (b := a) (c := b) (by rw [gb.val]; exact hv) (by rw [ga.val, gb.val]; exact huv)
      rwa [ga.val, gb.val] at this
    by_contra hne
    have h1 := h1 (abs_pos.mpr (sub_ne_zero.mpr hne))
    generalize ((f64.val r : ℚ) : ℝ) = R at *
    generalize ((f64.val c : ℚ) : ℝ) = V at *
    have h1' := abs_le.mp h1
    rcases lt_or_gt_of_ne h0' with hV | hV
    · rw [abs_of_neg hV] at h1'
      norm_num at h1'
      rcases lt_or_gt_of_ne hne with hlt | hlt
      · have := key gc.neg gr.neg (by linarith) (by linarith)
        norm_num at this
        linarith [h1'.1, h1'.2]
      · have := key gr.neg gc.neg (by linarith) (by linarith)
        norm_num at this
        linarith [h1'.1, h1'.2]
    · rw [abs_of_pos hV] at h1'
      norm_num at h1'
      rcases lt_or_gt_of_ne hne with hlt | hlt
      · have := key gr gc (by linarith) (by linarith)
        norm_num at this
        linarith [h1'.1, h1'.2]
      · have := key gc gr (by linarith) (by linarith)
        norm_num at this
        linarith [h1'.1, h1'.2]
  have heq : f64.val r = f64.val c := by exact_mod_cast h3
  congr 1
  refine f64.ext_sign_mag ?_ ?_
  · cases hs1 : f64.sign r <;> cases hs2 : f64.sign c
    · rfl
    · have h4 := gr.nonneg hs1
      have h5 := gc.nonpos hs2
      rw [h3] at h4
      exact absurd (le_antisymm h5 h4) h0'
    · have h4 := gr.nonpos hs1
      have h5 := gc.nonneg hs2
      rw [h3] at h4
      exact absurd (le_antisymm h4 h5) h0'
    · rfl
  · refine f64.magVal_inj.mp ?_
    rw [← f64.absv, ← f64.absv, heq]

/-- C100: `cbrt` of NaN is NaN, infinities and zeros are kept. -/
theorem C100_cbrt_special (N : FPU f64) (fma : BitVec f64.w → BitVec f64.w → BitVec f64.w → M (BitVec f64.w)) (x : BitVec f64.w) :
    (f64.IsNaN x → ∃ r, CbrtD.cbrt N fma x = .ok r ∧ f64.IsNaN r) ∧ (f64.IsInf x ∨ f64.mag x = 0 → CbrtD.cbrt N fma x = .ok x) := by
  have hd : f64.infRep ≤ f64.mag x ∨ f64.mag x = 0 → CbrtD.cbrt N fma x = .ok (N.add x x) := by
    intro h
    unfold CbrtD.cbrt
    dsimp only
    rw [CbrtD.decode_none h, CbrtD.okb]
    rfl
  refine ⟨fun h => ?_, ?_⟩
  · have h' : f64.infRep < f64.mag x := h
    exact ⟨_, hd (Or.inl h'.le), (N.add_spec x x).2.1 (Or.inl h)⟩
  · rintro (h | h)
    · have h' : f64.mag x = f64.infRep := h
      rw [hd (Or.inl h'.ge)]
      have := (N.add_spec x x).2.2.1 h (fun hn => by have : f64.infRep < f64.mag x := hn; omega)
      rw [if_neg (by simp)] at this
      rw [this]
    · rw [hd (Or.inr h)]
      have hf : f64.IsFin x := by unfold Fmt.IsFin; rw [h]; decide
      have hv : f64.val x = 0 := by
        have := f64.absv x
        rw [h, magVal_zero] at this
        exact abs_eq_zero.mp this
      obtain ⟨s1, s2⟩ := (N.add_spec x x).1 hf hf
      have s2 := s2 (by rw [hv, add_zero])
      congr 1
      refine f64.ext_sign_mag (by rw [s2, Bool.and_self]) ?_
      have g0 : GFv f64 x 0 := ⟨hf, by rw [← f64.valK_cast, hv]; simp⟩
      have s3 := (g0.addR N g0).exactR f64 (by rw [add_zero]; exact f64.rp_zero) (by rw [add_zero, abs_zero]; positivity)
      have s4 := f64.absvR (N.add x x)
      rw [s3, add_zero, abs_zero, ← magVal_cast, ← Rat.cast_zero, ← magVal_zero f64] at s4
      rw [h]
      exact (f64.magVal_inj.mp (by exact_mod_cast s4)).symm

/-- Concrete cases: 27, -8, 2, the two hard cases, the largest number, the least subnormal, the subnormal cube `2^-1023`, minus infinity. -/
example : (let g := CbrtD.cbrt FPU.softF64 (f64.fmaRound FPU.softF64 castI64 (DOps.prim f64.w))
    g 0x403b000000000000#f64.w = .ok 0x4008000000000000#f64.w ∧
    g 0xc020000000000000#f64.w = .ok 0xc000000000000000#f64.w ∧
    g 0x4000000000000000#f64.w = .ok 0x3ff428a2f98d728b#f64.w ∧
    g 0x4009b78223aa307c#f64.w = .ok 0x3ff79d15d0e8d59c#f64.w ∧
    g 0xc01a202bfc89ddff#f64.w = .ok 0xbffde87aa837820f#f64.w ∧
    g 0x7fefffffffffffff#f64.w = .ok 0x554428a2f98d728b#f64.w ∧
    g 0x0000000000000001#f64.w = .ok 0x2990000000000000#f64.w ∧
    g 0x0008000000000000#f64.w = .ok 0x2aa0000000000000#f64.w ∧
    g 0xfff0000000000000#f64.w = .ok 0xfff0000000000000#f64.w) := by decide +kernel
example : f64.val 0x4008000000000000#f64.w ^ 3 = f64.val 0x403b000000000000#f64.w ∧ f64.val 0x4008000000000000#f64.w ≠ 0 := by decide +kernel
end Verif.Props
