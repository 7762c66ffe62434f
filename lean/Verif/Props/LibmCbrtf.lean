import Verif.Libm.CbrtfMain
import Verif.Libm.FmaWideProofs
import Mathlib.Analysis.SpecialFunctions.Pow.Real
/-! # Property C76: `cbrtf` -/
namespace Verif.Props
open Fmt

theorem exists_cbrt (X : ℝ) : ∃ y : ℝ, y ^ 3 = X := by
  rcases le_total 0 X with h | h
  · exact ⟨X ^ ((3 : ℕ) : ℝ)⁻¹, Real.rpow_inv_natCast_pow h (by norm_num)⟩
  · refine ⟨-((-X) ^ ((3 : ℕ) : ℝ)⁻¹), ?_⟩
    rw [Odd.neg_pow (by decide), Real.rpow_inv_natCast_pow (by linarith) (by norm_num)]; simp

/-- C76: for every finite nonzero `x`, `cbrtf(x)` is finite, has the sign of `x`, and no `f32` number is closer to the real cube root of `x` by more than
`2^-45` of it; it is within `2^-24 + 2^-44` of the cube root relatively. Computing it does not panic. -/
theorem C76_cbrtf (N : FPU f32) (N64 : FPU f64) (C : FloatCast f32 f64) {x : BitVec f32.w} (hx : f32.IsFin x) (h0 : f32.val x ≠ 0) :
    ∃ r, Cbrtf.cbrtf N N64 C x = .ok r ∧ f32.IsFin r ∧ f32.sign r = f32.sign x ∧
      ∀ y : ℝ, y ^ 3 = ((f32.val x : ℚ) : ℝ) →
        (∀ c, f32.IsFin c → |((f32.val r : ℚ) : ℝ) - y| ≤ |((f32.val c : ℚ) : ℝ) - y| + 1 / 2 ^ 45 * |y|) ∧
        |((f32.val r : ℚ) : ℝ) - y| ≤ (1 / 2 ^ 24 + 1 / 2 ^ 44) * |y| := by
  have g : GFv f32 x ((f32.val x : ℚ) : ℝ) := ⟨hx, (f32.valK_cast x).symm⟩
  have hX : ((f32.val x : ℚ) : ℝ) ≠ 0 := by exact_mod_cast h0
  obtain ⟨y, hy⟩ := exists_cbrt ((f32.val x : ℚ) : ℝ)
  rw [← hy] at g hX
  have hy0 : y ≠ 0 := by rintro rfl; simp at hX
  have hyp : 0 < |y| := abs_pos.mpr hy0
  obtain ⟨r, T, e, e1, e2⟩ := Cbrtf.cbrtf_spec N N64 C g hy0
  have hab := g.abs_eq
  have hm : f32.mag x < f32.infRep := hx
  have hb : Cbrt.Bd 60 y := by
    refine Cbrtf.bd_of rfl ?_ ?_
    · rw [hab]
      have h1 : f32.mag x ≠ 0 := by
        intro h
        rw [h] at hab
        have : f32.magVal ℝ 0 = 0 := by unfold magVal; simp
        rw [this] at hab
        exact hX (abs_eq_zero.mp hab)
      have : f32.magVal ℝ 1 ≤ f32.magVal ℝ (f32.mag x) := f32.magValR_le_iff.mpr (by omega)
      refine le_trans (le_of_eq ?_) this
      have h1 : f32.magVal ℚ 1 = 2 ^ (-149 : ℤ) := by decide +kernel
      rw [← f32.magVal_cast, h1]; push_cast; rfl
    · rw [hab, show (128 : ℤ) = (f32.bias : ℤ) + 1 by decide, ← f32.magValR_infRep]
      exact f32.magValR_le_iff.mpr hm.le
  have bT : Cbrt.Bd 61 T := hb.near (e1.trans (mul_le_mul_of_nonneg_right (by norm_num) hyp.le))
  have hTs : 0 < T * y := by
    have h1 : |y * (T - y)| ≤ 1 / 2 * (y * y) := by
      rw [abs_mul, ← abs_mul_abs_self y]
      have : |T - y| ≤ 1 / 2 * |y| := e1.trans (mul_le_mul_of_nonneg_right (by norm_num) hyp.le)
      nlinarith
    have h2 := (abs_le.mp h1).1
    have h3 : 0 < y * y := mul_self_pos.mpr hy0
    nlinarith
  have hT0 : T ≠ 0 := by rintro rfl; simp at hTs
  refine ⟨r, e, e2.fin100 ⟨by decide, by decide⟩ (bT.hi.trans (zpow_le_zpow_right₀ (by norm_num) (by norm_num))), ?_, ?_⟩
  · have hs := e2.2 hT0
    rw [Bool.eq_iff_iff, hs]
    cases hsx : f32.sign x with
    | false =>
      have h3 := g.nonneg hsx
      have : 0 < y := by
        by_contra hc
        have hc : y < 0 := lt_of_le_of_ne (not_lt.mp hc) hy0
        have : y ^ 3 < 0 := Odd.pow_neg (by decide) hc
        linarith
      simp
      nlinarith
    | true =>
      have h3 := g.nonpos hsx
      have : y < 0 := by
        by_contra hc
        have hc : 0 < y := lt_of_le_of_ne (not_lt.mp hc) (Ne.symm hy0)
        have : 0 < y ^ 3 := by positivity
        linarith
      simp
      nlinarith
  · intro y' hy'
    rw [← hy] at hy'
    have : y' = y := (Odd.strictMono_pow (by decide : Odd 3)).injective hy'
    subst this
    have hr := e2.rel f32 ((zpow_le_zpow_right₀ (by norm_num) (by decide)).trans bT.lo) (bT.hi.trans (zpow_le_zpow_right₀ (by norm_num) (by decide)))
    rw [f32.valK_cast]
    refine ⟨fun c hc => ?_, ?_⟩
    · have hn := e2.near f32 (f32.rp_val c) (by
        rw [f32.absvR, ← f32.magValR_infRep]
        exact f32.magValR_le_iff.mpr (show f32.mag c ≤ f32.infRep from (show f32.mag c < f32.infRep from hc).le))
      rw [f32.valK_cast]
      rw [abs_sub_comm T, abs_sub_comm T] at hn
      have h1 := abs_sub_le (f32.valK ℝ r) T y'
      have h2 := abs_sub_le (f32.valK ℝ c) y' T
      rw [abs_sub_comm y' T] at h2
      norm_num at e1 ⊢
      linarith
    · have h1 := abs_sub_le (f32.valK ℝ r) T y'
      have h2 := abs_sub_abs_le_abs_sub T y'
      have e3 : (2 : ℝ) ^ (-(f32.s : ℤ) - 1) = 1 / 2 ^ 24 := by
        rw [show -(f32.s : ℤ) - 1 = -(24 : ℤ) by decide, zpow_neg]; norm_num
      rw [e3] at hr
      norm_num at hr e1 ⊢
      linarith

/-- C76: the cube root of a cube is exact: if `x` is the cube of the nonzero `f32` number `c`, `cbrtf(x)` is `c`. -/
theorem C76_cbrtf_exact (N : FPU f32) (N64 : FPU f64) (C : FloatCast f32 f64) {x c : BitVec f32.w} (hx : f32.IsFin x) (hc : f32.IsFin c) (h0 : f32.val c ≠ 0)
    (h : f32.val c ^ 3 = f32.val x) : Cbrtf.cbrtf N N64 C x = .ok c := by
  have hx0 : f32.val x ≠ 0 := by rw [← h]; exact pow_ne_zero 3 h0
  obtain ⟨r, e, f, -, hr⟩ := C76_cbrtf N N64 C hx hx0
  rw [e]
  obtain ⟨h1, -⟩ := hr ((f32.val c : ℚ) : ℝ) (by rw [← h]; push_cast; rfl)
  have h1 := h1 c hc
  rw [sub_self, abs_zero, zero_add] at h1
  have h0' : ((f32.val c : ℚ) : ℝ) ≠ 0 := by exact_mod_cast h0
  have hcp := abs_pos.mpr h0'
  have gc : GFv f32 c ((f32.val c : ℚ) : ℝ) := ⟨hc, (f32.valK_cast c).symm⟩
  have gr : GFv f32 r ((f32.val r : ℚ) : ℝ) := ⟨f, (f32.valK_cast r).symm⟩
  have heq : f32.val r = f32.val c := by
    have h2 : |((f32.val r : ℚ) : ℝ)| ≤ 2 * |((f32.val c : ℚ) : ℝ)| := by
      have := abs_sub_abs_le_abs_sub ((f32.val r : ℚ) : ℝ) ((f32.val c : ℚ) : ℝ)
      norm_num at h1
      linarith
    -- the gap between two different numbers
    have key : ∀ {a b : BitVec f32.w} {u v : ℝ}, GFv f32 a u → GFv f32 b v → 0 < v → u < v → v / 2 ^ 24 ≤ v - u := by
      intro a b u v ga gb hv huv
      have := f32.gap_rel (b := a) (c := b) (by rw [gb.val]; exact hv) (by rw [ga.val, gb.val]; exact huv)
      rwa [ga.val, gb.val] at this
    have h3 : ((f32.val r : ℚ) : ℝ) = ((f32.val c : ℚ) : ℝ) := by
      generalize ((f32.val r : ℚ) : ℝ) = R at *
      generalize ((f32.val c : ℚ) : ℝ) = V at *
      have h1' := abs_le.mp h1
      rcases lt_or_gt_of_ne h0' with hV | hV
      · rw [abs_of_neg hV] at h1'
        norm_num at h1'
        by_contra hne
        rcases lt_or_gt_of_ne hne with hlt | hlt
        · have := key gc.neg gr.neg (by linarith) (by linarith)
          norm_num at this
          linarith [h1'.1, h1'.2]
        · have := key gr.neg gc.neg (by linarith) (by linarith)
          norm_num at this
          linarith [h1'.1, h1'.2]
      · rw [abs_of_pos hV] at h1'
        norm_num at h1'
        by_contra hne
        rcases lt_or_gt_of_ne hne with hlt | hlt
        · have := key gr gc (by linarith) (by linarith)
          norm_num at this
          linarith [h1'.1, h1'.2]
        · have := key gc gr (by linarith) (by linarith)
          norm_num at this
          linarith [h1'.1, h1'.2]
    exact_mod_cast h3
  congr 1
  refine f32.ext_sign_mag ?_ ?_
  · have e0 : ((f32.val r : ℚ) : ℝ) = ((f32.val c : ℚ) : ℝ) := by rw [heq]
    cases hs1 : f32.sign r <;> cases hs2 : f32.sign c
    · rfl
    · have h3 := gr.nonneg hs1
      have h4 := gc.nonpos hs2
      rw [e0] at h3
      exact absurd (le_antisymm h4 h3) h0'
    · have h3 := gr.nonpos hs1
      have h4 := gc.nonneg hs2
      rw [e0] at h3
      exact absurd (le_antisymm h3 h4) h0'
    · rfl
  · refine f32.magVal_inj.mp ?_
    rw [← f32.absv, ← f32.absv, heq]

/-- C76: `cbrtf` of NaN is NaN, infinities and zeros are kept. -/
theorem C76_cbrtf_special (N : FPU f32) (N64 : FPU f64) (C : FloatCast f32 f64) (x : BitVec f32.w) :
    (f32.IsNaN x → ∃ r, Cbrtf.cbrtf N N64 C x = .ok r ∧ f32.IsNaN r) ∧ (f32.IsInf x ∨ f32.mag x = 0 → Cbrtf.cbrtf N N64 C x = .ok x) := by
  have hi : f32.infRep = 0x7f800000 := by decide
  unfold Cbrtf.cbrtf
  simp only [mag32]
  refine ⟨fun h => ?_, ?_⟩
  · have h' : f32.infRep < f32.mag x := h
    rw [if_pos (by omega)]
    exact ⟨_, rfl, (N.add_spec x x).2.1 (Or.inl h)⟩
  · rintro (h | h)
    · have h' : f32.mag x = f32.infRep := h
      rw [if_pos (by omega)]
      have := (N.add_spec x x).2.2.1 h (fun hn => by have : f32.infRep < f32.mag x := hn; omega)
      rw [if_neg (by simp)] at this
      rw [this]
    · rw [if_neg (by omega), if_pos (by omega), if_pos h]

/-- Concrete cases: 27, -8, 2, 0.1, the largest number, the least subnormal, a subnormal cube. -/
example : Cbrtf.cbrtf FPU.softF32 FPU.softF64 (softCast wider_32_64) 0x41d80000#f32.w = .ok 0x40400000#f32.w ∧
    Cbrtf.cbrtf FPU.softF32 FPU.softF64 (softCast wider_32_64) 0xc1000000#f32.w = .ok 0xc0000000#f32.w ∧
    Cbrtf.cbrtf FPU.softF32 FPU.softF64 (softCast wider_32_64) 0x40000000#f32.w = .ok 0x3fa14518#f32.w ∧
    Cbrtf.cbrtf FPU.softF32 FPU.softF64 (softCast wider_32_64) 0x3dcccccd#f32.w = .ok 0x3eeda63c#f32.w ∧
    Cbrtf.cbrtf FPU.softF32 FPU.softF64 (softCast wider_32_64) 0x7f7fffff#f32.w = .ok 0x54cb2ff5#f32.w ∧
    Cbrtf.cbrtf FPU.softF32 FPU.softF64 (softCast wider_32_64) 0x00000001#f32.w = .ok 0x26a14518#f32.w ∧
    Cbrtf.cbrtf FPU.softF32 FPU.softF64 (softCast wider_32_64) 0x0000d800#f32.w = .ok 0x29400000#f32.w ∧
    Cbrtf.cbrtf FPU.softF32 FPU.softF64 (softCast wider_32_64) 0xff800000#f32.w = .ok 0xff800000#f32.w := by decide +kernel
example : f32.val 0x40400000#f32.w ^ 3 = f32.val 0x41d80000#f32.w ∧ f32.val 0x40400000#f32.w ≠ 0 := by decide +kernel
end Verif.Props
