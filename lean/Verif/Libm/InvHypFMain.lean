import Verif.Libm.InvHypMain
import Verif.Libm.HyperFMain
/-! # `asinhf`, `acoshf` and `atanhf` -/
namespace Verif
open Fmt
namespace InvHyp
namespace F32
open Expm1 Expm1.F32

/-! ## `f32` -/

theorem ln2_32 : Ap f32 LN2 1 (Real.log 2) := by
  refine ⟨_, GFv.const (by decide +kernel) rfl, ?_⟩
  unfold Rl
  have c : |f32.val LN2 - Poly.ln2L| ≤ 1 / 2 ^ 26 := by decide +kernel
  have h1 : ((|f32.val LN2 - Poly.ln2L| : ℚ) : ℝ) ≤ ((1 / 2 ^ 26 : ℚ) : ℝ) := Rat.cast_le.mpr c
  push_cast at h1
  have h2 := Poly.ln2_gt
  have h3 := Poly.ln2_lt
  have h4 : ((Poly.ln2H : ℚ) : ℝ) - (Poly.ln2L : ℚ) ≤ 1 / 10 ^ 26 := by unfold Poly.ln2H Poly.ln2L; push_cast; norm_num
  have h5 := Real.log_two_gt_d9
  rw [abs_of_pos (show 0 < Real.log 2 by linarith), s32]
  rw [abs_le] at h1 ⊢
  norm_num1 at *
  constructor <;> linarith [h1.1, h1.2]

theorem fn32 (N : FPU f32) : Fn f32 K32 (Asin.F32.sqrtS N) (Log.F32.logf N) (Log1p.F32.log1pf N) LN2 where
  big := big32
  one := ok32.one
  two := ok32.two
  half := ok32.half
  sq := fun z Z h h0 => by
    obtain ⟨r, st, e, hs⟩ := Props.C43_sqrtf N z
    refine ⟨r, by unfold Asin.F32.sqrtS; rw [e]; rfl, ?_⟩
    have hv := h.valQ
    have h1 : 0 ≤ f32.val z := by
      have : (0 : ℝ) ≤ ((f32.val z : ℚ) : ℝ) := by rw [hv]; exact h0
      exact_mod_cast this
    obtain ⟨a, b, -⟩ := hs.1 h.fin h1
    rw [hv] at a
    have hs0 := Real.sqrt_nonneg Z
    refine ⟨by rw [abs_of_nonneg hs0]; exact a, fun hne => ?_⟩
    have hZ : 0 < Z := by
      rcases h0.lt_or_eq with h | h
      · exact h
      · rw [← h, Real.sqrt_zero] at hne; exact absurd rfl hne
    rw [b, h.sign_of_pos hZ]
    constructor
    · intro h; exact absurd h (by simp)
    · intro h; linarith
  lg := fun x X h h0 h1 => by
    obtain ⟨z, e, W, w1, w2⟩ := Log.F32.logf_spec N h h0 h1
    refine ⟨z, e, W, w1, ?_⟩
    unfold Rl
    refine w2.trans (le_of_eq ?_)
    rw [s32]; norm_num
  l1p := fun x X h h0 => by
    obtain ⟨z, e, W, w1, w2⟩ := Log1p.F32.log1pf_spec N h h0
    refine ⟨z, e, W, w1, ?_⟩
    unfold Rl
    refine w2.trans (le_of_eq ?_)
    rw [s32]; norm_num
  ln2 := ln2_32

theorem inf_eq32 {x : BitVec f32.w} (h : f32.IsInf x) (hs : f32.sign x = false) : x = 0x7f800000#f32.w := by
  apply f32.ext_sign_mag
  · rw [hs]; decide +kernel
  · unfold Fmt.IsInf at h; rw [h]; decide +kernel

theorem fnX32 (N : FPU f32) : FnX f32 (Asin.F32.sqrtS N) (Log.F32.logf N) (Log1p.F32.log1pf N) where
  sqNan := fun z h => by
    obtain ⟨r, st, e, hs⟩ := Props.C43_sqrtf N z
    exact ⟨r, by unfold Asin.F32.sqrtS; rw [e]; rfl, (hs.2.2 h).1.1⟩
  lgNan := fun x h => Props.C67_logf_nan N h
  lgInf := fun x h hs => by
    rw [inf_eq32 h hs]
    exact ⟨_, Props.C67_logf_inf N, by decide +kernel, by decide +kernel⟩
  l1pNan := fun x h => by
    refine Props.C86_log1pf_nan N ?_
    rcases h with h | h | ⟨X, g, h⟩
    · exact Or.inl h
    · exact Or.inr (Or.inl h)
    · refine Or.inr (Or.inr ⟨g.fin, ?_⟩)
      have := g.valQ
      have h2 : ((f32.val x : ℚ) : ℝ) < ((-1 : ℚ) : ℝ) := by rw [this]; push_cast; exact h
      exact_mod_cast h2
  l1pInf := fun x h hs => by
    rw [inf_eq32 h hs]
    exact ⟨_, Props.C86_log1pf_inf N, by decide +kernel, by decide +kernel⟩

theorem magN32 (x : BitVec f32.w) : x.toNat &&& 0x7fffffff = f32.mag x := by
  rw [show (0x7fffffff : ℕ) = 2 ^ 31 - 1 from rfl, Nat.and_two_pow_sub_one_eq_mod]; rfl

theorem e_lt {x : BitVec f32.w} {X : ℝ} (hx : GFv f32 x X) (c : ℕ) (q : ℚ) (hc : f32.magVal ℚ c = q) : f32.mag x < c ↔ |X| < q :=
  hx.mag_lt hc

theorem sgn32 (x : BitVec f32.w) : x.toNat >>> 31 ≠ 0 ↔ f32.sign x = true := by
  rw [sign32 x]
  cases f32.sign x <;> simp

theorem abs_fab32 (x : BitVec f32.w) : BitVec.ofNat f32.w (f32.mag x) = f32.fabs x := by
  rw [← magN32]; exact Hyper.F32.abs_eq x

theorem asinhf_fin (N : FPU f32) {x : BitVec f32.w} {X : ℝ} (hx : GFv f32 x X) : Ok (asinhf N x) fun z => Ap f32 z 6 (Real.arsinh X) ∧ f32.sign z = f32.sign x := by
  have H := fn32 N
  have ha := hx.fabs
  have key : Ok (asinhfAbs N (f32.mag x) (f32.fabs x)) fun y => Ap f32 y 6 (Real.arsinh |X|) ∧ f32.sign y = false := by
    have c1 := e_lt hx (0x3f800000 + (12 <<< 23)) (2 ^ 12) (by decide +kernel)
    have c2 := e_lt hx (0x3f800000 + (1 <<< 23)) 2 (by decide +kernel)
    have c3 := e_lt hx (0x3f800000 - (12 <<< 23)) (1 / 2 ^ 12) (by decide +kernel)
    push_cast at c1 c2 c3
    have sg : ∀ {y : BitVec f32.w}, 0 < |X| → Ap f32 y 6 (Real.arsinh |X|) → Ap f32 y 6 (Real.arsinh |X|) ∧ f32.sign y = false :=
      fun h0 h => ⟨h, Ap.sgn big32 h (Real.arsinh_pos_iff.mpr h0)⟩
    have hs := (f32.fabs_facts x).1
    have ha0 := abs_nonneg X
    obtain ⟨a, hA⟩ : ∃ a, a = |X| := ⟨_, rfl⟩
    rw [← hA] at c1 c2 c3 ha ha0 sg ⊢
    unfold asinhfAbs
    by_cases h1 : f32.mag x < 0x3f800000 + (12 <<< 23)
    · rw [if_neg (by omega)]
      have b1 := c1.mp h1
      by_cases h2 : f32.mag x < 0x3f800000 + (1 <<< 23)
      · rw [if_neg (by omega)]
        have b2 := c2.mp h2
        by_cases h3 : f32.mag x < 0x3f800000 - (12 <<< 23)
        · rw [if_neg (by omega)]
          have b3 := c3.mp h3
          refine ⟨_, rfl, tinyAp ha (arsinh_tiny ha0 (by norm_num1 at *; linarith)) ?_, hs⟩
          have : a * a ≤ 1 / 2 ^ 12 * (1 / 2 ^ 12) := mul_le_mul b3.le b3.le ha0 (by positivity)
          rw [s32]
          norm_num1 at *
          linarith
        · rw [if_pos (by omega)]
          have b3 := not_lt.mp (mt c3.mpr h3)
          obtain ⟨z, e, h⟩ := asSmall_spec H N ha (le_trans (by norm_num) b3) b2.le
          exact ⟨z, e, sg (lt_of_lt_of_le (by positivity) b3) h⟩
      · rw [if_pos (by omega)]
        have b2 := not_lt.mp (mt c2.mpr h2)
        obtain ⟨z, e, h⟩ := asMid_spec H N ha b2 (b1.le.trans (by norm_num))
        exact ⟨z, e, sg (by linarith) h⟩
    · rw [if_pos (by omega)]
      have b1 := not_lt.mp (mt c1.mpr h1)
      have hp : (0 : ℝ) < 2 ^ 12 := by positivity
      have b1' : 1 ≤ a := le_trans (by norm_num) b1
      have hq : 1 / (a * a) ≤ 1 / (2 ^ 12 * 2 ^ 12) := one_div_le_one_div_of_le (by positivity) (mul_le_mul b1 b1 hp.le (by linarith))
      have hT := arsinh_big b1'
      obtain ⟨z, e, h⟩ := big_spec H N ha (le_trans (by norm_num) b1) (log_bound ha (by rw [b32]; norm_num) (by linarith)) (T := Real.arsinh a)
        ⟨hT.trans (hq.trans (by norm_num)), hT.trans (hq.trans (by rw [s32]; norm_num))⟩
      exact ⟨z, e, sg (by linarith) h⟩
  obtain ⟨y, e, h1, h2⟩ := key
  unfold asinhf
  dsimp only
  rw [magN32, abs_fab32, e]
  exact ⟨_, rfl, restore hx h1 h2 Real.arsinh_neg (sgn32 x)⟩

theorem acoshf_fin (N : FPU f32) {x : BitVec f32.w} {X : ℝ} (hx : GFv f32 x X) (h : 1 < X) : Ok (acoshf N x) fun z => Ap f32 z 6 (Real.arcosh X) ∧ f32.sign z = false := by
  have H := fn32 N
  have sg : ∀ {y : BitVec f32.w}, Ap f32 y 6 (Real.arcosh X) → Ap f32 y 6 (Real.arcosh X) ∧ f32.sign y = false :=
    fun h1 => ⟨h1, Ap.sgn big32 h1 (by
      unfold Real.arcosh
      exact Real.log_pos (by linarith [Real.sqrt_nonneg (X ^ 2 - 1)]))⟩
  have hsx := hx.sign_of_pos (by linarith)
  have hm : x.toNat = f32.mag x := by have := f32.toNat_eq x; rw [hsx] at this; simpa using this
  have hma : x.toNat &&& 0x7fffffff = f32.mag x := by
    rw [show (0x7fffffff : ℕ) = 2 ^ 31 - 1 from rfl, Nat.and_two_pow_sub_one_eq_mod]; rfl
  have c1 := hx.mag_lt (c := 0x40000000) (q := 2) (by decide +kernel)
  have c2 := hx.mag_lt (c := 0x45800000) (q := 2 ^ 12) (by decide +kernel)
  rw [abs_of_pos (by linarith)] at c1 c2
  push_cast at c1 c2
  unfold acoshf
  simp only
  rw [hma, hm]
  by_cases h1 : f32.mag x < 0x40000000
  · rw [if_pos h1]
    obtain ⟨z, e, g⟩ := acSmall_spec H N hx h (c1.mp h1) (by rw [s32]; norm_num)
    exact ⟨z, e, sg g⟩
  · rw [if_neg h1]
    have b1 := not_lt.mp (mt c1.mpr h1)
    by_cases h2 : f32.mag x < 0x45800000
    · rw [if_pos h2]
      obtain ⟨z, e, g⟩ := acMid_spec H N hx b1 ((c2.mp h2).le.trans (by norm_num))
      exact ⟨z, e, sg g⟩
    · rw [if_neg h2]
      have b2 := not_lt.mp (mt c2.mpr h2)
      have hp : (0 : ℝ) < 2 ^ 12 := by positivity
      have hq : 1 / (X * X) ≤ 1 / (2 ^ 12 * 2 ^ 12) := one_div_le_one_div_of_le (by positivity) (mul_le_mul b2 b2 hp.le (by linarith))
      have hT := arcosh_big b1
      obtain ⟨z, e, g⟩ := big_spec H N hx (le_trans (by norm_num) b2) (log_bound hx (by rw [b32]; norm_num) (by linarith)) (T := Real.arcosh X)
        ⟨hT.trans (hq.trans (by norm_num)), hT.trans (hq.trans (by rw [s32]; norm_num))⟩
      exact ⟨z, e, sg g⟩

theorem atanhf_fin (N : FPU f32) {x : BitVec f32.w} {X : ℝ} (hx : GFv f32 x X) (hX : |X| < 1) : Ok (atanhf N x) fun z => Ap f32 z 6 (Real.artanh X) ∧ f32.sign z = f32.sign x := by
  have H := fn32 N
  have ha := hx.fabs
  have key : Ok (atanhfAbs N (f32.mag x) (f32.fabs x)) fun y => Ap f32 y 6 (Real.artanh |X|) ∧ f32.sign y = false := by
    have c1 := e_lt hx (0x3f800000 - (1 <<< 23)) (1 / 2) (by decide +kernel)
    have c2 := e_lt hx (0x3f800000 - (32 <<< 23)) (1 / 2 ^ 32) (by decide +kernel)
    push_cast at c1 c2
    have sg : ∀ {y : BitVec f32.w}, 0 < |X| → Ap f32 y 6 (Real.artanh |X|) → Ap f32 y 6 (Real.artanh |X|) ∧ f32.sign y = false :=
      fun h0 h => ⟨h, Ap.sgn big32 h (artanh_pos h0 hX)⟩
    have hs := (f32.fabs_facts x).1
    have ha0 := abs_nonneg X
    obtain ⟨a, hA⟩ : ∃ a, a = |X| := ⟨_, rfl⟩
    rw [← hA] at c1 c2 ha ha0 sg hX ⊢
    unfold atanhfAbs
    by_cases h1 : f32.mag x < 0x3f800000 - (1 <<< 23)
    · rw [if_pos h1]
      have b1 := c1.mp h1
      by_cases h2 : f32.mag x < 0x3f800000 - (32 <<< 23)
      · rw [if_pos h2]
        have b2 := c2.mp h2
        refine ⟨_, rfl, tinyAp ha (artanh_tiny ha0 (by norm_num1 at *; linarith)) ?_, hs⟩
        have : a * a ≤ 1 / 2 ^ 32 * (1 / 2 ^ 32) := mul_le_mul b2.le b2.le ha0 (by positivity)
        rw [s32]
        norm_num1 at *
        linarith
      · rw [if_neg h2]
        have b2 := not_lt.mp (mt c2.mpr h2)
        obtain ⟨z, e, h⟩ := atSmall_spec H N ha b2 b1.le
        exact ⟨z, e, sg (lt_of_lt_of_le (by positivity) b2) h⟩
    · rw [if_neg h1]
      have b1 := not_lt.mp (mt c1.mpr h1)
      have hm := one_sub_min (by rw [s32]; norm_num) ha b1 hX.ne
      rw [abs_of_neg (by linarith), neg_sub, show (2 : ℝ) ^ (-53 : ℤ) = 1 / 2 ^ 53 by rw [zpow_neg, one_div]; norm_cast] at hm
      obtain ⟨z, e, h⟩ := atBig_spec H N ha b1 hX hm
      exact ⟨z, e, sg (by linarith) h⟩
  obtain ⟨y, e, h1, h2⟩ := key
  unfold atanhf
  dsimp only
  rw [magN32, abs_fab32, e]
  exact ⟨_, rfl, restore hx h1 h2 artanh_neg (sgn32 x)⟩
end F32
end InvHyp
end Verif
