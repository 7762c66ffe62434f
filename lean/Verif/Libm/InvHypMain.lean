import Verif.Libm.InvHypNan
import Verif.Libm.Expm1Inst
import Verif.Libm.HyperTail
import Verif.Libm.HyperMain
import Verif.Props.LibmLog
import Verif.Props.LibmLog1p
/-! # `asinh`, `acosh` and `atanh` -/
namespace Verif
open Fmt
namespace InvHyp
open Expm1

/-! ## the real functions -/

theorem arsinh_tiny {X : ℝ} (h0 : 0 ≤ X) (h1 : X ≤ 1 / 4096) : Rl (X * X) X (Real.arsinh X) := by
  obtain ⟨t, ht⟩ : ∃ t, t = Real.arsinh X := ⟨_, rfl⟩
  have hs : Real.sinh t = X := by rw [ht]; exact Real.sinh_arsinh X
  have t0 : 0 ≤ t := by rw [ht]; exact Real.arsinh_nonneg_iff.mpr h0
  have t1 : t ≤ X := by rw [← hs]; exact Real.self_le_sinh_iff.mpr t0
  obtain ⟨n1, n2⟩ := Hyper.sinh_near t0 (by norm_num1 at *; linarith)
  rw [hs] at n1 n2
  rw [← ht]
  unfold Rl
  rw [abs_of_nonneg t0, abs_of_nonneg (by linarith)]
  have : t ^ 3 ≤ X * X * t := by
    rw [show t ^ 3 = t * t * t by ring]
    exact mul_le_mul_of_nonneg_right (mul_le_mul t1 t1 t0 h0) t0
  have h3 : 0 ≤ X * X * t := by positivity
  linarith

theorem artanh_tiny {X : ℝ} (h0 : 0 ≤ X) (h1 : X ≤ 1 / 4096) : Rl (2 * (X * X)) X (Real.artanh X) := by
  obtain ⟨t, ht⟩ : ∃ t, t = Real.artanh X := ⟨_, rfl⟩
  have hs : Real.tanh t = X := by rw [ht]; exact Real.tanh_artanh ⟨by linarith, by norm_num1 at *; linarith⟩
  have hl := artanh_log h0 (by norm_num1 at *; linarith)
  have h1X : (0 : ℝ) < 1 - X := by norm_num1 at *; linarith
  have hq0 : 0 ≤ X / (1 - X) := by positivity
  rw [← ht] at hl
  have t0 : 0 ≤ t := by rw [hl]; have := Real.log_nonneg (show 1 ≤ 1 + 2 * (X / (1 - X)) by linarith); linarith
  have t1 : t ≤ 1.1 * X := by
    rw [hl]
    have := Real.log_le_sub_one_of_pos (show 0 < 1 + 2 * (X / (1 - X)) by linarith)
    have h2 : X / (1 - X) ≤ 1.1 * X := by rw [div_le_iff₀ h1X]; nlinarith
    linarith
  have t2 : t ≤ 1 / 1000 := by norm_num1 at *; linarith
  obtain ⟨n1, n2⟩ := Hyper.sinh_near t0 t2
  obtain ⟨c1, c2⟩ := Hyper.cosh_near (a := t) (by rw [abs_of_nonneg t0]; linarith)
  rw [Real.tanh_eq_sinh_div_cosh, div_eq_iff (by linarith)] at hs
  rw [← ht]
  have htt : t ^ 2 ≤ 1.21 * (X * X) := by nlinarith
  have ht3 : t ^ 3 ≤ 1.21 * (X * X) * t := by rw [show t ^ 3 = t ^ 2 * t by ring]; exact mul_le_mul_of_nonneg_right htt t0
  have h3 : 0 ≤ X * X * t := by positivity
  unfold Rl
  rw [abs_of_nonneg t0, abs_le]
  generalize Real.cosh t = C at *
  generalize Real.sinh t = S at *
  have hXC : X ≤ X * C := by nlinarith
  have hX2 : X * t ^ 2 ≤ t * (1.21 * (X * X)) + 0.001 * (X * X * t) := by
    have : X ≤ t + t ^ 3 / 5 := by linarith
    have t5 : t ^ 3 ≤ 0.001 * t := by nlinarith
    have h6 : X ≤ 1.0005 * t := by linarith
    have h7 : X * t ^ 2 ≤ 1.0005 * t * t ^ 2 := mul_le_mul_of_nonneg_right h6 (by positivity)
    nlinarith
  constructor <;> nlinarith

theorem arsinh_big {X : ℝ} (h : 1 ≤ X) : |Real.arsinh X - Real.log (2 * X)| ≤ 1 / (X * X) := by
  rw [arsinh_log]
  obtain ⟨s, hs⟩ : ∃ s, s = Real.sqrt (X * X + 1) := ⟨_, rfl⟩
  have ss : s * s = X * X + 1 := by rw [hs]; exact Real.mul_self_sqrt (by nlinarith)
  have s0 : 0 ≤ s := by rw [hs]; exact Real.sqrt_nonneg _
  have s1 : X ≤ s := by by_contra hc; rw [not_le] at hc; nlinarith
  rw [← hs, ← Real.log_div (by linarith) (by linarith)]
  have hr : 1 ≤ (X + s) / (2 * X) := by rw [le_div_iff₀ (by linarith)]; linarith
  rw [abs_of_nonneg (Real.log_nonneg hr)]
  refine (Real.log_le_sub_one_of_pos (by linarith)).trans ?_
  rw [sub_le_iff_le_add, div_le_iff₀ (by linarith)]
  have e : (1 / (X * X) + 1) * (2 * X) = 2 / X + 2 * X := by field_simp
  rw [e]
  have hi : s - X ≤ 1 / X := by
    rw [le_div_iff₀ (by linarith)]
    nlinarith
  have : 0 ≤ 1 / X := by positivity
  have e2 : 2 / X = 1 / X + 1 / X := by ring
  linarith

theorem arcosh_big {X : ℝ} (h : 2 ≤ X) : |Real.arcosh X - Real.log (2 * X)| ≤ 1 / (X * X) := by
  unfold Real.arcosh
  rw [show X ^ 2 - 1 = X * X - 1 by ring]
  obtain ⟨s, hs⟩ : ∃ s, s = Real.sqrt (X * X - 1) := ⟨_, rfl⟩
  have ss : s * s = X * X - 1 := by rw [hs]; exact Real.mul_self_sqrt (by nlinarith)
  have s0 : 0 ≤ s := by rw [hs]; exact Real.sqrt_nonneg _
  have s1 : s ≤ X := by by_contra hc; rw [not_le] at hc; nlinarith
  have s2 : X - 1 / X ≤ s := by
    by_contra hc
    rw [not_le] at hc
    have h1 : X * (1 / X) = 1 := by field_simp
    have h2 : 1 / X ≤ 1 / 2 := one_div_le_one_div_of_le (by norm_num) h
    have h3 : 0 < 1 / X := by positivity
    nlinarith
  rw [← hs, abs_sub_comm, ← Real.log_div (by linarith) (by linarith)]
  have hr : 1 ≤ 2 * X / (X + s) := by rw [le_div_iff₀ (by linarith)]; linarith
  rw [abs_of_nonneg (Real.log_nonneg hr)]
  refine (Real.log_le_sub_one_of_pos (by linarith)).trans ?_
  rw [sub_le_iff_le_add, div_le_iff₀ (by linarith)]
  have e : (1 / (X * X) + 1) * (2 * X - 1 / X) = 2 * X + (1 - 1 / (X * X)) / X := by field_simp; ring
  have h4 : 1 / (X * X) ≤ 1 := by rw [div_le_one (by nlinarith)]; nlinarith
  have h5 : 0 ≤ (1 - 1 / (X * X)) / X := div_nonneg (by linarith) (by linarith)
  have h6 : 0 ≤ 1 / (X * X) := by positivity
  have h7 : (1 / (X * X) + 1) * (2 * X - 1 / X) ≤ (1 / (X * X) + 1) * (X + s) := mul_le_mul_of_nonneg_left (by linarith) (by linarith)
  linarith

theorem log_bound {F : Fmt} {x : BitVec F.w} {X : ℝ} (hx : GFv F x X) (hb : F.bias ≤ 1023) (h0 : 0 < X) : Real.log (2 * X) ≤ 2 ^ 20 := by
  have hXb : X < 2 ^ ((F.bias : ℤ) + 1) := by
    have := hx.fin
    rw [← abs_of_pos h0, hx.abs_eq, ← F.magValR_infRep, F.magValR_lt_iff]; exact this
  have h1 : X ≤ 2 ^ (1024 : ℤ) := hXb.le.trans (zpow_le_zpow_right₀ (by norm_num) (by omega))
  have h2 := Real.log_le_log h0 h1
  rw [Real.log_zpow] at h2
  rw [Real.log_mul (by norm_num) h0.ne']
  have := Real.log_two_lt_d9
  push_cast at h2
  norm_num at this ⊢
  linarith

/-! ## the sign -/

/-- the sign of the argument is given to the result -/
theorem restore {F : Fmt} {x y : BitVec F.w} {X : ℝ} {f : ℝ → ℝ} (hx : GFv F x X) (hy : Ap F y 6 (f |X|)) (hs : F.sign y = false) (odd : ∀ a, f (-a) = -f a) {c : Prop} [Decidable c] (hc : c ↔ F.sign x = true) :
    Ap F (if c then F.neg y else y) 6 (f X) ∧ F.sign (if c then F.neg y else y) = F.sign x := by
  by_cases h : F.sign x = true
  · rw [if_pos (hc.mpr h), F.sign_neg, hs, h]
    have hX := hx.nonpos h
    rw [abs_of_nonpos hX, odd] at hy
    obtain ⟨v, g, e⟩ := hy
    refine ⟨⟨-v, g.neg, ?_⟩, rfl⟩
    have := e.neg
    rwa [_root_.neg_neg] at this
  · rw [if_neg (mt hc.mp h), hs]
    have h' : F.sign x = false := by simpa using h
    have hX := hx.nonneg h'
    rw [abs_of_nonneg hX] at hy
    exact ⟨hy, h'.symm⟩

/-- the sign bit taken away and put back -/
theorem unabs {F : Fmt} (x : BitVec F.w) {c : Prop} [Decidable c] (hc : c ↔ F.sign x = true) : (if c then F.neg (F.fabs x) else F.fabs x) = x := by
  obtain ⟨f1, f2⟩ := F.fabs_facts x
  by_cases h : F.sign x = true
  · rw [if_pos (hc.mpr h)]
    exact F.ext_sign_mag (by rw [F.sign_neg, f1, h]; rfl) (by rw [F.mag_neg, f2])
  · rw [if_neg (mt hc.mp h)]
    exact F.ext_sign_mag (by rw [f1]; simpa using h) f2

theorem Ap.sgn {F : Fmt} (hF : F.Big) {y : BitVec F.w} {T : ℝ} (h : Ap F y 6 T) (hT : 0 < T) : F.sign y = false := by
  obtain ⟨v, g, e⟩ := h
  have hu' : (1 : ℝ) / 2 ^ (F.s + 1) ≤ 1 / 1000000 := (Expm1.u_le hF).trans (by norm_num)
  exact g.sign_of_pos (e.pos (by linarith) hT)

theorem tinyAp {F : Fmt} {y : BitVec F.w} {X T δ : ℝ} (h : GFv F y X) (e : Rl δ X T) (hδ : δ ≤ 6 * (1 / 2 ^ (F.s + 1))) : Ap F y 6 T := ⟨X, h, e.mono hδ⟩

theorem artanh_neg (a : ℝ) : Real.artanh (-a) = -Real.artanh a := by
  unfold Real.artanh
  rw [← Real.log_inv, ← Real.sqrt_inv, inv_div]
  congr 3
  ring

theorem artanh_pos {a : ℝ} (h0 : 0 < a) (h1 : a < 1) : 0 < Real.artanh a := by
  rw [artanh_log h0.le h1]
  have : 0 < a / (1 - a) := div_pos h0 (by linarith)
  have := Real.log_pos (show 1 < 1 + 2 * (a / (1 - a)) by linarith)
  linarith

/-! ## `f64` -/

theorem ln2_64 : Ap f64 LN2 1 (Real.log 2) := by
  refine ⟨_, GFv.const (by decide +kernel) rfl, ?_⟩
  unfold Rl
  have c : |f64.val LN2 - Poly.ln2L| ≤ 1 / 2 ^ 54 := by decide +kernel
  have h1 : ((|f64.val LN2 - Poly.ln2L| : ℚ) : ℝ) ≤ ((1 / 2 ^ 54 : ℚ) : ℝ) := Rat.cast_le.mpr c
  push_cast at h1
  have h2 := Poly.ln2_gt
  have h3 := Poly.ln2_lt
  have h4 : ((Poly.ln2H : ℚ) : ℝ) - (Poly.ln2L : ℚ) ≤ 1 / 10 ^ 26 := by unfold Poly.ln2H Poly.ln2L; push_cast; norm_num
  have h5 := Real.log_two_gt_d9
  rw [abs_of_pos (show 0 < Real.log 2 by linarith), s64]
  rw [abs_le] at h1 ⊢
  norm_num1 at *
  constructor <;> linarith [h1.1, h1.2]

theorem fn64 (N : FPU f64) : Fn f64 K64 (Asin.sqrtD N) (Log.log N) (Log1p.log1p N) LN2 where
  big := big64
  one := ok64.one
  two := ok64.two
  half := ok64.half
  sq := fun z Z h h0 => by
    obtain ⟨r, st, e, hs⟩ := Props.C43_sqrt N z
    refine ⟨r, by unfold Asin.sqrtD; rw [e]; rfl, ?_⟩
    have hv := h.valQ
    have h1 : 0 ≤ f64.val z := by
      have : (0 : ℝ) ≤ ((f64.val z : ℚ) : ℝ) := by rw [hv]; exact h0
      exact_mod_cast this
    obtain ⟨a, b, -⟩ := hs.1 h.fin h1
    rw [hv] at a
    have hs0 := Real.sqrt_nonneg Z
    refine ⟨by rw [abs_of_nonneg hs0]; exact a, fun hne => ?_⟩
    have hZ : 0 < Z := by
      rcases h0.lt_or_eq with h | h
      · exact h
      · rw [← h, Real.sqrt_zero] at hne; exact absurd rfl hne
    rw [b, h.sign_of_pos hZ]
    constructor
    · intro h; exact absurd h (by simp)
    · intro h; linarith
  lg := fun x X h h0 h1 => by
    obtain ⟨z, e, W, w1, w2⟩ := Log.log_spec N h h0 h1
    refine ⟨z, e, W, w1, ?_⟩
    unfold Rl
    refine w2.trans (le_of_eq ?_)
    rw [s64]; norm_num
  l1p := fun x X h h0 => by
    obtain ⟨z, e, W, w1, w2⟩ := Log1p.log1p_spec N h h0
    refine ⟨z, e, W, w1, ?_⟩
    unfold Rl
    refine w2.trans (le_of_eq ?_)
    rw [s64]; norm_num
  ln2 := ln2_64

theorem inf_eq64 {x : BitVec f64.w} (h : f64.IsInf x) (hs : f64.sign x = false) : x = 0x7ff0000000000000#f64.w := by
  apply f64.ext_sign_mag
  · rw [hs]; decide +kernel
  · unfold Fmt.IsInf at h; rw [h]; decide +kernel

theorem fnX64 (N : FPU f64) : FnX f64 (Asin.sqrtD N) (Log.log N) (Log1p.log1p N) where
  sqNan := fun z h => by
    obtain ⟨r, st, e, hs⟩ := Props.C43_sqrt N z
    exact ⟨r, by unfold Asin.sqrtD; rw [e]; rfl, (hs.2.2 h).1.1⟩
  lgNan := fun x h => Props.C66_log_nan N h
  lgInf := fun x h hs => by
    rw [inf_eq64 h hs]
    exact ⟨_, Props.C66_log_inf N, by decide +kernel, by decide +kernel⟩
  l1pNan := fun x h => by
    refine Props.C85_log1p_nan N ?_
    rcases h with h | h | ⟨X, g, h⟩
    · exact Or.inl h
    · exact Or.inr (Or.inl h)
    · refine Or.inr (Or.inr ⟨g.fin, ?_⟩)
      have := g.valQ
      have h2 : ((f64.val x : ℚ) : ℝ) < ((-1 : ℚ) : ℝ) := by rw [this]; push_cast; exact h
      exact_mod_cast h2
  l1pInf := fun x h hs => by
    rw [inf_eq64 h hs]
    exact ⟨_, Props.C85_log1p_inf N, by decide +kernel, by decide +kernel⟩

theorem e64 (x : BitVec f64.w) : (x.toNat >>> 52) &&& 0x7ff = f64.mag x / 2 ^ 52 := by
  rw [show 0x7ff = 2 ^ 11 - 1 from rfl, Nat.and_two_pow_sub_one_eq_mod, Nat.shiftRight_eq_div_pow]
  have : f64.mag x = x.toNat % 2 ^ 63 := rfl
  rw [this]; omega

theorem e_lt {x : BitVec f64.w} {X : ℝ} (hx : GFv f64 x X) (c : ℕ) (q : ℚ) (hc : f64.magVal ℚ (c * 2 ^ 52) = q) : f64.mag x / 2 ^ 52 < c ↔ |X| < q := by
  rw [← hx.mag_lt hc, Nat.div_lt_iff_lt_mul (by norm_num)]

theorem sgn64 (x : BitVec f64.w) : x.toNat >>> 63 ≠ 0 ↔ f64.sign x = true := by
  have h := sign64 x
  have e : (x.toNat >>> 32) >>> 31 = x.toNat >>> 63 := by rw [← Nat.shiftRight_add]
  rw [e] at h
  rw [h]
  cases f64.sign x <;> simp

theorem abs_fab64 (x : BitVec f64.w) : BitVec.ofNat f64.w (x.toNat &&& 0x7fffffffffffffff) = f64.fabs x := Hyper.abs_eq x

theorem asinh_fin (N : FPU f64) {x : BitVec f64.w} {X : ℝ} (hx : GFv f64 x X) : Ok (asinh N x) fun z => Ap f64 z 6 (Real.arsinh X) ∧ f64.sign z = f64.sign x := by
  have H := fn64 N
  have ha := hx.fabs
  have key : Ok (asinhAbs N (f64.mag x / 2 ^ 52) (f64.fabs x)) fun y => Ap f64 y 6 (Real.arsinh |X|) ∧ f64.sign y = false := by
    have c1 := e_lt hx (0x3ff + 26) (2 ^ 26) (by decide +kernel)
    have c2 := e_lt hx (0x3ff + 1) 2 (by decide +kernel)
    have c3 := e_lt hx (0x3ff - 26) (1 / 2 ^ 26) (by decide +kernel)
    push_cast at c1 c2 c3
    have sg : ∀ {y : BitVec f64.w}, 0 < |X| → Ap f64 y 6 (Real.arsinh |X|) → Ap f64 y 6 (Real.arsinh |X|) ∧ f64.sign y = false :=
      fun h0 h => ⟨h, Ap.sgn big64 h (Real.arsinh_pos_iff.mpr h0)⟩
    have hs := (f64.fabs_facts x).1
    have ha0 := abs_nonneg X
    obtain ⟨a, hA⟩ : ∃ a, a = |X| := ⟨_, rfl⟩
    rw [← hA] at c1 c2 c3 ha ha0 sg ⊢
    unfold asinhAbs
    by_cases h1 : f64.mag x / 2 ^ 52 < 0x3ff + 26
    · rw [if_neg (by omega)]
      have b1 := c1.mp h1
      by_cases h2 : f64.mag x / 2 ^ 52 < 0x3ff + 1
      · rw [if_neg (by omega)]
        have b2 := c2.mp h2
        by_cases h3 : f64.mag x / 2 ^ 52 < 0x3ff - 26
        · rw [if_neg (by omega)]
          have b3 := c3.mp h3
          refine ⟨_, rfl, tinyAp ha (arsinh_tiny ha0 (by norm_num1 at *; linarith)) ?_, hs⟩
          have : a * a ≤ 1 / 2 ^ 26 * (1 / 2 ^ 26) := mul_le_mul b3.le b3.le ha0 (by positivity)
          rw [s64]
          norm_num1 at *
          linarith
        · rw [if_pos (by omega)]
          have b3 := not_lt.mp (mt c3.mpr h3)
          obtain ⟨z, e, h⟩ := asSmall_spec H N ha (le_trans (by norm_num) b3) b2.le
          exact ⟨z, e, sg (lt_of_lt_of_le (by positivity) b3) h⟩
      · rw [if_pos (by omega)]
        have b2 := not_lt.mp (mt c2.mpr h2)
        obtain ⟨z, e, h⟩ := asMid_spec H N ha b2 b1.le
        exact ⟨z, e, sg (by linarith) h⟩
    · rw [if_pos (by omega)]
      have b1 := not_lt.mp (mt c1.mpr h1)
      have hp : (0 : ℝ) < 2 ^ 26 := by positivity
      have b1' : 1 ≤ a := le_trans (by norm_num) b1
      have hq : 1 / (a * a) ≤ 1 / (2 ^ 26 * 2 ^ 26) := one_div_le_one_div_of_le (by positivity) (mul_le_mul b1 b1 hp.le (by linarith))
      have hT := arsinh_big b1'
      obtain ⟨z, e, h⟩ := big_spec H N ha (le_trans (by norm_num) b1) (log_bound ha (by rw [b64]) (by linarith)) (T := Real.arsinh a)
        ⟨hT.trans (hq.trans (by norm_num)), hT.trans (hq.trans (by rw [s64]; norm_num))⟩
      exact ⟨z, e, sg (by linarith) h⟩
  obtain ⟨y, e, h1, h2⟩ := key
  unfold asinh
  simp only [abs_fab64]
  rw [e64, e]
  exact ⟨_, rfl, restore hx h1 h2 Real.arsinh_neg (sgn64 x)⟩

theorem acosh_fin (N : FPU f64) {x : BitVec f64.w} {X : ℝ} (hx : GFv f64 x X) (h : 1 < X) : Ok (acosh N x) fun z => Ap f64 z 6 (Real.arcosh X) ∧ f64.sign z = false := by
  have H := fn64 N
  have sg : ∀ {y : BitVec f64.w}, Ap f64 y 6 (Real.arcosh X) → Ap f64 y 6 (Real.arcosh X) ∧ f64.sign y = false :=
    fun h1 => ⟨h1, Ap.sgn big64 h1 (by
      unfold Real.arcosh
      exact Real.log_pos (by linarith [Real.sqrt_nonneg (X ^ 2 - 1)]))⟩
  have hsx := hx.sign_of_pos (by linarith)
  have hm : x.toNat = f64.mag x := by have := f64.toNat_eq x; rw [hsx] at this; simpa using this
  have hma : x.toNat &&& 0x7fffffffffffffff = f64.mag x := by
    rw [show (0x7fffffffffffffff : ℕ) = 2 ^ 63 - 1 from rfl, Nat.and_two_pow_sub_one_eq_mod]; rfl
  have c1 := hx.mag_lt (c := 0x4000000000000000) (q := 2) (by decide +kernel)
  have c2 := hx.mag_lt (c := 0x4190000000000000) (q := 2 ^ 26) (by decide +kernel)
  rw [abs_of_pos (by linarith)] at c1 c2
  push_cast at c1 c2
  unfold acosh
  simp only
  rw [hma, hm]
  by_cases h1 : f64.mag x < 0x4000000000000000
  · rw [if_pos h1]
    obtain ⟨z, e, g⟩ := acSmall_spec H N hx h (c1.mp h1) (by rw [s64])
    exact ⟨z, e, sg g⟩
  · rw [if_neg h1]
    have b1 := not_lt.mp (mt c1.mpr h1)
    by_cases h2 : f64.mag x < 0x4190000000000000
    · rw [if_pos h2]
      obtain ⟨z, e, g⟩ := acMid_spec H N hx b1 (c2.mp h2).le
      exact ⟨z, e, sg g⟩
    · rw [if_neg h2]
      have b2 := not_lt.mp (mt c2.mpr h2)
      have hp : (0 : ℝ) < 2 ^ 26 := by positivity
      have hq : 1 / (X * X) ≤ 1 / (2 ^ 26 * 2 ^ 26) := one_div_le_one_div_of_le (by positivity) (mul_le_mul b2 b2 hp.le (by linarith))
      have hT := arcosh_big b1
      obtain ⟨z, e, g⟩ := big_spec H N hx (le_trans (by norm_num) b2) (log_bound hx (by rw [b64]) (by linarith)) (T := Real.arcosh X)
        ⟨hT.trans (hq.trans (by norm_num)), hT.trans (hq.trans (by rw [s64]; norm_num))⟩
      exact ⟨z, e, sg g⟩

theorem atanh_fin (N : FPU f64) {x : BitVec f64.w} {X : ℝ} (hx : GFv f64 x X) (hX : |X| < 1) : Ok (atanh N x) fun z => Ap f64 z 6 (Real.artanh X) ∧ f64.sign z = f64.sign x := by
  have H := fn64 N
  have ha := hx.fabs
  have key : Ok (atanhAbs N (f64.mag x / 2 ^ 52) (f64.fabs x)) fun y => Ap f64 y 6 (Real.artanh |X|) ∧ f64.sign y = false := by
    have c1 := e_lt hx (0x3ff - 1) (1 / 2) (by decide +kernel)
    have c2 := e_lt hx (0x3ff - 32) (1 / 2 ^ 32) (by decide +kernel)
    push_cast at c1 c2
    have sg : ∀ {y : BitVec f64.w}, 0 < |X| → Ap f64 y 6 (Real.artanh |X|) → Ap f64 y 6 (Real.artanh |X|) ∧ f64.sign y = false :=
      fun h0 h => ⟨h, Ap.sgn big64 h (artanh_pos h0 hX)⟩
    have hs := (f64.fabs_facts x).1
    have ha0 := abs_nonneg X
    obtain ⟨a, hA⟩ : ∃ a, a = |X| := ⟨_, rfl⟩
    rw [← hA] at c1 c2 ha ha0 sg hX ⊢
    unfold atanhAbs
    by_cases h1 : f64.mag x / 2 ^ 52 < 0x3ff - 1
    · rw [if_pos h1]
      have b1 := c1.mp h1
      by_cases h2 : f64.mag x / 2 ^ 52 < 0x3ff - 32
      · rw [if_pos h2]
        have b2 := c2.mp h2
        refine ⟨_, rfl, tinyAp ha (artanh_tiny ha0 (by norm_num1 at *; linarith)) ?_, hs⟩
        have : a * a ≤ 1 / 2 ^ 32 * (1 / 2 ^ 32) := mul_le_mul b2.le b2.le ha0 (by positivity)
        rw [s64]
        norm_num1 at *
        linarith
      · rw [if_neg h2]
        have b2 := not_lt.mp (mt c2.mpr h2)
        obtain ⟨z, e, h⟩ := atSmall_spec H N ha b2 b1.le
        exact ⟨z, e, sg (lt_of_lt_of_le (by positivity) b2) h⟩
    · rw [if_neg h1]
      have b1 := not_lt.mp (mt c1.mpr h1)
      have hm := one_sub_min (by rw [s64]) ha b1 hX.ne
      rw [abs_of_neg (by linarith), neg_sub, show (2 : ℝ) ^ (-53 : ℤ) = 1 / 2 ^ 53 by rw [zpow_neg, one_div]; norm_cast] at hm
      obtain ⟨z, e, h⟩ := atBig_spec H N ha b1 hX hm
      exact ⟨z, e, sg (by linarith) h⟩
  obtain ⟨y, e, h1, h2⟩ := key
  unfold atanh
  simp only [abs_fab64]
  rw [e64, e]
  exact ⟨_, rfl, restore hx h1 h2 artanh_neg (sgn64 x)⟩
end InvHyp
end Verif
