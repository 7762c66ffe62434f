import Verif.Libm.Log1p
import Verif.Libm.Log1pRed
import Verif.Libm.LogFMain
import Verif.Libm.GFvSign
import Verif.Libm.NativeEq
/-! # Accuracy of `log1pf` -/
namespace Verif
open Fmt
namespace Log1p
namespace F32
open Exp.F32 (S)
open Log Log.F32

theorem hi_fv : GFv f32 LN2_HI (90851 / 2 ^ 17) := by
  have := GFv.const (F := f32) (b := LN2_HI) (q := 90851 / 2 ^ 17) (by decide +kernel) (by decide +kernel); push_cast at this; exact this
theorem lo_fv : GFv f32 LN2_LO (f32.val LN2_LO : ℚ) := GFv.const (by decide +kernel) rfl
theorem lo_le : (0 : ℝ) ≤ (f32.val LN2_LO : ℚ) ∧ ((f32.val LN2_LO : ℚ) : ℝ) ≤ 91 / 10 ^ 7 := by
  have c2 : 0 ≤ f32.val LN2_LO ∧ f32.val LN2_LO ≤ 91 / 10 ^ 7 := by decide +kernel
  refine ⟨by exact_mod_cast c2.1, ?_⟩
  have : ((f32.val LN2_LO : ℚ) : ℝ) ≤ ((91 / 10 ^ 7 : ℚ) : ℝ) := Rat.cast_le.mpr c2.2
  push_cast at this; exact this
theorem ln2_le : |(90851 / 2 ^ 17 : ℝ) + (f32.val LN2_LO : ℚ) - Real.log 2| ≤ 11 / 10 ^ 13 := by
  have c3 : |90851 / 2 ^ 17 + f32.val LN2_LO - Poly.ln2L| ≤ 1 / 10 ^ 12 := by decide +kernel
  have h1 : ((|90851 / 2 ^ 17 + f32.val LN2_LO - Poly.ln2L| : ℚ) : ℝ) ≤ ((1 / 10 ^ 12 : ℚ) : ℝ) := Rat.cast_le.mpr c3
  push_cast at h1
  have h2 := Poly.ln2_gt
  have h3 := Poly.ln2_lt
  have h4 : ((Poly.ln2H : ℚ) : ℝ) - (Poly.ln2L : ℚ) ≤ 1 / 10 ^ 26 := by unfold Poly.ln2H Poly.ln2L; push_cast; norm_num
  rw [abs_le] at h1 ⊢
  constructor <;> linarith [h1.1, h1.2]

/-- no multiple of `ln 2` -/
theorem finish0 (N : FPU f32) {f c : S} {X : ℝ} (hf : GFv f32 f X) (hX0 : -0.2929 ≤ X) (hX1 : X ≤ 0.41422) (hmin : (2 : ℝ) ^ (-24 : ℤ) ≤ |X|) (hc : GFv f32 c 0) :
    Ok (finish N f c 0) fun z => Good z (Real.log (1 + X)) := by
  obtain ⟨dk, d1, d2⟩ := ofI32_spec (k := 0) (by norm_num) (by norm_num)
  obtain ⟨W, w1, w2⟩ := whole0 big32 (Or.inl rfl) N (r := polyR N) two_fv half_fv (fun s v h => polyR_spec N s v h) (by decide +kernel) (B := 3 / 100 / 2 ^ 24)
    (n := 8) (by decide +kernel) (by rw [s32]; push_cast; norm_num) hc hf hX0 hX1 (by rw [s32]; exact hmin) (dk := dk)
    (d2.cast (by norm_num)) hi_fv lo_fv rfl
  unfold finish
  rw [d1]
  refine ⟨_, rfl, W, w1, ?_⟩
  rw [s32] at w2
  refine w2.trans (le_of_eq ?_)
  norm_num

/-- with a multiple of `ln 2` -/
theorem finishK (N : FPU f32) {x c : S} {X C η δ : ℝ} {k : ℤ} (hx : GFv f32 x X) (hX0 : 7071 / 10000 ≤ X) (hX1 : X ≤ 141422 / 100000)
    (hk : |k| ≤ 130) (hk0 : k ≠ 0) (hc : GFv f32 c C) (hη : |η| ≤ 15 / 10 * (1 / 2 ^ (f32.s + 1)))
    (hC : |C - η| ≤ δ * (1 / 2 ^ (f32.s + 1))) (hδ : δ ≤ 1 / 1000 ∨ δ ≤ 15 / 10 ∧ 24 ≤ k) :
    Ok (finish N (N.sub x one) c k) fun z => Good z (Real.log X + η + k * Real.log 2) := by
  have hkR : |(k : ℝ)| ≤ 130 := by exact_mod_cast hk
  rw [abs_le] at hk
  obtain ⟨dk, d1, d2⟩ := ofI32_spec (k := k) (by omega) (by omega)
  have hkh : |(k : ℝ) * (90851 / 2 ^ 17)| ≤ 105 := by
    rw [abs_mul, abs_of_nonneg (show (0 : ℝ) ≤ 90851 / 2 ^ 17 by norm_num)]
    norm_num1
    linarith [abs_nonneg (k : ℝ)]
  obtain ⟨c2a, c2b⟩ := lo_le
  obtain ⟨W, w1, w2⟩ := whole1p big32 (Or.inl rfl) N (r := polyR N) two_fv half_fv (fun s v h => polyR_spec N s v h) (by decide +kernel) (B := 3 / 100 / 2 ^ 24)
    (n := 8) (by decide +kernel) (by rw [s32]; push_cast; norm_num) hc one_fv hx (dk := dk) (k := k) d2 hi_fv lo_fv hX0 hX1 (jh := -17)
    ⟨90851, by push_cast; norm_num⟩ (by rw [s32]; norm_num) (by norm_num) (by rw [s32]; refine hkh.trans ?_; norm_num) (by linarith)
    (by
      rw [abs_mul, abs_of_nonneg c2a]
      have := mul_le_mul hkR c2b c2a (by norm_num)
      linarith) (by
      have := mul_le_mul hkR ln2_le (abs_nonneg _) (by norm_num)
      refine this.trans ?_
      rw [s32]; norm_num) hk0 hη hC hδ
  unfold finish
  rw [d1]
  refine ⟨_, rfl, W, w1, ?_⟩
  rw [s32] at w2
  refine w2.trans (le_of_eq ?_)
  norm_num

theorem mag_const {n : ℕ} {q : ℚ} {r : ℝ} (hn : n < f32.infRep) (h : f32.magVal ℚ n = q) (hr : (q : ℝ) = r) : f32.magVal ℝ n = r ∧ f32.Rp r := by
  have e : f32.magVal ℝ n = r := by rw [← f32.magVal_cast, h, hr]
  refine ⟨e, ?_⟩
  obtain ⟨o1, -⟩ := of_nat hn
  rw [← e, ← o1.val]
  exact f32.rp_val _

/-- the correction, for all exponents -/
theorem corr_spec (N : FPU f32) {x u : S} {X U : ℝ} {k : ℤ} (hx : GFv f32 x X) (h0 : -1 < X) (hX : X ≤ -1 / 4 ∨ 1 / 4 ≤ X) (hu : GFv f32 u U)
    (hR : f32.Rounds (1 + X) u) (he : |1 + X - U| ≤ 1 / 2 ^ (f32.s + 1) * (1 + X)) (hk1 : k < 2 → X ≤ 2) (hk2 : 2 ≤ k → 1 ≤ X) (hk3 : k < 25 → X ≤ 2 ^ (60 : ℤ)) :
    ∃ C δ, GFv f32 (corr N x u k) C ∧ |C - Real.log (1 + (1 + X - U) / U)| ≤ δ * (1 / 2 ^ (f32.s + 1)) ∧ (δ ≤ 1 / 1000 ∨ δ ≤ 15 / 10 ∧ 24 ≤ k) ∧
      (1 + X = U → k < 25 → C = 0) := by
  have hsd : f32.s = 23 ∨ f32.s = 52 := Or.inl rfl
  unfold corr
  split
  case isTrue hk =>
    split
    case isTrue h2 =>
      obtain ⟨C, c1, c2, c3⟩ := corr_gen big32 hsd N hx hu he h0 (hk3 hk) (diff2 big32 hsd N hx one_fv hu hR he (hk2 h2) (hk3 hk))
      exact ⟨C, _, c1, c2, Or.inl le_rfl, fun h _ => c3 h⟩
    case isFalse h2 =>
      obtain ⟨C, c1, c2, c3⟩ := corr_gen big32 hsd N hx hu he h0 (hk3 hk) (diff1 big32 hsd N hx one_fv hu hR he h0 hX (hk1 (by omega)))
      exact ⟨C, _, c1, c2, Or.inl le_rfl, fun h _ => c3 h⟩
  case isFalse hk =>
    have hz : GFv f32 0#f32.w 0 := by
      have := GFv.const (F := f32) (b := 0#f32.w) (q := 0) (by decide +kernel) (by decide +kernel); simpa using this
    refine ⟨0, 15 / 10, hz, ?_, Or.inr ⟨le_rfl, by omega⟩, fun _ h => absurd h hk⟩
    rw [zero_sub, abs_neg]
    have := (eta_log big32 hsd hx hu he h0).1
    have : (0 : ℝ) < 1 / 2 ^ (f32.s + 1) := by positivity
    linarith

/-- arguments that need a reduction -/
theorem far_spec (N : FPU f32) {x : S} {X : ℝ} (hx : GFv f32 x X) (h0 : -1 < X)
    (hX : (X ≤ -f32.magVal ℝ 0x3e95f61b ∧ (X ≤ -f32.magVal ℝ 0x3e95f61c ∨ x = 0xbe95f61b#f32.w)) ∨ f32.magVal ℝ 0x3ed413d0 ≤ X) :
    Ok (far N x) fun z => Good z (Real.log (1 + X)) := by
  have hsd : f32.s = 23 ∨ f32.s = 52 := Or.inl rfl
  obtain ⟨U, hu, he, hR⟩ := one_add big32 hsd N hx one_fv h0
  obtain ⟨hU, -, hlog⟩ := eta_le big32 hsd hx hu he h0
  have hη := (eta_log big32 hsd hx hu he h0).1
  generalize hud : N.add one x = u at *
  obtain ⟨b1, b2, -⟩ := pos_bits hu hU
  have b1' : u.toNat < 0xff * 2 ^ 23 := b1
  have q1 := (mag_const (n := 0x3e95f61b) (q := 0x95f61b / 2 ^ 25) (r := 0x95f61b / 2 ^ 25) (by decide +kernel) (by decide +kernel) (by norm_num)).1
  have q2 := (mag_const (n := 0x3ed413d0) (q := 0xd413d0 / 2 ^ 25) (r := 0xd413d0 / 2 ^ 25) (by decide +kernel) (by decide +kernel) (by norm_num)).1
  have q3 := mag_const (n := 0x3f3504f2) (q := 1 - 0x95f61c / 2 ^ 25) (r := 1 - 0x95f61c / 2 ^ 25) (by decide +kernel) (by decide +kernel) (by norm_num)
  have q4 := mag_const (n := 0x3fb504f4) (q := 1 + 0xd413d0 / 2 ^ 25) (r := 1 + 0xd413d0 / 2 ^ 25) (by decide +kernel) (by decide +kernel) (by norm_num)
  have q7 := (mag_const (n := 0x3e95f61c) (q := 0x95f61c / 2 ^ 25) (r := 0x95f61c / 2 ^ 25) (by decide +kernel) (by decide +kernel) (by norm_num)).1
  rw [q1, q2, q7] at hX
  have hX4 : X ≤ -1 / 4 ∨ 1 / 4 ≤ X := by
    rcases hX with ⟨h, -⟩ | h
    · left; norm_num at h; linarith
    · right; norm_num at h; linarith
  have hb2 : ∀ g : ℝ, |g| ≤ 2 → |g| ≤ 2 ^ ((f32.bias : ℤ) + 1) := fun g hg => by
    refine hg.trans ?_
    refine le_trans (by norm_num : (2 : ℝ) ≤ 2 ^ (1 : ℤ)) (zpow_le_zpow_right₀ (by norm_num) (by rw [b32]; norm_num))
  have hside : u.toNat ≤ 0x3f3504f2 ∨ 0x3fb504f4 ≤ u.toNat := by
    rcases hX with ⟨-, h | h⟩ | h
    · left
      have := hR.le_of f32 q3.2 (hb2 _ (by norm_num [abs_le])) (by linarith)
      rw [hu.val, b2, ← q3.1, f32.magValR_le_iff] at this
      exact this
    · left
      have : N.add one x = 0x3f3504f2#f32.w := by
        rw [h]; exact FPU.add_eq N FPU.softF32 (by decide +kernel) (by decide +kernel)
      rw [← hud, this]
      decide
    · right
      have := hR.ge_of f32 q4.2 (hb2 _ (by norm_num [abs_le])) (by linarith)
      rw [hu.val, b2, ← q4.1, f32.magValR_le_iff] at this
      exact this
  have hn : 2 ^ 23 ≤ u.toNat := by
    have hU2 : (2 : ℝ) ^ (-60 : ℤ) ≤ U := by
      have hm : (2 : ℝ) ^ (-24 : ℤ) ≤ 1 + X := by
        rcases le_total X (-1 / 2) with h | h
        · have := (near_one big32 hx h0 h).2
          rw [s32] at this; exact this
        · norm_num; linarith
      rw [abs_le, s32] at he
      norm_num at he hm ⊢
      linarith [he.2]
    have e : (f32.magVal ℝ (2 ^ 23)) ≤ U := by
      refine le_trans ?_ hU2
      rw [f32.magVal_eq, f32.valU_small (by rw [s32]; norm_num)]
      unfold ulp0
      rw [s32, b32, Nat.cast_pow, Nat.cast_ofNat, ← zpow_natCast, ← zpow_add₀ (by norm_num)]
      exact zpow_le_zpow_right₀ (by norm_num) (by norm_num)
    rw [b2, f32.magValR_le_iff] at e
    exact e
  generalize hnd : u.toNat = n at *
  have m1 : n + (0x3f800000 - 0x3f3504f3) < 2 ^ 32 := by omega
  set j : ℤ := ((n + 0x4afb0d) / 2 ^ 23 : ℕ) - 0x7f with hj
  set n' : ℕ := (n + 0x4afb0d) % 2 ^ 23 + 0x3f3504f3 with hn'
  have r1 : far N x = finish N (N.sub (BitVec.ofNat f32.w n') one) (corr N x u j) j := by
    unfold far
    rw [hud]
    simp only
    rw [hnd]
    unfold u32C
    rw [if_pos m1, ok_bind]
    have q1 : (n + (0x3f800000 - 0x3f3504f3)) >>> 23 = (n + 0x4afb0d) / 2 ^ 23 := by
      rw [Nat.shiftRight_eq_div_pow]
    have q2 : (n + (0x3f800000 - 0x3f3504f3)) &&& 0x007fffff = (n + 0x4afb0d) % 2 ^ 23 := by
      rw [show 0x007fffff = 2 ^ 23 - 1 from rfl, Nat.and_two_pow_sub_one_eq_mod]
    rw [q1, q2]
    unfold i32C
    rw [if_pos (by omega), ok_bind, if_pos (by omega), ok_bind]
  have hnn : (n : ℤ) = n' + j * 2 ^ 23 := by rw [hn', hj]; push_cast; omega
  have hl : 0x3f3504f3 ≤ n' := by omega
  have hu' : n' < 0x3fb504f3 := by omega
  obtain ⟨o1, o2⟩ := of_nat (F := f32) (n := n') (hu'.trans (by decide +kernel))
  have hsh : f32.magVal ℝ n = f32.magVal ℝ n' * 2 ^ j := magVal_shift (by rw [s32]; omega) (by rw [s32]; omega) (by rw [s32]; exact hnn)
  have v1 : (7071 / 10000 : ℝ) ≤ f32.magVal ℝ n' := by
    refine le_trans ?_ (f32.magValR_le_iff.mpr hl)
    have : (7071 / 10000 : ℚ) ≤ f32.magVal ℚ (0x3f3504f3) := by decide +kernel
    have := Rat.cast_le (K := ℝ).mpr this
    rw [f32.magVal_cast] at this
    push_cast at this; exact this
  have v2 : f32.magVal ℝ n' ≤ 141422 / 100000 := by
    refine le_trans (f32.magValR_le_iff.mpr hu'.le) ?_
    have : f32.magVal ℚ (0x3fb504f3) ≤ 141422 / 100000 := by decide +kernel
    have := Rat.cast_le (K := ℝ).mpr this
    rw [f32.magVal_cast] at this
    push_cast at this; exact this
  rw [hsh] at b2
  obtain ⟨V, hV⟩ : ∃ V, V = f32.magVal ℝ n' := ⟨_, rfl⟩
  rw [← hV] at b2 v1 v2 o1
  have hjb : |j| ≤ 130 := by rw [abs_le]; omega
  have hj0 : j ≠ 0 := by omega
  have heX : 1 + X ≤ 11 / 10 * U := by
    rw [abs_le, s32] at he
    norm_num at he
    linarith [he.2]
  have heX2 : U ≤ 101 / 100 * (1 + X) := by
    rw [abs_le, s32] at he
    norm_num at he
    linarith [he.1]
  have hpow : ∀ m : ℤ, j ≤ m → U ≤ 141422 / 100000 * 2 ^ m := fun m hm => by
    rw [b2]
    exact mul_le_mul v2 (zpow_le_zpow_right₀ (by norm_num) hm) (by positivity) (by norm_num)
  obtain ⟨C, δ, c1, c2, c3, -⟩ := corr_spec N (k := j) hx h0 hX4 hu hR he (fun h => by
      have := hpow 1 (by omega)
      rw [zpow_one] at this
      rw [abs_le, s32] at he
      norm_num at he this
      linarith [he.2]) (fun h => by
      have : 7071 / 10000 * (2 : ℝ) ^ (2 : ℤ) ≤ U := by
        rw [b2]
        exact mul_le_mul v1 (zpow_le_zpow_right₀ (by norm_num) h) (by positivity) (by linarith)
      norm_num at this
      linarith) (fun h => by
      have := hpow 25 (by omega)
      norm_num at this ⊢
      linarith)
  have := finishK N o1 v1 v2 hjb hj0 c1 (hη.trans (by
    have : (0 : ℝ) < 1 / 2 ^ (f32.s + 1) := by positivity
    linarith)) c2 c3
  rw [r1]
  have eL : Real.log (1 + X) = Real.log V + Real.log (1 + (1 + X - U) / U) + j * Real.log 2 := by
    have : Real.log U = Real.log V + j * Real.log 2 := by
      rw [b2, Real.log_mul (by linarith) (by positivity), Real.log_zpow]
    rw [hlog, this]; ring
  rw [eL]
  exact this

/-- the only argument with a reduction and no multiple of `ln 2` -/
theorem far_edge (N : FPU f32) : Ok (far N 0xbe95f61a#f32.w) fun z => Good z (Real.log (1 + (-(0x95f61a / 2 ^ 25)))) := by
  have e1 : N.add one 0xbe95f61a#f32.w = 0x3f3504f3#f32.w := FPU.add_eq N FPU.softF32 (by decide +kernel) (by decide +kernel)
  have e2 : N.sub 0x3f3504f3#f32.w one = 0xbe95f61a#f32.w := FPU.sub_eq N FPU.softF32 (by decide +kernel) (by decide +kernel)
  have e3 : N.sub 0xbe95f61a#f32.w 0xbe95f61a#f32.w = 0#f32.w := FPU.sub_eq N FPU.softF32 (by decide +kernel) (by decide +kernel)
  have e4 : N.div 0#f32.w 0x3f3504f3#f32.w = 0#f32.w := FPU.div_eq N FPU.softF32 (by decide +kernel) (by decide +kernel) (by decide +kernel) (by decide +kernel)
  have r1 : far N 0xbe95f61a#f32.w = finish N (N.sub 0x3f3504f3#f32.w one) (N.div (N.sub 0xbe95f61a#f32.w (N.sub 0x3f3504f3#f32.w one)) 0x3f3504f3#f32.w) 0 := by
    unfold far
    rw [e1]
    simp only
    rw [show u32C (BitVec.toNat 0x3f3504f3#f32.w + (0x3f800000 - 0x3f3504f3)) = .ok 0x3f800000 by decide +kernel, ok_bind,
      show i32C (((0x3f800000 >>> 23 : ℕ) : ℤ) - 0x7f) = .ok 0 by decide +kernel, ok_bind,
      show u32C ((0x3f800000 &&& 0x007fffff) + 0x3f3504f3) = .ok 0x3f3504f3 by decide +kernel, ok_bind]
    unfold corr
    rw [if_pos (by norm_num), if_neg (by norm_num)]
  rw [r1, e2, e3, e4]
  have hx : GFv f32 0xbe95f61a#f32.w (-(0x95f61a / 2 ^ 25)) := by
    have := GFv.const (F := f32) (b := 0xbe95f61a#f32.w) (q := -(0x95f61a / 2 ^ 25)) (by decide +kernel) (by decide +kernel); push_cast at this; exact this
  have hz : GFv f32 0#f32.w 0 := by
    have := GFv.const (F := f32) (b := 0#f32.w) (q := 0) (by decide +kernel) (by decide +kernel); simpa using this
  refine finish0 N hx (by norm_num) (by norm_num) ?_ hz
  rw [abs_of_neg (by norm_num)]; norm_num

/-- a small argument is the result -/
theorem tiny {X : ℝ} (h : |X| ≤ 2 ^ (-24 : ℤ)) : |X - Real.log (1 + X)| ≤ 1 / 2 ^ 23 * |Real.log (1 + X)| := by
  rw [show (2 : ℝ) ^ (-24 : ℤ) = 1 / 2 ^ 24 by norm_num] at h
  have h1 := log_lin (y := X) (h.trans (by norm_num))
  have h2 : X ^ 2 ≤ 1 / 2 ^ 24 * |X| := by
    rw [← sq_abs, sq]; exact mul_le_mul_of_nonneg_right h (abs_nonneg _)
  have h3 := abs_sub_abs_le_abs_sub X (Real.log (1 + X))
  rw [abs_sub_comm] at h1
  have h4 : |X| ≤ 11 / 10 * |Real.log (1 + X)| := by
    norm_num1 at *
    linarith [abs_nonneg X, abs_nonneg (Real.log (1 + X))]
  norm_num1 at *
  linarith [abs_nonneg X, abs_nonneg (Real.log (1 + X))]

theorem mone_fv : GFv f32 mone (-1) := by
  have := GFv.const (F := f32) (b := mone) (q := -1) (by decide +kernel) (by decide +kernel); push_cast at this; exact this

theorem bits32 (x : S) : x.toNat = f32.mag x + if f32.sign x then 2 ^ 31 else 0 := by
  rw [f32.toNat_eq x, add_comm]; rfl

/-- `log1pf` of a finite number above `-1` -/
theorem log1pf_spec (N : FPU f32) {x : S} {X : ℝ} (hx : GFv f32 x X) (h0 : -1 < X) : Ok (log1pf N x) fun z => Good z (Real.log (1 + X)) := by
  have ha := hx.abs_eq
  have hs := hx.eq_abs
  have hb := bits32 x
  have hm : f32.mag x < 0xff * 2 ^ 23 := hx.fin
  have q1 := (mag_const (n := 0x3e95f61b) (q := 0x95f61b / 2 ^ 25) (r := 0x95f61b / 2 ^ 25) (by decide +kernel) (by decide +kernel) (by norm_num)).1
  have q2 := (mag_const (n := 0x3ed413d0) (q := 0xd413d0 / 2 ^ 25) (r := 0xd413d0 / 2 ^ 25) (by decide +kernel) (by decide +kernel) (by norm_num)).1
  have q5 := (mag_const (n := 0x3f800000) (q := 1) (r := 1) (by decide +kernel) (by decide +kernel) (by norm_num)).1
  have q6 := (mag_const (n := 0x33800000) (q := 1 / 2 ^ 24) (r := 1 / 2 ^ 24) (by decide +kernel) (by decide +kernel) (by norm_num)).1
  have hz : GFv f32 0#f32.w 0 := by
    have := GFv.const (F := f32) (b := 0#f32.w) (q := 0) (by decide +kernel) (by decide +kernel); simpa using this
  unfold log1pf
  simp only [Nat.shiftRight_eq_div_pow, Nat.shiftLeft_eq]
  rw [hb]
  have t1 : f32.mag x < 0x33800000 → Ok (Except.ok x : M S) fun z => Good z (Real.log (1 + X)) := fun h => by
    refine ⟨x, rfl, X, hx, tiny ?_⟩
    have := (f32.magValR_lt_iff.mpr h).le
    rw [q6, ← ha] at this
    norm_num at this ⊢; exact this
  have t2 : 0x33800000 ≤ f32.mag x → (2 : ℝ) ^ (-24 : ℤ) ≤ |X| := fun h => by
    have := f32.magValR_le_iff.mpr h
    rw [q6, ← ha] at this
    norm_num at this ⊢; exact this
  cases hsg : f32.sign x
  · rw [hsg] at hs
    simp only [Bool.false_eq_true, if_false, add_zero] at hs ⊢
    by_cases c1 : f32.mag x < 0x3ed413d0
    · rw [if_pos (Or.inl c1), if_neg (by omega)]
      by_cases c2 : f32.mag x < 0x33800000
      · rw [if_pos (by omega)]; exact t1 c2
      · rw [if_neg (by omega), if_pos (by omega)]
        refine finish0 N hx ?_ ?_ (t2 (by omega)) hz
        · rw [hs]; norm_num; linarith [abs_nonneg X]
        · have := (f32.magValR_lt_iff.mpr (show f32.mag x < 0x3ed413d0 by omega)).le
          rw [q2, ← ha, ← hs] at this
          norm_num at this ⊢; linarith
    · rw [if_neg (by omega), if_neg (by omega)]
      refine far_spec N hx h0 (Or.inr ?_)
      rw [hs, ha]
      exact f32.magValR_le_iff.mpr (by omega)
  · rw [hsg] at hs
    simp only [if_true] at hs ⊢
    have hlt : f32.mag x < 0x3f800000 := by
      rw [← f32.magValR_lt_iff, ← ha, q5]; linarith
    rw [if_pos (Or.inr (by omega)), if_neg (by omega)]
    by_cases c2 : f32.mag x < 0x33800000
    · rw [if_pos (by omega)]; exact t1 c2
    · rw [if_neg (by omega)]
      by_cases c3 : f32.mag x < 0x3e95f61a
      · rw [if_pos (by omega)]
        refine finish0 N hx ?_ ?_ (t2 (by omega)) hz
        · have := (f32.magValR_lt_iff.mpr (c3.trans (by norm_num : 0x3e95f61a < 0x3e95f61b))).le
          rw [q1, ← ha] at this
          norm_num at this ⊢; linarith
        · norm_num; linarith [abs_nonneg X]
      · rw [if_neg (by omega)]
        by_cases c4 : f32.mag x = 0x3e95f61a
        · have hxe : x = 0xbe95f61a#f32.w := by apply BitVec.eq_of_toNat_eq; rw [hb, hsg, c4]; rfl
          have q8 := (mag_const (n := 0x3e95f61a) (q := 0x95f61a / 2 ^ 25) (r := 0x95f61a / 2 ^ 25) (by decide +kernel) (by decide +kernel) (by norm_num)).1
          have := far_edge N
          rw [hxe, hs, ha, c4, q8]; exact this
        · refine far_spec N hx h0 (Or.inl ⟨?_, ?_⟩)
          · rw [hs, ha]
            exact neg_le_neg (f32.magValR_le_iff.mpr (by omega))
          · by_cases c5 : f32.mag x = 0x3e95f61b
            · right; apply BitVec.eq_of_toNat_eq; rw [hb, hsg, c5]; rfl
            · left
              rw [hs, ha]
              exact neg_le_neg (f32.magValR_le_iff.mpr (by omega))
end F32
end Log1p
end Verif
