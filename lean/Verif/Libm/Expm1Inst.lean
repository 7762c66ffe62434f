import Verif.Libm.Expm1Core
/-! # The constants of `expm1` and `expm1f` -/
namespace Verif
open Fmt Poly
namespace Expm1

theorem s64 : f64.s = 52 := rfl
theorem b64 : f64.bias = 1023 := by decide +kernel
theorem big64 : f64.Big := ⟨by rw [b64]; norm_num, by rw [s64]; norm_num⟩
theorem s32 : f32.s = 23 := rfl
theorem b32 : f32.bias = 127 := by decide +kernel
theorem big32 : f32.Big := ⟨by rw [b32], by rw [s32]⟩

theorem qb_of {R : List ℚ} {n m : ℕ} (hP : chk (add (mul [1, 1 / 2] (spread R)) [-1]) (24 / 100) n (-3467 / 10000) (3467 / 10000) = true)
    (hD : chk (sub (m1D R) [61 / 10]) (11 / 10) m (-3467 / 10000) (3467 / 10000) = true) {X : ℝ} (hX : |X| ≤ 0.3467) :
    -(45 / 100) ≤ m1q R X ∧ m1q R X ≤ 0 := by
  have hX' := hX
  rw [abs_le] at hX'
  have h1 := chk_sound hP (t := X) (by push_cast; linarith [hX'.1]) (by push_cast; linarith [hX'.2])
  have h3 := chk_sound hD (t := X) (by push_cast; linarith [hX'.1]) (by push_cast; linarith [hX'.2])
  obtain ⟨D, hDd⟩ : ∃ D, D = 6 - 3 * X + ev R (X * X) * (X * X / 2) := ⟨_, rfl⟩
  obtain ⟨P, hPd⟩ : ∃ P, P = ev R (X * X) * (1 + X / 2) - 3 := ⟨_, rfl⟩
  have eD : ev (m1D R) X = D := by
    rw [hDd, m1D, ev_add]
    simp only [ev, ev_mul, ev_spread]
    push_cast; ring
  have eP : ev (add (mul [1, 1 / 2] (spread R)) [-1]) X = P + 2 := by
    rw [ev_add, ev_mul, hPd]
    simp only [ev, ev_spread]
    push_cast; ring
  rw [eP, abs_le] at h1
  rw [ev_sub, eD] at h3
  simp only [ev] at h3
  push_cast at h1 h3
  have hD5 : 5 ≤ D := by have := (abs_le.mp h3).1; linarith
  have hq : m1q R X = P / D := by unfold m1q; rw [hPd, hDd]
  rw [hq]
  constructor
  · rw [le_div_iff₀ (by linarith)]; linarith [h1.1]
  · exact div_nonpos_of_nonpos_of_nonneg (by linarith [h1.2]) (by linarith)

theorem ok64 : COk f64 K64 R64 where
  half := by have := GFv.const (F := f64) (b := K64.half) (q := 1 / 2) (by decide +kernel) (by decide +kernel); push_cast at this; exact this
  one := by have := GFv.const (F := f64) (b := K64.one) (q := 1) (by decide +kernel) (by decide +kernel); simpa using this
  two := by have := GFv.const (F := f64) (b := K64.two) (q := 2) (by decide +kernel) (by decide +kernel); simpa using this
  mtwo := by have := GFv.const (F := f64) (b := K64.mtwo) (q := -2) (by decide +kernel) (by decide +kernel); simpa using this
  mquart := by have := GFv.const (F := f64) (b := K64.mquart) (q := -(1 / 4)) (by decide +kernel) (by decide +kernel); push_cast at this; exact this
  pmax := by
    have := GFv.const (F := f64) (b := K64.pmax) (q := 2 ^ (1023 : ℤ)) (by decide +kernel) (by decide +kernel)
    exact this.cast (by rw [b64]; push_cast; rfl)
  kmax := by decide
  kmid := by decide
  fin := by decide +kernel
  q := by
    intro N x X hx hX
    have h : IE.split (IE.ok1 cs64 (qE p64) (3 / 2 * (1 / 2 ^ 53))) A (cuts 8 A B) B = true := by decide +kernel
    have hX' := abs_le.mp hX
    obtain ⟨v, gv, hv⟩ := IE.ok1_sound big64 N (by decide +kernel) h hx (by unfold A; push_cast; linarith [hX'.1]) (by unfold B; push_cast; linarith [hX'.2])
    refine ⟨v, gv, ?_⟩
    rw [s64]
    push_cast at hv
    convert hv using 3
    have c1 : f64.val K64.one = 1 := by decide +kernel
    have c2 : f64.val K64.half = 1 / 2 := by decide +kernel
    have c3 : f64.val K64.three = 3 := by decide +kernel
    have c4 : f64.val K64.six = 6 := by decide +kernel
    simp only [qE, p64, IE.ideal, cs64, List.getD_cons_zero, List.getD_cons_succ, m1q, R64, ev, c1, c2, c3, c4]
    push_cast
    congr 1 <;> ring
  qb X hX := qb_of (n := 6) (m := 5) (by decide +kernel) (by decide +kernel) hX
  ap := by
    intro X hX
    have := m1_rat (R := R64) (B := 1 / 100 / 2 ^ 53) (n := 12) (m := 5) (by decide +kernel) (by decide +kernel) hX
    refine this.trans (mul_le_mul_of_nonneg_left ?_ (by positivity))
    rw [s64]; push_cast; norm_num
  chk := chk64

theorem ok32 : COk f32 F32.K32 R32 where
  half := by have := GFv.const (F := f32) (b := F32.K32.half) (q := 1 / 2) (by decide +kernel) (by decide +kernel); push_cast at this; exact this
  one := by have := GFv.const (F := f32) (b := F32.K32.one) (q := 1) (by decide +kernel) (by decide +kernel); simpa using this
  two := by have := GFv.const (F := f32) (b := F32.K32.two) (q := 2) (by decide +kernel) (by decide +kernel); simpa using this
  mtwo := by have := GFv.const (F := f32) (b := F32.K32.mtwo) (q := -2) (by decide +kernel) (by decide +kernel); simpa using this
  mquart := by have := GFv.const (F := f32) (b := F32.K32.mquart) (q := -(1 / 4)) (by decide +kernel) (by decide +kernel); push_cast at this; exact this
  pmax := by
    have := GFv.const (F := f32) (b := F32.K32.pmax) (q := 2 ^ (127 : ℤ)) (by decide +kernel) (by decide +kernel)
    exact this.cast (by rw [b32]; norm_num)
  kmax := by decide
  kmid := by decide
  fin := by decide +kernel
  q := by
    intro N x X hx hX
    have h : IE.split (IE.ok1 cs32 (qE p32) (3 / 2 * (1 / 2 ^ 24))) A (cuts 8 A B) B = true := by decide +kernel
    have hX' := abs_le.mp hX
    obtain ⟨v, gv, hv⟩ := IE.ok1_sound big32 N (by decide +kernel) h hx (by unfold A; push_cast; linarith [hX'.1]) (by unfold B; push_cast; linarith [hX'.2])
    refine ⟨v, gv, ?_⟩
    rw [s32]
    push_cast at hv
    convert hv using 3
    have c1 : f32.val F32.K32.one = 1 := by decide +kernel
    have c2 : f32.val F32.K32.half = 1 / 2 := by decide +kernel
    have c3 : f32.val F32.K32.three = 3 := by decide +kernel
    have c4 : f32.val F32.K32.six = 6 := by decide +kernel
    simp only [qE, p32, IE.ideal, cs32, List.getD_cons_zero, List.getD_cons_succ, m1q, R32, ev, c1, c2, c3, c4]
    push_cast
    congr 1 <;> ring
  qb X hX := qb_of (n := 6) (m := 5) (by decide +kernel) (by decide +kernel) hX
  ap := by
    intro X hX
    have := m1_rat (R := R32) (B := 1 / 100 / 2 ^ 24) (n := 12) (m := 5) (by decide +kernel) (by decide +kernel) hX
    refine this.trans (mul_le_mul_of_nonneg_left ?_ (by positivity))
    rw [s32]; push_cast; norm_num
  chk := chk32
end Expm1
end Verif
