import Verif.Libm.AtanMain
/-! # Accuracy of `atanf` -/
namespace Verif
open Fmt
namespace Atan
namespace F32

theorem b32 : f32.bias = 127 := by decide
theorem s32 : f32.s = 23 := rfl
theorem big32 : f32.Big := ⟨by rw [b32], by rw [s32]⟩
/-- the number nearest to `π/2` (it is greater) -/
def PI2 : S := 0x3fc90fdb#f32.w

def cs : List S := [AT0, AT1, AT2, AT3, AT4]
def pl : List ℚ := [f32.val AT0, f32.val AT1, f32.val AT2, f32.val AT3, f32.val AT4]
open Ex in
def rEx : Ex :=
  let z := mul (leaf 0) (leaf 0)
  let w := mul z z
  let s1 := mul z (add (leaf 1) (mul w (add (leaf 3) (mul w (leaf 5)))))
  let s2 := mul w (add (leaf 2) (mul w (leaf 4)))
  add s1 s2

theorem ideal_rEx (T : ℝ) : rEx.ideal (Ex.cVal T cs) = T * T * Poly.ev pl (T * T) := by
  simp only [rEx, Ex.ideal, Ex.cVal, cs, pl, Poly.ev, List.getD_cons_zero, List.getD_cons_succ]
  ring

theorem poly_small (N : FPU f32) : PolyOk f32 (polyS N) (21 / 100) (152 / 10000) (4 / 100) (1 / 10) := by
  have := polyOk big32 N (p := polyS N) (e := rEx) (cs := cs) (fun t => rfl) ideal_rEx (by decide +kernel) (b := 21 / 100) (Sm := 152 / 10000) (eS := 4 / 100)
    (B := 9 / 100 / 2 ^ 24) (n := 12) (B' := 1 / 10) (by decide +kernel) (by norm_num) (by decide +kernel) (by rw [s32]; push_cast; norm_num)
  push_cast at this; exact this
theorem poly_big (N : FPU f32) : PolyOk f32 (polyS N) (7 / 16) (73 / 1000) (25 / 100) (1 / 10) := by
  have := polyOk big32 N (p := polyS N) (e := rEx) (cs := cs) (fun t => rfl) ideal_rEx (by decide +kernel) (b := 7 / 16) (Sm := 73 / 1000) (eS := 25 / 100)
    (B := 9 / 100 / 2 ^ 24) (n := 12) (B' := 1 / 10) (by decide +kernel) (by norm_num) (by decide +kernel) (by rw [s32]; push_cast; norm_num)
  push_cast at this; exact this

theorem one_fv : GFv f32 one 1 := (GFv.const (q := 1) (by decide +kernel) (by decide +kernel)).cast (by norm_num)
theorem two_fv : GFv f32 two 2 := (GFv.const (q := 2) (by decide +kernel) (by decide +kernel)).cast (by norm_num)
theorem oneh_fv : GFv f32 oneh (3 / 2) := (GFv.const (q := 3 / 2) (by decide +kernel) (by decide +kernel)).cast (by norm_num)
theorem mone_fv : GFv f32 mone (-1) := (GFv.const (q := -1) (by decide +kernel) (by decide +kernel)).cast (by norm_num)

theorem hi3_lt : (15707 / 10000 : ℝ) ≤ f32.valK ℝ (HI 3) ∧ f32.valK ℝ (HI 3) ≤ f32.valK ℝ PI2 ∧ f32.valK ℝ PI2 ≤ 2 ∧
    f32.valK ℝ (HI 3) + f32.valK ℝ (LO 3) + 4 / 10000 * (1 / 2 ^ (f32.s + 1)) ≤ f32.valK ℝ PI2 := by
  have h1 : (15707 / 10000 : ℚ) ≤ f32.val (HI 3) := by decide +kernel
  have h2 : f32.val (HI 3) ≤ f32.val PI2 := by decide +kernel
  have h3 : f32.val PI2 ≤ 2 := by decide +kernel
  have h4 : f32.val (HI 3) + f32.val (LO 3) + 4 / 10000 * (1 / 2 ^ (f32.s + 1)) ≤ f32.val PI2 := by decide +kernel
  have h1' := Rat.cast_le (K := ℝ).mpr h1
  have h2' := Rat.cast_le (K := ℝ).mpr h2
  have h3' := Rat.cast_le (K := ℝ).mpr h3
  have h4' := Rat.cast_le (K := ℝ).mpr h4
  push_cast [f32.valK_cast] at h1' h2' h3' h4'
  exact ⟨h1', h2', h3', h4'⟩

/-- what is claimed of a result -/
def Good (z : S) (X : ℝ) : Prop := ∃ W, GFv f32 z W ∧ |W - Real.arctan X| ≤ 1 / 2 ^ 23 * |Real.arctan X| ∧ |W| ≤ f32.valK ℝ PI2

theorem range_of {W θ : ℝ} (h : |W - θ| ≤ 2 * (1 / 2 ^ (f32.s + 1)) * |θ|) (h0 : |θ| ≤ 152 / 100) : |W| ≤ f32.valK ℝ PI2 := by
  have := hi3_lt.1.trans hi3_lt.2.1
  have h1 := abs_add_le (W - θ) θ
  rw [sub_add_cancel] at h1
  have hu := u_le (F := f32) (Or.inl rfl)
  have hu0 : (0 : ℝ) < 1 / 2 ^ (f32.s + 1) := by positivity
  have h2 : 2 * (1 / 2 ^ (f32.s + 1)) * |θ| ≤ 2 * (1 / 2 ^ 24) * (152 / 100) := mul_le_mul (by linarith) h0 (abs_nonneg _) (by positivity)
  have h3 : 2 * (1 / 2 ^ 24) * (152 / 100 : ℝ) ≤ 1 / 1000 := by norm_num
  linarith

/-- a rounded result is not above `PI2` -/
theorem range_rnd {v : ℝ} {z : S} (h : f32.Rounds v z) (hv : v ≤ f32.valK ℝ (HI 3) + f32.valK ℝ (LO 3) + 4 / 10000 * (1 / 2 ^ (f32.s + 1))) :
    f32.valK ℝ z ≤ f32.valK ℝ PI2 := by
  obtain ⟨h1, h2, h3, h4⟩ := hi3_lt
  refine h.le_of f32 (f32.rp_val PI2) ?_ (hv.trans h4)
  rw [abs_of_nonneg (by linarith)]
  exact (h3.trans_eq (by norm_num : (2 : ℝ) = 2 ^ (1 : ℤ))).trans (zpow_le_zpow_right₀ (by norm_num) (by rw [b32]; norm_num))

theorem tab0 : Tab f32 (HI 0) (LO 0) (Real.arctan (1 / 2)) := tab_of (Or.inl rfl) Poly.atan_half_near (by decide +kernel)
theorem tab1 : Tab f32 (HI 1) (LO 1) (Real.pi / 4) := tab_of (Or.inl rfl) pi4_near (by decide +kernel)
theorem tab2 : Tab f32 (HI 2) (LO 2) (Real.arctan (3 / 2)) := tab_of (Or.inl rfl) Poly.atan_oneh_near (by decide +kernel)
theorem tab3 : Tab f32 (HI 3) (LO 3) (Real.pi / 2) := tab_of (Or.inl rfl) pi2_near (by decide +kernel)

theorem uu : 2 * (1 / 2 ^ (f32.s + 1)) = (1 : ℝ) / 2 ^ 23 := by rw [s32]; norm_num

/-- a positive argument that is reduced -/
theorem red_spec (N : FPU f32) {x : S} {X : ℝ} (hx : GFv f32 x X) (h0 : 7 / 16 ≤ X) :
    Ok (finish N (reduce N (f32.mag x) x).1 (reduce N (f32.mag x) x).2) fun z => Good z X := by
  have hX : |X| = X := abs_of_nonneg (by linarith)
  have t1 := hx.mag_lt (c := 0x3f980000) (q := 19 / 16) (by decide +kernel)
  have t2 := hx.mag_lt (c := 0x3f300000) (q := 11 / 16) (by decide +kernel)
  have t3 := hx.mag_lt (c := 0x401c0000) (q := 39 / 16) (by decide +kernel)
  rw [hX] at t1 t2 t3
  push_cast at t1 t2 t3
  have hθ0 : 0 ≤ Real.arctan X := Real.arctan_nonneg.mpr (by linarith)
  have key : ∀ z W, GFv f32 z W → |W - Real.arctan X| ≤ 2 * (1 / 2 ^ (f32.s + 1)) * |Real.arctan X| → X ≤ 39 / 16 → Good z X := by
    intro z W w1 w2 h
    exact ⟨W, w1, by rw [← uu]; exact w2, range_of w2 (by rw [abs_of_nonneg hθ0]; exact atan_le h)⟩
  unfold reduce
  split
  case isTrue h =>
    have h := t1.mp h
    split
    case isTrue h' =>
      have h' := t2.mp h'
      obtain ⟨W, w1, w2⟩ := case0 big32 (Or.inl rfl) N (poly_small N) hx one_fv two_fv h0 h'.le tab0
      exact ⟨_, rfl, key _ W w1 w2 (by linarith)⟩
    case isFalse h' =>
      have h' := not_lt.mp (mt t2.mpr h')
      obtain ⟨W, w1, w2⟩ := case1 big32 (Or.inl rfl) N (poly_small N) hx one_fv h' h.le tab1
      exact ⟨_, rfl, key _ W w1 w2 (by linarith)⟩
  case isFalse h =>
    have h := not_lt.mp (mt t1.mpr h)
    split
    case isTrue h' =>
      have h' := t3.mp h'
      obtain ⟨W, w1, w2⟩ := case2 big32 (Or.inl rfl) N (poly_small N) hx one_fv oneh_fv h h'.le tab2
      exact ⟨_, rfl, key _ W w1 w2 (by linarith)⟩
    case isFalse h' =>
      have h' := not_lt.mp (mt t3.mpr h')
      obtain ⟨W, w1, w2, v, w3, w4⟩ := case3 big32 (Or.inl rfl) N hx (poly_big N) mone_fv h' tab3
      refine ⟨_, rfl, W, w1, by rw [← uu]; exact w2, ?_⟩
      have h5 := range_rnd w3 w4
      rw [w1.val] at h5
      rw [abs_of_nonneg]
      · exact h5
      · have hu := u_le (F := f32) (Or.inl rfl)
        rw [abs_of_nonneg hθ0] at w2
        have h6 : 2 * (1 / 2 ^ (f32.s + 1)) * Real.arctan X ≤ 1 * Real.arctan X := mul_le_mul_of_nonneg_right (by norm_num at hu ⊢; linarith) hθ0
        rw [abs_le] at w2
        linarith [w2.1]

/-- the constant result -/
theorem add_tiny (N : FPU f32) : N.add (HI 3) tiny = HI 3 := by
  have e := (FPU.softF32.add_spec (HI 3) tiny)
  have h2 := N.add_spec (HI 3) tiny
  have : FPU.softF32.add (HI 3) tiny = HI 3 := by decide +kernel
  rw [this] at e
  rcases AddSpec.unique f32 h2 e with h | h
  · exact h
  · exact absurd h.2 (by decide +kernel)

/-- `atanf` of a finite number -/
theorem atanf_spec (N : FPU f32) {x : S} {X : ℝ} (hx : GFv f32 x X) : Ok (atanf N x) fun z => Good z X := by
  have t1 := hx.mag_lt (c := 0x4c800000) (q := 2 ^ 26) (by decide +kernel)
  have t2 := hx.mag_lt (c := 0x3ee00000) (q := 7 / 16) (by decide +kernel)
  have t3 := hx.mag_lt (c := 0x39800000) (q := 1 / 2 ^ 12) (by decide +kernel)
  push_cast at t1 t2 t3
  unfold atanf
  simp only [sign32, mag32]
  have hn : f32.isNan x = false := by
    by_contra hc
    exact hx.not_nan ((f32.isNan_iff x).mp (by simpa using hc))
  rw [hn]
  have hsg : ∀ z : S, (if (if f32.sign x = true then 1 else 0) ≠ 0 then f32.neg z else z) = if f32.sign x then f32.neg z else z := by
    intro z; cases f32.sign x <;> rfl
  simp only [hsg]
  split
  case isTrue h =>
    have h := not_lt.mp (mt t1.mpr (not_lt.mpr h))
    rw [if_neg (by simp), show Pio2.rd 4 HI 3 = .ok (HI 3) from rfl, ok_bind, add_tiny]
    have hX : 0 < |X| := by linarith [show (0 : ℝ) < 2 ^ 26 by positivity]
    have b := caseB hX
    have b2 : 1 / |X| ≤ 1 / 2 ^ 26 := one_div_le_one_div_of_le (by positivity) h
    have hc : GFv f32 (HI 3) (f32.valK ℝ (HI 3)) := ⟨by decide +kernel, rfl⟩
    have h3 : |f32.valK ℝ (HI 3) - Real.pi / 2| ≤ 8 / 10 ^ 8 := by
      have h1 : |f32.val (HI 3) - 314159265358979323846 / 10 ^ 20 / 2| ≤ 76 / 10 ^ 9 := by decide +kernel
      have h1' := Rat.cast_le (K := ℝ).mpr h1
      have := pi2_near
      push_cast at h1' this
      rw [f32.valK_cast] at h1'
      rw [abs_le] at this h1' ⊢
      constructor <;> linarith [h1'.1, h1'.2, this.1, this.2]
    have h4 := Real.pi_gt_d4
    have h5 : |f32.valK ℝ (HI 3) - Real.arctan (|X|)| ≤ 1 / 2 ^ 23 * |Real.arctan (|X|)| := by
      have e := abs_add_le (f32.valK ℝ (HI 3) - Real.pi / 2) (Real.pi / 2 - Real.arctan (|X|))
      rw [sub_add_sub_cancel] at e
      have h6 : 1 ≤ |Real.arctan (|X|)| := by
        have b3 : (1 : ℝ) / 2 ^ 26 ≤ 1 / 100 := by norm_num
        rw [abs_le] at b
        refine le_trans ?_ (le_abs_self _)
        norm_num at h4
        linarith [b.2]
      have h7 : (8 : ℝ) / 10 ^ 8 + 1 / 2 ^ 26 ≤ 1 / 2 ^ 23 * 1 := by norm_num
      have h8 : (1 : ℝ) / 2 ^ 23 * 1 ≤ 1 / 2 ^ 23 * |Real.arctan (|X|)| := mul_le_mul_of_nonneg_left h6 (by positivity)
      linarith
    obtain ⟨V, v1, v2, v3⟩ := signed hx hc h5
    exact ⟨_, rfl, V, v1, v2, by rw [v3, abs_of_nonneg (by linarith [hi3_lt.1])]; exact hi3_lt.2.1⟩
  case isFalse h =>
  split
  case isTrue h2 =>
    have h2 := t2.mp h2
    have hr : |Real.arctan X| ≤ 152 / 100 := by
      have := Poly.atan_lip X 0
      rw [Real.arctan_zero, sub_zero, sub_zero] at this
      linarith
    split
    case isTrue h3 =>
      have h3 := t3.mp h3
      have e := caseT (X := X) (ε := 1 / 2 ^ 24) (by norm_num at h3 ⊢; linarith) (by
        rw [← abs_mul_abs_self]
        refine (mul_self_le_mul_self (abs_nonneg _) h3.le).trans ?_
        norm_num) (by norm_num) (by norm_num)
      have e' : |X - Real.arctan X| ≤ 2 * (1 / 2 ^ (f32.s + 1)) * |Real.arctan X| :=
        e.trans (mul_le_mul_of_nonneg_right (by rw [uu]; norm_num) (abs_nonneg _))
      exact ⟨_, rfl, X, hx, by rw [← uu]; exact e', range_of e' hr⟩
    case isFalse h3 =>
      have h3 := not_lt.mp (mt t3.mpr h3)
      obtain ⟨W, w1, w2⟩ := caseN big32 (Or.inl rfl) N hx (poly_big N) (le_trans (by norm_num) h3) h2.le
      exact ⟨_, rfl, W, w1, by rw [← uu]; exact w2, range_of w2 hr⟩
  case isFalse h2 =>
    have h2 := not_lt.mp (mt t2.mpr h2)
    have hm : f32.mag (f32.fabs x) = f32.mag x := (f32.fabs_facts x).2
    obtain ⟨z, z1, W, w1, w2, w3⟩ := red_spec N hx.fabs h2
    rw [hm] at z1
    rw [z1]
    obtain ⟨V, v1, v2, v3⟩ := signed hx w1 w2
    exact ⟨_, rfl, V, v1, v2, by rw [v3]; exact w3⟩
end F32
end Atan
end Verif
