import Verif.Libm.Atan
import Verif.Libm.AtanRed
import Verif.Libm.GFvSign
import Verif.Libm.HypotFast
/-! # Accuracy of `atan` -/
namespace Verif
open Fmt
namespace Atan

/-- the polynomial by its program -/
theorem polyOk {F : Fmt} (hF : F.Big) (N : FPU F) {p : BitVec F.w → BitVec F.w} {e : Ex} {cs : List (BitVec F.w)} {pl : List ℚ} (h1 : ∀ t, p t = e.flt N (Ex.cLeaf t cs))
    (h2 : ∀ T, e.ideal (Ex.cVal T cs) = T * T * Poly.ev pl (T * T)) (hcs : (cs.all fun c => decide (F.mag c < F.infRep)) = true) {b Sm eS B : ℚ} {n : ℕ} {B' : ℝ}
    (hc : e.errLe F.s (1 / 2 ^ 150) (Ex.cInfo ⟨b, 0, false⟩ cs) false Sm (eS * (1 / 2 ^ (F.s + 1))) = true) (hb : b ≤ 7 / 16)
    (hP : Poly.chk (0 :: Poly.sub pl Poly.atL) B n 0 (b * b) = true) (hB : (B : ℝ) + 1 / 2 ^ 68 ≤ B' * (1 / 2 ^ (F.s + 1))) : PolyOk F p b Sm eS B' := by
  intro t T hT hTb
  have ht : (1 : ℝ) / 2 ^ 150 ≤ ((1 / 2 ^ 150 : ℚ) : ℝ) * 1 := by push_cast; norm_num
  have hl := Ex.cHolds (σ := 1) (hT.holds (A := b) (sc := false) (by simpa [Ex.sv] using hTb)) (cs := cs) hcs
  have h3 := Ex.holds_of_errLe hF N one_pos (le_refl 1) ht hl hc
  rw [h2, ← h1] at h3
  obtain ⟨f, a, v⟩ := h3
  simp only [Ex.sv, Bool.false_eq_true, if_false, mul_one] at a v
  push_cast at a v
  have hb' : ((b : ℚ) : ℝ) ≤ 7 / 16 := by have := Rat.cast_le (K := ℝ).mpr hb; push_cast at this; exact this
  have h4 := Poly.atan_rat hP (hTb.trans hb') (by
    push_cast
    rw [← abs_mul_abs_self]
    exact mul_self_le_mul_self (abs_nonneg _) hTb)
  exact ⟨_, _, ⟨f, rfl⟩, v, a, h4.trans (mul_le_mul_of_nonneg_right hB (abs_nonneg _))⟩

/-- a row of the tables -/
theorem tab_of {F : Fmt} (hs : F.s = 23 ∨ F.s = 52) {hi lo : BitVec F.w} {A : ℝ} {q : ℚ} (hA : |A - q| ≤ 2 / 10 ^ 20) (h : F.mag hi < F.infRep ∧ F.mag lo < F.infRep ∧
    |F.val hi + F.val lo - q| ≤ 1 / 10000 * (1 / 2 ^ (F.s + 1)) ∧ |F.val lo| ≤ 1 / 10 ^ 6) : Tab F hi lo A := by
  obtain ⟨h1, h2, h3, h4⟩ := h
  have h3' := Rat.cast_le (K := ℝ).mpr h3
  have h4' := Rat.cast_le (K := ℝ).mpr h4
  push_cast at h3' h4'
  refine ⟨_, _, GFv.const h1 rfl, GFv.const h2 rfl, ?_, h4'⟩
  have hu3 := u_ge hs
  have e := abs_sub (((F.val hi : ℚ) : ℝ) + (F.val lo : ℚ) - q) (A - q)
  rw [sub_sub_sub_cancel_right] at e
  have : (2 : ℝ) / 10 ^ 20 ≤ 9 / 10000 * (1 / 2 ^ 53) := by norm_num
  linarith

theorem pi4_near : |Real.pi / 4 - ((314159265358979323846 / 10 ^ 20 / 4 : ℚ) : ℝ)| ≤ 2 / 10 ^ 20 := by
  have := Poly.pi_near
  push_cast at this ⊢
  rw [abs_le] at this ⊢
  constructor <;> linarith [this.1, this.2]
theorem pi2_near : |Real.pi / 2 - ((314159265358979323846 / 10 ^ 20 / 2 : ℚ) : ℝ)| ≤ 2 / 10 ^ 20 := by
  have := Poly.pi_near
  push_cast at this ⊢
  rw [abs_le] at this ⊢
  constructor <;> linarith [this.1, this.2]

/-- the result with its sign -/
theorem signed {F : Fmt} {x z : BitVec F.w} {X W c : ℝ} (hx : GFv F x X) (hz : GFv F z W) (h : |W - Real.arctan (|X|)| ≤ c * |Real.arctan (|X|)|) :
    ∃ V, GFv F (if F.sign x then F.neg z else z) V ∧ |V - Real.arctan X| ≤ c * |Real.arctan X| ∧ |V| = |W| := by
  have e := hx.eq_abs
  split <;> rename_i hs
  · rw [hs, if_pos rfl] at e
    refine ⟨-W, hz.neg, ?_, abs_neg _⟩
    rw [e, Real.arctan_neg, abs_neg, ← neg_sub', abs_neg]; exact h
  · rw [if_neg hs] at e
    rw [e]
    exact ⟨W, hz, h, rfl⟩

section f64
open Pio2 Hypot

theorem big64 : f64.Big := ⟨by rw [b64]; norm_num, by rw [s64]; norm_num⟩

def cs : List D := [AT0, AT1, AT2, AT3, AT4, AT5, AT6, AT7, AT8, AT9, AT10]
def pl : List ℚ := [f64.val AT0, f64.val AT1, f64.val AT2, f64.val AT3, f64.val AT4, f64.val AT5, f64.val AT6, f64.val AT7, f64.val AT8, f64.val AT9, f64.val AT10]
open Ex in
def rEx : Ex :=
  let z := mul (leaf 0) (leaf 0)
  let w := mul z z
  let s1 := mul z (add (leaf 1) (mul w (add (leaf 3) (mul w (add (leaf 5) (mul w (add (leaf 7) (mul w (add (leaf 9) (mul w (leaf 11)))))))))))
  let s2 := mul w (add (leaf 2) (mul w (add (leaf 4) (mul w (add (leaf 6) (mul w (add (leaf 8) (mul w (leaf 10)))))))))
  add s1 s2

theorem ideal_rEx (T : ℝ) : rEx.ideal (Ex.cVal T cs) = T * T * Poly.ev pl (T * T) := by
  simp only [rEx, Ex.ideal, Ex.cVal, cs, pl, Poly.ev, List.getD_cons_zero, List.getD_cons_succ]
  ring

theorem poly_small (N : FPU f64) : PolyOk f64 (polyS N) (21 / 100) (152 / 10000) (4 / 100) (1 / 10) := by
  have := polyOk big64 N (p := polyS N) (e := rEx) (cs := cs) (fun t => rfl) ideal_rEx (by decide +kernel) (b := 21 / 100) (Sm := 152 / 10000) (eS := 4 / 100)
    (B := 5 / 100 / 2 ^ 53) (n := 12) (B' := 1 / 10) (by decide +kernel) (by norm_num) (by decide +kernel) (by rw [s64]; push_cast; norm_num)
  push_cast at this; exact this
theorem poly_big (N : FPU f64) : PolyOk f64 (polyS N) (7 / 16) (73 / 1000) (25 / 100) (1 / 10) := by
  have := polyOk big64 N (p := polyS N) (e := rEx) (cs := cs) (fun t => rfl) ideal_rEx (by decide +kernel) (b := 7 / 16) (Sm := 73 / 1000) (eS := 25 / 100)
    (B := 5 / 100 / 2 ^ 53) (n := 12) (B' := 1 / 10) (by decide +kernel) (by norm_num) (by decide +kernel) (by rw [s64]; push_cast; norm_num)
  push_cast at this; exact this

theorem one_fv : GFv f64 one 1 := (GFv.const (q := 1) (by decide +kernel) (by decide +kernel)).cast (by norm_num)
theorem two_fv : GFv f64 two 2 := (GFv.const (q := 2) (by decide +kernel) (by decide +kernel)).cast (by norm_num)
theorem oneh_fv : GFv f64 oneh (3 / 2) := (GFv.const (q := 3 / 2) (by decide +kernel) (by decide +kernel)).cast (by norm_num)
theorem mone_fv : GFv f64 mone (-1) := (GFv.const (q := -1) (by decide +kernel) (by decide +kernel)).cast (by norm_num)

theorem hi3_lt : f64.valK ℝ (HI 3) ≤ Real.pi / 2 ∧ (15707 / 10000 : ℝ) ≤ f64.valK ℝ (HI 3) := by
  have h1 : f64.val (HI 3) ≤ 314159265358979323846 / 10 ^ 20 / 2 - 1 / 10 ^ 19 := by decide +kernel
  have h2 : (15707 / 10000 : ℚ) ≤ f64.val (HI 3) := by decide +kernel
  have h1' := Rat.cast_le (K := ℝ).mpr h1
  have h2' := Rat.cast_le (K := ℝ).mpr h2
  rw [f64.valK_cast] at h1' h2'
  have := pi2_near
  push_cast at h1' h2' this
  rw [abs_le] at this
  exact ⟨by linarith [this.1], h2'⟩

/-- what is claimed of a result -/
def Good (z : D) (X : ℝ) : Prop := ∃ W, GFv f64 z W ∧ |W - Real.arctan X| ≤ 1 / 2 ^ 52 * |Real.arctan X| ∧ |W| ≤ f64.valK ℝ (HI 3)

theorem atan_le {X : ℝ} (h : X ≤ 39 / 16) : Real.arctan X ≤ 152 / 100 := by
  have h1 : Real.arctan X ≤ Real.arctan (39 / 16) := Real.arctan_strictMono.monotone h
  have h2 := Poly.atan_inf_red (x := 39 / 16) (by norm_num)
  have h3 : Real.arctan (-1 / (39 / 16)) ≤ Real.arctan (-(1 / 10)) := Real.arctan_strictMono.monotone (by norm_num)
  rw [Real.arctan_neg] at h3
  have h4 := caseT (X := 1 / 10) (ε := 1 / 10) (by norm_num) (by norm_num) (by norm_num) (by norm_num)
  have h5 := Real.pi_lt_d4
  have h6 : 0 ≤ Real.arctan (1 / 10) := Real.arctan_nonneg.mpr (by norm_num)
  rw [abs_of_nonneg h6, abs_le] at h4
  norm_num at h5
  linarith [h4.2]

theorem range_of {W θ : ℝ} (h : |W - θ| ≤ 2 * (1 / 2 ^ (f64.s + 1)) * |θ|) (h0 : |θ| ≤ 152 / 100) : |W| ≤ f64.valK ℝ (HI 3) := by
  have := hi3_lt.2
  have h1 := abs_add_le (W - θ) θ
  rw [sub_add_cancel] at h1
  have hu := u_le (F := f64) (Or.inr rfl)
  have hu0 : (0 : ℝ) < 1 / 2 ^ (f64.s + 1) := by positivity
  have h2 : 2 * (1 / 2 ^ (f64.s + 1)) * |θ| ≤ 2 * (1 / 2 ^ 24) * (152 / 100) := mul_le_mul (by linarith) h0 (abs_nonneg _) (by positivity)
  have h3 : 2 * (1 / 2 ^ 24) * (152 / 100 : ℝ) ≤ 1 / 1000 := by norm_num
  linarith

/-- a rounded result is not above `HI 3` -/
theorem range_rnd {v : ℝ} {z : D} (h : f64.Rounds v z) (hv : v ≤ f64.valK ℝ (HI 3) + f64.valK ℝ (LO 3) + 4 / 10000 * (1 / 2 ^ (f64.s + 1))) :
    f64.valK ℝ z ≤ f64.valK ℝ (HI 3) := by
  by_contra hc
  rw [not_le] at hc
  have h1 := f64.gap_rel (b := HI 3) (c := z) (by linarith [hi3_lt.2]) hc
  have h2 : f64.valK ℝ (LO 3) ≤ 62 / 10 ^ 18 := by
    have : f64.val (LO 3) ≤ 62 / 10 ^ 18 := by decide +kernel
    have := Rat.cast_le (K := ℝ).mpr this
    rw [f64.valK_cast] at this
    push_cast at this; exact this
  have h3 := h.near f64 (f64.rp_val (HI 3)) (by
    rw [abs_of_nonneg (by linarith [hi3_lt.2])]
    have h8 : f64.valK ℝ (HI 3) ≤ 2 ^ (1 : ℤ) := by
      have := Real.pi_lt_d4
      have := hi3_lt.1
      norm_num at *
      linarith
    exact h8.trans (zpow_le_zpow_right₀ (by norm_num) (by rw [b64]; norm_num)))
  have h4 := hi3_lt.2
  rw [s64] at h1 hv
  have h5 : (15707 / 10000 : ℝ) / 2 ^ (52 + 1) ≤ f64.valK ℝ z / 2 ^ (52 + 1) := by gcongr; linarith
  have h6 : f64.valK ℝ (LO 3) + 4 / 10000 * (1 / 2 ^ (52 + 1)) < 1 / 2 * ((15707 / 10000 : ℝ) / 2 ^ (52 + 1)) := by
    norm_num at h2 ⊢; linarith
  generalize (15707 / 10000 : ℝ) / 2 ^ (52 + 1) = g at *
  generalize f64.valK ℝ (LO 3) + 4 / 10000 * (1 / 2 ^ (52 + 1)) = k at *
  rcases le_total v (f64.valK ℝ (HI 3)) with h7 | h7
  · rw [abs_of_nonpos (by linarith), abs_of_nonpos (by linarith)] at h3; linarith
  · rw [abs_of_nonneg (a := v - f64.valK ℝ (HI 3)) (by linarith), abs_of_nonpos (by linarith)] at h3; linarith

theorem tab0 : Tab f64 (HI 0) (LO 0) (Real.arctan (1 / 2)) := tab_of (Or.inr rfl) Poly.atan_half_near (by decide +kernel)
theorem tab1 : Tab f64 (HI 1) (LO 1) (Real.pi / 4) := tab_of (Or.inr rfl) pi4_near (by decide +kernel)
theorem tab2 : Tab f64 (HI 2) (LO 2) (Real.arctan (3 / 2)) := tab_of (Or.inr rfl) Poly.atan_oneh_near (by decide +kernel)
theorem tab3 : Tab f64 (HI 3) (LO 3) (Real.pi / 2) := tab_of (Or.inr rfl) pi2_near (by decide +kernel)

theorem uu : 2 * (1 / 2 ^ (f64.s + 1)) = (1 : ℝ) / 2 ^ 52 := by rw [s64]; norm_num

/-- a positive argument that is reduced -/
theorem red_spec (N : FPU f64) {x : D} {X : ℝ} (hx : GFv f64 x X) (h0 : 7 / 16 ≤ X) :
    Ok (finish N (reduce N (f64.mag x / 2 ^ 32) x).1 (reduce N (f64.mag x / 2 ^ 32) x).2) fun z => Good z X := by
  have hX : |X| = X := abs_of_nonneg (by linarith)
  have t1 := hx.hi_lt (c := 0x3ff30000) (q := 19 / 16) (by decide +kernel)
  have t2 := hx.hi_lt (c := 0x3fe60000) (q := 11 / 16) (by decide +kernel)
  have t3 := hx.hi_lt (c := 0x40038000) (q := 39 / 16) (by decide +kernel)
  rw [hX] at t1 t2 t3
  push_cast at t1 t2 t3
  have hθ0 : 0 ≤ Real.arctan X := Real.arctan_nonneg.mpr (by linarith)
  have key : ∀ z W, GFv f64 z W → |W - Real.arctan X| ≤ 2 * (1 / 2 ^ (f64.s + 1)) * |Real.arctan X| → X ≤ 39 / 16 → Good z X := by
    intro z W w1 w2 h
    exact ⟨W, w1, by rw [← uu]; exact w2, range_of w2 (by rw [abs_of_nonneg hθ0]; exact atan_le h)⟩
  unfold reduce
  split
  case isTrue h =>
    have h := t1.mp h
    split
    case isTrue h' =>
      have h' := t2.mp h'
      obtain ⟨W, w1, w2⟩ := case0 big64 (Or.inr rfl) N (poly_small N) hx one_fv two_fv h0 h'.le tab0
      exact ⟨_, rfl, key _ W w1 w2 (by linarith)⟩
    case isFalse h' =>
      have h' := not_lt.mp (mt t2.mpr h')
      obtain ⟨W, w1, w2⟩ := case1 big64 (Or.inr rfl) N (poly_small N) hx one_fv h' h.le tab1
      exact ⟨_, rfl, key _ W w1 w2 (by linarith)⟩
  case isFalse h =>
    have h := not_lt.mp (mt t1.mpr h)
    split
    case isTrue h' =>
      have h' := t3.mp h'
      obtain ⟨W, w1, w2⟩ := case2 big64 (Or.inr rfl) N (poly_small N) hx one_fv oneh_fv h h'.le tab2
      exact ⟨_, rfl, key _ W w1 w2 (by linarith)⟩
    case isFalse h' =>
      have h' := not_lt.mp (mt t3.mpr h')
      obtain ⟨W, w1, w2, v, w3, w4⟩ := case3 big64 (Or.inr rfl) N hx (poly_big N) mone_fv h' tab3
      refine ⟨_, rfl, W, w1, by rw [← uu]; exact w2, ?_⟩
      have h5 := range_rnd w3 w4
      rw [w1.val] at h5
      rw [abs_of_nonneg]
      · exact h5
      · have hu := u_le (F := f64) (Or.inr rfl)
        rw [abs_of_nonneg hθ0] at w2
        have h6 : 2 * (1 / 2 ^ (f64.s + 1)) * Real.arctan X ≤ 1 * Real.arctan X := mul_le_mul_of_nonneg_right (by norm_num at hu ⊢; linarith) hθ0
        rw [abs_le] at w2
        linarith [w2.1]

/-- the constant result -/
theorem add_tiny (N : FPU f64) : N.add (HI 3) tiny = HI 3 := by
  have e := (FPU.softF64.add_spec (HI 3) tiny)
  have h2 := N.add_spec (HI 3) tiny
  have : FPU.softF64.add (HI 3) tiny = HI 3 := by decide +kernel
  rw [this] at e
  rcases AddSpec.unique f64 h2 e with h | h
  · exact h
  · exact absurd h.2 (by decide +kernel)

/-- `atan` of a finite number -/
theorem atan_spec (N : FPU f64) {x : D} {X : ℝ} (hx : GFv f64 x X) : Ok (atan N x) fun z => Good z X := by
  have t1 := hx.hi_lt (c := 0x44100000) (q := 2 ^ 66) (by decide +kernel)
  have t2 := hx.hi_lt (c := 0x3fdc0000) (q := 7 / 16) (by decide +kernel)
  have t3 := hx.hi_lt (c := 0x3e400000) (q := 1 / 2 ^ 27) (by decide +kernel)
  push_cast at t1 t2 t3
  unfold atan
  simp only [sign64, hi64]
  have hn : f64.isNan x = false := by
    by_contra hc
    exact hx.not_nan ((f64.isNan_iff x).mp (by simpa using hc))
  rw [hn]
  have hsg : ∀ z : D, (if (if f64.sign x = true then 1 else 0) ≠ 0 then f64.neg z else z) = if f64.sign x then f64.neg z else z := by
    intro z; cases f64.sign x <;> rfl
  simp only [hsg]
  split
  case isTrue h =>
    have h := not_lt.mp (mt t1.mpr (not_lt.mpr h))
    rw [if_neg (by simp), add_tiny]
    have hX : 0 < |X| := by linarith [show (0 : ℝ) < 2 ^ 66 by positivity]
    have b := caseB hX
    have b2 : 1 / |X| ≤ 1 / 2 ^ 66 := one_div_le_one_div_of_le (by positivity) h
    have hc : GFv f64 (HI 3) (f64.valK ℝ (HI 3)) := ⟨by decide +kernel, rfl⟩
    have h3 : |f64.valK ℝ (HI 3) - Real.pi / 2| ≤ 7 / 10 ^ 17 := by
      have h1 : |f64.val (HI 3) - 314159265358979323846 / 10 ^ 20 / 2| ≤ 65 / 10 ^ 18 := by decide +kernel
      have h1' := Rat.cast_le (K := ℝ).mpr h1
      have := pi2_near
      push_cast at h1' this
      rw [f64.valK_cast] at h1'
      rw [abs_le] at this h1' ⊢
      constructor <;> linarith [h1'.1, h1'.2, this.1, this.2]
    have h4 := Real.pi_gt_d4
    have h5 : |f64.valK ℝ (HI 3) - Real.arctan (|X|)| ≤ 1 / 2 ^ 52 * |Real.arctan (|X|)| := by
      have e := abs_add_le (f64.valK ℝ (HI 3) - Real.pi / 2) (Real.pi / 2 - Real.arctan (|X|))
      rw [sub_add_sub_cancel] at e
      have h6 : 1 ≤ |Real.arctan (|X|)| := by
        have b3 : (1 : ℝ) / 2 ^ 66 ≤ 1 / 100 := by norm_num
        rw [abs_le] at b
        refine le_trans ?_ (le_abs_self _)
        norm_num at h4
        linarith [b.2]
      have h7 : (7 : ℝ) / 10 ^ 17 + 1 / 2 ^ 66 ≤ 1 / 2 ^ 52 * 1 := by norm_num
      have h8 : (1 : ℝ) / 2 ^ 52 * 1 ≤ 1 / 2 ^ 52 * |Real.arctan (|X|)| := mul_le_mul_of_nonneg_left h6 (by positivity)
      linarith
    obtain ⟨V, v1, v2, v3⟩ := signed hx hc h5
    exact ⟨_, rfl, V, v1, v2, by rw [v3, abs_of_nonneg (by linarith [hi3_lt.2])]⟩
  case isFalse h =>
  split
  case isTrue h2 =>
    have h2 := t2.mp h2
    have hr : |Real.arctan X| ≤ 152 / 100 := by
      have := Poly.atan_lip X 0
      rw [Real.arctan_zero, sub_zero, sub_zero] at this
      linarith
    split
    case isTrue h3 =>
      have h3 := t3.mp h3
      have e := caseT (X := X) (ε := 1 / 2 ^ 54) (by norm_num at h3 ⊢; linarith) (by
        rw [← abs_mul_abs_self]
        refine (mul_self_le_mul_self (abs_nonneg _) h3.le).trans ?_
        norm_num) (by norm_num) (by norm_num)
      have e' : |X - Real.arctan X| ≤ 2 * (1 / 2 ^ (f64.s + 1)) * |Real.arctan X| :=
        e.trans (mul_le_mul_of_nonneg_right (by rw [uu]; norm_num) (abs_nonneg _))
      exact ⟨_, rfl, X, hx, by rw [← uu]; exact e', range_of e' hr⟩
    case isFalse h3 =>
      have h3 := not_lt.mp (mt t3.mpr h3)
      obtain ⟨W, w1, w2⟩ := caseN big64 (Or.inr rfl) N hx (poly_big N) h3 h2.le
      exact ⟨_, rfl, W, w1, by rw [← uu]; exact w2, range_of w2 hr⟩
  case isFalse h2 =>
    have h2 := not_lt.mp (mt t2.mpr h2)
    have hm : f64.mag (f64.fabs x) = f64.mag x := (f64.fabs_facts x).2
    obtain ⟨z, z1, W, w1, w2, w3⟩ := red_spec N hx.fabs h2
    rw [hm] at z1
    rw [z1]
    obtain ⟨V, v1, v2, v3⟩ := signed hx w1 w2
    exact ⟨_, rfl, V, v1, v2, by rw [v3]; exact w3⟩
end f64
end Atan
end Verif
