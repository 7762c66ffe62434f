import Verif.Libm.TrigMain
import Verif.Libm.RemPio2F
/-! # `sinf`, `cosf` and `sincosf` are faithfully rounded -/
namespace Verif
open Fmt

/-- `f64` value as a real -/
local notation "V" => Fmt.valK f64 ℝ

namespace Trig
open Pio2 Hypot

theorem s32 : f32.s = 23 := rfl
theorem b32 : f32.bias = 127 := by decide +kernel
theorem big32 : f32.Big := ⟨by rw [b32], by rw [s32]⟩

/-! ### The kernels -/

def sinfP : List ℚ := [1, f64.val S1f, f64.val S2f, f64.val S3f, f64.val S4f]
def cosfP : List ℚ := [1, f64.val C0f, f64.val C1f, f64.val C2f, f64.val C3f]

theorem sinfP_near : Poly.chk (Poly.sub Poly.sinL sinfP) (1 / 2 ^ 36) 8 0 (617 / 1000) = true := by decide +kernel
theorem cosfP_near : Poly.chk (Poly.sub Poly.cosL cosfP) (1 / 2 ^ 33) 8 0 (617 / 1000) = true := by decide +kernel

/-- the numbers of the kernels: `x z S1 ... S4`, `1 z C0 ... C3` -/
def sinfLeaf (x z : D) : ℕ → D
  | 0 => x | 1 => z | 2 => S1f | 3 => S2f | 4 => S3f | _ => S4f
def sinfVal (X Z : ℝ) : ℕ → ℝ
  | 0 => X | 1 => Z | 2 => (f64.val S1f : ℚ) | 3 => (f64.val S2f : ℚ) | 4 => (f64.val S3f : ℚ) | _ => (f64.val S4f : ℚ)
def sinfInfo : ℕ → Ex.Bd
  | 0 => ⟨1, 0, true⟩ | 1 => ⟨617 / 1000, 1 / 2 ^ 54, false⟩ | 2 => ⟨|f64.val S1f|, 0, false⟩ | 3 => ⟨|f64.val S2f|, 0, false⟩
  | 4 => ⟨|f64.val S3f|, 0, false⟩ | _ => ⟨|f64.val S4f|, 0, false⟩
def cosfLeaf (z : D) : ℕ → D
  | 0 => cone | 1 => z | 2 => C0f | 3 => C1f | 4 => C2f | _ => C3f
def cosfVal (Z : ℝ) : ℕ → ℝ
  | 0 => (f64.val cone : ℚ) | 1 => Z | 2 => (f64.val C0f : ℚ) | 3 => (f64.val C1f : ℚ) | 4 => (f64.val C2f : ℚ) | _ => (f64.val C3f : ℚ)
def cosfInfo : ℕ → Ex.Bd
  | 0 => ⟨|f64.val cone|, 0, false⟩ | 1 => ⟨617 / 1000, 1 / 2 ^ 54, false⟩ | 2 => ⟨|f64.val C0f|, 0, false⟩ | 3 => ⟨|f64.val C1f|, 0, false⟩
  | 4 => ⟨|f64.val C2f|, 0, false⟩ | _ => ⟨|f64.val C3f|, 0, false⟩

def sinfE : Ex :=
  let z := Ex.leaf 1
  let s := z.mul (.leaf 0)
  .add (.add (.leaf 0) (s.mul (.add (.leaf 2) (z.mul (.leaf 3))))) ((s.mul (z.mul z)).mul (.add (.leaf 4) (z.mul (.leaf 5))))
def cosfE : Ex :=
  let z := Ex.leaf 1
  let w := z.mul z
  .add (.add (.add (.leaf 0) (z.mul (.leaf 2))) (w.mul (.leaf 3))) ((w.mul z).mul (.add (.leaf 4) (z.mul (.leaf 5))))

theorem sinfE_err : sinfE.errLe f64.s (1 / 2 ^ 75) sinfInfo true 2 (1 / 2 ^ 50) = true := by decide +kernel
theorem cosfE_err : cosfE.errLe f64.s (1 / 2 ^ 75) cosfInfo false 2 (1 / 2 ^ 50) = true := by decide +kernel

theorem one_q : ((f64.val cone : ℚ) : ℝ) = 1 := by
  rw [show f64.val cone = 1 by decide +kernel]; norm_num

theorem sinfE_ideal (X : ℝ) : sinfE.ideal (sinfVal X (X * X)) = X * Poly.ev sinfP (X * X) := by
  simp only [sinfE, Ex.ideal, sinfVal, sinfP, Poly.ev]
  push_cast
  ring
theorem cosfE_ideal (X : ℝ) : cosfE.ideal (cosfVal (X * X)) = Poly.ev cosfP (X * X) := by
  simp only [cosfE, Ex.ideal, cosfVal, cosfP, Poly.ev, one_q]
  push_cast
  ring

theorem holds_sq {N : FPU f64} {x : D} {X : ℝ} (hx : Fv x X) (h0 : 2 ^ (-70 : ℤ) ≤ |X|) (h1 : |X| ≤ 0.78541) (σ : ℝ) :
    Ex.Holds f64 σ (N.mul x x) (X * X) ⟨617 / 1000, 1 / 2 ^ 54, false⟩ := by
  obtain ⟨ζ, f, -, e, -, -⟩ := sq_fv (N := N) hx h0 h1
  have hUv : U = 1 / 2 ^ 53 := rfl
  have hX2 : |X * X| ≤ 0.617 := by rw [abs_mul]; nlinarith [abs_nonneg X]
  refine ⟨f.fin, ?_, ?_⟩ <;> unfold Ex.sv <;> rw [if_neg (by simp), mul_one]
  · push_cast; norm_num at hX2 ⊢; exact hX2
  · rw [f.val]; refine e.trans ?_; rw [hUv]; push_cast; norm_num

theorem kSinD_spec {N : FPU f64} {x : D} {X : ℝ} (hx : Fv x X) (h0 : 2 ^ (-70 : ℤ) ≤ |X|) (h1 : |X| ≤ 0.78541) :
    ∃ S, Fv (kSinD N x) S ∧ |S - Real.sin X| ≤ 1 / 2 ^ 35 * |X| := by
  have hX0 : 0 < |X| := lt_of_lt_of_le (by positivity) h0
  have hX1 : |X| ≤ 1 := h1.trans (by norm_num)
  have hXX0 : 0 ≤ X * X := mul_self_nonneg X
  have hXX1 : X * X ≤ 0.617 := by rw [← abs_mul_abs_self]; nlinarith
  have hsv : Ex.sv |X| true = |X| := if_pos rfl
  have ht : (1 : ℝ) / 2 ^ 150 ≤ ((1 / 2 ^ 75 : ℚ) : ℝ) * |X| := by
    push_cast
    calc (1 : ℝ) / 2 ^ 150 ≤ 1 / 2 ^ 75 * 2 ^ (-70 : ℤ) := by norm_num
      _ ≤ _ := mul_le_mul_of_nonneg_left h0 (by positivity)
  have hl : ∀ i, Ex.Holds f64 |X| (sinfLeaf x (N.mul x x) i) (sinfVal X (X * X) i) (sinfInfo i) := by
    intro i
    match i with
    | 0 => exact Ex.holds_exact hx.fin hx.val (by rw [hsv]; push_cast; rw [one_mul]; exact le_refl _)
    | 1 => exact holds_sq hx h0 h1 _
    | 2 => exact Ex.holds_const (b := S1f) (by decide +kernel)
    | 3 => exact Ex.holds_const (b := S2f) (by decide +kernel)
    | 4 => exact Ex.holds_const (b := S3f) (by decide +kernel)
    | (n + 5) => exact Ex.holds_const (b := S4f) (by decide +kernel)
  obtain ⟨f, -, e⟩ := Ex.errLe_sound big64 N hX0 hX1 ht hl sinfE_err
  rw [hsv, sinfE_ideal] at e
  have hP : |X * (Poly.ev Poly.sinL (X * X) - Poly.ev sinfP (X * X))| ≤ 1 / 2 ^ 36 * |X| := by
    have := Poly.chk_sound sinfP_near (t := X * X) (by simpa using hXX0) (by push_cast; norm_num at hXX1 ⊢; linarith)
    rw [Poly.ev_sub] at this
    push_cast at this
    rw [abs_mul, mul_comm]
    exact mul_le_mul_of_nonneg_right this hX0.le
  have hT : |Real.sin X - X * Poly.ev Poly.sinL (X * X)| ≤ 1 / 2 ^ 50 * |X| := by
    refine (Poly.sin_near hX1).trans ?_
    have h20 : |X| ^ 20 = |X| ^ 19 * |X| := by ring
    rw [h20, mul_div_right_comm]
    refine mul_le_mul_of_nonneg_right ?_ hX0.le
    have : |X| ^ 19 ≤ 1 := pow_le_one₀ hX0.le hX1
    norm_num at this ⊢
    linarith
  refine ⟨V (sinfE.flt N (sinfLeaf x (N.mul x x))), ⟨f, rfl⟩, ?_⟩
  generalize V (sinfE.flt N (sinfLeaf x (N.mul x x))) = S at e
  rw [show S - Real.sin X = (S - X * Poly.ev sinfP (X * X)) - X * (Poly.ev Poly.sinL (X * X) - Poly.ev sinfP (X * X))
    - (Real.sin X - X * Poly.ev Poly.sinL (X * X)) by ring]
  refine (abs_sub _ _).trans ?_
  have t := abs_sub (S - X * Poly.ev sinfP (X * X)) (X * (Poly.ev Poly.sinL (X * X) - Poly.ev sinfP (X * X)))
  push_cast at e
  norm_num at *
  linarith

theorem kCosD_spec {N : FPU f64} {x : D} {X : ℝ} (hx : Fv x X) (h0 : 2 ^ (-70 : ℤ) ≤ |X|) (h1 : |X| ≤ 0.78541) :
    ∃ S, Fv (kCosD N x) S ∧ |S - Real.cos X| ≤ 1 / 2 ^ 32 := by
  have hX0 : 0 < |X| := lt_of_lt_of_le (by positivity) h0
  have hX1 : |X| ≤ 1 := h1.trans (by norm_num)
  have hXX0 : 0 ≤ X * X := mul_self_nonneg X
  have hXX1 : X * X ≤ 0.617 := by rw [← abs_mul_abs_self]; nlinarith
  have hsv : Ex.sv 1 false = 1 := if_neg (by simp)
  have hl : ∀ i, Ex.Holds f64 1 (cosfLeaf (N.mul x x) i) (cosfVal (X * X) i) (cosfInfo i) := by
    intro i
    match i with
    | 0 => exact Ex.holds_const (b := cone) (by decide +kernel)
    | 1 => exact holds_sq hx h0 h1 _
    | 2 => exact Ex.holds_const (b := C0f) (by decide +kernel)
    | 3 => exact Ex.holds_const (b := C1f) (by decide +kernel)
    | 4 => exact Ex.holds_const (b := C2f) (by decide +kernel)
    | (n + 5) => exact Ex.holds_const (b := C3f) (by decide +kernel)
  obtain ⟨f, -, e⟩ := Ex.errLe_sound big64 N (σ := 1) (by norm_num) (le_refl _) (tiny := 1 / 2 ^ 75) (by norm_num) hl cosfE_err
  rw [hsv, cosfE_ideal] at e
  have hP := Poly.chk_sound cosfP_near (t := X * X) (by simpa using hXX0) (by push_cast; norm_num at hXX1 ⊢; linarith)
  rw [Poly.ev_sub] at hP
  push_cast at hP e
  have hT : |Real.cos X - Poly.ev Poly.cosL (X * X)| ≤ 1 / 2 ^ 50 := by
    refine (Poly.cos_near hX1).trans ?_
    have : |X| ^ 20 ≤ 1 := pow_le_one₀ hX0.le hX1
    norm_num at this ⊢
    linarith
  refine ⟨V (cosfE.flt N (cosfLeaf (N.mul x x))), ⟨f, rfl⟩, ?_⟩
  generalize V (cosfE.flt N (cosfLeaf (N.mul x x))) = S at e
  rw [show S - Real.cos X = (S - Poly.ev cosfP (X * X)) - (Poly.ev Poly.cosL (X * X) - Poly.ev cosfP (X * X))
    - (Real.cos X - Poly.ev Poly.cosL (X * X)) by ring]
  refine (abs_sub _ _).trans ?_
  have t := abs_sub (S - Poly.ev cosfP (X * X)) (Poly.ev Poly.cosL (X * X) - Poly.ev cosfP (X * X))
  norm_num at *
  linarith

/-- the kernel argument `y` is near the angle `T` -/
def Redf (T : ℝ) (y : D) : Prop := ∃ Y, Fv y Y ∧ 2 ^ (-70 : ℤ) ≤ |Y| ∧ |Y| ≤ 0.78541 ∧ |T - Y| ≤ 0.75 / 2 ^ 25 * |Y| ∧ |T - Y| ≤ 1 / 2 ^ 46

theorem Redf.neg {T : ℝ} {y : D} (h : Redf T y) : Redf (-T) (f64.neg y) := by
  obtain ⟨Y, f, h0, h1, h2⟩ := h
  refine ⟨-Y, f.neg, by rwa [abs_neg], by rwa [abs_neg], ?_⟩
  rw [abs_neg, show -T - -Y = -(T - Y) by ring, abs_neg]
  exact h2

theorem trunc_near {b : D} {v : ℝ} (h : Fv b v) (hb : |v| ≤ 2 ^ (100 : ℤ)) : Ok (Fmt.trunc f64 f32 b) (f32.Near v) := by
  refine (trunc_fin wider_32_64 h.fin).mono ?_
  rintro r ⟨-, hr⟩
  have := hr.cast f32
  rw [f64.valK_cast, h.val] at this
  exact this.nearF f32 (this.fin100 big32 hb)

theorem fv_half32 : f32.IsFin 0x3f000000#f32.w ∧ f32.valK ℝ 0x3f000000#f32.w = 2 ^ (-1 : ℤ) := by
  refine ⟨by decide +kernel, ?_⟩
  rw [← f32.valK_cast, show f32.val 0x3f000000#f32.w = 1 / 2 by decide +kernel]
  norm_num

theorem kSinf_faithful {N : FPU f64} {T : ℝ} {y : D} (h : Redf T y) : Ok (kSinf N y) (f32.FaithfulTo (Real.sin T)) := by
  obtain ⟨X, hx, h0, h1, hT, -⟩ := h
  obtain ⟨S, fS, hS⟩ := kSinD_spec (N := N) hx h0 h1
  have hX0 : 0 < |X| := lt_of_lt_of_le (by positivity) h0
  have hXX : X * X = |X| * |X| := (abs_mul_abs_self X).symm
  have hlow := sin_low h1
  have hd := Real.abs_sin_sub_sin_le T X
  have hsT : |Real.sin X| - 0.75 / 2 ^ 25 * |X| ≤ |Real.sin T| := by
    have := abs_sub_abs_le_abs_sub (Real.sin X) (Real.sin T)
    rw [abs_sub_comm] at this
    linarith
  have htri := abs_add_le (S - Real.sin X) (Real.sin X - Real.sin T)
  rw [sub_add_sub_cancel, abs_sub_comm (Real.sin X)] at htri
  have hS1 : |S| ≤ 2 ^ (100 : ℤ) := by
    have := abs_add_le (S - Real.sin X) (Real.sin X)
    rw [sub_add_cancel] at this
    have := Real.abs_sin_le_one X
    norm_num at *
    linarith
  refine (trunc_near fS hS1).mono fun r hn => ?_
  rcases le_or_gt (X * X) 0.339 with hc | hc
  · have hlow2 : 0.94 * |X| ≤ |Real.sin T| := by
      have : 0.943 * |X| ≤ (1 - 0.168 * (X * X)) * |X| := mul_le_mul_of_nonneg_right (by norm_num at *; linarith) hX0.le
      norm_num at *
      linarith
    refine hn.faithful_rel f32 ?_ (by rw [s32]; norm_num) ?_
    · intro h; rw [h, abs_zero] at hlow2; norm_num at hlow2; linarith
    · rw [s32]
      norm_num at *
      linarith
  · have hX5 : 0.582 ≤ |X| := by
      rw [hXX] at hc
      by_contra hcon
      rw [not_le] at hcon
      nlinarith
    have hXX1 : X * X ≤ 0.616869 := by rw [hXX]; norm_num at h1 ⊢; nlinarith
    have hlow2 : 0.52 ≤ |Real.sin T| := by
      have : 0.896 * |X| ≤ (1 - 0.168 * (X * X)) * |X| := mul_le_mul_of_nonneg_right (by norm_num at *; linarith) hX0.le
      norm_num at *
      linarith
    refine hn.faithful_absS f32 (δ := 0.45 / 2 ^ 24) fv_half32.1 fv_half32.2 ?_ ?_ ?_
    · norm_num at *; linarith
    · norm_num at *; linarith
    · rw [s32]; norm_num

theorem kCosf_faithful {N : FPU f64} {T : ℝ} {y : D} (h : Redf T y) : Ok (kCosf N y) (f32.FaithfulTo (Real.cos T)) := by
  obtain ⟨X, hx, h0, h1, hT, -⟩ := h
  obtain ⟨S, fS, hS⟩ := kCosD_spec (N := N) hx h0 h1
  have hX0 : 0 < |X| := lt_of_lt_of_le (by positivity) h0
  have hd := Real.abs_cos_sub_cos_le T X
  have htri := abs_add_le (S - Real.cos X) (Real.cos X - Real.cos T)
  rw [sub_add_sub_cancel, abs_sub_comm (Real.cos X)] at htri
  have hS1 : |S| ≤ 2 ^ (100 : ℤ) := by
    have := abs_add_le (S - Real.cos X) (Real.cos X)
    rw [sub_add_cancel] at this
    have := Real.abs_cos_le_one X
    norm_num at *
    linarith
  refine (trunc_near fS hS1).mono fun r hn => ?_
  have hTX : |T| ≤ 0.786 := by
    have a1 := abs_add_le (T - X) X
    rw [sub_add_cancel] at a1
    norm_num at *
    linarith
  have hcos : 0.69 ≤ |Real.cos T| := by
    refine le_trans ?_ (le_abs_self _)
    refine le_trans ?_ (Real.one_sub_sq_div_two_le_cos (x := T))
    have : T ^ 2 ≤ 0.786 ^ 2 := by rw [← sq_abs]; exact pow_le_pow_left₀ (abs_nonneg _) hTX 2
    norm_num at *
    linarith
  refine hn.faithful_absS f32 (δ := 0.45 / 2 ^ 24) fv_half32.1 fv_half32.2 ?_ ?_ ?_
  · norm_num at *; linarith
  · norm_num at *; linarith
  · rw [s32]; norm_num

/-! ### Small multiples of `π/2` -/

theorem dist_grid {X c δ : ℝ} {j : ℤ} (g : Mul2 j X) (f : ℤ) (h1 : (f + δ) * 2 ^ j ≤ c) (h2 : c ≤ (f + 1 - δ) * 2 ^ j) : δ * 2 ^ j ≤ |X - c| := by
  obtain ⟨n, rfl⟩ := g
  have hp : (0 : ℝ) < 2 ^ j := by positivity
  rcases le_or_gt n f with h | h
  · have hn : (n : ℝ) * 2 ^ j ≤ f * 2 ^ j := mul_le_mul_of_nonneg_right (by exact_mod_cast h) hp.le
    rw [abs_sub_comm]
    refine le_trans ?_ (le_abs_self _)
    linarith
  · have hn : (f + 1 : ℝ) * 2 ^ j ≤ n * 2 ^ j := mul_le_mul_of_nonneg_right (by exact_mod_cast h) hp.le
    refine le_trans ?_ (le_abs_self _)
    linarith

theorem grid32 {x : BitVec f32.w} {E : ℕ} (h0 : 1 ≤ E) (h : E * 2 ^ 23 ≤ f32.mag x) : Mul2 ((E : ℤ) - 150) |Vf x| := by
  rw [norm32 (x := x) (by omega)]
  exact Mul2.mono ⟨((2 ^ 23 + f32.mag x % 2 ^ 23 : ℕ) : ℤ), by push_cast; rfl⟩ (by omega)

/-- the constants -/
noncomputable def cP1 : ℝ := 884279719003555 / 2 ^ 49
noncomputable def cP2 : ℝ := 884279719003555 / 2 ^ 48
noncomputable def cP3 : ℝ := 2652839157010665 / 2 ^ 49
noncomputable def cP4 : ℝ := 884279719003555 / 2 ^ 47
theorem fv_P1o2 : Fv P1o2 cP1 := by
  have := fv_const (b := P1o2) (q := 884279719003555 / 2 ^ 49) (by decide +kernel) (by decide +kernel); push_cast at this; exact this
theorem fv_P2o2 : Fv P2o2 cP2 := by
  have := fv_const (b := P2o2) (q := 884279719003555 / 2 ^ 48) (by decide +kernel) (by decide +kernel); push_cast at this; exact this
theorem fv_P3o2 : Fv P3o2 cP3 := by
  have := fv_const (b := P3o2) (q := 2652839157010665 / 2 ^ 49) (by decide +kernel) (by decide +kernel); push_cast at this; exact this
theorem fv_P4o2 : Fv P4o2 cP4 := by
  have := fv_const (b := P4o2) (q := 884279719003555 / 2 ^ 47) (by decide +kernel) (by decide +kernel); push_cast at this; exact this

/-- `A` is in the range where `c`, a multiple of `π/2` up to its rounding, is subtracted -/
def NearK (k : ℕ) (c A : ℝ) : Prop := 1.19 / 10 ^ 8 ≤ |A - c| ∧ |A - c| ≤ 0.7854 ∧ |c - k * (Real.pi / 2)| ≤ 2.46 / 10 ^ 16

theorem mag_le {x : BitVec f32.w} {c : ℕ} {q : ℚ} (hq : f32.magVal ℚ c = q) (h : f32.mag x ≤ c) : |Vf x| ≤ q := by
  rw [abs32, ← hq, f32.magVal_cast, f32.magValR_le_iff]; exact h
theorem mag_ge {x : BitVec f32.w} {c : ℕ} {q : ℚ} (hq : f32.magVal ℚ c = q) (h : c ≤ f32.mag x) : q ≤ |Vf x| := by
  rw [abs32, ← hq, f32.magVal_cast, f32.magValR_le_iff]; exact h

theorem nearK1 {x : BitVec f32.w} (h1 : 0x3f490fda < f32.mag x) (h2 : f32.mag x ≤ 0x4016cbe3) : NearK 1 cP1 |Vf x| := by
  have hpi := pi_tight
  have a1 := mag_ge (x := x) (c := 0x3f490fda) (q := 6588397 / 2 ^ 23) (by decide +kernel) h1.le
  have a2 := mag_le (x := x) (c := 0x4016cbe3) (q := 9882595 / 2 ^ 22) (by decide +kernel) h2
  push_cast at a1 a2
  unfold NearK cP1
  refine ⟨?_, ?_, ?_⟩
  · have := dist_grid (c := 884279719003555 / 2 ^ 49) (δ := 0.2) (grid32 (x := x) (E := 126) (by norm_num) (by omega)) 26353589 (by norm_num) (by norm_num)
    refine le_trans ?_ this
    norm_num
  · rw [abs_le]; constructor <;> norm_num at * <;> linarith
  · rw [abs_le]; push_cast; constructor <;> norm_num at * <;> linarith

theorem nearK2 {x : BitVec f32.w} (h1 : 0x4016cbe3 < f32.mag x) (h2 : f32.mag x ≤ 0x407b53d1) : NearK 2 cP2 |Vf x| := by
  have hpi := pi_tight
  have a1 := mag_ge (x := x) (c := 0x4016cbe3) (q := 9882595 / 2 ^ 22) (by decide +kernel) h1.le
  have a2 := mag_le (x := x) (c := 0x407b53d1) (q := 16470993 / 2 ^ 22) (by decide +kernel) h2
  push_cast at a1 a2
  unfold NearK cP2
  refine ⟨?_, ?_, ?_⟩
  · have := dist_grid (c := 884279719003555 / 2 ^ 48) (δ := 0.4) (grid32 (x := x) (E := 126) (by norm_num) (by omega)) 52707178 (by norm_num) (by norm_num)
    refine le_trans ?_ this
    norm_num
  · rw [abs_le]; constructor <;> norm_num at * <;> linarith
  · rw [abs_le]; push_cast; constructor <;> norm_num at * <;> linarith

theorem nearK3 {x : BitVec f32.w} (h1 : 0x407b53d1 < f32.mag x) (h2 : f32.mag x ≤ 0x40afeddf) : NearK 3 cP3 |Vf x| := by
  have hpi := pi_tight
  have a1 := mag_ge (x := x) (c := 0x407b53d1) (q := 16470993 / 2 ^ 22) (by decide +kernel) h1.le
  have a2 := mag_le (x := x) (c := 0x40afeddf) (q := 11529695 / 2 ^ 21) (by decide +kernel) h2
  push_cast at a1 a2
  unfold NearK cP3
  refine ⟨?_, ?_, ?_⟩
  · have := dist_grid (c := 2652839157010665 / 2 ^ 49) (δ := 0.05) (grid32 (x := x) (E := 128) (by norm_num) (by omega)) 19765191 (by norm_num) (by norm_num)
    refine le_trans ?_ this
    norm_num
  · rw [abs_le]; constructor <;> norm_num at * <;> linarith
  · rw [abs_le]; push_cast; constructor <;> norm_num at * <;> linarith

theorem nearK4 {x : BitVec f32.w} (h1 : 0x40afeddf < f32.mag x) (h2 : f32.mag x ≤ 0x40e231d5) : NearK 4 cP4 |Vf x| := by
  have hpi := pi_tight
  have a1 := mag_ge (x := x) (c := 0x40afeddf) (q := 11529695 / 2 ^ 21) (by decide +kernel) h1.le
  have a2 := mag_le (x := x) (c := 0x40e231d5) (q := 14823893 / 2 ^ 21) (by decide +kernel) h2
  push_cast at a1 a2
  unfold NearK cP4
  refine ⟨?_, ?_, ?_⟩
  · have := dist_grid (c := 884279719003555 / 2 ^ 47) (δ := 0.2) (grid32 (x := x) (E := 128) (by norm_num) (by omega)) 26353589 (by norm_num) (by norm_num)
    refine le_trans ?_ this
    norm_num
  · rw [abs_le]; constructor <;> norm_num at * <;> linarith
  · rw [abs_le]; push_cast; constructor <;> norm_num at * <;> linarith

/-- rounding the difference -/
theorem redf_round {v T : ℝ} {r : D} (h : f64.Rounds v r) (h0 : 1.19 / 10 ^ 8 ≤ |v|) (h1 : |v| ≤ 0.7854) (hT : |v - T| ≤ 2.46 / 10 ^ 16) : Redf T r := by
  have hf := h.fin100 big64 (h1.trans (by norm_num))
  have he := h.rel_abs big64 (h1.trans (by norm_num))
  rw [s64] at he
  refine ⟨V r, ⟨hf, rfl⟩, ?_⟩
  generalize V r = Y at he
  have t1 := abs_add_le (Y - v) v
  rw [sub_add_cancel] at t1
  have t2 := abs_sub_abs_le_abs_sub v Y
  rw [abs_sub_comm] at t2
  have t3 := abs_add_le (Y - v) (v - T)
  rw [sub_add_sub_cancel, abs_sub_comm] at t3
  refine ⟨?_, ?_, ?_, ?_⟩ <;> norm_num at * <;> linarith

section
variable {N : FPU f64} {x : BitVec f32.w} {x64 P : D} {k : ℕ} {c : ℝ}

theorem red_pos (hx : Fv x64 (Vf x)) (hP : Fv P c) (hs : 0 ≤ Vf x) (h : NearK k c |Vf x|) : Redf (Vf x - k * (Real.pi / 2)) (N.sub x64 P) := by
  obtain ⟨h0, h1, h2⟩ := h
  rw [abs_of_nonneg hs] at h0 h1
  refine redf_round (hx.subR hP) h0 h1 ?_
  rw [sub_sub_sub_cancel_left, abs_sub_comm]; exact h2

theorem red_pos' (hx : Fv x64 (Vf x)) (hP : Fv P c) (hs : 0 ≤ Vf x) (h : NearK k c |Vf x|) : Redf (k * (Real.pi / 2) - Vf x) (N.sub P x64) := by
  obtain ⟨h0, h1, h2⟩ := h
  rw [abs_of_nonneg hs, abs_sub_comm] at h0 h1
  refine redf_round (hP.subR hx) h0 h1 ?_
  rw [sub_sub_sub_cancel_right]; exact h2

theorem red_neg (hx : Fv x64 (Vf x)) (hP : Fv P c) (hs : Vf x ≤ 0) (h : NearK k c |Vf x|) : Redf (Vf x + k * (Real.pi / 2)) (N.add x64 P) := by
  obtain ⟨h0, h1, h2⟩ := h
  rw [abs_of_nonpos hs, show -Vf x - c = -(Vf x + c) by ring, abs_neg] at h0 h1
  refine redf_round (hx.addR hP) h0 h1 ?_
  rw [add_sub_add_left_eq_sub]; exact h2

theorem red_neg' (hx : Fv x64 (Vf x)) (hP : Fv P c) (hs : Vf x ≤ 0) (h : NearK k c |Vf x|) : Redf (-Vf x - k * (Real.pi / 2)) (N.sub (f64.neg x64) P) := by
  obtain ⟨h0, h1, h2⟩ := h
  rw [abs_of_nonpos hs] at h0 h1
  refine redf_round (hx.neg.subR hP) h0 h1 ?_
  rw [sub_sub_sub_cancel_left, abs_sub_comm]; exact h2

end

/-! ### The reduction of larger arguments -/

theorem sign32 (x : BitVec f32.w) : decide (x >>> 31 ≠ 0#f32.w) = f32.sign x := by
  have hxlt : x.toNat < 2 ^ 32 := x.isLt
  rw [Bool.eq_iff_iff, decide_eq_true_iff]
  show _ ↔ x.msb = true
  rw [BitVec.msb_eq_true_iff_two_mul_ge, ne_eq, ← BitVec.toNat_inj, BitVec.toNat_ushiftRight, Nat.shiftRight_eq_div_pow]
  show ¬ x.toNat / 2 ^ 31 = 0 ↔ 2 ^ 32 ≤ 2 * x.toNat
  omega

theorem vf_sign (x : BitVec f32.w) : (f32.sign x = true → Vf x ≤ 0) ∧ (f32.sign x = false → 0 ≤ Vf x) := by
  have hm := f32.magVal_nonneg ℚ (f32.mag x)
  constructor <;> intro hs <;> unfold Vf <;> rw [f32.val_sign, hs]
  · simp only [if_true]
    exact_mod_cast (by linarith : -1 * f32.magVal ℚ (f32.mag x) ≤ 0)
  · simp only [Bool.false_eq_true, if_false, one_mul]
    exact_mod_cast hm

theorem redf_large {N : FPU f64} {p64 : Bool} {x : BitVec f32.w} (hx : f32.IsFin x) (hlo : 0x40e231d5 < f32.mag x) :
    ∃ n y, remPio2f N p64 x = .ok (n, y) ∧ ∃ k : ℤ, (low2 n : ℤ) = k % 4 ∧ Redf (Vf x - k * (Real.pi / 2)) y := by
  obtain ⟨⟨n, y⟩, h1, k, r0, h2, f0, h3, h4, h5⟩ := remPio2f_spec (N := N) (p64 := p64) hx hlo
  refine ⟨n, y, h1, k, by rw [low2_eq]; have : n % 8 = k % 8 := h2; omega, r0, f0, ?_⟩
  obtain ⟨r, he, fx⟩ := ext_fv hx
  have hX : 1 / 2 ≤ |Vf x| := by
    have := mag_ge (x := x) (c := 0x40e231d5) (q := 14823893 / 2 ^ 21) (by decide +kernel) hlo.le
    push_cast at this
    norm_num at *
    linarith
  have hd := dist_fv fx hX k
  have hpi := Real.pi_pos
  have p1 := pi_gt20
  have p2 := pi_lt20
  have hd2 : (2 : ℝ) ^ (-62 : ℤ) ≤ |Vf x - k * (Real.pi / 2)| := by
    have e : Vf x - k * (Real.pi / 2) = (Vf x * (2 / Real.pi) - k) * (Real.pi / 2) := by field_simp
    rw [e, abs_mul, abs_of_pos (show 0 < Real.pi / 2 by linarith)]
    calc (2 : ℝ) ^ (-62 : ℤ) = 2 ^ (-62 : ℤ) * 1 := (mul_one _).symm
      _ ≤ _ := mul_le_mul hd (by linarith) (by norm_num) (abs_nonneg _)
  generalize Vf x - k * (Real.pi / 2) = T at *
  have t1 := abs_add_le (T - r0) r0
  rw [sub_add_cancel] at t1
  have t2 := abs_sub_abs_le_abs_sub r0 T
  rw [abs_sub_comm] at t2
  have h3' : |T - r0| ≤ 0.75 / 2 ^ 25 * |r0| := h3
  have h5' : |T - r0| ≤ 1 / 2 ^ 46 := h5
  refine ⟨?_, ?_, h3', h5'⟩ <;> norm_num at * <;> linarith

/-! ### The angles -/

theorem ang (k : ℕ) (X : ℝ) (sk ck : ℝ) (hs : Real.sin (k * (Real.pi / 2)) = sk) (hc : Real.cos (k * (Real.pi / 2)) = ck) :
    Real.sin (X + k * (Real.pi / 2)) = Real.sin X * ck + Real.cos X * sk ∧ Real.cos (X + k * (Real.pi / 2)) = Real.cos X * ck - Real.sin X * sk ∧
    Real.sin (X - k * (Real.pi / 2)) = Real.sin X * ck - Real.cos X * sk ∧ Real.cos (X - k * (Real.pi / 2)) = Real.cos X * ck + Real.sin X * sk := by
  rw [Real.sin_add, Real.cos_add, Real.sin_sub, Real.cos_sub, hs, hc]
  exact ⟨rfl, rfl, rfl, rfl⟩

theorem ang1 (X : ℝ) : Real.sin X = -Real.cos (X + (1 : ℕ) * (Real.pi / 2)) ∧ Real.cos X = Real.sin (X + (1 : ℕ) * (Real.pi / 2)) ∧
    Real.sin X = Real.cos (X - (1 : ℕ) * (Real.pi / 2)) ∧ Real.cos X = -Real.sin (X - (1 : ℕ) * (Real.pi / 2)) := by
  obtain ⟨a, b, c, d⟩ := ang 1 X 1 0 (by simp) (by simp)
  rw [a, b, c, d]
  simp
theorem ang2 (X : ℝ) : Real.sin X = -Real.sin (X + (2 : ℕ) * (Real.pi / 2)) ∧ Real.cos X = -Real.cos (X + (2 : ℕ) * (Real.pi / 2)) ∧
    Real.sin X = -Real.sin (X - (2 : ℕ) * (Real.pi / 2)) ∧ Real.cos X = -Real.cos (X - (2 : ℕ) * (Real.pi / 2)) := by
  have e : ((2 : ℕ) : ℝ) * (Real.pi / 2) = Real.pi := by push_cast; ring
  obtain ⟨a, b, c, d⟩ := ang 2 X 0 (-1) (by rw [e]; simp) (by rw [e]; simp)
  rw [a, b, c, d]
  simp
theorem ang3 (X : ℝ) : Real.sin X = Real.cos (X + (3 : ℕ) * (Real.pi / 2)) ∧ Real.cos X = -Real.sin (X + (3 : ℕ) * (Real.pi / 2)) ∧
    Real.sin X = -Real.cos (X - (3 : ℕ) * (Real.pi / 2)) ∧ Real.cos X = Real.sin (X - (3 : ℕ) * (Real.pi / 2)) := by
  have e : ((3 : ℕ) : ℝ) * (Real.pi / 2) = Real.pi / 2 + Real.pi := by push_cast; ring
  obtain ⟨a, b, c, d⟩ := ang 3 X (-1) 0 (by rw [e, Real.sin_add_pi]; simp) (by rw [e, Real.cos_add_pi]; simp)
  rw [a, b, c, d]
  simp
theorem ang4 (X : ℝ) : Real.sin X = Real.sin (X + (4 : ℕ) * (Real.pi / 2)) ∧ Real.cos X = Real.cos (X + (4 : ℕ) * (Real.pi / 2)) ∧
    Real.sin X = Real.sin (X - (4 : ℕ) * (Real.pi / 2)) ∧ Real.cos X = Real.cos (X - (4 : ℕ) * (Real.pi / 2)) := by
  have e : ((4 : ℕ) : ℝ) * (Real.pi / 2) = 2 * Real.pi := by push_cast; ring
  obtain ⟨a, b, c, d⟩ := ang 4 X 0 1 (by rw [e]; simp) (by rw [e]; simp)
  rw [a, b, c, d]
  simp

/-! ### The functions -/

theorem negM_faithful {m : M (BitVec f32.w)} {s : ℝ} (h : Ok m (f32.FaithfulTo s)) : Ok (negM m) (f32.FaithfulTo (-s)) := by
  obtain ⟨r, e, h⟩ := h
  unfold negM
  rw [e, ok_bind]
  exact ⟨_, rfl, h.neg f32⟩

theorem pairM_ok {m n : M (BitVec f32.w)} {P Q : BitVec f32.w → Prop} (h1 : Ok m P) (h2 : Ok n Q) : Ok (pairM m n) fun r => P r.1 ∧ Q r.2 := by
  obtain ⟨r, e, h⟩ := h1
  obtain ⟨r', e', h'⟩ := h2
  unfold pairM
  rw [e, ok_bind, e', ok_bind]
  exact ⟨_, rfl, h, h'⟩

theorem _root_.Verif.Ok.faith {m : M (BitVec f32.w)} {s t : ℝ} (h : Ok m (f32.FaithfulTo s)) (e : t = s) : Ok m (f32.FaithfulTo t) := by rw [e]; exact h

theorem redf_direct {x : BitVec f32.w} {x64 : D} (hx : Fv x64 (Vf x)) (h1 : 0x39800000 ≤ f32.mag x) (h2 : f32.mag x ≤ 0x3f490fda) : Redf (Vf x) x64 := by
  have a1 := mag_ge (x := x) (c := 0x39800000) (q := 1 / 2 ^ 12) (by decide +kernel) h1
  have a2 := mag_le (x := x) (c := 0x3f490fda) (q := 6588397 / 2 ^ 23) (by decide +kernel) h2
  push_cast at a1 a2
  refine ⟨Vf x, hx, ?_, ?_, ?_⟩
  · norm_num at *; linarith
  · norm_num at *; linarith
  · rw [sub_self, abs_zero]; exact ⟨by positivity, by positivity⟩

theorem vf_val (x : BitVec f32.w) : f32.valK ℝ x = Vf x := (f32.valK_cast x).symm

theorem sinf_tiny {x : BitVec f32.w} (hx : f32.IsFin x) (h : f32.mag x < 0x39800000) : f32.FaithfulTo (Real.sin (Vf x)) x := by
  have a := mag_le (x := x) (c := 0x39800000) (q := 1 / 2 ^ 12) (by decide +kernel) h.le
  push_cast at a
  have hf := f32.faithful_sin hx (by
    rw [vf_val, s32, ← sq_abs]
    have : |Vf x| ^ 2 ≤ (1 / 2 ^ 12) ^ 2 := pow_le_pow_left₀ (abs_nonneg _) a 2
    norm_num at *
    linarith)
  rwa [vf_val] at hf

theorem one32 : f32.IsFin 0x3f800000#f32.w ∧ f32.valK ℝ 0x3f800000#f32.w = 1 := by
  refine ⟨by decide +kernel, ?_⟩
  rw [← f32.valK_cast, show f32.val 0x3f800000#f32.w = 1 by decide +kernel]
  norm_num

theorem cosf_tiny {x : BitVec f32.w} (h : f32.mag x < 0x39800000) : f32.FaithfulTo (Real.cos (Vf x)) 0x3f800000#f32.w := by
  have a := mag_le (x := x) (c := 0x397fffff) (q := 16777215 / 2 ^ 36) (by decide +kernel) (by omega)
  push_cast at a
  refine f32.faithful_one one32.1 one32.2 (Real.cos_le_one _) ?_
  have := Real.one_sub_sq_div_two_le_cos (x := Vf x)
  have h2 : Vf x ^ 2 ≤ (16777215 / 2 ^ 36) ^ 2 := by rw [← sq_abs]; exact pow_le_pow_left₀ (abs_nonneg _) a 2
  rw [s32]
  norm_num at *
  linarith

section
variable (N : FPU f64) (p64 : Bool) (N32 : FPU f32)

theorem sinf_spec {x : BitVec f32.w} (hx : f32.IsFin x) : Ok (sinf N p64 N32 x) (f32.FaithfulTo (Real.sin (Vf x))) := by
  obtain ⟨x64, he, fx⟩ := ext_fv hx
  have hinf : f32.mag x < 0x7f800000 := hx
  have hsg := vf_sign x
  unfold sinf
  rw [he, ok_bind]
  simp only [bits32, sign32]
  by_cases h1 : f32.mag x ≤ 0x3f490fda
  · rw [if_pos h1]
    by_cases h2 : f32.mag x < 0x39800000
    · rw [if_pos h2]; exact ⟨_, rfl, sinf_tiny hx h2⟩
    · rw [if_neg h2]; exact kSinf_faithful (redf_direct fx (by omega) h1)
  rw [if_neg h1]
  by_cases h2 : f32.mag x ≤ 0x407b53d1
  · rw [if_pos h2]
    by_cases h3 : f32.mag x ≤ 0x4016cbe3
    · rw [if_pos h3]
      have hk := nearK1 (x := x) (by omega) h3
      cases hs : f32.sign x
      · rw [if_neg (by simp)]; exact (kCosf_faithful (red_pos fx fv_P1o2 (hsg.2 hs) hk)).faith (ang1 _).2.2.1
      · rw [if_pos rfl]; exact (negM_faithful (kCosf_faithful (red_neg fx fv_P1o2 (hsg.1 hs) hk))).faith (ang1 _).1
    · rw [if_neg h3]
      have hk := nearK2 (x := x) (by omega) h2
      cases hs : f32.sign x
      · rw [if_neg (by simp)]
        exact (kSinf_faithful (red_pos fx fv_P2o2 (hsg.2 hs) hk).neg).faith (by rw [Real.sin_neg]; exact (ang2 _).2.2.1)
      · rw [if_pos rfl]
        exact (kSinf_faithful (red_neg fx fv_P2o2 (hsg.1 hs) hk).neg).faith (by rw [Real.sin_neg]; exact (ang2 _).1)
  rw [if_neg h2]
  by_cases h3 : f32.mag x ≤ 0x40e231d5
  · rw [if_pos h3]
    by_cases h4 : f32.mag x ≤ 0x40afeddf
    · rw [if_pos h4]
      have hk := nearK3 (x := x) (by omega) h4
      cases hs : f32.sign x
      · rw [if_neg (by simp)]; exact (negM_faithful (kCosf_faithful (red_pos fx fv_P3o2 (hsg.2 hs) hk))).faith (ang3 _).2.2.1
      · rw [if_pos rfl]; exact (kCosf_faithful (red_neg fx fv_P3o2 (hsg.1 hs) hk)).faith (ang3 _).1
    · rw [if_neg h4]
      have hk := nearK4 (x := x) (by omega) h3
      cases hs : f32.sign x
      · rw [if_neg (by simp)]; exact (kSinf_faithful (red_pos fx fv_P4o2 (hsg.2 hs) hk)).faith (ang4 _).2.2.1
      · rw [if_pos rfl]; exact (kSinf_faithful (red_neg fx fv_P4o2 (hsg.1 hs) hk)).faith (ang4 _).1
  rw [if_neg h3, if_neg (by omega)]
  obtain ⟨n, y, e, k, hk, hr⟩ := redf_large (N := N) (p64 := p64) hx (by omega)
  rw [e, ok_bind]
  have q := sin_quad (Vf x - k * (Real.pi / 2)) k
  rw [sub_add_cancel] at q
  have hl := low2_lt n
  have : low2 n = 0 ∨ low2 n = 1 ∨ low2 n = 2 ∨ low2 n = 3 := by omega
  rcases this with h | h | h | h <;> simp only [h] <;> rw [h] at hk
  · exact (kSinf_faithful hr).faith (q.1 hk.symm)
  · exact (kCosf_faithful hr).faith (q.2.1 hk.symm)
  · exact (kSinf_faithful hr.neg).faith (by rw [Real.sin_neg]; exact q.2.2.1 hk.symm)
  · exact (negM_faithful (kCosf_faithful hr)).faith (q.2.2.2 hk.symm)

theorem cosf_spec {x : BitVec f32.w} (hx : f32.IsFin x) : Ok (cosf N p64 N32 x) (f32.FaithfulTo (Real.cos (Vf x))) := by
  obtain ⟨x64, he, fx⟩ := ext_fv hx
  have hinf : f32.mag x < 0x7f800000 := hx
  have hsg := vf_sign x
  unfold cosf
  rw [he, ok_bind]
  simp only [bits32, sign32]
  by_cases h1 : f32.mag x ≤ 0x3f490fda
  · rw [if_pos h1]
    by_cases h2 : f32.mag x < 0x39800000
    · rw [if_pos h2]; exact ⟨_, rfl, cosf_tiny h2⟩
    · rw [if_neg h2]; exact kCosf_faithful (redf_direct fx (by omega) h1)
  rw [if_neg h1]
  by_cases h2 : f32.mag x ≤ 0x407b53d1
  · rw [if_pos h2]
    by_cases h3 : f32.mag x > 0x4016cbe3
    · rw [if_pos h3]
      have hk := nearK2 (x := x) h3 h2
      cases hs : f32.sign x
      · rw [if_neg (by simp)]; exact (negM_faithful (kCosf_faithful (red_pos fx fv_P2o2 (hsg.2 hs) hk))).faith (ang2 _).2.2.2
      · rw [if_pos rfl]; exact (negM_faithful (kCosf_faithful (red_neg fx fv_P2o2 (hsg.1 hs) hk))).faith (ang2 _).2.1
    · rw [if_neg h3]
      have hk := nearK1 (x := x) (by omega) (by omega)
      cases hs : f32.sign x
      · rw [if_neg (by simp)]
        exact (kSinf_faithful (red_pos' fx fv_P1o2 (hsg.2 hs) hk)).faith (by
          rw [← _root_.neg_sub, Real.sin_neg]; exact (ang1 _).2.2.2)
      · rw [if_pos rfl]; exact (kSinf_faithful (red_neg fx fv_P1o2 (hsg.1 hs) hk)).faith (ang1 _).2.1
  rw [if_neg h2]
  by_cases h3 : f32.mag x ≤ 0x40e231d5
  · rw [if_pos h3]
    by_cases h4 : f32.mag x > 0x40afeddf
    · rw [if_pos h4]
      have hk := nearK4 (x := x) h4 h3
      cases hs : f32.sign x
      · rw [if_neg (by simp)]; exact (kCosf_faithful (red_pos fx fv_P4o2 (hsg.2 hs) hk)).faith (ang4 _).2.2.2
      · rw [if_pos rfl]; exact (kCosf_faithful (red_neg fx fv_P4o2 (hsg.1 hs) hk)).faith (ang4 _).2.1
    · rw [if_neg h4]
      have hk := nearK3 (x := x) (by omega) (by omega)
      cases hs : f32.sign x
      · rw [if_neg (by simp)]; exact (kSinf_faithful (red_pos fx fv_P3o2 (hsg.2 hs) hk)).faith (ang3 _).2.2.2
      · rw [if_pos rfl]
        exact (kSinf_faithful (red_neg' fx fv_P3o2 (hsg.1 hs) hk)).faith (by
          rw [← Real.cos_neg]; exact (ang3 _).2.2.2)
  rw [if_neg h3, if_neg (by omega)]
  obtain ⟨n, y, e, k, hk, hr⟩ := redf_large (N := N) (p64 := p64) hx (by omega)
  rw [e, ok_bind]
  have q := cos_quad (Vf x - k * (Real.pi / 2)) k
  rw [sub_add_cancel] at q
  have hl := low2_lt n
  have : low2 n = 0 ∨ low2 n = 1 ∨ low2 n = 2 ∨ low2 n = 3 := by omega
  rcases this with h | h | h | h <;> simp only [h] <;> rw [h] at hk
  · exact (kCosf_faithful hr).faith (q.1 hk.symm)
  · exact (kSinf_faithful hr.neg).faith (by rw [Real.sin_neg]; exact q.2.1 hk.symm)
  · exact (negM_faithful (kCosf_faithful hr)).faith (q.2.2.1 hk.symm)
  · exact (kSinf_faithful hr).faith (q.2.2.2 hk.symm)

theorem sincosf_spec {x : BitVec f32.w} (hx : f32.IsFin x) : Ok (sincosf N p64 N32 x) fun r =>
    f32.FaithfulTo (Real.sin (Vf x)) r.1 ∧ f32.FaithfulTo (Real.cos (Vf x)) r.2 := by
  obtain ⟨x64, he, fx⟩ := ext_fv hx
  have hinf : f32.mag x < 0x7f800000 := hx
  have hsg := vf_sign x
  unfold sincosf
  rw [he, ok_bind]
  simp only [bits32, sign32]
  by_cases h1 : f32.mag x ≤ 0x3f490fda
  · rw [if_pos h1]
    by_cases h2 : f32.mag x < 0x39800000
    · rw [if_pos h2]; exact ⟨_, rfl, sinf_tiny hx h2, cosf_tiny h2⟩
    · rw [if_neg h2]
      have hr := redf_direct fx (by omega) h1
      exact pairM_ok (kSinf_faithful hr) (kCosf_faithful hr)
  rw [if_neg h1]
  by_cases h2 : f32.mag x ≤ 0x407b53d1
  · rw [if_pos h2]
    by_cases h3 : f32.mag x ≤ 0x4016cbe3
    · rw [if_pos h3]
      have hk := nearK1 (x := x) (by omega) h3
      cases hs : f32.sign x
      · rw [if_neg (by simp)]
        have hr := red_pos' (N := N) fx fv_P1o2 (hsg.2 hs) hk
        exact pairM_ok ((kCosf_faithful hr).faith (by rw [← _root_.neg_sub, Real.cos_neg]; exact (ang1 _).2.2.1))
          ((kSinf_faithful hr).faith (by rw [← _root_.neg_sub, Real.sin_neg]; exact (ang1 _).2.2.2))
      · rw [if_pos rfl]
        have hr := red_neg (N := N) fx fv_P1o2 (hsg.1 hs) hk
        exact pairM_ok ((negM_faithful (kCosf_faithful hr)).faith (ang1 _).1) ((kSinf_faithful hr).faith (ang1 _).2.1)
    · rw [if_neg h3]
      have hk := nearK2 (x := x) (by omega) h2
      cases hs : f32.sign x
      · rw [if_neg (by simp)]
        have hr := red_pos (N := N) fx fv_P2o2 (hsg.2 hs) hk
        exact pairM_ok ((negM_faithful (kSinf_faithful hr)).faith (ang2 _).2.2.1) ((negM_faithful (kCosf_faithful hr)).faith (ang2 _).2.2.2)
      · rw [if_pos rfl]
        have hr := red_neg (N := N) fx fv_P2o2 (hsg.1 hs) hk
        exact pairM_ok ((negM_faithful (kSinf_faithful hr)).faith (ang2 _).1) ((negM_faithful (kCosf_faithful hr)).faith (ang2 _).2.1)
  rw [if_neg h2]
  by_cases h3 : f32.mag x ≤ 0x40e231d5
  · rw [if_pos h3]
    by_cases h4 : f32.mag x ≤ 0x40afeddf
    · rw [if_pos h4]
      have hk := nearK3 (x := x) (by omega) h4
      cases hs : f32.sign x
      · rw [if_neg (by simp)]
        have hr := red_pos (N := N) fx fv_P3o2 (hsg.2 hs) hk
        exact pairM_ok ((negM_faithful (kCosf_faithful hr)).faith (ang3 _).2.2.1) ((kSinf_faithful hr).faith (ang3 _).2.2.2)
      · rw [if_pos rfl]
        have hr := red_neg (N := N) fx fv_P3o2 (hsg.1 hs) hk
        exact pairM_ok ((kCosf_faithful hr).faith (ang3 _).1) ((negM_faithful (kSinf_faithful hr)).faith (ang3 _).2.1)
    · rw [if_neg h4]
      have hk := nearK4 (x := x) (by omega) h3
      cases hs : f32.sign x
      · rw [if_neg (by simp)]
        have hr := red_pos (N := N) fx fv_P4o2 (hsg.2 hs) hk
        exact pairM_ok ((kSinf_faithful hr).faith (ang4 _).2.2.1) ((kCosf_faithful hr).faith (ang4 _).2.2.2)
      · rw [if_pos rfl]
        have hr := red_neg (N := N) fx fv_P4o2 (hsg.1 hs) hk
        exact pairM_ok ((kSinf_faithful hr).faith (ang4 _).1) ((kCosf_faithful hr).faith (ang4 _).2.1)
  rw [if_neg h3, if_neg (by omega)]
  obtain ⟨n, y, e, k, hk, hr⟩ := redf_large (N := N) (p64 := p64) hx (by omega)
  rw [e, ok_bind]
  obtain ⟨s, es, fs⟩ := kSinf_faithful (N := N) hr
  obtain ⟨c, ec, fc⟩ := kCosf_faithful (N := N) hr
  rw [es, ok_bind, ec, ok_bind]
  have q1 := sin_quad (Vf x - k * (Real.pi / 2)) k
  have q2 := cos_quad (Vf x - k * (Real.pi / 2)) k
  rw [sub_add_cancel] at q1 q2
  have hl := low2_lt n
  have : low2 n = 0 ∨ low2 n = 1 ∨ low2 n = 2 ∨ low2 n = 3 := by omega
  rcases this with h | h | h | h <;> simp only [h] <;> rw [h] at hk
  · rw [q1.1 hk.symm, q2.1 hk.symm]; exact ⟨_, rfl, fs, fc⟩
  · rw [q1.2.1 hk.symm, q2.2.1 hk.symm]; exact ⟨_, rfl, fc, fs.neg f32⟩
  · rw [q1.2.2.1 hk.symm, q2.2.2.1 hk.symm]; exact ⟨_, rfl, fs.neg f32, fc.neg f32⟩
  · rw [q1.2.2.2 hk.symm, q2.2.2.2 hk.symm]; exact ⟨_, rfl, fc.neg f32, fs⟩

end
end Trig
end Verif
