import Verif.Libm.AsinGen
/-! # The cases of `asin` and `acos`, for any format: the errors -/
namespace Verif
open Fmt Poly
namespace Asin
variable {F : Fmt}

/-- the rational function of the rounded square -/
theorem ratX (hF : F.Big) (hs : F.s = 23 ∨ F.s = 52) (N : FPU F) {r : BitVec F.w → BitVec F.w} (hr : RatOk F r) {x : BitVec F.w} {X : ℝ} (hx : GFv F x X) (h : |X| ≤ 1 / 2) :
    ∃ R, GFv F (r (N.mul x x)) R ∧ |R - asA (X * X)| ≤ 37 / 100 * (1 / 2 ^ (F.s + 1)) := by
  obtain ⟨hu0, hu1, hu2⟩ := u_bd hs
  have h127 := hF.bias
  have h23 := hF.s
  have hX0 : 0 ≤ X * X := mul_self_nonneg X
  have hX1 : X * X ≤ 1 / 4 := by rw [abs_le] at h; nlinarith
  have hrd := hx.mulR N hx
  obtain ⟨Z, gZ, eZ⟩ := GFv.rnd hF hrd (by rw [abs_of_nonneg hX0]; exact hX1.trans (by norm_num))
  have z0 : 0 ≤ Z := by
    have := hrd.ge_of F (g := 0) F.rp_zero (by rw [abs_zero]; positivity) hX0
    rwa [gZ.val] at this
  have z1 : Z ≤ 1 / 4 := by
    have := hrd.le_of F (g := 2 ^ (-2 : ℤ)) (F.rp_pow (by omega)) (by rw [abs_of_pos (by positivity)]; exact zpow_le_zpow_right₀ (by norm_num) (by omega)) (by norm_num; linarith)
    rw [gZ.val] at this
    norm_num at this; linarith
  obtain ⟨R, gR, eR⟩ := hr _ Z gZ z0 z1
  refine ⟨R, gR, ?_⟩
  have hl := asA_lip z0 z1 hX0 hX1
  have h2 := abs_add_le (R - asA Z) (asA Z - asA (X * X))
  rw [sub_add_sub_cancel] at h2
  rw [abs_of_nonneg hX0] at eZ
  generalize (1 : ℝ) / 2 ^ (F.s + 1) = u at *
  have h3 : u * (X * X) ≤ u * (1 / 4) := mul_le_mul_of_nonneg_left hX1 hu0.le
  norm_num at eZ hu2
  linarith

theorem small_real {u X R A M V θ η : ℝ} (hu0 : 0 < u) (hu : u ≤ 1 / 2 ^ 24) (hη0 : 0 ≤ η) (hη : η ≤ u * |X| / 2 ^ 60) (hA0 : 0 ≤ A) (hA : A ≤ 1 / 20) (hR : |R - A| ≤ 37 / 100 * u)
    (hM : |M - X * R| ≤ u * |X * R| + η) (hV : |V - (X + M)| ≤ u * |X + M| + η) (hθ : |θ - X * (1 + A)| ≤ u / 1000 * |X|) :
    |V - θ| ≤ 3 / 2 * u * |X| := by
  obtain ⟨e, he⟩ : ∃ e, e = u * |X| := ⟨_, rfl⟩
  have he0 : 0 ≤ e := by rw [he]; positivity
  have hes : e ≤ |X| / 2 ^ 24 := by rw [he]; have := abs_nonneg X; nlinarith
  rw [← he] at hη
  norm_num at hη hes hu
  have hRb : |R| ≤ 501 / 10000 := by
    have := abs_add_le (R - A) A
    rw [sub_add_cancel, abs_of_nonneg hA0] at this
    linarith
  have h1 : |X * R| ≤ 501 / 10000 * |X| := by rw [abs_mul, mul_comm]; exact mul_le_mul_of_nonneg_right hRb (abs_nonneg _)
  have h2 : u * |X * R| ≤ 501 / 10000 * e := by
    rw [he]; have := mul_le_mul_of_nonneg_left h1 hu0.le; linarith
  have h3 : |X * R - X * A| ≤ 37 / 100 * e := by
    rw [← mul_sub, abs_mul, he]
    have := mul_le_mul_of_nonneg_left hR (abs_nonneg X); linarith
  have h4 : |M - X * A| ≤ 421 / 1000 * e := by
    have := abs_add_le (M - X * R) (X * R - X * A)
    rw [sub_add_sub_cancel] at this
    linarith
  have h5 : |X + M| ≤ 1051 / 1000 * |X| := by
    have := abs_add_le (M - X * A) (X * (1 + A))
    rw [show M - X * A + X * (1 + A) = X + M by ring, abs_mul, abs_of_nonneg (by linarith : 0 ≤ 1 + A)] at this
    have : |X| * (1 + A) ≤ |X| * (1 + 1 / 20) := mul_le_mul_of_nonneg_left (by linarith) (abs_nonneg _)
    linarith
  have h6 : u * |X + M| ≤ 1051 / 1000 * e := by
    rw [he]; have := mul_le_mul_of_nonneg_left h5 hu0.le; linarith
  have h7 : u / 1000 * |X| = e / 1000 := by rw [he]; ring
  rw [h7] at hθ
  rw [mul_assoc, ← he]
  have h8 := abs_add_le (V - (X + M)) (M - X * A)
  rw [show V - (X + M) + (M - X * A) = V - X * (1 + A) by ring] at h8
  have h9 := abs_add_le (V - X * (1 + A)) (X * (1 + A) - θ)
  rw [sub_add_sub_cancel, abs_sub_comm (X * (1 + A)) θ] at h9
  linarith

/-- `x + x r(x²)` -/
theorem smallCase (hF : F.Big) (hs : F.s = 23 ∨ F.s = 52) (N : FPU F) {r : BitVec F.w → BitVec F.w} (hr : RatOk F r) {x : BitVec F.w} {X : ℝ} (hx : GFv F x X)
    (h0 : 1 / 2 ^ 30 ≤ |X|) (h : |X| ≤ 1 / 2) :
    ∃ V, GFv F (N.add x (N.mul x (r (N.mul x x)))) V ∧ |V - Real.arcsin X| ≤ 2 / 2 ^ (F.s + 1) * |Real.arcsin X| := by
  obtain ⟨R, gR, eR⟩ := ratX hF hs N hr hx h
  obtain ⟨hu0, hu1, hu2⟩ := u_bd hs
  have hX0 : 0 ≤ X * X := mul_self_nonneg X
  have hX1 : X * X ≤ 1 / 4 := by rw [abs_le] at h; nlinarith
  obtain ⟨a0, a1⟩ := asA_bd hX0 hX1
  have hx2 := abs_le.mp h
  have hR2 := abs_le.mp eR
  have hRb : |R| ≤ 1 := by
    rw [abs_le]
    norm_num at hu1 hR2 ⊢
    constructor <;> linarith [hR2.1, hR2.2]
  have hXR : |X * R| ≤ 1 := by rw [abs_mul]; nlinarith [abs_nonneg X, abs_nonneg R]
  obtain ⟨M, gM, eM⟩ := GFv.rnd hF (hx.mulR N gR) (hXR.trans (by norm_num))
  have hMb : |M| ≤ 3 := by
    have := abs_add_le (M - X * R) (X * R)
    rw [sub_add_cancel] at this
    have h2 : 1 / 2 ^ (F.s + 1) * |X * R| ≤ 1 * 1 := mul_le_mul (hu1.trans (by norm_num)) hXR (abs_nonneg _) (by norm_num)
    have h150 : (1 : ℝ) / 2 ^ 150 ≤ 1 / 100 := by norm_num
    linarith
  obtain ⟨V, gV, eV⟩ := GFv.rnd hF (hx.addR N gM) (by
    refine le_trans ((abs_add_le _ _).trans (add_le_add h hMb)) (by norm_num))
  refine ⟨V, gV, ?_⟩
  have hθ := asA_near h
  have hth : |Real.arcsin X - X * (1 + asA (X * X))| ≤ 1 / 2 ^ (F.s + 1) / 1000 * |X| := by
    refine hθ.trans (mul_le_mul_of_nonneg_right ?_ (abs_nonneg _))
    norm_num at hu2 ⊢; linarith
  have hη : (1 : ℝ) / 2 ^ 150 ≤ 1 / 2 ^ (F.s + 1) * |X| / 2 ^ 60 := by
    have : (1 : ℝ) / 2 ^ 53 * (1 / 2 ^ 30) ≤ 1 / 2 ^ (F.s + 1) * |X| := mul_le_mul hu2 h0 (by positivity) hu0.le
    generalize (1 : ℝ) / 2 ^ (F.s + 1) * |X| = t at *
    norm_num at this ⊢; linarith
  have := small_real hu0 hu1 (by positivity) hη (by linarith) (by linarith) eR eM eV hth
  refine this.trans ?_
  have h3 := abs_le_arcsin (x := X) (by linarith)
  rw [show (2 : ℝ) / 2 ^ (F.s + 1) = 2 * (1 / 2 ^ (F.s + 1)) by ring]
  generalize (1 : ℝ) / 2 ^ (F.s + 1) = u at *
  have := mul_le_mul_of_nonneg_left h3 hu0.le
  have := abs_nonneg X
  nlinarith

/-- `|x|` so small that the arcsine is `x` -/
theorem tinyCase {u X : ℝ} (hu0 : 0 < u) (hX : X * X ≤ 2 * u) (h : |X| ≤ 1 / 2) (hu : 1 / 2 ^ 53 ≤ u) : |X - Real.arcsin X| ≤ 2 * u * |Real.arcsin X| := by
  have hX0 : 0 ≤ X * X := mul_self_nonneg X
  have hX1 : X * X ≤ 1 / 4 := by rw [abs_le] at h; nlinarith
  obtain ⟨a0, a1⟩ := asA_bd hX0 hX1
  have hθ := asA_near h
  have h1 : |X * (1 + asA (X * X)) - X| ≤ 2 * u / 5 * |X| := by
    rw [show X * (1 + asA (X * X)) - X = asA (X * X) * X by ring, abs_mul, abs_of_nonneg (by linarith)]
    exact mul_le_mul_of_nonneg_right (by linarith) (abs_nonneg _)
  have h2 := abs_add_le (Real.arcsin X - X * (1 + asA (X * X))) (X * (1 + asA (X * X)) - X)
  rw [sub_add_sub_cancel, abs_sub_comm _ X] at h2
  have h3 := abs_le_arcsin (x := X) (by linarith)
  have h4 := mul_le_mul_of_nonneg_left h3 hu0.le
  have h6 : 0 ≤ u * |X| := by positivity
  have h5 : 1 / 2 ^ 65 * |X| ≤ u * |X| := mul_le_mul_of_nonneg_right (by norm_num at hu ⊢; linarith) (abs_nonneg _)
  linarith

/-! ## the arccosine -/

/-- the two parts of `π / 2` -/
structure Half (F : Fmt) (hi lo : BitVec F.w) : Prop where
  near : |F.valK ℝ hi + F.valK ℝ lo - Real.pi / 2| ≤ 1 / 2 ^ (F.s + 1) / 1000

/-- the relative error of an interval is at most `k` -/
def relOk (s : ℕ) (k : ℚ) (r : Iv) : Bool := decide (r.e + 1 / 2 ^ (s + 1) / 100 ≤ k / 2 ^ (s + 1) * (r.lo - 1 / 2 ^ (s + 1)))

theorem relOk_sound {s : ℕ} {k : ℚ} {r : Iv} (hk : 0 ≤ k) (h : relOk s k r = true) {v a θ : ℝ} (h1 : (r.lo : ℝ) ≤ a) (h2 : |v - a| ≤ r.e) (h3 : |a - θ| ≤ 1 / 2 ^ (s + 1) / 100) :
    |v - θ| ≤ k / 2 ^ (s + 1) * θ := by
  unfold relOk at h
  rw [decide_eq_true_iff] at h
  have h' : ((r.e + 1 / 2 ^ (s + 1) / 100 : ℚ) : ℝ) ≤ ((k / 2 ^ (s + 1) * (r.lo - 1 / 2 ^ (s + 1)) : ℚ) : ℝ) := by exact_mod_cast h
  push_cast at h'
  have h4 := abs_add_le (v - a) (a - θ)
  rw [sub_add_sub_cancel] at h4
  have hp : (0 : ℝ) < 1 / 2 ^ (s + 1) := by positivity
  have h5 : (r.lo : ℝ) - 1 / 2 ^ (s + 1) ≤ θ := by have := (abs_le.mp h3).2; linarith
  have hk' : (0 : ℝ) ≤ (k : ℝ) / 2 ^ (s + 1) := by have : (0 : ℝ) ≤ k := by exact_mod_cast hk
                                                   positivity
  have := mul_le_mul_of_nonneg_left h5 hk'
  linarith

def midE : IE := .sub (.cst 0) (.sub (.var 0) (.sub (.cst 1) (.mul (.var 0) (.var 1))))
def midI (s : ℕ) (lo hi : ℚ) : ℕ → Iv
  | 0 => ⟨lo, hi, 0⟩
  | _ => ⟨0, max (lo * lo) (hi * hi) / 5, 37 / 100 / 2 ^ (s + 1)⟩

/-- `HI - (x - (LO - x r(x²)))` -/
theorem midCase (hF : F.Big) (hs : F.s = 23 ∨ F.s = 52) (N : FPU F) {r : BitVec F.w → BitVec F.w} (hr : RatOk F r) {hi lo : BitVec F.w} (t : Half F hi lo)
    (hchk : IE.split (IE.okP [hi, lo] midE (midI F.s) (relOk F.s 2)) (-1 / 2) [0] (1 / 2) = true) (hcs : ([hi, lo].all fun c => decide (F.mag c < F.infRep)) = true)
    {x : BitVec F.w} {X : ℝ} (hx : GFv F x X) (h : |X| ≤ 1 / 2) :
    ∃ V, GFv F (N.sub hi (N.sub x (N.sub lo (N.mul x (r (N.mul x x)))))) V ∧ |V - Real.arccos X| ≤ 2 / 2 ^ (F.s + 1) * Real.arccos X := by
  obtain ⟨R, gR, eR⟩ := ratX hF hs N hr hx h
  obtain ⟨hu0, hu1, hu2⟩ := u_bd hs
  have hX0 : 0 ≤ X * X := mul_self_nonneg X
  have hX1 : X * X ≤ 1 / 4 := by rw [abs_le] at h; nlinarith
  obtain ⟨a0, a1⟩ := asA_bd hX0 hX1
  have hx2 := abs_le.mp h
  obtain ⟨b, hb⟩ : ∃ b : ℕ → BitVec F.w, b = fun i => if i = 0 then x else r (N.mul x x) := ⟨_, rfl⟩
  obtain ⟨a, ha⟩ : ∃ a : ℕ → ℝ, a = fun i => if i = 0 then X else asA (X * X) := ⟨_, rfl⟩
  obtain ⟨rr, hg, v, gv, l, -, d⟩ := IE.okP_sound hF N hcs hchk (X := X) (by push_cast; linarith) (by push_cast; linarith) (b := b) (a := a) (by
    intro lo hi g0 g1 i
    rw [hb, ha]
    match i with
    | 0 => exact ⟨X, hx, g0, g1, by simp [midI]⟩
    | i + 1 =>
      refine ⟨R, gR, ?_, ?_, ?_⟩
      · show ((0 : ℚ) : ℝ) ≤ asA (X * X)
        push_cast; linarith
      · show asA (X * X) ≤ ((max (lo * lo) (hi * hi) / 5 : ℚ) : ℝ)
        have : X * X ≤ max ((lo : ℝ) * lo) (hi * hi) := by
          rcases le_total 0 X with h0 | h0
          · exact le_trans (by nlinarith) (le_max_right _ _)
          · exact le_trans (by nlinarith) (le_max_left _ _)
        push_cast
        linarith
      · show |R - asA (X * X)| ≤ ((37 / 100 / 2 ^ (F.s + 1) : ℚ) : ℝ)
        refine eR.trans (le_of_eq ?_)
        push_cast; ring)
  have e1 : midE.flt N [hi, lo] b = N.sub hi (N.sub x (N.sub lo (N.mul x (r (N.mul x x))))) := by rw [hb]; rfl
  have e2 : midE.ideal [hi, lo] a = F.valK ℝ hi + F.valK ℝ lo - X * (1 + asA (X * X)) := by
    have : midE.ideal [hi, lo] a = ((F.val hi : ℚ) : ℝ) - (X - (((F.val lo : ℚ) : ℝ) - X * asA (X * X))) := by rw [ha]; rfl
    rw [this, F.valK_cast, F.valK_cast]; ring
  rw [e1] at gv
  rw [e2] at l d
  refine ⟨v, gv, ?_⟩
  have := relOk_sound (k := 2) (θ := Real.arccos X) (by norm_num) hg l d (by
    have h1 := t.near
    have h2 := asA_near h
    rw [Real.arccos]
    have h3 : 1 / 2 ^ 65 * |X| ≤ 1 / 2 ^ (F.s + 1) / 1000 := by
      have : 1 / 2 ^ 65 * |X| ≤ 1 / 2 ^ 65 * 1 := mul_le_mul_of_nonneg_left (by linarith) (by positivity)
      refine this.trans ?_
      generalize (1 : ℝ) / 2 ^ (F.s + 1) = u at *
      norm_num at hu2 ⊢; linarith
    generalize X * (1 + asA (X * X)) = q at *
    rw [abs_le] at h1 h2 ⊢
    constructor <;> linarith)
  push_cast at this
  exact this

def negE : IE := .sub (.cst 0) (.add (.var 0) (.sub (.mul (.var 1) (.var 0)) (.cst 1)))
def rootI (s : ℕ) (lo hi : ℚ) : ℕ → Iv
  | 0 => ⟨max lo 0, hi, 1 / 2 ^ (s + 1) / 4⟩
  | _ => ⟨max lo 0 * max lo 0 / 6, hi * hi / 5, 3 / 10 / 2 ^ (s + 1)⟩

theorem rootI_holds {z s r : BitVec F.w} {σ S R : ℝ} (h : Root F z s σ S) (gR : GFv F r R) (eR : |R - asA (σ * σ)| ≤ 3 / 10 * (1 / 2 ^ (F.s + 1))) {lo hi : ℚ}
    (g0 : (lo : ℝ) ≤ σ) (g1 : σ ≤ hi) (i : ℕ) : IE.Holds F (if i = 0 then s else r) (if i = 0 then σ else asA (σ * σ)) (rootI F.s lo hi i) := by
  have h0 : 0 < σ := lt_of_lt_of_le (by positivity) h.lo
  have hm : ((max lo 0 : ℚ) : ℝ) ≤ σ := by push_cast; exact max_le g0 h0.le
  have hm0 : (0 : ℝ) ≤ ((max lo 0 : ℚ) : ℝ) := by push_cast; exact le_max_right _ _
  have hhi := h.hi
  obtain ⟨a0, a1⟩ := asA_bd (z := σ * σ) (by positivity) (by nlinarith)
  match i with
  | 0 => exact ⟨S, h.s, hm, g1, by
      show |S - σ| ≤ ((1 / 2 ^ (F.s + 1) / 4 : ℚ) : ℝ)
      push_cast; exact h.abs⟩
  | i + 1 =>
    refine ⟨R, gR, ?_, ?_, ?_⟩
    · show ((max lo 0 * max lo 0 / 6 : ℚ) : ℝ) ≤ asA (σ * σ)
      rw [Rat.cast_div, Rat.cast_mul, Rat.cast_ofNat]
      have := mul_le_mul hm hm hm0 h0.le
      linarith
    · show asA (σ * σ) ≤ ((hi * hi / 5 : ℚ) : ℝ)
      push_cast
      have := mul_le_mul g1 g1 h0.le (h0.le.trans g1)
      linarith
    · show |R - asA (σ * σ)| ≤ ((3 / 10 / 2 ^ (F.s + 1) : ℚ) : ℝ)
      refine eR.trans (le_of_eq ?_)
      push_cast; ring

/-- `HI + LO - σ (1 + A)` is near `π / 2 - arcsin σ` -/
theorem half_sub (hs : F.s = 23 ∨ F.s = 52) {hi lo : BitVec F.w} (t : Half F hi lo) {σ : ℝ} (h0 : 0 ≤ σ) (h1 : σ ≤ 1 / 2) {k : ℝ} (hk : |k| ≤ 2) :
    |F.valK ℝ hi + F.valK ℝ lo - k * (σ * (1 + asA (σ * σ))) - (Real.pi / 2 - k * Real.arcsin σ)| ≤ 1 / 2 ^ (F.s + 1) / 100 := by
  obtain ⟨hu0, hu1, hu2⟩ := u_bd hs
  have h2 := asA_near (x := σ) (by rw [abs_of_nonneg h0]; exact h1)
  have h3 := t.near
  have h4 : 1 / 2 ^ 65 * |σ| ≤ 1 / 2 ^ (F.s + 1) / 1000 := by
    rw [abs_of_nonneg h0]
    have : 1 / 2 ^ 65 * σ ≤ 1 / 2 ^ 65 * 1 := mul_le_mul_of_nonneg_left (by linarith) (by positivity)
    refine this.trans ?_
    generalize (1 : ℝ) / 2 ^ (F.s + 1) = u at *
    norm_num at hu2 ⊢; linarith
  have e : F.valK ℝ hi + F.valK ℝ lo - k * (σ * (1 + asA (σ * σ))) - (Real.pi / 2 - k * Real.arcsin σ) =
      (F.valK ℝ hi + F.valK ℝ lo - Real.pi / 2) + k * (Real.arcsin σ - σ * (1 + asA (σ * σ))) := by ring
  rw [e]
  refine (abs_add_le _ _).trans ?_
  rw [abs_mul]
  have : |k| * |Real.arcsin σ - σ * (1 + asA (σ * σ))| ≤ 2 * (1 / 2 ^ (F.s + 1) / 1000) := mul_le_mul hk (h2.trans h4) (abs_nonneg _) (by norm_num)
  linarith

/-- `2 (HI - (s + (r s - LO)))` -/
theorem negCase (hF : F.Big) (hs : F.s = 23 ∨ F.s = 52) (N : FPU F) {r : BitVec F.w → BitVec F.w} (hr : RatOk F r) {hi lo two : BitVec F.w} (t : Half F hi lo) (h2 : GFv F two 2)
    (hchk : IE.split (IE.okP [hi, lo] negE (rootI F.s) (relOk F.s 2)) 0 [] (1 / 2) = true) (hcs : ([hi, lo].all fun c => decide (F.mag c < F.infRep)) = true)
    {z s : BitVec F.w} {σ S : ℝ} (h : Root F z s σ S) :
    ∃ V, GFv F (N.mul two (N.sub hi (N.add s (N.sub (N.mul (r z) s) lo)))) V ∧ |V - (Real.pi - 2 * Real.arcsin σ)| ≤ 2 / 2 ^ (F.s + 1) * (Real.pi - 2 * Real.arcsin σ) := by
  have h0 : 0 < σ := lt_of_lt_of_le (by positivity) h.lo
  have hhi := h.hi
  obtain ⟨R, gR, eR⟩ := hr z _ h.z (by positivity) (by nlinarith)
  obtain ⟨b, hb⟩ : ∃ b : ℕ → BitVec F.w, b = fun i => if i = 0 then s else r z := ⟨_, rfl⟩
  obtain ⟨a, ha⟩ : ∃ a : ℕ → ℝ, a = fun i => if i = 0 then σ else asA (σ * σ) := ⟨_, rfl⟩
  obtain ⟨rr, hg, v, gv, l, -, d⟩ := IE.okP_sound hF N hcs hchk (X := σ) (by push_cast; linarith) (by push_cast; linarith) (b := b) (a := a)
    (fun lo hi g0 g1 i => by rw [hb, ha]; exact rootI_holds h gR eR g0 g1 i)
  have e1 : negE.flt N [hi, lo] b = N.sub hi (N.add s (N.sub (N.mul (r z) s) lo)) := by rw [hb]; rfl
  have e2 : negE.ideal [hi, lo] a = F.valK ℝ hi + F.valK ℝ lo - 1 * (σ * (1 + asA (σ * σ))) := by
    have : negE.ideal [hi, lo] a = ((F.val hi : ℚ) : ℝ) - (σ + (asA (σ * σ) * σ - ((F.val lo : ℚ) : ℝ))) := by rw [ha]; rfl
    rw [this, F.valK_cast, F.valK_cast]; ring
  rw [e1] at gv
  rw [e2] at l d
  have := relOk_sound (k := 2) (by norm_num) hg l d (half_sub hs t h0.le hhi (by norm_num))
  have hpi := Real.pi_le_four
  have hsn := Real.arcsin_nonneg.mpr h0.le
  have hv : |v| ≤ 2 ^ (99 : ℤ) := by
    obtain ⟨hu0, hu1, -⟩ := u_bd hs
    have hth : 0 ≤ Real.pi / 2 - 1 * Real.arcsin σ := by have := Real.arcsin_le_pi_div_two σ; linarith
    have h4 := abs_add_le (v - (Real.pi / 2 - 1 * Real.arcsin σ)) (Real.pi / 2 - 1 * Real.arcsin σ)
    rw [sub_add_cancel, abs_of_nonneg hth] at h4
    push_cast at this
    have h5 : (2 : ℝ) / 2 ^ (F.s + 1) * (Real.pi / 2 - 1 * Real.arcsin σ) ≤ 2 * 2 := by
      refine mul_le_mul ?_ (by linarith) hth (by norm_num)
      rw [show (2 : ℝ) / 2 ^ (F.s + 1) = 2 * (1 / 2 ^ (F.s + 1)) by ring]
      norm_num at hu1 ⊢; linarith
    refine le_trans (b := 8) (by linarith) (by norm_num)
  refine ⟨2 * v, dbl hF N h2 gv hv, ?_⟩
  push_cast at this
  rw [show 2 * v - (Real.pi - 2 * Real.arcsin σ) = 2 * (v - (Real.pi / 2 - 1 * Real.arcsin σ)) by ring, abs_mul, abs_of_pos (by norm_num : (0 : ℝ) < 2)]
  calc 2 * |v - (Real.pi / 2 - 1 * Real.arcsin σ)| ≤ 2 * (2 / 2 ^ (F.s + 1) * (Real.pi / 2 - 1 * Real.arcsin σ)) := by linarith
    _ = _ := by ring

theorem pos_real {u σ S F0 A R P C W Y η : ℝ} (hu0 : 0 < u) (hu : u ≤ 1 / 2 ^ 24) (hσ : 0 < σ) (hη0 : 0 ≤ η) (hη : η ≤ u * σ / 2 ^ 60) (hA0 : 0 ≤ A) (hA : A ≤ 1 / 20)
    (hR : |R - A| ≤ 3 / 10 * u) (hS : |S - σ| ≤ u * σ + η) (hP : |P - R * S| ≤ u * |R * S| + η) (hC : |C - (σ - F0)| ≤ u * σ / 100) (hF0 : |σ - F0| ≤ σ / 1000)
    (hW : |W - (P + C)| ≤ u * |P + C| + η) (hY : |Y - (F0 + W)| ≤ u * |F0 + W| + η) : |Y - σ * (1 + A)| ≤ 8 / 5 * u * σ := by
  obtain ⟨e, he⟩ : ∃ e, e = u * σ := ⟨_, rfl⟩
  have he0 : 0 < e := by rw [he]; positivity
  have hes : e ≤ σ / 2 ^ 24 := by rw [he]; nlinarith
  rw [mul_assoc]
  rw [← he] at hη hS hC ⊢
  norm_num at hη hes hu
  have h1 : |R * S - A * σ| ≤ 351 / 1000 * e := by
    have := IE.mul_err hR hS (le_of_eq (abs_of_nonneg hA0)) (le_of_eq (abs_of_pos hσ))
    refine this.trans ?_
    have q1 : A * (e + η) ≤ 1 / 20 * (e + η) := mul_le_mul_of_nonneg_right hA (by linarith)
    have q2 : 3 / 10 * u * σ = 3 / 10 * e := by rw [he]; ring
    have q3 : 3 / 10 * u * (e + η) ≤ 3 / 10 * (1 / 16777216) * (e + η) := mul_le_mul_of_nonneg_right (by linarith) (by linarith)
    linarith
  have h2 : |R * S| ≤ 501 / 10000 * σ := by
    have := abs_add_le (R * S - A * σ) (A * σ)
    rw [sub_add_cancel, abs_of_nonneg (mul_nonneg hA0 hσ.le)] at this
    have q : A * σ ≤ 1 / 20 * σ := mul_le_mul_of_nonneg_right hA hσ.le
    linarith
  have m : ∀ {t k : ℝ}, t ≤ k * σ → u * t ≤ k * e := by
    intro t k ht; rw [he]; have := mul_le_mul_of_nonneg_left ht hu0.le; linarith
  have h3 := m h2
  have h4 : |P - A * σ| ≤ 402 / 1000 * e := by
    have := abs_add_le (P - R * S) (R * S - A * σ)
    rw [sub_add_sub_cancel] at this; linarith
  have h5 : |P + C - (A * σ + (σ - F0))| ≤ 413 / 1000 * e := by
    have := abs_add_le (P - A * σ) (C - (σ - F0))
    rw [show P - A * σ + (C - (σ - F0)) = P + C - (A * σ + (σ - F0)) by ring] at this; linarith
  have h6 : |P + C| ≤ 52 / 1000 * σ := by
    have := abs_add_le (P + C - (A * σ + (σ - F0))) (A * σ + (σ - F0))
    rw [sub_add_cancel] at this
    have q := abs_add_le (A * σ) (σ - F0)
    rw [abs_of_nonneg (by positivity : 0 ≤ A * σ)] at q
    have q2 : A * σ ≤ 1 / 20 * σ := mul_le_mul_of_nonneg_right hA hσ.le
    linarith
  have h7 := m h6
  have h8 : |F0 + W - σ * (1 + A)| ≤ 47 / 100 * e := by
    have := abs_add_le (W - (P + C)) (P + C - (A * σ + (σ - F0)))
    rw [show W - (P + C) + (P + C - (A * σ + (σ - F0))) = F0 + W - σ * (1 + A) by ring] at this; linarith
  have h9 : |F0 + W| ≤ 1051 / 1000 * σ := by
    have := abs_add_le (F0 + W - σ * (1 + A)) (σ * (1 + A))
    rw [sub_add_cancel, abs_of_nonneg (by positivity : 0 ≤ σ * (1 + A))] at this
    have q2 : σ * A ≤ σ * (1 / 20) := mul_le_mul_of_nonneg_left hA hσ.le
    linarith
  have h10 := m h9
  have := abs_add_le (Y - (F0 + W)) (F0 + W - σ * (1 + A))
  rw [sub_add_sub_cancel] at this
  linarith

/-- `2 (df + (r s + c))` -/
theorem posCase (hF : F.Big) (hs : F.s = 23 ∨ F.s = 52) (N : FPU F) {r : BitVec F.w → BitVec F.w} (hr : RatOk F r) {two : BitVec F.w} (h2 : GFv F two 2)
    {z s f : BitVec F.w} {σ S F0 : ℝ} (h : Root F z s σ S) (hf : GFv F f F0) (hff : GFv F (N.mul f f) (F0 * F0)) (hF0 : F0 ≤ S) (hF1 : S - F0 ≤ 1 / 2 ^ 11 * S) :
    ∃ V, GFv F (N.mul two (N.add f (N.add (N.mul (r z) s) (N.div (N.sub z (N.mul f f)) (N.add s f))))) V ∧ |V - 2 * Real.arcsin σ| ≤ 2 / 2 ^ (F.s + 1) * (2 * Real.arcsin σ) := by
  have h0 : 0 < σ := lt_of_lt_of_le (by positivity) h.lo
  have hhi := h.hi
  have hlo := h.lo
  obtain ⟨hu0, hu1, hu2⟩ := u_bd hs
  obtain ⟨C, gC, eC, eF⟩ := cErr hF hs N h hf hff hF0 hF1
  obtain ⟨R, gR, eR⟩ := hr z _ h.z (by positivity) (by nlinarith)
  obtain ⟨a0, a1⟩ := asA_bd (z := σ * σ) (by positivity) (by nlinarith)
  have hA : asA (σ * σ) ≤ 1 / 20 := by nlinarith
  have hA0 : 0 ≤ asA (σ * σ) := by nlinarith
  have hη : (1 : ℝ) / 2 ^ 150 ≤ 1 / 2 ^ (F.s + 1) * σ / 2 ^ 60 := by
    have : (1 : ℝ) / 2 ^ 53 * (1 / 2 ^ 27) ≤ 1 / 2 ^ (F.s + 1) * σ := mul_le_mul hu2 hlo (by positivity) hu0.le
    generalize (1 : ℝ) / 2 ^ (F.s + 1) * σ = t at *
    norm_num at this ⊢; linarith
  have hrel := h.rel
  have hnr := asA_near (x := σ) (by rw [abs_of_pos h0]; exact hhi)
  rw [abs_of_pos h0] at hnr
  rw [show (2 : ℝ) / 2 ^ (F.s + 1) = 2 * (1 / 2 ^ (F.s + 1)) by ring]
  have hS2 := abs_le.mp hrel
  have hR2 := abs_le.mp eR
  have hC2 := abs_le.mp eC
  have hd2 := abs_le.mp eF
  have k1 : ∀ {t v : ℝ}, |v - t| ≤ 1 / 2 ^ (F.s + 1) * |t| + 1 / 2 ^ 150 → |t| ≤ 4 → |v| ≤ 5 := by
    intro t v hv ht
    have := abs_add_le (v - t) t
    rw [sub_add_cancel] at this
    have q : 1 / 2 ^ (F.s + 1) * |t| ≤ 1 / 2 ^ 24 * 4 := mul_le_mul hu1 ht (abs_nonneg _) (by positivity)
    norm_num at q hv this ⊢; linarith
  have huσ : 1 / 2 ^ (F.s + 1) * σ ≤ 1 / 100 := by
    have : 1 / 2 ^ (F.s + 1) * σ ≤ 1 / 2 ^ 24 * 1 := mul_le_mul hu1 (by linarith) h0.le (by positivity)
    refine this.trans (by norm_num)
  have hu3 : (1 : ℝ) / 2 ^ (F.s + 1) ≤ 1 / 100 := hu1.trans (by norm_num)
  have h150 : (1 : ℝ) / 2 ^ 150 ≤ 1 / 100 := by norm_num
  have bR : |R| ≤ 1 := by rw [abs_le]; constructor <;> linarith [hR2.1, hR2.2]
  have bS : |S| ≤ 1 := by rw [abs_le]; constructor <;> linarith [hS2.1, hS2.2]
  have bC : |C| ≤ 1 := by rw [abs_le]; constructor <;> linarith [hC2.1, hC2.2, hd2.1, hd2.2]
  have bF : |F0| ≤ 1 := by rw [abs_le]; constructor <;> linarith [hd2.1, hd2.2]
  have bRS : |R * S| ≤ 1 := by rw [abs_mul]; nlinarith [abs_nonneg R, abs_nonneg S]
  obtain ⟨P, gP, eP⟩ := GFv.rnd hF (gR.mulR N h.s) (bRS.trans (by norm_num))
  have bP : |P| ≤ 2 := by
    have := abs_add_le (P - R * S) (R * S)
    rw [sub_add_cancel] at this
    have q : 1 / 2 ^ (F.s + 1) * |R * S| ≤ 1 / 100 * 1 := mul_le_mul hu3 bRS (abs_nonneg _) (by norm_num)
    linarith
  have bPC : |P + C| ≤ 4 := (abs_add_le _ _).trans (by linarith)
  obtain ⟨W, gW, eW⟩ := GFv.rnd hF (gP.addR N gC) (bPC.trans (by norm_num))
  have bW := k1 eW bPC
  obtain ⟨Y, gY, eY⟩ := GFv.rnd hF (hf.addR N gW) ((abs_add_le _ _).trans (by
    refine le_trans (add_le_add bF bW) (by norm_num)))
  have hY := pos_real hu0 hu1 h0 (by positivity) hη hA0 hA eR hrel eP eC eF eW eY
  have hasn := le_arcsin h0.le (by linarith)
  have bY : |Y| ≤ 2 ^ (99 : ℤ) := by
    have := abs_add_le (Y - σ * (1 + asA (σ * σ))) (σ * (1 + asA (σ * σ)))
    rw [sub_add_cancel, abs_of_nonneg (by positivity : 0 ≤ σ * (1 + asA (σ * σ)))] at this
    have q : σ * (1 + asA (σ * σ)) ≤ 1 * 2 := mul_le_mul (by linarith) (by linarith) (by linarith) (by norm_num)
    refine le_trans (b := 3) (by linarith) (by norm_num)
  refine ⟨2 * Y, dbl hF N h2 gY bY, ?_⟩
  generalize (1 : ℝ) / 2 ^ (F.s + 1) = u at *
  rw [← mul_sub, abs_mul, abs_of_pos (by norm_num : (0 : ℝ) < 2)]
  have h5 := abs_add_le (Y - σ * (1 + asA (σ * σ))) (σ * (1 + asA (σ * σ)) - Real.arcsin σ)
  rw [sub_add_sub_cancel, abs_sub_comm (σ * (1 + asA (σ * σ)))] at h5
  have h6 : 1 / 2 ^ 65 * σ ≤ u / 100 * σ := mul_le_mul_of_nonneg_right (by norm_num at hu2 ⊢; linarith) h0.le
  have h7 := mul_le_mul_of_nonneg_left hasn hu0.le
  have : 0 < u * σ := by positivity
  linarith
end Asin
end Verif
