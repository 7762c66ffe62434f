import Verif.Libm.RemPio2Val
import Verif.Libm.ErrCalc
import Verif.Libm.FaithfulTo
/-! # Finite patterns and their values in any format; the error of a division -/
namespace Verif
open Fmt

/-- `b` is a finite pattern of value `v` -/
structure GFv (F : Fmt) (b : BitVec F.w) (v : ℝ) : Prop where
  fin : F.IsFin b
  val : F.valK ℝ b = v

namespace GFv
variable {F : Fmt} {a b r : BitVec F.w} {v w : ℝ}

theorem self (h : F.IsFin b) : GFv F b (F.valK ℝ b) := ⟨h, rfl⟩
theorem cast (h : GFv F b v) (e : v = w) : GFv F b w := e ▸ h

theorem const {q : ℚ} (h : F.mag b < F.infRep) (hq : F.val b = q) : GFv F b (q : ℝ) :=
  ⟨h, by rw [← F.valK_cast, hq]⟩

theorem addR (N : FPU F) (ha : GFv F a v) (hb : GFv F b w) : F.Rounds (v + w) (N.add a b) := by
  have := Fmt.addR N ha.fin hb.fin; rwa [ha.val, hb.val] at this
theorem subR (N : FPU F) (ha : GFv F a v) (hb : GFv F b w) : F.Rounds (v - w) (N.sub a b) := by
  have := Fmt.subR N ha.fin hb.fin; rwa [ha.val, hb.val] at this
theorem mulR (N : FPU F) (ha : GFv F a v) (hb : GFv F b w) : F.Rounds (v * w) (N.mul a b) := by
  have := Fmt.mulR N ha.fin hb.fin; rwa [ha.val, hb.val] at this
theorem divR (N : FPU F) (ha : GFv F a v) (hb : GFv F b w) (h0 : w ≠ 0) : F.Rounds (v / w) (N.div a b) := by
  have := Fmt.divR N ha.fin hb.fin (by rw [hb.val]; exact h0); rwa [ha.val, hb.val] at this

/-- a dyadic number that fits is not changed by rounding -/
theorem of_rounds (hF : F.Big) (h : F.Rounds v r) {j : ℤ} (hg : Mul2 j v) (hv : |v| ≤ 2 ^ (j + F.s + 1)) (hj : 1 - (F.bias : ℤ) - F.s ≤ j)
    (h9 : |v| ≤ 2 ^ (100 : ℤ)) : GFv F r v := by
  have h127 := hF.bias
  exact ⟨h.fin100 hF h9, h.exactR F (hg.rp F hv hj) (h9.trans (zpow_le_zpow_right₀ (by norm_num) (by omega)))⟩

/-- after a rounding -/
theorem rnd (hF : F.Big) (h : F.Rounds v r) (h9 : |v| ≤ 2 ^ (100 : ℤ)) : ∃ u, GFv F r u ∧ |u - v| ≤ 1 / 2 ^ (F.s + 1) * |v| + 1 / 2 ^ 150 :=
  ⟨_, ⟨h.fin100 hF h9, rfl⟩, h.rel_abs hF h9⟩

theorem holds (h : GFv F b v) {σ : ℝ} {A : ℚ} {sc : Bool} (ha : |v| ≤ A * Ex.sv σ sc) : Ex.Holds F σ b v ⟨A, 0, sc⟩ :=
  Ex.holds_exact h.fin h.val ha

theorem valQ (h : GFv F b v) : ((F.val b : ℚ) : ℝ) = v := by rw [F.valK_cast, h.val]

/-- `b as i32` -/
theorem toI32 (hp : Props.ConvPair F 32) (h : GFv F b v) (hv : |v| < 2 ^ 31) :
    ∃ r, F.floatToSigned 32 b = .ok r ∧ (0 ≤ v → 0 ≤ r.toInt ∧ (r.toInt : ℝ) ≤ v ∧ v < r.toInt + 1) ∧
      (v ≤ 0 → r.toInt ≤ 0 ∧ v ≤ r.toInt ∧ (r.toInt : ℝ) - 1 < v) := by
  obtain ⟨r, h2, h3⟩ := Props.C32_signed_finite hp h.fin
  refine ⟨r, h2, ?_⟩
  have hq := h.valQ
  rw [← hq] at hv ⊢
  generalize F.val b = q at *
  rw [abs_lt] at hv
  have hv1 : -2 ^ 31 < q := by have := hv.1; rw [← Rat.cast_lt (K := ℝ)]; push_cast; exact this
  have hv2 : q < 2 ^ 31 := by have := hv.2; rw [← Rat.cast_lt (K := ℝ)]; push_cast; exact this
  have ht : r.toInt = truncZ q ∧ ((0 ≤ q → 0 ≤ truncZ q ∧ (truncZ q : ℚ) ≤ q ∧ q < truncZ q + 1) ∧
      (q ≤ 0 → truncZ q ≤ 0 ∧ q ≤ truncZ q ∧ (truncZ q : ℚ) - 1 < q)) := by
    have key : (0 ≤ q → 0 ≤ truncZ q ∧ (truncZ q : ℚ) ≤ q ∧ q < truncZ q + 1) ∧
      (q ≤ 0 → truncZ q ≤ 0 ∧ q ≤ truncZ q ∧ (truncZ q : ℚ) - 1 < q) := by
      constructor
      · intro h0
        unfold truncZ
        rw [if_neg (not_lt.mpr h0)]
        exact ⟨Int.floor_nonneg.mpr h0, Int.floor_le _, Int.lt_floor_add_one _⟩
      · intro h0
        unfold truncZ
        split
        · have h1 : 0 ≤ ⌊-q⌋ := Int.floor_nonneg.mpr (by linarith)
          have h2 := Int.floor_le (-q)
          have h3 := Int.lt_floor_add_one (-q)
          push_cast
          exact ⟨by omega, by linarith, by linarith⟩
        · have : q = 0 := by linarith
          subst this
          norm_num
    refine ⟨?_, key⟩
    rw [h3, satTrunc]
    have hb : -2 ^ 31 ≤ truncZ q ∧ truncZ q ≤ 2 ^ 31 - 1 := by
      rcases le_total 0 q with h0 | h0
      · obtain ⟨k1, k2, k3⟩ := key.1 h0
        have : (truncZ q : ℚ) < 2 ^ 31 := by linarith
        have : truncZ q < 2 ^ 31 := by exact_mod_cast this
        omega
      · obtain ⟨k1, k2, k3⟩ := key.2 h0
        have : (-2 ^ 31 : ℚ) < (truncZ q : ℚ) := by linarith
        have : -2 ^ 31 < truncZ q := by exact_mod_cast this
        omega
    norm_num at hb ⊢
    omega
  obtain ⟨e, k1, k2⟩ := ht
  rw [e]
  constructor
  · intro h0
    obtain ⟨a1, a2, a3⟩ := k1 (by exact_mod_cast h0)
    exact ⟨a1, by exact_mod_cast a2, by exact_mod_cast a3⟩
  · intro h0
    obtain ⟨a1, a2, a3⟩ := k2 (by exact_mod_cast h0)
    exact ⟨a1, by exact_mod_cast a2, by exact_mod_cast a3⟩

theorem not_nan (h : GFv F b v) : ¬ F.IsNaN b := h.fin.not_nan F

theorem lt_iff (ha : GFv F a v) (hb : GFv F b w) : F.lt a b = true ↔ v < w := by
  rw [F.lt_iff]
  have h1 : F.smag a < F.smag b ↔ v < w := by
    rw [← F.val_lt_iff, ← ha.valQ, ← hb.valQ, Rat.cast_lt]
  rw [h1]
  exact ⟨fun h => h.2.2, fun h => ⟨ha.not_nan, hb.not_nan, h⟩⟩
theorem gt_iff (ha : GFv F a v) (hb : GFv F b w) : F.gt a b = true ↔ w < v := by
  rw [F.gt_iff]
  have h1 : F.smag b < F.smag a ↔ w < v := by
    rw [← F.val_lt_iff, ← ha.valQ, ← hb.valQ, Rat.cast_lt]
  rw [h1]
  exact ⟨fun h => h.2.2, fun h => ⟨ha.not_nan, hb.not_nan, h⟩⟩
theorem le_iff (ha : GFv F a v) (hb : GFv F b w) : F.le a b = true ↔ v ≤ w := by
  rw [F.le_iff]
  have h1 : F.smag a ≤ F.smag b ↔ v ≤ w := by
    rw [← not_lt, ← F.val_lt_iff, not_lt, ← ha.valQ, ← hb.valQ, Rat.cast_le]
  rw [h1]
  exact ⟨fun h => h.2.2, fun h => ⟨ha.not_nan, hb.not_nan, h⟩⟩

end GFv

namespace Ex
variable {F : Fmt}

theorem Holds.mono {σ : ℝ} (h0 : 0 < σ) {b : BitVec F.w} {a : ℝ} {i : Bd} (h : Holds F σ b a i) {A e : ℚ} (hA : i.A ≤ A) (he : i.e ≤ e) :
    Holds F σ b a ⟨A, e, i.sc⟩ := by
  obtain ⟨f, ha, hv⟩ := h
  have hs : 0 ≤ sv σ i.sc := by unfold sv; split <;> linarith
  exact ⟨f, ha.trans (mul_le_mul_of_nonneg_right (by exact_mod_cast hA) hs), hv.trans (mul_le_mul_of_nonneg_right (by exact_mod_cast he) hs)⟩

/-- a bound of the error before the rounding of a quotient -/
def divErr (nA ne de L : ℚ) : ℚ := (ne + nA / L * de) / (L - de)

/-- a quotient, with a denominator of at least `L` -/
theorem holds_div (hF : F.Big) (N : FPU F) {σ : ℝ} (h0 : 0 < σ) (h1 : σ ≤ 1) {tiny : ℚ} (ht : 1 / 2 ^ 150 ≤ tiny * σ) {n d : BitVec F.w} {a b : ℝ}
    {x y : Bd} (hn : Holds F σ n a x) (hd : Holds F σ d b y) (hsc : y.sc = false) {L : ℚ} (hL : y.e < L) (hb : (L : ℝ) ≤ |b|) {A c : ℚ}
    (h : (match fin F.s tiny x.sc (x.A / L) (divErr x.A x.e y.e L) with
      | some r => decide (r.A ≤ A) && decide (r.e ≤ c)
      | none => false) = true) :
    Holds F σ (N.div n d) (a / b) ⟨A, c, x.sc⟩ := by
  obtain ⟨fn, an, en⟩ := hn
  obtain ⟨fd, ad, ed⟩ := hd
  have hs : 0 < sv σ x.sc := by unfold sv; split <;> linarith
  have hsy : sv σ y.sc = 1 := by rw [hsc]; rfl
  rw [hsy, mul_one] at ad ed
  have hye : (0 : ℝ) ≤ y.e := (abs_nonneg _).trans ed
  have hLR : (y.e : ℝ) < L := by exact_mod_cast hL
  have hL0 : (0 : ℝ) < L := by linarith
  have hb0 : b ≠ 0 := by intro hh; rw [hh, abs_zero] at hb; linarith
  set v1 := F.valK ℝ n
  set v2 := F.valK ℝ d
  have hv2 : (L : ℝ) - y.e ≤ |v2| := by
    have h2 := abs_sub_abs_le_abs_sub b v2
    rw [abs_sub_comm b v2] at h2
    linarith
  have hv2p : (0 : ℝ) < |v2| := by linarith
  have hv20 : v2 ≠ 0 := abs_pos.mp hv2p
  have hx0 : (0 : ℝ) ≤ x.A * sv σ x.sc := (abs_nonneg _).trans an
  have hq : |a / b| ≤ ((x.A / L : ℚ) : ℝ) * sv σ x.sc := by
    rw [abs_div, div_le_iff₀ (by linarith)]
    push_cast
    have : (x.A : ℝ) / L * sv σ x.sc * |b| = (x.A * sv σ x.sc) * (|b| / L) := by field_simp
    rw [this]
    have h2 : 1 ≤ |b| / L := by rw [le_div_iff₀ hL0]; linarith
    nlinarith
  have he : |v1 / v2 - a / b| ≤ ((divErr x.A x.e y.e L : ℚ) : ℝ) * sv σ x.sc := by
    have e1 : v1 / v2 - a / b = ((v1 - a) - a / b * (v2 - b)) / v2 := by field_simp; ring
    rw [e1, abs_div, div_le_iff₀ hv2p]
    have m1 : |a / b * (v2 - b)| ≤ ((x.A / L : ℚ) : ℝ) * sv σ x.sc * y.e := by
      rw [abs_mul]; exact mul_le_mul hq ed (abs_nonneg _) ((abs_nonneg _).trans hq)
    have m2 : |(v1 - a) - a / b * (v2 - b)| ≤ x.e * sv σ x.sc + ((x.A / L : ℚ) : ℝ) * sv σ x.sc * y.e :=
      (abs_sub _ _).trans (add_le_add en m1)
    refine m2.trans ?_
    have hT0 : (0 : ℝ) ≤ x.e * sv σ x.sc + ((x.A / L : ℚ) : ℝ) * sv σ x.sc * y.e := (abs_nonneg _).trans m2
    unfold divErr
    push_cast at hT0 ⊢
    have : ((x.e : ℝ) + x.A / L * y.e) / (L - y.e) * sv σ x.sc * |v2| = (x.e * sv σ x.sc + x.A / L * sv σ x.sc * y.e) * (|v2| / (L - y.e)) := by
      field_simp
    rw [this]
    have h2 : 1 ≤ |v2| / (L - y.e) := by rw [le_div_iff₀ (by linarith)]; linarith
    nlinarith
  split at h
  case h_2 => simp at h
  case h_1 r hr =>
  rw [Bool.and_eq_true, decide_eq_true_iff, decide_eq_true_iff] at h
  have := holds_round hF h0 h1 ht hr (Fmt.divR N fn fd hv20) hq he
  have hrsc : r.sc = x.sc := by
    unfold fin at hr
    split at hr
    · have := Option.some.inj hr; rw [← this]
    · exact absurd hr (by simp)
  have := this.mono h0 h.1 h.2
  rwa [hrsc] at this

/-- the result of a check as a `Holds` -/
theorem holds_of_errLe (hF : F.Big) (N : FPU F) {σ : ℝ} (h0 : 0 < σ) (h1 : σ ≤ 1) {tiny : ℚ} (ht : 1 / 2 ^ 150 ≤ tiny * σ) {b : ℕ → BitVec F.w} {a : ℕ → ℝ}
    {info : ℕ → Bd} (hl : ∀ i, Holds F σ (b i) (a i) (info i)) {p : Ex} {sc : Bool} {A c : ℚ} (h : p.errLe F.s tiny info sc A c = true) :
    Holds F σ (p.flt N b) (p.ideal a) ⟨A, c, sc⟩ := errLe_sound hF N h0 h1 ht hl h

end Ex
end Verif

namespace Verif
namespace GFv
variable {F : Fmt} {a b r : BitVec F.w} {v w : ℝ}

theorem eq_sign (h : GFv F b v) : v = (if F.sign b then -1 else 1) * F.magVal ℝ (F.mag b) := by
  rw [← h.val, ← F.valK_cast, F.val_sign]
  push_cast
  rw [← F.magVal_cast]
  split <;> simp

theorem nonpos (h : GFv F b v) (hs : F.sign b = true) : v ≤ 0 := by
  rw [h.eq_sign, hs]
  have := F.magVal_nonneg ℝ (F.mag b)
  simp; exact this
theorem nonneg (h : GFv F b v) (hs : F.sign b = false) : 0 ≤ v := by
  rw [h.eq_sign, hs]
  have := F.magVal_nonneg ℝ (F.mag b)
  simp; exact this
theorem sign_of_pos (h : GFv F b v) (hv : 0 < v) : F.sign b = false := by
  by_contra hc
  have := h.nonpos (by simpa using hc)
  linarith
theorem abs_eq (h : GFv F b v) : |v| = F.magVal ℝ (F.mag b) := by rw [← h.val, F.absvR]

/-- a result too large for the format -/
theorem _root_.Verif.Fmt.Rounds.over (h : F.Rounds v r) (hv : 2 ^ ((F.bias : ℤ) + 1) ≤ v) : F.IsInf r ∧ F.sign r = false := by
  have hp : (0 : ℝ) < 2 ^ ((F.bias : ℤ) + 1) := by positivity
  have hv0 : 0 < v := by linarith
  have h0 := F.magValR_infRep
  have hrp : F.Rp ((2 : ℝ) ^ ((F.bias : ℤ) + 1)) := ⟨F.infRep, by rw [h0, abs_of_pos hp]⟩
  have h2 : F.sign r = false := by
    by_contra hc
    have := (h.2 hv0.ne').mp (by simpa using hc)
    linarith
  have h3 := h.ge_of F hrp (by rw [abs_of_pos hp]) hv
  have h4 : F.magVal ℝ F.infRep ≤ F.magVal ℝ (F.mag r) := by
    rw [h0, ← F.absvR]; exact h3.trans (le_abs_self _)
  exact ⟨le_antisymm h.1.1 (F.magValR_le_iff.mp h4), h2⟩
end GFv
end Verif

namespace Verif
namespace Ex
variable {F : Fmt}

/-- a variable and constants as the leaves of a program -/
def cLeaf (x : BitVec F.w) (cs : List (BitVec F.w)) : ℕ → BitVec F.w
  | 0 => x
  | i + 1 => cs.getD i 0#F.w
noncomputable def cVal (X : ℝ) (cs : List (BitVec F.w)) : ℕ → ℝ
  | 0 => X
  | i + 1 => (F.val (cs.getD i 0#F.w) : ℚ)
def cInfo (B : Bd) (cs : List (BitVec F.w)) : ℕ → Bd
  | 0 => B
  | i + 1 => ⟨|F.val (cs.getD i 0#F.w)|, 0, false⟩

theorem cHolds {σ : ℝ} {x : BitVec F.w} {X : ℝ} {B : Bd} (hx : Holds F σ x X B) {cs : List (BitVec F.w)}
    (hcs : (cs.all fun c => decide (F.mag c < F.infRep)) = true) (i : ℕ) : Holds F σ (cLeaf x cs i) (cVal X cs i) (cInfo B cs i) := by
  match i with
  | 0 => exact hx
  | i + 1 =>
    refine holds_const ?_
    show F.IsFin (cs.getD i 0#F.w)
    rw [List.all_eq_true] at hcs
    by_cases hi : i < cs.length
    · rw [List.getD_eq_getElem _ _ hi]
      exact of_decide_eq_true (hcs _ (List.getElem_mem hi))
    · rw [List.getD_eq_default _ _ (by omega)]
      unfold Fmt.IsFin Fmt.mag
      have := F.magValR_lt_iff (m := 0) (n := F.infRep)
      rw [F.magValR_infRep, ← F.magVal_cast, F.magVal_zero] at this
      simpa using this.mp (by simp; positivity)
end Ex
end Verif

namespace Verif
namespace GFv
variable {F : Fmt} {b : BitVec F.w} {v : ℝ}
/-- comparing bit patterns -/
theorem mag_lt (h : GFv F b v) {c : ℕ} {q : ℚ} (hc : F.magVal ℚ c = q) : F.mag b < c ↔ |v| < q := by
  rw [h.abs_eq, ← hc, F.magVal_cast, F.magValR_lt_iff]
end GFv

theorem mag32 (x : BitVec f32.w) : x.toNat &&& 0x7fffffff = f32.mag x := by
  rw [show 0x7fffffff = 2 ^ 31 - 1 from rfl, Nat.and_two_pow_sub_one_eq_mod]; rfl
theorem sign32 (x : BitVec f32.w) : x.toNat >>> 31 = if f32.sign x then 1 else 0 := by
  have hxlt : x.toNat < 2 ^ 32 := x.isLt
  have : f32.sign x = true ↔ 2 ^ 32 ≤ 2 * x.toNat := by
    show x.msb = true ↔ _
    rw [BitVec.msb_eq_true_iff_two_mul_ge]; rfl
  rw [Nat.shiftRight_eq_div_pow]
  split <;> rename_i h
  · have := this.mp h; omega
  · have := mt this.mpr h; omega
end Verif
