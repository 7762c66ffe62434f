import Verif.Libm.RemPio2
import Verif.Libm.HypotFast
import Verif.Props.LibmScalbn
import Verif.Props.LibmRound
import Verif.Props.Conv
/-! # Exact operations on `f64`, in terms of values -/
namespace Verif
open Fmt

/-- `f64` value as a real -/
local notation "V" => Fmt.valK f64 ℝ

namespace Pio2
open Hypot

/-- `b` is a finite pattern of value `v` -/
structure Fv (b : D) (v : ℝ) : Prop where
  fin : f64.IsFin b
  val : V b = v

theorem Fv.self {b : D} (h : f64.IsFin b) : Fv b (V b) := ⟨h, rfl⟩
theorem Fv.cast {b : D} {v w : ℝ} (h : Fv b v) (e : v = w) : Fv b w := e ▸ h

/-- a dyadic number that fits is not changed by rounding -/
theorem fv_of_rounds {v : ℝ} {r : D} (h : f64.Rounds v r) {j : ℤ} (hg : Mul2 j v) (hv : |v| ≤ 2 ^ (j + 53)) (hj : -1074 ≤ j)
    (hj' : j ≤ 900) : Fv r v := by
  have hrp : f64.Rp v := hg.rp f64 (by rw [s64, show j + (52 : ℕ) + 1 = j + 53 by push_cast; ring]; exact hv) (by rw [b64, s64]; omega)
  have h9 : |v| ≤ 2 ^ (1000 : ℤ) := hv.trans (zpow_le_zpow_right₀ (by norm_num) (by omega))
  refine ⟨fin64 h h9, h.exactR f64 hrp (h9.trans ?_)⟩
  rw [b64]; exact zpow_le_zpow_right₀ (by norm_num) (by norm_num)

section
variable (N : FPU f64) {a b : D} {v w : ℝ} {j : ℤ}

theorem Fv.add (ha : Fv a v) (hb : Fv b w) (hg : Mul2 j (v + w)) (hv : |v + w| ≤ 2 ^ (j + 53)) (hj : -1074 ≤ j) (hj' : j ≤ 900) :
    Fv (N.add a b) (v + w) := by
  have := addR N ha.fin hb.fin
  rw [ha.val, hb.val] at this
  exact fv_of_rounds this hg hv hj hj'
theorem Fv.sub (ha : Fv a v) (hb : Fv b w) (hg : Mul2 j (v - w)) (hv : |v - w| ≤ 2 ^ (j + 53)) (hj : -1074 ≤ j) (hj' : j ≤ 900) :
    Fv (N.sub a b) (v - w) := by
  have := subR N ha.fin hb.fin
  rw [ha.val, hb.val] at this
  exact fv_of_rounds this hg hv hj hj'
theorem Fv.mul (ha : Fv a v) (hb : Fv b w) (hg : Mul2 j (v * w)) (hv : |v * w| ≤ 2 ^ (j + 53)) (hj : -1074 ≤ j) (hj' : j ≤ 900) :
    Fv (N.mul a b) (v * w) := by
  have := mulR N ha.fin hb.fin
  rw [ha.val, hb.val] at this
  exact fv_of_rounds this hg hv hj hj'
theorem Fv.neg (ha : Fv a v) : Fv (f64.neg a) (-v) := ⟨f64.isFin_neg.mpr ha.fin, by rw [negR, ha.val]⟩

theorem Fv.scalbn (ha : Fv a v) {n : ℤ} (hn : -2 ^ 31 ≤ n) (hn' : n < 2 ^ 31) (hg : Mul2 j (v * 2 ^ n)) (hv : |v * 2 ^ n| ≤ 2 ^ (j + 53))
    (hj : -1074 ≤ j) (hj' : j ≤ 900) : ∃ r, f64.scalbn N a n = .ok r ∧ Fv r (v * 2 ^ n) := by
  obtain ⟨r, h1, h2, _⟩ := Props.C42_scalbn_finite (F := f64) (by simp [Props.Std]) N ha.fin n hn hn'
  refine ⟨r, h1, ?_⟩
  have := h2.cast f64
  push_cast at this
  rw [f64.valK_cast, ha.val] at this
  exact fv_of_rounds this hg hv hj hj'

end

/-- a constant -/
theorem fv_const {b : D} {q : ℚ} (h : f64.mag b < f64.infRep) (hq : f64.val b = q) : Fv b (q : ℝ) :=
  ⟨h, by rw [← f64.valK_cast, hq]⟩

theorem fv_zero : Fv 0#f64.w 0 := by
  have := fv_const (b := 0#f64.w) (q := 0) (by decide +kernel) (by decide +kernel); simpa using this
theorem fv_x1p24 : Fv x1p24 (2 ^ 24) := by
  have := fv_const (b := x1p24) (q := 2 ^ 24) (by decide +kernel) (by decide +kernel); push_cast at this; exact this
theorem fv_x1m24 : Fv x1m24 (1 / 2 ^ 24) := by
  have := fv_const (b := x1m24) (q := 1 / 2 ^ 24) (by decide +kernel) (by decide +kernel); push_cast at this; exact this
theorem fv_c0125 : Fv c0125 (1 / 2 ^ 3) := by
  have := fv_const (b := c0125) (q := 1 / 2 ^ 3) (by decide +kernel) (by decide +kernel); push_cast at this; exact this
theorem fv_chalf : Fv chalf (1 / 2) := by
  have := fv_const (b := chalf) (q := 1 / 2) (by decide +kernel) (by decide +kernel); push_cast at this; exact this
theorem fv_cone : Fv cone 1 := by
  have := fv_const (b := cone) (q := 1) (by decide +kernel) (by decide +kernel); push_cast at this; exact this
theorem fv_ceight : Fv ceight 8 := by
  have := fv_const (b := ceight) (q := 8) (by decide +kernel) (by decide +kernel); push_cast at this; exact this

theorem val_of_fv {b : D} {v : ℝ} (h : Fv b v) : ((f64.val b : ℚ) : ℝ) = v := by rw [f64.valK_cast, h.val]

theorem toI32_floor {b : D} {v : ℝ} (h : Fv b v) (h0 : 0 ≤ v) (h1 : v < 2 ^ 31) : toI32 b = .ok ⌊v⌋ := by
  obtain ⟨r, h2, h3⟩ := Props.C32_signed_finite (F := f64) (N := 32) ⟨by simp, by simp⟩ h.fin
  have hq := val_of_fv h
  have hq0 : 0 ≤ f64.val b := by have : ((0 : ℚ) : ℝ) ≤ (f64.val b : ℚ) := by rw [hq]; simpa using h0
                                 exact_mod_cast this
  have hf : ⌊f64.val b⌋ = ⌊v⌋ := by rw [← hq, Rat.floor_cast]
  have hfl0 : 0 ≤ ⌊v⌋ := Int.floor_nonneg.mpr h0
  have hfl1 : ⌊v⌋ < 2 ^ 31 := by
    rw [Int.floor_lt]; norm_num at h1 ⊢; exact h1
  unfold toI32
  rw [h2]
  show Except.ok r.toInt = _
  rw [h3, satTrunc]
  congr 1
  have : truncZ (f64.val b) = ⌊v⌋ := by
    unfold truncZ; rw [if_neg (not_lt.mpr hq0), hf]
  rw [this]
  omega

theorem toI32_int {b : D} {k : ℤ} (h : Fv b k) (h0 : -2 ^ 31 ≤ k) (h1 : k < 2 ^ 31) : toI32 b = .ok k := by
  obtain ⟨r, h2, h3⟩ := Props.C32_signed_finite (F := f64) (N := 32) ⟨by simp, by simp⟩ h.fin
  have hq := val_of_fv h
  have hq' : f64.val b = (k : ℚ) := by exact_mod_cast hq
  unfold toI32
  rw [h2]
  show Except.ok r.toInt = _
  rw [h3, satTrunc, hq']
  congr 1
  have : truncZ (k : ℚ) = k := by
    unfold truncZ
    split
    · rw [← Int.cast_neg, Int.floor_intCast]; omega
    · exact Int.floor_intCast _
  rw [this]
  omega

theorem ofI32_spec {k : ℤ} (h0 : -2 ^ 31 ≤ k) (h1 : k < 2 ^ 31) : ∃ r, ofI32 k = .ok r ∧ Fv r k := by
  obtain ⟨r, h2, h3, _⟩ := Props.C31_signed.2.1 (BitVec.ofInt 32 k)
  refine ⟨r, h2, ?_⟩
  have e : (BitVec.ofInt 32 k).toInt = k := by
    rw [BitVec.toInt_ofInt, Int.bmod_def]; split <;> omega
  have := h3.cast f64
  rw [e, Rat.cast_intCast] at this
  refine fv_of_rounds (j := 0) this ⟨k, by simp⟩ ?_ (by norm_num) (by norm_num)
  have : |k| ≤ 2 ^ 31 := by rw [abs_le]; constructor <;> omega
  have : |(k : ℝ)| ≤ 2 ^ 31 := by exact_mod_cast this
  refine this.trans ?_
  norm_num

theorem floorD_spec {b : D} {v : ℝ} (h : Fv b v) : ∃ r, floorD b = .ok r ∧ Fv r (⌊v⌋ : ℤ) := by
  obtain ⟨r, h1, h2, _, h3, _⟩ := Props.C34_floor f64 h.fin
  refine ⟨r.1, by unfold floorD; rw [h1]; rfl, h2, ?_⟩
  rw [← f64.valK_cast, h3, Rat.cast_intCast]
  rw [← val_of_fv h, Rat.floor_cast]

theorem fv_not_nan {b : D} {v : ℝ} (h : Fv b v) : ¬ f64.IsNaN b := h.fin.not_nan f64

theorem ge_fv {a b : D} {v w : ℝ} (ha : Fv a v) (hb : Fv b w) : f64.ge a b = true ↔ w ≤ v := by
  rw [f64.ge_iff]
  have h1 : f64.smag b ≤ f64.smag a ↔ w ≤ v := by
    rw [← not_lt, ← f64.val_lt_iff, not_lt, ← val_of_fv ha, ← val_of_fv hb, Rat.cast_le]
  rw [h1]
  simp [fv_not_nan ha, fv_not_nan hb]
theorem feq_fv {a b : D} {v w : ℝ} (ha : Fv a v) (hb : Fv b w) : f64.feq a b = true ↔ v = w := by
  rw [f64.feq_iff]
  have h1 : f64.smag a = f64.smag b ↔ v = w := by
    rw [f64.smag_eq_iff, ← val_of_fv ha, ← val_of_fv hb, Rat.cast_inj]
  rw [h1]
  simp [fv_not_nan ha, fv_not_nan hb]

/-! ### Loops and arrays -/

theorem rd_ok {α} {n : Nat} {a : Nat → α} {i : Nat} (h : i < n) : rd n a i = .ok (a i) := if_pos h
theorem wr_ok {α} {n : Nat} {a : Nat → α} {i : Nat} {v : α} (h : i < n) : wr n a i v = .ok (Function.update a i v) := if_pos h
theorem nsub_ok {a b : Nat} (h : b ≤ a) : nsubC a b = .ok (a - b) := if_pos h
theorem i32_ok {x : Int} (h : -2 ^ 31 ≤ x) (h' : x < 2 ^ 31) : i32C x = .ok x := if_pos ⟨h, h'⟩

/-- invariant rule for `forUp` -/
theorem forUp_inv {σ} {f : Nat → σ → M σ} (P : Nat → σ → Prop) {c i : Nat} {s : σ} (h0 : P i s)
    (hs : ∀ k s, i ≤ k → k < i + c → P k s → Ok (f k s) (P (k + 1))) : Ok (forUp f c i s) (P (i + c)) := by
  induction c generalizing i s with
  | zero => exact ⟨s, rfl, h0⟩
  | succ c ih =>
    obtain ⟨t, h1, h2⟩ := hs i s (le_refl _) (by omega) h0
    rw [forUp, h1]
    have := ih (i := i + 1) (s := t) h2 fun k s a b => hs k s (by omega) (by omega)
    rw [show i + (c + 1) = i + 1 + c by ring]
    exact this

/-- invariant rule for `forDn` -/
theorem forDn_inv {σ} {f : Nat → σ → M σ} (P : Nat → σ → Prop) {c : Nat} {s : σ} (h0 : P c s)
    (hs : ∀ k s, k < c → P (k + 1) s → Ok (f k s) (P k)) : Ok (forDn f c s) (P 0) := by
  induction c generalizing s with
  | zero => exact ⟨s, rfl, h0⟩
  | succ c ih =>
    obtain ⟨t, h1, h2⟩ := hs c s (by omega) h0
    rw [forDn, h1]
    exact ih h2 fun k s a => hs k s (by omega)

end Pio2
end Verif
