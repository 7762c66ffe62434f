import Verif.Libm.AsinCases
import Verif.Libm.NativeEq
import Verif.Libm.LogSpec
/-! # Accuracy of `asin` and `acos` -/
namespace Verif
open Fmt Poly
namespace Asin
section gen
variable {F : Fmt}

/-- `x + x r(x²)` for very small `x`: the second term is less than the error -/
theorem verySmall (hF : F.Big) (hs : F.s = 23 ∨ F.s = 52) (N : FPU F) {r : BitVec F.w → BitVec F.w} (hr : RatOk F r) {x : BitVec F.w} {X : ℝ} (hx : GFv F x X)
    (h0 : |X| ≤ 1 / 2 ^ 30) :
    ∃ V, GFv F (N.add x (N.mul x (r (N.mul x x)))) V ∧ |V - Real.arcsin X| ≤ 2 / 2 ^ (F.s + 1) * |Real.arcsin X| := by
  have h : |X| ≤ 1 / 2 := h0.trans (by norm_num)
  obtain ⟨R, gR, eR⟩ := ratX hF hs N hr hx h
  obtain ⟨hu0, hu1, hu2⟩ := u_bd hs
  have hX0 : 0 ≤ X * X := mul_self_nonneg X
  have hX2 : X * X ≤ 1 / 2 ^ 60 := by
    rw [← abs_mul_abs_self]
    calc |X| * |X| ≤ 1 / 2 ^ 30 * (1 / 2 ^ 30) := mul_le_mul h0 h0 (abs_nonneg _) (by norm_num)
      _ ≤ _ := by norm_num
  obtain ⟨a0, a1⟩ := asA_bd hX0 (hX2.trans (by norm_num))
  obtain ⟨u, hu⟩ : ∃ u : ℝ, u = 1 / 2 ^ (F.s + 1) := ⟨_, rfl⟩
  have hAu : asA (X * X) ≤ u / 100 := by
    rw [← hu] at hu2
    norm_num at hX2 hu2; linarith
  rw [← hu] at eR hu0 hu1 hu2
  have hRb : |R| ≤ 38 / 100 * u := by
    have := abs_add_le (R - asA (X * X)) (asA (X * X))
    rw [sub_add_cancel, abs_of_nonneg (a := asA _) (by linarith)] at this
    linarith
  have hXb := abs_nonneg X
  have hXR : |X * R| ≤ 38 / 100 * u * |X| := by
    rw [abs_mul, mul_comm]; exact mul_le_mul_of_nonneg_right hRb hXb
  have hm1 := hx.mulR N gR
  have huX : u * |X| ≤ 1 := by
    have : u * |X| ≤ 1 / 2 ^ 24 * (1 / 2 ^ 30) := mul_le_mul hu1 h0 hXb (by positivity)
    exact this.trans (by norm_num)
  obtain ⟨M, gM, -⟩ := GFv.rnd hF hm1 (hXR.trans (by
    refine le_trans (b := 1) (by nlinarith) (by norm_num)))
  have hM : |M| ≤ 76 / 100 * u * |X| := by
    have := hm1.near F (g := 0) F.rp_zero (by rw [abs_zero]; positivity)
    rw [gM.val, sub_zero, abs_sub_comm] at this
    have h2 := abs_add_le (M - X * R) (X * R)
    rw [sub_add_cancel] at h2
    linarith
  have hm2 := hx.addR N gM
  have hXM : |X + M| ≤ 2 := (abs_add_le _ _).trans (by linarith)
  obtain ⟨V, gV, -⟩ := GFv.rnd hF hm2 (hXM.trans (by norm_num))
  refine ⟨V, gV, ?_⟩
  have hV : |V - X| ≤ 152 / 100 * u * |X| := by
    have hrp := F.rp_val x
    rw [hx.val] at hrp
    have := hm2.near F hrp (by
      refine h.trans ?_
      have : (1 : ℝ) / 2 ≤ 2 ^ (0 : ℤ) := by norm_num
      exact this.trans (zpow_le_zpow_right₀ (by norm_num) (by omega)))
    rw [gV.val, add_sub_cancel_left, abs_sub_comm] at this
    have h2 := abs_add_le (V - (X + M)) M
    rw [show V - (X + M) + M = V - X by ring] at h2
    linarith
  have hθ := asA_near h
  have h1 : |X * (1 + asA (X * X)) - X| ≤ u / 100 * |X| := by
    rw [show X * (1 + asA (X * X)) - X = asA (X * X) * X by ring, abs_mul, abs_of_nonneg (by linarith)]
    exact mul_le_mul_of_nonneg_right hAu (abs_nonneg _)
  have h2 := abs_add_le (Real.arcsin X - X * (1 + asA (X * X))) (X * (1 + asA (X * X)) - X)
  rw [sub_add_sub_cancel, abs_sub_comm _ X] at h2
  have h3 := abs_le_arcsin (x := X) (by linarith)
  have h4 := mul_le_mul_of_nonneg_left h3 hu0.le
  have h6 : 0 ≤ u * |X| := by positivity
  have h5 : 1 / 2 ^ 65 * |X| ≤ u / 100 * |X| := mul_le_mul_of_nonneg_right (by norm_num at hu2 ⊢; linarith) hXb
  have h7 := abs_add_le (V - X) (X - Real.arcsin X)
  rw [sub_add_sub_cancel] at h7
  rw [show (2 : ℝ) / 2 ^ (F.s + 1) = 2 * u by rw [hu]; ring]
  linarith

theorem smallAll (hF : F.Big) (hs : F.s = 23 ∨ F.s = 52) (N : FPU F) {r : BitVec F.w → BitVec F.w} (hr : RatOk F r) {x : BitVec F.w} {X : ℝ} (hx : GFv F x X)
    (h : |X| ≤ 1 / 2) :
    ∃ V, GFv F (N.add x (N.mul x (r (N.mul x x)))) V ∧ |V - Real.arcsin X| ≤ 2 / 2 ^ (F.s + 1) * |Real.arcsin X| := by
  rcases le_total |X| (1 / 2 ^ 30) with h0 | h0
  · exact verySmall hF hs N hr hx h0
  · exact smallCase hF hs N hr hx h0 h

/-- the upper half of the square root -/
theorem clear_root (hF : F.Big) (hs : F.s = 23 ∨ F.s = 52) (N : FPU F) {z s f : BitVec F.w} {σ S : ℝ} (h : Root F z s σ S) {c : ℕ} (hc : c ≤ F.s) (hc2 : F.s + 1 ≤ 2 * c)
    (hc3 : 11 ≤ F.s - c) (hm : F.mag f = F.mag s / 2 ^ c * 2 ^ c) (hsg : F.sign f = F.sign s) {k : ℤ} (hk : 2 ^ k ≤ σ * (99 / 100)) (hk2 : -30 ≤ k) :
    ∃ F0 : ℝ, ∃ j : ℤ, GFv F f F0 ∧ GFv F (N.mul f f) (F0 * F0) ∧ F0 ≤ S ∧ S - F0 ≤ 1 / 2 ^ 11 * S ∧ Mul2 j F0 ∧ k + c - F.s ≤ j := by
  have hb := hF.bias
  have h0 : 0 < σ := lt_of_lt_of_le (by positivity) h.lo
  have hlo := h.lo
  have hhi := h.hi
  obtain ⟨hu0, hu1, hu2⟩ := u_bd hs
  have hrel := abs_le.mp h.rel
  have hus : 1 / 2 ^ (F.s + 1) * σ ≤ 1 / 1000 * σ := mul_le_mul_of_nonneg_right (hu1.trans (by norm_num)) h0.le
  have h150 : (1 : ℝ) / 2 ^ 150 ≤ 1 / 1000 * σ := by norm_num at hlo ⊢; linarith
  have hS : 2 ^ k ≤ S := by linarith [hrel.1]
  obtain ⟨F0, j, g, p, l, e, m, hj, hv⟩ := clear_fv h.s hc hm hsg hS (by omega)
  have hS0 : 0 < S := lt_of_lt_of_le (by positivity) hS
  refine ⟨F0, j, g, sq_exact hF N g p m hv hc2 ?_ (by linarith [hrel.2]), l, e.trans ?_, m, hj⟩
  · omega
  · refine mul_le_mul_of_nonneg_right ?_ hS0.le
    exact one_div_le_one_div_of_le (by positivity) (pow_le_pow_right₀ (by norm_num) hc3)

/-- `0 / (x - x)` -/
theorem div_sub_nan (N : FPU F) {x z : BitVec F.w} (hz : F.mag z = 0) : F.IsNaN (N.div z (N.sub x x)) := by
  have h0 : (0 : ℕ) < F.infRep := by
    have := F.magValR_lt_iff (m := 0) (n := F.infRep)
    rw [F.magValR_infRep, ← F.magVal_cast, F.magVal_zero] at this
    exact this.mp (by simp; positivity)
  obtain ⟨-, hd1, hd2⟩ := N.div_spec z (N.sub x x)
  by_cases hx : F.IsFin x
  · obtain ⟨hr, -⟩ := N.sub_spec x x
    have hr := (hr hx (by unfold IsFin; rw [F.mag_neg]; exact hx)).1
    rw [F.val_neg, add_neg_cancel] at hr
    have hzz : F.mag (N.sub x x) = 0 := by
      have h1 := (hr.1.2 0 (Nat.zero_le _)).1
      rw [abs_zero, F.magVal_zero, sub_zero, zero_sub, abs_neg, abs_zero] at h1
      have h2 := abs_nonpos_iff.mp h1
      rw [← F.magVal_zero, F.magVal_inj] at h2
      exact h2
    have := hd2 (by unfold IsNaN; omega) (by unfold IsNaN; omega) (Or.inr (Or.inr hzz))
    rwa [if_pos (Or.inr ⟨hz, hzz⟩)] at this
  · refine hd1 (Or.inr ?_)
    obtain ⟨_, h1, h2, _⟩ := N.sub_spec x x
    have hm : F.infRep ≤ F.mag x := not_lt.1 hx
    rcases Nat.eq_or_lt_of_le hm with h | h
    · have hi : F.IsInf x := h.symm
      have hn : F.mag (F.neg x) = F.mag x := F.mag_neg x
      have := h2 hi (by unfold IsNaN; omega)
      rw [if_pos ⟨by unfold IsInf; omega, by rw [F.sign_neg]; cases F.sign x <;> simp⟩] at this
      exact this
    · exact h1 (Or.inl h)

/-- the result with its sign -/
theorem signed {x z : BitVec F.w} {X W c : ℝ} (hx : GFv F x X) (hz : GFv F z W) (h : |W - Real.arcsin (|X|)| ≤ c * |Real.arcsin (|X|)|) :
    ∃ V, GFv F (if F.sign x then F.neg z else z) V ∧ |V - Real.arcsin X| ≤ c * |Real.arcsin X| := by
  have e := hx.eq_abs
  split <;> rename_i hs
  · rw [hs, if_pos rfl] at e
    refine ⟨-W, hz.neg, ?_⟩
    rw [e, Real.arcsin_neg, abs_neg, ← neg_sub', abs_neg]; exact h
  · rw [if_neg hs] at e
    rw [e]
    exact ⟨W, hz, h⟩
end gen

section f64
open Pio2

theorem one_fv : GFv f64 one 1 := (GFv.const (q := 1) (by decide +kernel) (by decide +kernel)).cast (by norm_num)
theorem two_fv : GFv f64 two 2 := (GFv.const (q := 2) (by decide +kernel) (by decide +kernel)).cast (by norm_num)
theorem half_fv : GFv f64 half (1 / 2) := (GFv.const (q := 1 / 2) (by decide +kernel) (by decide +kernel)).cast (by norm_num)

theorem tab64 : Half f64 HI LO := by
  have h1 : |f64.val HI + f64.val LO - 314159265358979323846 / 10 ^ 20 / 2| ≤ 1 / 2 ^ 53 / 2000 := by decide +kernel
  have h1' := Rat.cast_le (K := ℝ).mpr h1
  have := pi_near
  push_cast at h1' this
  rw [f64.valK_cast, f64.valK_cast] at h1'
  refine ⟨?_⟩
  rw [s64]
  rw [abs_le] at this h1' ⊢
  norm_num at this h1' ⊢
  constructor <;> linarith [h1'.1, h1'.2, this.1, this.2]

theorem mask_shift (b : BitVec 64) : b &&& 0xFFFFFFFF00000000#64 = (b >>> (32 : ℕ)) <<< (32 : ℕ) := by
  apply BitVec.eq_of_getLsbD_eq
  intro i hi
  interval_cases i <;> simp

/-- the upper half of a number -/
theorem clear_mag (b : D) : f64.mag (clearLow b) = f64.mag b / 2 ^ 32 * 2 ^ 32 ∧ f64.sign (clearLow b) = f64.sign b := by
  have hb : b.toNat < 2 ^ 64 := b.isLt
  have e : clearLow b = (b >>> (32 : ℕ)) <<< (32 : ℕ) := by
    exact mask_shift b
  constructor
  · rw [e]
    unfold Fmt.mag
    rw [BitVec.toNat_shiftLeft, BitVec.toNat_ushiftRight, Nat.shiftRight_eq_div_pow, Nat.shiftLeft_eq]
    show b.toNat / 2 ^ 32 * 2 ^ 32 % 2 ^ 64 % 2 ^ 63 = b.toNat % 2 ^ 63 / 2 ^ 32 * 2 ^ 32
    omega
  · rw [e]
    show BitVec.msb _ = BitVec.msb _
    rw [BitVec.msb_eq_decide, BitVec.msb_eq_decide, BitVec.toNat_shiftLeft, BitVec.toNat_ushiftRight, Nat.shiftRight_eq_div_pow, Nat.shiftLeft_eq]
    congr 1
    show (2 ^ 63 ≤ b.toNat / 2 ^ 32 * 2 ^ 32 % 2 ^ 64) = (2 ^ 63 ≤ b.toNat)
    rw [eq_iff_iff]; omega

/-! ## the arcsine of `|x|` of at least 0.5 -/

/-- `0.5 * PIO2_HI` -/
def HH : D := 0x3FE921FB54442D18#f64.w
theorem hh_eq (N : FPU f64) : N.mul half HI = HH := N.mul_eq FPU.softF64 (by decide +kernel) (by decide +kernel) (by decide +kernel)

def topE : IE := .sub (.cst 0) (.sub (.mul (.cst 2) (.add (.var 0) (.mul (.var 0) (.var 1)))) (.cst 1))

theorem topCase (N : FPU f64) {z s : D} {σ S : ℝ} (h : Root f64 z s σ S) (hσ : σ ≤ 1 / 8) :
    ∃ V, GFv f64 (N.sub HI (N.sub (N.mul two (N.add s (N.mul s (compR N z)))) LO)) V ∧
      |V - (Real.pi / 2 - 2 * Real.arcsin σ)| ≤ 2 / 2 ^ (f64.s + 1) * (Real.pi / 2 - 2 * Real.arcsin σ) := by
  have h0 : 0 < σ := lt_of_lt_of_le (by positivity) h.lo
  have hhi := h.hi
  obtain ⟨R, gR, eR⟩ := ratOk64 N z _ h.z (by positivity) (by nlinarith)
  obtain ⟨b, hb⟩ : ∃ b : ℕ → D, b = fun i => if i = 0 then s else compR N z := ⟨_, rfl⟩
  obtain ⟨a, ha⟩ : ∃ a : ℕ → ℝ, a = fun i => if i = 0 then σ else asA (σ * σ) := ⟨_, rfl⟩
  obtain ⟨rr, hg, v, gv, l, -, d⟩ := IE.okP_sound (F := f64) (cs := [HI, LO, two]) (p := topE) (info := rootI 52) (good := relOk 52 2) (l := []) (lo := 0) (hi := 1 / 8) big64 N
    (by decide +kernel) (by decide +kernel) (X := σ)
    (by push_cast; linarith) (by push_cast; linarith) (b := b) (a := a) (fun lo hi g0 g1 i => by rw [hb, ha]; exact rootI_holds h gR eR g0 g1 i)
  have e1 : topE.flt N [HI, LO, two] b = N.sub HI (N.sub (N.mul two (N.add s (N.mul s (compR N z)))) LO) := by rw [hb]; rfl
  have e2 : topE.ideal [HI, LO, two] a = f64.valK ℝ HI + f64.valK ℝ LO - 2 * (σ * (1 + asA (σ * σ))) := by
    have : topE.ideal [HI, LO, two] a = ((f64.val HI : ℚ) : ℝ) - (((f64.val two : ℚ) : ℝ) * (σ + σ * asA (σ * σ)) - ((f64.val LO : ℚ) : ℝ)) := by rw [ha]; rfl
    rw [this, two_fv.valQ, f64.valK_cast, f64.valK_cast]; ring
  rw [e1] at gv
  rw [e2] at l d
  have := relOk_sound (s := 52) (k := 2) (by norm_num) hg l d (half_sub (Or.inr rfl) tab64 h0.le hhi (by norm_num))
  push_cast at this
  exact ⟨v, gv, this⟩

def lowE : IE := .sub (.cst 3) (.sub (.sub (.mul (.mul (.cst 2) (.var 0)) (.var 1)) (.sub (.cst 1) (.mul (.cst 2) (.var 2)))) (.var 3))
def lowI (lo hi : ℚ) : ℕ → Iv
  | 0 => rootI 52 lo hi 0
  | 1 => rootI 52 lo hi 1
  | 2 => ⟨-hi / 1000, hi / 1000, 1 / 2 ^ 53 * hi / 100⟩
  | _ => ⟨f64.val HH - hi * 2002 / 1000, f64.val HH - max lo 0 * 1998 / 1000, 0⟩

set_option maxHeartbeats 1000000 in
theorem lowCase (N : FPU f64) {z s : D} {σ S : ℝ} (h : Root f64 z s σ S) (hσ : 1 / 9 ≤ σ) :
    ∃ V, GFv f64 (N.sub HH (N.sub (N.sub (N.mul (N.mul two s) (compR N z)) (N.sub LO (N.mul two (N.div (N.sub z (N.mul (clearLow s) (clearLow s))) (N.add s (clearLow s))))))
        (N.sub HH (N.mul two (clearLow s))))) V ∧
      |V - (Real.pi / 2 - 2 * Real.arcsin σ)| ≤ (5 / 2) / 2 ^ (f64.s + 1) * (Real.pi / 2 - 2 * Real.arcsin σ) := by
  have h0 : 0 < σ := lt_of_lt_of_le (by positivity) h.lo
  have hhi := h.hi
  obtain ⟨R, gR, eR⟩ := ratOk64 N z _ h.z (by positivity) (by nlinarith)
  obtain ⟨F0, j, gF, gFF, hF0, hF1, hm, hj⟩ := clear_root big64 (Or.inr rfl) N h (c := 32) (by decide) (by decide) (by decide) (clear_mag s).1 (clear_mag s).2 (k := -4) (by norm_num; linarith) (by norm_num)
  obtain ⟨C, gC, eC, eF⟩ := cErr big64 (Or.inr rfl) N h gF gFF hF0 hF1
  have hd := abs_le.mp eF
  have g2 : GFv f64 (N.mul two (clearLow s)) (2 * F0) := dbl big64 N two_fv gF (by
    refine le_trans (b := 1) ?_ (by norm_num)
    rw [abs_le]; constructor <;> linarith [hd.1, hd.2])
  have hHH : f64.valK ℝ HH = ((f64.val HH : ℚ) : ℝ) := (f64.valK_cast _).symm
  have hHb : (78 / 100 : ℝ) ≤ f64.valK ℝ HH ∧ f64.valK ℝ HH ≤ 79 / 100 := by
    have h1 : (78 / 100 : ℚ) ≤ f64.val HH ∧ f64.val HH ≤ 79 / 100 := by decide +kernel
    have h1' := Rat.cast_le (K := ℝ).mpr h1.1
    have h2' := Rat.cast_le (K := ℝ).mpr h1.2
    push_cast at h1' h2'
    rw [hHH]; exact ⟨h1', h2'⟩
  have gH : GFv f64 HH (f64.valK ℝ HH) := GFv.self (by decide +kernel)
  have gG : GFv f64 (N.sub HH (N.mul two (clearLow s))) (f64.valK ℝ HH - 2 * F0) := by
    have m1 : Mul2 (-53) (f64.valK ℝ HH) := by
      have := f64.mul2_ge (b := HH) (k := -1) (by rw [abs_of_pos (by linarith [hHb.1])]; norm_num; linarith [hHb.1])
      rw [s64] at this
      exact this.mono (by norm_num)
    have m2 : Mul2 (-53) (2 * F0) := by
      have hj' : -53 ≤ j := by rw [s64] at hj; push_cast at hj; omega
      have := (hm.mono hj').add (hm.mono hj')
      rw [← two_mul] at this; exact this
    have hb : |f64.valK ℝ HH - 2 * F0| ≤ 1 := by rw [abs_le]; constructor <;> linarith [hHb.1, hHb.2, hd.1, hd.2]
    refine GFv.of_rounds big64 (gH.subR N g2) (m1.sub m2) (hb.trans (by rw [s64]; norm_num)) (by rw [s64, b64]; norm_num) (hb.trans (by norm_num))
  obtain ⟨b, hb⟩ : ∃ b : ℕ → D, b = fun i => match i with
    | 0 => s
    | 1 => compR N z
    | 2 => N.div (N.sub z (N.mul (clearLow s) (clearLow s))) (N.add s (clearLow s))
    | _ => N.sub HH (N.mul two (clearLow s)) := ⟨_, rfl⟩
  obtain ⟨a, ha⟩ : ∃ a : ℕ → ℝ, a = fun i => match i with
    | 0 => σ
    | 1 => asA (σ * σ)
    | 2 => σ - F0
    | _ => f64.valK ℝ HH - 2 * F0 := ⟨_, rfl⟩
  obtain ⟨rr, hg, v, gv, l, -, d⟩ := IE.okP_sound (F := f64) (cs := [HI, LO, two, HH]) (p := lowE) (info := lowI) (good := relOk 52 (5 / 2)) (lo := 1 / 9)
    (l := [1 / 8, 3 / 16, 1 / 4, 5 / 16, 3 / 8, 7 / 16, 15 / 32]) (hi := 1 / 2) big64 N (by decide +kernel) (by decide +kernel) (X := σ)
    (by push_cast; linarith) (by push_cast; linarith) (b := b) (a := a) (fun lo hi g0 g1 i => by
      rw [hb, ha]
      have hm0 : ((max lo 0 : ℚ) : ℝ) ≤ σ := by push_cast; exact max_le g0 h0.le
      match i with
      | 0 => exact rootI_holds h gR eR g0 g1 0
      | 1 => exact rootI_holds h gR eR g0 g1 1
      | 2 =>
        refine ⟨C, gC, ?_, ?_, ?_⟩
        · show ((-hi / 1000 : ℚ) : ℝ) ≤ σ - F0
          push_cast; linarith [hd.1]
        · show σ - F0 ≤ ((hi / 1000 : ℚ) : ℝ)
          push_cast; linarith [hd.2]
        · show |C - (σ - F0)| ≤ ((1 / 2 ^ 53 * hi / 100 : ℚ) : ℝ)
          rw [s64] at eC
          push_cast; linarith
      | i + 3 =>
        refine ⟨_, gG, ?_, ?_, ?_⟩
        · show ((f64.val HH - hi * 2002 / 1000 : ℚ) : ℝ) ≤ f64.valK ℝ HH - 2 * F0
          rw [hHH]; push_cast; linarith [hd.1]
        · show f64.valK ℝ HH - 2 * F0 ≤ ((f64.val HH - max lo 0 * 1998 / 1000 : ℚ) : ℝ)
          rw [hHH, Rat.cast_sub, Rat.cast_div, Rat.cast_mul, Rat.cast_ofNat, Rat.cast_ofNat]; linarith [hd.2]
        · show |f64.valK ℝ HH - 2 * F0 - (f64.valK ℝ HH - 2 * F0)| ≤ ((0 : ℚ) : ℝ)
          rw [sub_self, abs_zero]; norm_num)
  have e1 : lowE.flt N [HI, LO, two, HH] b = N.sub HH (N.sub (N.sub (N.mul (N.mul two s) (compR N z)) (N.sub LO (N.mul two (N.div (N.sub z (N.mul (clearLow s) (clearLow s))) (N.add s (clearLow s))))))
        (N.sub HH (N.mul two (clearLow s)))) := by rw [hb]; rfl
  have hdb : f64.valK ℝ HI = 2 * f64.valK ℝ HH := by
    have : f64.val HI = 2 * f64.val HH := by decide +kernel
    rw [← f64.valK_cast, ← f64.valK_cast, this]; push_cast; ring
  have e2 : lowE.ideal [HI, LO, two, HH] a = f64.valK ℝ HI + f64.valK ℝ LO - 2 * (σ * (1 + asA (σ * σ))) := by
    have : lowE.ideal [HI, LO, two, HH] a = ((f64.val HH : ℚ) : ℝ) - (((f64.val two : ℚ) : ℝ) * σ * asA (σ * σ) - (((f64.val LO : ℚ) : ℝ) - ((f64.val two : ℚ) : ℝ) * (σ - F0)) -
        (f64.valK ℝ HH - 2 * F0)) := by rw [ha]; rfl
    rw [this, two_fv.valQ, hdb, f64.valK_cast, f64.valK_cast]; ring
  rw [e1] at gv
  rw [e2] at l d
  have := relOk_sound (s := 52) (k := 5 / 2) (by norm_num) hg l d (half_sub (Or.inr rfl) tab64 h0.le hhi (by norm_num))
  push_cast at this
  exact ⟨v, gv, this⟩

/-- the square root of the reduced argument -/
theorem root64 (N : FPU f64) {z : D} {Z : ℝ} (hz : GFv f64 z Z ∧ 2 ^ (-2 - (f64.s : ℤ)) ≤ Z) (h1 : Z ≤ 1 / 4) : ∃ s S, sqrtD N z = .ok s ∧ Root f64 z s (Real.sqrt Z) S := by
  have h0 : 0 < Z := lt_of_lt_of_le (by positivity) hz.2
  obtain ⟨s, e, hr⟩ := sqrt64 N hz.1 h0
  obtain ⟨S, h⟩ := root_of big64 (Or.inr rfl) hz.1 hz.2 h1 hr
  exact ⟨s, S, e, h⟩

/-- `asin` within its domain, without its ends -/
theorem asin_spec (N : FPU f64) {x : D} {X : ℝ} (hx : GFv f64 x X) (h1 : |X| < 1) :
    Ok (asin N x) fun r => ∃ V, GFv f64 r V ∧ |V - Real.arcsin X| ≤ 5 / 2 ^ 54 * |Real.arcsin X| := by
  have t1 := hx.hi_lt (c := 0x3ff00000) (q := 1) (by decide +kernel)
  have t2 := hx.hi_lt (c := 0x3fe00000) (q := 1 / 2) (by decide +kernel)
  have t3 := hx.hi_lt (c := 0x3e500000) (q := 1 / 2 ^ 26) (by decide +kernel)
  have t4 := hx.hi_lt (c := 0x3fef3333) (q := 2044723 / 2 ^ 21) (by decide +kernel)
  push_cast at t1 t2 t3 t4
  have weak : ∀ {v : ℝ}, |v - Real.arcsin X| ≤ 2 / 2 ^ (f64.s + 1) * |Real.arcsin X| → |v - Real.arcsin X| ≤ 5 / 2 ^ 54 * |Real.arcsin X| := by
    intro v h
    refine h.trans (mul_le_mul_of_nonneg_right ?_ (abs_nonneg _))
    rw [s64]; norm_num
  unfold asin
  simp only [hi64, sign64]
  rw [if_neg (by rw [ge_iff_le, not_le]; exact t1.mpr h1)]
  by_cases hh : f64.mag x / 2 ^ 32 < 0x3fe00000
  · rw [if_pos hh]
    have hb : |X| ≤ 1 / 2 := (t2.mp hh).le
    by_cases h3 : 0x00100000 ≤ f64.mag x / 2 ^ 32 ∧ f64.mag x / 2 ^ 32 < 0x3e500000
    · rw [if_pos h3]
      refine ⟨x, rfl, X, hx, weak ?_⟩
      have hX := t3.mp h3.2
      have := tinyCase (u := 1 / 2 ^ 53) (X := X) (by positivity) (by
        rw [← abs_mul_abs_self]
        calc |X| * |X| ≤ 1 / 2 ^ 26 * (1 / 2 ^ 26) := mul_le_mul hX.le hX.le (abs_nonneg _) (by norm_num)
          _ ≤ _ := by norm_num) hb le_rfl
      rw [s64]
      refine this.trans (le_of_eq ?_)
      norm_num
    · rw [if_neg h3]
      obtain ⟨V, g, e⟩ := smallAll big64 (Or.inr rfl) N (ratOk64 N) hx hb
      exact ⟨_, rfl, V, g, weak e⟩
  · rw [if_neg hh]
    have hb : 1 / 2 ≤ |X| := by rw [← not_lt]; exact fun h => hh (t2.mpr h)
    have hz := zArg big64 N one_fv half_fv hx.fabs hb h1
    obtain ⟨s, S, e, h⟩ := root64 N hz (by linarith)
    rw [e, ok_bind]
    have hred := asin_red (x := |X|) (by linarith) h1.le
    have hy : ∃ W, GFv f64 (asinBig N (f64.mag x / 2 ^ 32) (N.mul (N.sub one (f64.fabs x)) half) s) W ∧ |W - Real.arcsin (|X|)| ≤ 5 / 2 ^ 54 * |Real.arcsin (|X|)| := by
      have hp : 0 ≤ Real.arcsin (|X|) := Real.arcsin_nonneg.mpr (abs_nonneg _)
      have hss := Real.mul_self_sqrt (x := (1 - |X|) / 2) (by linarith)
      have hs0 := Real.sqrt_nonneg ((1 - |X|) / 2)
      rw [abs_of_nonneg hp]
      unfold asinBig
      simp only
      by_cases h4 : f64.mag x / 2 ^ 32 ≥ 0x3fef3333
      · rw [if_pos h4]
        have hX : (2044723 : ℝ) / 2 ^ 21 ≤ |X| := by rw [← not_lt]; exact fun h => absurd (t4.mpr h) (not_lt.mpr h4)
        obtain ⟨V, g, ee⟩ := topCase N h (by norm_num at hX; nlinarith)
        rw [← hred] at ee
        refine ⟨V, g, ee.trans (mul_le_mul_of_nonneg_right ?_ hp)⟩
        rw [s64]; norm_num
      · rw [if_neg h4]
        have hX : |X| < (2044723 : ℝ) / 2 ^ 21 := t4.mp (not_le.mp h4)
        obtain ⟨V, g, ee⟩ := lowCase N h (by norm_num at hX; nlinarith)
        rw [← hred] at ee
        rw [hh_eq]
        refine ⟨V, g, ee.trans (mul_le_mul_of_nonneg_right ?_ hp)⟩
        rw [s64]; norm_num
    obtain ⟨W, g, ee⟩ := hy
    obtain ⟨V, g2, e2⟩ := signed hx g ee
    refine ⟨_, rfl, V, ?_, e2⟩
    have : ((if f64.sign x = true then 1 else 0) ≠ 0) = (f64.sign x = true) := by cases f64.sign x <;> simp
    simp only [this]
    exact g2

/-- `acos` within its domain, without its ends -/
theorem acos_spec (N : FPU f64) {x : D} {X : ℝ} (hx : GFv f64 x X) (h1 : |X| < 1) :
    Ok (acos N x) fun r => ∃ V, GFv f64 r V ∧ |V - Real.arccos X| ≤ 1 / 2 ^ 52 * Real.arccos X := by
  have t1 := hx.hi_lt (c := 0x3ff00000) (q := 1) (by decide +kernel)
  have t2 := hx.hi_lt (c := 0x3fe00000) (q := 1 / 2) (by decide +kernel)
  have t3 := hx.hi_lt (c := 0x3c600001) (q := 1048577 / 2 ^ 77) (by decide +kernel)
  push_cast at t1 t2 t3
  have hX := abs_lt.mp h1
  have u2 : (2 : ℝ) / 2 ^ (f64.s + 1) = 1 / 2 ^ 52 := by rw [s64]; norm_num
  unfold acos
  simp only [hi64, sign64]
  rw [if_neg (by rw [ge_iff_le, not_le]; exact t1.mpr h1)]
  by_cases hh : f64.mag x / 2 ^ 32 < 0x3fe00000
  · rw [if_pos hh]
    have hb : |X| ≤ 1 / 2 := (t2.mp hh).le
    by_cases h3 : f64.mag x / 2 ^ 32 ≤ 0x3c600000
    · rw [if_pos h3]
      have hXs : |X| < 1048577 / 2 ^ 77 := t3.mp (by omega)
      have he : N.add HI tiny = HI := N.add_eq FPU.softF64 (by decide +kernel) (by decide +kernel)
      rw [he]
      refine ⟨_, rfl, _, GFv.self (by decide +kernel), ?_⟩
      have ht : |f64.valK ℝ HI - Real.pi / 2| ≤ 7 / 10 ^ 17 := by
        have h1 : |f64.val HI - 314159265358979323846 / 10 ^ 20 / 2| ≤ 65 / 10 ^ 18 := by decide +kernel
        have h1' := Rat.cast_le (K := ℝ).mpr h1
        have := pi_near
        push_cast at h1' this
        rw [f64.valK_cast] at h1'
        rw [abs_le] at this h1' ⊢
        constructor <;> linarith [h1'.1, h1'.2, this.1, this.2]
      have ha : |Real.arcsin X| ≤ 1 / 10 ^ 16 := by
        have h2 := tinyCase (u := 1 / 2 ^ 20) (X := X) (by positivity) (by
          rw [← abs_mul_abs_self]
          have : |X| ≤ 1 / 2 ^ 10 := hXs.le.trans (by norm_num)
          calc |X| * |X| ≤ 1 / 2 ^ 10 * (1 / 2 ^ 10) := mul_le_mul this this (abs_nonneg _) (by norm_num)
            _ ≤ _ := by norm_num) hb (by norm_num)
        have h3 := abs_add_le (Real.arcsin X - X) X
        rw [sub_add_cancel, abs_sub_comm] at h3
        norm_num at hXs h2 h3 ⊢
        linarith
      have hpi := Real.pi_gt_d4
      rw [Real.arccos]
      rw [abs_le] at ht ha ⊢
      norm_num at hpi ht ha ⊢
      constructor <;> linarith [ht.1, ht.2, ha.1, ha.2]
    · rw [if_neg h3]
      obtain ⟨V, g, e⟩ := midCase big64 (Or.inr rfl) N (ratOk64 N) tab64 (by decide +kernel) (by decide +kernel) hx hb
      rw [u2] at e
      exact ⟨_, rfl, V, g, e⟩
  · rw [if_neg hh]
    have hb : 1 / 2 ≤ |X| := by rw [← not_lt]; exact fun h => hh (t2.mpr h)
    have heq := hx.eq_abs
    by_cases hs : f64.sign x = true
    · rw [if_pos (by rw [if_pos hs]; norm_num)]
      rw [if_pos hs] at heq
      have hz := zArgN big64 N one_fv half_fv hx (by linarith) hX.1
      obtain ⟨s, S, e, h⟩ := root64 N hz (by linarith)
      rw [e, ok_bind]
      obtain ⟨V, g, ee⟩ := negCase big64 (Or.inr rfl) N (ratOk64 N) tab64 two_fv (by decide +kernel) (by decide +kernel) h
      rw [← acos_neg_red hX.1.le hX.2.le, u2] at ee
      exact ⟨_, rfl, V, g, ee⟩
    · rw [if_neg (by rw [if_neg hs]; simp)]
      rw [if_neg hs] at heq
      have hz := zArg big64 N one_fv half_fv hx (by linarith) hX.2
      obtain ⟨s, S, e, h⟩ := root64 N hz (by linarith)
      rw [e, ok_bind]
      obtain ⟨F0, j, gF, gFF, hF0, hF1, -, -⟩ := clear_root big64 (Or.inr rfl) N h (c := 32) (by decide) (by decide) (by decide) (clear_mag s).1 (clear_mag s).2 (k := -28)
        (by have := h.lo; norm_num at this ⊢; linarith) (by norm_num)
      obtain ⟨V, g, ee⟩ := posCase big64 (Or.inr rfl) N (ratOk64 N) two_fv h gF gFF hF0 hF1
      rw [← acos_red hX.1.le hX.2.le, u2] at ee
      exact ⟨_, rfl, V, g, ee⟩
end f64
end Asin
end Verif
