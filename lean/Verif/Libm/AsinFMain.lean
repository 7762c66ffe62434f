import Verif.Libm.AsinMain
/-! # Accuracy of `asinf` and `acosf` -/
namespace Verif
open Fmt Poly
namespace Asin.F32

theorem one_fv : GFv f32 one 1 := (GFv.const (q := 1) (by decide +kernel) (by decide +kernel)).cast (by norm_num)
theorem two_fv : GFv f32 two 2 := (GFv.const (q := 2) (by decide +kernel) (by decide +kernel)).cast (by norm_num)
theorem half_fv : GFv f32 half (1 / 2) := (GFv.const (q := 1 / 2) (by decide +kernel) (by decide +kernel)).cast (by norm_num)

theorem tab32 : Half f32 HI LO := by
  have h1 : |f32.val HI + f32.val LO - 314159265358979323846 / 10 ^ 20 / 2| ≤ 1 / 2 ^ 24 / 2000 := by decide +kernel
  have h1' := Rat.cast_le (K := ℝ).mpr h1
  have := pi_near
  push_cast at h1' this
  rw [f32.valK_cast, f32.valK_cast] at h1'
  refine ⟨?_⟩
  rw [s32]
  rw [abs_le] at this h1' ⊢
  norm_num at this h1' ⊢
  constructor <;> linarith [h1'.1, h1'.2, this.1, this.2]

theorem mask_shift (b : BitVec 32) : b &&& 0xFFFFF000#32 = (b >>> (12 : ℕ)) <<< (12 : ℕ) := by
  apply BitVec.eq_of_getLsbD_eq
  intro i hi
  interval_cases i <;> simp

/-- the upper bits of a number -/
theorem clear_mag (b : S) : f32.mag (clearLow b) = f32.mag b / 2 ^ 12 * 2 ^ 12 ∧ f32.sign (clearLow b) = f32.sign b := by
  have hb : b.toNat < 2 ^ 32 := b.isLt
  have e : clearLow b = (b >>> (12 : ℕ)) <<< (12 : ℕ) := mask_shift b
  constructor
  · rw [e]
    unfold Fmt.mag
    rw [BitVec.toNat_shiftLeft, BitVec.toNat_ushiftRight, Nat.shiftRight_eq_div_pow, Nat.shiftLeft_eq]
    show b.toNat / 2 ^ 12 * 2 ^ 12 % 2 ^ 32 % 2 ^ 31 = b.toNat % 2 ^ 31 / 2 ^ 12 * 2 ^ 12
    omega
  · rw [e]
    show BitVec.msb _ = BitVec.msb _
    rw [BitVec.msb_eq_decide, BitVec.msb_eq_decide, BitVec.toNat_shiftLeft, BitVec.toNat_ushiftRight, Nat.shiftRight_eq_div_pow, Nat.shiftLeft_eq]
    congr 1
    show (2 ^ 31 ≤ b.toNat / 2 ^ 12 * 2 ^ 12 % 2 ^ 32) = (2 ^ 31 ≤ b.toNat)
    rw [eq_iff_iff]; omega

theorem widen_fv (C : FloatCast f32 f64) {b : S} {v : ℝ} (h : GFv f32 b v) : GFv f64 (C.widen b) v := by
  obtain ⟨a, -, c⟩ := C.widen_fin b h.fin
  exact ⟨a, by rw [← f64.valK_cast, c]; exact h.valQ⟩

theorem narrow_fv (C : FloatCast f32 f64) {b : BitVec f64.w} {v : ℝ} (h : GFv f64 b v) : f32.Rounds v (C.narrow b) := by
  have := Rounds.cast f32 (C.narrow_fin b h.fin).2
  rwa [h.valQ] at this

/-! ## the arcsine of `|x|` of at least 0.5 -/

def bigE : IE := .sub (.cst 0) (.mul (.cst 1) (.add (.var 0) (.mul (.var 0) (.var 1))))
def bigI (_ _ : ℚ) : ℕ → Iv
  | 0 => ⟨0, 1 / 2, 1 / 2 ^ 55⟩
  | _ => ⟨0, 1 / 20, 3 / 10 / 2 ^ 24⟩

theorem bigCase (N : FPU f32) (N64 : FPU f64) (C : FloatCast f32 f64) {z : S} {s : BitVec f64.w} {σ T : ℝ} (gz : GFv f32 z (σ * σ)) (h : Root f64 (C.widen z) s σ T) :
    ∃ V, GFv f32 (asinBig N N64 C z s) V ∧ |V - (Real.pi / 2 - 2 * Real.arcsin σ)| ≤ 2 / 2 ^ (f32.s + 1) * (Real.pi / 2 - 2 * Real.arcsin σ) := by
  have h0 : 0 < σ := lt_of_lt_of_le (by positivity) h.lo
  have hhi := h.hi
  obtain ⟨R, gR, eR⟩ := ratOk32 N z _ gz (by positivity) (by nlinarith)
  obtain ⟨a0, a1⟩ := asA_bd (z := σ * σ) (by positivity) (by nlinarith)
  have hA : asA (σ * σ) ≤ 1 / 20 := by nlinarith
  have hA0 : 0 ≤ asA (σ * σ) := by nlinarith
  have gW := widen_fv C gR
  obtain ⟨b, hb⟩ : ∃ b : ℕ → BitVec f64.w, b = fun i => match i with
    | 0 => s
    | _ => C.widen (compR N z) := ⟨_, rfl⟩
  obtain ⟨a, ha⟩ : ∃ a : ℕ → ℝ, a = fun i => match i with
    | 0 => σ
    | _ => asA (σ * σ) := ⟨_, rfl⟩
  obtain ⟨rr, hg, v, gv, -, -, d⟩ := IE.okP_sound (F := f64) (cs := [PIO2, Asin.two]) (p := bigE) (info := bigI) (good := fun r => decide (r.e ≤ 301 / 1000 / 2 ^ 24)) (l := []) (lo := 0) (hi := 1)
    Asin.big64 N64 (by decide +kernel) (by decide +kernel) (X := σ) (by push_cast; linarith) (by push_cast; linarith) (b := b) (a := a) (fun lo hi _ _ i => by
      rw [hb, ha]
      match i with
      | 0 =>
        refine ⟨T, h.s, ?_, ?_, ?_⟩
        · show ((0 : ℚ) : ℝ) ≤ σ
          push_cast; exact h0.le
        · show σ ≤ ((1 / 2 : ℚ) : ℝ)
          push_cast; exact hhi
        · show |T - σ| ≤ ((1 / 2 ^ 55 : ℚ) : ℝ)
          refine h.abs.trans (le_of_eq ?_)
          rw [Asin.s64]; push_cast; norm_num
      | i + 1 =>
        refine ⟨R, gW, ?_, ?_, ?_⟩
        · show ((0 : ℚ) : ℝ) ≤ asA (σ * σ)
          push_cast; exact hA0
        · show asA (σ * σ) ≤ ((1 / 20 : ℚ) : ℝ)
          push_cast; exact hA
        · show |R - asA (σ * σ)| ≤ ((3 / 10 / 2 ^ 24 : ℚ) : ℝ)
          refine eR.trans (le_of_eq ?_)
          rw [s32]; push_cast; norm_num)
  have hg' := Rat.cast_le (K := ℝ).mpr (of_decide_eq_true hg)
  push_cast at hg'
  have e1 : bigE.flt N64 [PIO2, Asin.two] b = N64.sub PIO2 (N64.mul Asin.two (N64.add s (N64.mul s (C.widen (compR N z))))) := by rw [hb]; rfl
  have e2 : bigE.ideal [PIO2, Asin.two] a = f64.valK ℝ PIO2 - 2 * (σ * (1 + asA (σ * σ))) := by
    have : bigE.ideal [PIO2, Asin.two] a = ((f64.val PIO2 : ℚ) : ℝ) - ((f64.val Asin.two : ℚ) : ℝ) * (σ + σ * asA (σ * σ)) := by rw [ha]; rfl
    rw [this, Asin.two_fv.valQ, f64.valK_cast]; ring
  rw [e1] at gv
  rw [e2] at d
  have hP : |f64.valK ℝ PIO2 - Real.pi / 2| ≤ 1 / 10 ^ 15 := by
    have h1 : |f64.val PIO2 - 314159265358979323846 / 10 ^ 20 / 2| ≤ 65 / 10 ^ 18 := by decide +kernel
    have h1' := Rat.cast_le (K := ℝ).mpr h1
    have := pi_near
    push_cast at h1' this
    rw [f64.valK_cast] at h1'
    rw [abs_le] at this h1' ⊢
    constructor <;> linarith [h1'.1, h1'.2, this.1, this.2]
  have hnr := asA_near (x := σ) (by rw [abs_of_pos h0]; exact hhi)
  rw [abs_of_pos h0] at hnr
  have hσ2 : 1 / 2 ^ 65 * σ ≤ 1 / 10 ^ 15 := by
    have : 1 / 2 ^ 65 * σ ≤ 1 / 2 ^ 65 * 1 := mul_le_mul_of_nonneg_left (by linarith) (by positivity)
    exact this.trans (by norm_num)
  obtain ⟨θ, hθ⟩ : ∃ θ, θ = Real.pi / 2 - 2 * Real.arcsin σ := ⟨_, rfl⟩
  rw [← hθ]
  have hvθ : |v - θ| ≤ 302 / 1000 / 2 ^ 24 := by
    rw [hθ]
    generalize σ * (1 + asA (σ * σ)) = q at *
    rw [abs_le] at d hP hnr ⊢
    norm_num at d hP hnr hσ2 hg' ⊢
    constructor <;> linarith [d.1, d.2, hP.1, hP.2, hnr.1, hnr.2]
  have hth0 : 52 / 100 ≤ θ := by
    have h6 : Real.arcsin σ ≤ Real.pi / 6 := by
      have : Real.sin (Real.pi / 6) = 1 / 2 := Real.sin_pi_div_six
      have h7 := Real.pi_pos
      rw [Real.arcsin_le_iff_le_sin ⟨by linarith, by linarith⟩ ⟨by linarith, by linarith⟩, this]
      exact hhi
    have := Real.pi_gt_d2
    norm_num at this
    rw [hθ]; linarith
  have hth1 : θ ≤ 2 := by
    have := Real.pi_lt_d2
    norm_num at this
    have := Real.arcsin_nonneg.mpr h0.le
    rw [hθ]; linarith
  have hvθ' := abs_le.mp hvθ
  have hr := narrow_fv C gv
  have hv2 : |v| ≤ 3 := by
    rw [abs_le]; norm_num at hvθ'; constructor <;> linarith [hvθ'.1, hvθ'.2]
  obtain ⟨V, gV, eV⟩ := GFv.rnd big32 hr (hv2.trans (by norm_num))
  refine ⟨V, gV, ?_⟩
  rw [s32] at eV ⊢
  have h8 : |v| ≤ θ + 1 / 2 ^ 24 := by
    have := abs_add_le (v - θ) θ
    rw [sub_add_cancel, abs_of_nonneg (by linarith : 0 ≤ θ)] at this
    norm_num at this hvθ ⊢; linarith
  have h9 := abs_add_le (V - v) (v - θ)
  rw [sub_add_sub_cancel] at h9
  norm_num at eV h8 h9 hvθ ⊢
  linarith

theorem root_z (N64 : FPU f64) {z : BitVec f64.w} {Z : ℝ} (hz : GFv f64 z Z) (h0 : 2 ^ (-25 : ℤ) ≤ Z) (h1 : Z ≤ 1 / 4) : ∃ s S, sqrtD N64 z = .ok s ∧ Root f64 z s (Real.sqrt Z) S := by
  have h2 : (2 : ℝ) ^ (-2 - (f64.s : ℤ)) ≤ Z := le_trans (by rw [Asin.s64]; norm_num) h0
  exact Asin.root64 N64 ⟨hz, h2⟩ h1

theorem root32 (N : FPU f32) {z : S} {Z : ℝ} (hz : GFv f32 z Z ∧ 2 ^ (-2 - (f32.s : ℤ)) ≤ Z) (h1 : Z ≤ 1 / 4) : ∃ s S, sqrtS N z = .ok s ∧ Root f32 z s (Real.sqrt Z) S := by
  have h0 : 0 < Z := lt_of_lt_of_le (by positivity) hz.2
  obtain ⟨s, e, hr⟩ := sqrt32 N hz.1 h0
  obtain ⟨S, h⟩ := root_of big32 (Or.inl rfl) hz.1 hz.2 h1 hr
  exact ⟨s, S, e, h⟩

theorem u2 : (2 : ℝ) / 2 ^ (f32.s + 1) = 1 / 2 ^ 23 := by rw [s32]; norm_num

/-- `asinf` within its domain, without its ends -/
theorem asinf_spec (N : FPU f32) (N64 : FPU f64) (C : FloatCast f32 f64) {x : S} {X : ℝ} (hx : GFv f32 x X) (h1 : |X| < 1) :
    Ok (asinf N N64 C x) fun r => ∃ V, GFv f32 r V ∧ |V - Real.arcsin X| ≤ 1 / 2 ^ 23 * |Real.arcsin X| := by
  have t1 := hx.mag_lt (c := 0x3f800000) (q := 1) (by decide +kernel)
  have t2 := hx.mag_lt (c := 0x3f000000) (q := 1 / 2) (by decide +kernel)
  have t3 := hx.mag_lt (c := 0x39800000) (q := 1 / 2 ^ 12) (by decide +kernel)
  push_cast at t1 t2 t3
  unfold asinf
  simp only [mag32, sign32]
  rw [if_neg (by rw [ge_iff_le, not_le]; exact t1.mpr h1)]
  by_cases hh : f32.mag x < 0x3f000000
  · rw [if_pos hh]
    have hb : |X| ≤ 1 / 2 := (t2.mp hh).le
    by_cases h3 : 0x00800000 ≤ f32.mag x ∧ f32.mag x < 0x39800000
    · rw [if_pos h3]
      refine ⟨x, rfl, X, hx, ?_⟩
      have hX := t3.mp h3.2
      have := tinyCase (u := 1 / 2 ^ 24) (X := X) (by positivity) (by
        rw [← abs_mul_abs_self]
        calc |X| * |X| ≤ 1 / 2 ^ 12 * (1 / 2 ^ 12) := mul_le_mul hX.le hX.le (abs_nonneg _) (by norm_num)
          _ ≤ _ := by norm_num) hb (by norm_num)
      refine this.trans (le_of_eq ?_)
      norm_num
    · rw [if_neg h3]
      obtain ⟨V, g, e⟩ := smallAll big32 (Or.inl rfl) N (ratOk32 N) hx hb
      rw [u2] at e
      exact ⟨_, rfl, V, g, e⟩
  · rw [if_neg hh]
    have hb : 1 / 2 ≤ |X| := by rw [← not_lt]; exact fun h => hh (t2.mpr h)
    obtain ⟨gz, hz⟩ := zArg big32 N one_fv half_fv hx.fabs hb h1
    obtain ⟨s, S, e, h⟩ := root_z N64 (widen_fv C gz) (by rw [s32] at hz; exact hz) (by linarith)
    rw [e, ok_bind]
    have hred := asin_red (x := |X|) (by linarith) h1.le
    have hp : 0 ≤ Real.arcsin (|X|) := Real.arcsin_nonneg.mpr (abs_nonneg _)
    obtain ⟨W, g, ee⟩ := bigCase N N64 C (σ := Real.sqrt ((1 - |X|) / 2)) (by rw [Real.mul_self_sqrt (by linarith)]; exact gz) h
    rw [← hred, u2] at ee
    obtain ⟨V, g2, e2⟩ := signed hx g (c := 1 / 2 ^ 23) (by rw [abs_of_nonneg hp]; exact ee)
    refine ⟨_, rfl, V, ?_, e2⟩
    have : ((if f32.sign x = true then 1 else 0) ≠ 0) = (f32.sign x = true) := by cases f32.sign x <;> simp
    simp only [this]
    exact g2

/-- `acosf` within its domain, without its ends -/
theorem acosf_spec (N : FPU f32) {x : S} {X : ℝ} (hx : GFv f32 x X) (h1 : |X| < 1) :
    Ok (acosf N x) fun r => ∃ V, GFv f32 r V ∧ |V - Real.arccos X| ≤ 1 / 2 ^ 23 * Real.arccos X := by
  have t1 := hx.mag_lt (c := 0x3f800000) (q := 1) (by decide +kernel)
  have t2 := hx.mag_lt (c := 0x3f000000) (q := 1 / 2) (by decide +kernel)
  have t3 := hx.mag_lt (c := 0x32800001) (q := 8388609 / 2 ^ 49) (by decide +kernel)
  push_cast at t1 t2 t3
  have hX := abs_lt.mp h1
  unfold acosf
  simp only [mag32, sign32]
  rw [if_neg (by rw [ge_iff_le, not_le]; exact t1.mpr h1)]
  by_cases hh : f32.mag x < 0x3f000000
  · rw [if_pos hh]
    have hb : |X| ≤ 1 / 2 := (t2.mp hh).le
    by_cases h3 : f32.mag x ≤ 0x32800000
    · rw [if_pos h3]
      have hXs : |X| < 8388609 / 2 ^ 49 := t3.mp (by omega)
      have he : N.add HI tiny = HI := N.add_eq FPU.softF32 (by decide +kernel) (by decide +kernel)
      rw [he]
      refine ⟨_, rfl, _, GFv.self (by decide +kernel), ?_⟩
      have ht : |f32.valK ℝ HI - Real.pi / 2| ≤ 8 / 10 ^ 8 := by
        have h1 : |f32.val HI - 314159265358979323846 / 10 ^ 20 / 2| ≤ 79 / 10 ^ 9 := by decide +kernel
        have h1' := Rat.cast_le (K := ℝ).mpr h1
        have := pi_near
        push_cast at h1' this
        rw [f32.valK_cast] at h1'
        rw [abs_le] at this h1' ⊢
        constructor <;> linarith [h1'.1, h1'.2, this.1, this.2]
      have ha : |Real.arcsin X| ≤ 2 / 10 ^ 8 := by
        have h2 := tinyCase (u := 1 / 2 ^ 20) (X := X) (by positivity) (by
          rw [← abs_mul_abs_self]
          have : |X| ≤ 1 / 2 ^ 10 := hXs.le.trans (by norm_num)
          calc |X| * |X| ≤ 1 / 2 ^ 10 * (1 / 2 ^ 10) := mul_le_mul this this (abs_nonneg _) (by norm_num)
            _ ≤ _ := by norm_num) hb (by norm_num)
        have h3 := abs_add_le (Real.arcsin X - X) X
        rw [sub_add_cancel, abs_sub_comm] at h3
        norm_num at hXs h2 h3 ⊢
        linarith
      have hpi := Real.pi_gt_d4
      rw [Real.arccos]
      rw [abs_le] at ht ha ⊢
      norm_num at hpi ht ha ⊢
      constructor <;> linarith [ht.1, ht.2, ha.1, ha.2]
    · rw [if_neg h3]
      obtain ⟨V, g, e⟩ := midCase big32 (Or.inl rfl) N (ratOk32 N) tab32 (by decide +kernel) (by decide +kernel) hx hb
      rw [u2] at e
      exact ⟨_, rfl, V, g, e⟩
  · rw [if_neg hh]
    have hb : 1 / 2 ≤ |X| := by rw [← not_lt]; exact fun h => hh (t2.mpr h)
    have heq := hx.eq_abs
    by_cases hs : f32.sign x = true
    · rw [if_pos (by rw [if_pos hs]; norm_num)]
      rw [if_pos hs] at heq
      have hz := zArgN big32 N one_fv half_fv hx (by linarith) hX.1
      obtain ⟨s, S, e, h⟩ := root32 N hz (by linarith)
      rw [e, ok_bind]
      obtain ⟨V, g, ee⟩ := negCase big32 (Or.inl rfl) N (ratOk32 N) tab32 two_fv (by decide +kernel) (by decide +kernel) h
      rw [← acos_neg_red hX.1.le hX.2.le, u2] at ee
      exact ⟨_, rfl, V, g, ee⟩
    · rw [if_neg (by rw [if_neg hs]; simp)]
      rw [if_neg hs] at heq
      have hz := zArg big32 N one_fv half_fv hx (by linarith) hX.2
      obtain ⟨s, S, e, h⟩ := root32 N hz (by linarith)
      rw [e, ok_bind]
      obtain ⟨F0, j, gF, gFF, hF0, hF1, -, -⟩ := clear_root big32 (Or.inl rfl) N h (c := 12) (by decide) (by decide) (by decide) (clear_mag s).1 (clear_mag s).2 (k := -28)
        (by have := h.lo; norm_num at this ⊢; linarith) (by norm_num)
      obtain ⟨V, g, ee⟩ := posCase big32 (Or.inl rfl) N (ratOk32 N) two_fv h gF gFF hF0 hF1
      rw [← acos_red hX.1.le hX.2.le, u2] at ee
      exact ⟨_, rfl, V, g, ee⟩
end Asin.F32
end Verif
