import Verif.Libm.AsinFMain
import Verif.Libm.FmaWideProofs
/-! # The range of `asin` and `acos`, and their values at the ends of the domain and at zero -/
namespace Verif
open Fmt Poly
namespace Asin

/-- a number of absolute value less than 1 is not too near to 1 -/
theorem gap {F : Fmt} (hF : F.Big) (N : FPU F) {one half x : BitVec F.w} {X ε : ℝ} (h1 : GFv F one 1) (hh : GFv F half (1 / 2)) (hx : GFv F x X) (hX : |X| < 1) (hε0 : 0 ≤ ε)
    (hε1 : ε ≤ 1 / 4) (hε : ε * ε ≤ 2 ^ (-2 - (F.s : ℤ))) : |Real.arcsin X| ≤ Real.pi / 2 - 2 * ε := by
  have e : |Real.arcsin X| = Real.arcsin |X| := by
    rcases le_total 0 X with h | h
    · rw [abs_of_nonneg h, abs_of_nonneg (Real.arcsin_nonneg.mpr h)]
    · rw [abs_of_nonpos h, Real.arcsin_neg, abs_of_nonpos (Real.arcsin_nonpos.mpr h)]
  rw [e, asin_red (by linarith [abs_nonneg X]) hX.le]
  have hs : ε ≤ Real.sqrt ((1 - |X|) / 2) := by
    refine Real.le_sqrt_of_sq_le ?_
    rw [sq]
    rcases le_total (1 / 2) |X| with h | h
    · exact hε.trans (zArg hF N h1 hh hx.fabs h hX).2
    · nlinarith
  have h2 : Real.sqrt ((1 - |X|) / 2) ≤ 1 := by
    exact Real.sqrt_le_iff.mpr ⟨zero_le_one, by linarith [abs_nonneg X]⟩
  have := le_arcsin (Real.sqrt_nonneg ((1 - |X|) / 2)) h2
  linarith

/-- the whole of what is claimed of the arcsine -/
theorem range_asin {V θ c H : ℝ} (h : |V - θ| ≤ c * |θ|) (hθ : |θ| ≤ 2) {g : ℝ} (hg : |θ| ≤ g) (hH : g + c * 2 ≤ H) (hc0 : 0 ≤ c) : |V| ≤ H := by
  have h1 := abs_add_le (V - θ) θ
  rw [sub_add_cancel] at h1
  have h2 : c * |θ| ≤ c * 2 := mul_le_mul_of_nonneg_left hθ hc0
  linarith

theorem sgn_one {F : Fmt} {x one : BitVec F.w} {X : ℝ} (hx : GFv F x X) (h1 : GFv F one 1) (h : |X| = 1) : x = one ∨ x = F.neg one := by
  have hm : F.mag x = F.mag one := by
    rw [← F.magVal_inj]
    have e1 := hx.abs_eq
    have e2 := h1.abs_eq
    rw [h] at e1; rw [abs_one] at e2
    rw [e1, ← F.magVal_cast, ← F.magVal_cast] at e2
    exact_mod_cast e2
  have hs1 := h1.sign_of_pos one_pos
  cases hs : F.sign x
  · exact Or.inl (F.ext_sign_mag (by rw [hs, hs1]) hm)
  · exact Or.inr (F.ext_sign_mag (by rw [hs, F.sign_neg, hs1]; rfl) (by rw [hm, F.mag_neg]))

section f64
open Pio2
theorem ix_one : ((0x3ff0000000000000#f64.w : D).toNat >>> 32) &&& 0x7fffffff = 0x3ff00000 := by decide

theorem asin_one (N : FPU f64) : asin N one = .ok HI ∧ asin N (f64.neg one) = .ok (f64.neg HI) := by
  have m1 : N.mul one HI = HI := N.mul_eq FPU.softF64 (by decide +kernel) (by decide +kernel) (by decide +kernel)
  have m2 : N.mul (f64.neg one) HI = f64.neg HI := N.mul_eq FPU.softF64 (by decide +kernel) (by decide +kernel) (by decide +kernel)
  have a1 : N.add HI tiny = HI := N.add_eq FPU.softF64 (by decide +kernel) (by decide +kernel)
  have a2 : N.add (f64.neg HI) tiny = f64.neg HI := N.add_eq FPU.softF64 (by decide +kernel) (by decide +kernel)
  constructor
  · unfold asin
    simp only
    rw [if_pos (by decide +kernel), if_pos (by decide +kernel), m1, a1]
  · unfold asin
    simp only
    rw [if_pos (by decide +kernel), if_pos (by decide +kernel), m2, a2]

/-- the number nearest to `π` -/
def PI : D := 0x400921FB54442D18#f64.w

theorem acos_one (N : FPU f64) : acos N one = .ok zero ∧ acos N (f64.neg one) = .ok PI := by
  have m1 : N.mul two HI = PI := N.mul_eq FPU.softF64 (by decide +kernel) (by decide +kernel) (by decide +kernel)
  have a1 : N.add PI tiny = PI := N.add_eq FPU.softF64 (by decide +kernel) (by decide +kernel)
  constructor
  · unfold acos
    simp only
    rw [if_pos (by decide +kernel), if_pos (by decide +kernel), if_neg (by decide +kernel)]
  · unfold acos
    simp only
    rw [if_pos (by decide +kernel), if_pos (by decide +kernel), if_pos (by decide +kernel), m1, a1]

theorem compR_zero (N : FPU f64) : compR N zero = zero := by
  have m : ∀ c, f64.IsFin c → f64.sign c = false → N.mul zero c = zero := by
    intro c hc hs
    obtain ⟨p, q⟩ := (N.mul_spec zero c).1 (by decide +kernel) hc
    refine f64.ext_sign_mag (by rw [q, hs]; decide +kernel) ?_
    have hz : f64.val zero = 0 := by decide +kernel
    rw [hz, zero_mul] at p
    have h1 := (p.1.2 0 (Nat.zero_le _)).1
    rw [abs_zero, f64.magVal_zero, sub_zero, zero_sub, abs_neg, abs_zero] at h1
    have h2 := abs_nonpos_iff.mp h1
    rw [← f64.magVal_zero, f64.magVal_inj] at h2
    rw [h2]; decide +kernel
  have mn : ∀ c, f64.IsFin c → f64.sign c = true → N.mul zero c = f64.neg zero := by
    intro c hc hs
    obtain ⟨p, q⟩ := (N.mul_spec zero c).1 (by decide +kernel) hc
    refine f64.ext_sign_mag (by rw [q, hs]; decide +kernel) ?_
    have hz : f64.val zero = 0 := by decide +kernel
    rw [hz, zero_mul] at p
    have h1 := (p.1.2 0 (Nat.zero_le _)).1
    rw [abs_zero, f64.magVal_zero, sub_zero, zero_sub, abs_neg, abs_zero] at h1
    have h2 := abs_nonpos_iff.mp h1
    rw [← f64.magVal_zero, f64.magVal_inj] at h2
    rw [h2]; decide +kernel
  have a : ∀ c, c ∈ [P0, P2, Q2, one] → N.add c (f64.neg zero) = c := by
    intro c hc
    simp only [List.mem_cons, List.not_mem_nil, or_false] at hc
    rcases hc with rfl | rfl | rfl | rfl <;> exact N.add_eq FPU.softF64 (by decide +kernel) (by decide +kernel)
  have b : ∀ c, c ∈ [P1, P3, P4, Q1, Q3] → N.add c zero = c := by
    intro c hc
    simp only [List.mem_cons, List.not_mem_nil, or_false] at hc
    rcases hc with rfl | rfl | rfl | rfl | rfl <;> exact N.add_eq FPU.softF64 (by decide +kernel) (by decide +kernel)
  unfold compR
  simp only
  rw [m P5 (by decide +kernel) (by decide +kernel), b P4 (by simp), m P4 (by decide +kernel) (by decide +kernel), b P3 (by simp), mn P3 (by decide +kernel) (by decide +kernel),
    a P2 (by simp), m P2 (by decide +kernel) (by decide +kernel), b P1 (by simp), mn P1 (by decide +kernel) (by decide +kernel), a P0 (by simp),
    m P0 (by decide +kernel) (by decide +kernel), m Q4 (by decide +kernel) (by decide +kernel), b Q3 (by simp), mn Q3 (by decide +kernel) (by decide +kernel), a Q2 (by simp),
    m Q2 (by decide +kernel) (by decide +kernel), b Q1 (by simp), mn Q1 (by decide +kernel) (by decide +kernel), a one (by simp)]
  exact N.div_eq FPU.softF64 (by decide +kernel) (by decide +kernel) (by decide +kernel) (by decide +kernel)

theorem asin_zero (N : FPU f64) : asin N zero = .ok zero ∧ asin N (f64.neg zero) = .ok (f64.neg zero) := by
  have m1 : N.mul zero zero = zero := N.mul_eq FPU.softF64 (by decide +kernel) (by decide +kernel) (by decide +kernel)
  have m2 : N.mul (f64.neg zero) (f64.neg zero) = zero := N.mul_eq FPU.softF64 (by decide +kernel) (by decide +kernel) (by decide +kernel)
  have m3 : N.mul (f64.neg zero) zero = f64.neg zero := N.mul_eq FPU.softF64 (by decide +kernel) (by decide +kernel) (by decide +kernel)
  have a1 : N.add zero zero = zero := N.add_eq FPU.softF64 (by decide +kernel) (by decide +kernel)
  have a2 : N.add (f64.neg zero) (f64.neg zero) = f64.neg zero := N.add_eq FPU.softF64 (by decide +kernel) (by decide +kernel)
  constructor
  · unfold asin
    simp only
    rw [if_neg (by decide +kernel), if_pos (by decide +kernel), if_neg (by decide +kernel), m1, compR_zero, m1, a1]
  · unfold asin
    simp only
    rw [if_neg (by decide +kernel), if_pos (by decide +kernel), if_neg (by decide +kernel), m2, compR_zero, m3, a2]

/-- outside the domain -/
theorem big_ix {x : D} (h : 0x3ff0000000000000 < f64.mag x) : ¬ (f64.mag x / 2 ^ 32 - 0x3ff00000 ||| x.toNat % 2 ^ 32 = 0) ∧ f64.mag x / 2 ^ 32 ≥ 0x3ff00000 := by
  have hx : x.toNat < 2 ^ 64 := x.isLt
  have e : f64.mag x = x.toNat % 2 ^ 63 := rfl
  rw [Nat.or_eq_zero_iff]
  rw [e] at h ⊢
  constructor
  · rintro ⟨a, b⟩; omega
  · omega

theorem asin_out (N : FPU f64) {x : D} (h : 0x3ff0000000000000 < f64.mag x) : ∃ r, asin N x = .ok r ∧ f64.IsNaN r := by
  obtain ⟨h1, h2⟩ := big_ix h
  refine ⟨_, ?_, div_sub_nan N (x := x) (z := zero) (by decide +kernel)⟩
  unfold asin
  simp only [hi64]
  rw [if_pos h2, if_neg h1]

theorem acos_out (N : FPU f64) {x : D} (h : 0x3ff0000000000000 < f64.mag x) : ∃ r, acos N x = .ok r ∧ f64.IsNaN r := by
  obtain ⟨h1, h2⟩ := big_ix h
  refine ⟨_, ?_, div_sub_nan N (x := x) (z := zero) (by decide +kernel)⟩
  unfold acos
  simp only [hi64]
  rw [if_pos h2, if_neg h1]

theorem hi_near : f64.valK ℝ HI ≤ Real.pi / 2 ∧ Real.pi / 2 - 7 / 10 ^ 17 ≤ f64.valK ℝ HI := by
  have h1 : f64.val HI ≤ 314159265358979323846 / 10 ^ 20 / 2 - 1 / 10 ^ 19 ∧ 314159265358979323846 / 10 ^ 20 / 2 - 65 / 10 ^ 18 ≤ f64.val HI := by decide +kernel
  have h1' := Rat.cast_le (K := ℝ).mpr h1.1
  have h2' := Rat.cast_le (K := ℝ).mpr h1.2
  have := pi_near
  push_cast at h1' h2' this
  rw [f64.valK_cast] at h1' h2'
  rw [abs_le] at this
  constructor <;> linarith [this.1, this.2]

theorem pi_eq : f64.valK ℝ PI = 2 * f64.valK ℝ HI := by
  have : f64.val PI = 2 * f64.val HI := by decide +kernel
  rw [← f64.valK_cast, ← f64.valK_cast, this]; push_cast; ring
end f64

namespace F32
/-- the numbers nearest to `π/2`, and next to `π` -/
def HN : S := 0x3fc90fdb#f32.w
def PI : S := 0x40490fda#f32.w

theorem narrow_eq (C C' : FloatCast f32 f64) {a : BitVec f64.w} (h : f64.IsFin a) : C.narrow a = C'.narrow a := by
  obtain ⟨a1, a2⟩ := C.narrow_fin a h
  obtain ⟨b1, b2⟩ := C'.narrow_fin a h
  exact f32.ext_sign_mag (by rw [a1, b1]) (Rounds.mag_unique f32 a2 b2).1

theorem widen_eq (C C' : FloatCast f32 f64) {a : S} (h : f32.IsFin a) : C.widen a = C'.widen a := by
  obtain ⟨a0, a1, a2⟩ := C.widen_fin a h
  obtain ⟨b0, b1, b2⟩ := C'.widen_fin a h
  refine f64.ext_sign_mag (by rw [a1, b1]) ?_
  rw [← f64.magVal_inj, ← f64.absv, ← f64.absv, a2, b2]

theorem asinf_one (N : FPU f32) (N64 : FPU f64) (C : FloatCast f32 f64) : asinf N N64 C one = .ok HN ∧ asinf N N64 C (f32.neg one) = .ok (f32.neg HN) := by
  have w1 : C.widen one = Asin.one := by rw [widen_eq C (softCast wider_32_64) (by decide +kernel)]; decide +kernel
  have w2 : C.widen (f32.neg one) = f64.neg Asin.one := by rw [widen_eq C (softCast wider_32_64) (by decide +kernel)]; decide +kernel
  have m1 : N64.mul Asin.one PIO2 = PIO2 := N64.mul_eq FPU.softF64 (by decide +kernel) (by decide +kernel) (by decide +kernel)
  have m2 : N64.mul (f64.neg Asin.one) PIO2 = f64.neg PIO2 := N64.mul_eq FPU.softF64 (by decide +kernel) (by decide +kernel) (by decide +kernel)
  have a1 : N64.add PIO2 Asin.tiny = PIO2 := N64.add_eq FPU.softF64 (by decide +kernel) (by decide +kernel)
  have a2 : N64.add (f64.neg PIO2) Asin.tiny = f64.neg PIO2 := N64.add_eq FPU.softF64 (by decide +kernel) (by decide +kernel)
  have n1 : C.narrow PIO2 = HN := by rw [narrow_eq C (softCast wider_32_64) (by decide +kernel)]; decide +kernel
  have n2 : C.narrow (f64.neg PIO2) = f32.neg HN := by rw [narrow_eq C (softCast wider_32_64) (by decide +kernel)]; decide +kernel
  constructor
  · unfold asinf
    simp only
    rw [if_pos (by decide +kernel), if_pos (by decide +kernel), w1, m1, a1, n1]
  · unfold asinf
    simp only
    rw [if_pos (by decide +kernel), if_pos (by decide +kernel), w2, m2, a2, n2]

theorem acosf_one (N : FPU f32) : acosf N one = .ok zero ∧ acosf N (f32.neg one) = .ok PI := by
  have m1 : N.mul two HI = PI := N.mul_eq FPU.softF32 (by decide +kernel) (by decide +kernel) (by decide +kernel)
  have a1 : N.add PI tiny = PI := N.add_eq FPU.softF32 (by decide +kernel) (by decide +kernel)
  constructor
  · unfold acosf
    simp only
    rw [if_pos (by decide +kernel), if_pos (by decide +kernel), if_neg (by decide +kernel)]
  · unfold acosf
    simp only
    rw [if_pos (by decide +kernel), if_pos (by decide +kernel), if_pos (by decide +kernel), m1, a1]

theorem compR_zero (N : FPU f32) : compR N zero = zero := by
  have m1 : N.mul zero P2 = f32.neg zero := N.mul_eq FPU.softF32 (by decide +kernel) (by decide +kernel) (by decide +kernel)
  have m2 : N.mul zero P1 = f32.neg zero := N.mul_eq FPU.softF32 (by decide +kernel) (by decide +kernel) (by decide +kernel)
  have m3 : N.mul zero P0 = zero := N.mul_eq FPU.softF32 (by decide +kernel) (by decide +kernel) (by decide +kernel)
  have m4 : N.mul zero Q1 = f32.neg zero := N.mul_eq FPU.softF32 (by decide +kernel) (by decide +kernel) (by decide +kernel)
  have a1 : N.add P1 (f32.neg zero) = P1 := N.add_eq FPU.softF32 (by decide +kernel) (by decide +kernel)
  have a2 : N.add P0 (f32.neg zero) = P0 := N.add_eq FPU.softF32 (by decide +kernel) (by decide +kernel)
  have a3 : N.add one (f32.neg zero) = one := N.add_eq FPU.softF32 (by decide +kernel) (by decide +kernel)
  unfold compR
  simp only
  rw [m1, a1, m2, a2, m3, m4, a3]
  exact N.div_eq FPU.softF32 (by decide +kernel) (by decide +kernel) (by decide +kernel) (by decide +kernel)

theorem asinf_zero (N : FPU f32) (N64 : FPU f64) (C : FloatCast f32 f64) : asinf N N64 C zero = .ok zero ∧ asinf N N64 C (f32.neg zero) = .ok (f32.neg zero) := by
  have m1 : N.mul zero zero = zero := N.mul_eq FPU.softF32 (by decide +kernel) (by decide +kernel) (by decide +kernel)
  have m2 : N.mul (f32.neg zero) (f32.neg zero) = zero := N.mul_eq FPU.softF32 (by decide +kernel) (by decide +kernel) (by decide +kernel)
  have m3 : N.mul (f32.neg zero) zero = f32.neg zero := N.mul_eq FPU.softF32 (by decide +kernel) (by decide +kernel) (by decide +kernel)
  have a1 : N.add zero zero = zero := N.add_eq FPU.softF32 (by decide +kernel) (by decide +kernel)
  have a2 : N.add (f32.neg zero) (f32.neg zero) = f32.neg zero := N.add_eq FPU.softF32 (by decide +kernel) (by decide +kernel)
  constructor
  · unfold asinf
    simp only
    rw [if_neg (by decide +kernel), if_pos (by decide +kernel), if_neg (by decide +kernel), m1, compR_zero, m1, a1]
  · unfold asinf
    simp only
    rw [if_neg (by decide +kernel), if_pos (by decide +kernel), if_neg (by decide +kernel), m2, compR_zero, m3, a2]

theorem asinf_out (N : FPU f32) (N64 : FPU f64) (C : FloatCast f32 f64) {x : S} (h : 0x3f800000 < f32.mag x) : ∃ r, asinf N N64 C x = .ok r ∧ f32.IsNaN r := by
  refine ⟨_, ?_, div_sub_nan N (x := x) (z := zero) (by decide +kernel)⟩
  unfold asinf
  simp only [mag32]
  rw [if_pos (by omega), if_neg (by omega)]

theorem acosf_out (N : FPU f32) {x : S} (h : 0x3f800000 < f32.mag x) : ∃ r, acosf N x = .ok r ∧ f32.IsNaN r := by
  refine ⟨_, ?_, div_sub_nan N (x := x) (z := zero) (by decide +kernel)⟩
  unfold acosf
  simp only [mag32]
  rw [if_pos (by omega), if_neg (by omega)]

theorem hn_near : |f32.valK ℝ HN - Real.pi / 2| ≤ 5 / 10 ^ 8 ∧ Real.pi / 2 ≤ f32.valK ℝ HN := by
  have h1 : |f32.val HN - 314159265358979323846 / 10 ^ 20 / 2| ≤ 49 / 10 ^ 9 ∧ 314159265358979323846 / 10 ^ 20 / 2 + 1 / 10 ^ 9 ≤ f32.val HN := by decide +kernel
  have h1' := Rat.cast_le (K := ℝ).mpr h1.1
  have h2' := Rat.cast_le (K := ℝ).mpr h1.2
  have := pi_near
  push_cast at h1' h2' this
  rw [f32.valK_cast] at h1' h2'
  rw [abs_le] at this h1'
  rw [abs_le]
  refine ⟨⟨?_, ?_⟩, ?_⟩ <;> linarith [h1'.1, h1'.2, this.1, this.2]

theorem pi_near32 : |f32.valK ℝ PI - Real.pi| ≤ 16 / 10 ^ 8 := by
  have h1 : |f32.val PI - 314159265358979323846 / 10 ^ 20| ≤ 159 / 10 ^ 9 := by decide +kernel
  have h1' := Rat.cast_le (K := ℝ).mpr h1
  have := pi_near
  push_cast at h1' this
  rw [f32.valK_cast] at h1'
  rw [abs_le] at this h1' ⊢
  constructor <;> linarith [h1'.1, h1'.2, this.1, this.2]
end F32
end Asin
end Verif
