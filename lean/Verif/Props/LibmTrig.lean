import Verif.Libm.TrigF
import Verif.Props.LibmPio2
/-! # Properties C60 and C61: `sin`, `cos`, `sincos`, `sinf`, `cosf` and `sincosf`

`Fmt.FaithfulTo s r`: `r` is finite and no number of the format lies strictly between `r` and the real number `s`, or equals `s` unless `r` does. -/
namespace Verif.Props
open Fmt Pio2 Trig

/-- C60: `sin` of every finite `f64` is faithfully rounded, and computing it does not panic. -/
theorem C60_sin (N : FPU f64) (p64 : Bool) {x : BitVec f64.w} (hx : f64.IsFin x) :
    ∃ r, Trig.sin N p64 x = .ok r ∧ f64.FaithfulTo (Real.sin ((f64.val x : ℚ) : ℝ)) r :=
  sin_spec N p64 ⟨hx, (f64.valK_cast x).symm⟩

/-- C60: the same for `cos`. -/
theorem C60_cos (N : FPU f64) (p64 : Bool) {x : BitVec f64.w} (hx : f64.IsFin x) :
    ∃ r, Trig.cos N p64 x = .ok r ∧ f64.FaithfulTo (Real.cos ((f64.val x : ℚ) : ℝ)) r :=
  cos_spec N p64 ⟨hx, (f64.valK_cast x).symm⟩

/-- C60: the same for both results of `sincos`; its `unreachable!` is not reached. -/
theorem C60_sincos (N : FPU f64) (p64 : Bool) {x : BitVec f64.w} (hx : f64.IsFin x) :
    ∃ s c, Trig.sincos N p64 x = .ok (s, c) ∧ f64.FaithfulTo (Real.sin ((f64.val x : ℚ) : ℝ)) s ∧
      f64.FaithfulTo (Real.cos ((f64.val x : ℚ) : ℝ)) c := by
  obtain ⟨⟨s, c⟩, h1, h2⟩ := sincos_spec N p64 (x := x) ⟨hx, (f64.valK_cast x).symm⟩
  exact ⟨s, c, h1, h2⟩

/-- a faithful rounding of a number of magnitude at most `1` has magnitude at most `1` -/
theorem faithful_le_one {F : Fmt} {o : BitVec F.w} (ho : F.IsFin o) (h1 : F.valK ℝ o = 1) {s : ℝ} (hs : |s| ≤ 1) {r : BitVec F.w}
    (h : F.FaithfulTo s r) : |((F.val r : ℚ) : ℝ)| ≤ 1 := by
  rw [F.valK_cast, abs_le]
  have hs := abs_le.mp hs
  have a := (h.2 o ho).2
  have b := (h.2 (F.neg o) (F.isFin_neg.mpr ho)).1
  rw [F.valK_neg, h1] at b
  rw [h1] at a
  constructor
  · by_contra hc; exact b ⟨not_le.mp hc, by linarith⟩
  · by_contra hc; exact a ⟨by linarith, not_le.mp hc⟩

/-- C60: the results of `sin` and `cos` never leave `[-1, 1]`. -/
theorem C60_range (N : FPU f64) (p64 : Bool) {x : BitVec f64.w} (hx : f64.IsFin x) {s c : BitVec f64.w}
    (hs : Trig.sin N p64 x = .ok s) (hc : Trig.cos N p64 x = .ok c) : |((f64.val s : ℚ) : ℝ)| ≤ 1 ∧ |((f64.val c : ℚ) : ℝ)| ≤ 1 := by
  obtain ⟨s', h1, h2⟩ := C60_sin N p64 hx
  obtain ⟨c', h3, h4⟩ := C60_cos N p64 hx
  rw [hs] at h1
  rw [hc] at h3
  cases h1
  cases h3
  exact ⟨faithful_le_one fv_cone.fin fv_cone.val (Real.abs_sin_le_one _) h2, faithful_le_one fv_cone.fin fv_cone.val (Real.abs_cos_le_one _) h4⟩

/-- C60: `sin` and `sincos` keep zeros, with their signs, and all tiny arguments unchanged. -/
theorem C60_sin_tiny (N : FPU f64) (p64 : Bool) {x : BitVec f64.w} (h : f64.mag x < 0x3e46a09e00000000) :
    Trig.sin N p64 x = .ok x ∧ Trig.sincos N p64 x = .ok (x, 0x3ff0000000000000#f64.w) := by
  have hh : Pio2.hi x < 0x3e46a09e := by
    rw [hi_eq, Nat.div_lt_iff_lt_mul (by positivity)]; exact h
  have hdef : (x.toNat >>> 32) &&& 0x7fffffff = Pio2.hi x := rfl
  unfold Trig.sin Trig.sincos
  simp only [hdef]
  rw [if_pos (by omega), if_pos (by omega), if_pos (by omega), if_pos hh]
  exact ⟨rfl, rfl⟩

/-- C60: of infinities and NaN, all three functions give NaN. -/
theorem C60_special (N : FPU f64) (p64 : Bool) {x : BitVec f64.w} (hx : ¬ f64.IsFin x) :
    ∃ r, f64.IsNaN r ∧ Trig.sin N p64 x = .ok r ∧ Trig.cos N p64 x = .ok r ∧ Trig.sincos N p64 x = .ok (r, r) := by
  have hm : f64.infRep ≤ f64.mag x := not_lt.1 hx
  have hh : 0x7ff00000 ≤ Pio2.hi x := by
    rw [hi_eq, Nat.le_div_iff_mul_le (by positivity)]
    exact hm
  have hdef : (x.toNat >>> 32) &&& 0x7fffffff = Pio2.hi x := rfl
  refine ⟨N.sub x x, sub_self_nan N hx, ?_⟩
  unfold Trig.sin Trig.cos Trig.sincos
  simp only [hdef]
  have hl : ¬ Pio2.hi x ≤ 0x3fe921fb := by omega
  simp only [ge_iff_le, if_neg hl, if_pos hh]
  exact ⟨rfl, rfl, rfl⟩

/-- Concrete cases: `10^22`, whose sine `-0.8522008497671888` and cosine `0.5232147853951389` are a classical test of the reduction;
the nearest `f64` to `π`. -/
example : Trig.sin FPU.softF64 true 0x4480f0cf064dd592#64 = .ok 0xbfeb453ab76bf397#64 ∧
    Trig.cos FPU.softF64 true 0x4480f0cf064dd592#64 = .ok 0x3fe0be2cef01c8f4#64 := by decide +kernel
example : Trig.sin FPU.softF64 true 0x400921fb54442d18#64 = .ok 0x3ca1a62633145c07#64 ∧
    Trig.sincos FPU.softF64 true 0x400921fb54442d18#64 = .ok (0x3ca1a62633145c07#64, 0xbff0000000000000#64) := by decide +kernel
example : f64.IsFin 0x4480f0cf064dd592#f64.w ∧ f64.mag 0x8000000000000000#f64.w < 0x3e46a09e00000000 ∧
    ¬ f64.IsFin 0x7ff0000000000000#f64.w := by decide +kernel

/-! ### C61: single precision -/

/-- C61: `sinf` of every finite `f32` is faithfully rounded, and computing it does not panic. -/
theorem C61_sinf (N : FPU f64) (p64 : Bool) (N32 : FPU f32) {x : BitVec f32.w} (hx : f32.IsFin x) :
    ∃ r, Trig.sinf N p64 N32 x = .ok r ∧ f32.FaithfulTo (Real.sin ((f32.val x : ℚ) : ℝ)) r := sinf_spec N p64 N32 hx

/-- C61: the same for `cosf`. -/
theorem C61_cosf (N : FPU f64) (p64 : Bool) (N32 : FPU f32) {x : BitVec f32.w} (hx : f32.IsFin x) :
    ∃ r, Trig.cosf N p64 N32 x = .ok r ∧ f32.FaithfulTo (Real.cos ((f32.val x : ℚ) : ℝ)) r := cosf_spec N p64 N32 hx

/-- C61: the same for both results of `sincosf`. -/
theorem C61_sincosf (N : FPU f64) (p64 : Bool) (N32 : FPU f32) {x : BitVec f32.w} (hx : f32.IsFin x) :
    ∃ s c, Trig.sincosf N p64 N32 x = .ok (s, c) ∧ f32.FaithfulTo (Real.sin ((f32.val x : ℚ) : ℝ)) s ∧
      f32.FaithfulTo (Real.cos ((f32.val x : ℚ) : ℝ)) c := by
  obtain ⟨⟨s, c⟩, h1, h2⟩ := sincosf_spec N p64 N32 hx
  exact ⟨s, c, h1, h2⟩

/-- C61: the results never leave `[-1, 1]`. -/
theorem C61_range (N : FPU f64) (p64 : Bool) (N32 : FPU f32) {x : BitVec f32.w} (hx : f32.IsFin x) {s c : BitVec f32.w}
    (hs : Trig.sinf N p64 N32 x = .ok s) (hc : Trig.cosf N p64 N32 x = .ok c) : |((f32.val s : ℚ) : ℝ)| ≤ 1 ∧ |((f32.val c : ℚ) : ℝ)| ≤ 1 := by
  obtain ⟨s', h1, h2⟩ := C61_sinf N p64 N32 hx
  obtain ⟨c', h3, h4⟩ := C61_cosf N p64 N32 hx
  rw [hs] at h1
  rw [hc] at h3
  cases h1
  cases h3
  exact ⟨faithful_le_one one32.1 one32.2 (Real.abs_sin_le_one _) h2, faithful_le_one one32.1 one32.2 (Real.abs_cos_le_one _) h4⟩

/-- C61: `sinf` and `sincosf` keep zeros, with their signs, and all tiny arguments unchanged. -/
theorem C61_sinf_tiny (N : FPU f64) (p64 : Bool) (N32 : FPU f32) {x : BitVec f32.w} (h : f32.mag x < 0x39800000) :
    Trig.sinf N p64 N32 x = .ok x ∧ Trig.sincosf N p64 N32 x = .ok (x, 0x3f800000#f32.w) := by
  obtain ⟨r, h1, -⟩ := ext_fv (x := x) (by show f32.mag x < 0x7f800000; omega)
  unfold Trig.sinf Trig.sincosf
  rw [h1, ok_bind, ok_bind]
  simp only [bits32]
  rw [if_pos (by omega), if_pos h, if_pos (by omega), if_pos h]
  exact ⟨rfl, rfl⟩

/-- `x - x` of an infinity or NaN -/
theorem sub_self_nan32 (N : FPU f32) {x : BitVec f32.w} (hx : ¬ f32.IsFin x) : f32.IsNaN (N.sub x x) := by
  obtain ⟨_, h1, h2, _⟩ := N.sub_spec x x
  have hm : f32.infRep ≤ f32.mag x := not_lt.1 hx
  rcases Nat.eq_or_lt_of_le hm with h | h
  · have hi : f32.IsInf x := h.symm
    have hn : f32.mag (f32.neg x) = f32.mag x := f32.mag_neg x
    have := h2 hi (by unfold IsNaN; omega)
    rw [if_pos ⟨by unfold IsInf; omega, by rw [f32.sign_neg]; cases f32.sign x <;> simp⟩] at this
    exact this
  · exact h1 (Or.inl h)

/-- C61: of infinities and NaN, all three functions give NaN. -/
theorem C61_special (N : FPU f64) (p64 : Bool) (N32 : FPU f32) {x : BitVec f32.w} (hx : ¬ f32.IsFin x) :
    ∃ r, f32.IsNaN r ∧ Trig.sinf N p64 N32 x = .ok r ∧ Trig.cosf N p64 N32 x = .ok r ∧ Trig.sincosf N p64 N32 x = .ok (r, r) := by
  have hm : 0x7f800000 ≤ f32.mag x := not_lt.1 hx
  obtain ⟨e, h1, _⟩ := extend_special wider_32_64 (a := x) hm
  refine ⟨N32.sub x x, sub_self_nan32 N32 hx, ?_⟩
  unfold Trig.sinf Trig.cosf Trig.sincosf
  rw [h1, ok_bind, ok_bind, ok_bind]
  have a1 : ¬ f32.mag x ≤ 0x3f490fda := by omega
  have a2 : ¬ f32.mag x ≤ 0x407b53d1 := by omega
  have a3 : ¬ f32.mag x ≤ 0x40e231d5 := by omega
  simp only [bits32, ge_iff_le, if_neg a1, if_neg a2, if_neg a3, if_pos hm]
  exact ⟨rfl, rfl, rfl⟩

/-- Concrete cases: the nearest `f32` to `π`, and `f32::MAX`. -/
example : Trig.sinf FPU.softF64 true FPU.softF32 0x40490fdb#32 = .ok 0xb3bbbd2e#32 ∧
    Trig.sincosf FPU.softF64 true FPU.softF32 0x7f7fffff#32 = .ok (0xbf0599b3#32, 0x3f5a5f96#32) := by decide +kernel
example : f32.IsFin 0x40490fdb#f32.w ∧ f32.mag 0x80000000#f32.w < 0x39800000 ∧ ¬ f32.IsFin 0xff800000#f32.w := by decide +kernel

end Verif.Props
