import Verif.Libm.RemPio2F
import Verif.Props.LibmFma
/-! # Properties C58 and C59: argument reduction modulo `π/2` -/
namespace Verif.Props
open Fmt Pio2

/-! ### C58: the digits of `2/π`, and the distance of floating point numbers from the multiples of `π/2` -/

theorem tabN_append (l : List Nat) (x : Nat) : tabN (l ++ [x]) = tabN l * 2 ^ 24 + x := by
  unfold tabN; rw [List.foldl_append]; rfl

theorem tabN_sum (l : List Nat) : (tabN l : ℝ) = (∑ i ∈ Finset.range l.length, (l.getD i 0 : ℝ) / 2 ^ (24 * (i + 1))) * 2 ^ (24 * l.length) := by
  induction l using List.reverseRecOn with
  | nil => simp [tabN]
  | append_singleton l x ih =>
    rw [tabN_append, List.length_append, List.length_singleton, Finset.sum_range_succ, Nat.cast_add, Nat.cast_mul, ih]
    have h1 : ∀ i ∈ Finset.range l.length, ((l ++ [x]).getD i 0 : ℝ) / 2 ^ (24 * (i + 1)) = (l.getD i 0 : ℝ) / 2 ^ (24 * (i + 1)) := by
      intro i hi
      rw [List.getD_append _ _ _ _ (Finset.mem_range.1 hi)]
    rw [Finset.sum_congr rfl h1, List.getD_append_right _ _ _ _ (le_refl _), Nat.sub_self, add_mul, div_mul_cancel₀ _ (by positivity),
      show 24 * (l.length + 1) = 24 * l.length + 24 by ring, pow_add]
    push_cast
    simp only [List.getD_cons_zero]
    ring

/-- C58: all 690 entries of the table `IPIO2` are right: they are the digits of `2/π` in base `2^24`, the last one truncated. -/
theorem C58_table : (∀ i, i < 690 → ipio2 i < 2 ^ 24) ∧
    ∑ i ∈ Finset.range 690, (ipio2 i : ℝ) / 2 ^ (24 * (i + 1)) ≤ 2 / Real.pi ∧
    2 / Real.pi < ∑ i ∈ Finset.range 690, (ipio2 i : ℝ) / 2 ^ (24 * (i + 1)) + 1 / 2 ^ 16560 := by
  have hl : IPIO2.length = 690 := by decide +kernel
  have h := two_div_pi
  have hs := tabN_sum IPIO2
  rw [hl, show 24 * 690 = 16560 by norm_num] at hs
  rw [hs] at h
  refine ⟨fun i _ => ipio2_lt i, ?_, ?_⟩
  · exact le_of_mul_le_mul_right h.1 (by positivity)
  · refine lt_of_mul_lt_mul_right (a := (2 : ℝ) ^ 16560) ?_ (by positivity)
    rw [add_mul, div_mul_cancel₀ _ (by positivity)]
    exact h.2

/-- `2/π = 0.6366…` -/
example : ipio2 0 = 0xA2F983 ∧ 0.6366 < (ipio2 0 : ℚ) / 2 ^ 24 ∧ (ipio2 0 : ℚ) / 2 ^ 24 < 0.6367 ∧ ipio2 65 = 0xC08C6B := by decide +kernel

/-- C58: no `f64` of magnitude at least `1/2` comes nearer than `2^-62` to a multiple of `π/2`, measured in units of `π/2`: the reduction
never cancels more than a bounded number of digits. -/
theorem C58_no_near_multiple {x : BitVec f64.w} (hx : f64.IsFin x) (h : 1 / 2 ≤ |((f64.val x : ℚ) : ℝ)|) (k : ℤ) :
    (2 : ℝ) ^ (-62 : ℤ) * (Real.pi / 2) ≤ |((f64.val x : ℚ) : ℝ) - k * (Real.pi / 2)| := by
  have hv : Fv x ((f64.val x : ℚ) : ℝ) := ⟨hx, (f64.valK_cast x).symm⟩
  have := dist_fv hv h k
  have hpi := Real.pi_pos
  have e : ((f64.val x : ℚ) : ℝ) - k * (Real.pi / 2) = (((f64.val x : ℚ) : ℝ) * (2 / Real.pi) - k) * (Real.pi / 2) := by field_simp
  rw [e, abs_mul, abs_of_pos (show 0 < Real.pi / 2 by positivity)]
  exact mul_le_mul_of_nonneg_right this (by positivity)

/-- C58 for `f32`: at least `2^-36` for magnitudes from `2^23` on. -/
theorem C58_no_near_multiple_f32 {x : BitVec f32.w} (hx : f32.IsFin x) (h : 0x4b000000 ≤ f32.mag x) (k : ℤ) :
    (2 : ℝ) ^ (-36 : ℤ) * (Real.pi / 2) ≤ |((f32.val x : ℚ) : ℝ) - k * (Real.pi / 2)| := by
  have hX := norm32 (x := x) (by omega)
  have hpi := Real.pi_pos
  have hinf : f32.mag x < 0x7f800000 := hx
  have key : ∀ P : ℤ, (2 : ℝ) ^ (-36 : ℤ) ≤ abs (|Vf x| * (2 / Real.pi) - P) := by
    intro P
    have := dist_pio2_32 (m := ((2 ^ 23 + f32.mag x % 2 ^ 23 : ℕ) : ℤ)) (j := f32.mag x / 2 ^ 23 - 97) (by omega) (by omega) (by omega) (by push_cast; omega) P
    rw [Int.cast_natCast, show ((f32.mag x / 2 ^ 23 - 97 : ℕ) : ℤ) - 53 = ((f32.mag x / 2 ^ 23 : ℕ) : ℤ) - 150 by omega, ← hX] at this
    exact this
  have key2 : (2 : ℝ) ^ (-36 : ℤ) ≤ |Vf x * (2 / Real.pi) - k| := by
    rcases abs_choice (Vf x) with h' | h'
    · have := key k; rwa [h'] at this
    · have := key (-k)
      rw [h', ← abs_neg] at this
      convert this using 2
      push_cast; ring
  show _ ≤ |Vf x - k * (Real.pi / 2)|
  have e : Vf x - k * (Real.pi / 2) = (Vf x * (2 / Real.pi) - k) * (Real.pi / 2) := by field_simp
  rw [e, abs_mul, abs_of_pos (show 0 < Real.pi / 2 by positivity)]
  exact mul_le_mul_of_nonneg_right key2 (by positivity)

/-- The nearest `f64` to `π/2` and the largest finite one. -/
example : f64.IsFin 0x3ff921fb54442d18#f64.w ∧ f64.IsFin 0x7fefffffffffffff#f64.w ∧ 1 / 2 ≤ |f64.val 0x3ff921fb54442d18#f64.w| := by
  decide +kernel

/-! ### C59: the reduction -/

/-- C59: `rem_pio2` on every finite argument above `π/4` (the callers handle the others): it does not panic, never reads outside its tables
and arrays and terminates; its result is an octant `n` and a remainder given as an unevaluated sum of two numbers. For some integer `k`,
`n` is `k` modulo 8, the remainder is `x - k π/2` with a relative error below `2^-64`, and lies within `π/4` up to the tolerance of the
thresholds. -/
theorem C59_rem_pio2 (N : FPU f64) (p64 : Bool) {x : BitVec f64.w} (hx : f64.IsFin x) (hlo : 0x3fe921fb < (x.toNat >>> 32) &&& 0x7fffffff) :
    ∃ n y0 y1, remPio2 N p64 x = .ok (n, y0, y1) ∧ f64.IsFin y0 ∧ f64.IsFin y1 ∧ ∃ k : ℤ, n % 8 = k % 8 ∧
      |((f64.val x : ℚ) : ℝ) - k * (Real.pi / 2) - (((f64.val y0 : ℚ) : ℝ) + ((f64.val y1 : ℚ) : ℝ))| ≤ 1 / 2 ^ 64 * |((f64.val y0 : ℚ) : ℝ)| ∧
      |((f64.val y1 : ℚ) : ℝ)| ≤ 1.502 / 2 ^ 53 * |((f64.val y0 : ℚ) : ℝ)| ∧
      |((f64.val x : ℚ) : ℝ) - k * (Real.pi / 2)| ≤ Real.pi / 4 + 1 / 2 ^ 17 := by
  have hv : Fv x ((f64.val x : ℚ) : ℝ) := ⟨hx, (f64.valK_cast x).symm⟩
  obtain ⟨⟨n, y0, y1⟩, h1, k, r0, r1, h2, f0, f1, h3, h4, h5⟩ := remPio2_spec (N := N) (p64 := p64) hv hlo
  refine ⟨n, y0, y1, h1, f0.fin, f1.fin, k, h2, ?_⟩
  have e0 : ((f64.val y0 : ℚ) : ℝ) = r0 := by rw [← f0.val]; exact f64.valK_cast y0
  have e1 : ((f64.val y1 : ℚ) : ℝ) = r1 := by rw [← f1.val]; exact f64.valK_cast y1
  rw [e0, e1]
  exact ⟨h3, h4, h5⟩

/-- `x - x` of an infinity or NaN -/
theorem sub_self_nan (N : FPU f64) {x : BitVec f64.w} (hx : ¬ f64.IsFin x) : f64.IsNaN (N.sub x x) := by
  obtain ⟨_, h1, h2, _⟩ := N.sub_spec x x
  have hm : f64.infRep ≤ f64.mag x := not_lt.1 hx
  rcases Nat.eq_or_lt_of_le hm with h | h
  · have hi : f64.IsInf x := h.symm
    have hn : f64.mag (f64.neg x) = f64.mag x := f64.mag_neg x
    have := h2 hi (by unfold IsNaN; omega)
    rw [if_pos ⟨by unfold IsInf; omega, by rw [f64.sign_neg]; cases f64.sign x <;> simp⟩] at this
    exact this
  · exact h1 (Or.inl h)

/-- C59, infinities and NaN: the octant is 0 and both parts of the remainder are NaN. -/
theorem C59_rem_pio2_special (N : FPU f64) (p64 : Bool) {x : BitVec f64.w} (hx : ¬ f64.IsFin x) :
    ∃ y, remPio2 N p64 x = .ok (0, y, y) ∧ f64.IsNaN y := by
  have hm : f64.infRep ≤ f64.mag x := not_lt.1 hx
  have hh : 0x7ff00000 ≤ Pio2.hi x := by
    rw [hi_eq, Nat.le_div_iff_mul_le (by positivity)]
    exact hm
  refine ⟨N.sub x x, ?_, sub_self_nan N hx⟩
  unfold remPio2
  have hdef : (x.toNat >>> 32) &&& 0x7fffffff = Pio2.hi x := rfl
  simp only [hdef]
  rw [if_neg (by omega), if_neg (by omega), if_neg (by omega), if_pos hh]
  rfl

/-- C59: `rem_pio2f` on every finite argument above `9π/4` (the callers handle the others): no panic, no access outside the arrays, and the
remainder, a single `f64`, has a relative error below `0.75 * 2^-25` and an absolute error below `2^-46`. -/
theorem C59_rem_pio2f (N : FPU f64) (p64 : Bool) {x : BitVec f32.w} (hx : f32.IsFin x) (hlo : 0x40e231d5 < f32.mag x) :
    ∃ n y, remPio2f N p64 x = .ok (n, y) ∧ f64.IsFin y ∧ ∃ k : ℤ, n % 8 = k % 8 ∧
      |((f32.val x : ℚ) : ℝ) - k * (Real.pi / 2) - ((f64.val y : ℚ) : ℝ)| ≤ 0.75 / 2 ^ 25 * |((f64.val y : ℚ) : ℝ)| ∧
      |((f32.val x : ℚ) : ℝ) - k * (Real.pi / 2)| ≤ Real.pi / 4 + 1 / 2 ^ 17 ∧
      |((f32.val x : ℚ) : ℝ) - k * (Real.pi / 2) - ((f64.val y : ℚ) : ℝ)| ≤ 1 / 2 ^ 46 := by
  obtain ⟨⟨n, y⟩, h1, k, r0, h2, f0, h3, h4, h5⟩ := remPio2f_spec (N := N) (p64 := p64) hx hlo
  refine ⟨n, y, h1, f0.fin, k, h2, ?_⟩
  have e0 : ((f64.val y : ℚ) : ℝ) = r0 := by rw [← f0.val]; exact f64.valK_cast y
  rw [e0]
  exact ⟨h3, h4, h5⟩

theorem C59_rem_pio2f_special (N : FPU f64) (p64 : Bool) {x : BitVec f32.w} (hx : ¬ f32.IsFin x) :
    ∃ y, remPio2f N p64 x = .ok (0, y) ∧ f64.IsNaN y := by
  have hm : 0x7f800000 ≤ f32.mag x := not_lt.1 hx
  obtain ⟨r, h1, h2⟩ : ∃ r, Fmt.extend f32 f64 x = .ok r ∧ ¬ f64.IsFin r := by
    obtain ⟨r, h1, _, h3⟩ := extend_special wider_32_64 (a := x) hm
    exact ⟨r, h1, by unfold IsFin; rw [h3]; omega⟩
  refine ⟨N.sub r r, ?_, sub_self_nan N h2⟩
  unfold remPio2f
  rw [h1, ok_bind]
  simp only [bits32]
  rw [if_neg (by omega), if_pos hm]
  rfl

/-- Concrete cases: `10^22` and `f32::MAX` (both through the 690-digit table), and arguments of the other branches. -/
example : remPio2 FPU.softF64 true 0x4480f0cf064dd592#64 = .ok (3, 4603134753999371480#64, 13574528641869985032#64) ∧
    remPio2f FPU.softF64 true 0x7f7fffff#32 = .ok (4, 13826492653115661047#64) := by decide +kernel
example : f64.IsFin 0x4480f0cf064dd592#f64.w ∧ 0x3fe921fb < ((0x4480f0cf064dd592#f64.w).toNat >>> 32) &&& 0x7fffffff ∧
    f32.IsFin 0x7f7fffff#f32.w ∧ 0x40e231d5 < f32.mag 0x7f7fffff#f32.w := by decide +kernel

end Verif.Props
