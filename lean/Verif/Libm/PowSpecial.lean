import Verif.Libm.PowFront

/-! `pow`, `powf`: the special cases of the common form. -/
namespace Verif
open Fmt
namespace Power
set_option linter.unusedSectionVars false

/-- the constants ±1 -/
structure KOk {F : Fmt} (c : K F) : Prop where
  o1 : F.sign c.one = false
  o2 : F.mag c.one = F.bias * 2 ^ F.s
  m1 : F.sign c.mone = true
  m2 : F.mag c.mone = F.bias * 2 ^ F.s

theorem kd_ok : KOk KD := by constructor <;> decide +kernel
theorem ks_ok : KOk KS := by constructor <;> decide +kernel

section
variable {F : Fmt}

theorem magVal_pow {e : ℕ} (he : 1 ≤ e) : F.magVal ℚ (e * 2 ^ F.s) = 2 ^ ((e : ℤ) - F.bias) := by
  unfold magVal
  rw [Nat.mul_mod_left, Nat.mul_div_cancel _ (by positivity), if_neg (by omega), Nat.add_zero, Nat.cast_pow, Nat.cast_ofNat, ← zpow_natCast (2 : ℚ) F.s,
    ← zpow_add₀ (by norm_num)]
  congr 1; ring

theorem bias_pos : 1 ≤ F.bias := by have := F.bias_ge; omega

theorem magVal_one : F.magVal ℚ (F.bias * 2 ^ F.s) = 1 := by rw [magVal_pow bias_pos, sub_self, zpow_zero]
theorem magVal_two : F.magVal ℚ ((F.bias + 1) * 2 ^ F.s) = 2 := by
  rw [magVal_pow (by omega)]; push_cast; rw [add_sub_cancel_left, zpow_one]
theorem magVal_half : F.magVal ℚ ((F.bias - 1) * 2 ^ F.s) = 1 / 2 := by
  have := F.bias_ge
  rw [magVal_pow (by omega), Nat.cast_sub bias_pos]
  rw [show ((F.bias : ℤ) - ((1 : ℕ) : ℤ) - F.bias) = -1 by push_cast; ring]
  norm_num

theorem of_val {y : BitVec F.w} {n : ℕ} {q : ℚ} (hn : F.magVal ℚ n = q) (h : |F.val y| = q) : F.mag y = n := by
  rw [F.absv, ← hn] at h
  exact F.magVal_inj.mp h

theorem sign_of_pos {y : BitVec F.w} (h : 0 < F.val y) : F.sign y = false := by
  cases hs : F.sign y
  · rfl
  · have := F.val_sign y
    have h2 := F.magVal_nonneg ℚ (F.mag y)
    rw [hs, if_pos rfl] at this
    linarith
theorem sign_of_neg {y : BitVec F.w} (h : F.val y < 0) : F.sign y = true := (F.val_neg_iff.mp h).1

theorem val_zero_iff {y : BitVec F.w} : F.val y = 0 ↔ F.mag y = 0 := by
  rw [← abs_eq_zero, F.absv, ← F.magVal_zero, F.magVal_inj]

theorem one_lt_inf : F.bias * 2 ^ F.s < F.infRep := by
  unfold infRep
  have := F.pe_bias
  have := bias_pos (F := F)
  exact Nat.mul_lt_mul_of_pos_right (by omega) (by positivity)
theorem two_lt_inf : (F.bias + 1) * 2 ^ F.s < F.infRep := by
  unfold infRep
  have := F.pe_bias
  have := F.bias_ge
  exact Nat.mul_lt_mul_of_pos_right (by omega) (by positivity)
theorem one_pos' : 0 < F.bias * 2 ^ F.s := Nat.mul_pos bias_pos (by positivity)

/-- the odd integers -/
def OddInt (F : Fmt) (y : BitVec F.w) : Prop := ∃ n : ℤ, F.val y = n ∧ Odd n
/-- the integers -/
def IsInteger (F : Fmt) (y : BitVec F.w) : Prop := ∃ n : ℤ, F.val y = n

theorem IntKind.odd_iff {y : BitVec F.w} {k : ℕ} (h : IntKind F y k) : k = 1 ↔ OddInt F y := by
  rcases h with ⟨h0, h⟩ | ⟨h0, h⟩ | ⟨h0, n, h, hp⟩
  · subst h0
    refine ⟨fun h => by omega, fun ⟨n, hn, _⟩ => absurd hn (h n)⟩
  · exact ⟨fun _ => h, fun _ => h0⟩
  · subst h0
    refine ⟨fun h => by omega, fun ⟨m, hm, ho⟩ => ?_⟩
    rw [h] at hm
    have : n = m := by exact_mod_cast hm
    rw [this] at hp
    exact absurd hp (Int.not_even_iff_odd.mpr ho)
theorem IntKind.zero_iff {y : BitVec F.w} {k : ℕ} (h : IntKind F y k) : k = 0 ↔ ¬ IsInteger F y := by
  rcases h with ⟨h0, h⟩ | ⟨h0, n, h, hp⟩ | ⟨h0, n, h, hp⟩
  · exact ⟨fun _ ⟨n, hn⟩ => h n hn, fun _ => h0⟩
  · exact ⟨fun h => by omega, fun hn => absurd ⟨n, h⟩ hn⟩
  · exact ⟨fun h => by omega, fun hn => absurd ⟨n, h⟩ hn⟩

theorem odd_of_one {y : BitVec F.w} (h : F.mag y = F.bias * 2 ^ F.s) : OddInt F y := by
  refine ⟨if F.sign y then -1 else 1, ?_, ?_⟩
  · rw [F.val_sign, h, magVal_one]; split <;> norm_num
  · split <;> decide
theorem not_odd_of_two {y : BitVec F.w} (h : F.mag y = (F.bias + 1) * 2 ^ F.s) (hs : F.sign y = false) : ¬ OddInt F y := by
  rintro ⟨n, hn, ho⟩
  rw [F.val_sign, h, magVal_two, hs] at hn
  simp only [Bool.false_eq_true, if_false, one_mul] at hn
  have : (2 : ℤ) = n := by exact_mod_cast hn
  rw [← this] at ho
  exact absurd ho (by decide)
theorem not_odd_of_half {y : BitVec F.w} (h : F.mag y = (F.bias - 1) * 2 ^ F.s) (hs : F.sign y = false) : ¬ IsInteger F y := by
  rintro ⟨n, hn⟩
  rw [F.val_sign, h, magVal_half, hs] at hn
  have h2 : (1 : ℚ) = ((2 * n : ℤ) : ℚ) := by push_cast; rw [← hn]; norm_num
  have : (1 : ℤ) = 2 * n := by exact_mod_cast h2
  omega

/-! ### Multiplication by ±1 -/

theorem rne_exact {q : ℚ} {m n : ℕ} (h : F.IsRNE q n) (hm : m ≤ F.infRep) (hq : F.magVal ℚ m = q) : n = m := by
  have := (h.2 m hm).1
  rw [hq, sub_self, abs_zero] at this
  have := abs_eq_zero.mp (le_antisymm this (abs_nonneg _))
  exact F.magVal_inj.mp (by rw [hq]; linarith)

theorem mul_unit (N : FPU F) {s z : BitVec F.w} (hs : F.mag s = F.bias * 2 ^ F.s) :
    (F.IsNaN z → F.IsNaN (N.mul s z)) ∧ (¬ F.IsNaN z → N.mul s z = if F.sign s then F.neg z else z) := by
  have h := N.mul_spec s z
  have hsf : F.IsFin s := by unfold IsFin; rw [hs]; exact one_lt_inf
  have hsn : ¬ F.IsNaN s := by unfold IsNaN; unfold IsFin at hsf; omega
  have hsi : ¬ F.IsInf s := by unfold IsInf; unfold IsFin at hsf; omega
  have hsz : ¬ F.IsZero s := by unfold IsZero; rw [hs]; exact one_pos'.ne'
  refine ⟨fun hz => h.2.1 (Or.inr hz), fun hz => ?_⟩
  have key : F.mag (N.mul s z) = F.mag z ∧ F.sign (N.mul s z) = (F.sign s ^^ F.sign z) := by
    by_cases hzf : F.IsFin z
    · obtain ⟨⟨h1, -⟩, h2⟩ := h.1 hsf hzf
      refine ⟨?_, h2⟩
      rw [abs_mul, F.absv, hs, magVal_one, one_mul, F.absv] at h1
      exact rne_exact h1 (le_of_lt hzf) rfl
    · have hzi : F.IsInf z := by unfold IsInf IsFin IsNaN at *; omega
      have hzz : ¬ F.IsZero z := by
        unfold IsZero IsInf at *
        have := one_lt_inf (F := F)
        omega
      have := h.2.2 hsn hz (Or.inr hzi)
      rw [if_neg (by simp [hsz, hzz])] at this
      exact ⟨this.1.trans hzi.symm, this.2⟩
  apply F.ext_sign_mag
  · rw [key.2]
    cases F.sign s <;> simp [F.sign_neg]
  · rw [key.1]
    split
    · rw [F.mag_neg]
    · rfl

end

section
variable {F : Fmt} (N : FPU F) {c : K F} (hc : KOk c) {yi : M Nat} {sq : M (BitVec F.w)} {core : BitVec F.w → M (BitVec F.w)} {x y : BitVec F.w}

include hc

theorem gen_y0 (h : F.mag y = 0) : gen N c yi sq core x y = .ok c.one := by unfold gen; rw [if_pos h]

theorem gen_x1 (h1 : F.sign x = false) (h2 : F.mag x = F.bias * 2 ^ F.s) : gen N c yi sq core x y = .ok c.one := by
  unfold gen
  by_cases h : F.mag y = 0
  · rw [if_pos h]
  · rw [if_neg h, if_pos ⟨h1, h2⟩]

theorem gen_nan (h0 : F.mag y ≠ 0) (h1 : ¬ (F.sign x = false ∧ F.mag x = F.bias * 2 ^ F.s)) (h2 : F.IsNaN x ∨ F.IsNaN y) :
    ∃ r, gen N c yi sq core x y = .ok r ∧ F.IsNaN r := by
  unfold gen
  rw [if_neg h0, if_neg h1, if_pos (show F.infRep < F.mag x ∨ F.infRep < F.mag y from h2)]
  exact ⟨_, rfl, (N.add_spec x y).2.1 h2⟩

/-- the rest, for non-NaN arguments -/
def rest {F : Fmt} (N : FPU F) (c : K F) (sq : M (BitVec F.w)) (core : BitVec F.w → M (BitVec F.w)) (x y : BitVec F.w) (k : ℕ) : M (BitVec F.w) :=
  if F.mag y = F.infRep then
    pure (yInf c (if F.mag x = F.bias * 2 ^ F.s then .eq else if F.bias * 2 ^ F.s ≤ F.mag x then .gt else .lt) (F.sign y) y)
  else if F.mag y = F.bias * 2 ^ F.s then pure (if F.sign y = true then N.div c.one x else x)
  else if F.sign y = false ∧ F.mag y = (F.bias + 1) * 2 ^ F.s then pure (N.mul x x)
  else if F.sign y = false ∧ F.mag y = (F.bias - 1) * 2 ^ F.s ∧ F.sign x = false then sq
  else if F.mag x = F.infRep ∨ F.mag x = 0 ∨ F.mag x = F.bias * 2 ^ F.s then
    pure (xSpecial N c (F.sign x) (F.sign y) (decide (F.mag x = F.bias * 2 ^ F.s)) k (F.fabs x))
  else if F.sign x = true ∧ k = 0 then pure (N.div (N.sub x x) (N.sub x x))
  else core (if F.sign x = true ∧ k = 1 then c.mone else c.one)

variable (hyi : ∃ k, yi = .ok k ∧ IntKind F y k) (hx : ¬ F.IsNaN x) (hy : ¬ F.IsNaN y) (h0 : F.mag y ≠ 0)
include hyi hx hy h0

theorem gen_rest (h1 : ¬ (F.sign x = false ∧ F.mag x = F.bias * 2 ^ F.s)) :
    ∃ k, (F.sign x = true → IntKind F y k) ∧ (F.sign x = false → k = 0) ∧ gen N c yi sq core x y = rest N c sq core x y k := by
  obtain ⟨k, hk, hk2⟩ := hyi
  unfold gen
  rw [if_neg h0, if_neg h1, if_neg (by rintro (h | h); exacts [hx h, hy h])]
  cases hs : F.sign x
  · refine ⟨0, fun h => absurd h (by simp), fun _ => rfl, ?_⟩
    rw [if_neg (by simp)]
    simp only [rest, hs]
    rfl
  · refine ⟨k, fun _ => hk2, fun h => absurd h (by simp), ?_⟩
    rw [if_pos rfl, hk, okb]
    simp only [rest, hs]

/-- infinite exponent -/
theorem gen_yinf (h : F.IsInf y) :
    gen N c yi sq core x y = .ok (if F.mag x = F.bias * 2 ^ F.s then c.one else if (F.mag x < F.bias * 2 ^ F.s ↔ F.sign y = true) then F.fabs y else 0#F.w) := by
  have hsp : ∀ b, F.mag x = F.bias * 2 ^ F.s → (if F.mag x = F.bias * 2 ^ F.s then c.one else b) = c.one := fun b h => if_pos h
  by_cases h1 : F.sign x = false ∧ F.mag x = F.bias * 2 ^ F.s
  · rw [gen_x1 N hc h1.1 h1.2, hsp _ h1.2]
  obtain ⟨k, -, -, e⟩ := gen_rest N hc (sq := sq) (core := core) hyi hx hy h0 h1
  rw [e]
  unfold rest
  rw [if_pos (show F.mag y = F.infRep from h)]
  show Except.ok _ = Except.ok _
  congr 1
  have hfy := F.fabs_facts y
  rcases lt_trichotomy (F.mag x) (F.bias * 2 ^ F.s) with hl | hl | hl
  · rw [if_neg hl.ne, if_neg (by omega), if_neg hl.ne]
    unfold yInf
    cases hs : F.sign y
    · simp [hl]
    · simp only [hl, if_true]
      exact F.ext_sign_mag (by rw [F.sign_neg, hs, hfy.1]; rfl) (by rw [F.mag_neg, hfy.2])
  · rw [if_pos hl, if_pos hl]; rfl
  · rw [if_neg hl.ne', if_pos hl.le, if_neg hl.ne']
    unfold yInf
    have hn : ¬ F.mag x < F.bias * 2 ^ F.s := by omega
    cases hs : F.sign y
    · simp only [hn, Bool.false_eq_true, if_false, if_true]
      exact F.ext_sign_mag (by rw [hs, hfy.1]) (by rw [hfy.2])
    · simp [hn]

/-- `x^1` -/
theorem gen_y1 (h : F.val y = 1) : gen N c yi sq core x y = .ok x := by
  have hm : F.mag y = F.bias * 2 ^ F.s := of_val magVal_one (by rw [h]; norm_num)
  have hs := sign_of_pos (y := y) (by rw [h]; norm_num)
  by_cases h1 : F.sign x = false ∧ F.mag x = F.bias * 2 ^ F.s
  · rw [gen_x1 N hc h1.1 h1.2, F.ext_sign_mag (a := c.one) (b := x) (by rw [hc.o1, h1.1]) (by rw [hc.o2, h1.2])]
  obtain ⟨k, -, -, e⟩ := gen_rest N hc (sq := sq) (core := core) hyi hx hy h0 h1
  rw [e]
  unfold rest
  rw [if_neg (by rw [hm]; exact one_lt_inf.ne), if_pos hm, hs]
  rfl

/-- `x^-1` -/
theorem gen_ym1 (h : F.val y = -1) (hxf : F.IsFin x) (hx0 : F.val x ≠ 0) :
    ∃ r, gen N c yi sq core x y = .ok r ∧ F.Rounds (1 / F.val x) r ∧ F.sign r = F.sign x := by
  have hm : F.mag y = F.bias * 2 ^ F.s := of_val magVal_one (by rw [h]; norm_num)
  have hs := sign_of_neg (y := y) (by rw [h]; norm_num)
  by_cases h1 : F.sign x = false ∧ F.mag x = F.bias * 2 ^ F.s
  · refine ⟨_, gen_x1 N hc h1.1 h1.2, ?_, by rw [hc.o1, h1.1]⟩
    have : (1 : ℚ) / F.val x = F.valK ℚ c.one := by
      show _ = F.val c.one
      rw [F.val_sign, F.val_sign, h1.1, h1.2, hc.o1, hc.o2, magVal_one]; norm_num
    rw [this]
    exact F.rounds_self (by rw [hc.o2]; exact one_lt_inf.le)
  obtain ⟨k, -, -, e⟩ := gen_rest N hc (sq := sq) (core := core) hyi hx hy h0 h1
  rw [e]
  unfold rest
  rw [if_neg (by rw [hm]; exact one_lt_inf.ne), if_pos hm, if_pos hs]
  have hof : F.IsFin c.one := by unfold IsFin; rw [hc.o2]; exact one_lt_inf
  have hxz : ¬ F.IsZero x := fun h => hx0 (val_zero_iff.mpr h)
  obtain ⟨d1, d2⟩ := (N.div_spec c.one x).1 hof hxf hxz
  have h1' : F.val c.one = 1 := by rw [F.val_sign, hc.o1, hc.o2, magVal_one]; norm_num
  rw [h1'] at d1
  exact ⟨_, rfl, d1, by rw [d2, hc.o1]; simp⟩

/-- `x^2` -/
theorem gen_y2 (h : F.val y = 2) (hxf : F.IsFin x) :
    ∃ r, gen N c yi sq core x y = .ok r ∧ F.Rounds (F.val x ^ 2) r ∧ F.sign r = false := by
  have hm : F.mag y = (F.bias + 1) * 2 ^ F.s := of_val magVal_two (by rw [h]; norm_num)
  have hs := sign_of_pos (y := y) (by rw [h]; norm_num)
  by_cases h1 : F.sign x = false ∧ F.mag x = F.bias * 2 ^ F.s
  · refine ⟨_, gen_x1 N hc h1.1 h1.2, ?_, hc.o1⟩
    have : F.val x ^ 2 = F.valK ℚ c.one := by
      show _ = F.val c.one
      rw [F.val_sign, F.val_sign, h1.1, h1.2, hc.o1, hc.o2, magVal_one]; norm_num
    rw [this]
    exact F.rounds_self (by rw [hc.o2]; exact one_lt_inf.le)
  obtain ⟨k, -, -, e⟩ := gen_rest N hc (sq := sq) (core := core) hyi hx hy h0 h1
  rw [e]
  unfold rest
  have hne : ¬ F.mag y = F.bias * 2 ^ F.s := by
    rw [hm]
    have : F.bias * 2 ^ F.s < (F.bias + 1) * 2 ^ F.s := Nat.mul_lt_mul_of_pos_right (by omega) (by positivity)
    omega
  rw [if_neg (by rw [hm]; exact two_lt_inf.ne), if_neg hne, if_pos ⟨hs, hm⟩]
  obtain ⟨d1, d2⟩ := (N.mul_spec x x).1 hxf hxf
  rw [← pow_two] at d1
  exact ⟨_, rfl, d1, by rw [d2]; simp⟩

theorem half_facts (hm : F.mag y = (F.bias - 1) * 2 ^ F.s) : ¬ F.mag y = F.bias * 2 ^ F.s ∧ ¬ F.mag y = (F.bias + 1) * 2 ^ F.s ∧ ¬ F.mag y = F.infRep := by
  have hb := F.bias_ge
  have h1 : (F.bias - 1) * 2 ^ F.s < F.bias * 2 ^ F.s := Nat.mul_lt_mul_of_pos_right (by omega) (by positivity)
  have h2 : F.bias * 2 ^ F.s < (F.bias + 1) * 2 ^ F.s := Nat.mul_lt_mul_of_pos_right (by omega) (by positivity)
  have h3 := two_lt_inf (F := F)
  omega

/-- `x^(1/2)` -/
theorem gen_yhalf (h : F.val y = 1 / 2) (hs : F.sign x = false) (h1 : F.mag x ≠ F.bias * 2 ^ F.s) : gen N c yi sq core x y = sq := by
  have hm : F.mag y = (F.bias - 1) * 2 ^ F.s := of_val magVal_half (by rw [h]; norm_num)
  have hsy := sign_of_pos (y := y) (by rw [h]; norm_num)
  obtain ⟨k, -, -, e⟩ := gen_rest N hc (sq := sq) (core := core) hyi hx hy h0 (fun h => h1 h.2)
  obtain ⟨e1, e2, e3⟩ := half_facts (c := c) (x := x) hc hyi hx hy h0 hm
  rw [e]
  unfold rest
  rw [if_neg e3, if_neg e1, if_neg (fun h => e2 h.2), if_pos ⟨hsy, hm, hs⟩]

omit hyi hx hy h0 in
theorem div_one_special {z : BitVec F.w} (h : F.IsZero z ∨ F.IsInf z) :
    F.sign (N.div c.one z) = F.sign z ∧ (F.IsZero z → F.IsInf (N.div c.one z)) ∧ (F.IsInf z → F.IsZero (N.div c.one z)) := by
  have hi := one_lt_inf (F := F)
  have ho := one_pos' (F := F)
  have n1 : ¬ F.IsNaN c.one := by unfold IsNaN; rw [hc.o2]; omega
  have n2 : ¬ F.IsInf c.one := by unfold IsInf; rw [hc.o2]; omega
  have n3 : ¬ F.IsZero c.one := by unfold IsZero; rw [hc.o2]; omega
  have n4 : ¬ F.IsNaN z := by unfold IsNaN IsZero IsInf at *; omega
  have := (N.div_spec c.one z).2.2 n1 n4 (Or.inr h.symm)
  rw [if_neg (by simp [n2, n3]), hc.o1] at this
  refine ⟨by simpa using this.1, fun hz => ?_, fun hz => ?_⟩
  · have hn : ¬ F.IsInf z := by unfold IsInf IsZero at *; omega
    simpa [hn] using this.2
  · simpa [hz] using this.2

/-- `x = ±0`, `±∞`, finite exponent -/
theorem gen_x0inf (hyf : F.IsFin y) (h : F.IsZero x ∨ F.IsInf x)
    (hsq : F.sign x = false → ∃ r, sq = .ok r ∧ F.sign r = false ∧ F.mag r = F.mag x) :
    ∃ r, gen N c yi sq core x y = .ok r ∧ (OddInt F y → F.sign r = F.sign x) ∧ (¬ OddInt F y → F.sign r = false) ∧
      (F.sign y = false → F.mag r = F.mag x) ∧ (F.sign y = true → (F.IsZero x → F.IsInf r) ∧ (F.IsInf x → F.IsZero r)) := by
  have hi := one_lt_inf (F := F)
  have ho := one_pos' (F := F)
  have hxone : F.mag x ≠ F.bias * 2 ^ F.s := by unfold IsZero IsInf at h; omega
  obtain ⟨k, hk1, hk2, e⟩ := gen_rest N hc (sq := sq) (core := core) hyi hx hy h0 (fun h => hxone h.2)
  rw [e]
  unfold rest
  have hyf' : F.mag y ≠ F.infRep := ne_of_lt hyf
  rw [if_neg hyf']
  by_cases c1 : F.mag y = F.bias * 2 ^ F.s
  · rw [if_pos c1]
    have hodd := odd_of_one c1
    obtain ⟨d1, d2, d3⟩ := div_one_special N hc h
    cases hs : F.sign y
    · exact ⟨x, rfl, fun _ => rfl, fun h => absurd hodd h, fun _ => rfl, fun h => absurd h (by simp)⟩
    · exact ⟨_, rfl, fun _ => d1, fun h => absurd hodd h, fun h => absurd h (by simp), fun _ => ⟨d2, d3⟩⟩
  rw [if_neg c1]
  by_cases c2 : F.sign y = false ∧ F.mag y = (F.bias + 1) * 2 ^ F.s
  · rw [if_pos c2]
    have hodd := not_odd_of_two c2.2 c2.1
    have hmul : F.mag (N.mul x x) = F.mag x ∧ F.sign (N.mul x x) = false := by
      rcases h with h | h
      · have hf : F.IsFin x := by unfold IsZero IsFin at *; omega
        obtain ⟨⟨d1, -⟩, d2⟩ := (N.mul_spec x x).1 hf hf
        rw [val_zero_iff.mpr h, mul_zero, abs_zero] at d1
        have := rne_exact d1 (m := 0) (by omega) F.magVal_zero
        exact ⟨by rw [this]; exact h.symm, by rw [d2]; simp⟩
      · have hz : ¬ F.IsZero x := by unfold IsZero IsInf at *; omega
        have := (N.mul_spec x x).2.2 hx hx (Or.inl h)
        rw [if_neg (by simp [hz])] at this
        exact ⟨this.1.trans h.symm, by rw [this.2]; simp⟩
    refine ⟨_, rfl, fun h => absurd h hodd, fun _ => hmul.2, fun _ => hmul.1, fun h => absurd h (by rw [c2.1]; simp)⟩
  rw [if_neg c2]
  by_cases c3 : F.sign y = false ∧ F.mag y = (F.bias - 1) * 2 ^ F.s ∧ F.sign x = false
  · rw [if_pos c3]
    obtain ⟨r, r1, r2, r3⟩ := hsq c3.2.2
    have hodd := not_odd_of_half c3.2.1 c3.1
    exact ⟨r, r1, fun ⟨n, hn, _⟩ => absurd ⟨n, hn⟩ hodd, fun _ => r2, fun _ => r3, fun h => absurd h (by rw [c3.1]; simp)⟩
  rw [if_neg c3, if_pos (by unfold IsZero IsInf at h; tauto)]
  refine ⟨_, rfl, ?_⟩
  unfold xSpecial
  rw [decide_eq_false hxone]
  obtain ⟨f1, f2⟩ := F.fabs_facts x
  have hz : F.sign (if F.sign y = true then N.div c.one (F.fabs x) else F.fabs x) = false ∧
      (F.sign y = false → F.mag (if F.sign y = true then N.div c.one (F.fabs x) else F.fabs x) = F.mag x) ∧
      (F.sign y = true → (F.IsZero x → F.IsInf (if F.sign y = true then N.div c.one (F.fabs x) else F.fabs x)) ∧
        (F.IsInf x → F.IsZero (if F.sign y = true then N.div c.one (F.fabs x) else F.fabs x))) := by
    have h' : F.IsZero (F.fabs x) ∨ F.IsInf (F.fabs x) := by unfold IsZero IsInf at *; rw [f2]; exact h
    obtain ⟨d1, d2, d3⟩ := div_one_special N hc h'
    cases hs : F.sign y
    · exact ⟨f1, fun _ => f2, fun h => absurd h (by simp)⟩
    · refine ⟨by rw [if_pos rfl, d1, f1], fun h => absurd h (by simp), fun _ => ⟨fun h => ?_, fun h => ?_⟩⟩
      · rw [if_pos rfl]; exact d2 (by unfold IsZero at *; rw [f2]; exact h)
      · rw [if_pos rfl]; exact d3 (by unfold IsInf at *; rw [f2]; exact h)
  generalize (if F.sign y = true then N.div c.one (F.fabs x) else F.fabs x) = z at *
  dsimp only
  cases hsx : F.sign x
  · simp only [Bool.false_eq_true, if_false]
    exact ⟨fun _ => hz.1, fun _ => hz.1, hz.2⟩
  · have hk := (hk1 hsx).odd_iff
    simp only [Bool.false_eq_true, false_and, if_false, if_true, IsInf, IsZero] at *
    by_cases ho : k = 1
    · rw [if_pos ho, F.sign_neg, F.mag_neg, hz.1]
      exact ⟨fun _ => rfl, fun h => absurd (hk.mp ho) h, hz.2⟩
    · rw [if_neg ho, hz.1]
      exact ⟨fun h => absurd (hk.mpr h) ho, fun _ => rfl, hz.2⟩

/-- `x = -1`, finite exponent -/
theorem gen_xm1 (hyf : F.IsFin y) (hs : F.sign x = true) (h : F.mag x = F.bias * 2 ^ F.s) :
    ∃ r, gen N c yi sq core x y = .ok r ∧ (¬ IsInteger F y → F.IsNaN r) ∧ (IsInteger F y → (¬ OddInt F y → r = c.one) ∧ (OddInt F y → r = c.mone)) := by
  have hi := one_lt_inf (F := F)
  have ho := one_pos' (F := F)
  have hxm : x = c.mone := F.ext_sign_mag (by rw [hs, hc.m1]) (by rw [h, hc.m2])
  have hof : F.IsFin c.one := by unfold IsFin; rw [hc.o2]; exact hi
  have hxf : F.IsFin x := by unfold IsFin; rw [h]; exact hi
  have h1' : F.val c.one = 1 := by rw [F.val_sign, hc.o1, hc.o2, magVal_one]; norm_num
  have hxz : ¬ F.IsZero x := by unfold IsZero; omega
  obtain ⟨k, hk1, -, e⟩ := gen_rest N hc (sq := sq) (core := core) hyi hx hy h0 (fun h => absurd hs (by rw [h.1]; simp))
  have hk := hk1 hs
  have hko := hk.odd_iff
  have hkz := hk.zero_iff
  rw [e]
  unfold rest
  rw [if_neg (ne_of_lt hyf)]
  by_cases c1 : F.mag y = F.bias * 2 ^ F.s
  · rw [if_pos c1]
    have hodd := odd_of_one c1
    have hint : IsInteger F y := ⟨hodd.choose, hodd.choose_spec.1⟩
    refine ⟨_, rfl, fun h => absurd hint h, fun _ => ⟨fun h => absurd hodd h, fun _ => ?_⟩⟩
    cases F.sign y
    · simpa using hxm
    · simp only [if_true]
      obtain ⟨⟨d1, -⟩, d2⟩ := (N.div_spec c.one x).1 hof hxf hxz
      rw [h1', abs_div, F.absv, h, magVal_one] at d1
      norm_num at d1
      have := rne_exact d1 hi.le magVal_one
      exact F.ext_sign_mag (by rw [d2, hc.o1, hs, hc.m1]; rfl) (by rw [this, hc.m2])
  rw [if_neg c1]
  by_cases c2 : F.sign y = false ∧ F.mag y = (F.bias + 1) * 2 ^ F.s
  · rw [if_pos c2]
    have hodd := not_odd_of_two c2.2 c2.1
    refine ⟨_, rfl, fun h => absurd ⟨2, by rw [F.val_sign, c2.1, c2.2, magVal_two]; norm_num⟩ h, fun _ => ⟨fun _ => ?_, fun h => absurd h hodd⟩⟩
    rw [(mul_unit N h).2 hx, hs, if_pos rfl, hxm]
    exact F.ext_sign_mag (by rw [F.sign_neg, hc.o1, hc.m1]; rfl) (by rw [F.mag_neg, hc.m2, hc.o2])
  rw [if_neg c2, if_neg (fun h => absurd hs (by rw [h.2.2]; simp)), if_pos (Or.inr (Or.inr h))]
  refine ⟨_, rfl, ?_⟩
  unfold xSpecial
  obtain ⟨f1, f2⟩ := F.fabs_facts x
  have hfo : F.fabs x = c.one := F.ext_sign_mag (by rw [f1, hc.o1]) (by rw [f2, h, hc.o2])
  have hz : (if F.sign y = true then N.div c.one (F.fabs x) else F.fabs x) = c.one := by
    rw [hfo]
    cases F.sign y
    · simp
    · simp only [if_true]
      have hoz : ¬ F.IsZero c.one := by unfold IsZero; rw [hc.o2]; omega
      obtain ⟨⟨d1, -⟩, d2⟩ := (N.div_spec c.one c.one).1 hof hof hoz
      rw [h1'] at d1
      norm_num at d1
      have := rne_exact d1 hi.le magVal_one
      exact F.ext_sign_mag (by rw [d2, hc.o1]; rfl) (by rw [this, hc.o2])
  rw [hz, hs, if_pos rfl]
  have hsub : F.IsZero (N.sub c.one c.one) := by
    obtain ⟨⟨d1, -⟩, -⟩ := (N.sub_spec c.one c.one).1 hof (by unfold IsFin; rw [F.mag_neg]; exact hof)
    rw [F.val_neg, add_neg_cancel, abs_zero] at d1
    exact rne_exact d1 (m := 0) (by omega) F.magVal_zero
  by_cases hk0 : k = 0
  · have hnan : F.IsNaN (N.div (N.sub c.one c.one) (N.sub c.one c.one)) := by
      have hn : ¬ F.IsNaN (N.sub c.one c.one) := by unfold IsNaN IsZero at *; omega
      have := (N.div_spec (N.sub c.one c.one) (N.sub c.one c.one)).2.2 hn hn (Or.inr (Or.inr hsub))
      rwa [if_pos (Or.inr ⟨hsub, hsub⟩)] at this
    rw [if_pos ⟨decide_eq_true h, hk0⟩]
    exact ⟨fun _ => hnan, fun hI => absurd hI (hkz.mp hk0)⟩
  · rw [if_neg (fun h => hk0 h.2)]
    refine ⟨fun hI => absurd (hkz.mpr hI) hk0, fun _ => ⟨fun hn => ?_, fun hn => ?_⟩⟩
    · rw [if_neg (fun h => hn (hko.mp h))]
    · rw [if_pos (hko.mpr hn)]
      exact F.ext_sign_mag (by rw [F.sign_neg, hc.o1, hc.m1]; rfl) (by rw [F.mag_neg, hc.m2, hc.o2])

/-- negative base, exponent not an integer -/
theorem gen_nonint (hyf : F.IsFin y) (hs : F.sign x = true) (hxf : F.IsFin x) (hx0 : F.mag x ≠ 0) (hI : ¬ IsInteger F y) :
    ∃ r, gen N c yi sq core x y = .ok r ∧ F.IsNaN r := by
  have hi := one_lt_inf (F := F)
  by_cases h1 : F.mag x = F.bias * 2 ^ F.s
  · obtain ⟨r, r1, r2, -⟩ := gen_xm1 N hc (sq := sq) (core := core) hyi hx hy h0 hyf hs h1
    exact ⟨r, r1, r2 hI⟩
  obtain ⟨k, hk1, -, e⟩ := gen_rest N hc (sq := sq) (core := core) hyi hx hy h0 (fun h => h1 h.2)
  have hk := (hk1 hs).zero_iff.mpr hI
  rw [e]
  unfold rest
  have c1 : ¬ F.mag y = F.bias * 2 ^ F.s := fun h => hI ⟨_, (odd_of_one h).choose_spec.1⟩
  have c2 : ¬ (F.sign y = false ∧ F.mag y = (F.bias + 1) * 2 ^ F.s) := fun h => hI ⟨2, by rw [F.val_sign, h.1, h.2, magVal_two]; norm_num⟩
  rw [if_neg (ne_of_lt hyf), if_neg c1, if_neg c2, if_neg (fun h => absurd hs (by rw [h.2.2]; simp)),
    if_neg (by rintro (h | h | h); exacts [(ne_of_lt hxf) h, hx0 h, h1 h]), if_pos ⟨hs, hk⟩]
  refine ⟨_, rfl, ?_⟩
  have hsub : F.IsZero (N.sub x x) := by
    obtain ⟨⟨d1, -⟩, -⟩ := (N.sub_spec x x).1 hxf (by unfold IsFin; rw [F.mag_neg]; exact hxf)
    rw [F.val_neg, add_neg_cancel, abs_zero] at d1
    exact rne_exact d1 (m := 0) (by omega) F.magVal_zero
  have hn : ¬ F.IsNaN (N.sub x x) := by unfold IsNaN IsZero at *; omega
  have := (N.div_spec (N.sub x x) (N.sub x x)).2.2 hn hn (Or.inr (Or.inr hsub))
  rwa [if_pos (Or.inr ⟨hsub, hsub⟩)] at this

end

end Power
end Verif
