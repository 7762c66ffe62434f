import Verif.Libm.Pow
import Verif.Libm.CbrtFinish
import Verif.Libm.FmaWideProofs

/-!
`pow`, `powf`: the special cases, once for both formats. `gen` is the common form in terms of sign and magnitude; `pow_eq` and `powf_eq`
show that the code on words is an instance of it.
-/
namespace Verif
open Fmt
namespace Power

/-- the special cases in terms of sign and magnitude -/
def gen {F : Fmt} (N : FPU F) (c : K F) (yi : M Nat) (sq : M (BitVec F.w)) (core : BitVec F.w → M (BitVec F.w)) (x y : BitVec F.w) : M (BitVec F.w) :=
  if F.mag y = 0 then .ok c.one
  else if F.sign x = false ∧ F.mag x = F.bias * 2 ^ F.s then .ok c.one
  else if F.infRep < F.mag x ∨ F.infRep < F.mag y then .ok (N.add x y)
  else do
    let k ← if F.sign x = true then yi else pure 0
    if F.mag y = F.infRep then
      pure (yInf c (if F.mag x = F.bias * 2 ^ F.s then .eq else if F.bias * 2 ^ F.s ≤ F.mag x then .gt else .lt) (F.sign y) y)
    else if F.mag y = F.bias * 2 ^ F.s then pure (if F.sign y = true then N.div c.one x else x)
    else if F.sign y = false ∧ F.mag y = (F.bias + 1) * 2 ^ F.s then pure (N.mul x x)
    else if F.sign y = false ∧ F.mag y = (F.bias - 1) * 2 ^ F.s ∧ F.sign x = false then sq
    else if F.mag x = F.infRep ∨ F.mag x = 0 ∨ F.mag x = F.bias * 2 ^ F.s then
      pure (xSpecial N c (F.sign x) (F.sign y) (decide (F.mag x = F.bias * 2 ^ F.s)) k (F.fabs x))
    else if F.sign x = true ∧ k = 0 then pure (N.div (N.sub x x) (N.sub x x))
    else core (if F.sign x = true ∧ k = 1 then c.mone else c.one)

theorem hi64 (x : BitVec f64.w) : x.toNat >>> 32 = (if f64.sign x then 2 ^ 31 else 0) + f64.mag x / 2 ^ 32 := by
  have h := f64.toNat_eq x
  have e : 2 ^ (f64.e + f64.s) = 2 ^ 63 := by decide
  rw [e] at h
  rw [Nat.shiftRight_eq_div_pow, h]
  split <;> omega
theorem lo64 (x : BitVec f64.w) : x.toNat &&& 0xffffffff = f64.mag x % 2 ^ 32 := by
  have h := f64.toNat_eq x
  have e : 2 ^ (f64.e + f64.s) = 2 ^ 63 := by decide
  rw [e] at h
  rw [show (0xffffffff : ℕ) = 2 ^ 32 - 1 by norm_num, Nat.and_two_pow_sub_one_eq_mod, h]
  split <;> omega
theorem ix64 (x : BitVec f64.w) : x.toNat >>> 32 &&& 0x7fffffff = f64.mag x / 2 ^ 32 := by
  have h := hi64 x
  have hm : f64.mag x < 2 ^ 63 := f64.mag_lt x
  rw [show (0x7fffffff : ℕ) = 2 ^ 31 - 1 by norm_num, Nat.and_two_pow_sub_one_eq_mod, h]
  split <;> omega

theorem okb {α β : Type} (a : α) (f : α → M β) : ((.ok a : M α) >>= f) = f a := rfl

theorem or_zero {a b : ℕ} : a ||| b = 0 ↔ a = 0 ∧ b = 0 := Nat.or_eq_zero_iff

theorem pow_eq (N : FPU f64) (x y : BitVec f64.w) : pow N x y = gen N KD (yisint (f64.mag y / 2 ^ 32) (f64.mag y % 2 ^ 32)) (Asin.sqrtD N x)
    (fun s => coreD N s (f64.fabs x) y (f64.mag x / 2 ^ 32) (y.toNat >>> 32) (f64.mag y / 2 ^ 32)) x y := by
  have b1 : f64.bias * 2 ^ f64.s = 0x3ff0000000000000 := by decide +kernel
  have b2 : (f64.bias + 1) * 2 ^ f64.s = 0x4000000000000000 := by decide +kernel
  have b3 : (f64.bias - 1) * 2 ^ f64.s = 0x3fe0000000000000 := by decide +kernel
  have b4 : f64.infRep = 0x7ff0000000000000 := by decide +kernel
  have hx : f64.mag x < 2 ^ 63 := f64.mag_lt x
  have hy : f64.mag y < 2 ^ 63 := f64.mag_lt y
  unfold pow gen
  dsimp only
  rw [b1, b2, b3, b4, ix64, ix64, lo64, lo64]
  generalize coreD N = core
  generalize hcore : (fun s => core s (f64.fabs x) y (f64.mag x / 2 ^ 32) (y.toNat >>> 32) (f64.mag y / 2 ^ 32)) = core'
  have hc' : ∀ s, core s (f64.fabs x) y (f64.mag x / 2 ^ 32) (y.toNat >>> 32) (f64.mag y / 2 ^ 32) = core' s := fun s => by rw [← hcore]
  simp only [hc']
  rw [hi64, hi64]
  generalize yisint (f64.mag y / 2 ^ 32) (f64.mag y % 2 ^ 32) = yi
  generalize Asin.sqrtD N x = sq
  clear hc' hcore
  obtain ⟨mx, hmx⟩ : ∃ m, f64.mag x = m := ⟨_, rfl⟩
  obtain ⟨my, hmy⟩ : ∃ m, f64.mag y = m := ⟨_, rfl⟩
  rw [hmx] at hx
  rw [hmy] at hy
  rw [hmx, hmy]
  clear b1 b2 b3 b4
  have c1 : (my / 2 ^ 32 ||| my % 2 ^ 32 = 0) ↔ my = 0 := by rw [or_zero]; omega
  have c2 : (my % 2 ^ 32 = 0 ∧ my / 2 ^ 32 = 0x7ff00000) ↔ my = 0x7ff0000000000000 := by omega
  have c3 : (my % 2 ^ 32 = 0 ∧ my / 2 ^ 32 = 0x3ff00000) ↔ my = 0x3ff0000000000000 := by omega
  have c4 : (mx / 2 ^ 32 = 0x3ff00000 ∧ mx % 2 ^ 32 = 0) ↔ mx = 0x3ff0000000000000 := by omega
  have c5 : (mx / 2 ^ 32 > 0x7ff00000 ∨ (mx / 2 ^ 32 = 0x7ff00000 ∧ mx % 2 ^ 32 ≠ 0) ∨ my / 2 ^ 32 > 0x7ff00000 ∨ (my / 2 ^ 32 = 0x7ff00000 ∧ my % 2 ^ 32 ≠ 0)) ↔
    (0x7ff0000000000000 < mx ∨ 0x7ff0000000000000 < my) := by omega
  have c6 : (mx / 2 ^ 32 ≥ 0x3ff00000) ↔ 0x3ff0000000000000 ≤ mx := by omega
  have c7 : (mx % 2 ^ 32 = 0 ∧ (mx / 2 ^ 32 = 0x7ff00000 ∨ mx / 2 ^ 32 = 0 ∨ mx / 2 ^ 32 = 0x3ff00000)) ↔
    (mx = 0x7ff0000000000000 ∨ mx = 0 ∨ mx = 0x3ff0000000000000) := by omega
  have c8 : ((if f64.sign x = true then 2 ^ 31 else 0) + mx / 2 ^ 32 = 0x3ff00000 ∧ mx % 2 ^ 32 = 0) ↔ (f64.sign x = false ∧ mx = 0x3ff0000000000000) := by
    cases f64.sign x <;> simp <;> omega
  have c9 : ((if f64.sign x = true then 2 ^ 31 else 0) + mx / 2 ^ 32 ≥ 2 ^ 31) ↔ f64.sign x = true := by
    cases f64.sign x <;> simp; omega
  have c9' : ((if f64.sign x = true then 2 ^ 31 else 0) + mx / 2 ^ 32 < 2 ^ 31) ↔ f64.sign x = false := by
    cases f64.sign x <;> simp; omega
  have c10 : ((if f64.sign y = true then 2 ^ 31 else 0) + my / 2 ^ 32 ≥ 2 ^ 31) ↔ f64.sign y = true := by
    cases f64.sign y <;> simp; omega
  have c11 : (my % 2 ^ 32 = 0 ∧ (if f64.sign y = true then 2 ^ 31 else 0) + my / 2 ^ 32 = 0x40000000) ↔ (f64.sign y = false ∧ my = 0x4000000000000000) := by
    cases f64.sign y <;> simp <;> omega
  have c12 : (my % 2 ^ 32 = 0 ∧ (if f64.sign y = true then 2 ^ 31 else 0) + my / 2 ^ 32 = 0x3fe00000 ∧ f64.sign x = false) ↔
      (f64.sign y = false ∧ my = 0x3fe0000000000000 ∧ f64.sign x = false) := by
    cases f64.sign y <;> cases f64.sign x <;> simp <;> omega
  simp only [c1, c2, c3, c4, c5, c6, c7, c8, c9, c9', c10, c11, c12]
  by_cases hs : mx = 0x7ff0000000000000 ∨ mx = 0 ∨ mx = 0x3ff0000000000000
  · have : (mx / 2 ^ 32 = 0x3ff00000) ↔ mx = 0x3ff0000000000000 := by omega
    simp only [this, Bool.decide_eq_true]
  · simp only [hs, if_false, Bool.decide_eq_true]

theorem powf_eq (N : FPU f32) (x y : BitVec f32.w) : powf N x y = gen N KS (yisintS (f32.mag y)) (Asin.F32.sqrtS N x)
    (fun s => coreS N s (f32.fabs x) y (f32.mag x) y.toNat (f32.mag y)) x y := by
  have b1 : f32.bias * 2 ^ f32.s = 0x3f800000 := by decide +kernel
  have b2 : (f32.bias + 1) * 2 ^ f32.s = 0x40000000 := by decide +kernel
  have b3 : (f32.bias - 1) * 2 ^ f32.s = 0x3f000000 := by decide +kernel
  have b4 : f32.infRep = 0x7f800000 := by decide +kernel
  have hx : f32.mag x < 2 ^ 31 := f32.mag_lt x
  have hy : f32.mag y < 2 ^ 31 := f32.mag_lt y
  have e : 2 ^ (f32.e + f32.s) = 2 ^ 31 := by decide
  unfold powf gen
  dsimp only
  rw [b1, b2, b3, b4, mag32, mag32]
  generalize coreS N = core
  generalize hcore : (fun s => core s (f32.fabs x) y (f32.mag x) y.toNat (f32.mag y)) = core'
  have hc' : ∀ s, core s (f32.fabs x) y (f32.mag x) y.toNat (f32.mag y) = core' s := fun s => by rw [← hcore]
  simp only [hc']
  rw [f32.toNat_eq x, f32.toNat_eq y, e]
  generalize yisintS (f32.mag y) = yi
  generalize Asin.F32.sqrtS N x = sq
  clear hc' hcore
  obtain ⟨mx, hmx⟩ : ∃ m, f32.mag x = m := ⟨_, rfl⟩
  obtain ⟨my, hmy⟩ : ∃ m, f32.mag y = m := ⟨_, rfl⟩
  rw [hmx] at hx
  rw [hmy] at hy
  rw [hmx, hmy]
  clear b1 b2 b3 b4 e
  have c8 : ((if f32.sign x = true then 2 ^ 31 else 0) + mx = 0x3f800000) ↔ (f32.sign x = false ∧ mx = 0x3f800000) := by
    cases f32.sign x <;> simp; omega
  have c9 : ((if f32.sign x = true then 2 ^ 31 else 0) + mx ≥ 2 ^ 31) ↔ f32.sign x = true := by
    cases f32.sign x <;> simp; omega
  have c9' : ((if f32.sign x = true then 2 ^ 31 else 0) + mx < 2 ^ 31) ↔ f32.sign x = false := by
    cases f32.sign x <;> simp; omega
  have c10 : ((if f32.sign y = true then 2 ^ 31 else 0) + my ≥ 2 ^ 31) ↔ f32.sign y = true := by
    cases f32.sign y <;> simp; omega
  have c11 : ((if f32.sign y = true then 2 ^ 31 else 0) + my = 0x40000000) ↔ (f32.sign y = false ∧ my = 0x40000000) := by
    cases f32.sign y <;> simp; omega
  have c12 : ((if f32.sign y = true then 2 ^ 31 else 0) + my = 0x3f000000 ∧ f32.sign x = false) ↔
      (f32.sign y = false ∧ my = 0x3f000000 ∧ f32.sign x = false) := by
    cases f32.sign y <;> simp; omega
  have c13 : compare mx 0x3f800000 = (if mx = 0x3f800000 then Ordering.eq else if 0x3f800000 ≤ mx then .gt else .lt) := by
    rw [Nat.compare_eq_ite_lt]
    split_ifs <;> first | rfl | omega
  simp only [c8, c9, c9', c10, c11, c12, c13, gt_iff_lt, Bool.decide_eq_true]

/-! ### Integers -/

/-- is `y` an integer, and of which parity -/
def IntKind (F : Fmt) (y : BitVec F.w) (k : ℕ) : Prop :=
  (k = 0 ∧ ∀ n : ℤ, F.val y ≠ n) ∨ (k = 1 ∧ ∃ n : ℤ, F.val y = n ∧ Odd n) ∨ (k = 2 ∧ ∃ n : ℤ, F.val y = n ∧ Even n)

theorem intKind_of_mag {F : Fmt} {y : BitVec F.w} {k : ℕ}
    (h : (k = 0 ∧ ∀ n : ℕ, F.magVal ℚ (F.mag y) ≠ n) ∨ (k = 1 ∧ ∃ n : ℕ, F.magVal ℚ (F.mag y) = n ∧ Odd n) ∨ (k = 2 ∧ ∃ n : ℕ, F.magVal ℚ (F.mag y) = n ∧ Even n)) :
    IntKind F y k := by
  have hv := F.val_sign y
  rcases h with ⟨h0, h⟩ | ⟨h0, n, h, hp⟩ | ⟨h0, n, h, hp⟩
  · refine Or.inl ⟨h0, fun n hn => ?_⟩
    apply h n.natAbs
    rw [← F.absv, hn, ← Int.cast_abs, Int.abs_eq_natAbs]; rfl
  · refine Or.inr (Or.inl ⟨h0, (if F.sign y then -1 else 1) * n, ?_, ?_⟩)
    · rw [hv, h]; split <;> push_cast <;> rfl
    · have : Odd (n : ℤ) := by exact_mod_cast hp
      split
      · rw [neg_one_mul]; exact this.neg
      · rw [one_mul]; exact this
  · refine Or.inr (Or.inr ⟨h0, (if F.sign y then -1 else 1) * n, ?_, ?_⟩)
    · rw [hv, h]; split <;> push_cast <;> rfl
    · have : Even (n : ℤ) := by exact_mod_cast hp
      exact this.mul_left _

/-- the kind of a magnitude from its significand `M` and the number of fraction bits `d` -/
theorem intKind_of {F : Fmt} {y : BitVec F.w} {M d k : ℕ} (h : F.magVal ℚ (F.mag y) * 2 ^ d = M)
    (hk : k = if M % 2 ^ d = 0 then 2 - M / 2 ^ d % 2 else 0) : IntKind F y k := by
  apply intKind_of_mag
  have hp : (0 : ℚ) < 2 ^ d := by positivity
  have hpn : 0 < 2 ^ d := by positivity
  split at hk
  · rename_i h0
    have hq : F.magVal ℚ (F.mag y) = (M / 2 ^ d : ℕ) := by
      have : (M : ℚ) = (M / 2 ^ d : ℕ) * 2 ^ d := by
        have := Nat.div_add_mod M (2 ^ d)
        rw [h0, add_zero, Nat.mul_comm] at this
        exact_mod_cast this.symm
      rw [this] at h
      exact mul_right_cancel₀ hp.ne' h
    rcases Nat.mod_two_eq_zero_or_one (M / 2 ^ d) with e | e
    · exact Or.inr (Or.inr ⟨by omega, _, hq, Nat.even_iff.mpr e⟩)
    · exact Or.inr (Or.inl ⟨by omega, _, hq, Nat.odd_iff.mpr e⟩)
  · rename_i h0
    refine Or.inl ⟨hk, fun n hn => h0 ?_⟩
    rw [hn] at h
    have : n * 2 ^ d = M := by exact_mod_cast h
    rw [← this]; exact Nat.mul_mod_left _ _

/-- large numbers are even -/
theorem intKind_big {F : Fmt} {y : BitVec F.w} (h : (F.bias + F.s + 1) * 2 ^ F.s ≤ F.mag y) : IntKind F y 2 := by
  apply intKind_of_mag
  refine Or.inr (Or.inr ⟨rfl, ?_⟩)
  have hp : 0 < 2 ^ F.s := by positivity
  have h1 : F.bias + F.s + 1 ≤ F.mag y / 2 ^ F.s := (Nat.le_div_iff_mul_le hp).mpr h
  obtain ⟨E, hE⟩ := Nat.exists_eq_add_of_le h1
  refine ⟨(2 ^ F.s + F.mag y % 2 ^ F.s) * 2 ^ (E + 1), ?_, ?_⟩
  · unfold magVal
    rw [if_neg (by omega), hE, Nat.cast_mul (2 ^ F.s + F.mag y % 2 ^ F.s)]
    congr 1
    push_cast
    rw [show ((F.bias : ℤ) + F.s + 1 + E - F.bias - F.s) = ((E + 1 : ℕ) : ℤ) by push_cast; ring, zpow_natCast]
  · exact (Nat.even_pow.mpr ⟨even_two, by omega⟩).mul_left _

/-- numbers from 1 on, `k` the exponent -/
theorem intKind_mid {F : Fmt} {y : BitVec F.w} {k r : ℕ} (h1 : F.mag y / 2 ^ F.s = F.bias + k) (hk : k ≤ F.s)
    (hr : r = if (2 ^ F.s + F.mag y % 2 ^ F.s) % 2 ^ (F.s - k) = 0 then 2 - (2 ^ F.s + F.mag y % 2 ^ F.s) / 2 ^ (F.s - k) % 2 else 0) : IntKind F y r := by
  refine intKind_of ?_ hr
  have hb := F.bias_ge
  unfold magVal
  rw [if_neg (by omega), h1, mul_assoc, ← zpow_natCast (2 : ℚ) (F.s - k), ← zpow_add₀ (by norm_num)]
  rw [show ((F.bias + k : ℕ) : ℤ) - F.bias - F.s + (F.s - k : ℕ) = 0 by omega, zpow_zero, mul_one]

/-- numbers below 1 -/
theorem intKind_small {F : Fmt} {y : BitVec F.w} (h : F.mag y < F.bias * 2 ^ F.s) (h0 : F.mag y ≠ 0) : IntKind F y 0 := by
  apply intKind_of_mag
  refine Or.inl ⟨rfl, fun n hn => ?_⟩
  have h1 : F.magVal ℚ (F.bias * 2 ^ F.s) = 1 := by
    unfold magVal
    have hb := F.bias_ge
    rw [Nat.mul_mod_left, Nat.mul_div_cancel _ (by positivity), if_neg (by omega), Nat.add_zero]
    push_cast
    rw [sub_self, zero_sub, zpow_neg, zpow_natCast]
    exact mul_inv_cancel₀ (by positivity)
  have h2 : F.magVal ℚ (F.mag y) < 1 := by rw [← h1]; exact F.magVal_lt_iff.mpr h
  have h3 : 0 < F.magVal ℚ (F.mag y) := by
    have : F.magVal ℚ 0 < F.magVal ℚ (F.mag y) := F.magVal_lt_iff.mpr (by omega)
    rwa [magVal_zero] at this
  rw [hn] at h2 h3
  have : n < 1 := by exact_mod_cast h2
  have : 0 < n := by exact_mod_cast h3
  omega

theorem kind_congr {A B : Prop} [Decidable A] [Decidable B] {a b : ℕ} (h : A ↔ B) (h2 : B → a % 2 = b % 2) :
    (if A then 2 - a % 2 else 0) = if B then 2 - b % 2 else 0 := by
  by_cases hB : B
  · rw [if_pos (h.mpr hB), if_pos hB, h2 hB]
  · rw [if_neg (fun hA => hB (h.mp hA)), if_neg hB]

theorem yisint_spec {y : BitVec f64.w} (h0 : f64.mag y ≠ 0) :
    ∃ k, yisint (f64.mag y / 2 ^ 32) (f64.mag y % 2 ^ 32) = .ok k ∧ IntKind f64 y k := by
  have hs : f64.s = 52 := rfl
  have hb : f64.bias = 1023 := by decide
  have hm : f64.mag y < 2 ^ 63 := f64.mag_lt y
  obtain ⟨m, hmy⟩ : ∃ m, f64.mag y = m := ⟨_, rfl⟩
  unfold yisint
  by_cases h1 : m / 2 ^ 32 ≥ 0x43400000
  · rw [hmy, if_pos h1]
    exact ⟨2, rfl, intKind_big (by rw [hs, hb, hmy]; omega)⟩
  by_cases h2 : m / 2 ^ 32 ≥ 0x3ff00000
  · rw [hmy, if_neg h1, if_pos h2]
    dsimp only
    have hk : (m / 2 ^ 32) >>> 20 - 0x3ff = m / 2 ^ 52 - 1023 := by rw [Nat.shiftRight_eq_div_pow]; omega
    rw [hk]
    obtain ⟨k, hk⟩ : ∃ k, m / 2 ^ 52 = 1023 + k := ⟨m / 2 ^ 52 - 1023, by omega⟩
    have hk' : k ≤ 52 := by omega
    rw [hk, Nat.add_sub_cancel_left]
    have key := fun r => @intKind_mid f64 y k r (by rw [hmy, hs, hb]; exact hk) hk'
    rw [hmy, hs] at key
    obtain ⟨f, hf⟩ : ∃ f, m % 2 ^ 52 = f := ⟨_, rfl⟩
    have hf2 : f < 2 ^ 52 := by omega
    have e1 : m % 2 ^ 32 = f % 2 ^ 32 := by omega
    have e2 : m / 2 ^ 32 = (1023 + k) * 2 ^ 20 + f / 2 ^ 32 := by omega
    rw [hf] at key
    rw [e1, e2]
    clear hf hk e1 e2 h1 h2 hmy hm
    by_cases h3 : k > 20
    · rw [if_pos h3]
      unfold nsubC
      rw [if_pos (by omega), okb, if_pos (by omega)]
      refine ⟨_, rfl, key _ ?_⟩
      rw [Nat.shiftLeft_eq, Nat.shiftRight_eq_div_pow, Nat.and_one_is_mod]
      apply kind_congr <;> interval_cases k <;> simp only [Nat.reduceSub, Nat.reducePow, Nat.reduceAdd, Nat.reduceMul] <;> omega
    · rw [if_neg h3]
      by_cases h4 : f % 2 ^ 32 = 0
      · rw [if_pos h4]
        unfold nsubC
        rw [if_pos (by omega), okb]
        refine ⟨_, rfl, key _ ?_⟩
        rw [Nat.shiftLeft_eq, Nat.shiftRight_eq_div_pow, Nat.and_one_is_mod]
        apply kind_congr <;> interval_cases k <;> simp only [Nat.reduceSub, Nat.reducePow, Nat.reduceAdd, Nat.reduceMul] <;> omega
      · rw [if_neg h4]
        refine ⟨_, rfl, key _ ?_⟩
        rw [if_neg]
        interval_cases k <;> norm_num <;> omega
  · rw [hmy, if_neg h1, if_neg h2]
    exact ⟨0, rfl, intKind_small (by rw [hs, hb, hmy]; omega) h0⟩

theorem yisintS_spec {y : BitVec f32.w} (h0 : f32.mag y ≠ 0) : ∃ k, yisintS (f32.mag y) = .ok k ∧ IntKind f32 y k := by
  have hs : f32.s = 23 := rfl
  have hb : f32.bias = 127 := by decide
  have hm : f32.mag y < 2 ^ 31 := f32.mag_lt y
  obtain ⟨m, hmy⟩ : ∃ m, f32.mag y = m := ⟨_, rfl⟩
  unfold yisintS
  by_cases h1 : m ≥ 0x4b800000
  · rw [hmy, if_pos h1]
    exact ⟨2, rfl, intKind_big (by rw [hs, hb, hmy]; omega)⟩
  by_cases h2 : m ≥ 0x3f800000
  · rw [hmy, if_neg h1, if_pos h2]
    dsimp only
    have hk : m >>> 23 - 0x7f = m / 2 ^ 23 - 127 := by rw [Nat.shiftRight_eq_div_pow]
    rw [hk]
    obtain ⟨k, hk⟩ : ∃ k, m / 2 ^ 23 = 127 + k := ⟨m / 2 ^ 23 - 127, by omega⟩
    have hk' : k ≤ 23 := by omega
    rw [hk, Nat.add_sub_cancel_left]
    have key := fun r => @intKind_mid f32 y k r (by rw [hmy, hs, hb]; exact hk) hk'
    rw [hmy, hs] at key
    unfold nsubC
    rw [if_pos hk', okb]
    refine ⟨_, rfl, key _ ?_⟩
    rw [Nat.shiftLeft_eq, Nat.shiftRight_eq_div_pow, Nat.and_one_is_mod]
    apply kind_congr <;> interval_cases k <;> simp only [Nat.reduceSub, Nat.reducePow, Nat.reduceAdd, Nat.reduceMul] <;> omega
  · rw [hmy, if_neg h1, if_neg h2]
    exact ⟨0, rfl, intKind_small (by rw [hs, hb, hmy]; omega) h0⟩

end Power
end Verif
