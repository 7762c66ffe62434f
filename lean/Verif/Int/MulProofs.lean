import Verif.Int.Mul
import Verif.Int.AddSubProofs
import Mathlib.Tactic.Ring
import Mathlib.Tactic.Linarith
/-! Helper lemmas for `mul.rs`. -/
set_option linter.unusedSimpArgs false
namespace Verif

theorem mulD_eq {q : Nat} (hq : 0 < q) (a b : BitVec (2 * (2 * q))) : mulD a b = .ok (a * b) := by
  have e4 : 2 * (2 * q) / 4 = q := by omega
  have hs : q < 2 * (2 * q) := by omega
  unfold mulD
  simp only [e4, shlC, hs, if_true, ok_bind]
  congr 1
  apply BitVec.eq_of_toNat_eq
  have hQ : 2 ^ (2 * (2 * q)) = 2 ^ q * 2 ^ q * (2 ^ q * 2 ^ q) := by
    rw [two_pow_two_mul, two_pow_two_mul]
  have h2Q : 2 ^ (2 * q) = 2 ^ q * 2 ^ q := two_pow_two_mul q
  simp only [BitVec.toNat_add, BitVec.toNat_mul, toNat_widenHi, toNat_fromLoHi, toNat_zeroWidenMul,
    toNat_zeroWiden, BitVec.toNat_shiftLeft, Nat.shiftLeft_eq, Nat.add_mod_mod, Nat.mod_add_mod]
  have ha := lo_add_hi a
  have hb := lo_add_hi b
  have hla := lo_add_hi (lo a)
  have hlb := lo_add_hi (lo b)
  rw [← ha, ← hb, ← hla, ← hlb]
  generalize (lo (lo a)).toNat = a0
  generalize (hi (lo a)).toNat = a1
  generalize (lo (lo b)).toNat = b0
  generalize (hi (lo b)).toNat = b1
  generalize (hi a).toNat = a2
  generalize (hi b).toNat = b2
  rw [hQ, h2Q]
  generalize 2 ^ q = Q
  have key : ∀ x : Nat, ∃ c, x = x % (Q * Q) + Q * Q * c := fun x =>
    ⟨x / (Q * Q), (Nat.mod_add_div x (Q * Q)).symm⟩
  obtain ⟨c1, h1⟩ := key ((a0 + Q * a1) * b2)
  obtain ⟨c2, h2⟩ := key (a2 * (b0 + Q * b1))
  have e : (a0 + Q * a1 + Q * Q * a2) * (b0 + Q * b1 + Q * Q * b2) =
      (a0 * b0 + Q * Q * (a1 * b1) + a0 * b1 * Q + a1 * b0 * Q +
      (a0 + Q * a1) * b2 % (Q * Q) * (Q * Q) + a2 * (b0 + Q * b1) % (Q * Q) * (Q * Q)) +
      Q * Q * (Q * Q) * (a2 * b2 + c1 + c2) := by
    calc _ = a0 * b0 + Q * Q * (a1 * b1) + a0 * b1 * Q + a1 * b0 * Q +
            ((a0 + Q * a1) * b2) * (Q * Q) + (a2 * (b0 + Q * b1)) * (Q * Q) +
            Q * Q * (Q * Q) * (a2 * b2) := by ring
      _ = _ := by
        rw [h1, h2]
        simp only [Nat.add_mul_mod_self_left, Nat.mod_mod]
        ring
  rw [e, Nat.add_mul_mod_self_left]

theorem mulDS_eq {q : Nat} (hq : 0 < q) (a b : BitVec (2 * (2 * q))) : mulDS a b = .ok (a * b) := by
  rw [← mulD_eq hq a b]
  simp only [mulDS, mulD, hiS_eq, widenHiS_eq, fromLoHi]

theorem mulLoop_eq {w : Nat} (a b r : BitVec w) : mulLoop a b r = r + a * b := by
  induction a, b, r using mulLoop.induct with
  | case1 a b r h r' ih =>
    have ih' : mulLoop (a >>> 1) (b <<< 1) (if (a &&& 1#w).toNat > 0 then r + b else r) =
      (if (a &&& 1#w).toNat > 0 then r + b else r) + (a >>> 1) * (b <<< 1) := ih
    rw [mulLoop, dif_pos h]
    simp only []
    rw [ih']
    apply BitVec.eq_of_toNat_eq
    have h1 : (a &&& 1#w).toNat = a.toNat % 2 := by
      rcases Nat.eq_zero_or_pos w with rfl | hw
      · have := a.isLt; simp at this; omega
      · simp [BitVec.toNat_and]
        rw [Nat.mod_eq_of_lt (Nat.one_lt_two_pow (by omega)), Nat.and_one_is_mod]
    simp only [h1]
    have h2 : a.toNat = 2 * (a.toNat / 2) + a.toNat % 2 := (Nat.div_add_mod _ _).symm
    split
    · have : a.toNat % 2 = 1 := by omega
      simp only [BitVec.toNat_add, BitVec.toNat_mul, BitVec.toNat_ushiftRight, Nat.shiftRight_eq_div_pow, Nat.pow_one,
        BitVec.toNat_shiftLeft, Nat.shiftLeft_eq, Nat.pow_one, Nat.add_mod_mod, Nat.mod_add_mod,
        Nat.mul_mod_mod]
      congr 1
      conv_rhs => rw [h2, this]
      ring
    · have : a.toNat % 2 = 0 := by omega
      simp only [BitVec.toNat_add, BitVec.toNat_mul, BitVec.toNat_ushiftRight, Nat.shiftRight_eq_div_pow, Nat.pow_one,
        BitVec.toNat_shiftLeft, Nat.shiftLeft_eq, Nat.pow_one, Nat.add_mod_mod, Nat.mod_add_mod,
        Nat.mul_mod_mod]
      congr 1
      conv_rhs => rw [h2, this]
      ring
  | case2 a b r h =>
    rw [mulLoop, dif_neg h]
    have : a = 0#w := BitVec.eq_of_toNat_eq (by simp; omega)
    simp [this]

theorem mulEgypt_eq {w : Nat} (a b : BitVec w) : mulEgypt a b = a * b := by
  simp [mulEgypt, mulLoop_eq]

theorem beq_zero_iff {w} (x : BitVec w) : (x == 0#w) = decide (x.toNat = 0) := by
  rw [Bool.eq_iff_iff]; simp
  exact ⟨fun h => by simp [h], fun h => BitVec.eq_of_toNat_eq (by simpa using h)⟩

theorem umulo_val {h : Nat} (a b : BitVec (2 * h)) :
    (umulo a b).1 = a * b ∧ ((umulo a b).2 = true ↔ 2 ^ (2 * h) ≤ a.toNat * b.toNat) := by
  have ha := lo_add_hi a
  have hb := lo_add_hi b
  have la := (lo a).isLt
  have lb := (lo b).isLt
  have ua := (hi a).isLt
  have ub := (hi b).isLt
  have hsq := two_pow_two_mul h
  have hp := Nat.two_pow_pos h
  -- the mixed case, for a pair `x` (small) and `y` (big)
  have mixed : ∀ x y : BitVec (2 * h), (hi x).toNat = 0 →
      let mulLo := zeroWidenMul (lo x) (lo y)
      let mulHi := zeroWidenMul (lo x) (hi y)
      (overflowingAdd mulLo (widenHi (lo mulHi))).1 = x * y ∧
      (((overflowingAdd mulLo (widenHi (lo mulHi))).2 || !(hi mulHi == 0#h)) = true ↔
        2 ^ (2 * h) ≤ x.toNat * y.toNat) := by
    intro x y hx mulLo mulHi
    have ex := lo_add_hi x
    have ey := lo_add_hi y
    have eP := lo_add_hi mulHi
    have lP := (lo mulHi).isLt
    have eH : mulHi.toNat = (lo x).toNat * (hi y).toNat := toNat_zeroWidenMul _ _
    have eL : mulLo.toNat = (lo x).toNat * (lo y).toNat := toNat_zeroWidenMul _ _
    have hxy : x.toNat * y.toNat = mulLo.toNat + 2 ^ h * mulHi.toNat := by
      rw [eL, eH, ← ex, ← ey, hx]; ring
    constructor
    · apply BitVec.eq_of_toNat_eq
      simp only [overflowingAdd, BitVec.toNat_add, toNat_widenHi, BitVec.toNat_mul]
      rw [hxy, ← eP, hsq]
      have : mulLo.toNat + 2 ^ h * ((lo mulHi).toNat + 2 ^ h * (hi mulHi).toNat) =
          mulLo.toNat + (lo mulHi).toNat * 2 ^ h + 2 ^ h * 2 ^ h * (hi mulHi).toNat := by ring
      rw [this, Nat.add_mul_mod_self_left]
    · simp only [overflowingAdd, toNat_widenHi, Bool.or_eq_true, decide_eq_true_eq, beq_zero_iff,
        Bool.not_eq_true', decide_eq_false_iff_not]
      rw [hxy, ← eP, hsq]
      have e2 : mulLo.toNat + 2 ^ h * ((lo mulHi).toNat + 2 ^ h * (hi mulHi).toNat) =
          mulLo.toNat + (lo mulHi).toNat * 2 ^ h + 2 ^ h * 2 ^ h * (hi mulHi).toNat := by ring
      rw [e2]
      generalize (hi mulHi).toNat = u
      constructor
      · rintro (h1 | h1)
        · omega
        · have : 2 ^ h * 2 ^ h * 1 ≤ 2 ^ h * 2 ^ h * u := Nat.mul_le_mul_left _ (by omega)
          omega
      · intro h1
        by_cases hu : u = 0
        · left; rw [hu] at h1; omega
        · right; exact hu
  unfold umulo
  simp only [beq_zero_iff]
  by_cases h1 : (hi a).toNat = 0 <;> by_cases h2 : (hi b).toNat = 0
  · simp only [h1, h2, decide_true]
    have e : a.toNat * b.toNat = (lo a).toNat * (lo b).toNat := by
      rw [← ha, ← hb, h1, h2]; simp
    have lt : (lo a).toNat * (lo b).toNat < 2 ^ h * 2 ^ h := Nat.mul_lt_mul'' la lb
    constructor
    · apply BitVec.eq_of_toNat_eq
      rw [toNat_zeroWidenMul, BitVec.toNat_mul, e, hsq, Nat.mod_eq_of_lt lt]
    · rw [e, hsq]; simp; omega
  · simp only [h1, h2, decide_true, decide_false]
    have := mixed a b h1
    simpa [beq_zero_iff] using this
  · simp only [h1, h2, decide_true, decide_false]
    have := mixed b a h2
    rw [BitVec.mul_comm b a, Nat.mul_comm b.toNat] at this
    simpa [beq_zero_iff] using this
  · simp only [h1, h2, decide_false, true_and, true_iff]
    rw [hsq]
    apply Nat.mul_le_mul
    · rw [← ha]
      have : 2 ^ h * 1 ≤ 2 ^ h * (hi a).toNat := Nat.mul_le_mul_left _ (by omega)
      omega
    · rw [← hb]
      have : 2 ^ h * 1 ≤ 2 ^ h * (hi b).toNat := Nat.mul_le_mul_left _ (by omega)
      omega

theorem smulo_val {h : Nat} (hh : 0 < h) (a b : BitVec (2 * h)) :
    (smulo a b).1 = a * b ∧ ((smulo a b).2 = true ↔
      ¬ (-(2 ^ (2 * h - 1) : Nat) ≤ a.toInt * b.toInt ∧
        a.toInt * b.toInt < (2 ^ (2 * h - 1) : Nat))) := by
  have hN := two_pow_pred (w := 2 * h) (by omega)
  have hNpos : 0 < 2 ^ (2 * h - 1) := Nat.two_pow_pos _
  have ba := toInt_bounds (by omega) a
  have bb := toInt_bounds (by omega) b
  unfold smulo
  by_cases hz : (a == 0#_ || b == 0#_) = true
  · rw [if_pos hz]
    simp only [Bool.or_eq_true, beq_iff_eq] at hz
    rcases hz with rfl | rfl
    · simp
    · simp
  · rw [if_neg hz]
    simp only [Bool.or_eq_true, beq_iff_eq, not_or] at hz
    obtain ⟨ha0, hb0⟩ := hz
    have hai : a.toInt ≠ 0 := fun e => ha0 (BitVec.eq_of_toInt_eq (by simpa using e))
    have hbi : b.toInt ≠ 0 := fun e => hb0 (BitVec.eq_of_toInt_eq (by simpa using e))
    have slt_zero : ∀ x : BitVec (2 * h), x.slt 0#_ = decide (x.toInt < 0) := by
      intro x; simp [BitVec.slt]
    simp only [slt_zero]
    -- magnitudes
    have mag : ∀ x : BitVec (2 * h),
        ((if decide (x.toInt < 0) = true then -x else x).toNat : Int) =
          if x.toInt < 0 then -x.toInt else x.toInt := by
      intro x
      have := x.isLt
      have e := BitVec.toInt_eq_toNat_cond x
      by_cases hx : x.toInt < 0
      · simp only [hx, decide_true, if_true, BitVec.toNat_neg]
        rw [Nat.mod_eq_of_lt] <;> split at e <;> omega
      · simp only [hx, decide_false, Bool.false_eq_true, if_false]
        split at e <;> omega
    have hm := umulo_val (if decide (a.toInt < 0) = true then -a else a)
      (if decide (b.toInt < 0) = true then -b else b)
    have ma := mag a
    have mb := mag b
    generalize hA : (if decide (a.toInt < 0) = true then -a else a) = A at *
    generalize hB : (if decide (b.toInt < 0) = true then -b else b) = B at *
    obtain ⟨hm1, hm2⟩ := hm
    -- the signed product
    have hmul : (if (decide (a.toInt < 0) != decide (b.toInt < 0)) = true
        then -(umulo A B).1 else (umulo A B).1) = a * b := by
      rw [hm1, ← hA, ← hB]
      by_cases h1 : a.toInt < 0 <;> by_cases h2 : b.toInt < 0 <;> simp [h1, h2, BitVec.neg_mul_neg]
    have hP : (A.toNat : Int) * B.toNat =
        if (decide (a.toInt < 0) != decide (b.toInt < 0)) = true then -(a.toInt * b.toInt)
        else a.toInt * b.toInt := by
      rw [ma, mb]
      by_cases h1 : a.toInt < 0 <;> by_cases h2 : b.toInt < 0 <;> simp [h1, h2]
    have hPpos : 0 < (A.toNat : Int) * B.toNat := by
      apply Int.mul_pos
      · rw [ma]; split <;> omega
      · rw [mb]; split <;> omega
    have hv : (a * b).toInt = (a.toInt * b.toInt).bmod (2 * 2 ^ (2 * h - 1)) := by
      rw [← hN]; exact BitVec.toInt_mul ..
    constructor
    · simp only [hmul]; split <;> rfl
    · simp only [hmul]
      have hm2' : (umulo A B).2 = true ↔ (2 * 2 ^ (2 * h - 1) : Nat) ≤ (A.toNat : Int) * B.toNat := by
        rw [hm2, hN]; exact_mod_cast Iff.rfl
      generalize (A.toNat : Int) * B.toNat = P at *
      generalize a.toInt * b.toInt = p at *
      generalize (a * b).toInt = v at *
      generalize (decide (a.toInt < 0) != decide (b.toInt < 0)) = neg at *
      generalize (umulo A B).2 = o at *
      generalize 2 ^ (2 * h - 1) = N at *
      by_cases hbig : (2 * N : Nat) ≤ P
      · have ho : o = true := hm2'.2 hbig
        subst ho
        have : (if (decide (v < 0) != neg) = true then (a * b, true) else (a * b, true)).2 = true := by
          split <;> rfl
        rw [this]
        cases neg <;> simp at hP ⊢ <;> omega
      · have ho : o = false := by
          cases o
          · rfl
          · exact absurd (hm2'.1 rfl) hbig
        subst ho
        rw [bmod_two_mul (by cases neg <;> simp at hP <;> omega)
          (by cases neg <;> simp at hP <;> omega)] at hv
        cases neg
        · simp at hP
          by_cases hv0 : v < 0
          · simp only [hv0, decide_true]; simp; intro h1
            split at hv <;> (try split at hv) <;> omega
          · simp only [hv0, decide_false]; simp
            split at hv <;> (try split at hv) <;> omega
        · simp at hP
          by_cases hv0 : v < 0
          · simp only [hv0, decide_true]; simp
            split at hv <;> (try split at hv) <;> omega
          · simp only [hv0, decide_false]; simp; intro h1
            split at hv <;> (try split at hv) <;> omega

end Verif
