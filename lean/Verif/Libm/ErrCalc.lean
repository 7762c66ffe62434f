import Verif.Libm.RoundErr
import Verif.Libm.Native
/-!
# Error bounds of straight-line floating-point programs

`Ex` is the syntax of a program of additions, subtractions and multiplications over given numbers. `Ex.bd` computes a bound of the exact value and
a bound of the rounding error, both by rational arithmetic; `bd_sound` says that they are right. Values may be *scaled*: their bounds are relative to a
positive number `σ ≤ 1`.
-/
namespace Verif
namespace Fmt
variable (F : Fmt)

/-- what is required of the format -/
structure Big : Prop where
  bias : 127 ≤ F.bias
  s : 23 ≤ F.s

theorem Rounds.fin100 {F : Fmt} (hF : F.Big) {v : ℝ} {r : BitVec F.w} (h : F.Rounds v r) (hv : |v| ≤ 2 ^ (100 : ℤ)) : F.IsFin r := by
  have h127 := hF.bias
  have hb : |(2 : ℝ) ^ (100 : ℤ)| ≤ 2 ^ ((F.bias : ℤ) + 1) := by
    rw [abs_of_pos (by positivity)]; exact zpow_le_zpow_right₀ (by norm_num) (by omega)
  have hrp := F.rp_pow (j := 100) (by omega)
  have h1 := h.le_of F hrp hb ((le_abs_self _).trans hv)
  have h2 := h.ge_of F (hrp.neg F) (by rwa [abs_neg]) (neg_le.mp ((neg_le_abs _).trans hv))
  have h3 : |F.valK ℝ r| ≤ 2 ^ (100 : ℤ) := abs_le.mpr ⟨h2, h1⟩
  rw [F.absvR] at h3
  unfold Fmt.IsFin
  rw [← F.magValR_lt_iff, F.magValR_infRep]
  exact lt_of_le_of_lt h3 (zpow_lt_zpow_right₀ (by norm_num) (by omega))

theorem Rounds.rel_abs {F : Fmt} (hF : F.Big) {v : ℝ} {r : BitVec F.w} (h : F.Rounds v r) (hv : |v| ≤ 2 ^ (100 : ℤ)) :
    |F.valK ℝ r - v| ≤ 1 / 2 ^ (F.s + 1) * |v| + 1 / 2 ^ 150 := by
  have h127 := hF.bias
  have h23 := hF.s
  rcases le_or_gt ((2 : ℝ) ^ (1 - (F.bias : ℤ))) |v| with h0 | h0
  · have := h.rel F h0 (hv.trans (zpow_le_zpow_right₀ (by norm_num) (by omega)))
    rw [show -(F.s : ℤ) - 1 = -((F.s + 1 : ℕ) : ℤ) by push_cast; ring, zpow_neg, zpow_natCast, ← one_div] at this
    have : (0 : ℝ) < 1 / 2 ^ 150 := by positivity
    linarith
  · have := h.err F (k := 2 - F.bias) (h0.le.trans (zpow_le_zpow_right₀ (by norm_num) (by omega))) (le_refl _) (by omega)
    have h2 : (2 : ℝ) ^ (2 - (F.bias : ℤ) - F.s - 2) ≤ 1 / 2 ^ 150 := by
      rw [show (1 : ℝ) / 2 ^ 150 = 2 ^ (-150 : ℤ) by rw [zpow_neg]; norm_num]
      exact zpow_le_zpow_right₀ (by norm_num) (by omega)
    have : 0 ≤ 1 / 2 ^ (F.s + 1) * |v| := by positivity
    linarith

section
variable {F} (N : FPU F) {a b : BitVec F.w}
theorem addR (ha : F.IsFin a) (hb : F.IsFin b) : F.Rounds (F.valK ℝ a + F.valK ℝ b) (N.add a b) := by
  have := ((N.add_spec a b).1 ha hb).1.cast F
  rwa [Rat.cast_add, F.valK_cast, F.valK_cast] at this
theorem subR (ha : F.IsFin a) (hb : F.IsFin b) : F.Rounds (F.valK ℝ a - F.valK ℝ b) (N.sub a b) := by
  have := ((N.sub_spec a b).1 ha (F.isFin_neg.mpr hb)).1.cast F
  rwa [Rat.cast_add, F.valK_cast, F.val_neg, Rat.cast_neg, F.valK_cast, ← sub_eq_add_neg] at this
theorem mulR (ha : F.IsFin a) (hb : F.IsFin b) : F.Rounds (F.valK ℝ a * F.valK ℝ b) (N.mul a b) := by
  have := ((N.mul_spec a b).1 ha hb).1.cast F
  rwa [Rat.cast_mul, F.valK_cast, F.valK_cast] at this
theorem divR (ha : F.IsFin a) (hb : F.IsFin b) (h0 : F.valK ℝ b ≠ 0) : F.Rounds (F.valK ℝ a / F.valK ℝ b) (N.div a b) := by
  have hz : ¬ F.IsZero b := by
    intro h
    apply h0
    rw [← F.valK_cast, F.val_eq_zero_iff.mpr h, Rat.cast_zero]
  have := ((N.div_spec a b).1 ha hb hz).1.cast F
  rwa [Rat.cast_div, F.valK_cast, F.valK_cast] at this
end
end Fmt

/-- straight-line programs -/
inductive Ex where
  | leaf (i : ℕ)
  | add (a b : Ex)
  | sub (a b : Ex)
  | mul (a b : Ex)

namespace Ex

/-- the program in floating point -/
def flt {F : Fmt} (N : FPU F) (b : ℕ → BitVec F.w) : Ex → BitVec F.w
  | leaf i => b i
  | add p q => N.add (p.flt N b) (q.flt N b)
  | sub p q => N.sub (p.flt N b) (q.flt N b)
  | mul p q => N.mul (p.flt N b) (q.flt N b)

/-- the program in exact arithmetic -/
def ideal (a : ℕ → ℝ) : Ex → ℝ
  | leaf i => a i
  | add p q => p.ideal a + q.ideal a
  | sub p q => p.ideal a - q.ideal a
  | mul p q => p.ideal a * q.ideal a

/-- bound of the value, bound of the error, scaled? -/
structure Bd where
  A : ℚ
  e : ℚ
  sc : Bool

/-- a multiple of `2^-160` above `q` -/
def rup (q : ℚ) : ℚ := ((q.num.toNat * 2 ^ 160 / q.den + 1 : ℕ) : ℚ) / 2 ^ 160

/-- half a unit in the last place of numbers up to `B` -/
def hulp (s : ℕ) (B : ℚ) : ℚ := 2 ^ (Nat.log2 (B.num.toNat * 2 ^ 100 / B.den) + 1) / 2 ^ (100 + s + 2)

/-- error of rounding a number up to `B` -/
def rnd (s : ℕ) (tiny : ℚ) (sc : Bool) (B : ℚ) : ℚ := if sc then B / 2 ^ (s + 1) + tiny else hulp s B

/-- bounds after rounding; `none` if the number could be large -/
def fin (s : ℕ) (tiny : ℚ) (sc : Bool) (A d : ℚ) : Option Bd :=
  if A + d ≤ 2 ^ 20 then some ⟨rup A, rup (d + rnd s tiny sc (A + d)), sc⟩ else none

/-- the bounds of a program -/
def bd (s : ℕ) (tiny : ℚ) (info : ℕ → Bd) : Ex → Option Bd
  | leaf i => some (info i)
  | add p q | sub p q =>
    match p.bd s tiny info, q.bd s tiny info with
    | some x, some y => if x.sc = y.sc then fin s tiny x.sc (x.A + y.A) (x.e + y.e) else none
    | _, _ => none
  | mul p q =>
    match p.bd s tiny info, q.bd s tiny info with
    | some x, some y => if x.sc && y.sc then none else fin s tiny (x.sc || y.sc) (x.A * y.A) (x.A * y.e + x.e * y.A + x.e * y.e)
    | _, _ => none

/-- the scale -/
noncomputable def sv (σ : ℝ) (sc : Bool) : ℝ := if sc then σ else 1

/-- `b` is a finite number near `a`, with the bounds `i` -/
def Holds (F : Fmt) (σ : ℝ) (b : BitVec F.w) (a : ℝ) (i : Bd) : Prop :=
  F.IsFin b ∧ |a| ≤ i.A * sv σ i.sc ∧ |F.valK ℝ b - a| ≤ i.e * sv σ i.sc

theorem frac_lt (q : ℚ) (k : ℕ) : q * 2 ^ k < ((q.num.toNat * 2 ^ k / q.den + 1 : ℕ) : ℚ) := by
  have hd : (0 : ℚ) < q.den := by exact_mod_cast q.den_pos
  have h1 : q.num.toNat * 2 ^ k < q.den * (q.num.toNat * 2 ^ k / q.den + 1) := Nat.lt_mul_div_succ _ q.den_pos
  have h2 : ((q.num.toNat * 2 ^ k : ℕ) : ℚ) < ((q.den * (q.num.toNat * 2 ^ k / q.den + 1) : ℕ) : ℚ) := by exact_mod_cast h1
  have h3 : (q.num : ℚ) ≤ (q.num.toNat : ℚ) := by
    have : q.num ≤ ((q.num.toNat : ℕ) : ℤ) := Int.self_le_toNat _
    exact_mod_cast this
  have h4 : q * q.den = q.num := Rat.mul_den_eq_num q
  rw [Nat.cast_mul, Nat.cast_mul] at h2
  push_cast at h2 ⊢
  have h5 : q.den * (q * 2 ^ k) ≤ q.num.toNat * 2 ^ k := by
    rw [← mul_assoc, mul_comm (q.den : ℚ) q, h4]; exact mul_le_mul_of_nonneg_right h3 (by positivity)
  exact lt_of_mul_lt_mul_left (lt_of_le_of_lt h5 h2) hd.le

theorem le_rup (q : ℚ) : q ≤ rup q := by
  unfold rup
  rw [le_div_iff₀ (by positivity)]
  exact (frac_lt q 160).le

theorem le_hulp (B : ℚ) : B ≤ 2 ^ (Nat.log2 (B.num.toNat * 2 ^ 100 / B.den) + 1) / 2 ^ 100 := by
  rw [le_div_iff₀ (by positivity)]
  refine (frac_lt B 100).le.trans ?_
  have : B.num.toNat * 2 ^ 100 / B.den < 2 ^ (Nat.log2 (B.num.toNat * 2 ^ 100 / B.den) + 1) := Nat.lt_log2_self
  exact_mod_cast this

variable {F : Fmt}

theorem holds_round (hF : F.Big) {σ : ℝ} (h0 : 0 < σ) (h1 : σ ≤ 1) {tiny : ℚ} (ht : 1 / 2 ^ 150 ≤ tiny * σ) {v a : ℝ} {r : BitVec F.w} {sc : Bool}
    {A d : ℚ} {i : Bd} (hi : fin F.s tiny sc A d = some i) (h : F.Rounds v r) (ha : |a| ≤ A * sv σ sc) (hv : |v - a| ≤ d * sv σ sc) :
    Holds F σ r a i := by
  unfold fin at hi
  split at hi
  case isFalse => exact absurd hi (by simp)
  case isTrue hb =>
  have hi := Option.some.inj hi
  subst hi
  have hs0 : 0 < sv σ sc := by unfold sv; split <;> linarith
  have hs1 : sv σ sc ≤ 1 := by unfold sv; split <;> linarith
  have hB : |v| ≤ (A + d) * sv σ sc := by
    have := abs_add_le (v - a) a
    rw [sub_add_cancel] at this
    linarith
  have hbR : ((A : ℝ) + d) ≤ 2 ^ 20 := by exact_mod_cast hb
  have hv20 : |v| ≤ 2 ^ (20 : ℤ) := hB.trans (by
    refine (mul_le_mul_of_nonneg_right hbR hs0.le).trans ?_
    norm_num; linarith)
  have hv100 : |v| ≤ 2 ^ (100 : ℤ) := hv20.trans (zpow_le_zpow_right₀ (by norm_num) (by norm_num))
  have hfin := h.fin100 hF hv100
  have hA : (A : ℝ) ≤ rup A := by exact_mod_cast le_rup A
  have he : ((d + rnd F.s tiny sc (A + d) : ℚ) : ℝ) ≤ rup (d + rnd F.s tiny sc (A + d)) := by exact_mod_cast le_rup _
  refine ⟨hfin, ha.trans (mul_le_mul_of_nonneg_right hA hs0.le), ?_⟩
  refine le_trans ?_ (mul_le_mul_of_nonneg_right he hs0.le)
  have hr : |F.valK ℝ r - v| ≤ rnd F.s tiny sc (A + d) * sv σ sc := by
    unfold rnd
    cases hsc : sc with
    | true =>
      rw [if_pos rfl]
      have h2 := h.rel_abs hF hv100
      rw [hsc] at hB
      have e1 : sv σ true = σ := if_pos rfl
      rw [e1] at hB ⊢
      push_cast
      have h3 : 1 / 2 ^ (F.s + 1) * |v| ≤ 1 / 2 ^ (F.s + 1) * ((A + d) * σ) := mul_le_mul_of_nonneg_left hB (by positivity)
      calc _ ≤ _ := h2
        _ ≤ 1 / 2 ^ (F.s + 1) * ((A + d) * σ) + tiny * σ := add_le_add h3 ht
        _ = _ := by ring
    | false =>
      rw [if_neg (by simp)]
      rw [hsc] at hB
      have e1 : sv σ false = 1 := if_neg (by simp)
      rw [e1, mul_one] at hB ⊢
      have h127 := hF.bias
      obtain ⟨k, hk⟩ : ∃ k : ℕ, k = Nat.log2 ((A + d).num.toNat * 2 ^ 100 / (A + d).den) + 1 := ⟨_, rfl⟩
      have h3 : ((A + d : ℚ) : ℝ) ≤ 2 ^ k / 2 ^ 100 := by
        have := le_hulp (A + d)
        rw [← hk] at this
        have h' : ((A + d : ℚ) : ℝ) ≤ ((2 ^ k / 2 ^ 100 : ℚ) : ℝ) := Rat.cast_le.mpr this
        push_cast at h' ⊢
        exact h'
      push_cast at h3
      have h4 : |v| ≤ 2 ^ (min ((k : ℤ) - 100) 100) := by
        rcases le_total ((k : ℤ) - 100) 100 with hc | hc
        · rw [min_eq_left hc, zpow_sub₀ (by norm_num), zpow_natCast]
          exact hB.trans (h3.trans (by norm_num))
        · rw [min_eq_right hc]; exact hv100
      have h5 := h.err F h4 (by omega) (by omega)
      refine h5.trans ?_
      unfold hulp
      rw [← hk]
      push_cast
      calc (2 : ℝ) ^ (min ((k : ℤ) - 100) 100 - F.s - 2) ≤ 2 ^ ((k : ℤ) - ((100 + F.s + 2 : ℕ) : ℤ)) :=
            zpow_le_zpow_right₀ (by norm_num) (by push_cast; omega)
        _ = _ := by rw [zpow_sub₀ (by norm_num), zpow_natCast, zpow_natCast]
  have := abs_add_le (F.valK ℝ r - v) (v - a)
  rw [show F.valK ℝ r - v + (v - a) = F.valK ℝ r - a by ring] at this
  push_cast
  linarith

theorem bd_sound (hF : F.Big) (N : FPU F) {σ : ℝ} (h0 : 0 < σ) (h1 : σ ≤ 1) {tiny : ℚ} (ht : 1 / 2 ^ 150 ≤ tiny * σ) {b : ℕ → BitVec F.w} {a : ℕ → ℝ}
    {info : ℕ → Bd} (hl : ∀ i, Holds F σ (b i) (a i) (info i)) :
    ∀ (p : Ex) {r : Bd}, p.bd F.s tiny info = some r → Holds F σ (p.flt N b) (p.ideal a) r := by
  have addlike : ∀ (p q : Ex) (r : Bd), (add p q).bd F.s tiny info = some r →
      ∃ x y, p.bd F.s tiny info = some x ∧ q.bd F.s tiny info = some y ∧ x.sc = y.sc ∧ fin F.s tiny x.sc (x.A + y.A) (x.e + y.e) = some r := by
    intro p q r h
    rw [bd] at h
    split at h
    · rename_i x y hx hy
      split at h
      · rename_i hs
        exact ⟨x, y, hx, hy, hs, h⟩
      · simp at h
    · simp at h
  intro p
  induction p with
  | leaf i => intro r h; rw [bd] at h; have := Option.some.inj h; rw [← this]; exact hl i
  | add p q ihp ihq =>
    intro r h
    obtain ⟨x, y, hx, hy, hs, h⟩ := addlike p q r h
    obtain ⟨f1, a1, e1⟩ := ihp hx
    obtain ⟨f2, a2, e2⟩ := ihq hy
    rw [← hs] at a2 e2
    refine holds_round hF h0 h1 ht h (Fmt.addR N f1 f2) ?_ ?_
    · push_cast
      refine (abs_add_le _ _).trans ?_
      linarith
    · push_cast
      rw [ideal, add_sub_add_comm]
      refine (abs_add_le _ _).trans ?_
      linarith
  | sub p q ihp ihq =>
    intro r h
    obtain ⟨x, y, hx, hy, hs, h⟩ := addlike p q r h
    obtain ⟨f1, a1, e1⟩ := ihp hx
    obtain ⟨f2, a2, e2⟩ := ihq hy
    rw [← hs] at a2 e2
    refine holds_round hF h0 h1 ht h (Fmt.subR N f1 f2) ?_ ?_
    · push_cast
      refine (abs_sub _ _).trans ?_
      linarith
    · push_cast
      rw [ideal, sub_sub_sub_comm]
      refine (abs_sub _ _).trans ?_
      linarith
  | mul p q ihp ihq =>
    intro r h
    rw [bd] at h
    split at h
    case h_2 => simp at h
    case h_1 x y hx hy =>
    split at h
    case isTrue => simp at h
    case isFalse hs =>
    obtain ⟨f1, a1, e1⟩ := ihp hx
    obtain ⟨f2, a2, e2⟩ := ihq hy
    have hsc : sv σ (x.sc || y.sc) = sv σ x.sc * sv σ y.sc := by
      unfold sv
      cases hx' : x.sc <;> cases hy' : y.sc <;> simp_all
    have n1 : 0 ≤ sv σ x.sc := by unfold sv; split <;> linarith
    have n2 : 0 ≤ sv σ y.sc := by unfold sv; split <;> linarith
    refine holds_round hF h0 h1 ht h (Fmt.mulR N f1 f2) ?_ ?_
    · push_cast
      rw [hsc, ideal, abs_mul]
      calc _ ≤ (x.A * sv σ x.sc) * (y.A * sv σ y.sc) := mul_le_mul a1 a2 (abs_nonneg _) ((abs_nonneg _).trans a1)
        _ = _ := by ring
    · push_cast
      rw [hsc, ideal]
      obtain ⟨v1, hv1⟩ : ∃ v, v = F.valK ℝ (p.flt N b) := ⟨_, rfl⟩
      obtain ⟨v2, hv2⟩ : ∃ v, v = F.valK ℝ (q.flt N b) := ⟨_, rfl⟩
      rw [← hv1] at e1 ⊢
      rw [← hv2] at e2 ⊢
      have ha1 := (abs_nonneg _).trans a1
      have he1 := (abs_nonneg _).trans e1
      have m1 : |p.ideal a * (v2 - q.ideal a)| ≤ (x.A * sv σ x.sc) * (y.e * sv σ y.sc) := by
        rw [abs_mul]; exact mul_le_mul a1 e2 (abs_nonneg _) ha1
      have m2 : |(v1 - p.ideal a) * q.ideal a| ≤ (x.e * sv σ x.sc) * (y.A * sv σ y.sc) := by
        rw [abs_mul]; exact mul_le_mul e1 a2 (abs_nonneg _) he1
      have m3 : |(v1 - p.ideal a) * (v2 - q.ideal a)| ≤ (x.e * sv σ x.sc) * (y.e * sv σ y.sc) := by
        rw [abs_mul]; exact mul_le_mul e1 e2 (abs_nonneg _) he1
      rw [show v1 * v2 - p.ideal a * q.ideal a = p.ideal a * (v2 - q.ideal a) + (v1 - p.ideal a) * q.ideal a + (v1 - p.ideal a) * (v2 - q.ideal a) by ring]
      refine ((abs_add_le _ _).trans (add_le_add (abs_add_le _ _) (le_refl _))).trans ?_
      calc _ ≤ _ := add_le_add (add_le_add m1 m2) m3
        _ = _ := by ring

/-- the error is at most `c` (times the scale, if `sc`) -/
def errLe (s : ℕ) (tiny : ℚ) (info : ℕ → Bd) (p : Ex) (sc : Bool) (A c : ℚ) : Bool :=
  match p.bd s tiny info with
  | some r => (r.sc == sc) && decide (r.A ≤ A) && decide (r.e ≤ c)
  | none => false

theorem errLe_sound (hF : F.Big) (N : FPU F) {σ : ℝ} (h0 : 0 < σ) (h1 : σ ≤ 1) {tiny : ℚ} (ht : 1 / 2 ^ 150 ≤ tiny * σ) {b : ℕ → BitVec F.w} {a : ℕ → ℝ}
    {info : ℕ → Bd} (hl : ∀ i, Holds F σ (b i) (a i) (info i)) {p : Ex} {sc : Bool} {A c : ℚ} (h : p.errLe F.s tiny info sc A c = true) :
    F.IsFin (p.flt N b) ∧ |p.ideal a| ≤ A * sv σ sc ∧ |F.valK ℝ (p.flt N b) - p.ideal a| ≤ c * sv σ sc := by
  unfold errLe at h
  split at h
  case h_2 => simp at h
  case h_1 r hr =>
  rw [Bool.and_eq_true, Bool.and_eq_true, beq_iff_eq, decide_eq_true_iff, decide_eq_true_iff] at h
  obtain ⟨f, ha, he⟩ := bd_sound hF N h0 h1 ht hl p hr
  have hs : 0 ≤ sv σ sc := by unfold sv; split <;> linarith
  rw [h.1.1] at ha he
  exact ⟨f, ha.trans (mul_le_mul_of_nonneg_right (by exact_mod_cast h.1.2) hs),
    he.trans (mul_le_mul_of_nonneg_right (by exact_mod_cast h.2) hs)⟩

/-- a number without error -/
theorem holds_exact {σ : ℝ} {b : BitVec F.w} {a : ℝ} {A : ℚ} {sc : Bool} (hf : F.IsFin b) (hv : F.valK ℝ b = a) (ha : |a| ≤ A * sv σ sc) :
    Holds F σ b a ⟨A, 0, sc⟩ := ⟨hf, ha, by rw [hv]; simp⟩

/-- a constant -/
theorem holds_const {σ : ℝ} {b : BitVec F.w} (hf : F.IsFin b) : Holds F σ b (F.val b : ℚ) ⟨|F.val b|, 0, false⟩ :=
  holds_exact hf (F.valK_cast b).symm (by unfold sv; simp)

end Ex
end Verif
