import Verif.Libm.GFv
/-! # Rounding errors of straight-line programs, with intervals

The calculator of `ErrCalc` knows only the magnitude of each intermediate number. The one here knows an interval, so that the
cancellation of terms of different sign is seen, and knows division. A range of the first variable can be split. -/
namespace Verif

/-- a straight-line program -/
inductive IE where
  | var (i : ℕ)
  | cst (i : ℕ)
  | add (a b : IE)
  | sub (a b : IE)
  | mul (a b : IE)
  | div (a b : IE)

/-- an interval of the exact value and a bound of the error -/
structure Iv where
  lo : ℚ
  hi : ℚ
  e : ℚ

namespace IE

/-- the program in floating point -/
def flt {F : Fmt} (N : FPU F) (cs : List (BitVec F.w)) (b : ℕ → BitVec F.w) : IE → BitVec F.w
  | var i => b i
  | cst i => cs.getD i 0#F.w
  | add p q => N.add (p.flt N cs b) (q.flt N cs b)
  | sub p q => N.sub (p.flt N cs b) (q.flt N cs b)
  | mul p q => N.mul (p.flt N cs b) (q.flt N cs b)
  | div p q => N.div (p.flt N cs b) (q.flt N cs b)

/-- the program in exact arithmetic -/
noncomputable def ideal {F : Fmt} (cs : List (BitVec F.w)) (a : ℕ → ℝ) : IE → ℝ
  | var i => a i
  | cst i => (F.val (cs.getD i 0#F.w) : ℚ)
  | add p q => p.ideal cs a + q.ideal cs a
  | sub p q => p.ideal cs a - q.ideal cs a
  | mul p q => p.ideal cs a * q.ideal cs a
  | div p q => p.ideal cs a / q.ideal cs a

/-- a multiple of `2^-140` above `q` -/
def up (q : ℚ) : ℚ := ((Rat.ceil (q * 2 ^ 140) : ℤ) : ℚ) / 2 ^ 140
/-- a multiple of `2^-140` below `q` -/
def dn (q : ℚ) : ℚ := ((Rat.floor (q * 2 ^ 140) : ℤ) : ℚ) / 2 ^ 140

theorem le_up (q : ℚ) : q ≤ up q := by
  unfold up
  rw [le_div_iff₀ (by positivity)]
  exact Rat.le_ceil
theorem dn_le (q : ℚ) : dn q ≤ q := by
  unfold dn
  rw [div_le_iff₀ (by positivity)]
  exact Rat.floor_le _

/-- the largest magnitude in an interval -/
def Mx (lo hi : ℚ) : ℚ := max (-lo) hi

/-- after a rounding -/
def fin (s : ℕ) (lo hi d : ℚ) : Option Iv :=
  if Mx lo hi + d ≤ 2 ^ 20 then some ⟨dn lo, up hi, up (d + Ex.hulp s (Mx lo hi + d))⟩ else none

def min4 (a b c d : ℚ) : ℚ := min (min a b) (min c d)
def max4 (a b c d : ℚ) : ℚ := max (max a b) (max c d)

/-- the interval and the error of a program -/
def iv {F : Fmt} (cs : List (BitVec F.w)) (info : ℕ → Iv) : IE → Option Iv
  | var i => some (info i)
  | cst i => some ⟨F.val (cs.getD i 0#F.w), F.val (cs.getD i 0#F.w), 0⟩
  | add p q =>
    match p.iv cs info, q.iv cs info with
    | some x, some y => fin F.s (x.lo + y.lo) (x.hi + y.hi) (x.e + y.e)
    | _, _ => none
  | sub p q =>
    match p.iv cs info, q.iv cs info with
    | some x, some y => fin F.s (x.lo - y.hi) (x.hi - y.lo) (x.e + y.e)
    | _, _ => none
  | mul p q =>
    match p.iv cs info, q.iv cs info with
    | some x, some y => fin F.s (min4 (x.lo * y.lo) (x.lo * y.hi) (x.hi * y.lo) (x.hi * y.hi)) (max4 (x.lo * y.lo) (x.lo * y.hi) (x.hi * y.lo) (x.hi * y.hi))
        (Mx x.lo x.hi * y.e + x.e * Mx y.lo y.hi + x.e * y.e)
    | _, _ => none
  | div p q =>
    match p.iv cs info, q.iv cs info with
    | some x, some y => if y.e < y.lo then
        fin F.s (min (x.lo / y.lo) (x.lo / y.hi)) (max (x.hi / y.lo) (x.hi / y.hi)) ((x.e + Mx x.lo x.hi / y.lo * y.e) / (y.lo - y.e))
      else none
    | _, _ => none

/-- `b` is a number near `a`, with the bounds `i` -/
def Holds (F : Fmt) (b : BitVec F.w) (a : ℝ) (i : Iv) : Prop := ∃ v, GFv F b v ∧ (i.lo : ℝ) ≤ a ∧ a ≤ i.hi ∧ |v - a| ≤ i.e

theorem abs_le_Mx {a : ℝ} {lo hi : ℚ} (h0 : (lo : ℝ) ≤ a) (h1 : a ≤ hi) : |a| ≤ (Mx lo hi : ℚ) := by
  unfold Mx
  push_cast
  rw [abs_le]
  constructor
  · have := le_max_left (-(lo : ℝ)) (hi : ℝ); linarith
  · exact h1.trans (le_max_right _ _)

theorem holds_fin {F : Fmt} (hF : F.Big) {v a : ℝ} {r : BitVec F.w} {lo hi d : ℚ} {i : Iv} (hi' : fin F.s lo hi d = some i) (h : F.Rounds v r)
    (h0 : (lo : ℝ) ≤ a) (h1 : a ≤ hi) (hv : |v - a| ≤ d) : Holds F r a i := by
  unfold fin at hi'
  split at hi'
  case isFalse => exact absurd hi' (by simp)
  case isTrue hb =>
  have hi2 := Option.some.inj hi'
  subst hi2
  have h3 := Ex.holds_round (F := F) hF (σ := 1) (by norm_num) le_rfl (tiny := 1) (by norm_num) (sc := false) (A := Mx lo hi) (d := d)
    (a := a) (v := v) (r := r) (i := ⟨Ex.rup (Mx lo hi), Ex.rup (d + Ex.rnd F.s 1 false (Mx lo hi + d)), false⟩)
    (by unfold Ex.fin; rw [if_pos hb]) h (by rw [show Ex.sv 1 false = 1 from rfl, mul_one]; exact abs_le_Mx h0 h1)
    (by rw [show Ex.sv 1 false = 1 from rfl, mul_one]; exact hv)
  have e0 : ((dn lo : ℚ) : ℝ) ≤ lo := by exact_mod_cast dn_le lo
  have e1 : (hi : ℝ) ≤ ((up hi : ℚ) : ℝ) := by exact_mod_cast le_up hi
  -- redo the error without the coarser rounding
  obtain ⟨f, -, -⟩ := h3
  refine ⟨_, GFv.self f, e0.trans h0, h1.trans e1, ?_⟩
  have hB : |v| ≤ ((Mx lo hi + d : ℚ) : ℝ) := by
    have := abs_add_le (v - a) a
    rw [sub_add_cancel] at this
    have := abs_le_Mx h0 h1
    push_cast; linarith
  have hbR : ((Mx lo hi + d : ℚ) : ℝ) ≤ 2 ^ 20 := by exact_mod_cast hb
  have hv100 : |v| ≤ 2 ^ (100 : ℤ) := hB.trans (hbR.trans (by norm_num))
  have h127 := hF.bias
  obtain ⟨k, hk⟩ : ∃ k : ℕ, k = Nat.log2 ((Mx lo hi + d).num.toNat * 2 ^ 100 / (Mx lo hi + d).den) + 1 := ⟨_, rfl⟩
  have h3 : ((Mx lo hi + d : ℚ) : ℝ) ≤ 2 ^ k / 2 ^ 100 := by
    have := Ex.le_hulp (Mx lo hi + d)
    rw [← hk] at this
    have h' : ((Mx lo hi + d : ℚ) : ℝ) ≤ ((2 ^ k / 2 ^ 100 : ℚ) : ℝ) := Rat.cast_le.mpr this
    rwa [Rat.cast_div, Rat.cast_pow, Rat.cast_pow, Rat.cast_ofNat] at h'
  have h4 : |v| ≤ 2 ^ (min ((k : ℤ) - 100) 100) := by
    rcases le_total ((k : ℤ) - 100) 100 with hc | hc
    · rw [min_eq_left hc, zpow_sub₀ (by norm_num), zpow_natCast]
      exact hB.trans (h3.trans (by norm_num))
    · rw [min_eq_right hc]; exact hv100
  have h5 := h.err F h4 (by omega) (by omega)
  have h6 : |F.valK ℝ r - v| ≤ ((Ex.hulp F.s (Mx lo hi + d) : ℚ) : ℝ) := by
    refine h5.trans ?_
    unfold Ex.hulp
    rw [← hk, Rat.cast_div, Rat.cast_pow, Rat.cast_pow, Rat.cast_ofNat]
    calc (2 : ℝ) ^ (min ((k : ℤ) - 100) 100 - F.s - 2) ≤ 2 ^ ((k : ℤ) - ((100 + F.s + 2 : ℕ) : ℤ)) :=
          zpow_le_zpow_right₀ (by norm_num) (by push_cast; omega)
      _ = _ := by rw [zpow_sub₀ (by norm_num), zpow_natCast, zpow_natCast]
  have h7 : ((d + Ex.hulp F.s (Mx lo hi + d) : ℚ) : ℝ) ≤ ((up (d + Ex.hulp F.s (Mx lo hi + d)) : ℚ) : ℝ) := by exact_mod_cast le_up _
  refine le_trans ?_ h7
  have := abs_add_le (F.valK ℝ r - v) (v - a)
  rw [show F.valK ℝ r - v + (v - a) = F.valK ℝ r - a by ring] at this
  push_cast
  linarith

/-- the value of a product of two intervals -/
theorem mul_iv {a b l1 h1 l2 h2 : ℝ} (ha : l1 ≤ a) (ha' : a ≤ h1) (hb : l2 ≤ b) (hb' : b ≤ h2) :
    min (min (l1 * l2) (l1 * h2)) (min (h1 * l2) (h1 * h2)) ≤ a * b ∧ a * b ≤ max (max (l1 * l2) (l1 * h2)) (max (h1 * l2) (h1 * h2)) := by
  constructor
  · rcases le_total 0 b with h | h
    · rcases le_total 0 l1 with g | g
      · exact (min_le_left _ _).trans ((min_le_left _ _).trans (by nlinarith))
      · exact (min_le_left _ _).trans ((min_le_right _ _).trans (by nlinarith))
    · rcases le_total 0 h1 with g | g
      · exact (min_le_right _ _).trans ((min_le_left _ _).trans (by nlinarith))
      · exact (min_le_right _ _).trans ((min_le_right _ _).trans (by nlinarith))
  · rcases le_total 0 b with h | h
    · rcases le_total 0 h1 with g | g
      · exact le_trans (by nlinarith) ((le_max_right _ _).trans (le_max_right _ _))
      · exact le_trans (by nlinarith) ((le_max_left _ _).trans (le_max_right _ _))
    · rcases le_total 0 l1 with g | g
      · exact le_trans (by nlinarith) ((le_max_right _ _).trans (le_max_left _ _))
      · exact le_trans (by nlinarith) ((le_max_left _ _).trans (le_max_left _ _))

theorem mul_err {v w a b A B d e : ℝ} (hv : |v - a| ≤ d) (hw : |w - b| ≤ e) (ha : |a| ≤ A) (hb : |b| ≤ B) :
    |v * w - a * b| ≤ A * e + d * B + d * e := by
  have e1 : v * w - a * b = a * (w - b) + (v - a) * b + (v - a) * (w - b) := by ring
  rw [e1]
  have d0 : 0 ≤ d := (abs_nonneg _).trans hv
  have A0 : 0 ≤ A := (abs_nonneg _).trans ha
  refine (abs_add_le _ _).trans (add_le_add ((abs_add_le _ _).trans (add_le_add ?_ ?_)) ?_)
  · rw [abs_mul]; exact mul_le_mul ha hw (abs_nonneg _) A0
  · rw [abs_mul]; exact mul_le_mul hv hb (abs_nonneg _) d0
  · rw [abs_mul]; exact mul_le_mul hv hw (abs_nonneg _) d0

theorem div_iv {a b l1 h1 l2 h2 : ℝ} (h0 : 0 < l2) (ha : l1 ≤ a) (ha' : a ≤ h1) (hb : l2 ≤ b) (hb' : b ≤ h2) :
    min (l1 / l2) (l1 / h2) ≤ a / b ∧ a / b ≤ max (h1 / l2) (h1 / h2) := by
  have hbp : 0 < b := by linarith
  have hh : 0 < h2 := by linarith
  constructor
  · have h3 : l1 / b ≤ a / b := by gcongr
    refine le_trans ?_ h3
    rcases le_total 0 l1 with g | g
    · exact (min_le_right _ _).trans (by gcongr)
    · exact (min_le_left _ _).trans (by rw [div_le_div_iff₀ h0 hbp]; nlinarith)
  · have h3 : a / b ≤ h1 / b := by gcongr
    refine h3.trans ?_
    rcases le_total 0 h1 with g | g
    · exact le_trans (by gcongr) (le_max_left _ _)
    · exact le_trans (by rw [div_le_div_iff₀ hbp hh]; nlinarith) (le_max_right _ _)

theorem div_err {v w a b A L d e : ℝ} (hv : |v - a| ≤ d) (hw : |w - b| ≤ e) (ha : |a| ≤ A) (hL : L ≤ b) (he : e < L) :
    |v / w - a / b| ≤ (d + A / L * e) / (L - e) ∧ 0 < w := by
  have e0 : 0 ≤ e := (abs_nonneg _).trans hw
  have hL0 : 0 < L := by linarith
  have hb : 0 < b := by linarith
  have hwp : L - e ≤ w := by have := (abs_le.mp hw).1; linarith
  have hw0 : 0 < w := by linarith
  refine ⟨?_, hw0⟩
  have e1 : v / w - a / b = ((v - a) - a / b * (w - b)) / w := by field_simp; ring
  have hq : |a / b| ≤ A / L := by
    rw [abs_div, abs_of_pos hb]
    have A0 : 0 ≤ A := (abs_nonneg _).trans ha
    gcongr
  have m2 : |(v - a) - a / b * (w - b)| ≤ d + A / L * e := by
    refine (abs_sub _ _).trans (add_le_add hv ?_)
    rw [abs_mul]; exact mul_le_mul hq hw (abs_nonneg _) ((abs_nonneg _).trans hq)
  rw [e1, abs_div, abs_of_pos hw0]
  have := (abs_nonneg _).trans m2
  have hLe : 0 < L - e := by linarith
  gcongr

theorem iv_sound {F : Fmt} (hF : F.Big) (N : FPU F) {cs : List (BitVec F.w)} (hcs : (cs.all fun c => decide (F.mag c < F.infRep)) = true)
    {b : ℕ → BitVec F.w} {a : ℕ → ℝ} {info : ℕ → Iv} (hl : ∀ i, Holds F (b i) (a i) (info i)) (p : IE) {i : Iv} (hi : p.iv cs info = some i) :
    Holds F (p.flt N cs b) (p.ideal cs a) i := by
  induction p generalizing i with
  | var j => unfold iv at hi; rw [← Option.some.inj hi]; exact hl j
  | cst j =>
    unfold iv at hi; rw [← Option.some.inj hi]
    have hf := (Ex.cHolds (F := F) (σ := 1) (x := 0#F.w) (X := F.valK ℝ (0#F.w)) (B := ⟨0, 0, false⟩) (Ex.holds_exact (A := 0) (by
      unfold Fmt.IsFin Fmt.mag
      have := F.magValR_lt_iff (m := 0) (n := F.infRep)
      rw [F.magValR_infRep, ← F.magVal_cast, F.magVal_zero] at this
      simpa using this.mp (by simp; positivity)) rfl (by
        have h0 : F.valK ℝ 0#F.w = 0 := by
          rw [← F.valK_cast]
          unfold Fmt.val Fmt.valK
          rw [show F.mag (0#F.w) = 0 by unfold Fmt.mag; simp, F.magVal_zero]; simp
        rw [h0]; simp)) hcs (j + 1)).1
    refine ⟨_, GFv.self hf, le_rfl, le_rfl, ?_⟩
    show |F.valK ℝ (cs.getD j 0#F.w) - ((F.val (cs.getD j 0#F.w) : ℚ) : ℝ)| ≤ ((0 : ℚ) : ℝ)
    rw [F.valK_cast]; simp
  | add p q ihp ihq =>
    unfold iv at hi
    split at hi
    case h_2 => exact absurd hi (by simp)
    case h_1 x y hx hy =>
    obtain ⟨v, gv, l1, u1, d1⟩ := ihp hx
    obtain ⟨w, gw, l2, u2, d2⟩ := ihq hy
    refine holds_fin hF hi (gv.addR N gw) (by push_cast; exact add_le_add l1 l2) (by push_cast; exact add_le_add u1 u2) ?_
    show |v + w - (p.ideal cs a + q.ideal cs a)| ≤ _
    rw [add_sub_add_comm]; push_cast
    exact (abs_add_le _ _).trans (add_le_add d1 d2)
  | sub p q ihp ihq =>
    unfold iv at hi
    split at hi
    case h_2 => exact absurd hi (by simp)
    case h_1 x y hx hy =>
    obtain ⟨v, gv, l1, u1, d1⟩ := ihp hx
    obtain ⟨w, gw, l2, u2, d2⟩ := ihq hy
    refine holds_fin hF hi (gv.subR N gw) (by push_cast; exact sub_le_sub l1 u2) (by push_cast; exact sub_le_sub u1 l2) ?_
    show |v - w - (p.ideal cs a - q.ideal cs a)| ≤ _
    rw [sub_sub_sub_comm]; push_cast
    exact (abs_sub _ _).trans (add_le_add d1 d2)
  | mul p q ihp ihq =>
    unfold iv at hi
    split at hi
    case h_2 => exact absurd hi (by simp)
    case h_1 x y hx hy =>
    obtain ⟨v, gv, l1, u1, d1⟩ := ihp hx
    obtain ⟨w, gw, l2, u2, d2⟩ := ihq hy
    have hm := mul_iv l1 u1 l2 u2
    refine holds_fin hF hi (gv.mulR N gw) (by unfold min4; push_cast; exact hm.1) (by unfold max4; push_cast; exact hm.2) ?_
    push_cast
    exact mul_err d1 d2 (abs_le_Mx l1 u1) (abs_le_Mx l2 u2)
  | div p q ihp ihq =>
    unfold iv at hi
    split at hi
    case h_2 => exact absurd hi (by simp)
    case h_1 x y hx hy =>
    split at hi
    case isFalse => exact absurd hi (by simp)
    case isTrue hlt =>
    obtain ⟨v, gv, l1, u1, d1⟩ := ihp hx
    obtain ⟨w, gw, l2, u2, d2⟩ := ihq hy
    have hltR : (y.e : ℝ) < y.lo := by exact_mod_cast hlt
    have e0 : (0 : ℝ) ≤ y.e := (abs_nonneg _).trans d2
    have hm := div_iv (by linarith) l1 u1 l2 u2
    obtain ⟨he, hw⟩ := div_err d1 d2 (abs_le_Mx l1 u1) l2 hltR
    refine holds_fin hF hi (gv.divR N gw hw.ne') (by push_cast; exact hm.1) (by push_cast; exact hm.2) ?_
    push_cast
    exact he

/-! ## a split range -/

/-- a check of the pieces of `[lo, hi]` between the points `l` -/
def split (ok : ℚ → ℚ → Bool) : ℚ → List ℚ → ℚ → Bool
  | lo, [], hi => ok lo hi
  | lo, m :: l, hi => ok lo m && split ok m l hi

theorem split_sound {ok : ℚ → ℚ → Bool} {lo hi : ℚ} {l : List ℚ} (h : split ok lo l hi = true) {X : ℝ} (h0 : (lo : ℝ) ≤ X) (h1 : X ≤ hi) :
    ∃ a b : ℚ, ok a b = true ∧ (a : ℝ) ≤ X ∧ X ≤ b := by
  induction l generalizing lo with
  | nil => exact ⟨lo, hi, h, h0, h1⟩
  | cons m l ih =>
    unfold split at h
    rw [Bool.and_eq_true] at h
    rcases le_total X (m : ℝ) with g | g
    · exact ⟨lo, m, h.1, h0, g⟩
    · exact ih h.2 g

/-- the check of a program of several variables on a piece: the bounds of the variables are `info`, and those of the result must satisfy `good` -/
def okP {F : Fmt} (cs : List (BitVec F.w)) (p : IE) (info : ℚ → ℚ → ℕ → Iv) (good : Iv → Bool) (lo hi : ℚ) : Bool :=
  match p.iv cs (info lo hi) with
  | some r => good r
  | none => false

theorem okP_sound {F : Fmt} (hF : F.Big) (N : FPU F) {cs : List (BitVec F.w)} (hcs : (cs.all fun c => decide (F.mag c < F.infRep)) = true)
    {p : IE} {info : ℚ → ℚ → ℕ → Iv} {good : Iv → Bool} {lo hi : ℚ} {l : List ℚ} (h : split (okP cs p info good) lo l hi = true) {X : ℝ}
    (h0 : (lo : ℝ) ≤ X) (h1 : X ≤ hi) {b : ℕ → BitVec F.w} {a : ℕ → ℝ}
    (hl : ∀ lo hi : ℚ, (lo : ℝ) ≤ X → X ≤ hi → ∀ i, Holds F (b i) (a i) (info lo hi i)) :
    ∃ r, good r = true ∧ Holds F (p.flt N cs b) (p.ideal cs a) r := by
  obtain ⟨lo', hi', hk, g0, g1⟩ := split_sound h h0 h1
  unfold okP at hk
  split at hk
  case h_2 => simp at hk
  case h_1 r hr => exact ⟨r, hk, iv_sound hF N hcs (hl lo' hi' g0 g1) p hr⟩

/-- the check of a program of one variable on a piece: the error of the result is at most `c` -/
def ok1 {F : Fmt} (cs : List (BitVec F.w)) (p : IE) (c : ℚ) : ℚ → ℚ → Bool := okP cs p (fun lo hi _ => ⟨lo, hi, 0⟩) fun r => decide (r.e ≤ c)

theorem ok1_sound {F : Fmt} (hF : F.Big) (N : FPU F) {cs : List (BitVec F.w)} (hcs : (cs.all fun c => decide (F.mag c < F.infRep)) = true)
    {p : IE} {c : ℚ} {lo hi : ℚ} {l : List ℚ} (h : split (ok1 cs p c) lo l hi = true) {x : BitVec F.w} {X : ℝ} (hx : GFv F x X)
    (h0 : (lo : ℝ) ≤ X) (h1 : X ≤ hi) :
    ∃ v, GFv F (p.flt N cs fun _ => x) v ∧ |v - p.ideal cs fun _ => X| ≤ c := by
  obtain ⟨r, hg, v, gv, -, -, d⟩ := okP_sound hF N hcs h h0 h1 (b := fun _ => x) (a := fun _ => X) fun lo hi g0 g1 _ => ⟨X, hx, g0, g1, by simp⟩
  have q3 : (r.e : ℝ) ≤ c := by exact_mod_cast of_decide_eq_true hg
  exact ⟨v, gv, d.trans q3⟩

end IE
end Verif
