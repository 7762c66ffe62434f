import Verif.Int.NarrowDivProofs
/-!
# Modular reduction (proofs)
-/
namespace Verif

/-- The value of a double-width number. -/
def DOps.val {w : Nat} (O : DOps w) (d : O.D) : Nat := (O.hi d).toNat * 2 ^ w + (O.lo d).toNat

/-- What the reducer needs to know about the double-width type. -/
structure DOps.Lawful {w : Nat} (O : DOps w) : Prop where
  fromLoHi : ∀ l u, O.val (O.fromLoHi l u) = u.toNat * 2 ^ w + l.toNat
  widenHi : ∀ u, O.val (O.widenHi u) = u.toNat * 2 ^ w
  widenMul : ∀ a b, Ok (O.widenMul a b) (fun d => O.val d = a.toNat * b.toNat)
  add : ∀ a b, O.val a + O.val b < 2 ^ (2 * w) → Ok (O.add a b) (fun d => O.val d = O.val a + O.val b)
  shl : ∀ a n, n < 2 * w → Ok (O.shl a n) (fun d => O.val d = O.val a * 2 ^ n % 2 ^ (2 * w))
  nd : ∀ a n, (O.hi a).toNat < n.toNat → Ok (O.nd a n) (IsNd (O.val a) n)

theorem DOps.prim_val {w : Nat} (d : (DOps.prim w).D) :
    (DOps.prim w).val d = BitVec.toNat (w := 2 * w) d := by
  have := lo_add_hi (h := w) d
  simp only [DOps.val, DOps.prim]
  rw [← this, Nat.mul_comm]; omega

theorem DOps.prim_lawful (w : Nat) : (DOps.prim w).Lawful where
  fromLoHi l u := by
    refine (DOps.prim_val _).trans ((toNat_fromLoHi l u).trans ?_)
    rw [Nat.mul_comm]; omega
  widenHi u := (DOps.prim_val _).trans (toNat_widenHi u)
  widenMul a b := Ok.pure ((DOps.prim_val _).trans (toNat_zeroWidenMul a b))
  add a b h := by
    simp only [DOps.prim_val] at *
    exact addC_spec h
  shl a n h := by
    simp only [DOps.prim_val] at *
    exact shlC_spec h
  nd a n h := by
    simp only [DOps.prim_val] at *
    exact ndPrim_spec a n h

theorem DOps.wide_lawful {g k : Nat} (hk : 2 * g = 2 ^ (k + 1)) : (DOps.wide g).Lawful := by
  have hg : 0 < g := by have := Nat.two_pow_pos (k + 1); omega
  exact {
    fromLoHi := fun l u => Wide.val_fromLoHi l u
    widenHi := fun u => Wide.val_widenHi u
    widenMul := fun a b => Wide.zeroWidenMul_spec hg a b
    add := fun a b h => Wide.add_unsigned_spec (by omega) a b h
    shl := fun a n h => Wide.shl_spec hk a h
    nd := fun a n h => ndWide_spec hk a n h }
/-! ### The reducer -/

/-- One reduction step, arithmetically: `2xq * K = a * H + b` with `H = q * m + r`, `m = 2n`. -/
theorem reduce_step {H q m n r x K a b R : Nat} (hm : m = 2 * n) (hH : H = q * m + r) (hrm : r < m)
    (hHR : 2 * H = R * R) (hmR : 2 * m < R) (hq : 0 < q) (hV : 2 * x * q * K = a * H + b) (hb : b < H)
    (ha : a + 2 ≤ R) : ∃ x', a * r + b = 2 * x' * q ∧ x' < m ∧ x' + a * n = x * K ∧ a * r + b < R * R := by
  subst hm
  have e1 : 2 * q * (a * n) + (a * r + b) = 2 * q * (x * K) := by
    have : 2 * x * q * K = a * (q * (2 * n) + r) + b := by rw [← hH]; exact hV
    nlinarith
  have hle : a * n ≤ x * K := by
    have : 2 * q * (a * n) ≤ 2 * q * (x * K) := by omega
    exact Nat.le_of_mul_le_mul_left this (by omega)
  obtain ⟨x', hx'⟩ := Nat.exists_eq_add_of_le hle
  have e2 : a * r + b = 2 * x' * q := by
    rw [hx'] at e1
    have : 2 * q * (a * n + x') = 2 * q * (a * n) + 2 * x' * q := by ring
    omega
  have h3 : (a + 2) * r ≤ R * r := Nat.mul_le_mul_right _ ha
  have h4 : R * (2 * r + 2) ≤ R * R := Nat.mul_le_mul_left _ (by omega)
  have h5 : a * r + 2 * r + b < 2 * H := by
    have : R * (2 * r + 2) = 2 * (R * r) + 2 * R := by ring
    have : (a + 2) * r = a * r + 2 * r := by ring
    omega
  refine ⟨x', e2, ?_, by omega, by omega⟩
  have h6 : 2 * x' * q < 2 * (2 * n) * q := by
    have : 2 * (2 * n) * q = 2 * (q * (2 * n)) := by ring
    omega
  have := Nat.lt_of_mul_lt_mul_right h6
  omega

/-- The invariant of the reducer: it stores the remainder `x`, `x < 2n`. -/
structure Reducer.Inv {w : Nat} {O : DOps w} (s : Reducer O) (n x : Nat) : Prop where
  m : s.m.toNat = 2 * n
  lo : 2 ^ (w - 3) < n
  hi : n < 2 ^ (w - 2)
  r : s.r.toNat = 2 ^ (2 * w - 1) % (2 * n)
  hx : x < 2 * n
  xq : O.val s.xq = 2 * x * (2 ^ (2 * w - 1) / (2 * n))

/-- Numeric facts that follow from the invariant. -/
theorem reducer_facts {w n x : Nat} (hw : 3 ≤ w) (hn : n < 2 ^ (w - 2)) (hx : x < 2 * n) :
    let R := 2 ^ w
    let H := 2 ^ (2 * w - 1)
    let q := H / (2 * n)
    let r := H % (2 * n)
    2 * H = R * R ∧ H = q * (2 * n) + r ∧ r < 2 * n ∧ 2 * (2 * n) < R ∧ R < q ∧
      2 * x * q + 2 * R < R * R := by
  intro R H q r
  have e1 : 2 * H = R * R := by
    show 2 * 2 ^ (2 * w - 1) = 2 ^ w * 2 ^ w
    rw [← Nat.pow_succ', ← Nat.pow_add]; congr 1; omega
  have e2 : R = 4 * 2 ^ (w - 2) := by
    show 2 ^ w = 2 ^ 2 * 2 ^ (w - 2)
    rw [← Nat.pow_add]; congr 1; omega
  have e3 : H = q * (2 * n) + r := by
    have := Nat.div_add_mod H (2 * n)
    rw [Nat.mul_comm q]; exact this.symm
  have e4 : r < 2 * n := Nat.mod_lt _ (by omega)
  have e5 : 2 * (2 * n) < R := by omega
  have e6 : R < q := by
    refine Nat.lt_of_lt_of_le (Nat.lt_succ_self R) ?_
    refine (Nat.le_div_iff_mul_le (by omega)).2 ?_
    have : R * (2 * (2 * n) + 2) ≤ R * R := Nat.mul_le_mul_left _ (by omega)
    have : R * (2 * (2 * n) + 2) = 2 * (R * (2 * n)) + 2 * R := by ring
    have : R.succ * (2 * n) = R * (2 * n) + 2 * n := by rw [Nat.succ_eq_add_one]; ring
    omega
  refine ⟨e1, e3, e4, e5, e6, ?_⟩
  have : (x + 1) * q ≤ 2 * n * q := Nat.mul_le_mul_right _ hx
  have : 2 * x * q = 2 * (x * q) := by ring
  rw [Nat.add_mul] at *
  have : q * (2 * n) = 2 * n * q := Nat.mul_comm _ _
  omega

theorem val_lo {w : Nat} (O : DOps w) (d : O.D) : (O.lo d).toNat = O.val d % 2 ^ w := by
  rw [DOps.val, Nat.mul_add_mod_self_right, Nat.mod_eq_of_lt (O.lo d).isLt]

theorem val_hi {w : Nat} (O : DOps w) (d : O.D) : (O.hi d).toNat = O.val d / 2 ^ w := by
  rw [DOps.val, Nat.mul_comm, Nat.mul_add_div (Nat.two_pow_pos _), Nat.div_eq_of_lt (O.lo d).isLt, Nat.add_zero]

namespace Reducer
variable {w : Nat} {O : DOps w}

theorem Inv.step {s : Reducer O} {n x : Nat} (hw : 3 ≤ w) (hI : Inv s n x) {K a b : Nat}
    (hV : O.val s.xq * K = a * 2 ^ (2 * w - 1) + b) (hb : b < 2 ^ (2 * w - 1)) (ha : a + 2 ≤ 2 ^ w) :
    a * s.r.toNat + b < 2 ^ (2 * w) ∧
    ∀ s' : Reducer O, s'.m = s.m → s'.r = s.r → O.val s'.xq = a * s.r.toNat + b →
      ∃ x', Inv s' n x' ∧ x' + a * n = x * K := by
  obtain ⟨f1, f2, f3, f4, f5, f6⟩ := reducer_facts hw hI.hi hI.hx
  rw [hI.xq] at hV
  obtain ⟨x', h1, h2, h3, h4⟩ := reduce_step rfl f2 f3 f1 f4 (by omega) hV hb ha
  rw [hI.r, two_pow_two_mul]
  refine ⟨h4, ?_⟩
  intro s' hm hr hxq
  exact ⟨x', ⟨by rw [hm]; exact hI.m, hI.lo, hI.hi, by rw [hr]; exact hI.r, h2, by rw [hxq]; exact h1⟩, h3⟩

theorem wordReduce_spec (hO : O.Lawful) (hw : 3 ≤ w) {s : Reducer O} {n x : Nat} (hI : Inv s n x) :
    Ok s.wordReduce (fun s' => ∃ x' a, Inv s' n x' ∧ x' + a * n = x * 2 ^ (w - 1)) := by
  obtain ⟨f1, f2, f3, f4, f5, f6⟩ := reducer_facts hw hI.hi hI.hx
  have eR : 2 ^ w = 2 * 2 ^ (w - 1) := by rw [← Nat.pow_succ']; congr 1; omega
  have hvu := Nat.div_add_mod (O.val s.xq) (2 ^ w)
  have hu2 : O.val s.xq / 2 ^ w + 2 ≤ 2 ^ w := by
    have : (O.val s.xq / 2 ^ w + 2) * 2 ^ w ≤ 2 ^ w * 2 ^ w := by
      rw [Nat.add_mul, Nat.mul_comm]; rw [← hI.xq] at f6; omega
    exact Nat.le_of_mul_le_mul_right this (Nat.two_pow_pos _)
  have hev : ∃ t, O.val s.xq % 2 ^ w = 2 * t := by
    refine ⟨(x * (2 ^ (2 * w - 1) / (2 * n))) % 2 ^ (w - 1), ?_⟩
    rw [hI.xq, eR, Nat.mul_assoc, Nat.mul_mod_mul_left]
  obtain ⟨t, ht⟩ := hev
  have htl : 2 * t < 2 ^ w := by rw [← ht]; exact Nat.mod_lt _ (Nat.two_pow_pos _)
  have e2H : 2 ^ (2 * w - 1) = 2 ^ (w - 1) * 2 ^ w := by
    rw [← Nat.pow_add]; congr 1; omega
  have hst := hI.step hw (K := 2 ^ (w - 1)) (a := O.val s.xq / 2 ^ w) (b := t * 2 ^ w)
    (by
      calc O.val s.xq * 2 ^ (w - 1) = (2 ^ w * (O.val s.xq / 2 ^ w) + 2 * t) * 2 ^ (w - 1) := by rw [← ht, hvu]
        _ = O.val s.xq / 2 ^ w * (2 ^ (w - 1) * 2 ^ w) + t * (2 * 2 ^ (w - 1)) := by ring
        _ = _ := by rw [← eR, e2H])
    (by rw [e2H]; exact Nat.mul_lt_mul_of_pos_right (by omega) (Nat.two_pow_pos _)) hu2
  unfold wordReduce
  simp only
  refine Ok.bind (hO.widenMul _ _) ?_
  intro p hp
  refine Ok.bind (shrC_spec (by omega)) ?_
  intro v hv
  rw [val_lo, ht, Nat.pow_one, Nat.mul_div_cancel_left _ (by omega)] at hv
  rw [val_hi] at hp
  have hwv := hO.widenHi v
  rw [hv] at hwv
  refine Ok.bind (hO.add _ _ (by rw [hp, hwv]; exact hst.1)) ?_
  intro xq hxq
  refine Ok.pure' ?_
  obtain ⟨x', h1, h2⟩ := hst.2 { s with xq } rfl rfl (by show O.val xq = _; rw [hxq, hp, hwv])
  exact ⟨x', _, h1, h2⟩

theorem shiftReduce_spec (hO : O.Lawful) (hw : 3 ≤ w) {s : Reducer O} {n x k : Nat} (hI : Inv s n x)
    (hk : k < w) :
    Ok (s.shiftReduce k) (fun s' => ∃ x' a, Inv s' n x' ∧ x' + a * n = x * 2 ^ k) := by
  obtain ⟨f1, f2, f3, f4, f5, f6⟩ := reducer_facts hw hI.hi hI.hx
  rw [← hI.xq] at f6
  have hH := Nat.two_pow_pos (2 * w - 1)
  have hu2 : O.val s.xq / 2 ^ w + 2 ≤ 2 ^ w := by
    have : (O.val s.xq / 2 ^ w + 2) * 2 ^ w ≤ 2 ^ w * 2 ^ w := by
      have := Nat.div_add_mod (O.val s.xq) (2 ^ w)
      rw [Nat.add_mul, Nat.mul_comm]; omega
    exact Nat.le_of_mul_le_mul_right this (Nat.two_pow_pos _)
  have ea : O.val s.xq / 2 ^ w / 2 ^ (w - 1 - k) = O.val s.xq * 2 ^ k / 2 ^ (2 * w - 1) := by
    rw [Nat.div_div_eq_div_mul, ← Nat.pow_add]
    have : 2 ^ (2 * w - 1) = 2 ^ (w + (w - 1 - k)) * 2 ^ k := by rw [← Nat.pow_add]; congr 1; omega
    rw [this, Nat.mul_div_mul_right _ _ (Nat.two_pow_pos _)]
  have ha2 : O.val s.xq * 2 ^ k / 2 ^ (2 * w - 1) + 2 ≤ 2 ^ w := by
    rw [← ea]
    have := Nat.div_le_self (O.val s.xq / 2 ^ w) (2 ^ (w - 1 - k))
    omega
  have hst := hI.step hw (K := 2 ^ k) (a := O.val s.xq * 2 ^ k / 2 ^ (2 * w - 1))
    (b := O.val s.xq * 2 ^ k % 2 ^ (2 * w - 1))
    (by rw [Nat.mul_comm _ (2 ^ (2 * w - 1)), Nat.div_add_mod]) (Nat.mod_lt _ hH) ha2
  unfold shiftReduce
  refine Ok.bind (assertC_spec (by simpa using hk)) (fun _ _ => ?_)
  refine Ok.bind (nsubC_spec (by omega)) ?_
  rintro _ rfl
  refine Ok.bind (nsubC_spec (by omega)) ?_
  rintro _ rfl
  refine Ok.bind (shrC_spec (by omega)) ?_
  intro a ha
  rw [val_hi, ea] at ha
  refine Ok.bind (hO.shl _ k (by omega)) ?_
  intro t ht
  simp only
  refine Ok.bind (shrC_spec (by omega)) ?_
  intro mask hmask
  rw [BitVec.toNat_allOnes] at hmask
  have eR : 2 ^ w = 2 * 2 ^ (w - 1) := by rw [← Nat.pow_succ']; congr 1; omega
  have hmask' : mask.toNat = 2 ^ (w - 1) - 1 := by rw [hmask]; omega
  have hb := hO.fromLoHi (O.lo t) (O.hi t &&& mask)
  rw [BitVec.toNat_and, hmask', Nat.and_two_pow_sub_one_eq_mod, val_hi, val_lo] at hb
  have e2H : 2 ^ (2 * w - 1) = 2 ^ w * 2 ^ (w - 1) := by
    rw [← Nat.pow_add]; congr 1; omega
  have hb' : O.val (O.fromLoHi (O.lo t) (O.hi t &&& mask)) = O.val s.xq * 2 ^ k % 2 ^ (2 * w - 1) := by
    have h1 : O.val t % 2 ^ (2 * w - 1) = O.val s.xq * 2 ^ k % 2 ^ (2 * w - 1) := by
      rw [ht]; exact Nat.mod_mod_of_dvd _ (Nat.pow_dvd_pow 2 (by omega))
    rw [hb, ← h1, e2H, Nat.mod_mul, Nat.mul_comm]; omega
  refine Ok.bind (hO.widenMul _ _) ?_
  intro p hp
  rw [ha] at hp
  refine Ok.bind (hO.add _ _ (by rw [hp, hb']; exact hst.1)) ?_
  intro xq hxq
  refine Ok.pure' ?_
  obtain ⟨x', h1, h2⟩ := hst.2 { s with xq } rfl rfl (by show O.val xq = _; rw [hxq, hp, hb'])
  exact ⟨x', _, h1, h2⟩

theorem partialRemainder_spec (hO : O.Lawful) (hw : 3 ≤ w) {s : Reducer O} {n x : Nat} (hI : Inv s n x) :
    Ok s.partialRemainder (fun y => y.toNat = x) := by
  obtain ⟨f1, f2, f3, f4, f5, f6⟩ := reducer_facts hw hI.hi hI.hx
  have hvu := Nat.div_add_mod (O.val s.xq) (2 ^ w)
  have hvl := Nat.mod_lt (O.val s.xq) (Nat.two_pow_pos w)
  have hR : 8 ≤ 2 ^ w := by
    have := Nat.pow_le_pow_right (n := 2) (by omega) hw
    omega
  have hu2 : O.val s.xq / 2 ^ w + 2 < 2 ^ w := by
    have : (O.val s.xq / 2 ^ w + 2) * 2 ^ w < 2 ^ w * 2 ^ w := by
      rw [← hI.xq] at f6
      rw [Nat.add_mul, Nat.mul_comm]; omega
    exact Nat.lt_of_mul_lt_mul_right this
  have h1 : (1#w).toNat = 1 := one_toNat (by omega)
  unfold partialRemainder
  simp only
  refine Ok.bind (addC_spec (by rw [h1]; omega)) ?_
  intro two htwo
  rw [h1] at htwo
  refine Ok.bind (addC_spec (by rw [val_hi, htwo]; exact hu2)) ?_
  intro u hu
  rw [val_hi, htwo] at hu
  refine Ok.bind (hO.widenMul _ _) ?_
  intro p hp
  refine Ok.pure' ?_
  rw [val_hi, hp, hI.m, hu]
  rw [hI.xq] at hvu hvl
  rw [hI.xq]
  generalize 2 * x * (2 ^ (2 * w - 1) / (2 * n)) / 2 ^ w = U at *
  generalize 2 * x * (2 ^ (2 * w - 1) / (2 * n)) % 2 ^ w = V at *
  have hx := hI.hx
  generalize 2 ^ (2 * w - 1) / (2 * n) = q at *
  generalize 2 ^ (2 * w - 1) % (2 * n) = r at *
  generalize 2 ^ (2 * w - 1) = H at *
  generalize 2 ^ w = R at *
  generalize 2 * n = m at *
  -- m (U + 2) R + (2 x r + m V) = x R R + 2 m R
  have key : m * (U + 2) * R + (2 * x * r + m * V) = (x * R + 2 * m) * R := by
    have e1 : m * (R * U + V) = m * (2 * x * q) := by rw [hvu]
    have e2 : x * (R * R) = x * (2 * (q * m + r)) := by rw [← f2, f1]
    nlinarith
  have b1 : 2 * x * r + m * V < 2 * m * R := by
    have h3 : m * V ≤ m * R := Nat.mul_le_mul_left _ hvl.le
    have h4 : x * r ≤ m * r := Nat.mul_le_mul_right _ hx.le
    have h5 : m * (2 * r) < m * R := Nat.mul_lt_mul_of_pos_left (by omega) (by omega)
    have : 2 * x * r = 2 * (x * r) := by ring
    have : m * (2 * r) = 2 * (m * r) := by ring
    have : 2 * m * R = 2 * (m * R) := by ring
    omega
  have hlt : x * R < m * (U + 2) := by
    refine Nat.lt_of_mul_lt_mul_right (a := R) ?_
    rw [Nat.add_mul] at key; omega
  have hle : m * (U + 2) ≤ x * R + 2 * m := by
    refine Nat.le_of_mul_le_mul_right (c := R) ?_ (by omega)
    omega
  show m * (U + 2) / R = x
  refine Nat.div_eq_of_lt_le (by omega) ?_
  rw [Nat.add_mul]; omega

theorem new_spec (hO : O.Lawful) (hw : 3 ≤ w) {x n : BitVec w} (h1 : 2 ^ (w - 3) < n.toNat)
    (h2 : n.toNat < 2 ^ (w - 2)) (hx : x.toNat < 2 * n.toNat) :
    Ok (new O x n) (fun s => Inv s n.toNat x.toNat) := by
  obtain ⟨f1, f2, f3, f4, f5, f6⟩ := reducer_facts hw h2 hx
  have one : (1#w).toNat = 1 := one_toNat (by omega)
  have hp : ∀ j, j < w → 1 * 2 ^ j % 2 ^ w = 2 ^ j := by
    intro j hj
    rw [Nat.one_mul, Nat.mod_eq_of_lt (Nat.pow_lt_pow_right (by omega) hj)]
  unfold new
  refine Ok.bind (nsubC_spec (by omega)) ?_
  rintro _ rfl
  refine Ok.bind (shlC_spec (by omega)) ?_
  intro t ht
  rw [one, hp _ (by omega)] at ht
  refine Ok.bind (assertC_spec (by simpa [BitVec.ult, ht] using h1)) (fun _ _ => ?_)
  refine Ok.bind (nsubC_spec (by omega)) ?_
  rintro _ rfl
  refine Ok.bind (shlC_spec (by omega)) ?_
  intro t ht
  rw [one, hp _ (by omega)] at ht
  refine Ok.bind (assertC_spec (by simpa [BitVec.ult, ht] using h2)) (fun _ _ => ?_)
  refine Ok.bind (shlC_spec (by omega)) ?_
  intro m hm
  rw [Nat.pow_one, Nat.mul_comm, Nat.mod_eq_of_lt (by omega)] at hm
  refine Ok.bind (assertC_spec (by simpa [BitVec.ult, hm] using hx)) (fun _ _ => ?_)
  refine Ok.bind (nsubC_spec (by omega)) ?_
  rintro _ rfl
  refine Ok.bind (shlC_spec (by omega)) ?_
  intro t ht
  rw [one, hp _ (by omega)] at ht
  have eR : 2 ^ w = 2 * 2 ^ (w - 1) := by rw [← Nat.pow_succ']; congr 1; omega
  refine Ok.bind (subC_spec (by rw [ht, hm]; omega)) ?_
  intro t' ht'
  rw [ht, hm] at ht'
  have hdv := hO.widenHi t'
  have eR4 : 2 ^ w = 8 * 2 ^ (w - 3) := by
    rw [show 8 = 2 ^ 3 from rfl, ← Nat.pow_add]; congr 1; omega
  have hhi : (O.hi (O.widenHi t')).toNat = t'.toNat := by
    rw [val_hi, hdv, Nat.mul_div_cancel _ (Nat.two_pow_pos _)]
  simp only
  refine Ok.bind (ndChecked_some (by rw [hhi, ht', hm]; omega) (hO.nd _ m (by rw [hhi, ht', hm]; omega))) ?_
  rintro _ ⟨⟨f, r⟩, rfl, hq, hr⟩
  simp only at hq hr ⊢
  rw [hdv, ht', hm] at hq
  rw [hm] at hr
  -- quotient and remainder of RR/2 by 2n
  have hsum : (2 ^ w + f.toNat) * (2 * n.toNat) + r.toNat = 2 ^ (2 * w - 1) := by
    have e2H : 2 ^ (2 * w - 1) = 2 ^ (w - 1) * 2 ^ w := by
      rw [← Nat.pow_add]; congr 1; omega
    rw [e2H, Nat.add_mul, Nat.add_assoc, hq, Nat.mul_comm (2 ^ w), ← Nat.add_mul]
    congr 1; omega
  obtain ⟨hqq, hrr⟩ := divRem_of hsum hr
  rw [← hqq, Nat.mul_add] at f6
  have hfx : 2 * x.toNat * 2 ^ w = x.toNat * 2 * 2 ^ w := by ring
  refine Ok.bind (addC_spec (by omega)) ?_
  intro x2 hx2
  have hx2' : x2.toNat = 2 * x.toNat := by omega
  refine Ok.bind (hO.widenMul _ _) ?_
  intro p hp
  rw [hx2'] at hp
  have hwx := hO.widenHi x2
  rw [hx2'] at hwx
  refine Ok.bind (hO.add _ _ (by rw [hwx, hp, two_pow_two_mul]; omega)) ?_
  intro xq hxq
  refine Ok.pure' ⟨hm, h1, h2, hrr, hx, ?_⟩
  show O.val xq = _
  rw [hxq, hwx, hp, ← hqq]; ring

theorem wordLoop_spec (hO : O.Lawful) (hw : 3 ≤ w) {n : Nat} (fuel : Nat) : ∀ {s : Reducer O} {x e : Nat}
    (_ : Inv s n x) (_ : e < fuel),
    Ok (s.wordLoop fuel e) (fun p => p.2 < w - 1 ∧ ∃ x', Inv p.1 n x' ∧
      x' * 2 ^ p.2 % n = x * 2 ^ e % n) := by
  induction fuel with
  | zero => intro s x e _ h; omega
  | succ fuel ih =>
    intro s x e hI he
    unfold wordLoop
    refine Ok.bind (nsubC_spec (by omega)) ?_
    rintro _ rfl
    split
    · rename_i hc
      refine Ok.bind (wordReduce_spec hO hw hI) ?_
      rintro s' ⟨x', a, hI', hx'⟩
      refine Ok.bind (nsubC_spec hc) ?_
      rintro _ rfl
      refine Ok.mono (ih hI' (by omega)) ?_
      rintro ⟨s'', e''⟩ ⟨h1, x'', h2, h3⟩
      refine ⟨h1, x'', h2, ?_⟩
      rw [h3]
      have e1 : x * 2 ^ e = x' * 2 ^ (e - (w - 1)) + n * (a * 2 ^ (e - (w - 1))) := by
        have : 2 ^ e = 2 ^ (w - 1) * 2 ^ (e - (w - 1)) := by rw [← Nat.pow_add]; congr 1; omega
        rw [this, ← Nat.mul_assoc, ← hx']; ring
      rw [e1, Nat.add_mul_mod_self_left]
    · exact Ok.pure' ⟨by show e < w - 1; omega, x, hI, rfl⟩

end Reducer

theorem and_sub_one_eq_zero {w : Nat} {y y1 : BitVec w} (hy : y1.toNat = y.toNat - 1) (h0 : 0 < y.toNat)
    (h : y &&& y1 = 0#w) : ∃ k, y.toNat = 2 ^ k ∧ k < w := by
  have h2 : y.toNat &&& (y.toNat - 1) = 0 := by
    have := congrArg BitVec.toNat h
    rw [BitVec.toNat_and, hy] at this; simpa using this
  have hb := bitLen_pos (n := y.toNat) (by omega)
  have hl := two_pow_le_of_bitLen (n := y.toNat) (by omega)
  have hu := lt_two_pow_bitLen y.toNat
  have hw := bitLen_le_width y
  generalize bitLen y.toNat = k at *
  obtain ⟨k, rfl⟩ : ∃ j, k = j + 1 := ⟨k - 1, by omega⟩
  rw [Nat.add_sub_cancel] at hl
  refine ⟨k, ?_, by omega⟩
  by_contra hne
  have t1 := Nat.testBit_of_two_pow_le_and_two_pow_add_one_gt hl hu
  have t2 := Nat.testBit_of_two_pow_le_and_two_pow_add_one_gt (n := y.toNat - 1) (i := k) (by omega) (by omega)
  have := congrArg (Nat.testBit · k) h2
  simp [Nat.testBit_and, t1, t2] at this

theorem linearMulReduction_spec {w : Nat} {O : DOps w} (hO : O.Lawful) (hw : 3 ≤ w) (x y : BitVec w) (e : Nat)
    (hy : 4 * y.toNat < 2 ^ w) (hx : x.toNat < 2 * y.toNat) (he : e + w < 2 ^ 32) :
    Ok (linearMulReduction O x e y) (fun r => r.toNat = x.toNat * 2 ^ e % y.toNat) := by
  have one : (1#w).toNat = 1 := one_toNat (by omega)
  have e4 : 2 ^ w = 4 * 2 ^ (w - 2) := by
    rw [show 4 = 2 ^ 2 from rfl, ← Nat.pow_add]; congr 1; omega
  have hy0 : y.toNat ≠ 0 := by omega
  unfold linearMulReduction
  refine Ok.bind (shrC_spec (by omega)) ?_
  intro t ht
  rw [BitVec.toNat_allOnes] at ht
  refine Ok.bind (assertC_spec (by simp only [decide_eq_true_eq]; rw [ht]; omega)) (fun _ _ => ?_)
  refine Ok.bind (shlC_spec (by omega)) ?_
  intro t ht
  rw [Nat.pow_one, Nat.mul_comm, Nat.mod_eq_of_lt (by omega)] at ht
  refine Ok.bind (assertC_spec (by simpa [BitVec.ult, ht] using hx)) (fun _ _ => ?_)
  refine Ok.bind (subC_spec (by rw [one]; omega)) ?_
  intro y1 hy1
  rw [one] at hy1
  split
  · rename_i hp
    obtain ⟨k, hk, hkw⟩ := and_sub_one_eq_zero hy1 (by omega) hp
    split
    · rename_i hew
      refine Ok.bind (shlC_spec hew) ?_
      intro t ht
      refine Ok.bind (subC_spec (by rw [one]; omega)) ?_
      intro y1' hy1'
      rw [one] at hy1'
      refine Ok.pure' ?_
      rw [BitVec.toNat_and, hy1', hk, Nat.and_two_pow_sub_one_eq_mod, ht]
      exact Nat.mod_mod_of_dvd _ (Nat.pow_dvd_pow 2 (by omega))
    · rename_i hew
      refine Ok.pure' ?_
      rw [hk, show 2 ^ e = 2 ^ k * 2 ^ (e - k) by rw [← Nat.pow_add]; congr 1; omega]
      rw [Nat.mul_left_comm, Nat.mul_mod_right]
      simp
  · rename_i hp
    have hbl := two_pow_le_of_bitLen hy0
    have hbu := lt_two_pow_bitLen y.toNat
    have hbp := bitLen_pos hy0
    have hb2 : bitLen y.toNat ≤ w - 2 := bitLen_le_iff.2 (by omega)
    have hstrict : 2 ^ (bitLen y.toNat - 1) < y.toNat := by
      refine Nat.lt_of_le_of_ne hbl ?_
      intro heq
      apply hp
      apply BitVec.eq_of_toNat_eq
      rw [BitVec.toNat_and, hy1, ← heq, Nat.and_two_pow_sub_one_eq_mod]
      simp
    refine Ok.bind (nsubC_spec (by unfold nlz; omega)) ?_
    rintro s hs
    have hsv : bitLen y.toNat + s = w - 2 := by rw [hs]; unfold nlz; omega
    rw [if_neg (by omega)]
    simp only
    have hS := Nat.two_pow_pos s
    have hys : y.toNat * 2 ^ s < 2 ^ (w - 2) := by
      rw [← hsv, Nat.pow_add]
      exact Nat.mul_lt_mul_of_pos_right hbu hS
    have hysl : 2 ^ (w - 3) < y.toNat * 2 ^ s := by
      rw [show w - 3 = (bitLen y.toNat - 1) + s by omega, Nat.pow_add]
      exact Nat.mul_lt_mul_of_pos_right hstrict hS
    refine Ok.bind (shlC_spec (by omega)) ?_
    intro y' hy'
    rw [Nat.mod_eq_of_lt (by omega)] at hy'
    have hle : y.toNat ≤ y.toNat * 2 ^ s := Nat.le_mul_of_pos_right _ hS
    refine Ok.bind (Reducer.new_spec hO hw (by rw [hy']; exact hysl) (by rw [hy']; exact hys) (by omega)) ?_
    intro m hm
    refine Ok.bind (Reducer.wordLoop_spec hO hw (e + s + 1) hm (by omega)) ?_
    rintro ⟨m', e'⟩ ⟨he', x', hI', hx'⟩
    simp only at he' hI' hx' ⊢
    refine Ok.bind (Reducer.shiftReduce_spec hO hw hI' (by omega)) ?_
    rintro m'' ⟨x'', a, hI'', hx''⟩
    refine Ok.bind (Reducer.partialRemainder_spec hO hw hI'') ?_
    intro r hr
    have hmod : x'' % y'.toNat = x.toNat * 2 ^ (e + s) % y'.toNat := by
      rw [← hx', ← hx'', Nat.add_mul_mod_self_right]
    have hx2 := hI''.hx
    have hd : Ok (if y'.toNat ≤ r.toNat then subC r y' else pure r) (fun d => d.toNat = x'' % y'.toNat) := by
      split
      · rename_i hc
        refine Ok.mono (subC_spec hc) ?_
        intro d hd
        rw [hd, hr, Nat.mod_eq_sub_mod (by omega), Nat.mod_eq_of_lt (by omega)]
      · exact Ok.pure' (by rw [hr, Nat.mod_eq_of_lt (by omega)])
    refine Ok.bind hd ?_
    intro d hd
    refine Ok.mono (shrC_spec (by omega)) ?_
    intro z hz
    rw [hz, hd, hmod, hy', Nat.pow_add, ← Nat.mul_assoc, Nat.mul_mod_mul_right, Nat.mul_div_cancel _ hS]

end Verif
