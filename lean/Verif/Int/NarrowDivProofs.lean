import Verif.Int.NarrowDiv
import Verif.Int.WideProofs
/-!
# Narrowing division and modular reduction (proofs)
-/
namespace Verif

theorem castC_spec {w v : Nat} {x : BitVec w} (h : x.toNat < 2 ^ v) :
    Ok (castC v x) (fun r => r.toNat = x.toNat) :=
  ⟨x.setWidth v, by simp [castC, h], by show _ = _; rw [BitVec.toNat_setWidth, Nat.mod_eq_of_lt h]⟩

/-- The specification of a narrowing division. -/
def IsNd {h : Nat} (a : Nat) (n : BitVec h) (p : BitVec h × BitVec h) : Prop :=
  p.1.toNat * n.toNat + p.2.toNat = a ∧ p.2.toNat < n.toNat

theorem ndPrim_spec {h : Nat} (a : BitVec (2 * h)) (n : BitVec h) (hlt : (hi a).toNat < n.toNat) :
    Ok (ndPrim a n) (IsNd a.toNat n) := by
  unfold ndPrim
  rw [if_neg (by omega)]
  have hn := toNat_zeroWiden n
  have hn0 : 0 < n.toNat := by omega
  refine Ok.bind (divC_spec (by omega)) ?_
  intro q hq
  rw [hn] at hq
  rw [toNat_hi] at hlt
  refine Ok.bind (castC_spec ?_) ?_
  · rw [hq, Nat.div_lt_iff_lt_mul hn0]
    have := (Nat.div_lt_iff_lt_mul (Nat.two_pow_pos _)).1 hlt
    rwa [Nat.mul_comm n.toNat] at this
  intro q' hq'
  refine Ok.bind (remC_spec (by omega)) ?_
  intro r hr
  rw [hn] at hr
  have hrn : r.toNat < n.toNat := by rw [hr]; exact Nat.mod_lt _ hn0
  refine Ok.bind (castC_spec (Nat.lt_trans hrn n.isLt)) ?_
  intro r' hr'
  refine Ok.pure' ⟨?_, by show r'.toNat < n.toNat; omega⟩
  show q'.toNat * n.toNat + r'.toNat = a.toNat
  rw [hq', hq, hr', hr, Nat.mul_comm]
  exact Nat.div_add_mod _ _

theorem ndChecked_some {h : Nat} {u n : BitVec h} {f : M (BitVec h × BitVec h)} {P}
    (hlt : u.toNat < n.toNat) (hf : Ok f P) : Ok (ndChecked u n f) (fun o => ∃ p, o = some p ∧ P p) := by
  unfold ndChecked
  rw [if_pos hlt]
  exact Ok.bind hf (fun p hp => Ok.pure' ⟨p, rfl, hp⟩)

theorem ndChecked_none {h : Nat} {u n : BitVec h} {f : M (BitVec h × BitVec h)}
    (hle : n.toNat ≤ u.toNat) : ndChecked u n f = .ok none := by
  unfold ndChecked
  rw [if_neg (by omega)]; rfl

theorem overflowingAdd_cases {w : Nat} (a b : BitVec w) :
    ((overflowingAdd a b).2 = true ∧ (overflowingAdd a b).1.toNat + 2 ^ w = a.toNat + b.toNat) ∨
    ((overflowingAdd a b).2 = false ∧ (overflowingAdd a b).1.toNat = a.toNat + b.toNat) := by
  have ha := a.isLt
  have hb := b.isLt
  simp only [overflowingAdd, BitVec.toNat_add]
  by_cases hc : 2 ^ w ≤ a.toNat + b.toNat
  · left
    rw [Nat.mod_eq_sub_mod hc, Nat.mod_eq_of_lt (by omega)]
    simp only [hc, decide_true, true_and]; omega
  · right
    rw [Nat.mod_eq_of_lt (by omega)]
    simp [hc]

theorem overflowingSub_cases {w : Nat} (a b : BitVec w) :
    ((overflowingSub a b).2 = true ∧ (overflowingSub a b).1.toNat + b.toNat = a.toNat + 2 ^ w) ∨
    ((overflowingSub a b).2 = false ∧ (overflowingSub a b).1.toNat + b.toNat = a.toNat) := by
  have ha := a.isLt
  have hb := b.isLt
  simp only [overflowingSub, BitVec.toNat_sub]
  by_cases hc : a.toNat < b.toNat
  · left
    rw [Nat.mod_eq_of_lt (by omega)]
    simp only [hc, decide_true, true_and]; omega
  · right
    rw [Nat.mod_eq_sub_mod (by omega), Nat.mod_eq_of_lt (by omega)]
    simp only [hc, decide_false, true_and]; omega

theorem one_toNat {g : Nat} (hg : 0 < g) : (1#g).toNat = 1 := by
  rw [BitVec.toNat_ofNat, Nat.mod_eq_of_lt]
  exact Nat.one_lt_two_pow (by omega)

theorem divCorrect_spec {g : Nat} (hg : 0 < g) (A : Nat) (q : BitVec g) (r n : BitVec (2 * g))
    (hn : 2 ^ (2 * g) ≤ 2 * n.toNat)
    (hA : r.toNat + (q.toNat + 1) * n.toNat = A + 2 ^ (2 * g)) :
    Ok (divCorrect q r n) (fun p => p.1.toNat * n.toNat + p.2.toNat = A ∧ p.2.toNat < n.toNat) := by
  have hr := r.isLt
  have hnl := n.isLt
  rw [Nat.add_mul] at hA
  unfold divCorrect
  rcases overflowingAdd_cases r n with ⟨h1, h2⟩ | ⟨h1, h2⟩
  · rcases hO : overflowingAdd r n with ⟨r', w'⟩
    rw [hO] at h1 h2
    simp only at h1 h2
    subst h1
    exact Ok.pure' ⟨by show q.toNat * n.toNat + r'.toNat = A; omega, by show r'.toNat < _; omega⟩
  · rcases hO : overflowingAdd r n with ⟨r', w'⟩
    rw [hO] at h1 h2
    simp only at h1 h2
    subst h1
    have hr' := r'.isLt
    have hq : 1 ≤ q.toNat := by
      rcases Nat.eq_zero_or_pos q.toNat with h | h
      · rw [h] at hA; omega
      · exact h
    refine Ok.bind (subC_spec (by rw [one_toNat hg]; exact hq)) ?_
    intro q' hq'
    rw [one_toNat hg] at hq'
    have hqq : q.toNat = q'.toNat + 1 := by omega
    rw [hqq, Nat.add_mul] at hA
    rcases overflowingAdd_cases r' n with ⟨h1, h3⟩ | ⟨h1, h3⟩
    · rcases hO : overflowingAdd r' n with ⟨r'', w''⟩
      rw [hO] at h1 h3
      simp only at h1 h3
      subst h1
      refine Ok.bind (assertC_spec rfl) (fun _ _ => ?_)
      exact Ok.pure' ⟨by show q'.toNat * n.toNat + r''.toNat = A; omega, by show r''.toNat < _; omega⟩
    · exfalso
      have := (overflowingAdd r' n).1.isLt
      omega

theorem nlz_eq_zero {w : Nat} {n : BitVec w} (hw : 0 < w) : nlz n = 0 ↔ 2 ^ w ≤ 2 * n.toNat := by
  unfold nlz
  have h1 := bitLen_le_width n
  have h2 : 2 ^ w = 2 * 2 ^ (w - 1) := by
    rw [← Nat.pow_succ']; congr 1; omega
  have h3 := bitLen_le_iff (n := n.toNat) (k := w - 1)
  constructor
  · intro h
    have : ¬ (bitLen n.toNat ≤ w - 1) := by omega
    rw [h3] at this; omega
  · intro h
    have : ¬ (n.toNat < 2 ^ (w - 1)) := by omega
    rw [← h3] at this; omega

theorem div3by2_spec {g : Nat} (hg : 0 < g) (a0 : BitVec g) (a n : BitVec (2 * g))
    (hn : nlz n = 0) (han : a.toNat < n.toNat) :
    Ok (div3by2 a0 a n) (fun p => p.1.toNat * n.toNat + p.2.toNat = a.toNat * 2 ^ g + a0.toNat ∧
      p.2.toNat < n.toNat) := by
  unfold div3by2
  rw [if_neg (by omega)]
  have hn2 := (nlz_eq_zero (by omega)).1 hn
  have en := lo_add_hi n
  have ea := lo_add_hi a
  have e2 := two_pow_two_mul g
  have hN := Nat.two_pow_pos g
  have l1 := (lo n).isLt
  have l2 := (hi n).isLt
  have l3 := (lo a).isLt
  have l4 := (hi a).isLt
  have l5 := a0.isLt
  simp only
  have hcmp : (hi a).toNat ≤ (hi n).toNat := by
    rw [toNat_hi, toNat_hi]; exact Nat.div_le_div_right (Nat.le_of_lt han)
  rcases Nat.lt_or_eq_of_le hcmp with hc | hc
  · refine Ok.bind (ndChecked_some hc (ndPrim_spec a (hi n) hc)) ?_
    rintro _ ⟨⟨q, r1⟩, rfl, hq, hr⟩
    simp only at hq hr ⊢
    have efr := toNat_fromLoHi a0 r1
    have ed := toNat_zeroWidenMul q (lo n)
    have hql := q.isLt
    have key : q.toNat * n.toNat + (fromLoHi a0 r1).toNat =
        a.toNat * 2 ^ g + a0.toNat + (zeroWidenMul q (lo n)).toNat := by
      rw [efr, ed, ← hq, ← en]; ring
    have hrl : (fromLoHi a0 r1).toNat < n.toNat := by
      rw [efr, ← en]
      have : 2 ^ g * (r1.toNat + 1) ≤ 2 ^ g * (hi n).toNat := Nat.mul_le_mul_left _ hr
      rw [Nat.mul_add] at this; omega
    rcases overflowingSub_cases (fromLoHi a0 r1) (zeroWidenMul q (lo n)) with ⟨h1, h2⟩ | ⟨h1, h2⟩
    · rcases hO : overflowingSub (fromLoHi a0 r1) (zeroWidenMul q (lo n)) with ⟨r, wr⟩
      rw [hO] at h1 h2
      simp only at h1 h2
      subst h1
      have hrlt := r.isLt
      simp only [Bool.not_true, Bool.false_eq_true, if_false]
      have hq1 : 1 ≤ q.toNat := by
        rcases Nat.eq_zero_or_pos q.toNat with h | h
        · rw [h] at ed; omega
        · exact h
      refine Ok.bind (subC_spec (by rw [one_toNat hg]; exact hq1)) ?_
      intro q' hq'
      rw [one_toNat hg] at hq'
      have hqq : q'.toNat + 1 = q.toNat := by omega
      refine divCorrect_spec hg _ q' r n hn2 ?_
      rw [hqq]; omega
    · rcases hO : overflowingSub (fromLoHi a0 r1) (zeroWidenMul q (lo n)) with ⟨r, wr⟩
      rw [hO] at h1 h2
      simp only at h1 h2
      subst h1
      exact Ok.pure' ⟨by show q.toNat * n.toNat + r.toNat = _; omega, by show r.toNat < _; omega⟩
  · rw [ndChecked_none (by omega), ok_bind]
    simp only
    have hlt : (lo a).toNat < (lo n).toNat := by rw [hc] at ea; omega
    refine Ok.bind (assertC_spec ?_) (fun _ _ => ?_)
    · simp [BitVec.ult, hlt, BitVec.toNat_inj.1 hc]
    · refine divCorrect_spec hg _ _ _ n hn2 ?_
      have hm : (lo a - lo n).toNat + (lo n).toNat = (lo a).toNat + 2 ^ g := by
        rw [BitVec.toNat_sub, Nat.mod_eq_of_lt (by omega)]; omega
      rw [toNat_fromLoHi, BitVec.toNat_allOnes, Nat.sub_add_cancel hN, e2]
      rw [hc] at ea
      have := congrArg (2 ^ g * ·) hm
      simp only [Nat.mul_add] at this
      rw [← ea, Nat.add_mul, Nat.mul_comm (lo a).toNat]
      rw [← en, Nat.mul_add]
      have : 2 ^ g * (hi n).toNat * 2 ^ g = 2 ^ g * (2 ^ g * (hi n).toNat) := by ring
      omega

theorem ndWide_spec {g k : Nat} (hk : 2 * g = 2 ^ (k + 1)) (x : Wide (2 * g)) (n : BitVec (2 * g))
    (hlt : x.hi.toNat < n.toNat) : Ok (ndWide x n) (IsNd x.val n) := by
  have hg : 0 < g := by have := Nat.two_pow_pos (k + 1); omega
  unfold ndWide
  rw [if_neg (by omega)]
  have hn0 : n.toNat ≠ 0 := by omega
  have hbl := bitLen_le_width n
  have hbp := bitLen_pos hn0
  have hlz : nlz n < 2 * g := by unfold nlz; omega
  have hnl : n.toNat * 2 ^ nlz n < 2 ^ (2 * g) := by
    have h1 := lt_two_pow_bitLen n.toNat
    have : 2 ^ (2 * g) = 2 ^ bitLen n.toNat * 2 ^ nlz n := by
      rw [← Nat.pow_add]; congr 1; unfold nlz; omega
    rw [this]
    exact Nat.mul_lt_mul_of_pos_right h1 (Nat.two_pow_pos _)
  have hnh : 2 ^ (2 * g) ≤ 2 * (n.toNat * 2 ^ nlz n) := by
    have h1 := two_pow_le_of_bitLen hn0
    have : 2 ^ (2 * g) = 2 * (2 ^ (bitLen n.toNat - 1) * 2 ^ nlz n) := by
      rw [← Nat.pow_add, ← Nat.pow_succ']; congr 1; unfold nlz; omega
    rw [this]
    exact Nat.mul_le_mul_left _ (Nat.mul_le_mul_right _ h1)
  have hxn : x.val < n.toNat * 2 ^ (2 * g) := by
    have := x.lo.isLt
    have h2 : (x.hi.toNat + 1) * 2 ^ (2 * g) ≤ n.toNat * 2 ^ (2 * g) := Nat.mul_le_mul_right _ hlt
    rw [Nat.add_mul] at h2
    simp only [Wide.val]; omega
  have hL := Nat.two_pow_pos (nlz n)
  refine Ok.bind (Wide.shl_spec hk x (by omega)) ?_
  intro a ha
  have hxa : x.val * 2 ^ nlz n < n.toNat * 2 ^ nlz n * 2 ^ (2 * g) := by
    have := Nat.mul_lt_mul_of_pos_right hxn hL
    calc _ < _ := this
      _ = _ := by ring
  rw [Nat.mod_eq_of_lt] at ha
  swap
  · rw [two_pow_two_mul (2 * g)]
    exact Nat.lt_trans hxa (Nat.mul_lt_mul_of_pos_right hnl (Nat.two_pow_pos _))
  refine Ok.bind (shlC_spec hlz) ?_
  intro b hb
  rw [Nat.mod_eq_of_lt hnl] at hb
  have hab : a.hi.toNat < b.toNat := by
    rw [hb]
    refine Nat.lt_of_mul_lt_mul_right (a := 2 ^ (2 * g)) ?_
    have : a.hi.toNat * 2 ^ (2 * g) ≤ a.val := by simp [Wide.val]
    omega
  have hb0 : nlz b = 0 := (nlz_eq_zero (by omega)).2 (by omega)
  simp only
  refine Ok.bind (div3by2_spec hg (hi a.lo) a.hi b hb0 hab) ?_
  rintro ⟨q1, r1⟩ ⟨h1, h2⟩
  simp only at h1 h2 ⊢
  refine Ok.bind (div3by2_spec hg (lo a.lo) r1 b hb0 h2) ?_
  rintro ⟨q0, r0⟩ ⟨h3, h4⟩
  simp only at h3 h4 ⊢
  refine Ok.bind (shrC_spec hlz) ?_
  intro r hr
  refine Ok.pure' ?_
  have e := lo_add_hi a.lo
  have e2 := two_pow_two_mul g
  have hq := toNat_fromLoHi q0 q1
  have key : (q0.toNat + 2 ^ g * q1.toNat) * b.toNat + r0.toNat = a.val := by
    simp only [Wide.val]
    rw [e2, ← e]
    calc (q0.toNat + 2 ^ g * q1.toNat) * b.toNat + r0.toNat
        = (q0.toNat * b.toNat + r0.toNat) + 2 ^ g * (q1.toNat * b.toNat) := by ring
      _ = (r1.toNat * 2 ^ g + (lo a.lo).toNat) + 2 ^ g * (q1.toNat * b.toNat) := by rw [h3]
      _ = (lo a.lo).toNat + 2 ^ g * (q1.toNat * b.toNat + r1.toNat) := by ring
      _ = _ := by rw [h1]; ring
  rw [ha, hb] at key
  obtain ⟨c, hc⟩ : 2 ^ nlz n ∣ r0.toNat := by
    have h5 : 2 ^ nlz n ∣ (q0.toNat + 2 ^ g * q1.toNat) * (n.toNat * 2 ^ nlz n) + r0.toNat := by
      rw [key]; exact Nat.dvd_mul_left _ _
    exact (Nat.dvd_add_right (Dvd.intro_left ((q0.toNat + 2 ^ g * q1.toNat) * n.toNat) (by ring))).1 h5
  rw [hc, Nat.mul_div_cancel_left _ hL] at hr
  refine ⟨?_, ?_⟩
  · show (fromLoHi q0 q1).toNat * n.toNat + r.toNat = x.val
    rw [hq, hr]
    refine Nat.eq_of_mul_eq_mul_right hL ?_
    rw [← key, hc]; ring
  · show r.toNat < n.toNat
    rw [hr]
    refine Nat.lt_of_mul_lt_mul_left (a := 2 ^ nlz n) ?_
    rw [← hc, Nat.mul_comm (2 ^ nlz n), ← hb]; exact h4

end Verif
