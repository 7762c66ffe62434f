import Verif.Libm.HyperR
import Verif.Libm.Hyper
import Verif.Libm.Expm1Tail
/-! # The formulas for the hyperbolic functions in floating-point arithmetic -/
namespace Verif
open Fmt
namespace Hyper
open Expm1

variable {F : Fmt} {K : Cn F} {R : List ℚ} {t : BitVec F.w} {τ T : ℝ}

theorem lo_of {v : ℝ} (h : 1 / 2 ^ 65 ≤ v) : (1 : ℝ) / 2 ^ 100 ≤ |v| := by
  refine le_trans ?_ (le_abs_self v)
  exact le_trans (by norm_num) h

/-- the error of a quotient of two rounded numbers -/
theorem div_rnd (hF : F.Big) {a b q : BitVec F.w} {A B v w d : ℝ} (hd0 : 0 ≤ d) (hd : d ≤ 1 / 2 ^ 20) (N : FPU F) (ha : GFv F a A) (hb : GFv F b B) (hA : Rl d A v) (hB : Rl (1 / 2 ^ (F.s + 1)) B w)
    (hw : w ≠ 0) (lo : 1 / 2 ^ 90 ≤ |v / w|) (hi : |v / w| ≤ 2 ^ 90) (hq : q = N.div a b) :
    ∃ Q, GFv F q Q ∧ Rl ((d + 1 / 2 ^ (F.s + 1)) * 1.003 + 1 / 2 ^ (F.s + 1)) Q (v / w) := by
  have hu0 := u_pos F
  have hu := u_le hF
  have hu' : (1 : ℝ) / 2 ^ (F.s + 1) ≤ 1 / 1000000 := hu.trans (by norm_num)
  have hd' : d ≤ 1 / 1000000 := hd.trans (by norm_num)
  have h1 := hA.div hB hd0 hu0.le (by linarith) hw
  have hB0 := hB.ne (by linarith) hw
  have hR := ha.divR N hb hB0
  have hx : |A / B - v / w| ≤ 1 / 2 * |v / w| := by
    refine le_trans h1 (mul_le_mul_of_nonneg_right ?_ (abs_nonneg _))
    nlinarith
  have h2 := abs_sub_abs_le_abs_sub (A / B) (v / w)
  have h3 := abs_sub_abs_le_abs_sub (v / w) (A / B)
  rw [abs_sub_comm] at h3
  have e1 : (1 : ℝ) / 2 ^ 100 ≤ 1 / 2 ^ 90 / 2 := by norm_num
  have e2 : (2 : ℝ) ^ 90 * 2 ≤ 2 ^ 100 := by norm_num
  obtain ⟨Q, hQ, hQ2⟩ := rr hF hR (by linarith) (by linarith)
  refine ⟨Q, by rw [hq]; exact hQ, ?_⟩
  refine (h1.trans hQ2 hu0.le).mono ?_
  nlinarith

theorem t_sq {u : ℝ} (hu0 : 0 < u) (hu : u ≤ 1 / 2 ^ 20) (hT : Rl (2 * u) τ T) (h1 : 1 / 2 ^ 30 ≤ T) : 1 / 2 ^ 31 ≤ τ ∧ τ ≤ 1.001 * T := by
  have hu' : u ≤ 1 / 1000000 := hu.trans (by norm_num)
  have hT0 : 0 < T := lt_of_lt_of_le (by norm_num) h1
  obtain ⟨b1, b2⟩ := Rl.bounds hT hT0
  have : (1 : ℝ) / 2 ^ 31 = 1 / 2 ^ 30 / 2 := by norm_num
  constructor
  · rw [this]; nlinarith
  · nlinarith

theorem cSmall_spec (hF : F.Big) (hK : COk F K R) (N : FPU F) (ht : GFv F t τ) (hT : Rl (2 * (1 / 2 ^ (F.s + 1))) τ T) (h1 : 1 / 2 ^ 30 ≤ T) (h2 : T ≤ 1.001) :
    ∃ V, GFv F (cSmall N K t) V ∧ |V - (1 + T * T / (2 * (1 + T)))| ≤ 3.2 * (1 / 2 ^ (F.s + 1)) * (1 + T * T / (2 * (1 + T))) ∧ 1 ≤ V := by
  have hu0 := u_pos F
  have hu := u_le hF
  have hu' : (1 : ℝ) / 2 ^ (F.s + 1) ≤ 1 / 1000000 := hu.trans (by norm_num)
  have hT0 : 0 < T := lt_of_lt_of_le (by norm_num) h1
  obtain ⟨t0, t1⟩ := t_sq hu0 hu hT h1
  have t1' : τ ≤ 1.1 := by linarith
  have t0' : 0 < τ := lt_of_lt_of_le (by norm_num) t0
  have e62 : (1 : ℝ) / 2 ^ 31 * (1 / 2 ^ 31) = 1 / 2 ^ 62 := by norm_num
  have p0 : 1 / 2 ^ 62 ≤ τ * τ := by rw [← e62]; exact mul_le_mul t0 t0 (by positivity) t0'.le
  have p1 : τ * τ ≤ 1.21 := by nlinarith
  obtain ⟨p, hp, ep⟩ := rr hF (ht.mulR N ht) (lo_of (le_trans (by norm_num) p0)) (by rw [abs_of_pos (by positivity)]; exact p1.trans (by norm_num))
  obtain ⟨d, hd, ed⟩ := rr hF (hK.one.addR N ht) (lo_of (le_trans (by norm_num) (show (1 : ℝ) ≤ 1 + τ by linarith))) (by rw [abs_of_pos (by linarith)]; linarith)
  obtain ⟨db1, db2⟩ := Rl.bounds ed (by linarith)
  have hd2 : GFv F (N.mul K.two (N.add K.one t)) (d * 2 ^ (1 : ℤ)) := by
    refine dblX hF hd ?_ (by norm_num) ?_ (big_of hF ?_)
    · rw [abs_of_pos (by nlinarith)]; refine le_trans (by norm_num) (show (1 : ℝ) / 2 ≤ d by nlinarith)
    · have := hK.two.mulR N hd
      rw [zpow_one, mul_comm]; exact this
    · rw [zpow_one, abs_of_pos (by nlinarith)]; nlinarith
  have ed2 : Rl (1 / 2 ^ (F.s + 1)) (d * 2 ^ (1 : ℤ)) (2 * (1 + τ)) := by
    unfold Rl at *
    rw [zpow_one, show d * 2 - 2 * (1 + τ) = (d - (1 + τ)) * 2 by ring, abs_mul, abs_mul, abs_of_pos (show (0 : ℝ) < 2 by norm_num)]
    linarith
  have hg0 : 0 < τ * τ / (2 * (1 + τ)) := by positivity
  have g0 : 1 / 2 ^ 65 ≤ τ * τ / (2 * (1 + τ)) := by
    rw [le_div_iff₀ (by linarith)]
    refine le_trans ?_ p0
    have : (1 : ℝ) / 2 ^ 62 = 1 / 2 ^ 65 * 8 := by norm_num
    rw [this]
    exact mul_le_mul_of_nonneg_left (by linarith) (by positivity)
  have g1 : τ * τ / (2 * (1 + τ)) ≤ 1 := by rw [div_le_one (by linarith)]; nlinarith
  obtain ⟨q, hq, eq⟩ := div_rnd hF hu0.le hu N hp hd2 ep ed2 (by linarith) (by rw [abs_of_pos hg0]; exact le_trans (by norm_num) g0)
    (by rw [abs_of_pos hg0]; exact g1.trans (by norm_num)) rfl
  have eq' : Rl (3.01 * (1 / 2 ^ (F.s + 1))) q (τ * τ / (2 * (1 + τ))) := eq.mono (by linarith)
  have hq0 : 0 < q := eq'.pos (by linarith) hg0
  have hq1 : q ≤ 2 := by
    have := (Rl.bounds eq' hg0).2
    nlinarith
  have hR := hK.one.addR N hq
  obtain ⟨V, hV, eV⟩ := rr hF hR (lo_of (le_trans (by norm_num) (show (1 : ℝ) ≤ 1 + q by linarith))) (by rw [abs_of_pos (by linarith)]; linarith)
  refine ⟨V, hV, cSmall_real hu0 hu hT0 h2 hT eq' eV, ?_⟩
  refine hV.ge_of_rounds hR ?_ (big_of hF (by norm_num)).le (by linarith)
  rw [← hK.one.val]; exact F.rp_val _

/-- the largest arguments for which nothing can overflow -/
def Room (F : Fmt) (T : ℝ) : Prop := (T + 1) * (1 + 16 * (1 / 2 ^ (F.s + 1))) < 2 ^ ((F.bias : ℤ) + 1)

theorem room_of (hF : F.Big) (h : T ≤ 2 ^ 100) (h0 : 0 ≤ T) : Room F T := by
  have hu := u_le hF
  have hu' : (1 : ℝ) / 2 ^ (F.s + 1) ≤ 1 / 1000000 := hu.trans (by norm_num)
  have h127 := hF.bias
  have h2 : (2 : ℝ) ^ 102 ≤ 2 ^ ((F.bias : ℤ) + 1) := by
    rw [← zpow_natCast]; exact zpow_le_zpow_right₀ (by norm_num) (by push_cast; omega)
  unfold Room
  norm_num at h h2
  nlinarith

theorem cMid_spec (hF : F.Big) (hs : F.s ≤ 52) (hK : COk F K R) (N : FPU F) (ht : GFv F t τ) (hT : Rl (1.91 * (1 / 2 ^ (F.s + 1))) τ T) (h1 : 1.999 ≤ T) (h2 : Room F T) :
    ∃ V, GFv F (cMid N K t) V ∧ |V - (T + 1 / T) / 2| ≤ 3.2 * (1 / 2 ^ (F.s + 1)) * ((T + 1 / T) / 2) := by
  have hu0 := u_pos F
  have hu := u_le hF
  have hut := u_tiny hs
  have hu' : (1 : ℝ) / 2 ^ (F.s + 1) ≤ 1 / 1000000 := hu.trans (by norm_num)
  have hT0 : 0 < T := by linarith
  obtain ⟨b1, b2⟩ := Rl.bounds hT hT0
  have t0 : 1.998 ≤ τ := by nlinarith
  have hi0 : 0 < 1 / τ := by positivity
  have hi1 : 1 / τ ≤ 0.501 := by rw [div_le_iff₀ (by linarith)]; linarith
  obtain ⟨r, hr, er⟩ := GFv.rnd hF (hK.one.divR N ht (by linarith)) (by rw [abs_of_pos hi0]; exact hi1.trans (by norm_num))
  rw [abs_of_pos hi0] at er
  have er' : |r - 1 / τ| ≤ 1 / 2 ^ (F.s + 1) * (1 / τ) + 1 / 2 ^ (F.s + 1) / 2 ^ 20 := by
    refine er.trans ?_
    have : (1 : ℝ) / 2 ^ 150 ≤ 1 / 2 ^ 53 / 2 ^ 20 := by norm_num
    have h3 : (1 : ℝ) / 2 ^ 53 / 2 ^ 20 ≤ 1 / 2 ^ (F.s + 1) / 2 ^ 20 := div_le_div_of_nonneg_right hut (by positivity)
    linarith
  have hrb : -0.01 ≤ r ∧ r ≤ 0.51 := by
    have h3 : (1 : ℝ) / 2 ^ (F.s + 1) / 2 ^ 20 ≤ 1 / 1000000 := by
      rw [div_le_iff₀ (by positivity)]; linarith
    rw [abs_le] at er'
    constructor <;> nlinarith [er'.1, er'.2]
  have hR := ht.addR N hr
  have hpos : 0 < τ + r := by linarith [hrb.1]
  obtain ⟨s, hs', es⟩ := rrBig hF hR (lo_of (le_trans (by norm_num) (show (1 : ℝ) ≤ τ + r by linarith [hrb.1]))) (by
    rw [abs_of_pos hpos]
    refine lt_of_le_of_lt ?_ h2
    nlinarith [hrb.2])
  have hres := cMid_real hu0 hu h1 hT er' es
  obtain ⟨sb1, sb2⟩ := Rl.bounds es hpos
  have s1 : 1 ≤ s := by nlinarith [hrb.1]
  refine ⟨s / 2, ?_, hres⟩
  have : s / 2 = s * 2 ^ (-1 : ℤ) := by rw [zpow_neg, zpow_one]; ring
  rw [this]
  refine dblX hF hs' ?_ (by norm_num) ?_ ?_
  · rw [abs_of_pos (by linarith)]; exact le_trans (by norm_num) s1
  · have := hK.half.mulR N hs'
    rw [zpow_neg, zpow_one, mul_comm, ← one_div]; exact this
  · rw [← this, abs_of_pos (by linarith)]
    refine lt_of_le_of_lt ?_ h2
    nlinarith [hrb.2]

/-- multiplication by `±1/2` -/
theorem half_mul (hF : F.Big) {h y : BitVec F.w} {σ Y : ℝ} (N : FPU F) (hh : GFv F h σ) (hσ : σ = 1 / 2 ∨ σ = -(1 / 2)) (hy : GFv F y Y) (lo : 1 / 2 ^ 60 ≤ |Y|) :
    GFv F (N.mul h y) (σ * Y) := by
  have hYb : |Y| < 2 ^ ((F.bias : ℤ) + 1) := by
    rw [hy.abs_eq, ← F.magValR_infRep, F.magValR_lt_iff]; exact hy.fin
  have hR := hh.mulR N hy
  rcases hσ with rfl | rfl
  · have e : 1 / 2 * Y = Y * 2 ^ (-1 : ℤ) := by rw [zpow_neg, zpow_one]; ring
    rw [e] at hR ⊢
    refine dblX hF hy lo (by norm_num) hR ?_
    rw [abs_mul]
    norm_num
    linarith [abs_nonneg Y]
  · have e : -(1 / 2) * Y = (-Y) * 2 ^ (-1 : ℤ) := by rw [zpow_neg, zpow_one]; ring
    rw [e] at hR ⊢
    refine dblX hF hy.neg (by rwa [abs_neg]) (by norm_num) hR ?_
    rw [abs_mul, abs_neg]
    norm_num
    linarith [abs_nonneg Y]

theorem fin_sgn {σ V S u : ℝ} (hσ : σ = 1 / 2 ∨ σ = -(1 / 2)) (h : |V - S| ≤ u * S) : |σ * V - σ * S| ≤ u * (S / 2) := by
  rw [← mul_sub, abs_mul]
  have : |σ| = 1 / 2 := by rcases hσ with rfl | rfl <;> norm_num
  rw [this]; linarith

theorem sSmall_spec (hF : F.Big) (hK : COk F K R) (N : FPU F) {h : BitVec F.w} {σ : ℝ} (hh : GFv F h σ) (hσ : σ = 1 / 2 ∨ σ = -(1 / 2)) (ht : GFv F t τ) (hT : Rl (2 * (1 / 2 ^ (F.s + 1))) τ T)
    (h1 : 1 / 2 ^ 30 ≤ T) (h2 : T ≤ 1.7184) :
    ∃ V, GFv F (sSmall N K h t) V ∧ |V - σ * (T + T / (T + 1))| ≤ 4.45 * (1 / 2 ^ (F.s + 1)) * ((T + T / (T + 1)) / 2) := by
  have hu0 := u_pos F
  have hu := u_le hF
  have hu' : (1 : ℝ) / 2 ^ (F.s + 1) ≤ 1 / 1000000 := hu.trans (by norm_num)
  have hT0 : 0 < T := lt_of_lt_of_le (by norm_num) h1
  obtain ⟨t0, t1⟩ := t_sq hu0 hu hT h1
  have t1' : τ ≤ 1.73 := by linarith
  have t0' : 0 < τ := lt_of_lt_of_le (by norm_num) t0
  have e62 : (1 : ℝ) / 2 ^ 31 * (1 / 2 ^ 31) = 1 / 2 ^ 62 := by norm_num
  have p0 : 1 / 2 ^ 62 ≤ τ * τ := by rw [← e62]; exact mul_le_mul t0 t0 (by positivity) t0'.le
  have p1 : τ * τ ≤ 3 := by nlinarith
  obtain ⟨p, hp, ep⟩ := rr hF (ht.mulR N ht) (lo_of (le_trans (by norm_num) p0)) (by rw [abs_of_pos (by positivity)]; exact p1.trans (by norm_num))
  obtain ⟨d, hd, ed⟩ := rr hF (ht.addR N hK.one) (lo_of (le_trans (by norm_num) (show (1 : ℝ) ≤ τ + 1 by linarith))) (by rw [abs_of_pos (by linarith)]; linarith)
  have ht2 : GFv F (N.mul K.two t) (τ * 2 ^ (1 : ℤ)) := by
    refine dblX hF ht ?_ (by norm_num) ?_ (big_of hF ?_)
    · rw [abs_of_pos t0']; exact le_trans (by norm_num) t0
    · have := hK.two.mulR N ht
      rw [zpow_one, mul_comm]; exact this
    · rw [zpow_one, abs_of_pos (by linarith)]; linarith
  rw [zpow_one, mul_comm] at ht2
  have hg0 : 0 < τ * τ / (τ + 1) := by positivity
  have g0 : 1 / 2 ^ 65 ≤ τ * τ / (τ + 1) := by
    rw [le_div_iff₀ (by linarith)]
    refine le_trans ?_ p0
    have : (1 : ℝ) / 2 ^ 62 = 1 / 2 ^ 65 * 8 := by norm_num
    rw [this]
    exact mul_le_mul_of_nonneg_left (by linarith) (by positivity)
  have g1 : τ * τ / (τ + 1) ≤ τ := by rw [div_le_iff₀ (by linarith)]; nlinarith
  obtain ⟨q, hq, eq⟩ := div_rnd hF hu0.le hu N hp hd ep ed (by linarith) (by rw [abs_of_pos hg0]; exact le_trans (by norm_num) g0)
    (by rw [abs_of_pos hg0]; exact g1.trans (t1'.trans (by norm_num))) rfl
  have eq' : Rl (3.01 * (1 / 2 ^ (F.s + 1))) q (τ * τ / (τ + 1)) := eq.mono (by linarith)
  obtain ⟨qb1, qb2⟩ := Rl.bounds eq' hg0
  have hlo : 0.9 * τ ≤ 2 * τ - q := by nlinarith
  have hhi : 2 * τ - q ≤ 4 := by nlinarith
  have hlo' : 1 / 2 ^ 32 ≤ 2 * τ - q := by
    refine le_trans ?_ hlo
    have : (1 : ℝ) / 2 ^ 32 = 1 / 2 ^ 31 / 2 := by norm_num
    linarith
  obtain ⟨V, hV, eV⟩ := rr hF (ht2.subR N hq) (lo_of (le_trans (by norm_num) hlo')) (by rw [abs_of_pos (by linarith)]; linarith)
  have hr := sSmall_real hu0 hu hT0 h2 hT eq' eV
  obtain ⟨vb1, vb2⟩ := Rl.bounds eV (show 0 < 2 * τ - q by linarith)
  have hVlo : 1 / 2 ^ 60 ≤ |V| := by
    refine le_trans ?_ (le_abs_self V)
    have : (1 : ℝ) / 2 ^ 60 ≤ 1 / 2 ^ 32 / 2 := by norm_num
    nlinarith
  exact ⟨_, half_mul hF N hh hσ hV hVlo, fin_sgn hσ hr⟩

theorem sMid_spec (hF : F.Big) (hK : COk F K R) (N : FPU F) {h : BitVec F.w} {σ : ℝ} (hh : GFv F h σ) (hσ : σ = 1 / 2 ∨ σ = -(1 / 2)) (ht : GFv F t τ) (hT : Rl (2 * (1 / 2 ^ (F.s + 1))) τ T)
    (h1 : 1.718 ≤ T) (h2 : Room F T) :
    ∃ V, GFv F (sMid N K h t) V ∧ |V - σ * (T + T / (T + 1))| ≤ 4.45 * (1 / 2 ^ (F.s + 1)) * ((T + T / (T + 1)) / 2) := by
  have hu0 := u_pos F
  have hu := u_le hF
  have hu' : (1 : ℝ) / 2 ^ (F.s + 1) ≤ 1 / 1000000 := hu.trans (by norm_num)
  have hT0 : 0 < T := by linarith
  obtain ⟨b1, b2⟩ := Rl.bounds hT hT0
  have t0 : 1.717 ≤ τ := by nlinarith
  unfold Room at h2
  obtain ⟨d, hd, ed⟩ := rrBig hF (ht.addR N hK.one) (lo_of (le_trans (by norm_num) (show (1 : ℝ) ≤ τ + 1 by linarith))) (by
    rw [abs_of_pos (by linarith)]
    refine lt_of_le_of_lt ?_ h2
    nlinarith)
  have hg0 : 0 < τ / (τ + 1) := by positivity
  have g0 : 1 / 2 ≤ τ / (τ + 1) := by rw [le_div_iff₀ (by linarith)]; linarith
  have g1 : τ / (τ + 1) ≤ 1 := by rw [div_le_one (by linarith)]; linarith
  obtain ⟨q, hq, eq⟩ := div_rnd hF le_rfl (by norm_num) N ht hd (Rl.refl τ) ed (by linarith) (by rw [abs_of_pos hg0]; exact le_trans (by norm_num) g0)
    (by rw [abs_of_pos hg0]; exact g1.trans (by norm_num)) rfl
  have eq' : Rl (2.01 * (1 / 2 ^ (F.s + 1))) q (τ / (τ + 1)) := eq.mono (by linarith)
  obtain ⟨qb1, qb2⟩ := Rl.bounds eq' hg0
  have q0 : 0.4 ≤ q := by nlinarith
  have q1 : q ≤ 1 + 2.01 * (1 / 2 ^ (F.s + 1)) := by nlinarith
  obtain ⟨V, hV, eV⟩ := rrBig hF (ht.addR N hq) (lo_of (le_trans (by norm_num) (show (1 : ℝ) ≤ τ + q by linarith))) (by
    rw [abs_of_pos (by linarith)]
    refine lt_of_le_of_lt ?_ h2
    nlinarith)
  have hr := sMid_real hu0 hu h1 hT eq' eV
  obtain ⟨vb1, vb2⟩ := Rl.bounds eV (show 0 < τ + q by linarith)
  have hVlo : 1 / 2 ^ 60 ≤ |V| := by
    refine le_trans ?_ (le_abs_self V)
    exact le_trans (by norm_num) (show (1 : ℝ) ≤ V by nlinarith)
  exact ⟨_, half_mul hF N hh hσ hV hVlo, fin_sgn hσ hr⟩

theorem tA_spec (hF : F.Big) (hK : COk F K R) (N : FPU F) (ht : GFv F t τ) (hT : Rl (2 * (1 / 2 ^ (F.s + 1))) τ T) (h1 : 1.99 ≤ T) (h2 : T ≤ 2 ^ 80) :
    ∃ V, GFv F (tA N K t) V ∧ |V - T / (T + 2)| ≤ 4.6 * (1 / 2 ^ (F.s + 1)) * (T / (T + 2)) ∧ V ≤ 1 := by
  have hu0 := u_pos F
  have hu := u_le hF
  have hu' : (1 : ℝ) / 2 ^ (F.s + 1) ≤ 1 / 1000000 := hu.trans (by norm_num)
  have hT0 : 0 < T := by linarith
  obtain ⟨b1, b2⟩ := Rl.bounds hT hT0
  have t0 : 1.989 ≤ τ := by nlinarith
  have t1 : τ ≤ 2 ^ 81 := by
    have : (2 : ℝ) ^ 81 = 2 * 2 ^ 80 := by norm_num
    rw [this]; nlinarith
  have t2 : τ + 2 ≤ 2 ^ 82 := by
    have : (2 : ℝ) ^ 82 = 2 * 2 ^ 81 := by norm_num
    rw [this]; linarith
  obtain ⟨d, hd, ed⟩ := rr hF (ht.addR N hK.two) (lo_of (le_trans (by norm_num) (show (1 : ℝ) ≤ τ + 2 by linarith))) (by
    rw [abs_of_pos (by linarith)]; exact t2.trans (by norm_num))
  have hg0 : 0 < 2 / (τ + 2) := by positivity
  have g0 : 1 / 2 ^ 90 ≤ 2 / (τ + 2) := by
    rw [le_div_iff₀ (by linarith)]
    have : (1 : ℝ) / 2 ^ 90 * 2 ^ 82 ≤ 2 := by norm_num
    refine le_trans (mul_le_mul_of_nonneg_left t2 (by positivity)) this
  have g1 : 2 / (τ + 2) ≤ 0.6 := by rw [div_le_iff₀ (by linarith)]; linarith
  obtain ⟨q, hq, eq⟩ := div_rnd hF le_rfl (by norm_num) N hK.two hd (Rl.refl 2) ed (by linarith) (by rw [abs_of_pos hg0]; exact g0)
    (by rw [abs_of_pos hg0]; exact g1.trans (by norm_num)) rfl
  have eq' : Rl (2.01 * (1 / 2 ^ (F.s + 1))) q (2 / (τ + 2)) := eq.mono (by linarith)
  obtain ⟨qb1, qb2⟩ := Rl.bounds eq' hg0
  have hq0 : 0 < q := eq'.pos (by linarith) hg0
  have q1 : q ≤ 0.7 := by nlinarith
  have hR := hK.one.subR N hq
  obtain ⟨V, hV, eV⟩ := rr hF hR (lo_of (le_trans (by norm_num) (show (0.3 : ℝ) ≤ 1 - q by linarith))) (by
    rw [abs_of_pos (by linarith)]; linarith)
  refine ⟨V, hV, tA_real hu0 hu h1 hT eq' eV, ?_⟩
  refine hV.le_of_rounds hR ?_ (big_of hF (by norm_num)).le (by linarith)
  rw [← hK.one.val]; exact F.rp_val _

theorem tDiv_spec (hF : F.Big) (hK : COk F K R) (N : FPU F) (ht : GFv F t τ) (hT : Rl (2 * (1 / 2 ^ (F.s + 1))) τ T) (h0 : 1 / 2 ^ 60 ≤ |T|) (h1 : -0.401 ≤ T) (h2 : T ≤ 10) :
    ∃ V, GFv F (tB N K t) V ∧ |V - T / (T + 2)| ≤ 4.6 * (1 / 2 ^ (F.s + 1)) * |T / (T + 2)| := by
  have hu0 := u_pos F
  have hu := u_le hF
  have hu' : (1 : ℝ) / 2 ^ (F.s + 1) ≤ 1 / 1000000 := hu.trans (by norm_num)
  have hT0 : T ≠ 0 := by
    intro h; rw [h, abs_zero] at h0; norm_num at h0
  have hTa : |T| ≤ 10 := by rw [abs_le]; constructor <;> linarith
  have hT' := hT
  unfold Rl at hT'
  have htm : |τ - T| ≤ 0.0001 := by nlinarith [abs_nonneg T]
  rw [abs_le] at htm
  have hta : 1 / 2 ^ 61 ≤ |τ| := by
    have h3 := abs_sub_abs_le_abs_sub T τ
    rw [abs_sub_comm] at h3
    have : (1 : ℝ) / 2 ^ 61 = 1 / 2 ^ 60 / 2 := by norm_num
    rw [this]; nlinarith
  have hta2 : |τ| ≤ 11 := by rw [abs_le]; constructor <;> linarith
  obtain ⟨d, hd, ed⟩ := rr hF (ht.addR N hK.two) (lo_of (le_trans (by norm_num) (show (1 : ℝ) ≤ τ + 2 by linarith))) (by
    rw [abs_of_pos (by linarith)]; linarith)
  have h2p : 0 < τ + 2 := by linarith
  obtain ⟨q, hq, eq⟩ := div_rnd hF le_rfl (by norm_num) N ht hd (Rl.refl τ) ed (by linarith) (by
      rw [abs_div, abs_of_pos h2p, le_div_iff₀ h2p]
      refine le_trans ?_ hta
      have : (1 : ℝ) / 2 ^ 90 * 13 ≤ 1 / 2 ^ 61 := by norm_num
      refine le_trans (mul_le_mul_of_nonneg_left (by linarith) (by positivity)) this) (by
      rw [abs_div, abs_of_pos h2p, div_le_iff₀ h2p]
      nlinarith) rfl
  exact ⟨q, hq, tB_real hu0 hu hT0 h1 (by linarith) hT (eq.mono (by linarith))⟩

/-- `-t / (t + 2)` is `t / (t + 2)` with the other sign -/
theorem tC_spec (hF : F.Big) (hK : COk F K R) (N : FPU F) (ht : GFv F t τ) (hT : Rl (2 * (1 / 2 ^ (F.s + 1))) τ T) (h0 : 1 / 2 ^ 60 ≤ |T|) (h1 : -0.401 ≤ T) (h2 : T ≤ 10) :
    ∃ V, GFv F (tC N K t) V ∧ |V - -(T / (T + 2))| ≤ 4.6 * (1 / 2 ^ (F.s + 1)) * |T / (T + 2)| := by
  have hu0 := u_pos F
  have hu := u_le hF
  have hu' : (1 : ℝ) / 2 ^ (F.s + 1) ≤ 1 / 1000000 := hu.trans (by norm_num)
  have hT0 : T ≠ 0 := by
    intro h; rw [h, abs_zero] at h0; norm_num at h0
  have hTa : |T| ≤ 10 := by rw [abs_le]; constructor <;> linarith
  have hT' := hT
  unfold Rl at hT'
  have htm : |τ - T| ≤ 0.0001 := by nlinarith [abs_nonneg T]
  rw [abs_le] at htm
  have hta : 1 / 2 ^ 61 ≤ |τ| := by
    have h3 := abs_sub_abs_le_abs_sub T τ
    rw [abs_sub_comm] at h3
    have : (1 : ℝ) / 2 ^ 61 = 1 / 2 ^ 60 / 2 := by norm_num
    rw [this]; nlinarith
  have hta2 : |τ| ≤ 11 := by rw [abs_le]; constructor <;> linarith
  obtain ⟨d, hd, ed⟩ := rr hF (ht.addR N hK.two) (lo_of (le_trans (by norm_num) (show (1 : ℝ) ≤ τ + 2 by linarith))) (by
    rw [abs_of_pos (by linarith)]; linarith)
  have h2p : 0 < τ + 2 := by linarith
  obtain ⟨q, hq, eq⟩ := div_rnd hF le_rfl (by norm_num) N ht.neg hd (Rl.refl (-τ)) ed (by linarith) (by
      rw [abs_div, abs_neg, abs_of_pos h2p, le_div_iff₀ h2p]
      refine le_trans ?_ hta
      have : (1 : ℝ) / 2 ^ 90 * 13 ≤ 1 / 2 ^ 61 := by norm_num
      refine le_trans (mul_le_mul_of_nonneg_left (by linarith) (by positivity)) this) (by
      rw [abs_div, abs_neg, abs_of_pos h2p, div_le_iff₀ h2p]
      nlinarith) rfl
  refine ⟨q, hq, ?_⟩
  have e2 : Rl (2.01 * (1 / 2 ^ (F.s + 1))) (-q) (τ / (τ + 2)) := by
    have := (eq.mono (b := 2.01 * (1 / 2 ^ (F.s + 1))) (by linarith)).neg
    rwa [neg_div, _root_.neg_neg] at this
  have h3 := tB_real hu0 hu hT0 h1 (by linarith) hT e2
  rwa [show q - -(T / (T + 2)) = -(-q - T / (T + 2)) by ring, abs_neg]
end Hyper
end Verif
