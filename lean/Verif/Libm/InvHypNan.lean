import Verif.Libm.InvHypCore
import Verif.Libm.Log1pRed
/-! # The inverse hyperbolic functions outside of their domains, and for infinite arguments -/
namespace Verif
open Fmt
namespace InvHyp
open Expm1

/-- the functions called for special arguments -/
structure FnX (F : Fmt) (sq lg l1p : BitVec F.w → M (BitVec F.w)) : Prop where
  sqNan : ∀ z, F.IsNaN z ∨ (F.sign z = true ∧ ¬ F.IsZero z) → Ok (sq z) F.IsNaN
  lgNan : ∀ x, F.IsNaN x ∨ (F.sign x = true ∧ F.mag x ≠ 0) → Ok (lg x) F.IsNaN
  lgInf : ∀ x, F.IsInf x → F.sign x = false → Ok (lg x) fun z => F.IsInf z ∧ F.sign z = false
  l1pNan : ∀ x, F.IsNaN x ∨ (F.IsInf x ∧ F.sign x = true) ∨ (∃ X, GFv F x X ∧ X < -1) → Ok (l1p x) F.IsNaN
  l1pInf : ∀ x, F.IsInf x → F.sign x = false → Ok (l1p x) fun z => F.IsInf z ∧ F.sign z = false

variable {F : Fmt} {K : Cn F} {sq lg l1p : BitVec F.w → M (BitVec F.w)} {ln2 x : BitVec F.w} {X : ℝ}

/-- a number at most a negative power of two rounds to a negative number -/
theorem neg_of (hF : F.Big) {v : ℝ} {r : BitVec F.w} (h : F.Rounds v r) {k : ℤ} (hk : -70 ≤ k) (hk1 : k ≤ 70) (hv : v ≤ -2 ^ k) : F.valK ℝ r ≤ -2 ^ k := by
  have h127 := hF.bias
  have h23 := hF.s
  refine h.le_of F (F.rp_pow (by omega)).neg ?_ hv
  rw [abs_neg, abs_of_pos (by positivity)]
  exact zpow_le_zpow_right₀ (by norm_num) (by omega)

theorem val_of_zero {b : BitVec F.w} {v : ℝ} (h : GFv F b v) (hz : F.mag b = 0) : v = 0 := by
  have := h.abs_eq
  rwa [hz, ← F.magVal_cast, F.magVal_zero, Rat.cast_zero, abs_eq_zero] at this
theorem zero_of_val {b : BitVec F.w} (h : GFv F b 0) : F.mag b = 0 := by
  have := h.abs_eq
  rw [abs_zero, ← F.magVal_cast] at this
  have h3 : F.magVal ℚ (F.mag b) = 0 := by exact_mod_cast this.symm
  rwa [← F.magVal_zero, F.magVal_inj] at h3

/-- … whose sign bit is set -/
theorem sgn_of {b : BitVec F.w} {v : ℝ} (h : GFv F b v) (hv : v < 0) : F.sign b = true ∧ ¬ F.IsZero b := by
  refine ⟨?_, ?_⟩
  · by_contra hc
    have := h.nonneg (by simpa using hc)
    linarith
  · intro hz
    have := val_of_zero h hz
    linarith

/-- the distance of a number from `1` -/
theorem one_sub_min (hs52 : F.s ≤ 52) (hx : GFv F x X) (h0 : 1 / 2 ≤ X) (h1 : X ≠ 1) : (2 : ℝ) ^ (-53 : ℤ) ≤ |X - 1| := by
  have hg : Mul2 (-1 - (F.s : ℤ)) X := by
    have := F.mul2_ge (b := x) (k := -1) (by rw [hx.val, abs_of_pos (by linarith)]; norm_num; linarith)
    rwa [hx.val] at this
  have hg1 : Mul2 (-1 - (F.s : ℤ)) (X - 1) := hg.sub ((show Mul2 0 (1 : ℝ) from ⟨1, by simp⟩).mono (by omega))
  have := Log.mul2_min hg1 (sub_ne_zero.mpr h1)
  refine le_trans ?_ this
  exact zpow_le_zpow_right₀ (by norm_num) (by omega)

/-- the square root in the range where the argument of the logarithm is not a NaN -/
theorem nan_root {u w a p T τ : ℝ} (hu : u ≤ 1 / 1000000) (ha1 : a ≤ 3.001) (h19 : 1.9 ≤ a) (hw : w ≤ 0.00001 * a + 0.0001) (hpb : p + -(2 * a) ≤ 0.01 + 3)
    (hpl : -7 ≤ p + -(2 * a)) (ep : p - a * a ≤ w + τ) (eT : |T - (p + -(2 * a))| ≤ u * |p + -(2 * a)| + τ) (hτ : τ ≤ 1 / 2 ^ 60 / 1000000) : Real.sqrt T ≤ a - 1.24 := by
  have h3 : |p + -(2 * a)| ≤ 10 := by rw [abs_le]; constructor <;> linarith
  have h4 : u * |p + -(2 * a)| ≤ 1 / 1000000 * 10 := mul_le_mul hu h3 (abs_nonneg _) (by norm_num)
  have h5 := (abs_le.mp eT).2
  norm_num at hτ h4
  have hT1 : T ≤ a * a - 2 * a + 0.001 := by linarith
  rw [Real.sqrt_le_left (by linarith)]
  nlinarith
theorem nan_S {u a S σ τ : ℝ} (hu : u ≤ 1 / 1000000) (ha1 : a ≤ 3.001) (h0 : 0 ≤ σ) (h1 : σ ≤ a - 1.24) (eS : |S - σ| ≤ u * σ + τ) (hτ : τ ≤ 1 / 2 ^ 60 / 1000000) : -0.01 ≤ S ∧ S ≤ a - 1.23 := by
  have h4 : u * σ ≤ 1 / 1000000 * 10 := mul_le_mul hu (by linarith) h0 (by norm_num)
  rw [abs_le] at eS
  norm_num at hτ h4 ⊢
  constructor <;> linarith [eS.1, eS.2]
theorem nan_V {u a S V τ : ℝ} (hu : u ≤ 1 / 1000000) (ha1 : a ≤ 3.001) (h0 : -0.01 ≤ S) (h1 : S ≤ a - 1.23) (eV : |V - (-a + S)| ≤ u * |-a + S| + τ) (hτ : τ ≤ 1 / 2 ^ 60 / 1000000) : V < -1 := by
  have h3 : |-a + S| ≤ 10 := by rw [abs_le]; constructor <;> linarith
  have h4 : u * |-a + S| ≤ 1 / 1000000 * 10 := mul_le_mul hu h3 (abs_nonneg _) (by norm_num)
  have h5 := (abs_le.mp eV).2
  norm_num at hτ h4
  linarith

theorem acSmall_nan (H : Fn F K sq lg l1p ln2) (HX : FnX F sq lg l1p) (N : FPU F) (hs52 : F.s ≤ 52) (hx : GFv F x X) (h0 : -2 ≤ X) (h1 : X < 1) : Ok (acSmall N K sq l1p x) F.IsNaN := by
  have hF := H.big
  have hu0 := Expm1.u_pos F
  have hu' : (1 : ℝ) / 2 ^ (F.s + 1) ≤ 1 / 1000000 := (Expm1.u_le hF).trans (by norm_num)
  have hd : (2 : ℝ) ^ (-53 : ℤ) ≤ 1 - X := by
    by_cases h : 1 / 2 ≤ X
    · have := one_sub_min hs52 hx h h1.ne
      rwa [abs_of_neg (by linarith), neg_sub] at this
    · rw [not_le] at h
      norm_num
      linarith
  have hR := hx.subR N H.one
  have hneg := neg_of hF hR (k := -53) (by norm_num) (by norm_num) (by linarith)
  obtain ⟨x1, g1, e1⟩ := GFv.rnd hF hR (by rw [abs_of_neg (by linarith)]; norm_num; linarith)
  rw [g1.val] at hneg
  obtain ⟨b, hb⟩ : ∃ b, b = N.sub x K.one := ⟨_, rfl⟩
  rw [← hb] at g1
  have t150 : (1 : ℝ) / 2 ^ 150 ≤ 1 / 2 ^ 60 / 1000000 := by norm_num
  have m53 : (2 : ℝ) ^ (-53 : ℤ) = 1 / 2 ^ 53 := by rw [zpow_neg, one_div]; norm_cast
  rw [m53] at hneg
  have p60 : (0 : ℝ) < 1 / 2 ^ 60 := by positivity
  have e60 : (1 : ℝ) / 2 ^ 53 = 128 * (1 / 2 ^ 60) := by norm_num
  have c60 : (1 : ℝ) / 2 ^ 60 ≤ 1 / 1000000 := by norm_num
  rw [e60] at hneg
  rw [abs_of_neg (by linarith : X - 1 < 0)] at e1
  obtain ⟨a, ha⟩ : ∃ a, x1 = -a := ⟨-x1, by ring⟩
  subst ha
  have ha0 : 128 * (1 / 2 ^ 60) ≤ a := by linarith
  have ha1 : a ≤ 3.001 := by
    have := (abs_le.mp e1).1
    nlinarith
  have hap : 0 < a := by linarith
  have hp := g1.mulR N g1
  rw [neg_mul_neg] at hp
  have haa : a * a ≤ 10 := by nlinarith
  obtain ⟨p, gp, ep⟩ := GFv.rnd hF hp (by rw [abs_of_pos (by positivity)]; refine haa.trans (by norm_num))
  rw [abs_of_pos (show 0 < a * a by positivity)] at ep
  have gq : GFv F (N.mul K.two b) (-(2 * a)) := by
    have := Expm1.dblX hF g1 (k := 1) (z := N.mul K.two b) (by rw [abs_neg, abs_of_pos hap]; linarith) (by norm_num) (by rw [zpow_one, mul_comm]; exact H.two.mulR N g1)
      (Expm1.big_of hF (by rw [zpow_one, abs_of_neg (by linarith)]; linarith))
    exact this.cast (by rw [zpow_one]; ring)
  have hT := gp.addR N gq
  generalize (1 : ℝ) / 2 ^ (F.s + 1) = u at *
  rw [abs_le] at ep
  have hua : u * (a * a) ≤ 0.00001 * a := by
    have : u * a ≤ 0.00001 := by nlinarith
    nlinarith
  have hpb : p + -(2 * a) ≤ 0.01 + 3 := by nlinarith
  have hpl : -7 ≤ p + -(2 * a) := by nlinarith
  obtain ⟨T, gT, eT⟩ := GFv.rnd hF hT (by
    rw [abs_le]; constructor
    · refine le_trans (by norm_num) hpl
    · exact hpb.trans (by norm_num))
  have nanCase : T < 0 → Ok (acSmall N K sq l1p x) F.IsNaN := by
    intro h
    obtain ⟨s, es, ns⟩ := HX.sqNan _ (Or.inr (sgn_of gT h))
    obtain ⟨z, ez, nz⟩ := HX.l1pNan _ (Or.inl ((N.add_spec b s).2.1 (Or.inr ns)))
    refine ⟨z, ?_, nz⟩
    unfold acSmall
    rw [← hb]
    dsimp only
    rw [es]; exact ez
  by_cases h19 : a < 1.9
  · apply nanCase
    have hk : p + -(2 * a) ≤ -2 ^ (-60 : ℤ) := by
      rw [show (2 : ℝ) ^ (-60 : ℤ) = 1 / 2 ^ 60 by rw [zpow_neg, one_div]; norm_cast]
      generalize (1 : ℝ) / 2 ^ 60 = P at *
      have : a * a ≤ 1.9 * a := by nlinarith
      linarith [ep.2]
    have := neg_of hF hT (k := -60) (by norm_num) (by norm_num) hk
    rw [gT.val] at this
    have h2 : (0 : ℝ) < 2 ^ (-60 : ℤ) := by positivity
    linarith
  · rw [not_lt] at h19
    by_cases h : T < 0
    · exact nanCase h
    · rw [not_lt] at h
      obtain ⟨s, es, hs⟩ := H.sq _ T gT h
      have hun : (1 : ℝ) / 2 ^ (F.s + 1) ≤ 1 / 1000000 := (Expm1.u_le hF).trans (by norm_num)
      have hs0 := Real.sqrt_nonneg T
      have hroot := nan_root hun ha1 h19 (by linarith : u * (a * a) ≤ 0.00001 * a + 0.0001) hpb hpl ep.2 eT t150
      obtain ⟨S, gS, eS⟩ := GFv.rnd hF hs (by rw [abs_of_nonneg hs0]; refine le_trans hroot (le_trans (show a - 1.24 ≤ 10 by linarith) (by norm_num)))
      rw [abs_of_nonneg hs0] at eS
      obtain ⟨hS0, hS1⟩ := nan_S hun ha1 hs0 hroot eS t150
      have hV := g1.addR N gS
      obtain ⟨V, gV, eV⟩ := GFv.rnd hF hV (by
        rw [abs_le]; constructor
        · exact le_trans (by norm_num) (show -10 ≤ -a + S by linarith)
        · exact le_trans (show -a + S ≤ 10 by linarith) (by norm_num))
      have hV1 := nan_V hun ha1 hS0 hS1 eV t150
      obtain ⟨z, ez, nz⟩ := HX.l1pNan _ (Or.inr (Or.inr ⟨V, gV, hV1⟩))
      refine ⟨z, ?_, nz⟩
      unfold acSmall
      rw [← hb]
      dsimp only
      rw [es]; exact ez

/-- what rounds to `-2` or below has no `log1p` -/
theorem l1p_neg (hF : F.Big) (HX : FnX F sq lg l1p) {v : ℝ} {r : BitVec F.w} (h : F.Rounds v r) (hv : v ≤ -2) : Ok (l1p r) F.IsNaN := by
  have h1 := neg_of hF h (k := 1) (by norm_num) (by norm_num) (by rw [zpow_one]; exact hv)
  rw [zpow_one] at h1
  by_cases hf : F.IsFin r
  · exact HX.l1pNan _ (Or.inr (Or.inr ⟨_, GFv.self hf, by linarith⟩))
  · refine HX.l1pNan _ (Or.inr (Or.inl ⟨?_, (h.2 (by linarith)).mpr (by linarith)⟩))
    have := h.1.1
    unfold Fmt.IsFin at hf
    unfold Fmt.IsInf
    omega

theorem atBig_nan (H : Fn F K sq lg l1p ln2) (HX : FnX F sq lg l1p) (N : FPU F) (hs52 : F.s ≤ 52) (hx : GFv F x X) (h1 : 1 < X) : Ok (atBig N K l1p x) F.IsNaN := by
  have hF := H.big
  have h127 := hF.bias
  have hm := one_sub_min hs52 hx (by linarith) h1.ne'
  rw [abs_of_pos (by linarith)] at hm
  have hR := H.one.subR N hx
  have hXb : X < 2 ^ ((F.bias : ℤ) + 1) := by
    have := hx.fin
    rw [← abs_of_pos (show 0 < X by linarith), hx.abs_eq, ← F.magValR_infRep, F.magValR_lt_iff]; exact this
  have hrX : F.Rp X := by rw [← hx.val]; exact F.rp_val x
  have d1 := neg_of hF hR (k := -53) (by norm_num) (by norm_num) (by linarith)
  have d2 : -X ≤ F.valK ℝ (N.sub K.one x) := hR.ge_of F hrX.neg (by rw [abs_neg, abs_of_pos (by linarith)]; exact hXb.le) (by linarith)
  have dneg : F.valK ℝ (N.sub K.one x) < 0 := lt_of_le_of_lt d1 (by rw [neg_lt_zero]; positivity)
  have dfin : F.IsFin (N.sub K.one x) := by
    have h3 : |F.valK ℝ (N.sub K.one x)| < 2 ^ ((F.bias : ℤ) + 1) := by rw [abs_of_neg dneg]; linarith
    rwa [F.absvR, ← F.magValR_infRep, F.magValR_lt_iff] at h3
  have gd := GFv.self dfin
  obtain ⟨d, hd⟩ : ∃ d, d = -F.valK ℝ (N.sub K.one x) := ⟨_, rfl⟩
  have hde : F.valK ℝ (N.sub K.one x) = -d := by rw [hd]; ring
  rw [hde] at gd d1 d2 dneg
  have hQ := hx.divR N gd dneg.ne
  have q1 : X / -d ≤ -1 := by
    rw [div_neg, neg_le_neg_iff, le_div_iff₀ (by linarith)]; linarith
  have hq := neg_of hF hQ (k := 0) (by norm_num) (by norm_num) (by rw [zpow_zero]; exact q1)
  rw [zpow_zero] at hq
  have qfin : F.IsFin (N.div x (N.sub K.one x)) := by
    by_cases h2 : X ≤ 2
    · refine hQ.fin100 hF ?_
      rw [div_neg, abs_neg, abs_of_pos (div_pos (by linarith) (by linarith)), div_le_iff₀ (by linarith)]
      have h3 : (2 : ℝ) ^ (-53 : ℤ) * 2 ^ (100 : ℤ) = 2 ^ (47 : ℤ) := by rw [← zpow_add₀ (by norm_num)]; norm_num
      have h4 : (2 : ℝ) ^ (-53 : ℤ) * 2 ^ (100 : ℤ) ≤ d * 2 ^ (100 : ℤ) := mul_le_mul_of_nonneg_right (by linarith) (by positivity)
      rw [h3] at h4
      rw [mul_comm]
      refine h2.trans (le_trans (show (2 : ℝ) ≤ 2 ^ (47 : ℤ) by norm_num) h4)
    · rw [not_le] at h2
      have d3 := neg_of hF hR (k := 0) (by norm_num) (by norm_num) (by rw [zpow_zero]; linarith)
      rw [zpow_zero, hde] at d3
      have q2 : -X ≤ X / -d := by
        rw [div_neg, neg_le_neg_iff, div_le_iff₀ (by linarith)]
        nlinarith
      have q3 := hQ.ge_of F hrX.neg (by rw [abs_neg, abs_of_pos (by linarith)]; exact hXb.le) q2
      have h3 : |F.valK ℝ (N.div x (N.sub K.one x))| < 2 ^ ((F.bias : ℤ) + 1) := by rw [abs_of_neg (by linarith)]; linarith
      rwa [F.absvR, ← F.magValR_infRep, F.magValR_lt_iff] at h3
  obtain ⟨z, ez, nz⟩ := l1p_neg hF HX (H.two.mulR N (GFv.self qfin)) (by linarith)
  exact ⟨_, by unfold atBig; rw [ez]; rfl, (N.mul_spec _ _).2.1 (Or.inr nz)⟩

/-- for a NaN and for infinity -/
theorem atBig_special (H : Fn F K sq lg l1p ln2) (HX : FnX F sq lg l1p) (N : FPU F) (h : F.IsNaN x ∨ F.IsInf x) : Ok (atBig N K l1p x) F.IsNaN := by
  have hq : F.IsNaN (N.div x (N.sub K.one x)) := by
    rcases h with h | h
    · exact (N.div_spec _ _).2.1 (Or.inl h)
    · have h1 : N.sub K.one x = F.neg x := (N.sub_spec K.one x).2.2.2 H.one.fin (F.isInf_neg.mpr h)
      rw [h1]
      have hn : F.IsInf (F.neg x) := F.isInf_neg.mpr h
      have := (N.div_spec x (F.neg x)).2.2 (h.not_nan F) (hn.not_nan F) (Or.inl h)
      rwa [if_pos (Or.inl ⟨h, hn⟩)] at this
  obtain ⟨z, ez, nz⟩ := HX.l1pNan _ (Or.inl ((N.mul_spec K.two _).2.1 (Or.inr hq)))
  exact ⟨_, by unfold atBig; rw [ez]; rfl, (N.mul_spec _ _).2.1 (Or.inr nz)⟩

/-- the number `1` -/
theorem atBig_one (H : Fn F K sq lg l1p ln2) (HX : FnX F sq lg l1p) (N : FPU F) (hx : GFv F x 1) : Ok (atBig N K l1p x) fun z => F.IsInf z ∧ F.sign z = false := by
  have s1 := hx.sign_of_pos one_pos
  have sK := H.one.sign_of_pos one_pos
  have n1 : ¬ F.IsZero x := by
    intro hz
    have := val_of_zero hx hz
    linarith
  have e0 : F.val K.one + F.val (F.neg x) = 0 := by
    have h2 := H.one.valQ
    have h3 := hx.neg.valQ
    have : ((F.val K.one + F.val (F.neg x) : ℚ) : ℝ) = 0 := by push_cast; rw [h2, h3]; ring
    exact_mod_cast this
  have h0 := (N.sub_spec K.one x).1 H.one.fin hx.neg.fin
  have hz : GFv F (N.sub K.one x) 0 := by
    have := hx.subR N hx
    have hR := H.one.subR N hx
    rw [sub_self] at hR
    have hv := hR.exactR F F.rp_zero (by rw [abs_zero]; positivity)
    refine ⟨?_, hv⟩
    have h3 : |F.valK ℝ (N.sub K.one x)| < 2 ^ ((F.bias : ℤ) + 1) := by rw [hv, abs_zero]; positivity
    rwa [F.absvR, ← F.magValR_infRep, F.magValR_lt_iff] at h3
  have hzm : F.IsZero (N.sub K.one x) := zero_of_val hz
  have hs0 := h0.2 e0
  rw [sK] at hs0
  have hq := (N.div_spec x (N.sub K.one x)).2.2 hx.not_nan hz.not_nan (Or.inr (Or.inr hzm))
  have hni : ∀ {b : BitVec F.w}, F.IsFin b → ¬ F.IsInf b := fun h h' => by unfold Fmt.IsFin Fmt.IsInf at *; omega
  rw [if_neg (by rintro (h | h); exacts [hni hx.fin h.1, n1 h.1]), if_neg (hni hz.fin), s1, hs0] at hq
  have nz2 : ∀ {b : BitVec F.w} {v : ℝ}, GFv F b v → v ≠ 0 → ¬ F.IsZero b := by
    intro b v hb hv h
    exact hv (val_of_zero hb h)
  have inz : ∀ {b : BitVec F.w}, F.IsInf b → ¬ F.IsZero b := by
    intro b h h'
    have := hx.fin
    unfold Fmt.IsFin at this
    unfold Fmt.IsInf at h
    unfold Fmt.IsZero at h'
    omega
  have mulInf : ∀ {a b : BitVec F.w} {v : ℝ}, GFv F a v → 0 < v → F.IsInf b → F.sign b = false → F.IsInf (N.mul a b) ∧ F.sign (N.mul a b) = false := by
    intro a b v ha hv hb hsb
    have := (N.mul_spec a b).2.2 ha.not_nan (hb.not_nan F) (Or.inr hb)
    rw [if_neg (by rintro (h | h); exacts [nz2 ha hv.ne' h, inz hb h]), ha.sign_of_pos hv, hsb] at this
    exact this
  obtain ⟨m1, m2⟩ := mulInf H.two (by norm_num) hq.2 (by rw [hq.1]; rfl)
  obtain ⟨z, ez, z1, z2⟩ := HX.l1pInf _ m1 m2
  exact ⟨_, by unfold atBig; rw [ez]; rfl, mulInf H.half (by norm_num) z1 z2⟩

/-- `log(x) + LN2` for special arguments -/
theorem big_nan (HX : FnX F sq lg l1p) (N : FPU F) (h : F.IsNaN x ∨ (F.sign x = true ∧ F.mag x ≠ 0)) : Ok (big N lg ln2 x) F.IsNaN := by
  obtain ⟨z, ez, nz⟩ := HX.lgNan _ h
  exact ⟨_, by unfold big; rw [ez]; rfl, (N.add_spec _ _).2.1 (Or.inl nz)⟩
theorem big_inf (H : Fn F K sq lg l1p ln2) (HX : FnX F sq lg l1p) (N : FPU F) (h : F.IsInf x) (hs : F.sign x = false) : Ok (big N lg ln2 x) fun z => F.IsInf z ∧ F.sign z = false := by
  obtain ⟨z, ez, z1, z2⟩ := HX.lgInf _ h hs
  obtain ⟨v, gv, -⟩ := H.ln2
  have h1 := (N.add_spec z ln2).2.2.1 z1 gv.not_nan
  rw [if_neg (by rintro ⟨h, -⟩; have := gv.fin; unfold Fmt.IsFin at this; unfold Fmt.IsInf at h; omega)] at h1
  exact ⟨_, by unfold big; rw [ez]; rfl, by rw [h1]; exact ⟨z1, z2⟩⟩
end InvHyp
end Verif
