import Verif.Libm.PowLogD
import Verif.Libm.Log2Main

/-! The logarithm of `pow`: constants and the sum with the exponent. -/
namespace Verif
open Fmt
namespace Power
namespace Dbl
open Ex
local notation "W" => BitVec f64.w
local macro "bnd" h:term,* : tactic => `(tactic| (simp only [sv, if_true, Bool.false_eq_true, if_false, mul_one]; push_cast; linarith only [$h,*]))

theorem log15_near : |Real.log (3 / 2) - 0.405465108108164381978| ≤ 1 / 10 ^ 20 := by
  have h := Poly.log_rat (P := Poly.logL) (B := 0) (n := 0) (by decide +kernel) (f := 1 / 8) (s := 1 / 17) (by norm_num) (by norm_num) (by rw [abs_of_pos (by norm_num)]; norm_num)
  have e : 2 * Real.log (3 / 2) = Real.log 2 + Real.log (1 + 1 / 8) := by
    rw [← Real.log_mul (by norm_num) (by norm_num), show (2 : ℝ) * (1 + 1 / 8) = (3 / 2) ^ 2 by norm_num, Real.log_pow]; push_cast; ring
  have h2 := Poly.ln2_gt
  have h3 := Poly.ln2_lt
  unfold Poly.ln2L at h2
  unfold Poly.ln2H at h3
  push_cast at h2 h3
  simp only [Poly.ev, Poly.logL] at h
  rw [abs_of_pos (show (0 : ℝ) < 1 / 17 by norm_num)] at h
  rw [abs_le] at h ⊢
  push_cast at h
  norm_num at h h2 h3 ⊢
  constructor <;> linarith [h.1, h.2]

/-- `2 / (3 log 2)` -/
noncomputable def C2 : ℝ := 2 / (3 * Real.log 2)

theorem C2_of {q δ : ℝ} (hq : |q * (3 / 2) * 0.693147180559945309417 - 1| ≤ δ) (hq2 : |q| ≤ 2) : |q - C2| ≤ (δ + 1 / 10 ^ 19) * 1.5 := by
  have h2 := Log2.ln2_near
  have hl : 0.69 ≤ Real.log 2 := by rw [abs_le] at h2; norm_num at h2 ⊢; linarith [h2.1]
  have e : q - C2 = (q * (3 / 2) * Real.log 2 - 1) * (2 / (3 * Real.log 2)) := by unfold C2; field_simp
  rw [e, abs_mul, abs_of_pos (show 0 < 2 / (3 * Real.log 2) by positivity)]
  have h3 : 2 / (3 * Real.log 2) ≤ 1.5 := by rw [div_le_iff₀ (by positivity)]; norm_num at hl ⊢; linarith
  refine mul_le_mul ?_ h3 (by positivity) ?_
  · have e2 : q * (3 / 2) * Real.log 2 - 1 = (q * (3 / 2) * 0.693147180559945309417 - 1) + q * (3 / 2) * (Real.log 2 - 0.693147180559945309417) := by ring
    rw [e2]
    have m : |q * (3 / 2) * (Real.log 2 - 0.693147180559945309417)| ≤ 3 * (1 / 10 ^ 20) := by
      refine mulB ?_ h2
      rw [abs_mul, abs_of_pos (show (0 : ℝ) < 3 / 2 by norm_num)]; linarith
    refine (abs_add_le _ _).trans ?_
    norm_num at m hq ⊢; linarith
  · have := (abs_nonneg _).trans hq; positivity

theorem epsR : ((eps : ℚ) : ℝ) = 1 / 2 ^ 53 := by unfold eps; rw [show f64.s + 1 = 53 from rfl]; push_cast; norm_num

theorem cp_near : |((f64.val KD.CP : ℚ) : ℝ) - C2| ≤ (eps : ℚ) := by
  have c : |f64.val KD.CP * (3 / 2) * (693147180559945309417 / 10 ^ 21) - 1| ≤ 6 / 10 * eps ∧ |f64.val KD.CP| ≤ 2 := by decide +kernel
  have c1 := Rat.cast_le (K := ℝ).mpr c.1
  have c2 := Rat.cast_le (K := ℝ).mpr c.2
  push_cast at c1 c2
  refine (C2_of (δ := 6 / 10 * (eps : ℚ)) (by norm_num at c1 ⊢; exact c1) c2).trans ?_
  rw [epsR]; norm_num

theorem cphl_near : |((f64.val KD.CP_H : ℚ) : ℝ) + (f64.val KD.CP_L : ℚ) - C2| ≤ 0.02 * (eps : ℚ) := by
  have c : |(f64.val KD.CP_H + f64.val KD.CP_L) * (3 / 2) * (693147180559945309417 / 10 ^ 21) - 1| ≤ 1 / 100 * eps ∧ |f64.val KD.CP_H + f64.val KD.CP_L| ≤ 2 := by decide +kernel
  have c1 := Rat.cast_le (K := ℝ).mpr c.1
  have c2 := Rat.cast_le (K := ℝ).mpr c.2
  push_cast at c1 c2
  refine (C2_of (δ := 1 / 100 * (eps : ℚ)) (by norm_num at c1 ⊢; exact c1) c2).trans ?_
  rw [epsR]; norm_num

def dh1 : W := KD.DP_H.getD 1 0
def dl1 : W := KD.DP_L.getD 1 0
/-- table entries: `DP_H[1] + DP_L[1]` is `log2 1.5` -/
theorem dp_near : |((f64.val dh1 : ℚ) : ℝ) + (f64.val dl1 : ℚ) - Real.logb 2 (3 / 2)| ≤ 0.02 * (eps : ℚ) := by
  have c : |(f64.val dh1 + f64.val dl1) * (693147180559945309417 / 10 ^ 21) - 405465108108164381978 / 10 ^ 21| ≤ 1 / 100 * eps
      ∧ |f64.val dh1 + f64.val dl1| ≤ 2 := by decide +kernel
  have c1 := Rat.cast_le (K := ℝ).mpr c.1
  have c2 := Rat.cast_le (K := ℝ).mpr c.2
  push_cast at c1 c2
  generalize ((f64.val dh1 : ℚ) : ℝ) + (f64.val dl1 : ℚ) = q at *
  have h2 := Log2.ln2_near
  have h3 := log15_near
  have hl : 0.69 ≤ Real.log 2 := by rw [abs_le] at h2; norm_num at h2 ⊢; linarith [h2.1]
  have e : q - Real.logb 2 (3 / 2) = (q * Real.log 2 - Real.log (3 / 2)) / Real.log 2 := by unfold Real.logb; field_simp
  rw [e, abs_div, abs_of_pos (show 0 < Real.log 2 by linarith), div_le_iff₀ (by linarith)]
  have e2 : q * Real.log 2 - Real.log (3 / 2) = (q * (693147180559945309417 / 10 ^ 21) - 405465108108164381978 / 10 ^ 21) + (q * (Real.log 2 - 0.693147180559945309417) - (Real.log (3 / 2) - 0.405465108108164381978)) := by
    norm_num; ring
  rw [e2]
  have m := mulB c2 h2
  have a1 := abs_add_le (q * (693147180559945309417 / 10 ^ 21) - 405465108108164381978 / 10 ^ 21) (q * (Real.log 2 - 0.693147180559945309417) - (Real.log (3 / 2) - 0.405465108108164381978))
  have a2 := abs_sub (q * (Real.log 2 - 0.693147180559945309417)) (Real.log (3 / 2) - 0.405465108108164381978)
  have h5 : 0.02 * ((eps : ℚ) : ℝ) * 0.69 ≤ 0.02 * ((eps : ℚ) : ℝ) * Real.log 2 := mul_le_mul_of_nonneg_left hl (by rw [epsR]; positivity)
  refine le_trans ?_ h5
  have h6 : (3 : ℝ) / 10 ^ 20 ≤ 0.0038 * (eps : ℚ) := by rw [epsR]; norm_num
  linarith

/-- the series -/
theorem series {A B : ℝ} (hB : 0 < B) (hA : 0 < A) (h : |(A - B) / (A + B)| ≤ 0.1011) :
    |Real.logb 2 (A / B) - C2 * ((A - B) / (A + B) * Qv ((A - B) / (A + B)))| ≤ 0.1 * (eps : ℚ) * |(A - B) / (A + B)| := by
  have hP : Poly.chk (0 :: Poly.sub (2 / 3 :: Lp.map (2 / 3 * ·)) Poly.logL) (6 / 100 * eps) 8 0 (1023 / 100000) = true := by decide +kernel
  have hs : (A - B) / (A + B) = (A / B - 1) / (2 + (A / B - 1)) := by
    rw [show 2 + (A / B - 1) = (A + B) / B by field_simp; ring, show A / B - 1 = (A - B) / B by field_simp, div_div_div_cancel_right₀ hB.ne']
  have := log_rat hP hs (by have : 0 < A / B := by positivity
                            linarith) h
  generalize (A - B) / (A + B) = S at *
  have e1 : S * (2 + S * S * Poly.ev (2 / 3 :: Lp.map (2 / 3 * ·)) (S * S)) = 2 / 3 * (S * Qv S) := by
    unfold Qv Lp; simp only [Poly.ev, List.map]; push_cast; ring
  rw [e1, show 1 + (A / B - 1) = A / B by ring] at this
  have h2 := Log2.ln2_near
  have hl : 0.69 ≤ Real.log 2 := by rw [abs_le] at h2; norm_num at h2 ⊢; linarith [h2.1]
  have e : Real.logb 2 (A / B) - C2 * (S * Qv S) = (Real.log (A / B) - 2 / 3 * (S * Qv S)) / Real.log 2 := by unfold Real.logb C2; field_simp
  rw [e, abs_div, abs_of_pos (show 0 < Real.log 2 by linarith), div_le_iff₀ (by linarith)]
  refine this.trans ?_
  push_cast
  have h5 : 0.1 * ((eps : ℚ) : ℝ) * |S| * 0.69 ≤ 0.1 * ((eps : ℚ) : ℝ) * |S| * Real.log 2 := mul_le_mul_of_nonneg_left hl (by rw [epsR]; positivity)
  refine le_trans ?_ h5
  have h6 : (1 : ℝ) / 2 ^ 68 ≤ 0.0001 * (eps : ℚ) := by rw [epsR]; norm_num
  have h7 := mul_le_mul_of_nonneg_right h6 (abs_nonneg S)
  have h8 : 0 ≤ ((eps : ℚ) : ℝ) * |S| := by rw [epsR]; positivity
  linarith

/-- another scale -/
theorem rescale {σ τ : ℝ} {b : W} {a : ℝ} {A e : ℚ} (h : Holds f64 σ b a ⟨A, e, true⟩) {q : ℚ} (hq : σ ≤ q * τ) (hA : 0 ≤ A) (he : 0 ≤ e) : Holds f64 τ b a ⟨A * q, e * q, true⟩ := by
  obtain ⟨h1, h2, h3⟩ := h
  simp only [sv, if_true] at h2 h3
  refine ⟨h1, ?_, ?_⟩
  · simp only [sv, if_true]
    push_cast
    have := mul_le_mul_of_nonneg_left hq (show (0 : ℝ) ≤ A by exact_mod_cast hA)
    linarith
  · simp only [sv, if_true]
    push_cast
    have := mul_le_mul_of_nonneg_left hq (show (0 : ℝ) ≤ e by exact_mod_cast he)
    linarith

set_option maxHeartbeats 1000000 in
theorem sum_spec (N : FPU f64) {p_h p_l dph dpl t : W} {PH SQ D E n L LA LB σ : ℝ} (gph : GFv f64 p_h PH) (hP : |PH| ≤ 1.63 * σ) (Hpl : Holds f64 σ p_l (SQ - PH) ⟨1 / 1000, 5 * eps, true⟩)
    (hser : |LA - LB - C2 * SQ| ≤ 0.06 * (eps : ℚ) * σ)
    (hD : GFv f64 dph D) (hE : GFv f64 dpl E) (hn : GFv f64 t n) (hL : L = n + LA) (hDE : |D + E - LB| ≤ 0.02 * (eps : ℚ) * |L|)
    (hσ0 : 1 / 2 ^ 53 ≤ σ) (hσ3 : σ ≤ 1.33 * |L|) (l1 : |n| ≤ 4.9 * |L|) (l2 : |D| ≤ 2.9 * |L|) (l3 : |E| ≤ 0.00005 * |L|)
    (l4 : |LA| ≤ 3.9 * |L|) (l5 : |LA - LB| ≤ 1.42 * |L|) (l6 : |L| ≤ 1200) {z_h z_l t1 t2 : W} (ezh : z_h = N.mul KD.CP_H p_h)
    (ezl : z_l = N.add (N.add (N.mul KD.CP_L p_h) (N.mul p_l KD.CP)) dpl) (et1 : t1 = Asin.clearLow (N.add (N.add (N.add z_h z_l) dph) t))
    (et2 : t2 = N.sub z_l (N.sub (N.sub (N.sub t1 t) dph) z_h)) :
    ∃ T1 T2, GFv f64 t1 T1 ∧ GFv f64 t2 T2 ∧ |T1 + T2 - L| ≤ 16 * (eps : ℚ) * |L| ∧ |T2| ≤ 0.0006 * |L| := by
  obtain ⟨τ, hτ⟩ : ∃ τ, τ = |L| / 2048 := ⟨_, rfl⟩
  have hLτ : |L| = 2048 * τ := by rw [hτ]; ring
  have eps0 : (0 : ℝ) ≤ (eps : ℚ) := by rw [epsR]; positivity
  have eps1 : ((eps : ℚ) : ℝ) ≤ 1 / 10000000 := by rw [epsR]; norm_num
  have hlo : 1 / 2 ^ 54 ≤ |L| := by norm_num at hσ0 ⊢; linarith
  have h0 : 0 < τ := by rw [hτ]; have : (0 : ℝ) < 1 / 2 ^ 54 := by positivity
                        linarith
  have h1 : τ ≤ 1 := by linarith
  have ht : (1 : ℝ) / 2 ^ 150 ≤ ((1 / 2 ^ 80 : ℚ) : ℝ) * τ := by
    push_cast; rw [hτ]; norm_num at hlo ⊢; linarith
  have ht' : (1 : ℝ) / 2 ^ 120 ≤ 1 / 1000000 * |L| := by norm_num at hlo ⊢; linarith
  rw [hLτ] at hDE hσ3 l1 l2 l3 l4 l5 l6 ht' ⊢
  have hq : σ ≤ 2724 * τ := by linarith only [hσ3, h0]
  have Rpl := rescale (q := 2724) Hpl (by push_cast; exact hq) (by norm_num) (by decide +kernel)
  have hcp := cp_near
  have hchl := cphl_near
  have c1 : |((f64.val KD.CP_H : ℚ) : ℝ)| ≤ 0.963 := by
    have : |f64.val KD.CP_H| ≤ 963 / 1000 := by decide +kernel
    have := Rat.cast_le (K := ℝ).mpr this
    push_cast at this; norm_num at this ⊢; exact this
  have c2 : |((f64.val KD.CP_L : ℚ) : ℝ)| ≤ 0.00012 := by
    have : |f64.val KD.CP_L| ≤ 12 / 100000 := by decide +kernel
    have := Rat.cast_le (K := ℝ).mpr this
    push_cast at this; norm_num at this ⊢; exact this
  have c3 : |((f64.val KD.CP : ℚ) : ℝ)| ≤ 0.963 := by
    have : |f64.val KD.CP| ≤ 963 / 1000 := by decide +kernel
    have := Rat.cast_le (K := ℝ).mpr this
    push_cast at this; norm_num at this ⊢; exact this
  have g1 : GFv f64 KD.CP_H ((f64.val KD.CP_H : ℚ) : ℝ) := GFv.const (by decide +kernel) rfl
  have g2 : GFv f64 KD.CP_L ((f64.val KD.CP_L : ℚ) : ℝ) := GFv.const (by decide +kernel) rfl
  have g3 : GFv f64 KD.CP ((f64.val KD.CP : ℚ) : ℝ) := GFv.const (by decide +kernel) rfl
  generalize ((f64.val KD.CP_H : ℚ) : ℝ) = ch at *
  generalize ((f64.val KD.CP_L : ℚ) : ℝ) = cl at *
  generalize ((f64.val KD.CP : ℚ) : ℝ) = cp at *
  have hpd : |SQ - PH| ≤ 0.001 * σ := by
    have := Hpl.2.1
    simp only [sv, if_true] at this; push_cast at this; linarith only [this]
  have hσ : 0 < σ := lt_of_lt_of_le (by positivity) hσ0
  -- the ideal sum
  have b1 : |cl * PH| ≤ 0.0002 * σ := by have := mulB c2 hP; linarith only [this, hσ]
  have b2 : |(SQ - PH) * cp| ≤ 0.001 * σ := by have := mulB hpd c3; linarith only [this, hσ]
  have b3 : |ch * PH + (cl * PH + (SQ - PH) * cp) - (LA - LB)| ≤ 0.1 * ((eps : ℚ) : ℝ) * σ := by
    have e : ch * PH + (cl * PH + (SQ - PH) * cp) - (LA - LB) = (ch + cl - C2) * PH + (SQ - PH) * (cp - C2) - (LA - LB - C2 * SQ) := by ring
    rw [e]
    have m1 := mulB hchl hP
    have m2 := mulB hpd hcp
    have a1 := abs_sub ((ch + cl - C2) * PH + (SQ - PH) * (cp - C2)) (LA - LB - C2 * SQ)
    have a2 := abs_add_le ((ch + cl - C2) * PH) ((SQ - PH) * (cp - C2))
    have p := mul_nonneg eps0 hσ.le
    linarith only [m1, m2, a1, a2, p, hser]
  have p := mul_le_mul_of_nonneg_right eps1 hσ.le
  have d1 : |ch * PH| ≤ 1.43 * (2048 * τ) := by
    have e : ch * PH = (ch * PH + (cl * PH + (SQ - PH) * cp) - (LA - LB)) + (LA - LB) - cl * PH - (SQ - PH) * cp := by ring
    have a1 := abs_sub ((ch * PH + (cl * PH + (SQ - PH) * cp) - (LA - LB)) + (LA - LB) - cl * PH) ((SQ - PH) * cp)
    have a2 := abs_sub ((ch * PH + (cl * PH + (SQ - PH) * cp) - (LA - LB)) + (LA - LB)) (cl * PH)
    have a3 := abs_add_le (ch * PH + (cl * PH + (SQ - PH) * cp) - (LA - LB)) (LA - LB)
    rw [← e] at a1
    linarith only [a1, a2, a3, b1, b2, b3, l5, hσ3, p, h0]
  have Hph : Holds f64 τ p_h PH ⟨163 / 100 * 2724, 0, true⟩ := gph.holds (by bnd hP, hq)
  have Hch : Holds f64 τ KD.CP_H ch ⟨963 / 1000, 0, false⟩ := g1.holds (by bnd c1)
  have Hcl : Holds f64 τ KD.CP_L cl ⟨12 / 100000, 0, false⟩ := g2.holds (by bnd c2)
  have Hcp : Holds f64 τ KD.CP cp ⟨963 / 1000, 0, false⟩ := g3.holds (by bnd c3)
  have Hzh := mulT' big N h0 h1 ht Hch Hph (A := 143 / 100 * 2048) (e := 144 / 100 * 2048 * eps) (by bnd d1, h0) (by decide +kernel)
  rw [← ezh] at Hzh
  have Hm1 := mulT' big N h0 h1 ht Hcl Hph (A := 3 / 10000 * 2048) (e := 4 / 10000 * 2048 * eps) (by bnd b1, hq, h0) (by decide +kernel)
  have Hm2 := mulT big N h0 h1 ht Rpl Hcp (A := 14 / 10000 * 2048) (e := 642 / 100 * 2048 * eps) (by bnd b2, hq, h0) (by decide +kernel)
  have Hz0 := addT big N h0 h1 ht Hm1 Hm2 (A := 17 / 10000 * 2048) (e := 643 / 100 * 2048 * eps) (by
    have := abs_add_le (cl * PH) ((SQ - PH) * cp)
    bnd this, b1, b2, hq, h0) (by decide +kernel)
  have HE : Holds f64 τ dpl E ⟨5 / 100000 * 2048, 0, true⟩ := hE.holds (by bnd l3)
  have HD : Holds f64 τ dph D ⟨29 / 10 * 2048, 0, true⟩ := hD.holds (by bnd l2)
  have Hn : Holds f64 τ t n ⟨49 / 10 * 2048, 0, true⟩ := hn.holds (by bnd l1)
  obtain ⟨Z, hZ⟩ : ∃ Z, Z = cl * PH + (SQ - PH) * cp + E := ⟨_, rfl⟩
  have dz : |Z| ≤ 0.0018 * (2048 * τ) := by
    rw [hZ]
    have a1 := abs_add_le (cl * PH + (SQ - PH) * cp) E
    have a2 := abs_add_le (cl * PH) ((SQ - PH) * cp)
    linarith only [a1, a2, b1, b2, l3, hσ3, h0]
  have Hzl := addT big N h0 h1 ht Hz0 HE (A := 18 / 10000 * 2048) (e := 644 / 100 * 2048 * eps) (by rw [← hZ]; bnd dz, h0) (by decide +kernel)
  rw [← ezl, ← hZ] at Hzl
  have bz : |ch * PH + Z + D - LA| ≤ 0.16 * ((eps : ℚ) : ℝ) * (2048 * τ) := by
    have e : ch * PH + Z + D - LA = (ch * PH + (cl * PH + (SQ - PH) * cp) - (LA - LB)) + (D + E - LB) := by rw [hZ]; ring
    rw [e]
    have a1 := abs_add_le (ch * PH + (cl * PH + (SQ - PH) * cp) - (LA - LB)) (D + E - LB)
    have := mul_le_mul_of_nonneg_left hσ3 eps0
    linarith only [a1, b3, hDE, this, mul_nonneg eps0 h0.le]
  have pt := mul_le_mul_of_nonneg_right eps1 h0.le
  have d2 : |ch * PH + Z| ≤ 1.432 * (2048 * τ) := by
    have a1 := abs_add_le (ch * PH) Z
    linarith only [a1, d1, dz, h0]
  have Hs1 := addT big N h0 h1 ht Hzh Hzl (A := 1432 / 1000 * 2048) (e := 95 / 10 * 2048 * eps) (by bnd d2, h0) (by decide +kernel)
  have d3 : |ch * PH + Z + D| ≤ 3.91 * (2048 * τ) := by
    have a1 := abs_add_le (ch * PH + Z + D - LA) LA
    rw [sub_add_cancel] at a1
    linarith only [a1, bz, l4, pt, h0]
  have Hs2 := addT big N h0 h1 ht Hs1 HD (A := 391 / 100 * 2048) (e := 135 / 10 * 2048 * eps) (by bnd d3, h0) (by decide +kernel)
  have bz' : |ch * PH + Z + D + n - L| ≤ 0.16 * ((eps : ℚ) : ℝ) * (2048 * τ) := by
    rw [hL, show ch * PH + Z + D + n - (n + LA) = ch * PH + Z + D - LA by ring]; exact bz
  have d4 : |ch * PH + Z + D + n| ≤ 1.0001 * (2048 * τ) := by
    have a1 := abs_add_le (ch * PH + Z + D + n - L) L
    rw [sub_add_cancel] at a1
    linarith only [a1, bz', hLτ, pt, h0]
  have Hs3 := addT big N h0 h1 ht Hs2 Hn (A := 10001 / 10000 * 2048) (e := 146 / 10 * 2048 * eps) (by bnd d4, h0) (by decide +kernel)
  obtain ⟨T1, gt1, ct1, lt1⟩ := clr (GFv.self Hs3.1)
  rw [← et1] at gt1
  have vs : |f64.valK ℝ (N.add (N.add (N.add z_h z_l) dph) t) - (ch * PH + Z + D + n)| ≤ 0.00001 * (2048 * τ) := by
    have h9 := Hs3.2.2
    simp only [sv, if_true] at h9; push_cast at h9
    linarith only [h9, pt, h0]
  have dT : |T1 - L| ≤ 0.00055 * (2048 * τ) := by
    have a1 := abs_sub_le T1 (f64.valK ℝ (N.add (N.add (N.add z_h z_l) dph) t)) (ch * PH + Z + D + n)
    have a2 := abs_sub_le T1 (ch * PH + Z + D + n) L
    have a3 := abs_sub_abs_le_abs_sub (f64.valK ℝ (N.add (N.add (N.add z_h z_l) dph) t)) (ch * PH + Z + D + n)
    rw [abs_sub_comm T1 (f64.valK ℝ (N.add (N.add (N.add z_h z_l) dph) t))] at a1
    linarith only [a1, a2, a3, ct1, ht', vs, bz', d4, pt, h0]
  have HT1 : Holds f64 τ t1 T1 ⟨1001 / 1000 * 2048, 0, true⟩ := gt1.holds (by
    have := abs_sub_abs_le_abs_sub T1 L
    bnd this, dT, hLτ, h0)
  have d5 : |T1 - n| ≤ 3.901 * (2048 * τ) := by
    have a1 := abs_add_le (T1 - L) LA
    rw [show T1 - L + LA = T1 - n by rw [hL]; ring] at a1
    linarith only [a1, dT, l4, h0]
  have Hw1 := subT big N h0 h1 ht HT1 Hn (A := 3901 / 1000 * 2048) (e := 391 / 100 * 2048 * eps) (by bnd d5, h0) (by decide +kernel)
  have d6 : |T1 - n - D| ≤ 1.436 * (2048 * τ) := by
    have a1 := abs_add_le (T1 - L) (ch * PH + Z)
    have a2 := abs_sub ((T1 - L) + (ch * PH + Z)) (ch * PH + Z + D - LA)
    rw [show T1 - L + (ch * PH + Z) - (ch * PH + Z + D - LA) = T1 - n - D by rw [hL]; ring] at a2
    linarith only [a1, a2, dT, d2, bz, pt, h0]
  have Hw2 := subT big N h0 h1 ht Hw1 HD (A := 1436 / 1000 * 2048) (e := 536 / 100 * 2048 * eps) (by bnd d6, h0) (by decide +kernel)
  have d7 : |T1 - n - D - ch * PH| ≤ 0.003 * (2048 * τ) := by
    have a1 := abs_add_le (T1 - L) Z
    have a2 := abs_sub ((T1 - L) + Z) (ch * PH + Z + D - LA)
    rw [show T1 - L + Z - (ch * PH + Z + D - LA) = T1 - n - D - ch * PH by rw [hL]; ring] at a2
    linarith only [a1, a2, dT, dz, bz, pt, h0]
  have Hw3 := subT big N h0 h1 ht Hw2 Hzh (A := 3 / 1000 * 2048) (e := 682 / 100 * 2048 * eps) (by bnd d7, h0) (by decide +kernel)
  have e2 : Z - (T1 - n - D - ch * PH) = (ch * PH + Z + D + n - L) - (T1 - L) := by ring
  have d8 : |Z - (T1 - n - D - ch * PH)| ≤ 0.00056 * (2048 * τ) := by
    rw [e2]
    have a1 := abs_sub (ch * PH + Z + D + n - L) (T1 - L)
    linarith only [a1, dT, bz', pt, h0]
  have Ht2 := subT big N h0 h1 ht Hzl Hw3 (A := 56 / 100000 * 2048) (e := 134 / 10 * 2048 * eps) (by bnd d8, h0) (by decide +kernel)
  rw [← et2] at Ht2
  have h9 := Ht2.2.2
  simp only [sv, if_true] at h9; push_cast at h9
  refine ⟨T1, _, gt1, GFv.self Ht2.1, ?_, ?_⟩
  · have a1 := abs_add_le (f64.valK ℝ t2 - (Z - (T1 - n - D - ch * PH))) (ch * PH + Z + D + n - L)
    rw [show f64.valK ℝ t2 - (Z - (T1 - n - D - ch * PH)) + (ch * PH + Z + D + n - L) = T1 + f64.valK ℝ t2 - L by ring] at a1
    linarith only [a1, h9, bz', mul_nonneg eps0 h0.le]
  · have a1 := abs_sub_abs_le_abs_sub (f64.valK ℝ t2) (Z - (T1 - n - D - ch * PH))
    linarith only [a1, h9, d8, pt, h0]

/-- the two parts of the logarithm -/
theorem logMain_spec (N : FPU f64) {ax bp th dph dpl t : W} {A B TH D E n : ℝ} (hax : GFv f64 ax A) (hbp : GFv f64 bp B) (hth : GFv f64 th TH) (hR : Red A B TH)
    (hD : GFv f64 dph D) (hE : GFv f64 dpl E) (hn : GFv f64 t n) {L : ℝ} (hL : L = n + Real.logb 2 A) (hDE : |D + E - Real.logb 2 B| ≤ 0.02 * (eps : ℚ) * |L|)
    {σ : ℝ} (hσ0 : 1 / 2 ^ 53 ≤ σ) (hσ1 : σ ≤ 0.2753) (hσ2 : |A - B| ≤ σ) (hσ3 : σ ≤ 1.33 * |L|) (l1 : |n| ≤ 4.9 * |L|) (l2 : |D| ≤ 2.9 * |L|) (l3 : |E| ≤ 0.00005 * |L|)
    (l4 : |Real.logb 2 A| ≤ 3.9 * |L|) (l5 : |Real.logb 2 A - Real.logb 2 B| ≤ 1.42 * |L|) (l6 : |L| ≤ 1200) :
    ∃ T1 T2, GFv f64 (logMain N KD Asin.clearLow ax bp dph dpl th t).1 T1 ∧ GFv f64 (logMain N KD Asin.clearLow ax bp dph dpl th t).2 T2 ∧
      |T1 + T2 - L| ≤ 16 * (eps : ℚ) * |L| ∧ |T2| ≤ 0.0006 * |L| := by
  obtain ⟨PH, gph, hP, Hpl⟩ := parts N hax hbp hth hR hσ0 hσ1 hσ2 rfl rfl rfl rfl rfl rfl rfl rfl rfl rfl rfl rfl rfl rfl rfl rfl
  have hser := series (A := A) (B := B) (by rcases hR.ctr with h | h <;> rw [h] <;> norm_num) (by have := hR.lo; linarith) hR.quo
  have hS1 : |(A - B) / (A + B)| ≤ 0.536 * σ := by
    have hAB : 0 < A + B := by have := hR.sum; linarith
    rw [abs_div, abs_of_pos hAB, div_le_iff₀ hAB]
    have h2 := mul_le_mul_of_nonneg_left hR.sum (show 0 ≤ 0.536 * σ by have := (abs_nonneg _).trans hσ2; positivity)
    linarith [(abs_nonneg _).trans hσ2]
  rw [Real.logb_div (by have := hR.lo; intro h; rw [h] at this; norm_num at this) (by rcases hR.ctr with h | h <;> rw [h] <;> norm_num)] at hser
  have eps0 : (0 : ℝ) ≤ (eps : ℚ) := by rw [epsR]; positivity
  refine sum_spec N gph hP Hpl (hser.trans ?_) hD hE hn hL hDE hσ0 hσ3 l1 l2 l3 l4 l5 l6 rfl rfl rfl rfl
  have := mul_le_mul_of_nonneg_left hS1 eps0
  have := mul_nonneg eps0 ((abs_nonneg _).trans hσ2)
  linarith
end Dbl
end Power
end Verif
