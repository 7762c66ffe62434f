import Verif.Libm.Expm1Tail
/-! # `expm1` and `expm1f` after the reduction of the argument: the result -/
namespace Verif
open Fmt Poly
namespace Expm1
variable {F : Fmt}

/-- what is claimed of a result `z` for an exact value `θ` -/
def Res (F : Fmt) (z : BitVec F.w) (θ : ℝ) : Prop := ∃ V, GFv F z V ∧ |V - θ| ≤ 2 * (1 / 2 ^ (F.s + 1)) * |θ| ∧ -1 ≤ V

/-- a number that is not larger than another one -/
theorem fin_of_le {r : BitVec F.w} {g : ℝ} (h : |F.valK ℝ r| ≤ g) (hg : g < 2 ^ ((F.bias : ℤ) + 1)) : F.IsFin r := by
  unfold Fmt.IsFin
  rw [← F.magValR_lt_iff, F.magValR_infRep, ← F.absvR]
  linarith

theorem scale_real {u V E G P : ℝ} (hP : 0 < P) (h : |V - (E - G)| ≤ 198 / 100 * u * |E - G|) (hu : 0 ≤ u) (hGP : G * P = 1) :
    |V * P - (E * P - 1)| ≤ 2 * u * |E * P - 1| := by
  have e : E * P - 1 = (E - G) * P := by rw [sub_mul, hGP]
  rw [e, ← sub_mul, abs_mul, abs_mul, abs_of_pos hP]
  have h2 := mul_le_mul_of_nonneg_right h hP.le
  have : 0 ≤ u * (|E - G| * P) := by positivity
  linarith

theorem small_real {u V Y E : ℝ} (hu : 0 < u) (hu1 : u ≤ 1 / 2 ^ 20) (h1 : |Y - E| ≤ 3 / 2 * u * E) (h2 : |V - (Y - 1)| ≤ 1 / 2 * u) (hE : E ≤ 3537 / 10000) :
    |V - (E - 1)| ≤ 2 * u * |E - 1| := by
  rw [abs_of_neg (by linarith : E - 1 < 0)]
  have h3 := abs_add_le (V - (Y - 1)) (Y - E)
  rw [show V - (Y - 1) + (Y - E) = V - (E - 1) by ring] at h3
  nlinarith

theorem large_real {u V Y E : ℝ} (hu : 1 / 2 ^ 53 ≤ u) (hu1 : u ≤ 1 / 2 ^ 20) (h1 : |Y - E| ≤ 3 / 2 * u * E) (h2 : |V - (Y - 1)| ≤ 1) (hE : 2 ^ 56 ≤ E) :
    |V - (E - 1)| ≤ 2 * u * |E - 1| := by
  rw [abs_of_pos (by norm_num at hE; linarith : 0 < E - 1)]
  have h3 := abs_add_le (V - (Y - 1)) (Y - E)
  rw [show V - (Y - 1) + (Y - E) = V - (E - 1) by ring] at h3
  have h4 : 1 / 2 ^ 53 * 2 ^ 56 ≤ u * E := mul_le_mul hu hE (by positivity) (by linarith [show (0 : ℝ) < 1 / 2 ^ 53 by positivity])
  norm_num at h4 hu1
  linarith

section
variable {K : Cn F} {R : List ℚ} {x c : BitVec F.w} {X γ r T : ℝ} {k : ℤ}

theorem far_ends (hF : F.Big) (hs : F.s ≤ 52) (hb : (F.bias : ℤ) < 2 ^ 20) (hK : COk F K R) (N : FPU F) (h : Rd F x c X γ r) (hk : -60 ≤ k) (hk1 : k ≤ F.bias + 1)
    (hk2 : k ≤ -2 ∨ 56 < k) (hT : Real.exp T = Real.exp r * 2 ^ k) (hno : Real.exp T * (1 + 2 * (1 / 2 ^ (F.s + 1))) < 2 ^ ((F.bias : ℤ) + 1)) :
    Ok (far N K x (e1 N K x c) k) fun z => Res F z (Real.exp T - 1) := by
  have h127 := hF.bias
  have hu0 := u_pos F
  have hu1 := u_le hF
  have hu2 := u_tiny hs
  obtain ⟨V, gV, eV⟩ := caseD hF hK N h
  have hER := exp_range (r_bd hF h)
  have hP : (0 : ℝ) < 2 ^ k := by positivity
  have hVb : 1 / 2 ≤ V ∧ V ≤ 2 := by
    generalize (1 : ℝ) / 2 ^ (F.s + 1) = u at *
    rw [abs_le] at eV
    norm_num at *
    constructor <;> nlinarith [eV.1, eV.2]
  have hY : |V * 2 ^ k - Real.exp T| ≤ 3 / 2 * (1 / 2 ^ (F.s + 1)) * Real.exp T := by
    rw [hT, ← sub_mul, abs_mul, abs_of_pos hP, ← mul_assoc]
    exact mul_le_mul_of_nonneg_right eV hP.le
  have hET := Real.exp_pos T
  have hYb : |V * 2 ^ k| < 2 ^ ((F.bias : ℤ) + 1) := by
    rw [abs_of_nonneg (by have := hVb.1; positivity)]
    have := (abs_le.mp hY).2
    have : 0 ≤ 1 / 2 ^ (F.s + 1) * Real.exp T := by positivity
    linarith
  obtain ⟨p, hp⟩ := pw_ok F (k := k) (by omega) hk1 hb
  unfold far
  rw [hp, ok_bind, if_pos (by omega)]
  have hy : GFv F (if k = K.kmax then N.mul (N.mul (N.add (N.sub x (e1 N K x c)) K.one) K.two) K.pmax else N.mul (N.add (N.sub x (e1 N K x c)) K.one) p) (V * 2 ^ k) := by
    rw [hK.kmax]
    by_cases hk3 : k = F.bias + 1
    · rw [if_pos hk3]
      have g1 : GFv F (N.mul (N.add (N.sub x (e1 N K x c)) K.one) K.two) (V * 2 ^ (1 : ℤ)) :=
        dblX hF gV (by rw [abs_of_nonneg (by linarith)]; norm_num; linarith) (by norm_num) (by have := gV.mulR N hK.two; rwa [zpow_one]) (big_of hF (by
          rw [abs_of_nonneg (by have := hVb.1; positivity)]; norm_num; linarith))
      have e : V * 2 ^ k = V * 2 ^ (1 : ℤ) * 2 ^ (F.bias : ℤ) := by rw [hk3, mul_assoc, ← zpow_add₀ (by norm_num), add_comm]
      rw [e]
      refine dblX hF g1 (by rw [abs_of_nonneg (by have := hVb.1; positivity)]; norm_num; linarith) (by omega) (g1.mulR N hK.pmax) ?_
      rw [← e]; exact hYb
    · rw [if_neg hk3]
      obtain ⟨p', hp', gp⟩ := pw_spec F (k := k) (by omega) (by omega) hb
      rw [hp] at hp'
      have := Except.ok.inj hp'
      subst this
      exact dblX hF gV (by rw [abs_of_nonneg (by linarith)]; norm_num; linarith) hk (gV.mulR N gp) hYb
  refine ⟨_, rfl, ?_⟩
  have hr := hy.subR N hK.one
  have hpos : 0 ≤ V * 2 ^ k := by have := hVb.1; positivity
  rcases hk2 with hk2 | hk2
  · have hP1 : (2 : ℝ) ^ k ≤ 1 / 4 := (zpow_le_zpow_right₀ (by norm_num) (by omega : k ≤ -2)).trans (by norm_num)
    have hb1 : |V * 2 ^ k - 1| ≤ 2 ^ (0 : ℤ) := by
      rw [zpow_zero, abs_le]
      have : V * 2 ^ k ≤ 2 * (1 / 4) := mul_le_mul hVb.2 hP1 hP.le (by norm_num)
      constructor <;> linarith
    have he := hr.err F hb1 (by omega) (by omega)
    have hf := hr.fin100 hF (hb1.trans (zpow_le_zpow_right₀ (by norm_num) (by norm_num)))
    refine ⟨_, GFv.self hf, small_real hu0 hu1 hY (he.trans (le_of_eq ?_)) ?_, ?_⟩
    · rw [show (0 : ℤ) - F.s - 2 = -1 - ((F.s + 1 : ℕ) : ℤ) by push_cast; ring, zpow_sub₀ (by norm_num), zpow_natCast, div_eq_mul_one_div]; norm_num
    · rw [hT]
      have := mul_le_mul hER.2 hP1 hP.le (by norm_num)
      norm_num at this ⊢; linarith
    · exact hr.ge_of F (g := -1) (by have := F.rp_pow (j := 0) (by omega); rw [zpow_zero] at this; exact this.neg) (by
        rw [abs_neg, abs_one]; exact one_le_zpow₀ (by norm_num) (by omega)) (by linarith)
  · have hP1 : (2 : ℝ) ^ 57 ≤ 2 ^ k := by rw [← zpow_natCast]; exact zpow_le_zpow_right₀ (by norm_num) (by push_cast; omega)
    have hV1 : (1 : ℝ) ≤ V * 2 ^ k := by
      have := mul_le_mul hVb.1 hP1 (by positivity) (by linarith)
      norm_num at this; linarith
    have hnear := hr.near F (g := V * 2 ^ k) (by have := F.rp_val (if k = K.kmax then N.mul (N.mul (N.add (N.sub x (e1 N K x c)) K.one) K.two) K.pmax else N.mul (N.add (N.sub x (e1 N K x c)) K.one) p); rwa [hy.val] at this) hYb.le
    have hle := hr.le_of F (g := V * 2 ^ k) (by have := F.rp_val (if k = K.kmax then N.mul (N.mul (N.add (N.sub x (e1 N K x c)) K.one) K.two) K.pmax else N.mul (N.add (N.sub x (e1 N K x c)) K.one) p); rwa [hy.val] at this) hYb.le (by linarith)
    have hge := hr.ge_of F (g := 0) F.rp_zero (by rw [abs_zero]; positivity) (by linarith)
    have hf := fin_of_le (r := N.sub _ K.one) (by rw [abs_of_nonneg hge]; exact hle) (lt_of_le_of_lt (le_abs_self _) hYb)
    rw [abs_sub_comm] at hnear
    refine ⟨_, GFv.self hf, large_real hu2 hu1 hY (hnear.trans (le_of_eq ?_)) ?_, by linarith⟩
    · rw [show V * 2 ^ k - 1 - V * 2 ^ k = -1 by ring]; simp
    · rw [hT]
      have := mul_le_mul hER.1 hP1 (by positivity) (Real.exp_pos r).le
      norm_num at this ⊢; linarith

theorem far_mid (hF : F.Big) (hb : (F.bias : ℤ) < 2 ^ 20) (hK : COk F K R) (N : FPU F) (h : Rd F x c X γ r) (hk : 2 ≤ k) (hk1 : k ≤ 56)
    (hT : Real.exp T = Real.exp r * 2 ^ k) : Ok (far N K x (e1 N K x c) k) fun z => Res F z (Real.exp T - 1) := by
  have h127 := hF.bias
  have hu0 := u_pos F
  have hu1 := u_le hF
  have hER := exp_range (r_bd hF h)
  have hP : (0 : ℝ) < 2 ^ k := by positivity
  obtain ⟨p, hp, gp⟩ := pw_spec F (k := k) (by omega) (by omega) hb
  obtain ⟨q, hq, gq⟩ := pw_spec F (k := -k) (by omega) (by omega) hb
  have hG : (2 : ℝ) ^ (-k) * 2 ^ k = 1 := by rw [← zpow_add₀ (by norm_num)]; simp
  have hG0 : (0 : ℝ) < 2 ^ (-k) := by positivity
  have hG1 : (2 : ℝ) ^ (-k) ≤ 1 / 4 := (zpow_le_zpow_right₀ (by norm_num) (by omega : -k ≤ -2)).trans (by norm_num)
  have key : ∀ {z : BitVec F.w}, (∃ V, GFv F z V ∧ |V - (Real.exp r - 2 ^ (-k))| ≤ 198 / 100 * (1 / 2 ^ (F.s + 1)) * |Real.exp r - 2 ^ (-k)|) →
      Res F (N.mul z p) (Real.exp T - 1) := by
    rintro z ⟨V, gV, eV⟩
    have hVb : 1 / 4 ≤ V ∧ V ≤ 2 := by
      rw [abs_of_pos (by norm_num at hER; linarith : 0 < Real.exp r - 2 ^ (-k))] at eV
      generalize (1 : ℝ) / 2 ^ (F.s + 1) = u at *
      generalize (2 : ℝ) ^ (-k) = G at *
      rw [abs_le] at eV
      norm_num at *
      constructor <;> nlinarith [eV.1, eV.2]
    have hYb : |V * 2 ^ k| < 2 ^ ((F.bias : ℤ) + 1) := by
      rw [abs_of_nonneg (by have := hVb.1; positivity)]
      have h1 : V * 2 ^ k ≤ 2 * 2 ^ k := mul_le_mul_of_nonneg_right hVb.2 hP.le
      have h2 : (2 : ℝ) * 2 ^ k = 2 ^ (k + 1) := by rw [zpow_add₀ (by norm_num), zpow_one, mul_comm]
      have h3 : (2 : ℝ) ^ (k + 1) < 2 ^ ((F.bias : ℤ) + 1) := zpow_lt_zpow_right₀ (by norm_num) (by omega)
      linarith
    have g2 := dblX hF gV (by rw [abs_of_nonneg (by linarith)]; norm_num; linarith) (by omega) (gV.mulR N gp) hYb
    refine ⟨_, g2, ?_, ?_⟩
    · rw [hT]; exact scale_real hP eV hu0.le hG
    · have : 0 ≤ V * 2 ^ k := by have := hVb.1; positivity
      linarith
  have hm := hK.kmid
  unfold far
  rw [hp, ok_bind, if_neg (by omega), hq, ok_bind]
  by_cases hk2 : k < K.kmid
  · rw [if_pos hk2]
    exact ⟨_, rfl, key (caseF hF hK N h hk (by omega) gq)⟩
  · rw [if_neg hk2]
    exact ⟨_, rfl, key (caseG hF hK N h (by omega) gq)⟩

theorem tail_red (hF : F.Big) (hs : F.s ≤ 52) (hb : (F.bias : ℤ) < 2 ^ 20) (hK : COk F K R) (N : FPU F) (h : Rd F x c X γ r) (hk : -60 ≤ k) (hk1 : k ≤ F.bias + 1) (hk0 : k ≠ 0)
    (hT : T = r + k * Real.log 2) (hno : Real.exp T * (1 + 2 * (1 / 2 ^ (F.s + 1))) < 2 ^ ((F.bias : ℤ) + 1)) :
    Ok (tail N K x c k) fun z => Res F z (Real.exp T - 1) := by
  have h127 := hF.bias
  have hu0 := u_pos F
  have hu1 := u_le hF
  have hER := exp_range (r_bd hF h)
  have hT2 : Real.exp T = Real.exp r * 2 ^ k := by rw [hT, Exp.exp_add_log]
  unfold tail
  simp only
  rw [if_neg hk0]
  by_cases h1 : k = -1
  · rw [if_pos h1]
    obtain ⟨V, gV, eV⟩ := caseA hF hK N h
    refine ⟨_, rfl, V, gV, ?_⟩
    have e : Real.exp T - 1 = Real.exp r / 2 - 1 := by rw [hT2, h1]; norm_num; ring
    rw [e]
    generalize (1 : ℝ) / 2 ^ (F.s + 1) = u at *
    have h3 : |Real.exp r / 2 - 1| = 1 - Real.exp r / 2 := by rw [abs_of_neg (by norm_num at hER; linarith)]; ring
    rw [h3] at eV ⊢
    norm_num at *
    refine ⟨eV.trans ?_, ?_⟩
    · nlinarith
    · have := (abs_le.mp eV).1
      nlinarith
  rw [if_neg h1]
  by_cases h2 : k = 1
  · rw [if_pos h2]
    have e : Real.exp T - 1 = Real.exp r * 2 - 1 := by rw [hT2, h2, zpow_one]
    have fini : ∀ {z : BitVec F.w}, (∃ V, GFv F z V ∧ |V - (Real.exp r * 2 - 1)| ≤ 199 / 100 * (1 / 2 ^ (F.s + 1)) * |Real.exp r * 2 - 1|) → Res F z (Real.exp T - 1) := by
      rintro z ⟨V, gV, eV⟩
      refine ⟨V, gV, ?_⟩
      rw [e]
      generalize (1 : ℝ) / 2 ^ (F.s + 1) = u at *
      have h3 : |Real.exp r * 2 - 1| = Real.exp r * 2 - 1 := by rw [abs_of_pos (by norm_num at hER; linarith)]
      rw [h3] at eV ⊢
      norm_num at *
      refine ⟨eV.trans ?_, ?_⟩
      · nlinarith
      · have := (abs_le.mp eV).1
        nlinarith
    by_cases hx : X < -(1 / 4)
    · rw [if_pos ((h.gx.lt_iff hK.mquart).mpr hx)]
      exact ⟨_, rfl, fini (caseB hF hs hK N h hx)⟩
    · rw [if_neg (by rw [h.gx.lt_iff hK.mquart]; exact hx)]
      obtain ⟨V, gV, eV⟩ := caseC hF hK N h (not_lt.mp hx)
      refine ⟨_, rfl, fini ⟨V, gV, eV.trans ?_⟩⟩
      refine mul_le_mul_of_nonneg_right (mul_le_mul_of_nonneg_right (by norm_num) hu0.le) (abs_nonneg _)
  rw [if_neg h2]
  by_cases h3 : k ≤ -2 ∨ 56 < k
  · exact far_ends hF hs hb hK N h hk hk1 h3 hT2 hno
  · exact far_mid hF hb hK N h (by omega) (by omega) hT2

theorem rnd_bd {u y z b : ℝ} (hu : u ≤ 1 / 2 ^ 20) (h : |z - y| ≤ u * |y| + 1 / 2 ^ 150) (hy : |y| ≤ b) (hb : 1 / 2 ≤ b) : |z| ≤ 2 * b := by
  have h1 := abs_add_le (z - y) y
  rw [sub_add_cancel] at h1
  have h2 := mul_le_mul_of_nonneg_right hu (abs_nonneg y)
  norm_num at h h2
  linarith

theorem cube_bd {u a : ℝ} (hu : 0 < u) (ha0 : 0 ≤ a) (hX : a ≤ 3467 / 10000) : a ^ 3 * (u / 100) ≤ 13 / 10000 * (u * a) := by
  have h : a ^ 2 ≤ (3467 / 10000) ^ 2 := pow_le_pow_left₀ ha0 hX 2
  have := mul_le_mul_of_nonneg_right h (by positivity : 0 ≤ u * a)
  have e : a ^ 3 * (u / 100) = a ^ 2 * (u * a) / 100 := by ring
  have : 0 ≤ u * a := by positivity
  rw [e]
  norm_num at h
  linarith

theorem mid_zero {u a X Hx q Q e m w V θ : ℝ} (hu : 0 < u) (hu1 : u ≤ 1 / 2 ^ 20) (ha : a = |X|) (hX : a ≤ 0.3467) (hτ : 1 / 2 ^ 150 ≤ u * a / 2 ^ 30)
    (h1 : |Hx - X * (X / 2)| ≤ u * |X * (X / 2)| + 1 / 2 ^ 150) (h2 : |q - Q| ≤ 3 / 2 * u) (hQ : |Q| ≤ 45 / 100) (h3 : |e - Hx * q| ≤ u * |Hx * q| + 1 / 2 ^ 150)
    (h4 : |m - X * e| ≤ u * |X * e| + 1 / 2 ^ 150) (h5 : |w - (m - Hx)| ≤ u * |m - Hx| + 1 / 2 ^ 150) (h6 : |V - (X - w)| ≤ u * |X - w| + 1 / 2 ^ 150)
    (h7 : |X + X * X / 2 - X * X * X / 2 * Q - θ| ≤ |X| ^ 3 * (u / 100)) (h8 : |θ - X| ≤ X ^ 2) : |V - θ| ≤ 2 * u * |θ| := by
  obtain ⟨t, ht⟩ : ∃ t, t = u * a := ⟨_, rfl⟩
  obtain ⟨τ, hτd⟩ : ∃ τ : ℝ, τ = 1 / 2 ^ 150 := ⟨_, rfl⟩
  rw [← hτd] at *
  rw [← ht] at hτ
  have ha0 : 0 ≤ a := by rw [ha]; exact abs_nonneg _
  have ht0 : 0 ≤ t := by rw [ht]; positivity
  have hta : t ≤ a / 2 ^ 20 := by rw [ht]; nlinarith
  norm_num at hτ hta hX hu1
  have aXX : |X * (X / 2)| ≤ 1734 / 10000 * a := by
    rw [abs_mul, abs_div, abs_two, ← ha]; nlinarith
  have b1 : |Hx - X * (X / 2)| ≤ 1735 / 10000 * t := by
    have := mul_le_mul_of_nonneg_left aXX hu.le
    have e : u * (1734 / 10000 * a) = 1734 / 10000 * t := by rw [ht]; ring
    linarith
  have bH : |Hx| ≤ 17345 / 100000 * a := by
    have := abs_add_le (Hx - X * (X / 2)) (X * (X / 2)); rw [sub_add_cancel] at this; linarith
  have bq : |q| ≤ 4501 / 10000 := by
    have := abs_add_le (q - Q) Q; rw [sub_add_cancel] at this; linarith
  have bHq : |Hx * q| ≤ 781 / 10000 * a := by
    rw [abs_mul]
    have := mul_le_mul bH bq (abs_nonneg _) (by positivity)
    linarith
  have b2 : |Hx * q - X * (X / 2) * Q| ≤ 3383 / 10000 * t := by
    have e : Hx * q - X * (X / 2) * Q = (Hx - X * (X / 2)) * q + X * (X / 2) * (q - Q) := by ring
    rw [e]
    refine (abs_add_le _ _).trans ?_
    rw [abs_mul, abs_mul]
    have c1 := mul_le_mul b1 bq (abs_nonneg _) (by positivity)
    have c2 := mul_le_mul aXX h2 (abs_nonneg _) (by positivity)
    have e : 1734 / 10000 * a * (3 / 2 * u) = 2601 / 10000 * t := by rw [ht]; ring
    linarith
  have b3 : |e - X * (X / 2) * Q| ≤ 4166 / 10000 * t := by
    have := abs_add_le (e - Hx * q) (Hx * q - X * (X / 2) * Q); rw [sub_add_sub_cancel] at this
    have c := mul_le_mul_of_nonneg_left bHq hu.le
    have e : u * (781 / 10000 * a) = 781 / 10000 * t := by rw [ht]; ring
    linarith
  have be : |e| ≤ 782 / 10000 * a := by
    have := abs_add_le (e - Hx * q) (Hx * q); rw [sub_add_cancel] at this
    have c := mul_le_mul_of_nonneg_left bHq hu.le
    have e : u * (781 / 10000 * a) = 781 / 10000 * t := by rw [ht]; ring
    linarith
  have bXe : |X * e| ≤ 272 / 10000 * a := by
    rw [abs_mul, ← ha]
    have := mul_le_mul hX be (abs_nonneg _) (by norm_num)
    linarith
  have b4 : |m - X * (X * (X / 2) * Q)| ≤ 1718 / 10000 * t := by
    have h := abs_add_le (m - X * e) (X * (e - X * (X / 2) * Q))
    rw [show m - X * e + X * (e - X * (X / 2) * Q) = m - X * (X * (X / 2) * Q) by ring] at h
    rw [abs_mul, ← ha] at h
    have c1 := mul_le_mul hX b3 (abs_nonneg _) (by norm_num)
    have c := mul_le_mul_of_nonneg_left bXe hu.le
    have e : u * (272 / 10000 * a) = 272 / 10000 * t := by rw [ht]; ring
    linarith
  have bmH : |m - Hx| ≤ 2008 / 10000 * a := by
    have h := abs_sub ((m - X * e) + X * e) Hx
    have h' := abs_add_le (m - X * e) (X * e)
    rw [sub_add_cancel] at h h'
    have c := mul_le_mul_of_nonneg_left bXe hu.le
    have e : u * (272 / 10000 * a) = 272 / 10000 * t := by rw [ht]; ring
    linarith
  have b5 : |w - (X * (X * (X / 2) * Q) - X * (X / 2))| ≤ 547 / 1000 * t := by
    have h := abs_add_le (w - (m - Hx)) ((m - X * (X * (X / 2) * Q)) - (Hx - X * (X / 2)))
    rw [show w - (m - Hx) + ((m - X * (X * (X / 2) * Q)) - (Hx - X * (X / 2))) = w - (X * (X * (X / 2) * Q) - X * (X / 2)) by ring] at h
    have h' := abs_sub (m - X * (X * (X / 2) * Q)) (Hx - X * (X / 2))
    have c := mul_le_mul_of_nonneg_left bmH hu.le
    have e : u * (2008 / 10000 * a) = 2008 / 10000 * t := by rw [ht]; ring
    linarith
  have b6 : |X - w - θ| ≤ 549 / 1000 * t := by
    have h := abs_sub (X + X * X / 2 - X * X * X / 2 * Q - θ) (w - (X * (X * (X / 2) * Q) - X * (X / 2)))
    rw [show X + X * X / 2 - X * X * X / 2 * Q - θ - (w - (X * (X * (X / 2) * Q) - X * (X / 2))) = X - w - θ by ring] at h
    have : |X| ^ 3 * (u / 100) ≤ 13 / 10000 * t := by rw [← ha, ht]; exact cube_bd hu ha0 hX
    linarith
  have hθ : 65 / 100 * a ≤ |θ| := by
    have h := abs_sub_abs_le_abs_sub X θ
    rw [abs_sub_comm X θ, ← ha] at h
    have : X ^ 2 ≤ 3467 / 10000 * a := by rw [← sq_abs, ← ha]; nlinarith
    linarith
  have h9 := abs_add_le (V - (X - w)) (X - w - θ)
  rw [sub_add_sub_cancel] at h9
  have h10 : |X - w| ≤ |θ| + 549 / 1000 * t := by
    have := abs_add_le (X - w - θ) θ; rw [sub_add_cancel] at this; linarith
  have c := mul_le_mul_of_nonneg_left h10 hu.le
  have d := mul_le_mul_of_nonneg_left hθ hu.le
  have e : u * (65 / 100 * a) = 65 / 100 * t := by rw [ht]; ring
  have f := mul_le_mul_of_nonneg_right hu1 ht0
  have g : u * (|θ| + 549 / 1000 * t) = u * |θ| + 549 / 1000 * (u * t) := by ring
  linarith

/-- the case of no reduction -/
theorem tail_zero (hF : F.Big) (hs : F.s ≤ 52) (hK : COk F K R) (N : FPU F) (hx : GFv F x X) (hX : |X| ≤ 0.3467) (h0 : 1 / 2 ^ 60 ≤ |X|) :
    Ok (tail N K x c 0) fun z => Res F z (Real.exp X - 1) := by
  have h127 := hF.bias
  have hu0 := u_pos F
  have hu1 := u_le hF
  have hu2 := u_tiny hs
  have h100 : (1 : ℝ) ≤ 2 ^ (100 : ℤ) := one_le_zpow₀ (by norm_num) (by norm_num)
  obtain ⟨q, gq, eq⟩ := hK.q N x X hx hX
  obtain ⟨q0, q1⟩ := hK.qb X hX
  have hXa := abs_le.mp hX
  have ghf : GFv F (N.mul K.half x) (X / 2) := by
    have := dblX hF hx h0 (k := -1) (by norm_num) (z := N.mul K.half x) (by
      rw [show X * 2 ^ (-1 : ℤ) = 1 / 2 * X by norm_num; ring]; exact hK.half.mulR N hx) (big_of hF (by
      rw [abs_mul, abs_of_pos (by positivity : (0 : ℝ) < 2 ^ (-1 : ℤ))]; norm_num at hX ⊢; linarith))
    rwa [show X * 2 ^ (-1 : ℤ) = X / 2 by norm_num; ring] at this
  have hb1 : |X * (X / 2)| ≤ 1 := by rw [abs_mul, abs_div, abs_two]; norm_num at hX; nlinarith [abs_nonneg X]
  obtain ⟨Hx, gH, eH⟩ := GFv.rnd hF (hx.mulR N ghf) (by linarith)
  have hqb : |q| ≤ 1 := by
    have := abs_add_le (q - m1q R X) (m1q R X); rw [sub_add_cancel] at this
    have : |m1q R X| ≤ 45 / 100 := abs_le.mpr ⟨q0, by linarith⟩
    have h20 : (1 : ℝ) / 2 ^ 20 ≤ 1 / 1000 := by norm_num
    linarith
  have hHb : |Hx| ≤ 2 := (rnd_bd hu1 eH hb1 (by norm_num)).trans (by norm_num)
  have hb2 : |Hx * q| ≤ 2 := by rw [abs_mul]; nlinarith [abs_nonneg Hx, abs_nonneg q]
  have h100' : (100 : ℝ) ≤ 2 ^ (100 : ℤ) := by norm_num
  obtain ⟨e, ge, ee⟩ := GFv.rnd hF (gH.mulR N gq) (by linarith)
  have heb : |e| ≤ 5 := (rnd_bd hu1 ee hb2 (by norm_num)).trans (by norm_num)
  have hb3 : |X * e| ≤ 5 := by rw [abs_mul]; norm_num at hX; nlinarith [abs_nonneg X, abs_nonneg e]
  have ge : GFv F (e0 N K x) e := ge
  obtain ⟨m, gm, em⟩ := GFv.rnd hF (hx.mulR N ge) (by linarith)
  have hmb : |m| ≤ 11 := (rnd_bd hu1 em hb3 (by norm_num)).trans (by norm_num)
  have hb4 : |m - Hx| ≤ 13 := (abs_sub _ _).trans (by linarith)
  obtain ⟨w, gw, ew⟩ := GFv.rnd hF (gm.subR N gH) (by linarith)
  have hwb : |w| ≤ 30 := (rnd_bd hu1 ew hb4 (by norm_num)).trans (by norm_num)
  have hb5 : |X - w| ≤ 31 := (abs_sub _ _).trans (by norm_num at hX; linarith)
  obtain ⟨V, gV, eV⟩ := GFv.rnd hF (hx.subR N gw) (by linarith)
  have h8 := Real.abs_exp_sub_one_sub_id_le (x := X) (by norm_num at hX ⊢; linarith)
  have hfin := mid_zero (θ := Real.exp X - 1) hu0 hu1 rfl hX (by
    have := mul_le_mul hu2 h0 (by positivity) hu0.le
    norm_num at this ⊢
    linarith) eH eq (abs_le.mpr ⟨q0, by linarith⟩) ee em ew eV (hK.ap X hX) h8
  unfold tail
  simp only
  rw [if_pos trivial]
  refine ⟨_, rfl, V, gV, hfin, ?_⟩
  have hER := exp_range (r := X) (by norm_num at hX ⊢; linarith)
  have h1 : |Real.exp X - 1| ≤ 1 / 2 := by rw [abs_le]; norm_num at hER ⊢; constructor <;> linarith
  have h2 := (abs_le.mp hfin).1
  generalize (1 : ℝ) / 2 ^ (F.s + 1) = u at *
  norm_num at hER hu1
  nlinarith
end
end Expm1
end Verif
