import Verif.Libm.Expm1Core
/-! # The cases of `expm1` and `expm1f`, in any format -/
namespace Verif
open Fmt Poly
namespace Expm1
variable {F : Fmt}

theorem pw_spec (F : Fmt) {k : ℤ} (h0 : 1 ≤ F.bias + k) (h1 : k ≤ F.bias) (hb : (F.bias : ℤ) < 2 ^ 20) : ∃ p, pw (F := F) k = .ok p ∧ GFv F p (2 ^ k) := by
  obtain ⟨n, hn⟩ : ∃ n : ℕ, (n : ℤ) = F.bias + k := ⟨(F.bias + k).toNat, by omega⟩
  have hpb := F.pe_bias
  have hps := F.ps_succ
  have hP := F.fromParts_pow (E := n) (by omega) (by omega)
  have e : F.fromParts false n 0#F.w = BitVec.ofInt F.w (F.bias + k) <<< F.s := by
    rw [← hn, BitVec.ofInt_natCast]
    unfold Fmt.fromParts
    have : n &&& F.expSat = n := by
      rw [F.expSat_eq, Nat.and_two_pow_sub_one_eq_mod, Nat.mod_eq_of_lt (by omega)]
    rw [this]
    simp
  refine ⟨_, by unfold pw i32C; rw [if_pos (by omega)]; rfl, ?_⟩
  rw [← e]
  refine ⟨hP.fin, ?_⟩
  have h2 := hP.value
  have h3 : F.valK ℝ (F.fromParts false n 0#F.w) = F.magVal ℝ (F.mag (F.fromParts false n 0#F.w)) := by
    unfold Fmt.valK; rw [hP.sgn]; simp
  rw [h3, ← F.magVal_cast, h2]
  push_cast
  congr 1; omega

theorem pw_ok (F : Fmt) {k : ℤ} (h0 : 1 ≤ F.bias + k) (h1 : k ≤ F.bias + 1) (hb : (F.bias : ℤ) < 2 ^ 20) : ∃ p, pw (F := F) k = .ok p := by
  refine ⟨_, by unfold pw i32C; rw [if_pos (by omega)]; rfl⟩

/-- exact multiplication by a power of two -/
theorem dblX (hF : F.Big) {y z : BitVec F.w} {Y : ℝ} (hy : GFv F y Y) (hY : 1 / 2 ^ 60 ≤ |Y|) {k : ℤ} (hk : -60 ≤ k) (h : F.Rounds (Y * 2 ^ k) z)
    (hb : |Y * 2 ^ k| < 2 ^ ((F.bias : ℤ) + 1)) : GFv F z (Y * 2 ^ k) := by
  have h127 := hF.bias
  obtain ⟨m, j, e, hm1, hj1, _⟩ := F.val_dec y
  rw [hy.val] at e
  have hrp : F.Rp (Y * 2 ^ k) := by
    refine F.rp_of (m := m) (j := j + k) ?_ hm1.le ?_
    · rw [e, mul_assoc, ← zpow_add₀ (by norm_num)]
    · by_contra hc
      rw [not_le] at hc
      rw [e, abs_mul, abs_of_pos (show (0 : ℝ) < 2 ^ j by positivity)] at hY
      have h1 : |(m : ℝ)| ≤ 2 ^ (F.s + 1) := by exact_mod_cast hm1.le
      have h2 : |(m : ℝ)| * 2 ^ j ≤ 2 ^ (F.s + 1) * 2 ^ j := mul_le_mul_of_nonneg_right h1 (by positivity)
      have h3 : (2 : ℝ) ^ (F.s + 1) * 2 ^ j ≤ 2 ^ (-61 : ℤ) := by
        rw [← zpow_natCast, ← zpow_add₀ (by norm_num)]
        exact zpow_le_zpow_right₀ (by norm_num) (by push_cast; omega)
      norm_num at h3 hY
      linarith
  have hex := h.exactR F hrp hb.le
  refine ⟨?_, hex⟩
  unfold Fmt.IsFin
  rw [← F.magValR_lt_iff, F.magValR_infRep, ← F.absvR, hex]
  exact hb

section
variable {K : Cn F} {R : List ℚ} {x c w : BitVec F.w} {X γ r W : ℝ}

theorem wE_ideal (hK : COk F K R) {q : ℝ} : wE.ideal (ks K) (four X q γ W) = S X q γ := by
  show X - eE.ideal (ks K) (four X q γ W) = _
  rw [e1_ideal hK]; ring

theorem r_bd (hF : F.Big) (h : Rd F x c X γ r) : |r| ≤ 0.3468 := by
  have h2 := u_le hF
  have e : r = (r - X - γ) + γ + X := by ring
  rw [e]
  refine ((abs_add_le _ _).trans (add_le_add (abs_add_le _ _) (le_refl _))).trans ?_
  have a1 := h.gr
  have a2 := h.gg
  have a3 := h.bd
  norm_num at *; linarith

theorem u_tiny (hs : F.s ≤ 52) : (1 : ℝ) / 2 ^ 53 ≤ 1 / 2 ^ (F.s + 1) :=
  one_div_le_one_div_of_le (by positivity) (pow_le_pow_right₀ (by norm_num) (by omega))

theorem S_bd (hF : F.Big) (hK : COk F K R) (h : Rd F x c X γ r) : |S X (m1q R X) γ| ≤ 1 := by
  have h1 := near hF hK h
  have h2 := u_le hF
  have h3 := u_pos F
  have h4 := exp_range (r_bd hF h)
  rw [abs_le] at h1 ⊢
  norm_num at *
  constructor <;> linarith [h1.1, h1.2]

theorem zero_gf (F : Fmt) : GFv F 0#F.w 0 := by
  have hm : F.mag 0#F.w = 0 := by unfold Fmt.mag; simp
  refine ⟨?_, ?_⟩
  · unfold Fmt.IsFin
    rw [hm, ← F.magValR_lt_iff, F.magValR_infRep, ← F.magVal_cast, F.magVal_zero]
    simp; positivity
  · rw [← F.valK_cast]
    unfold Fmt.val Fmt.valK
    rw [hm, F.magVal_zero]; simp

/-- `0.5 * (x - e) - 0.5` -/
theorem caseA (hF : F.Big) (hK : COk F K R) (N : FPU F) (h : Rd F x c X γ r) :
    ∃ V, GFv F (N.sub (N.mul K.half (N.sub x (e1 N K x c))) K.half) V ∧ |V - (Real.exp r / 2 - 1)| ≤ 198 / 100 * (1 / 2 ^ (F.s + 1)) * |Real.exp r / 2 - 1| := by
  obtain ⟨g0, g1⟩ := bds h
  have hn := near hF hK h
  have hu := u_pos F
  have := run' hF hK N h hK.chk.a (by norm_num) (by norm_num) g0 g1 (θ := Real.exp r / 2 - 1) (z := N.sub (N.mul K.half (N.sub x (e1 N K x c))) K.half) (by
    rw [wE_ideal hK]
    push_cast
    rw [show S X (m1q R X) γ * (1 / 2) + -1 / 2 - (Real.exp r / 2 - 1) = (1 + S X (m1q R X) γ - Real.exp r) / 2 by ring, abs_div, abs_two]
    linarith) (by
    intro W hW hW9
    have hW : GFv F (N.sub x (e1 N K x c)) W := hW
    have hr := hK.half.mulR N hW
    obtain ⟨Z, gZ, eZ⟩ := dbl hF hW (-1) (by rw [show W * 2 ^ (-1 : ℤ) = 1 / 2 * W by norm_num; ring]; exact hr) (big_of hF (by
      rw [abs_mul, abs_of_pos (by positivity : (0 : ℝ) < 2 ^ (-1 : ℤ))]; norm_num; linarith))
    refine ⟨Z, ?_, ?_⟩
    · push_cast
      rw [show W * 2 ^ (-1 : ℤ) = W * (1 / 2) by norm_num] at eZ
      exact eZ.trans (by norm_num)
    · have := gZ.subR N hK.half
      push_cast
      rwa [show Z + -1 / 2 = Z - 1 / 2 by ring]) (by
    rw [wE_ideal hK]; have := S_bd hF hK h; linarith) (zero_gf F)
  push_cast at this
  exact this

/-- `1 + 2 * (x - e)` -/
theorem caseC (hF : F.Big) (hK : COk F K R) (N : FPU F) (h : Rd F x c X γ r) (hX : -(1 / 4) ≤ X) :
    ∃ V, GFv F (N.add K.one (N.mul K.two (N.sub x (e1 N K x c)))) V ∧ |V - (Real.exp r * 2 - 1)| ≤ 198 / 100 * (1 / 2 ^ (F.s + 1)) * |Real.exp r * 2 - 1| := by
  obtain ⟨g0, g1⟩ := bds h
  have hn := near hF hK h
  have hu := u_pos F
  have := run' hF hK N h hK.chk.c (by norm_num) (by norm_num) (by push_cast; linarith) g1 (θ := Real.exp r * 2 - 1) (z := N.add K.one (N.mul K.two (N.sub x (e1 N K x c)))) (by
    rw [wE_ideal hK]
    push_cast
    rw [show S X (m1q R X) γ * 2 + 1 - (Real.exp r * 2 - 1) = (1 + S X (m1q R X) γ - Real.exp r) * 2 by ring, abs_mul, abs_two]
    linarith) (by
    intro W hW hW9
    have hW : GFv F (N.sub x (e1 N K x c)) W := hW
    have hr := hK.two.mulR N hW
    obtain ⟨Z, gZ, eZ⟩ := dbl hF hW 1 (by rw [show W * 2 ^ (1 : ℤ) = 2 * W by norm_num; ring]; exact hr) (big_of hF (by
      rw [abs_mul, abs_of_pos (by positivity : (0 : ℝ) < 2 ^ (1 : ℤ))]; norm_num; linarith))
    refine ⟨Z, ?_, ?_⟩
    · push_cast
      rw [show W * 2 ^ (1 : ℤ) = W * 2 by norm_num] at eZ
      exact eZ.trans (by norm_num)
    · have := hK.one.addR N gZ
      push_cast
      rwa [add_comm]) (by
    rw [wE_ideal hK]; have := S_bd hF hK h; linarith) (zero_gf F)
  push_cast at this
  exact this

/-- `-2 * (e - (x + 0.5))` -/
theorem caseB (hF : F.Big) (hs : F.s ≤ 52) (hK : COk F K R) (N : FPU F) (h : Rd F x c X γ r) (hX : X < -(1 / 4)) :
    ∃ V, GFv F (N.mul K.mtwo (N.sub (e1 N K x c) (N.add x K.half))) V ∧ |V - (Real.exp r * 2 - 1)| ≤ 199 / 100 * (1 / 2 ^ (F.s + 1)) * |Real.exp r * 2 - 1| := by
  obtain ⟨g0, g1⟩ := bds h
  have hn := near hF hK h
  have hu := u_pos F
  have hu1 := u_le hF
  have h127 := hF.bias
  have hX2 := abs_le.mp h.bd
  have hw : GFv F (N.add x K.half) (X + 1 / 2) := by
    refine GFv.of_rounds hF (h.gx.addR N hK.half) (j := -2 - F.s) ?_ ?_ (by omega) ?_
    · have h1 := F.mul2_ge (b := x) (k := -2) (by rw [h.gx.val, abs_of_neg (by linarith)]; norm_num; linarith)
      rw [h.gx.val] at h1
      refine h1.add ?_
      refine Mul2.mono (j := -1) ⟨1, by norm_num⟩ (by omega)
    · rw [show -2 - (F.s : ℤ) + F.s + 1 = -1 by ring, abs_of_nonneg (by norm_num at hX2 ⊢; linarith [hX2.1])]
      norm_num; linarith
    · rw [abs_of_nonneg (by norm_num at hX2 ⊢; linarith [hX2.1])]
      norm_num; linarith
  obtain ⟨V, gV, eV⟩ := run hF hK N h hw hK.chk.b (by norm_num) (by push_cast; linarith) (by push_cast; linarith) (by norm_num) g0 (by push_cast; linarith) (θ := -(Real.exp r * 2 - 1) / 2) (by
    have : bE.ideal (ks K) (four X (m1q R X) γ (X + 1 / 2)) = X - S X (m1q R X) γ - (X + 1 / 2) := by
      show eE.ideal (ks K) (four X (m1q R X) γ (X + 1 / 2)) - (X + 1 / 2) = _
      rw [e1_ideal hK]
    rw [this, show X - S X (m1q R X) γ - (X + 1 / 2) - -(Real.exp r * 2 - 1) / 2 = -(1 + S X (m1q R X) γ - Real.exp r) by ring, abs_neg]
    push_cast; linarith)
  have gV : GFv F (N.sub (e1 N K x c) (N.add x K.half)) V := gV
  obtain ⟨E, hE⟩ : ∃ E, E = Real.exp r * 2 - 1 := ⟨_, rfl⟩
  rw [← hE] at eV ⊢
  have hEb : 2 / 5 ≤ E ∧ E ≤ 2 := by
    have h4 := exp_range (r_bd hF h)
    rw [hE]; norm_num at h4 ⊢; constructor <;> linarith
  have hVb : |V| ≤ 3 := by
    have := abs_add_le (V - -E / 2) (-E / 2)
    rw [sub_add_cancel, abs_div, abs_neg, abs_two, abs_of_nonneg (by linarith : 0 ≤ E)] at this
    rw [abs_div, abs_neg, abs_two, abs_of_nonneg (by linarith : 0 ≤ E)] at eV
    push_cast at eV
    generalize (1 : ℝ) / 2 ^ (F.s + 1) = u at *
    norm_num at hu1
    nlinarith
  obtain ⟨Z, gZ, eZ⟩ := dbl hF gV.neg 1 (z := N.mul K.mtwo (N.sub (e1 N K x c) (N.add x K.half))) (by
    rw [show -V * 2 ^ (1 : ℤ) = -2 * V by norm_num; ring]; exact hK.mtwo.mulR N gV) (big_of hF (by
      rw [abs_mul, abs_neg, abs_of_pos (by positivity : (0 : ℝ) < 2 ^ (1 : ℤ))]; norm_num; linarith))
  refine ⟨Z, gZ, ?_⟩
  have e2 : |(-V) * 2 - E| ≤ 198 / 100 * (1 / 2 ^ (F.s + 1)) * |E| := by
    rw [show (-V) * 2 - E = -((V - -E / 2) * 2) by ring, abs_neg, abs_mul, abs_two]
    rw [abs_div, abs_neg, abs_two] at eV
    push_cast at eV
    linarith
  have h3 := abs_add_le (Z - -V * 2) (-V * 2 - E)
  rw [sub_add_sub_cancel] at h3
  have : (1 : ℝ) / 2 ^ 150 ≤ 1 / 100 * (1 / 2 ^ (F.s + 1)) * |E| := by
    have h8 := u_tiny hs
    rw [abs_of_nonneg (by linarith : 0 ≤ E)]
    generalize (1 : ℝ) / 2 ^ (F.s + 1) = u at *
    norm_num at h8 ⊢
    nlinarith
  norm_num at eZ
  generalize (1 : ℝ) / 2 ^ (F.s + 1) = u at *
  norm_num at *
  linarith

/-- `x - e + 1` -/
theorem caseD (hF : F.Big) (hK : COk F K R) (N : FPU F) (h : Rd F x c X γ r) :
    ∃ V, GFv F (N.add (N.sub x (e1 N K x c)) K.one) V ∧ |V - Real.exp r| ≤ 3 / 2 * (1 / 2 ^ (F.s + 1)) * Real.exp r := by
  obtain ⟨g0, g1⟩ := bds h
  have hn := near hF hK h
  have hu := u_pos F
  obtain ⟨V, gV, eV⟩ := run hF hK N h (zero_gf F) hK.chk.d (by norm_num) (by push_cast; linarith) (by push_cast; linarith) (by norm_num) g0 g1 (θ := Real.exp r) (by
    have h1 : ((F.val K.one : ℚ) : ℝ) = 1 := hK.one.valQ
    have : dE.ideal (ks K) (four X (m1q R X) γ 0) = S X (m1q R X) γ + 1 := by
      show X - eE.ideal (ks K) (four X (m1q R X) γ 0) + ((F.val K.one : ℚ) : ℝ) = _
      rw [e1_ideal hK, h1]; ring
    rw [this, add_comm]
    push_cast; linarith)
  rw [abs_of_pos (Real.exp_pos r)] at eV
  push_cast at eV
  exact ⟨V, gV, eV⟩

/-- `x - e + (1 - uf)` -/
theorem caseF (hF : F.Big) (hK : COk F K R) (N : FPU F) (h : Rd F x c X γ r) {k : ℤ} (hk0 : 2 ≤ k) (hk1 : k ≤ 23) {uf : BitVec F.w} (hu : GFv F uf (2 ^ (-k))) :
    ∃ V, GFv F (N.add (N.sub x (e1 N K x c)) (N.sub K.one uf)) V ∧ |V - (Real.exp r - 2 ^ (-k))| ≤ 198 / 100 * (1 / 2 ^ (F.s + 1)) * |Real.exp r - 2 ^ (-k)| := by
  obtain ⟨g0, g1⟩ := bds h
  have hn := near hF hK h
  have hup := u_pos F
  have h23 := hF.s
  have h127 := hF.bias
  have hp0 : (0 : ℝ) < 2 ^ (-k) := by positivity
  have hp1 : (2 : ℝ) ^ (-k) ≤ 1 / 4 := (zpow_le_zpow_right₀ (by norm_num) (by omega : -k ≤ -2)).trans (by norm_num)
  have hw : GFv F (N.sub K.one uf) (1 - 2 ^ (-k)) := by
    refine GFv.of_rounds hF (hK.one.subR N hu) (j := -k) ?_ ?_ (by omega) ?_
    · exact Mul2.sub (Mul2.mono (j := 0) ⟨1, by norm_num⟩ (by omega)) ⟨1, by simp⟩
    · have : (1 : ℝ) ≤ 2 ^ (-k + F.s + 1) := one_le_zpow₀ (by norm_num) (by omega)
      rw [abs_of_nonneg (by linarith)]
      linarith
    · rw [abs_of_nonneg (by linarith)]
      have : (1 : ℝ) ≤ 2 ^ (100 : ℤ) := one_le_zpow₀ (by norm_num) (by norm_num)
      linarith
  have hid : |fE.ideal (ks K) (four X (m1q R X) γ (1 - 2 ^ (-k))) - (Real.exp r - 2 ^ (-k))| ≤ ((3 / 100 : ℚ) : ℝ) * (1 / 2 ^ (F.s + 1)) := by
    have : fE.ideal (ks K) (four X (m1q R X) γ (1 - 2 ^ (-k))) = S X (m1q R X) γ + (1 - 2 ^ (-k)) := by
      show X - eE.ideal (ks K) (four X (m1q R X) γ _) + _ = _
      rw [e1_ideal hK]
      show X - _ + (1 - 2 ^ (-k)) = _
      ring
    rw [this, show S X (m1q R X) γ + (1 - 2 ^ (-k)) - (Real.exp r - 2 ^ (-k)) = 1 + S X (m1q R X) γ - Real.exp r by ring]
    push_cast; linarith
  have key : ∃ V, GFv F (fE.flt N (ks K) (four x (qd N K x) c (N.sub K.one uf))) V ∧
      |V - (Real.exp r - 2 ^ (-k))| ≤ ((198 / 100 : ℚ) : ℝ) * (1 / 2 ^ (F.s + 1)) * |Real.exp r - 2 ^ (-k)| := by
    rcases (by omega : k = 2 ∨ k = 3 ∨ 4 ≤ k) with hk | hk | hk
    · have e : (1 : ℝ) - 2 ^ (-k) = 3 / 4 := by rw [hk]; norm_num
      exact run hF hK N h hw hK.chk.f2 (by norm_num) (by push_cast; linarith) (by push_cast; linarith) (by norm_num) g0 g1 hid
    · have e : (1 : ℝ) - 2 ^ (-k) = 7 / 8 := by rw [hk]; norm_num
      exact run hF hK N h hw hK.chk.f3 (by norm_num) (by push_cast; linarith) (by push_cast; linarith) (by norm_num) g0 g1 hid
    · have e : (2 : ℝ) ^ (-k) ≤ 1 / 16 := (zpow_le_zpow_right₀ (by norm_num) (by omega : -k ≤ -4)).trans (by norm_num)
      exact run hF hK N h hw hK.chk.f4 (by norm_num) (by push_cast; linarith) (by push_cast; linarith) (by norm_num) g0 g1 hid
  obtain ⟨V, gV, eV⟩ := key
  push_cast at eV
  exact ⟨V, gV, eV⟩

/-- `x - (e + uf) + 1` -/
theorem caseG (hF : F.Big) (hK : COk F K R) (N : FPU F) (h : Rd F x c X γ r) {k : ℤ} (hk0 : 20 ≤ k) {uf : BitVec F.w} (hu : GFv F uf (2 ^ (-k))) :
    ∃ V, GFv F (N.add (N.sub x (N.add (e1 N K x c) uf)) K.one) V ∧ |V - (Real.exp r - 2 ^ (-k))| ≤ 198 / 100 * (1 / 2 ^ (F.s + 1)) * |Real.exp r - 2 ^ (-k)| := by
  obtain ⟨g0, g1⟩ := bds h
  have hn := near hF hK h
  have hup := u_pos F
  have hp0 : (0 : ℝ) < 2 ^ (-k) := by positivity
  have hp1 : (2 : ℝ) ^ (-k) ≤ 2 ^ (-20 : ℤ) := zpow_le_zpow_right₀ (by norm_num) (by omega)
  norm_num at hp1
  obtain ⟨V, gV, eV⟩ := run hF hK N h hu hK.chk.g (by norm_num) (by push_cast; linarith) (by push_cast; norm_num; linarith) (by norm_num) g0 g1 (θ := Real.exp r - 2 ^ (-k)) (by
    have h1 : ((F.val K.one : ℚ) : ℝ) = 1 := hK.one.valQ
    have : gE.ideal (ks K) (four X (m1q R X) γ (2 ^ (-k))) = S X (m1q R X) γ + 1 - 2 ^ (-k) := by
      show X - (eE.ideal (ks K) (four X (m1q R X) γ _) + 2 ^ (-k)) + ((F.val K.one : ℚ) : ℝ) = _
      rw [e1_ideal hK, h1]; ring
    rw [this, show S X (m1q R X) γ + 1 - 2 ^ (-k) - (Real.exp r - 2 ^ (-k)) = 1 + S X (m1q R X) γ - Real.exp r by ring]
    push_cast; linarith)
  push_cast at eV
  exact ⟨V, gV, eV⟩
end
end Expm1
end Verif
