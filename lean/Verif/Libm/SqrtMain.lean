import Verif.Libm.SqrtProofs
/-! # `sqrt`: the main theorem -/
namespace Verif
namespace Fmt
variable {F : Fmt}

/-- the nearest integer to the root gives the nearest floating-point number -/
theorem nearSqrt_rne {Q n G : Nat} (hG : 1 ≤ G) (hG' : G + 1 < 2 ^ F.e) (h : NearSqrt Q n) (h0 : 2 ^ F.s ≤ n) (h1 : n < 2 ^ (F.s + 1))
    (hQ : 2 ^ F.s * 2 ^ F.s ≤ Q) :
    F.IsRNEu (Real.sqrt Q * 2 ^ (G - 1)) ((G - 1) * 2 ^ F.s + n) := by
  have hps := F.ps_ge
  have hpsu := F.ps_succ
  have hinf : (G - 1) * 2 ^ F.s + n + 1 ≤ F.infRep := by
    unfold infRep
    calc (G - 1) * 2 ^ F.s + n + 1 ≤ (G - 1) * 2 ^ F.s + 2 * 2 ^ F.s := by omega
      _ = (G - 1 + 2) * 2 ^ F.s := by ring
      _ ≤ _ := Nat.mul_le_mul_right _ (by omega)
  obtain ⟨a1, a2⟩ := h
  have hs0 := Real.sqrt_nonneg (Q : ℝ)
  have hsq : Real.sqrt Q ^ 2 = Q := Real.sq_sqrt (Nat.cast_nonneg _)
  have a1' : ((n * n + 1 : Nat) : ℝ) ≤ ((Q + n : Nat) : ℝ) := by exact_mod_cast a1
  have a2' : (Q : ℝ) ≤ ((n * n + n : Nat) : ℝ) := by exact_mod_cast a2
  push_cast at a1' a2'
  have hn : (1024 : ℝ) ≤ n := by exact_mod_cast (by omega : 1024 ≤ n)
  have hP : ((2 ^ F.s : Nat) : ℝ) ≤ Real.sqrt Q := by
    apply Real.le_sqrt_of_sq_le
    rw [pow_two]; exact_mod_cast hQ
  generalize Real.sqrt (Q : ℝ) = y at *
  have u1 : y < n + 1 / 2 := by nlinarith
  have u2 : (n : ℝ) - 1 / 2 < y := by nlinarith
  have hB : (0 : ℝ) < 2 ^ (G - 1) := by positivity
  by_cases c : (n : ℝ) ≤ y
  · refine F.isRNEu_between hinf ?_ ?_ (Or.inl ⟨?_, rfl⟩)
    · rw [F.valU_eq hG h1.le (Or.inl h0)]; push_cast; exact mul_le_mul_of_nonneg_right c hB.le
    · rw [Nat.add_assoc, F.valU_eq hG (by omega) (Or.inl (by omega))]; push_cast
      exact mul_le_mul_of_nonneg_right (by linarith) hB.le
    · rw [Nat.add_assoc, F.valU_eq hG h1.le (Or.inl h0), F.valU_eq hG (by omega) (Or.inl (by omega))]; push_cast
      nlinarith
  · have c := not_le.mp c
    have hn2 : 2 ^ F.s < n := by
      have : ((2 ^ F.s : Nat) : ℝ) < (n : ℝ) := lt_of_le_of_lt hP c
      exact_mod_cast this
    obtain ⟨k, rfl⟩ : ∃ k, n = k + 1 := ⟨n - 1, by omega⟩
    push_cast at c u1 u2
    have e : (G - 1) * 2 ^ F.s + (k + 1) = (G - 1) * 2 ^ F.s + k + 1 := by omega
    rw [e]
    refine F.isRNEu_between (by omega) ?_ ?_ (Or.inr (Or.inl ⟨?_, rfl⟩))
    · rw [F.valU_eq hG (by omega) (Or.inl (by omega))]; push_cast; exact mul_le_mul_of_nonneg_right (by linarith) hB.le
    · rw [Nat.add_assoc, F.valU_eq hG (by omega) (Or.inl (by omega))]; push_cast
      exact mul_le_mul_of_nonneg_right (by linarith) hB.le
    · rw [Nat.add_assoc, F.valU_eq hG (by omega) (Or.inl (by omega)), F.valU_eq hG (by omega) (Or.inl (by omega))]; push_cast
      nlinarith

/-- a tiny addend does not change a number well above the smallest normal number -/
theorem tiny_rne {n G : Nat} {t : ℚ} (hG : F.s + 4 ≤ G) (hG' : G + 1 < 2 ^ F.e) (h0 : 2 ^ F.s ≤ n) (h1 : n < 2 ^ (F.s + 1))
    (ht : |t| ≤ 2 ^ F.s) : F.IsRNEu ((n : ℚ) * 2 ^ (G - 1) + t) ((G - 1) * 2 ^ F.s + n) := by
  have hps := F.ps_ge
  have hpsu := F.ps_succ
  have hinf : (G - 1) * 2 ^ F.s + n + 1 ≤ F.infRep := by
    unfold infRep
    calc (G - 1) * 2 ^ F.s + n + 1 ≤ (G - 1) * 2 ^ F.s + 2 * 2 ^ F.s := by omega
      _ = (G - 1 + 2) * 2 ^ F.s := by ring
      _ ≤ _ := Nat.mul_le_mul_right _ (by omega)
  obtain ⟨t1, t2⟩ := abs_le.mp ht
  have hB : (8 : ℚ) * 2 ^ F.s ≤ 2 ^ (G - 1) := by
    have : (2 : ℚ) ^ (3 + F.s) ≤ 2 ^ (G - 1) := pow_le_pow_right₀ (by norm_num) (by omega)
    rw [pow_add] at this
    norm_num at this ⊢; exact this
  have hP : (0 : ℚ) < 2 ^ F.s := by positivity
  by_cases c : 0 ≤ t
  · refine F.isRNEu_between hinf ?_ ?_ (Or.inl ⟨?_, rfl⟩)
    · rw [F.valU_eq (by omega) h1.le (Or.inl h0)]; push_cast; linarith
    · rw [Nat.add_assoc, F.valU_eq (by omega) (by omega) (Or.inl (by omega))]; push_cast; linarith
    · rw [Nat.add_assoc, F.valU_eq (by omega) h1.le (Or.inl h0), F.valU_eq (by omega) (by omega) (Or.inl (by omega))]; push_cast; linarith
  · have c := not_le.mp c
    by_cases hn : n = 2 ^ F.s
    · obtain ⟨k, hk⟩ : ∃ k, 2 * 2 ^ F.s = k + 1 := ⟨2 * 2 ^ F.s - 1, by omega⟩
      obtain ⟨g, hg⟩ : ∃ g, G - 1 = g + 1 := ⟨G - 2, by omega⟩
      have e : (G - 1) * 2 ^ F.s + n = (G - 1 - 1) * 2 ^ F.s + k + 1 := by
        rw [hn, hg, Nat.add_sub_cancel, Nat.add_mul]; omega
      have hkq : (k : ℚ) + 1 = 2 * 2 ^ F.s := by exact_mod_cast hk.symm
      rw [e]
      rw [hg] at hB ⊢
      rw [pow_succ] at hB ⊢
      rw [hn]
      have hm : (2 ^ F.s : ℚ) * (2 ^ g * 2) = (k + 1) * 2 ^ g := by rw [hkq]; ring
      push_cast
      rw [hm]
      have e2 := F.valU_eq (E := g + 1) (m := k) (by omega) (by omega) (Or.inl (by omega))
      have e3 := F.valU_eq (E := g + 1) (m := k + 1) (by omega) (by omega) (Or.inl (by omega))
      rw [Nat.add_sub_cancel] at e2 e3
      refine F.isRNEu_between (by rw [e, hg, Nat.add_sub_cancel] at hinf; omega) ?_ ?_ (Or.inr (Or.inl ⟨?_, rfl⟩))
      · rw [e2]; push_cast; linarith
      · rw [Nat.add_assoc, e3]; push_cast; linarith
      · rw [Nat.add_assoc, e2, e3]; push_cast; linarith
    · obtain ⟨k, rfl⟩ : ∃ k, n = k + 1 := ⟨n - 1, by omega⟩
      have e : (G - 1) * 2 ^ F.s + (k + 1) = (G - 1) * 2 ^ F.s + k + 1 := by omega
      rw [e]
      refine F.isRNEu_between (by omega) ?_ ?_ (Or.inr (Or.inl ⟨?_, rfl⟩))
      · rw [F.valU_eq (by omega) (by omega) (Or.inl (by omega))]; push_cast; linarith
      · rw [Nat.add_assoc, F.valU_eq (by omega) (by omega) (Or.inl (by omega))]; push_cast; linarith
      · rw [Nat.add_assoc, F.valU_eq (by omega) (by omega) (Or.inl (by omega)), F.valU_eq (by omega) (by omega) (Or.inl (by omega))]; push_cast
        linarith

theorem sqrtInexact_eq (N : FPU F) (htiny : F.w ≤ 16 ∨ 3 * F.s + 8 ≤ F.bias) {m d1 : BitVec F.w} {n G : Nat}
    (hm : m.toNat = (G - 1) * 2 ^ F.s + n) (hG0 : 2 ≤ G) (hG : F.bias ≤ 2 * G + F.s) (hG' : G + 1 < 2 ^ F.e) (h0 : 2 ^ F.s ≤ n)
    (h1 : n < 2 ^ (F.s + 1)) : F.sqrtInexact N m d1 = m := by
  unfold sqrtInexact
  by_cases c : F.w > 16
  swap
  · rw [if_neg c]
  rw [if_pos c]
  have htiny := htiny.resolve_left (by omega)
  have hps := F.ps_ge
  have hpsu := F.ps_succ
  have hpe := F.pe_ge
  have hia := F.infRep_add
  have hbig : 32 * 2 ^ F.s ≤ 2 ^ F.e * 2 ^ F.s := Nat.mul_le_mul_right _ hpe
  have hlt : (G - 1) * 2 ^ F.s + n < F.infRep := by
    unfold infRep
    calc (G - 1) * 2 ^ F.s + n < (G - 1) * 2 ^ F.s + 2 * 2 ^ F.s := by omega
      _ = (G - 1 + 2) * 2 ^ F.s := by ring
      _ ≤ _ := Nat.mul_le_mul_right _ (by omega)
  obtain ⟨sm, mm⟩ := F.sign_mag_of (b := m) (t := false) (n := (G - 1) * 2 ^ F.s + n) (by have := F.infRep_lt; omega) (by rw [hm]; simp)
  dsimp only
  generalize d1 + m + 1#F.w = d2
  generalize d1 ^^^ d2 = d3
  -- the addend
  have hmz : ∀ z : BitVec F.w, z.toNat = 0 ∨ z.toNat = 2 ^ F.s →
      F.mag (z ||| (d3 &&& F.signMask)) = z.toNat := by
    intro z hz
    refine (F.sign_mag_of (t := F.sign d3) (n := z.toNat) (by rw [F.pes]; omega) ?_).2
    exact F.toNat_or_sign (by rw [F.pes]; omega) (F.toNat_and_signMask d3)
  have hmag : ∃ k, (k = 0 ∨ k = 2 ^ F.s) ∧ F.mag ((if d2 = 0#F.w then 0#F.w else F.implicitBit) ||| (d3 &&& F.signMask)) = k := by
    by_cases hd : d2 = 0#F.w
    · rw [if_pos hd]
      exact ⟨0, Or.inl rfl, hmz _ (Or.inl (by simp))⟩
    · rw [if_neg hd]
      exact ⟨2 ^ F.s, Or.inr rfl, by rw [hmz _ (Or.inr F.toNat_implicitBit), F.toNat_implicitBit]⟩
  obtain ⟨k, hk, hkm⟩ := hmag
  generalize (if d2 = 0#F.w then 0#F.w else F.implicitBit) ||| (d3 &&& F.signMask) = t at *
  have hft : F.IsFin t := by unfold IsFin; rw [hkm]; omega
  have hfm : F.IsFin m := by unfold IsFin; rw [mm]; exact hlt
  obtain ⟨hr, -⟩ := (N.add_spec m t).1 hfm hft
  have hu := F.ulp0_pos ℚ
  have hvm : F.val m = ((n : ℚ) * 2 ^ (G - 1)) * F.ulp0 ℚ := by
    rw [F.val_sign, sm, mm, F.magVal_eq, F.valU_eq (by omega) h1.le (Or.inl h0)]
    simp
  have hku : F.valU k = k := by
    have := F.valU_eq (E := 1) (m := k) (le_refl _) (by omega) (Or.inr rfl)
    rw [Nat.sub_self, Nat.zero_mul, Nat.zero_add, Nat.pow_zero, Nat.mul_one] at this
    exact this
  obtain ⟨τ, hτ, hvt⟩ : ∃ τ : ℚ, |τ| ≤ 2 ^ F.s ∧ F.val t = τ * F.ulp0 ℚ := by
    refine ⟨(if F.sign t then -1 else 1) * k, ?_, ?_⟩
    · have : |(if F.sign t then (-1 : ℚ) else 1) * k| = k := by
        split <;> simp
      rw [this]
      rcases hk with rfl | rfl
      · simp
      · push_cast; exact le_refl _
    · rw [F.val_sign, hkm, F.magVal_eq, hku, mul_assoc]
  have hR := tiny_rne (F := F) (t := τ) (by omega) hG' h0 h1 hτ
  have hpos : 0 < F.val m + F.val t := by
    rw [hvm, hvt, ← add_mul]
    apply mul_pos _ hu
    have a := (abs_le.mp hτ).1
    have b : (1 : ℚ) ≤ n := by exact_mod_cast (by omega : 1 ≤ n)
    have cc : (8 : ℚ) * 2 ^ F.s ≤ 2 ^ (G - 1) := by
      have : (2 : ℚ) ^ (3 + F.s) ≤ 2 ^ (G - 1) := pow_le_pow_right₀ (by norm_num) (by omega)
      rw [pow_add] at this
      norm_num at this ⊢; exact this
    have hP : (0 : ℚ) < 2 ^ F.s := by positivity
    nlinarith
  obtain ⟨r1, r2⟩ := hr
  have hsr : F.sign (N.add m t) = false := by
    cases hs : F.sign (N.add m t)
    · rfl
    · exact absurd ((r2 hpos.ne').mp hs) (not_lt.mpr hpos.le)
  refine F.ext_sign_mag (by rw [hsr, sm]) ?_
  rw [abs_of_pos hpos, hvm, hvt, ← add_mul, F.isRNE_iff] at r1
  rw [mm]
  exact IsRNEu.unique F r1 hR

theorem inTab_of {E' f s w e : Nat} {M : Nat} {σ : ℝ} (hs : 6 ≤ s) (he : 1 ≤ e) (hw : w = e + s + 1) (hf : f < 2 ^ s)
    (hM : M = (2 ^ s + f) * 2 ^ (e - E' % 2)) (h0 : 0 ≤ σ) (hσ : σ ^ 2 = 4 * (M : ℝ) / 2 ^ w) :
    InTab ((E' * 2 ^ s + f) / 2 ^ (s - 6) % 128) σ := by
  obtain ⟨k, rfl⟩ : ∃ k, s = k + 6 := ⟨s - 6, by omega⟩
  rw [Nat.add_sub_cancel]
  have hk := Nat.two_pow_pos k
  have hj : f / 2 ^ k < 64 := by
    rw [Nat.div_lt_iff_lt_mul hk]
    rw [Nat.pow_add] at hf; omega
  have hi : (E' * 2 ^ (k + 6) + f) / 2 ^ k % 128 = (E' % 2) * 64 + f / 2 ^ k := by
    have : E' * 2 ^ (k + 6) = 2 ^ k * (E' * 64) := by rw [Nat.pow_add]; ring
    rw [this, Nat.mul_add_div hk]
    generalize f / 2 ^ k = j at *
    omega
  rw [hi]
  obtain ⟨b1, b2⟩ := SqrtReal.floor_bounds f (2 ^ k) hk
  push_cast at b1 b2
  generalize hjj : f / 2 ^ k = j at *
  have hv : σ ^ 2 = (64 + (f : ℝ) / 2 ^ k) / 64 * (if E' % 2 = 1 then 1 else 2) := by
    rw [hσ, hM]
    push_cast
    have : (2 : ℝ) ^ w * (if E' % 2 = 1 then 1 else 2) = 4 * 2 ^ (e - E' % 2) * (64 * 2 ^ k) := by
      rw [hw]
      split
      · rename_i h
        rw [h, show e + (k + 6) + 1 = (e - 1) + 2 + (6 + k) by omega, pow_add, pow_add, pow_add]; norm_num; ring
      · rename_i h
        rw [show E' % 2 = 0 by omega, Nat.sub_zero, show e + (k + 6) + 1 = e + 1 + (6 + k) by omega, pow_add, pow_add, pow_add]
        norm_num; ring
    rw [div_eq_iff (by positivity)]
    rw [show (2 : ℝ) ^ (k + 6) = 64 * 2 ^ k by rw [pow_add]; norm_num; ring]
    rw [mul_assoc, mul_comm (if E' % 2 = 1 then (1 : ℝ) else 2), this]
    field_simp
  rcases Nat.mod_two_eq_zero_or_one E' with h | h
  · rw [h] at hv ⊢
    simp only [Nat.zero_mul, Nat.zero_add] at *
    norm_num at hv
    refine ⟨by omega, h0, fun _ => ?_, fun h => absurd h (by omega)⟩
    rw [hv]
    constructor <;> linarith
  · rw [h] at hv ⊢
    norm_num at hv
    refine ⟨by omega, h0, fun h => absurd h (by omega), fun _ => ?_⟩
    rw [hv]
    push_cast
    constructor <;> linarith

/-- assumptions on a format under which the code is analysed (they hold for `f16`, `f32`, `f64`, `f128`) -/
structure SqrtFmt (F : Fmt) : Prop where
  hes : F.e ≤ F.s + 1
  even : F.w ≤ 32 ∨ F.s % 2 = 0
  tiny : F.w ≤ 16 ∨ 3 * F.s + 8 ≤ F.bias

theorem sqrt_tail (hF : SqrtFmt F) (N : FPU F) {C : SqrtCfg F} (hC : IterSpec F C) {x ix : BitVec F.w} {top E f E'} (h : F.SqrtArg x ix top E f E') :
    Ok (do
      let (m_u2, exp) ← F.sqrtReduce ix top
      let s ← F.sqrtIter C ix m_u2
      let (m, d1) ← F.sqrtFinish m_u2 s
      let m ← (match exp with
        | .inl e => do
          let e ← castC F.w e
          let e ← shlC e F.s
          pure (m ||| e)
        | .inr e => pure (m ||| e))
      pure (F.sqrtInexact N m d1, Status.OK)) (fun r => r.2 = Status.OK ∧ F.sign r.1 = false ∧
        F.IsRNE (Real.sqrt (F.magVal ℚ (F.mag x) : ℚ)) (F.mag r.1)) := by
  have hw : F.w = F.e + F.s + 1 := rfl
  have hs10 := F.hs
  have he5 := F.he
  have hps := F.ps_ge
  have hpsu := F.ps_succ
  have hf := h.hf
  obtain ⟨G, hG, hG2, hG0, hG1, hGb⟩ := sqrtArg_G h
  refine Ok.bind (sqrtReduce_spec h hG) ?_
  rintro ⟨m_u2, exp⟩ ⟨hm, hexp⟩
  dsimp only at hm hexp ⊢
  -- the argument
  obtain ⟨σ, hσ0, hσ⟩ : ∃ σ : ℝ, 0 ≤ σ ∧ σ ^ 2 = 4 * (m_u2.toNat : ℝ) / 2 ^ F.w :=
    ⟨Real.sqrt (4 * (m_u2.toNat : ℝ) / 2 ^ F.w), Real.sqrt_nonneg _, Real.sq_sqrt (by positivity)⟩
  have hT := inTab_of (by omega) (by omega) hw hf hm hσ0 hσ
  rw [← h.ix_eq] at hT
  refine Ok.bind (hC ix m_u2 σ hT hσ) ?_
  intro s hs
  refine Ok.bind (F.sqrtFinish_spec hF.hes hf (by omega) hm hT.σ_bounds.1 hσ hs) ?_
  rintro ⟨m, d1⟩ ⟨n, hn0, hn1, hns, hmn⟩
  dsimp only at hmn ⊢
  have hml : m.toNat < 2 ^ F.s := by omega
  refine Ok.bind (P := fun y => y.toNat = (G - 1) * 2 ^ F.s + n) ?_ ?_
  · have hsum : n - 2 ^ F.s + G * 2 ^ F.s = (G - 1) * 2 ^ F.s + n := by
      obtain ⟨g, rfl⟩ : ∃ g, G = g + 1 := ⟨G - 1, by omega⟩
      rw [Nat.add_mul, Nat.add_sub_cancel]; omega
    cases exp with
    | inl e =>
      dsimp only at hexp ⊢
      have hGw : G * 2 ^ F.s < 2 ^ F.w := by
        rw [F.pw]
        have : G * 2 ^ F.s ≤ 2 ^ F.e * 2 ^ F.s := Nat.mul_le_mul_right _ (by omega)
        have : 0 < 2 ^ F.e * 2 ^ F.s := by positivity
        omega
      have hGw' : G < 2 ^ F.w := Nat.lt_of_le_of_lt (Nat.le_mul_of_pos_right _ (Nat.two_pow_pos _)) hGw
      refine Ok.bind (castC_spec (by rw [hexp]; exact hGw')) ?_
      intro e' he'
      refine Ok.bind (shlC_spec (by omega)) ?_
      intro e'' he''
      refine Ok.pure' ?_
      rw [he', hexp, Nat.mod_eq_of_lt hGw] at he''
      rw [BitVec.toNat_or, he'', or_eq_add hml (Dvd.intro_left _ rfl), hmn, hsum]
    | inr e =>
      dsimp only at hexp ⊢
      refine Ok.pure' ?_
      rw [BitVec.toNat_or, hexp, or_eq_add hml (Dvd.intro_left _ rfl), hmn, hsum]
  intro y hy
  refine Ok.pure' ?_
  dsimp only
  rw [sqrtInexact_eq N hF.tiny hy hG0 hGb hG1 hn0 hn1]
  have hlt : (G - 1) * 2 ^ F.s + n < F.infRep := by
    unfold infRep
    calc (G - 1) * 2 ^ F.s + n < (G - 1) * 2 ^ F.s + 2 * 2 ^ F.s := by omega
      _ = (G - 1 + 2) * 2 ^ F.s := by ring
      _ ≤ _ := Nat.mul_le_mul_right _ (by omega)
  obtain ⟨sy, my⟩ := F.sign_mag_of (b := y) (t := false) (n := (G - 1) * 2 ^ F.s + n) (by have := F.infRep_lt; omega) (by rw [hy]; simp)
  refine ⟨rfl, sy, ?_⟩
  rw [my]
  obtain ⟨Q, hQ⟩ : ∃ Q, Q = (2 ^ F.s + f) * 2 ^ (F.s + 1 - E' % 2) := ⟨_, rfl⟩
  rw [← hQ] at hns
  have hQ1 : 2 ^ F.s * 2 ^ F.s ≤ Q := by
    rw [hQ]; exact Nat.mul_le_mul (by omega) (Nat.pow_le_pow_right (by omega) (by omega))
  have hR := nearSqrt_rne (F := F) (by omega) hG1 hns hn0 hn1 hQ1
  rw [← F.isRNE_iff] at hR
  convert hR using 1
  -- the real number
  have hval : ((F.magVal ℚ (F.mag x) : ℚ) : ℝ) = (Q : ℝ) * (2 ^ (G - 1) * F.ulp0 ℝ) ^ 2 := by
    rw [h.val, hQ]
    unfold ulp0
    push_cast
    have e1 : (2 : ℝ) ^ (E - F.bias - F.s) = 2 ^ (F.s + 1 - E' % 2) * (2 ^ (G - 1) * 2 ^ (1 - (F.bias : ℤ) - F.s)) ^ 2 := by
      rw [← zpow_natCast (2 : ℝ) (F.s + 1 - E' % 2), ← zpow_natCast (2 : ℝ) (G - 1), ← zpow_add₀ (by norm_num), ← zpow_natCast _ 2, ← zpow_mul,
        ← zpow_add₀ (by norm_num)]
      congr 1
      have hmod : E' % 2 < 2 := Nat.mod_lt _ (by omega)
      push_cast [Nat.cast_sub (show E' % 2 ≤ F.s + 1 by omega), Nat.cast_sub (show 1 ≤ G by omega)]
      push_cast at hG2
      linarith
    rw [e1]
    ring
  rw [hval, Real.sqrt_mul (by positivity), Real.sqrt_sq (by have := F.ulp0_pos ℝ; positivity), mul_assoc]

/-- `sqrt_round` on positive finite arguments -/
theorem sqrtRound_pos (hF : SqrtFmt F) (N : FPU F) {C : SqrtCfg F} (hC : IterSpec F C) {x : BitVec F.w} (h0 : 0 < x.toNat) (h1 : x.toNat < F.infRep) :
    Ok (F.sqrtRound N C x) (fun r => r.2 = Status.OK ∧ F.sign r.1 = false ∧
        F.IsRNE (Real.sqrt (F.magVal ℚ (F.mag x) : ℚ)) (F.mag r.1)) := by
  have hw : F.w = F.e + F.s + 1 := rfl
  have hil := F.infRep_lt
  have hpw := F.pw
  rw [← F.pes] at hpw
  unfold sqrtRound
  refine Ok.bind (F.sqrtTop_spec (by have := F.he'; omega) x) ?_
  rintro ⟨top, special⟩ ⟨t1, t2, hsp⟩
  dsimp only at t1 t2 hsp ⊢
  refine Ok.bind (shlC_spec (by have := F.he; omega)) ?_
  intro t ht
  have c1 : ¬ (special = true ∧ t = 0#F.w) := by
    rintro ⟨_, h⟩
    rw [h, Nat.mod_eq_of_lt (by omega)] at ht
    simp at ht
    omega
  have c2 : ¬ (special = true ∧ x = F.expMask) := by
    rintro ⟨_, h⟩
    rw [h, F.toNat_expMask] at h1
    omega
  have c3 : ¬ (special = true ∧ F.expMask < x) := by
    rintro ⟨_, h⟩
    rw [BitVec.lt_def, F.toNat_expMask] at h
    omega
  rw [if_neg c1, if_neg c2, if_neg c3]
  refine Ok.bind (P := fun r => ∃ E f E', F.SqrtArg x r.1 r.2 E f E') ?_ ?_
  · by_cases hs : special = true
    · rw [if_pos hs]
      refine sqrtScale_spec N hF.even h0 ?_ t1 t2
      by_contra hc
      rw [hsp.mpr ⟨by omega, h1⟩] at hs
      cases hs
    · rw [if_neg hs]
      obtain ⟨a, b⟩ := hsp.mp (by simpa using hs)
      exact Ok.pure' ⟨_, _, _, sqrtArg_normal a b t1 t2⟩
  · rintro ⟨ix, top'⟩ ⟨E, f, E', hA⟩
    exact sqrt_tail hF N hC hA

/-- `sqrt_round` on all other arguments -/
theorem sqrtRound_special (N : FPU F) {C : SqrtCfg F} {x : BitVec F.w} (h : F.mag x = 0 ∨ F.infRep ≤ x.toNat) :
    F.sqrtRound N C x = .ok (if F.mag x = 0 ∨ x = F.expMask then (x, Status.OK) else (F.qnanRep, Status.INVALID)) := by
  have hw : F.w = F.e + F.s + 1 := rfl
  have hil := F.infRep_lt
  have hpw := F.pw
  have hpe := F.pe_ge
  have hps := F.ps_ge
  have hia := F.infRep_add
  have hbig : 32 * 2 ^ F.s ≤ 2 ^ F.e * 2 ^ F.s := Nat.mul_le_mul_right _ hpe
  rw [← F.pes] at hpw
  refine Ok.eq ?_
  unfold sqrtRound
  refine Ok.bind (F.sqrtTop_spec (by have := F.he'; omega) x) ?_
  rintro ⟨top, special⟩ ⟨t1, t2, hsp⟩
  dsimp only at t1 t2 hsp ⊢
  refine Ok.bind (shlC_spec (by have := F.he; omega)) ?_
  intro t ht
  have hmx := F.toNat_eq x
  have hml := F.mag_lt x
  have hspt : special = true := by
    cases hs : special
    · obtain ⟨a, b⟩ := hsp.mp hs
      rcases h with h | h
      · rw [h] at hmx
        split at hmx <;> omega
      · omega
    · rfl
  have hz : t = 0#F.w ↔ F.mag x = 0 := by
    rw [← BitVec.toNat_inj, ht, BitVec.toNat_ofNat, Nat.zero_mod]
    unfold mag
    rw [hpw, Nat.pow_one, Nat.mul_comm 2, Nat.mul_mod_mul_right]
    omega
  by_cases c1 : F.mag x = 0
  · rw [if_pos ⟨hspt, hz.mpr c1⟩, if_pos (Or.inl c1)]
    exact Ok.pure' rfl
  · rw [if_neg (fun hh => c1 (hz.mp hh.2))]
    by_cases c2 : x = F.expMask
    · rw [if_pos ⟨hspt, c2⟩, if_pos (Or.inr c2)]
      exact Ok.pure' rfl
    · rw [if_neg (fun hh => c2 hh.2)]
      have hlt : F.expMask < x := by
        rw [BitVec.lt_def, F.toNat_expMask]
        have : x.toNat ≠ F.infRep := by rw [← F.toNat_expMask]; exact fun e => c2 (BitVec.eq_of_toNat_eq e)
        clear t1 t2
        omega
      rw [if_pos ⟨hspt, hlt⟩, if_neg (fun hh : F.mag x = 0 ∨ x = F.expMask => hh.elim c1 c2)]
      exact Ok.pure' rfl

end Fmt
end Verif
