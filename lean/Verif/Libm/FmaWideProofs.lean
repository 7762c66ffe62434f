import Verif.Libm.FmaWide
/-! # Correctness of `fma_wide_round` -/
namespace Verif
namespace Fmt

section
variable (F : Fmt)

theorem absv (b : BitVec F.w) : |F.val b| = F.magVal ℚ (F.mag b) := by
  rw [F.val_sign]
  have := F.magVal_nonneg ℚ (F.mag b)
  cases F.sign b <;> simp [abs_of_nonneg this]

/-- a representable number is returned exactly -/
theorem rounds_repr {x : ℚ} {r : BitVec F.w} {c : Nat} (h : F.Rounds x r) (hc : c < F.infRep) (hx : |x| = F.magVal ℚ c) :
    F.IsFin r ∧ F.val r = x := by
  have hm : F.mag r = c := by
    have := h.1
    rw [hx] at this
    exact IsRNE.unique F this (F.isRNE_self hc.le)
  refine ⟨by unfold IsFin; omega, ?_⟩
  have ha := F.absv r
  rw [hm, ← hx] at ha
  by_cases h0 : x = 0
  · rw [h0, abs_zero] at ha
    rw [h0, abs_eq_zero.mp ha]
  · have hs := h.2 h0
    rw [F.val_sign, hm, ← hx]
    by_cases hn : x < 0
    · rw [if_pos (hs.mpr hn), abs_of_neg hn]; ring
    · rw [if_neg (fun h => hn (hs.mp h)), abs_of_nonneg (not_lt.mp hn)]; ring

theorem valU_cast (n : Nat) : F.magVal ℚ n = (F.valU n : ℚ) * F.ulp0 ℚ := F.magVal_eq n

/-- half of a magnitude at or above the second binade is a magnitude -/
theorem half_code {E m : Nat} (hE : 2 ≤ E) (hm : m < 2 ^ (F.s + 1)) (h : 2 ^ F.s ≤ m) :
    2 * F.valU ((E - 1 - 1) * 2 ^ F.s + m) = F.valU ((E - 1) * 2 ^ F.s + m) := by
  rw [F.valU_eq (E := E) (by omega) hm.le (Or.inl h), F.valU_eq (E := E - 1) (by omega) hm.le (Or.inl h)]
  obtain ⟨k, rfl⟩ : ∃ k, E = k + 2 := ⟨E - 2, by omega⟩
  simp only [show k + 2 - 1 = k + 1 by omega, Nat.add_sub_cancel, Nat.pow_succ]
  ring

/-- Fast2Sum in magnitudes, sum: `b ≤ a`, `w` the rounded `a + b`. -/
theorem fast2_add {a b w : Nat} (hab : b ≤ a) (ha : a < F.infRep) (hw : w < F.infRep)
    (h : F.IsRNE (F.magVal ℚ a + F.magVal ℚ b) w) :
    ∃ c, c < F.infRep ∧ F.magVal ℚ w - F.magVal ℚ a = F.magVal ℚ c := by
  have hb0 := F.magVal_nonneg ℚ b
  have haw : a ≤ w := IsRNE.mono F (F.isRNE_self ha.le) h (by linarith)
  have hu := F.ulp0_pos ℚ
  have hle : F.valU w ≤ 2 * F.valU a := by
    by_contra hc
    rw [not_le] at hc
    have hc' : 2 * F.magVal ℚ a < F.magVal ℚ w := by
      rw [F.valU_cast, F.valU_cast, ← mul_assoc]
      exact mul_lt_mul_of_pos_right (by exact_mod_cast hc) hu
    have hba := F.magVal_mono hab
    -- `2a` is a magnitude
    obtain ⟨n', hn'⟩ := F.scale_up a (a := 1) (by omega)
    rw [zpow_one] at hn'
    have hnw : n' < w := by rw [← F.magVal_lt_iff, hn']; linarith
    have := IsRNE.mono F h (F.isRNE_self (by omega : n' ≤ F.infRep)) (by rw [hn']; linarith)
    omega
  obtain ⟨c, hc, hv⟩ := F.sterbenz haw hle
  refine ⟨c, by omega, ?_⟩
  rw [F.valU_cast, F.valU_cast, F.valU_cast, hv, Nat.cast_sub (F.valU_le_iff.mpr haw)]
  ring

/-- Fast2Sum in magnitudes, difference: `b ≤ a`, `w` the rounded `a - b`. -/
theorem fast2_sub {a b w : Nat} (hab : b ≤ a) (ha : a < F.infRep) (hw : w < F.infRep)
    (h : F.IsRNE (F.magVal ℚ a - F.magVal ℚ b) w) :
    ∃ c, c < F.infRep ∧ F.magVal ℚ a - F.magVal ℚ w = F.magVal ℚ c := by
  have hb0 := F.magVal_nonneg ℚ b
  have hwa : w ≤ a := IsRNE.mono F h (F.isRNE_self ha.le) (by linarith)
  have hu := F.ulp0_pos ℚ
  have exact : ∀ c, c ≤ a → F.valU c = F.valU a - F.valU b →
      ∃ c, c < F.infRep ∧ F.magVal ℚ a - F.magVal ℚ w = F.magVal ℚ c := by
    intro c hc hv
    have : F.magVal ℚ a - F.magVal ℚ b = F.magVal ℚ c := by
      rw [F.valU_cast, F.valU_cast, F.valU_cast, hv, Nat.cast_sub (F.valU_le_iff.mpr hab)]; ring
    rw [this] at h
    have hwc := IsRNE.unique F h (F.isRNE_self (by omega))
    exact ⟨b, by omega, by rw [hwc]; linarith⟩
  by_cases h2 : F.valU a ≤ 2 * F.valU b
  · obtain ⟨c, hc, hv⟩ := F.sterbenz hab h2
    exact exact c (by omega) hv
  · rw [not_le] at h2
    obtain ⟨E, m, e1, e2, e3, e4⟩ := F.decomp a
    by_cases hE : E = 1
    · rw [hE] at e4
      have hva : F.valU a = a := F.valU_small (by omega)
      have hvb : F.valU b = b := F.valU_small (by omega)
      refine exact (a - b) (by omega) ?_
      rw [F.valU_small (by omega), hva, hvb]
    · have hm : 2 ^ F.s ≤ m := by tauto
      have hh := F.half_code (E := E) (m := m) (by omega) e2 hm
      rw [← e4] at hh
      generalize (E - 1 - 1) * 2 ^ F.s + m = k at hh
      have hka : k ≤ a := by rw [← F.valU_le_iff]; omega
      have hkw : k ≤ w := by
        refine IsRNE.mono F (F.isRNE_self (by omega)) h ?_
        rw [F.valU_cast, F.valU_cast, F.valU_cast, ← sub_mul]
        apply mul_le_mul_of_nonneg_right _ hu.le
        have h2' : (2 : ℚ) * F.valU b < F.valU a := by exact_mod_cast h2
        have hh' : (2 : ℚ) * F.valU k = F.valU a := by exact_mod_cast hh
        linarith
      have := F.valU_le_iff.mpr hkw
      obtain ⟨c, hc, hv⟩ := F.sterbenz hwa (by omega)
      refine ⟨c, by omega, ?_⟩
      rw [F.valU_cast, F.valU_cast, F.valU_cast, hv, Nat.cast_sub (F.valU_le_iff.mpr hwa)]
      ring

/-- Fast2Sum: if `|b| ≤ |a|` and `w` is the rounded sum, `a - w` is a number. -/
theorem fast2 {a b w : BitVec F.w} (ha : F.IsFin a) (hw : F.IsFin w) (hab : |F.val b| ≤ |F.val a|)
    (h : F.Rounds (F.val a + F.val b) w) : ∃ c, c < F.infRep ∧ |F.val a - F.val w| = F.magVal ℚ c := by
  have hmab : F.mag b ≤ F.mag a := by rwa [F.absv, F.absv, F.magVal_le_iff] at hab
  have hA := F.magVal_nonneg ℚ (F.mag a)
  have hB := F.magVal_nonneg ℚ (F.mag b)
  have hBA := F.magVal_mono hmab
  by_cases h0 : F.val a + F.val b = 0
  · have h1 := h.1
    rw [h0, abs_zero, ← F.magVal_zero] at h1
    have := IsRNE.unique F h1 (F.isRNE_self (Nat.zero_le _))
    refine ⟨F.mag a, ha, ?_⟩
    rw [(F.val_eq_zero_iff (b := w)).mpr this, sub_zero, F.absv]
  have hne := h.2 h0
  have h1 := h.1
  have va := F.val_sign a
  have vb := F.val_sign b
  have vw := F.val_sign w
  -- the sum has the sign of `a`
  by_cases hs : F.sign a = F.sign b
  · have e : |F.val a + F.val b| = F.magVal ℚ (F.mag a) + F.magVal ℚ (F.mag b) := by
      rw [va, vb, ← hs, ← mul_add, abs_mul, abs_of_nonneg (add_nonneg hA hB)]
      split <;> simp
    rw [e] at h1
    obtain ⟨c, hc, hv⟩ := F.fast2_add hmab ha hw h1
    refine ⟨c, hc, ?_⟩
    have hpos : 0 < F.magVal ℚ (F.mag a) + F.magVal ℚ (F.mag b) := by rw [← e]; exact abs_pos.mpr h0
    have hsw : F.sign w = F.sign a := by
      rw [Bool.eq_iff_iff, hne, va, vb, ← hs, ← mul_add]
      cases F.sign a
      · simp; linarith
      · simp; linarith
    have hcn := F.magVal_nonneg ℚ c
    rw [va, vw, hsw, ← mul_sub, abs_mul, ← abs_neg (_ - _), neg_sub, hv, abs_of_nonneg hcn]
    split <;> simp
  · have hsb : (if F.sign b = true then (-1 : ℚ) else 1) = - (if F.sign a = true then -1 else 1) := by
      revert hs
      cases F.sign a <;> cases F.sign b <;> simp
    have es : F.val a + F.val b = (if F.sign a = true then -1 else 1) * (F.magVal ℚ (F.mag a) - F.magVal ℚ (F.mag b)) := by
      rw [va, vb, hsb]; ring
    have e : |F.val a + F.val b| = F.magVal ℚ (F.mag a) - F.magVal ℚ (F.mag b) := by
      rw [es, abs_mul, abs_of_nonneg (sub_nonneg.mpr hBA)]
      split <;> simp
    rw [e] at h1
    obtain ⟨c, hc, hv⟩ := F.fast2_sub hmab ha hw h1
    refine ⟨c, hc, ?_⟩
    have hpos : 0 < F.magVal ℚ (F.mag a) - F.magVal ℚ (F.mag b) := by rw [← e]; exact abs_pos.mpr h0
    have hsw : F.sign w = F.sign a := by
      rw [Bool.eq_iff_iff, hne, es]
      cases F.sign a
      · simp; linarith
      · simp; linarith
    have hcn := F.magVal_nonneg ℚ c
    rw [va, vw, hsw, ← mul_sub, abs_mul, hv, abs_of_nonneg hcn]
    split <;> simp

/-- a non-zero multiple of the smallest number does not round to zero -/
theorem rounds_ne_zero {x : ℚ} {r : BitVec F.w} (h : F.Rounds x r) (hx : F.magVal ℚ 1 ≤ |x|) : F.mag r ≠ 0 := by
  have h1 := F.infRep_lt
  have h2 := F.ps_le_infRep
  have h3 := Nat.two_pow_pos F.s
  have := IsRNE.mono F (F.isRNE_self (n := 1) (by omega)) h.1 hx
  omega

/-- values are integral multiples of the smallest number -/
theorem val_int (b : BitVec F.w) : ∃ k : ℤ, F.val b = k * F.magVal ℚ 1 := by
  have h1 : F.valU 1 = 1 := F.valU_small (by have := Nat.two_pow_pos (F.s + 1); omega)
  rw [F.val_sign, F.valU_cast, F.valU_cast, h1]
  cases F.sign b
  · exact ⟨F.valU (F.mag b), by simp⟩
  · exact ⟨- F.valU (F.mag b), by simp⟩

theorem int_ge_one {k : ℤ} (hk : (k : ℚ) * F.magVal ℚ 1 ≠ 0) : F.magVal ℚ 1 ≤ |(k : ℚ) * F.magVal ℚ 1| := by
  have h0 : 0 < F.magVal ℚ 1 := by rw [← F.magVal_zero, F.magVal_lt_iff]; omega
  rw [abs_mul, abs_of_pos h0]
  have : (1 : ℚ) ≤ |(k : ℚ)| := by
    have : k ≠ 0 := by rintro rfl; simp at hk
    exact_mod_cast Int.one_le_abs this
  nlinarith

/-- The rounding error of the sum computed as `(a - w) + b` has the right sign. -/
theorem fast2_err (N : FPU F) {a b w : BitVec F.w} (ha : F.IsFin a) (hb : F.IsFin b) (hw : F.IsFin w)
    (hab : |F.val b| ≤ |F.val a|) (h : F.Rounds (F.val a + F.val b) w) (hne : F.val a + F.val b ≠ F.val w) :
    F.lt (N.add (N.sub a w) b) 0#F.w = true ↔ F.val a + F.val b < F.val w := by
  obtain ⟨c, hc, hv⟩ := F.fast2 ha hw hab h
  have hs := ((N.sub_spec a w).1 ha (F.isFin_neg.mpr hw)).1
  rw [F.val_neg, ← sub_eq_add_neg] at hs
  obtain ⟨f1, v1⟩ := F.rounds_repr hs hc hv
  have hr := ((N.add_spec (N.sub a w) b).1 f1 hb).1
  rw [v1] at hr
  have hx : F.val a - F.val w + F.val b = F.val a + F.val b - F.val w := by ring
  rw [hx] at hr
  have hx0 : F.val a + F.val b - F.val w ≠ 0 := sub_ne_zero.mpr hne
  obtain ⟨ka, ea⟩ := F.val_int a
  obtain ⟨kb, eb⟩ := F.val_int b
  obtain ⟨kw, ew⟩ := F.val_int w
  have hk : F.val a + F.val b - F.val w = ((ka + kb - kw : ℤ) : ℚ) * F.magVal ℚ 1 := by
    rw [ea, eb, ew]; push_cast; ring
  have hm := F.rounds_ne_zero hr (by rw [hk]; exact F.int_ge_one (by rw [← hk]; exact hx0))
  have hsg := hr.2 hx0
  have hn : ¬ F.IsNaN (N.add (N.sub a w) b) := by
    have := hr.1.1; unfold IsNaN; omega
  have hm0 : F.mag 0#F.w = 0 := by unfold mag; simp
  have hn0 : ¬ F.IsNaN 0#F.w := by unfold IsNaN; omega
  rw [F.lt_iff]
  have h0 : F.smag 0#F.w = 0 := by unfold smag; rw [hm0]; simp
  rw [h0]
  unfold smag
  constructor
  · rintro ⟨_, _, h⟩
    have : F.sign (N.add (N.sub a w) b) = true := by
      by_contra hc
      rw [if_neg hc] at h
      omega
    have := hsg.mp this
    linarith
  · intro h
    refine ⟨hn, hn0, ?_⟩
    rw [if_pos (hsg.mpr (by linarith))]
    omega

theorem feq_val {a b : BitVec F.w} (ha : F.IsFin a) (hb : F.IsFin b) : F.feq a b = true ↔ F.val a = F.val b := by
  rw [F.feq_iff, F.smag_eq_iff]
  exact ⟨fun h => h.2.2, fun h => ⟨IsFin.not_nan F ha, IsFin.not_nan F hb, h⟩⟩

/-- The exactness test. -/
theorem fast2_exact (N : FPU F) {a b w : BitVec F.w} (ha : F.IsFin a) (hb : F.IsFin b) (hw : F.IsFin w)
    (h : F.Rounds (F.val a + F.val b) w) :
    (F.feq (N.sub w a) b = true ∧ F.feq (N.sub w b) a = true) ↔ F.val a + F.val b = F.val w := by
  have hs1 := ((N.sub_spec w a).1 hw (F.isFin_neg.mpr ha)).1
  have hs2 := ((N.sub_spec w b).1 hw (F.isFin_neg.mpr hb)).1
  rw [F.val_neg, ← sub_eq_add_neg] at hs1 hs2
  constructor
  · rintro ⟨h1, h2⟩
    rcases le_total |F.val b| |F.val a| with hab | hab
    · obtain ⟨c, hc, hv⟩ := F.fast2 ha hw hab h
      rw [abs_sub_comm] at hv
      obtain ⟨f1, v1⟩ := F.rounds_repr hs1 hc hv
      rw [F.feq_val f1 hb, v1] at h1
      linarith
    · rw [add_comm] at h
      obtain ⟨c, hc, hv⟩ := F.fast2 hb hw hab h
      rw [abs_sub_comm] at hv
      obtain ⟨f1, v1⟩ := F.rounds_repr hs2 hc hv
      rw [F.feq_val f1 ha, v1] at h2
      linarith
  · intro he
    have e1 : F.val w - F.val a = F.val b := by linarith
    have e2 : F.val w - F.val b = F.val a := by linarith
    obtain ⟨f1, v1⟩ := F.rounds_repr hs1 hb (by rw [e1, F.absv])
    obtain ⟨f2, v2⟩ := F.rounds_repr hs2 ha (by rw [e2, F.absv])
    rw [F.feq_val f1 hb, F.feq_val f2 ha, v1, v2]
    exact ⟨e1, e2⟩

end

/-- room for exact products -/
structure WideOk (F B : Fmt) : Prop extends Wider F B where
  prod : 2 * F.s + 1 ≤ B.s
  lo : 2 * F.bias + 2 * F.s ≤ B.bias + B.s + 1
  hi : 2 * F.bias + 3 ≤ B.bias
  diff : 3 ≤ B.s - F.s

theorem wideOk_32_64 : WideOk f32 f64 := ⟨wider_32_64, by decide, by decide, by decide, by decide⟩
theorem wideOk_16_32 : WideOk f16 f32 := ⟨wider_16_32, by decide, by decide, by decide, by decide⟩

theorem prod_exact {F B : Fmt} (hW : WideOk F B) {m n : Nat} (hm : m < F.infRep) (hn : n < F.infRep) :
    ∃ c, c < B.infRep ∧ F.magVal ℚ m * F.magVal ℚ n = B.magVal ℚ c ∧ B.magVal ℚ c < 2 ^ (2 * (F.bias : ℤ) + 2) := by
  obtain ⟨E, a, h1, h2, h3, h4, h5, _⟩ := F.decompQ m
  obtain ⟨E', a', g1, g2, g3, g4, g5, _⟩ := F.decompQ n
  have hp := hW.prod; have hl := hW.lo; have hh := hW.hi
  have hj : a * a' ≤ 2 ^ (B.s + 1) := by
    calc a * a' ≤ 2 ^ (F.s + 1) * 2 ^ (F.s + 1) := Nat.mul_le_mul h2.le g2.le
      _ = 2 ^ (2 * F.s + 2) := by rw [← Nat.pow_add]; congr 1; omega
      _ ≤ _ := Nat.pow_le_pow_right (by norm_num) (by omega)
  obtain ⟨k, hk⟩ : ∃ k : Nat, (k : ℤ) - B.bias - B.s = (E : ℤ) - F.bias - F.s + ((E' : ℤ) - F.bias - F.s) :=
    ⟨E + E' + B.bias + B.s - 2 * F.bias - 2 * F.s, by omega⟩
  obtain ⟨c, hc, _⟩ := B.exists_repr k (by omega) (a * a') hj
  have hv : F.magVal ℚ m * F.magVal ℚ n = B.magVal ℚ c := by
    rw [hc, hk, h5, g5, zpow_add₀ (by norm_num)]; push_cast; ring
  have hlt : B.magVal ℚ c < 2 ^ (2 * (F.bias : ℤ) + 2) := by
    rw [← hv]
    have m1 : F.magVal ℚ m < F.magVal ℚ F.infRep := F.magVal_lt_iff.mpr hm
    have n1 : F.magVal ℚ n < F.magVal ℚ F.infRep := F.magVal_lt_iff.mpr hn
    rw [F.magVal_infRep] at m1 n1
    have m0 := F.magVal_nonneg ℚ m
    have n0 := F.magVal_nonneg ℚ n
    calc _ < (2 : ℚ) ^ ((F.bias : ℤ) + 1) * 2 ^ ((F.bias : ℤ) + 1) := mul_lt_mul'' m1 n1 m0 n0
      _ = _ := by rw [← zpow_add₀ (by norm_num)]; congr 1; ring
  refine ⟨c, ?_, hv, hlt⟩
  rw [← B.magVal_lt_iff, B.magVal_infRep]
  exact lt_of_lt_of_le hlt (zpow_le_zpow_right₀ (by norm_num) (by omega))

/-- the sum of two numbers well below the largest does not overflow -/
theorem sum_fin (F : Fmt) {v : ℚ} {r : BitVec F.w} (h : F.Rounds v r) (hv : |v| < 2 ^ (F.bias : ℤ)) : F.IsFin r := by
  have hb := F.bias_ge
  have hp := F.fromParts_pow (E := 2 * F.bias) (by omega) (by have := F.pe_bias; omega)
  have hpv := hp.value
  have hpf := hp.fin
  have : |v| ≤ F.magVal ℚ (F.mag (F.fromParts false (2 * F.bias) 0#F.w)) := by
    rw [hpv]
    calc |v| ≤ 2 ^ (F.bias : ℤ) := hv.le
      _ = _ := by congr 1; push_cast; ring
  have := IsRNE.mono F h.1 (F.isRNE_self hpf.le) this
  unfold IsFin at *; omega

theorem dr_direct {F B : Fmt} (hW : Wider F B) {q : ℚ} {W r r' : Nat} (h : B.IsRNE q W)
    (hnm : B.magVal ℚ W ≠ q → ¬ F.IsMid (B.magVal ℚ W)) (hr : F.IsRNE (B.magVal ℚ W) r) (hr' : F.IsRNE q r') : r = r' := by
  by_cases he : B.magVal ℚ W = q
  · rw [he] at hr; exact IsRNE.unique F hr hr'
  have hnm := hnm he
  rcases le_total q (B.magVal ℚ W) with hle | hle
  · symm
    refine F.isRNE_eq_of_noMid hle hr' hr ?_
    intro m hm h1 h2
    obtain ⟨c, hc, hv, _⟩ := mid_code hW hm
    rw [← hv] at h1 h2
    have := IsRNE.mono B h (B.isRNE_self hc) h1
    have := B.magVal_le_iff.mp h2
    rw [← hv, show c = W by omega] at hm
    exact hnm hm
  · refine F.isRNE_eq_of_noMid hle hr hr' ?_
    intro m hm h1 h2
    obtain ⟨c, hc, hv, _⟩ := mid_code hW hm
    rw [← hv] at h1 h2
    have := IsRNE.mono B (B.isRNE_self hc) h h2
    have := B.magVal_le_iff.mp h1
    rw [← hv, show c = W by omega] at hm
    exact hnm hm

theorem half_adj {W d : Nat} (hd : 2 ≤ d) (h : W % 2 ^ d = 2 ^ (d - 1)) :
    (W + 1) % 2 ^ (d - 1) ≠ 0 ∧ (W - 1) % 2 ^ (d - 1) ≠ 0 ∧ 0 < W := by
  obtain ⟨k, rfl⟩ : ∃ k, d = k + 2 := ⟨d - 2, by omega⟩
  have hp : 2 ^ (k + 2) = 2 * 2 ^ (k + 1) := Nat.pow_succ'
  have hp' : 2 ^ (k + 1) = 2 * 2 ^ k := Nat.pow_succ'
  have := Nat.two_pow_pos k
  simp only [show k + 2 - 1 = k + 1 by omega] at *
  have hdm := Nat.div_add_mod W (2 ^ (k + 2))
  rw [h] at hdm
  obtain ⟨t, ht⟩ : ∃ t, t = W / 2 ^ (k + 2) := ⟨_, rfl⟩
  rw [← ht, hp] at hdm
  have hW : W = 2 ^ (k + 1) * (2 * t + 1) := by rw [← hdm]; ring
  have hW2 : W = 2 ^ (k + 1) * (2 * t) + 2 ^ (k + 1) := by rw [hW]; ring
  refine ⟨?_, ?_, by omega⟩
  · rw [hW, Nat.mul_add_mod, Nat.mod_eq_of_lt (by omega)]; omega
  · rw [show W - 1 = 2 ^ (k + 1) * (2 * t) + (2 ^ (k + 1) - 1) by omega, Nat.mul_add_mod, Nat.mod_eq_of_lt (by omega)]; omega

theorem dr_up {F B : Fmt} (hW : WideOk F B) {q : ℚ} {W r r' : Nat} (h : B.IsRNE q W) (hW1 : W + 1 < B.infRep)
    (hh : W % 2 ^ (B.s - F.s) = 2 ^ (B.s - F.s - 1)) (hq : B.magVal ℚ W < q)
    (hr : F.IsRNE (B.magVal ℚ (W + 1)) r) (hr' : F.IsRNE q r') : r = r' := by
  have hle : q ≤ B.magVal ℚ (W + 1) := by
    by_contra hc
    have := IsRNE.mono B (B.isRNE_self hW1.le) h (not_le.mp hc).le
    omega
  symm
  refine F.isRNE_eq_of_noMid hle hr' hr ?_
  intro m hm h1 h2
  obtain ⟨c, hc, hv, h0, _⟩ := mid_code hW.toWider hm
  rw [← hv] at h1 h2
  have h3 := B.magVal_lt_iff.mp (lt_of_lt_of_le hq h1)
  have h4 := B.magVal_le_iff.mp h2
  rw [show c = W + 1 by omega] at h0
  exact (half_adj (by have := hW.diff; omega) hh).1 h0

theorem dr_down {F B : Fmt} (hW : WideOk F B) {q : ℚ} {W r r' : Nat} (h : B.IsRNE q W)
    (hh : W % 2 ^ (B.s - F.s) = 2 ^ (B.s - F.s - 1)) (hq : q < B.magVal ℚ W)
    (hr : F.IsRNE (B.magVal ℚ (W - 1)) r) (hr' : F.IsRNE q r') : r = r' := by
  have hadj := half_adj (by have := hW.diff; omega) hh
  have hWi := h.1
  have hle : B.magVal ℚ (W - 1) ≤ q := by
    by_contra hc
    have := IsRNE.mono B h (B.isRNE_self (by omega)) (not_le.mp hc).le
    omega
  refine F.isRNE_eq_of_noMid hle hr hr' ?_
  intro m hm h1 h2
  obtain ⟨c, hc, hv, h0, _⟩ := mid_code hW.toWider hm
  rw [← hv] at h1 h2
  have h3 := B.magVal_lt_iff.mp (lt_of_le_of_lt h2 hq)
  have h4 := B.magVal_le_iff.mp h1
  rw [show c = W - 1 by omega] at h0
  exact hadj.2.1 h0

/-- The inputs for which the intermediate rounding to the wide format is visible: the exact result is subnormal in the
narrow format, is not a number of the wide format, and rounds there to an odd multiple of half the smallest narrow number. -/
def FmaWideLost (F B : Fmt) (x y z : BitVec F.w) : Prop :=
  |F.val x * F.val y + F.val z| < 2 ^ (1 - (F.bias : ℤ)) ∧
  ∃ W, B.IsRNE |F.val x * F.val y + F.val z| W ∧ B.magVal ℚ W ≠ |F.val x * F.val y + F.val z| ∧
    ∃ j : Nat, B.magVal ℚ W = (2 * j + 1) * 2 ^ (-(F.bias : ℤ) - F.s)

set_option maxHeartbeats 1000000 in
theorem fmaWide_fin {F B : Fmt} (hW : WideOk F B) (N : FPU B) (C : FloatCast F B) {x y z : BitVec F.w} (hx : F.IsFin x)
    (hy : F.IsFin y) (hz : F.IsFin z) (hb : ¬ FmaWideLost F B x y z) :
    Ok (fmaWide N C x y z) (fun r => F.Rounds (F.val x * F.val y + F.val z) r ∧
      (F.val x * F.val y + F.val z = 0 → F.sign r = ((F.sign x ^^ F.sign y) && F.sign z))) := by
  have hd := hW.diff
  have hwB : B.w = B.e + B.s + 1 := rfl
  have hBe := B.he
  obtain ⟨fx, sx, vx⟩ := C.widen_fin x hx
  obtain ⟨fy, sy, vy⟩ := C.widen_fin y hy
  obtain ⟨fz, sz, vz⟩ := C.widen_fin z hz
  unfold fmaWide
  dsimp only
  obtain ⟨m1, m2⟩ := (N.mul_spec (C.widen x) (C.widen y)).1 fx fy
  rw [sx, sy] at m2
  rw [vx, vy] at m1
  obtain ⟨c, hc, hpc, hpl⟩ := prod_exact hW hx hy
  obtain ⟨fp, vp⟩ := B.rounds_repr m1 hc (by rw [abs_mul, F.absv, F.absv, hpc])
  generalize N.mul (C.widen x) (C.widen y) = p at *
  obtain ⟨a1, a2⟩ := (N.add_spec p (C.widen z)).1 fp fz
  rw [m2, sz] at a2
  have a1' := a1
  rw [vp, vz] at a1 a2
  generalize N.add p (C.widen z) = w at *
  generalize hzb : C.widen z = zb at *
  unfold FmaWideLost at hb
  generalize hv : F.val x * F.val y + F.val z = v at *
  -- the intermediate result is finite
  have hvl : |v| < 2 ^ (B.bias : ℤ) := by
    have z1 : |F.val z| < 2 ^ ((F.bias : ℤ) + 1) := by
      rw [F.absv, ← F.magVal_infRep, F.magVal_lt_iff]; exact hz
    have e1 : (2 : ℚ) ^ ((F.bias : ℤ) + 1) ≤ 2 ^ (2 * (F.bias : ℤ) + 2) := zpow_le_zpow_right₀ (by norm_num) (by omega)
    have e2 : (2 : ℚ) ^ (2 * (F.bias : ℤ) + 3) = 2 * 2 ^ (2 * (F.bias : ℤ) + 2) := by
      rw [show 2 * (F.bias : ℤ) + 3 = 1 + (2 * (F.bias : ℤ) + 2) by ring, zpow_add₀ (by norm_num), zpow_one]
    have e3 : (2 : ℚ) ^ (2 * (F.bias : ℤ) + 3) ≤ 2 ^ (B.bias : ℤ) :=
      zpow_le_zpow_right₀ (by norm_num) (by have := hW.hi; omega)
    have hpa : |F.val x * F.val y| < 2 ^ (2 * (F.bias : ℤ) + 2) := by rw [abs_mul, F.absv, F.absv, hpc]; exact hpl
    calc |v| ≤ |F.val x * F.val y| + |F.val z| := by rw [← hv]; exact abs_add_le _ _
      _ < _ := by linarith
  have fw := B.sum_fin a1 hvl
  have fw' : B.mag w < B.infRep := fw
  have hdvd : 2 ^ (B.s - F.s) ∣ 2 ^ (B.e + B.s) := pow_dvd_pow 2 (by omega)
  have hmm : w.toNat % 2 ^ (B.s - F.s) = B.mag w % 2 ^ (B.s - F.s) := by
    unfold mag; exact (Nat.mod_mod_of_dvd _ hdvd).symm
  have h1B := B.toNat_one'
  have hpd : 2 ^ (B.s - F.s) < 2 ^ B.w := Nat.pow_lt_pow_right (by norm_num) (by omega)
  have hpd1 : 2 ^ (B.s - F.s - 1) < 2 ^ B.w := Nat.pow_lt_pow_right (by norm_num) (by omega)
  have hpd0 := Nat.two_pow_pos (B.s - F.s)
  -- the general conclusion for a finite `u` with the sign of `w`
  have fin : ∀ u : BitVec B.w, B.IsFin u → B.sign u = B.sign w → (v = 0 → u = w) →
      (∀ r r', F.IsRNE (B.magVal ℚ (B.mag u)) r → F.IsRNE |v| r' → r = r') →
      F.Rounds v (C.narrow u) ∧ (v = 0 → F.sign (C.narrow u) = ((F.sign x ^^ F.sign y) && F.sign z)) := by
    intro u fu su hu0 hr
    obtain ⟨n1, n2⟩ := C.narrow_fin u fu
    have hn := n2.1
    rw [B.absv] at hn
    obtain ⟨r', hr', _⟩ := F.exists_rounds v (decide (v < 0)) (fun _ => by simp)
    have := hr _ _ hn hr'.1
    refine ⟨⟨by rw [this]; exact hr'.1, fun h => ?_⟩, fun h => ?_⟩
    · rw [n1, su]; exact a1.2 h
    · rw [n1, hu0 h]; exact a2 h
  have hexact := B.fast2_exact N fp fz fw a1'
  rw [vp, vz, hv] at hexact
  refine Ok.bind (nsubC_spec (by omega)) ?_
  intro pd hpdq
  rw [hpdq]
  refine Ok.bind (shlC_spec (by omega)) ?_
  intro pw hpw
  rw [h1B, Nat.one_mul, Nat.mod_eq_of_lt hpd] at hpw
  refine Ok.bind (subC_spec (by rw [h1B]; omega)) ?_
  intro mask hmask
  rw [hpw, h1B] at hmask
  refine Ok.bind (nsubC_spec (by omega)) ?_
  intro pd1 hpd1q
  rw [hpd1q]
  refine Ok.bind (shlC_spec (by omega)) ?_
  intro half hhalf
  rw [h1B, Nat.one_mul, Nat.mod_eq_of_lt hpd1] at hhalf
  have hexc : (w &&& mask = half) ↔ B.mag w % 2 ^ (B.s - F.s) = 2 ^ (B.s - F.s - 1) := by
    rw [← BitVec.toNat_inj, BitVec.toNat_and, hmask, Nat.and_two_pow_sub_one_eq_mod, hhalf, hmm]
  have hre : B.ex w ≠ B.expSat := by
    have := B.mag_isFin_div fw
    rw [B.ex_eq, B.expSat_bias]
    have := B.pe_bias
    omega
  have hvw : |v| = B.magVal ℚ (B.mag w) ↔ v = B.val w := by
    constructor
    · intro h
      by_cases h0 : v = 0
      · rw [h0, abs_zero, ← B.absv] at h
        rw [h0, eq_comm]; exact abs_eq_zero.mp h.symm
      · have hs := a1.2 h0
        rw [B.val_sign, ← h]
        by_cases hn : v < 0
        · rw [if_pos (hs.mpr hn), abs_of_neg hn]; ring
        · rw [if_neg (fun h => hn (hs.mp h)), abs_of_nonneg (not_lt.mp hn)]; ring
    · intro h; rw [h, B.absv]
  by_cases hcond : w &&& mask ≠ half ∨ B.ex w = B.expSat ∨
      (B.feq (N.sub w p) zb = true ∧ B.feq (N.sub w zb) p = true)
  · rw [if_pos hcond]
    refine Ok.pure' (fin w fw rfl (fun _ => rfl) ?_)
    intro r r' h1 h2
    refine dr_direct hW.toWider a1.1 ?_ h1 h2
    intro hne hmid
    rcases hcond with h | h | h
    · obtain ⟨c, hc, hcv, _, hnorm, hsub⟩ := mid_code hW.toWider hmid
      have hcw := B.magVal_inj.mp hcv
      rw [hcw] at hnorm
      by_cases hmn : F.magVal ℚ (2 ^ F.s) ≤ B.magVal ℚ (B.mag w)
      · exact h (hexc.mpr (hnorm hmn))
      · rw [not_le] at hmn
        apply hb
        refine ⟨?_, B.mag w, a1.1, hne, hsub hmn⟩
        rw [← F.magVal_minNormal]
        by_contra hc
        rw [not_lt] at hc
        -- the smallest normal of `F` is a number of `B`
        have hps := F.ps_le_infRep
        have hpe := F.pe_ge
        have hFp := Nat.two_pow_pos F.s
        obtain ⟨c', hc', hcv', _⟩ := prod_exact hW (m := 2 ^ F.s) (n := F.bias * 2 ^ F.s)
          (lt_of_lt_of_le (by omega : 2 ^ F.s < 2 * 2 ^ F.s) (Nat.mul_le_mul_right _ (by omega)))
          (Nat.mul_lt_mul_of_pos_right (by have := F.pe_bias; omega) (Nat.two_pow_pos _))
        have hone : F.magVal ℚ (F.bias * 2 ^ F.s) = 1 := by
          have := F.magVal_pow (k := 0) (by omega)
          simpa using this
        rw [hone, mul_one] at hcv'
        rw [hcv'] at hc hmn
        have := IsRNE.mono B (B.isRNE_self hc'.le) a1.1 hc
        have := B.magVal_lt_iff.mp hmn
        omega
    · exact hre h
    · exact hne (hvw.mpr (hexact.mp h)).symm
  · rw [if_neg hcond]
    have hh : B.mag w % 2 ^ (B.s - F.s) = 2 ^ (B.s - F.s - 1) := by
      rw [← hexc]; by_contra h; exact hcond (Or.inl h)
    have hne : v ≠ B.val w := fun h => hcond (Or.inr (Or.inr (hexact.mpr h)))
    obtain ⟨ad1, ad2, ad3⟩ := half_adj (by omega) hh
    have hv0 : v ≠ 0 := by
      intro h
      have h1 := a1.1
      rw [h, abs_zero, ← B.magVal_zero] at h1
      have := IsRNE.unique B h1 (B.isRNE_self (Nat.zero_le _))
      omega
    have hsg := a1.2 hv0
    have htn := B.toNat_eq w
    have hml := B.mag_lt w
    have hew : 2 ^ B.w = 2 * 2 ^ (B.e + B.s) := by rw [hwB, Nat.pow_succ]; omega
    refine Ok.bind (shrC_spec (by omega)) ?_
    intro sb hsb
    have hneg : decide (sb ≠ 0#B.w) = B.sign w := by
      have : sb.toNat = if B.sign w then 1 else 0 := by
        rw [hsb, htn, show B.w - 1 = B.e + B.s from rfl]
        cases B.sign w
        · simp; exact hml
        · rw [if_pos rfl, if_pos rfl, Nat.add_div_left _ (Nat.two_pow_pos _), Nat.div_eq_of_lt hml]
      cases hs : B.sign w
      · rw [hs] at this
        have : sb = 0#B.w := BitVec.eq_of_toNat_eq (by simpa using this)
        simp [this]
      · rw [hs] at this
        have : sb ≠ 0#B.w := by rintro rfl; simp at this
        simp [this]
    rw [hneg]
    have hgt : B.gt zb p = true ↔ F.val x * F.val y < F.val z := by
      rw [B.gt_iff, ← B.val_lt_iff]
      exact ⟨fun h => by have := h.2.2; rw [vp, vz] at this; exact this,
        fun h => ⟨IsFin.not_nan B fz, IsFin.not_nan B fp, by rw [vp, vz]; exact h⟩⟩
    -- the sign of the error
    have herr : B.lt (if B.sign w = B.gt zb p then N.add (N.sub p w) zb else N.add (N.sub zb w) p) 0#B.w = true ↔
        v < B.val w := by
      have c1 : |F.val z| ≤ |F.val x * F.val y| → (B.lt (N.add (N.sub p w) zb) 0#B.w = true ↔ v < B.val w) := by
        intro h
        have := B.fast2_err N fp fz fw (by rw [vp, vz]; exact h) a1' (by rw [vp, vz, hv]; exact hne)
        rw [vp, vz, hv] at this; exact this
      have c2 : |F.val x * F.val y| ≤ |F.val z| → (B.lt (N.add (N.sub zb w) p) 0#B.w = true ↔ v < B.val w) := by
        intro h
        have := B.fast2_err N fz fp fw (by rw [vp, vz]; exact h) (by rw [add_comm]; exact a1')
          (by rw [add_comm, vp, vz, hv]; exact hne)
        rw [add_comm, vp, vz, hv] at this; exact this
      by_cases hn : B.sign w = true
      · have hvn := hsg.mp hn
        rw [hn]
        by_cases hg : B.gt zb p = true
        · rw [if_pos hg.symm]
          apply c1
          have hg' := hgt.mp hg
          rw [abs_le, abs_of_neg (by linarith : F.val x * F.val y < 0)]
          constructor <;> linarith
        · rw [if_neg (fun h => hg h.symm)]
          apply c2
          have hg' := not_lt.mp (fun h => hg (hgt.mpr h))
          rw [abs_le, abs_of_neg (by linarith : F.val z < 0)]
          constructor <;> linarith
      · have hvn : 0 < v := by
          rcases lt_trichotomy v 0 with h | h | h
          · exact absurd (hsg.mpr h) hn
          · exact absurd h hv0
          · exact h
        have hn' : B.sign w = false := by simpa using hn
        rw [hn']
        by_cases hg : B.gt zb p = true
        · rw [if_neg (by rw [hg]; simp)]
          apply c2
          have hg' := hgt.mp hg
          rw [abs_le, abs_of_pos (by linarith : 0 < F.val z)]
          constructor <;> linarith
        · have hgf : B.gt zb p = false := by simpa using hg
          rw [if_pos hgf.symm]
          apply c1
          have hg' := not_lt.mp (fun h => hg (hgt.mpr h))
          rw [abs_le, abs_of_nonneg (by linarith : 0 ≤ F.val x * F.val y)]
          constructor <;> linarith
    generalize (if B.sign w = B.gt zb p then N.add (N.sub p w) zb else N.add (N.sub zb w) p) = err at herr
    -- the direction in magnitudes
    have hdir : (B.sign w = B.lt err 0#B.w) ↔ B.magVal ℚ (B.mag w) < |v| := by
      have hne' : |v| ≠ B.magVal ℚ (B.mag w) := fun h => hne (hvw.mp h)
      have vw := B.val_sign w
      by_cases hn : B.sign w = true
      · have hvn := hsg.mp hn
        rw [hn, if_pos rfl] at vw
        rw [hn, eq_comm, herr, abs_of_neg hvn, vw]
        constructor <;> intro h <;> linarith
      · have hvn : 0 ≤ v := not_lt.mp (fun h => hn (hsg.mpr h))
        have hn' : B.sign w = false := by simpa using hn
        rw [hn', if_neg (by simp)] at vw
        rw [hn', abs_of_nonneg hvn]
        rw [abs_of_nonneg hvn] at hne'
        constructor
        · intro h
          have : ¬ v < B.val w := by rw [← herr, ← h]; simp
          rw [vw, one_mul, not_lt] at this
          exact lt_of_le_of_ne this (Ne.symm hne')
        · intro h
          have : ¬ (B.lt err 0#B.w = true) := by rw [herr, vw]; linarith
          simpa using this
    have hinfd : B.infRep % 2 ^ (B.s - F.s - 1) = 0 := by
      unfold infRep
      exact Nat.mod_eq_zero_of_dvd ((pow_dvd_pow 2 (by omega)).mul_left _)
    have hw1 : B.mag w + 1 < B.infRep := by
      rcases Nat.lt_or_ge (B.mag w + 1) B.infRep with h | h
      · exact h
      · exfalso; apply ad1; rw [show B.mag w + 1 = B.infRep by omega]; exact hinfd
    have hil := B.infRep_lt
    by_cases hup : B.sign w = B.lt err 0#B.w
    · rw [if_pos hup]
      refine Ok.bind (addC_spec ?_) ?_
      · rw [h1B, htn, hew]
        split <;> omega
      intro u hu
      rw [h1B, htn, Nat.add_assoc] at hu
      obtain ⟨us, um⟩ := B.sign_mag_of (by omega) hu
      refine Ok.pure' (fin u (by unfold IsFin; omega) us (fun h => absurd h hv0) ?_)
      intro r r' h1 h2
      rw [um] at h1
      exact dr_up hW a1.1 hw1 hh (hdir.mp hup) h1 h2
    · rw [if_neg hup]
      refine Ok.bind (subC_spec ?_) ?_
      · rw [h1B, htn]; omega
      intro u hu
      rw [h1B, htn, Nat.add_sub_assoc (by omega)] at hu
      obtain ⟨us, um⟩ := B.sign_mag_of (by omega) hu
      refine Ok.pure' (fin u (by unfold IsFin; omega) us (fun h => absurd h hv0) ?_)
      intro r r' h1 h2
      rw [um] at h1
      refine dr_down hW a1.1 hh ?_ h1 h2
      have : ¬ B.magVal ℚ (B.mag w) < |v| := fun h => hup (hdir.mpr h)
      exact lt_of_le_of_ne (not_lt.mp this) (fun h => hne (hvw.mp h))

theorem fmaWide_sat {F B : Fmt} (hW : WideOk F B) (N : FPU B) (C : FloatCast F B) {x y z : BitVec F.w}
    (h : ¬ B.IsFin (N.add (N.mul (C.widen x) (C.widen y)) (C.widen z))) :
    Ok (fmaWide N C x y z) (fun r => r = C.narrow (N.add (N.mul (C.widen x) (C.widen y)) (C.widen z))) := by
  have hd := hW.diff
  have hwB : B.w = B.e + B.s + 1 := rfl
  have hBe := B.he
  unfold fmaWide
  dsimp only
  generalize N.add (N.mul (C.widen x) (C.widen y)) (C.widen z) = w at *
  have h1B := B.toNat_one'
  have hpd : 2 ^ (B.s - F.s) < 2 ^ B.w := Nat.pow_lt_pow_right (by norm_num) (by omega)
  have hpd0 := Nat.two_pow_pos (B.s - F.s)
  refine Ok.bind (nsubC_spec (by omega)) ?_
  intro pd hpdq
  rw [hpdq]
  refine Ok.bind (shlC_spec (by omega)) ?_
  intro pw hpw
  rw [h1B, Nat.one_mul, Nat.mod_eq_of_lt hpd] at hpw
  refine Ok.bind (subC_spec (by rw [h1B]; omega)) ?_
  intro mask hmask
  refine Ok.bind (nsubC_spec (by omega)) ?_
  intro pd1 hpd1q
  rw [hpd1q]
  refine Ok.bind (shlC_spec (by omega)) ?_
  intro half hhalf
  have hre : B.ex w = B.expSat := by
    have h1 := B.mag_div_lt w
    have h2 : 2 ^ B.e - 1 ≤ B.mag w / 2 ^ B.s := by
      rw [Nat.le_div_iff_mul_le (Nat.two_pow_pos _)]
      unfold IsFin infRep at h; omega
    rw [B.ex_eq, B.expSat_bias]
    have := B.pe_bias
    omega
  rw [if_pos (Or.inr (Or.inl hre))]
  exact Ok.pure' rfl

theorem widen_zero {F B : Fmt} (C : FloatCast F B) {x : BitVec F.w} (h : F.IsZero x) : B.IsZero (C.widen x) := by
  have hv := (C.widen_fin x (IsZero.isFin F h)).2.2
  rw [(F.val_eq_zero_iff).mpr h] at hv
  exact (B.val_eq_zero_iff).mp hv

theorem widen_zero_iff {F B : Fmt} (C : FloatCast F B) {x : BitVec F.w} : B.IsZero (C.widen x) ↔ F.IsZero x := by
  refine ⟨fun h => ?_, widen_zero C⟩
  rcases F.isFin_or x with hf | hf | hf
  · have hv := (C.widen_fin x hf).2.2
    rw [(B.val_eq_zero_iff).mpr h] at hv
    exact (F.val_eq_zero_iff).mp hv.symm
  · exact absurd (IsZero.isFin B h) (IsInf.not_fin B (C.widen_inf x hf).1)
  · exact absurd (IsZero.isFin B h) (IsNaN.not_fin B (C.widen_nan x hf))

theorem widen_inf_iff {F B : Fmt} (C : FloatCast F B) {x : BitVec F.w} : B.IsInf (C.widen x) ↔ F.IsInf x := by
  refine ⟨fun h => ?_, fun h => (C.widen_inf x h).1⟩
  rcases F.isFin_or x with hf | hf | hf
  · exact absurd h (IsFin.not_inf B (C.widen_fin x hf).1)
  · exact hf
  · exact absurd h (IsNaN.not_inf B (C.widen_nan x hf))

theorem widen_nan_iff {F B : Fmt} (C : FloatCast F B) {x : BitVec F.w} : B.IsNaN (C.widen x) ↔ F.IsNaN x := by
  refine ⟨fun h => ?_, C.widen_nan x⟩
  rcases F.isFin_or x with hf | hf | hf
  · exact absurd (C.widen_fin x hf).1 (IsNaN.not_fin B h)
  · exact absurd (C.widen_inf x hf).1 (IsNaN.not_inf B h)
  · exact hf

theorem widen_sign {F B : Fmt} (C : FloatCast F B) {x : BitVec F.w} (h : ¬ F.IsNaN x) : B.sign (C.widen x) = F.sign x := by
  rcases F.isFin_or x with hf | hf | hf
  · exact (C.widen_fin x hf).2.1
  · exact (C.widen_inf x hf).2
  · exact absurd hf h

set_option maxHeartbeats 1000000 in
/-- `fma_wide_round` is a fused multiply-add except for double rounding of subnormal results. -/
theorem fmaWide_spec {F B : Fmt} (hW : WideOk F B) (N : FPU B) (C : FloatCast F B) (x y z : BitVec F.w)
    (hb : F.IsFin x → F.IsFin y → F.IsFin z → ¬ FmaWideLost F B x y z) :
    Ok (fmaWide N C x y z) (F.FmaSpec x y z) := by
  obtain ⟨m1, m2, m3⟩ := N.mul_spec (C.widen x) (C.widen y)
  obtain ⟨a1, a2, a3, a4⟩ := N.add_spec (N.mul (C.widen x) (C.widen y)) (C.widen z)
  have nan : B.IsNaN (N.add (N.mul (C.widen x) (C.widen y)) (C.widen z)) →
      Ok (fmaWide N C x y z) (fun r => F.IsNaN r) := by
    intro h
    refine (fmaWide_sat hW N C (IsNaN.not_fin B h)).mono ?_
    rintro _ rfl
    exact C.narrow_nan _ h
  by_cases hn : F.IsNaN x ∨ F.IsNaN y ∨ F.IsNaN z
  · refine (nan ?_).mono ?_
    · rcases hn with h | h | h
      · exact a2 (Or.inl (m2 (Or.inl (C.widen_nan _ h))))
      · exact a2 (Or.inl (m2 (Or.inr (C.widen_nan _ h))))
      · exact a2 (Or.inr (C.widen_nan _ h))
    · intro r hr
      refine ⟨fun hx hy hz => ?_, fun _ => hr, fun _ _ => hr, fun h1 h2 h3 => ?_, fun hx hy hz => ?_⟩
      · rcases hn with h | h | h
        · exact absurd h (IsFin.not_nan F hx)
        · exact absurd h (IsFin.not_nan F hy)
        · exact absurd h (IsFin.not_nan F hz)
      · rcases hn with h | h | h
        · exact absurd h h1
        · exact absurd h h2
        · exact absurd h h3
      · rcases hn with h | h | h
        · exact absurd h (IsFin.not_nan F hx)
        · exact absurd h (IsFin.not_nan F hy)
        · exact absurd h (IsInf.not_nan F hz)
  obtain ⟨nx, hn'⟩ := not_or.mp hn
  obtain ⟨ny, nz⟩ := not_or.mp hn'
  simp only [widen_nan_iff, widen_inf_iff, widen_zero_iff, widen_sign C nx, widen_sign C ny] at m3
  have m3 := m3 nx ny
  simp only [widen_nan_iff, widen_inf_iff, widen_sign C nz] at a3
  have a3 := fun h => a3 h nz
  by_cases hi : F.IsInf x ∨ F.IsInf y
  · have m3 := m3 hi
    have nfin : ¬ (F.IsFin x ∧ F.IsFin y) := by
      rintro ⟨h1, h2⟩
      exact hi.elim (IsFin.not_inf F h1) (IsFin.not_inf F h2)
    by_cases h0 : F.IsZero x ∨ F.IsZero y
    · rw [if_pos h0] at m3
      refine (nan (a2 (Or.inl m3))).mono ?_
      intro r hr
      exact ⟨fun hx hy => absurd ⟨hx, hy⟩ nfin, fun _ => hr, fun _ _ => hr, fun _ _ _ _ h1 h2 => absurd h0 (not_or.mpr ⟨h1, h2⟩),
        fun hx hy => absurd ⟨hx, hy⟩ nfin⟩
    · rw [if_neg h0] at m3
      have a3 := a3 m3.1
      rw [m3.2] at a3
      by_cases hc : F.IsInf z ∧ F.sign z ≠ (F.sign x ^^ F.sign y)
      · rw [if_pos ⟨hc.1, fun h => hc.2 h.symm⟩] at a3
        refine (nan a3).mono ?_
        intro r hr
        refine ⟨fun hx hy => absurd ⟨hx, hy⟩ nfin, fun _ => hr, fun _ _ => hr, fun _ _ _ _ _ _ => ?_,
          fun hx hy => absurd ⟨hx, hy⟩ nfin⟩
        rw [if_pos hc]; exact hr
      · rw [if_neg (fun h => hc ⟨h.1, fun h' => h.2 h'.symm⟩)] at a3
        have hw : B.IsInf (N.add (N.mul (C.widen x) (C.widen y)) (C.widen z)) := by rw [a3]; exact m3.1
        refine (fmaWide_sat hW N C (IsInf.not_fin B hw)).mono ?_
        rintro _ rfl
        obtain ⟨i1, i2⟩ := C.narrow_inf _ hw
        refine ⟨fun hx hy => absurd ⟨hx, hy⟩ nfin, fun h => absurd h hn, fun _ h => ?_, fun _ _ _ _ _ _ => ?_,
          fun hx hy => absurd ⟨hx, hy⟩ nfin⟩
        · exact absurd (h.elim (fun h => Or.inr h.2) (fun h => Or.inl h.1)) h0
        · rw [if_neg hc]
          refine ⟨i1, ?_⟩
          rw [i2, a3, m3.2]
  · have fx : F.IsFin x := (F.isFin_or x).resolve_right (not_or.mpr ⟨fun h => hi (Or.inl h), nx⟩)
    have fy : F.IsFin y := (F.isFin_or y).resolve_right (not_or.mpr ⟨fun h => hi (Or.inr h), ny⟩)
    have ix := IsFin.not_inf F fx
    have iy := IsFin.not_inf F fy
    rcases F.isFin_or z with fz | iz | nz'
    · refine (fmaWide_fin hW N C fx fy fz (hb fx fy fz)).mono ?_
      intro r hr
      exact ⟨fun _ _ _ => hr, fun h => absurd h hn, fun _ h => absurd (h.elim (fun h => Or.inl h.1) (fun h => Or.inr h.2)) hi, fun _ _ _ h => absurd h hi,
        fun _ _ h => absurd h (IsFin.not_inf F fz)⟩
    · obtain ⟨wx, _, vx⟩ := C.widen_fin x fx
      obtain ⟨wy, _, vy⟩ := C.widen_fin y fy
      obtain ⟨n1, n2⟩ := m1 wx wy
      rw [vx, vy] at n1
      obtain ⟨c, hc, hpc, _⟩ := prod_exact hW fx fy
      obtain ⟨fp, _⟩ := B.rounds_repr n1 hc (by rw [abs_mul, F.absv, F.absv, hpc])
      obtain ⟨w1, w2⟩ := C.widen_inf z iz
      have hw := a4 fp w1
      refine (fmaWide_sat hW N C (by rw [hw]; exact IsInf.not_fin B w1)).mono ?_
      rintro _ rfl
      rw [hw]
      obtain ⟨i1, i2⟩ := C.narrow_inf _ w1
      refine ⟨fun _ _ h => absurd iz (IsFin.not_inf F h), fun h => absurd h hn, fun _ h => absurd (h.elim (fun h => Or.inl h.1) (fun h => Or.inr h.2)) hi,
        fun _ _ _ h => absurd h hi, fun _ _ _ => ?_⟩
      apply F.ext_sign_mag
      · rw [i2, w2]
      · exact i1.trans iz.symm
    · exact absurd nz' nz

/-- the crate's own conversions -/
def softCast {F B : Fmt} (hW : Wider F B) : FloatCast F B where
  widen a := get! (extend F B a)
  narrow a := get! (trunc B F a)
  widen_fin _ h := get!_spec (extend_fin hW h)
  widen_inf a h := by
    have h' : F.mag a = F.infRep := h
    have := get!_spec (extend_special hW (a := a) (by omega))
    refine ⟨?_, this.1⟩
    unfold IsInf; rw [this.2, h', Nat.sub_self, Nat.zero_mul, Nat.add_zero]
  widen_nan a h := by
    have h' : F.infRep < F.mag a := h
    have := get!_spec (extend_special hW (a := a) (by omega))
    have hp : 0 < (F.mag a - F.infRep) * 2 ^ (B.s - F.s) := Nat.mul_pos (by omega) (Nat.two_pow_pos _)
    unfold IsNaN; omega
  narrow_fin _ h := get!_spec (trunc_fin hW h)
  narrow_inf _ h := (get!_spec (trunc_inf hW h)).symm
  narrow_nan _ h := (get!_spec (trunc_nan hW h)).2.1

end Fmt
end Verif
