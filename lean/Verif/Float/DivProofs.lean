import Verif.Float.DivRecipProofs
import Verif.Float.MulProofs
/-! # Correctness of soft-float division -/
namespace Verif
namespace Fmt
variable (F : Fmt)

/-- a conditional increment guarded by `abs_result < expMask` -/
theorem divInc_spec {abs res b : BitVec F.w} {c : Nat} (hc : c < 2 ^ F.w) (hcb : c * b.toNat < 2 ^ F.w)
    (hov : abs.toNat + 1 < 2 ^ F.w) :
    Ok (do
      let g ← (if abs < F.expMask then do
          let t ← castU F.w c
          let t ← mulC t b
          pure (decide (res > t))
        else pure false)
      addC abs (if g then 1#F.w else 0#F.w))
    (fun r => r.toNat = abs.toNat + if abs.toNat < F.infRep ∧ c * b.toNat < res.toNat then 1 else 0) := by
  have h1 := F.toNat_one'
  refine Ok.bind (P := fun g => g = decide (abs.toNat < F.infRep ∧ c * b.toNat < res.toNat)) ?_ ?_
  · by_cases h : abs < F.expMask
    · rw [if_pos h]
      rw [BitVec.lt_def, F.toNat_expMask] at h
      refine Ok.bind (castU_spec hc) ?_
      intro t ht
      refine Ok.bind (mulC_spec (by rw [ht]; exact hcb)) ?_
      intro u hu
      refine Ok.pure' ?_
      apply decide_eq_decide.mpr
      rw [gt_iff_lt, BitVec.lt_def, hu, ht]
      exact ⟨fun x => ⟨h, x⟩, fun x => x.2⟩
    · rw [if_neg h]
      rw [BitVec.lt_def, F.toNat_expMask] at h
      refine Ok.pure' ?_
      symm
      apply decide_eq_false
      rintro ⟨a, _⟩; exact h a
  rintro _ rfl
  by_cases h : abs.toNat < F.infRep ∧ c * b.toNat < res.toNat
  · simp only [h, and_self, decide_true, if_true]
    refine (addC_spec (by omega)).mono ?_
    intro r hr
    rw [hr, h1]
  · simp only [h, decide_false, if_false]
    refine (addC_spec (by simp only [Bool.false_eq_true, if_false, BitVec.toNat_zero]; omega)).mono ?_
    intro r hr
    rw [hr]; rfl

theorem divRound_spec {extra : Bool} {abs res b ps : BitVec F.w} {t : Bool} {E m V : Nat} {X : ℚ}
    (hps : ps.toNat = if t then 2 ^ (F.e + F.s) else 0) (habs : abs.toNat = (E - 1) * 2 ^ F.s + m)
    (hres : res.toNat = V) (hb0 : 2 ^ F.s ≤ b.toNat) (hb1 : b.toNat < 2 ^ (F.s + 1))
    (hE : 1 ≤ E) (hm : m < 2 ^ (F.s + 1)) (hm0 : 2 ^ F.s ≤ m ∨ E = 1) (hn : (E + 1) * 2 ^ F.s ≤ F.infRep)
    (hX : X = (m + (V : ℚ) / (2 * b.toNat)) * 2 ^ (E - 1))
    (hV : V ≤ 2 * b.toNat ∨ (2 * b.toNat < V ∧ V < 4 * b.toNat ∧ V ≠ 3 * b.toNat ∧ m + 1 < 2 ^ (F.s + 1) ∧
      (extra = false → V < 3 * b.toNat))) :
    Ok (F.divRound extra abs res b ps) (fun r => F.sign r = t ∧ F.IsRNEu X (F.mag r)) := by
  have he := F.he; have hs := F.hs
  have hps1 := F.ps_ge
  have hp1 := F.ps_succ
  have hinf := F.infRep_lt
  have hpw := F.pw
  have hpes := F.pes
  have h1 := F.toNat_one'
  have hpe := F.pe_ge
  have hW : 2 ^ F.w = 2 ^ (F.s + 1) * 2 ^ F.e := by rw [← Nat.pow_add]; congr 1; show F.e + F.s + 1 = _; omega
  have hWb : 32 * 2 ^ (F.s + 1) ≤ 2 ^ F.w := by
    rw [hW, Nat.mul_comm]; exact Nat.mul_le_mul_left _ hpe
  have hEn : (E - 1) * 2 ^ F.s + 2 ^ (F.s + 1) = (E + 1) * 2 ^ F.s := by
    obtain ⟨j, rfl⟩ : ∃ j, E = j + 1 := ⟨E - 1, by omega⟩
    rw [Nat.add_sub_cancel, hp1]; ring
  have hlsb : (abs &&& 1#F.w).toNat = abs.toNat % 2 := by
    rw [BitVec.toNat_and, h1]; exact Nat.and_two_pow_sub_one_eq_mod abs.toNat 1
  generalize hnn : (E - 1) * 2 ^ F.s + m = n at *
  have hn1 : n < F.infRep := by omega
  have hWe : 2 ^ F.w = 2 * 2 ^ (F.e + F.s) := by rw [hpw, hpes]
  -- the total increment
  have key : Ok (F.divRound extra abs res b ps) (fun r => r.toNat = (if t then 2 ^ (F.e + F.s) else 0) + (n +
      (if V ≤ 2 * b.toNat then (if V + n % 2 > b.toNat then 1 else 0) else if V < 3 * b.toNat then 1 else 2))) := by
    unfold divRound
    refine Ok.bind (addC_spec (by rw [hlsb, hres]; omega)) ?_
    intro r1 hr1
    rw [hlsb, hres, habs] at hr1
    have hbump : (if r1 > b then 1#F.w else 0#F.w).toNat = if V + n % 2 > b.toNat then 1 else 0 := by
      simp only [gt_iff_lt, BitVec.lt_def, hr1]
      split
      · exact h1
      · rfl
    refine Ok.bind (addC_spec (by rw [hbump, habs]; split <;> omega)) ?_
    intro a1 ha1
    rw [hbump, habs] at ha1
    refine Ok.bind (P := fun a2 => a2.toNat = n +
      (if V ≤ 2 * b.toNat then (if V + n % 2 > b.toNat then 1 else 0) else if V < 3 * b.toNat then 1 else 2)) ?_ ?_
    · cases extra with
      | false =>
        refine Ok.pure' ?_
        rw [ha1]
        rcases hV with hV | ⟨hV, -, -, -, hV3⟩
        · rw [if_pos hV]
        · have h3 := hV3 rfl
          split_ifs <;> omega
      | true =>
        simp only [if_true]
        refine (F.divInc_spec (c := 2 + 1) (by omega) (by omega) (by rw [ha1]; split <;> omega)).mono ?_
        intro a2 ha2
        rw [ha2, ha1, hr1]
        rcases hV with hV | ⟨hV, hV4, hV3, hm2, -⟩
        · split_ifs <;> omega
        · split_ifs <;> omega
    intro a2 ha2
    have hbound : a2.toNat ≤ n + 2 := by rw [ha2]; split <;> split <;> omega
    have hbound2 : a2.toNat ≤ F.infRep := by
      rw [ha2]
      rcases hV with hV | ⟨hV, hV4, hV3, hm2, -⟩
      · rw [if_pos hV]; split <;> omega
      · rw [if_neg (by omega)]; split <;> omega
    refine Ok.bind (P := fun a3 => a3 = a2) ?_ ?_
    · by_cases h128 : F.w = 128
      · rw [if_pos h128]
        refine (F.divInc_spec (c := 4 + 1) (by omega) (by omega) (by omega)).mono ?_
        intro a3 ha3
        rw [if_neg (by omega)] at ha3
        exact BitVec.eq_of_toNat_eq (by omega)
      · rw [if_neg h128]; exact Ok.pure' rfl
    rintro _ rfl
    refine Ok.pure' ?_
    rw [F.toNat_or_sign' (by omega) hps, ha2]
  refine key.mono ?_
  intro r hr
  have hsm := F.sign_mag_of (b := r) (t := t) (by
      rcases hV with hV | ⟨hV, hV4, hV3, hm2, -⟩
      · rw [if_pos hV]; split <;> omega
      · rw [if_neg (by omega)]; split <;> omega) hr
  refine ⟨hsm.1, ?_⟩
  rw [hsm.2]
  have hbq : (0 : ℚ) < 2 * b.toNat := by
    have : (0 : ℚ) < b.toNat := by exact_mod_cast (by omega : 0 < b.toNat)
    linarith
  rcases hV with hV | ⟨hV, hV4, hV3, hm2, -⟩
  · rw [if_pos hV]
    refine F.isRNEu_of_frac (f := (V : ℚ) / (2 * b.toNat)) hE hm hm0 (by rw [hnn]; omega) hX (by positivity) ?_ ?_
    · rw [div_le_one hbq]; exact_mod_cast hV
    · rw [hnn, div_lt_iff₀ hbq, lt_div_iff₀ hbq, div_eq_iff (ne_of_gt hbq)]
      have e : (1 / 2 : ℚ) * (2 * b.toNat) = b.toNat := by ring
      rw [e]
      rcases Nat.lt_trichotomy V b.toNat with h | h | h
      · left; exact ⟨by exact_mod_cast h, by rw [if_neg (by omega)]; rfl⟩
      · right; right
        refine ⟨by exact_mod_cast h, ?_⟩
        by_cases hpar : n % 2 = 0
        · rw [if_neg (by omega), hpar]
        · rw [if_pos (by omega)]; omega
      · right; left; exact ⟨by exact_mod_cast h, by rw [if_pos (by omega)]⟩
  · rw [if_neg (by omega)]
    have hn' : (E - 1) * 2 ^ F.s + (m + 1) = n + 1 := by omega
    refine F.isRNEu_of_frac (m := m + 1) (f := (V : ℚ) / (2 * b.toNat) - 1) hE hm2 (by omega) (by rw [hn']; omega)
      (by rw [hX]; push_cast; ring) ?_ ?_ ?_
    · rw [sub_nonneg, one_le_div hbq]; exact_mod_cast le_of_lt hV
    · rw [sub_le_iff_le_add, div_le_iff₀ hbq]
      have : (V : ℚ) ≤ ((4 * b.toNat : Nat) : ℚ) := by exact_mod_cast le_of_lt hV4
      push_cast at this; linarith
    · rw [hn', sub_lt_iff_lt_add, div_lt_iff₀ hbq, lt_sub_iff_add_lt, lt_div_iff₀ hbq]
      have e : (1 / 2 + 1 : ℚ) * (2 * b.toNat) = (3 * b.toNat : Nat) := by push_cast; ring
      rw [e]
      rcases Nat.lt_or_ge V (3 * b.toNat) with h | h
      · left; exact ⟨by exact_mod_cast h, by rw [if_pos h]⟩
      · right; left
        have h' : 3 * b.toNat < V := by omega
        exact ⟨by exact_mod_cast h', by rw [if_neg (by omega)]⟩

theorem divFinish_spec {extra : Bool} {q R A b ps : BitVec F.w} {t : Bool} {x : Int} {X : ℚ}
    (hps : ps.toNat = if t then 2 ^ (F.e + F.s) else 0)
    (hx0 : -2 ^ 30 ≤ x) (hb0 : 2 ^ F.s ≤ b.toNat) (hb1 : b.toNat < 2 ^ (F.s + 1))
    (hq0 : 2 ^ F.s ≤ q.toNat) (hq1 : q.toNat < 2 ^ (F.s + 1))
    (hqr : A.toNat * 2 ^ F.s = q.toNat * b.toNat + R.toNat) (hR : R.toNat < 2 * b.toNat)
    (hA : A.toNat ≤ 2 * b.toNat) (hodd : 2 * R.toNat ≠ 3 * b.toNat)
    (hex : extra = false → 2 * R.toNat < 3 * b.toNat)
    (hX : X = (A.toNat : ℚ) * 2 ^ F.s / b.toNat * 2 ^ (x - 1)) :
    Ok (F.divFinish extra q R A b ps x) (fun r => F.sign r = t ∧ F.IsRNEu X (F.mag r)) := by
  have he := F.he; have he' := F.he'; have hs' := F.hs'; have hs := F.hs
  have hpe : 2 ^ F.e ≤ 32768 := F.pe_le
  have hpe' := F.pe_ge
  have hwd : F.w = F.e + F.s + 1 := rfl
  have hps1 := F.ps_ge
  have hp1 := F.ps_succ
  have hsat : (F.expSat : Int) = 2 ^ F.e - 1 := by
    rw [F.expSat_eq, Nat.cast_sub (by omega)]; push_cast; rfl
  have hpw := F.pw
  have hpes := F.pes
  have hinf := F.infRep_add
  have hw0 := Nat.two_pow_pos F.w
  have two0 : (2 : ℚ) ≠ 0 := by norm_num
  have hW : 2 ^ F.w = 2 ^ (F.s + 1) * 2 ^ F.e := by rw [← Nat.pow_add]; congr 1; omega
  have hWb : 32 * 2 ^ (F.s + 1) ≤ 2 ^ F.w := by
    rw [hW, Nat.mul_comm]; exact Nat.mul_le_mul_left _ hpe'
  have hbpos : 0 < b.toNat := by omega
  have hbq : (0 : ℚ) < b.toNat := by exact_mod_cast hbpos
  have hqrq : (A.toNat : ℚ) * 2 ^ F.s = q.toNat * b.toNat + R.toNat := by exact_mod_cast hqr
  have hq2 : q.toNat * b.toNat + R.toNat ≤ 2 ^ (F.s + 1) * b.toNat := by
    rw [← hqr, hp1]
    calc A.toNat * 2 ^ F.s ≤ 2 * b.toNat * 2 ^ F.s := Nat.mul_le_mul_right _ hA
      _ = _ := by ring
  unfold divFinish
  by_cases hov : x ≥ (F.expSat : Int)
  · rw [if_pos hov]
    refine Ok.pure' ?_
    have hsm := F.sign_mag_of (b := F.expMask ||| ps) (t := t) F.infRep_lt (by
      rw [F.toNat_or_sign' (by rw [F.toNat_expMask]; exact F.infRep_lt) hps, F.toNat_expMask])
    refine ⟨hsm.1, ?_⟩
    rw [hsm.2]
    apply F.isRNEu_overflow
    rw [F.valU_infRep, hX]
    push_cast
    have a1 : (2 : ℚ) ^ F.s ≤ (A.toNat : ℚ) * 2 ^ F.s / b.toNat := by
      rw [le_div_iff₀ hbq, hqrq]
      have a : ((2 ^ F.s : Nat) : ℚ) ≤ q.toNat := by exact_mod_cast hq0
      push_cast at a
      have b' : (0 : ℚ) ≤ R.toNat := Nat.cast_nonneg _
      have : (2 : ℚ) ^ F.s * b.toNat ≤ q.toNat * b.toNat := mul_le_mul_of_nonneg_right a (le_of_lt hbq)
      linarith
    have a2 : (2 : ℚ) ^ (2 ^ F.e - 2) ≤ 2 ^ (x - 1) := by
      rw [← zpow_natCast]
      apply zpow_le_zpow_right₀ (by norm_num)
      rw [Nat.cast_sub (by omega)]; push_cast; omega
    exact mul_le_mul a1 a2 (by positivity) (by positivity)
  rw [if_neg hov]
  by_cases hx : x > 0
  · rw [if_pos hx]
    obtain ⟨E, hE⟩ : ∃ E : Nat, x = E := ⟨x.toNat, by omega⟩
    subst hE
    have hE1 : 1 ≤ E := by omega
    have hE2 : E < 2 ^ F.e - 1 := by
      have : (E : Int) < F.expSat := by omega
      rw [F.expSat_eq] at this
      exact_mod_cast this
    have hEw : E < 2 ^ F.w := by
      have : 2 ^ F.e ≤ 2 ^ F.w := two_pow_le (by omega)
      omega
    have hEs : (E + 1) * 2 ^ F.s ≤ F.infRep := by
      unfold infRep
      exact Nat.mul_le_mul_right _ (by omega)
    have hEs' : (E + 1) * 2 ^ F.s = E * 2 ^ F.s + 2 ^ F.s := by ring
    have hEm : (E - 1) * 2 ^ F.s + q.toNat = E * 2 ^ F.s + (q.toNat - 2 ^ F.s) := by
      obtain ⟨j, rfl⟩ : ∃ j, E = j + 1 := ⟨E - 1, by omega⟩
      rw [Nat.add_sub_cancel, Nat.succ_mul]; omega
    have hinfW : F.infRep < 2 ^ F.w := by omega
    refine Ok.bind (castU_spec (by simpa using hEw)) ?_
    intro ex hex0
    rw [Int.toNat_natCast] at hex0
    refine Ok.bind (shlC_spec (by omega)) ?_
    intro ex' hex1
    rw [hex0, Nat.mod_eq_of_lt (by omega)] at hex1
    refine Ok.bind (shlC_spec (by omega)) ?_
    intro R2 hR2
    rw [pow_one, Nat.mod_eq_of_lt (by omega)] at hR2
    refine F.divRound_spec (E := E) (m := q.toNat) hps ?_ hR2 hb0 hb1 hE1 hq1 (Or.inl hq0) hEs ?_ ?_
    · rw [BitVec.toNat_or, hex1, F.toNat_and_sigMask,
          or_eq_add (k := F.s) (Nat.mod_lt _ (by omega)) (Dvd.intro_left _ rfl), hEm,
          Nat.mod_eq_sub_mod hq0, Nat.mod_eq_of_lt (by omega), Nat.add_comm]
    · rw [hX, hqrq]
      have ez : (2 : ℚ) ^ ((E : ℤ) - 1) = 2 ^ (E - 1) := by
        rw [← zpow_natCast, Nat.cast_sub hE1]; push_cast; rfl
      rw [ez]
      push_cast
      field_simp
    · by_cases hc : R.toNat * 2 ≤ 2 * b.toNat
      · left; exact hc
      · right
        refine ⟨by omega, by omega, by omega, ?_, fun h => by have := hex h; omega⟩
        have : (q.toNat + 1) * b.toNat < 2 ^ (F.s + 1) * b.toNat := by rw [Nat.add_mul, Nat.one_mul]; omega
        exact Nat.lt_of_mul_lt_mul_right this
  · rw [if_neg hx]
    refine Ok.bind (i32C_spec (by omega)) ?_
    rintro _ rfl
    by_cases hneg : (F.s : Int) + x < 0
    · rw [if_pos hneg]
      refine Ok.pure' ?_
      have hsm := F.sign_mag_of (b := ps) (t := t) (n := 0) (Nat.two_pow_pos _) (by rw [hps]; rfl)
      refine ⟨hsm.1, ?_⟩
      rw [hsm.2]
      have hXn : 0 ≤ X := by rw [hX]; positivity
      have hX2 : X ≤ 1 / 2 := by
        have a1 : (A.toNat : ℚ) * 2 ^ F.s / b.toNat ≤ 2 ^ (F.s + 1) := by
          rw [div_le_iff₀ hbq, hqrq]; exact_mod_cast hq2
        have a2 : (2 : ℚ) ^ (x - 1) ≤ 2 ^ (-(F.s + 1 : Nat) - 1 : ℤ) :=
          zpow_le_zpow_right₀ (by norm_num) (by omega)
        rw [hX]
        calc _ ≤ (2 : ℚ) ^ (F.s + 1) * 2 ^ (-(F.s + 1 : Nat) - 1 : ℤ) :=
              mul_le_mul a1 a2 (by positivity) (by positivity)
          _ = 1 / 2 := by
              rw [← zpow_natCast, ← zpow_add₀ two0]
              have : ((F.s + 1 : Nat) : ℤ) + (-((F.s + 1 : Nat) : ℤ) - 1) = -1 := by ring
              rw [this]; norm_num
      have hps2 := F.ps_le_infRep
      rcases lt_or_eq_of_le hX2 with h | h
      · exact F.isRNEu_zero hXn h
      · exact F.isRNEu_of_frac (E := 1) (m := 0) (f := X) (le_refl _) (by omega) (Or.inr rfl) (by omega)
          (by simp) hXn (by linarith) (Or.inr (Or.inr ⟨h, by simp⟩))
    rw [if_neg hneg]
    obtain ⟨k, hk⟩ : ∃ k : Nat, x = 1 - (k : Int) := ⟨(1 - x).toNat, by omega⟩
    have hk1 : 1 ≤ k := by omega
    have hk2 : k ≤ F.s + 1 := by omega
    rw [i32W_eq (x := -x) (by omega)]
    refine Ok.bind (castI_spec (w := 32) (by omega)) ?_
    intro k1 hk1'
    have hk1n : k1.toNat = k - 1 := by omega
    refine Ok.bind (addC_spec (by rw [hk1n, show (1#32).toNat = 1 from rfl]; omega)) ?_
    intro k2 hk2'
    have hk2n : k2.toNat = k := by rw [hk2', hk1n, show (1#32).toNat = 1 from rfl]; omega
    refine Ok.bind (shlC_spec (by omega)) ?_
    intro u hu
    have hret : (wshr q k2.toNat).toNat = q.toNat / 2 ^ k := by
      unfold wshr
      rw [hk2n, Nat.mod_eq_of_lt (by omega), BitVec.toNat_ushiftRight, Nat.shiftRight_eq_div_pow]
    have hshift : (BitVec.ofNat 32 F.s + castLossyI 32 x).toNat = F.s + 1 - k := by
      have e : BitVec.ofNat 32 F.s + castLossyI 32 x = BitVec.ofNat 32 (F.s + 1 - k) := by
        unfold castLossyI
        rw [hk]
        apply BitVec.eq_of_toInt_eq
        rw [BitVec.toInt_add, BitVec.toInt_ofInt]
        simp only [BitVec.toInt_ofNat']
        rw [Int.add_bmod_bmod, Int.bmod_add_bmod]
        congr 1
        rw [Nat.cast_sub hk2]
        push_cast
        ring
      rw [e, BitVec.toNat_ofNat, Nat.mod_eq_of_lt (by omega)]
    -- the residual of the shortened quotient
    have pk := Nat.two_pow_pos k
    have pk1 := Nat.two_pow_pos (k - 1)
    have ek : 2 ^ k = 2 * 2 ^ (k - 1) := by rw [← Nat.pow_succ']; congr 1; omega
    have esk : 2 ^ (F.s + 1 - k) * 2 ^ k = 2 * 2 ^ F.s := by
      rw [← Nat.pow_add, ← Nat.pow_succ']; congr 1; omega
    have hdm := Nat.div_add_mod q.toNat (2 ^ k)
    have hml := Nat.mod_lt q.toNat pk
    obtain ⟨V, hV⟩ : ∃ V, A.toNat * 2 ^ (F.s + 1 - k) = V + 2 * (q.toNat / 2 ^ k * b.toNat) := by
      refine ⟨A.toNat * 2 ^ (F.s + 1 - k) - 2 * (q.toNat / 2 ^ k * b.toNat), ?_⟩
      rw [Nat.sub_add_cancel]
      have : 2 * (q.toNat / 2 ^ k * b.toNat) * 2 ^ k ≤ A.toNat * 2 ^ (F.s + 1 - k) * 2 ^ k := by
        rw [Nat.mul_assoc A.toNat, esk]
        have e1 : A.toNat * (2 * 2 ^ F.s) = 2 * (q.toNat * b.toNat + R.toNat) := by rw [← hqr]; ring
        have e2 : 2 * (q.toNat / 2 ^ k * b.toNat) * 2 ^ k = 2 * (2 ^ k * (q.toNat / 2 ^ k) * b.toNat) := by ring
        rw [e1, e2]
        have : 2 ^ k * (q.toNat / 2 ^ k) * b.toNat ≤ q.toNat * b.toNat := Nat.mul_le_mul_right _ (by omega)
        omega
      exact Nat.le_of_mul_le_mul_right this pk
    have hVk : V * 2 ^ (k - 1) = q.toNat % 2 ^ k * b.toNat + R.toNat := by
      have e1 : A.toNat * (2 * 2 ^ F.s) = 2 * (q.toNat * b.toNat + R.toNat) := by rw [← hqr]; ring
      have e2 := congrArg (· * 2 ^ k) hV
      rw [Nat.mul_assoc, esk, e1] at e2
      have e3 : q.toNat * b.toNat = 2 ^ k * (q.toNat / 2 ^ k) * b.toNat + q.toNat % 2 ^ k * b.toNat := by
        rw [← Nat.add_mul, hdm]
      have e4 : (V + 2 * (q.toNat / 2 ^ k * b.toNat)) * 2 ^ k =
          2 * (V * 2 ^ (k - 1)) + 2 * (2 ^ k * (q.toNat / 2 ^ k) * b.toNat) := by
        rw [ek]; ring
      omega
    have hV3 : V < 3 * b.toNat := by
      have : V * 2 ^ (k - 1) < 3 * b.toNat * 2 ^ (k - 1) := by
        have e1 : (q.toNat % 2 ^ k + 1) * b.toNat ≤ 2 ^ k * b.toNat := Nat.mul_le_mul_right _ hml
        rw [Nat.add_mul, Nat.one_mul] at e1
        have e2 : 2 ^ k * b.toNat = 2 * (2 ^ (k - 1) * b.toNat) := by rw [ek]; ring
        have e3 : 3 * b.toNat * 2 ^ (k - 1) = 3 * (2 ^ (k - 1) * b.toNat) := by ring
        have e4 : 1 * b.toNat ≤ 2 ^ (k - 1) * b.toNat := Nat.mul_le_mul_right _ pk1
        omega
      exact Nat.lt_of_mul_lt_mul_right this
    have hresid : (wshl A (BitVec.ofNat 32 F.s + castLossyI 32 x).toNat - u).toNat = V := by
      rw [hshift]
      unfold wshl
      rw [Nat.mod_eq_of_lt (by omega)]
      have e1 : u = BitVec.ofNat F.w (2 * (q.toNat / 2 ^ k * b.toNat)) := by
        apply BitVec.eq_of_toNat_eq
        rw [hu, BitVec.toNat_mul, hret, BitVec.toNat_ofNat, pow_one, Nat.mod_mul_mod, Nat.mul_comm]
      have e2 : A <<< (F.s + 1 - k) = BitVec.ofNat F.w (V + 2 * (q.toNat / 2 ^ k * b.toNat)) := by
        apply BitVec.eq_of_toNat_eq
        rw [BitVec.toNat_shiftLeft, Nat.shiftLeft_eq, hV, BitVec.toNat_ofNat]
      rw [e1, e2, BitVec.ofNat_add, BitVec.add_sub_cancel, BitVec.toNat_ofNat, Nat.mod_eq_of_lt (by omega)]
    have hret2 : q.toNat / 2 ^ k < 2 ^ F.s := by
      rw [Nat.div_lt_iff_lt_mul pk]
      have : 2 ^ F.s * 2 ≤ 2 ^ F.s * 2 ^ k := Nat.mul_le_mul_left _ (by omega)
      omega
    refine F.divRound_spec (E := 1) (m := q.toNat / 2 ^ k) (V := V) hps (by rw [hret]; simp) hresid hb0 hb1 (le_refl _)
      (by omega) (Or.inr rfl) ?_ ?_ ?_
    · unfold infRep; exact Nat.mul_le_mul_right _ (by omega)
    · have hVq : (V : ℚ) + 2 * (((q.toNat / 2 ^ k : Nat) : ℚ) * b.toNat) = A.toNat * 2 ^ (F.s + 1 - k) := by
        exact_mod_cast hV.symm
      have ez : (2 : ℚ) ^ (x - 1) * 2 ^ F.s = 2 ^ (F.s + 1 - k) / 2 := by
        rw [eq_div_iff two0, ← zpow_natCast, ← zpow_natCast, ← zpow_add₀ two0, ← zpow_add_one₀ two0]
        congr 1
        rw [Nat.cast_sub hk2, hk]; push_cast; ring
      rw [hX, Nat.sub_self, pow_zero, mul_one]
      have : (A.toNat : ℚ) * 2 ^ F.s / b.toNat * 2 ^ (x - 1) = A.toNat * ((2 : ℚ) ^ (x - 1) * 2 ^ F.s) / b.toNat := by
        ring
      rw [this, ez]
      have : (A.toNat : ℚ) * (2 ^ (F.s + 1 - k) / 2) = (A.toNat * 2 ^ (F.s + 1 - k)) / 2 := by ring
      rw [this, ← hVq]
      field_simp
      ring
    · by_cases hc : V ≤ 2 * b.toNat
      · left; exact hc
      · right; exact ⟨by omega, by omega, by omega, by omega, fun _ => hV3⟩

/-- An approximate quotient that is a lower bound leaves no exact tie three halves above it. -/
theorem div_no_tie {S a q R b A j : Nat} (ha0 : 0 < a) (ha : a < 2 ^ (S + 1)) (hq : 2 ^ S ≤ q)
    (hA : A = 2 ^ j * a) (h : A * 2 ^ S = q * b + R) : 2 * R ≠ 3 * b := by
  intro h3
  have e : (2 * q + 3) * b = 2 ^ (S + 1 + j) * a := by
    have : 2 * (A * 2 ^ S) = 2 * (q * b + R) := by rw [h]
    rw [Nat.mul_add, h3, hA] at this
    rw [Nat.pow_add, Nat.pow_succ]
    calc (2 * q + 3) * b = 2 * (q * b) + 3 * b := by ring
      _ = _ := by rw [← this]; ring
  have hd : (2 * q + 3) ∣ 2 ^ (S + 1 + j) * a := Dvd.intro _ e
  have hc : Nat.Coprime (2 * q + 3) (2 ^ (S + 1 + j)) := by
    apply Nat.Coprime.pow_right
    show Nat.gcd (2 * q + 3) 2 = 1
    rw [Nat.gcd_comm, Nat.gcd_rec, show (2 * q + 3) % 2 = 1 by omega]; rfl
  have := Nat.le_of_dvd ha0 (hc.dvd_of_dvd_mul_left hd)
  rw [Nat.pow_succ] at ha
  omega

/-- The quotient estimate: `Q = 2^W`, `x` a lower estimate of `2^(W+s)/b` that is at most `d` too small. -/
theorem divQuot_arith {S E W d x a b q r : Nat} (hW : W = E + S + 1) (he : 5 ≤ E) (hS : 10 ≤ S)
    (ha0 : 2 ^ S ≤ a) (ha1 : a < 2 ^ (S + 1)) (hb0 : 2 ^ S ≤ b) (hb1 : b < 2 ^ (S + 1))
    (h1 : x * b < 2 ^ (W + S)) (h2 : 2 ^ (W + S) ≤ x * b + d * b) (hd : d < 2 ^ (E - 1)) (hxw : x < 2 ^ W)
    (hq : 2 * a * x = q * 2 ^ W + r) (hr : r < 2 ^ W) :
    2 ^ S ≤ q ∧ q < 2 * 2 ^ (S + 1) ∧
    (q < 2 ^ (S + 1) → ∃ R, 2 * a * 2 ^ S = q * b + R ∧ R < 2 * b ∧ a ≤ b ∧ (d ≤ 2 ^ (E - 2) → 2 * R < 3 * b)) ∧
    (2 ^ (S + 1) ≤ q → ∃ R, a * 2 ^ S = q / 2 * b + R ∧ 2 * R < 3 * b) := by
  have eS : 2 ^ (S + 1) = 2 * 2 ^ S := by rw [Nat.pow_succ, Nat.mul_comm]
  have eW1 : 2 ^ W = 2 * 2 ^ (W - 1) := by rw [← Nat.pow_succ']; congr 1; omega
  have eWS : 2 ^ (W + S) = 2 ^ W * 2 ^ S := Nat.pow_add ..
  have eE1 : 2 ^ (E - 1) * 2 ^ (S + 1) = 2 ^ (W - 1) := by rw [← Nat.pow_add]; congr 1; omega
  have eE2 : 2 * 2 ^ (E - 2) = 2 ^ (E - 1) := by rw [← Nat.pow_succ']; congr 1; omega
  have pS := Nat.two_pow_pos S
  have pW := Nat.two_pow_pos (W - 1)
  have pE := Nat.two_pow_pos (E - 1)
  generalize 2 ^ (S + 1) = T at *
  generalize 2 ^ S = s at *
  generalize 2 ^ (W + S) = N at *
  generalize 2 ^ W = Q at *
  generalize 2 ^ (W - 1) = P at *
  generalize 2 ^ (E - 1) = D at *
  generalize 2 ^ (E - 2) = D2 at *
  subst eS eW1 eWS
  have hdb : d * b < P := by
    rw [← eE1]
    exact Nat.mul_lt_mul'' hd hb1
  have hda : d * a < P := by
    rw [← eE1]
    exact Nat.mul_lt_mul'' hd ha1
  -- the estimate of the reciprocal is at least one half
  have hx : P ≤ x := by
    by_contra hc
    have : x * b ≤ (P - 1) * (2 * s - 1) := Nat.mul_le_mul (by omega) (by omega)
    have e : (P - 1) * (2 * s - 1) + P + 2 * s = P * (2 * s) + 1 := by
      obtain ⟨p, rfl⟩ : ∃ p, P = p + 1 := ⟨P - 1, by omega⟩
      obtain ⟨u, hu⟩ : ∃ u, 2 * s = u + 1 := ⟨2 * s - 1, by omega⟩
      rw [hu, Nat.add_sub_cancel, Nat.add_sub_cancel]; ring
    have e2 : 2 * P * s = P * (2 * s) := by ring
    omega
  refine ⟨?_, ?_, ?_, ?_⟩
  · have : s * (2 * P) < (q + 1) * (2 * P) := by
      have a1 : s * P ≤ a * x := Nat.mul_le_mul ha0 hx
      have a2 : 2 * a * x = 2 * (a * x) := by ring
      have a3 : s * (2 * P) = 2 * (s * P) := by ring
      rw [Nat.add_mul]
      omega
    have := Nat.lt_of_mul_lt_mul_right this
    omega
  · have : q * (2 * P) < 2 * (2 * s) * (2 * P) := by
      have a1 : a * x < 2 * s * (2 * P) := Nat.mul_lt_mul'' ha1 hxw
      have a2 : 2 * a * x = 2 * (a * x) := by ring
      have a3 : 2 * (2 * s) * (2 * P) = 2 * (2 * s * (2 * P)) := by ring
      omega
    exact Nat.lt_of_mul_lt_mul_right this
  · intro hlt
    have hqb : q * b ≤ 2 * a * s := by
      have : q * b * (2 * P) ≤ 2 * a * s * (2 * P) := by
        calc q * b * (2 * P) = q * (2 * P) * b := by ring
          _ ≤ 2 * a * x * b := Nat.mul_le_mul_right _ (by omega)
          _ = 2 * a * (x * b) := by ring
          _ ≤ 2 * a * (2 * P * s) := Nat.mul_le_mul_left _ (le_of_lt h1)
          _ = _ := by ring
      exact Nat.le_of_mul_le_mul_right this (by omega)
    have hRP : (2 * a * s - q * b) * (2 * P) ≤ (2 * a * d + r) * b := by
      rw [Nat.sub_mul, Nat.sub_le_iff_le_add]
      calc 2 * a * s * (2 * P) = 2 * a * (2 * P * s) := by ring
        _ ≤ 2 * a * (x * b + d * b) := Nat.mul_le_mul_left _ h2
        _ = 2 * a * x * b + 2 * a * d * b := by ring
        _ = (q * (2 * P) + r) * b + 2 * a * d * b := by rw [hq]
        _ = _ := by ring
    refine ⟨2 * a * s - q * b, by omega, ?_, ?_, ?_⟩
    · have : (2 * a * s - q * b) * (2 * P) < 2 * b * (2 * P) := by
        have : (2 * a * d + r) * b < (2 * P + 2 * P) * b := by
          apply Nat.mul_lt_mul_of_pos_right _ (by omega)
          have : 2 * a * d = 2 * (d * a) := by ring
          omega
        have e : (2 * P + 2 * P) * b = 2 * b * (2 * P) := by ring
        omega
      exact Nat.lt_of_mul_lt_mul_right this
    · by_contra hc
      have a1 : (b + 1) * x ≤ a * x := Nat.mul_le_mul_right _ (by omega)
      have a2 : (b + 1) * x = x * b + x := by ring
      have a3 : 2 * a * x = 2 * (a * x) := by ring
      have a4 : 2 * s * (2 * P) ≤ q * (2 * P) + r := by
        have : 2 * s * (2 * P) = 2 * (2 * P * s) := by ring
        omega
      have a5 : (q + 1) * (2 * P) ≤ 2 * s * (2 * P) := Nat.mul_le_mul_right _ hlt
      rw [Nat.add_mul] at a5
      omega
    · intro hd2
      have h2da : 2 * (d * a) ≤ P := by
        calc 2 * (d * a) = 2 * d * a := by ring
          _ ≤ D * (2 * s) := Nat.mul_le_mul (by omega) (le_of_lt ha1)
          _ = P := eE1
      have : 2 * (2 * a * s - q * b) * (2 * P) < 3 * b * (2 * P) := by
        have : 2 * ((2 * a * d + r) * b) < 2 * ((P + 2 * P) * b) := by
          apply Nat.mul_lt_mul_of_pos_left _ (by omega)
          apply Nat.mul_lt_mul_of_pos_right _ (by omega)
          have : 2 * a * d = 2 * (d * a) := by ring
          omega
        have e : 2 * ((P + 2 * P) * b) = 3 * b * (2 * P) := by ring
        have e2 : 2 * (2 * a * s - q * b) * (2 * P) = 2 * ((2 * a * s - q * b) * (2 * P)) := by ring
        omega
      exact Nat.lt_of_mul_lt_mul_right this
  · intro hge
    obtain ⟨p, c, hpc, hc⟩ : ∃ p c, q = 2 * p + c ∧ c < 2 := ⟨q / 2, q % 2, by omega, by omega⟩
    have hp : q / 2 = p := by omega
    rw [hp]
    obtain ⟨r', hr', hr2⟩ : ∃ r', a * x = p * (2 * P) + r' ∧ r' < 2 * P := by
      refine ⟨a * x - p * (2 * P), ?_, ?_⟩ 
      · have : 2 * a * x = 2 * (a * x) := by ring
        have e : q * (2 * P) = 2 * (p * (2 * P)) + c * (2 * P) := by rw [hpc]; ring
        omega
      · have : 2 * a * x = 2 * (a * x) := by ring
        have e : q * (2 * P) = 2 * (p * (2 * P)) + c * (2 * P) := by rw [hpc]; ring
        have : c * (2 * P) ≤ 1 * (2 * P) := Nat.mul_le_mul_right _ (by omega)
        omega
    have hqb : p * b ≤ a * s := by
      have : p * b * (2 * P) ≤ a * s * (2 * P) := by
        calc p * b * (2 * P) = p * (2 * P) * b := by ring
          _ ≤ a * x * b := Nat.mul_le_mul_right _ (by omega)
          _ = a * (x * b) := by ring
          _ ≤ a * (2 * P * s) := Nat.mul_le_mul_left _ (le_of_lt h1)
          _ = _ := by ring
      exact Nat.le_of_mul_le_mul_right this (by omega)
    have hRP : (a * s - p * b) * (2 * P) ≤ (a * d + r') * b := by
      rw [Nat.sub_mul, Nat.sub_le_iff_le_add]
      calc a * s * (2 * P) = a * (2 * P * s) := by ring
        _ ≤ a * (x * b + d * b) := Nat.mul_le_mul_left _ h2
        _ = a * x * b + a * d * b := by ring
        _ = (p * (2 * P) + r') * b + a * d * b := by rw [hr']
        _ = _ := by ring
    refine ⟨a * s - p * b, by omega, ?_⟩
    have : 2 * (a * s - p * b) * (2 * P) < 3 * b * (2 * P) := by
      have : 2 * ((a * d + r') * b) < 2 * ((P + 2 * P) * b) := by
        apply Nat.mul_lt_mul_of_pos_left _ (by omega)
        apply Nat.mul_lt_mul_of_pos_right _ (by omega)
        have : a * d = d * a := by ring
        omega
      have e : 2 * ((P + 2 * P) * b) = 3 * b * (2 * P) := by ring
      have e2 : 2 * (a * s - p * b) * (2 * P) = 2 * ((a * s - p * b) * (2 * P)) := by ring
      omega
    exact Nat.lt_of_mul_lt_mul_right this

/-- `t - q·b` computed modulo `2^w` -/
theorem resid_toNat {w : Nat} {t q b : BitVec w} {T R : Nat} (ht : t.toNat = T % 2 ^ w) (h : T = q.toNat * b.toNat + R)
    (hR : R < 2 ^ w) : (t - q * b).toNat = R := by
  have e1 : t = BitVec.ofNat w R + q * b := by
    apply BitVec.eq_of_toNat_eq
    rw [ht, h, BitVec.toNat_add, BitVec.toNat_mul, BitVec.toNat_ofNat]
    simp [Nat.add_comm]
  rw [e1, BitVec.add_sub_cancel, BitVec.toNat_ofNat, Nat.mod_eq_of_lt hR]

theorem divCore_spec {O : DOps F.w} (hO : O.Lawful) {half full prec d : Nat} {ps sa sb : BitVec F.w} {x0 xa xb : Int}
    {t : Bool} {na nb ma mb : Nat}
    (hrec : ∀ b1 : BitVec F.w, 2 ^ (F.w - 1) ≤ b1.toNat → 2 ^ F.e ∣ b1.toNat →
      Ok (F.divRecip half full prec b1) (F.RecipOk d b1))
    (hd : d < 2 ^ (F.e - 1)) (hd2 : ¬ (F.w = 128 ∨ (F.w = 32 ∧ half > 0)) → d ≤ 2 ^ (F.e - 2))
    (hps : ps.toNat = if t then 2 ^ (F.e + F.s) else 0)
    (hx : x0 = xa - xb + F.bias)
    (hsa : (sa ||| F.implicitBit).toNat = ma) (hsb : (sb ||| F.implicitBit).toNat = mb)
    (hda : F.Dec na xa ma) (hdb : F.Dec nb xb mb) :
    Ok (F.divCore O half full prec ps sa sb x0) (fun r => F.sign r = t ∧
      F.IsRNEu ((F.valU na : ℚ) / F.valU nb / F.ulp0 ℚ) (F.mag r)) := by
  have he := F.he; have he' := F.he'; have hs' := F.hs'; have hs := F.hs
  have hpe : (2 : Int) ^ F.e ≤ 32768 := by exact_mod_cast F.pe_le
  have hpe2 := F.pe_le
  have hpe3 := F.pe_ge
  have hwd : F.w = F.e + F.s + 1 := rfl
  have hps1 := F.ps_ge
  have hp1 := F.ps_succ
  have hpw := F.pw
  have hbias := F.pe_bias
  have two0 : (2 : ℚ) ≠ 0 := by norm_num
  obtain ⟨a0, a1, a2, a3, a4⟩ := hda
  obtain ⟨b0, b1, b2, b3, b4⟩ := hdb
  have hx1 : -2 ^ 30 + 1 ≤ x0 ∧ x0 < 2 ^ 30 := by omega
  have hW : 2 ^ F.w = 2 ^ (F.s + 1) * 2 ^ F.e := by rw [← Nat.pow_add]; congr 1; omega
  have hW1 : 2 ^ (F.w - 1) = 2 ^ F.s * 2 ^ F.e := by rw [← Nat.pow_add]; congr 1; omega
  have hWb : 32 * 2 ^ (F.s + 1) ≤ 2 ^ F.w := by
    rw [hW, Nat.mul_comm]; exact Nat.mul_le_mul_left _ hpe3
  have hpe0 := Nat.two_pow_pos F.e
  have hX : (F.valU na : ℚ) / F.valU nb / F.ulp0 ℚ = (ma : ℚ) * 2 ^ F.s / mb * 2 ^ (x0 - 1) := by
    have hmb : (mb : ℚ) ≠ 0 := by
      have : mb ≠ 0 := by omega
      exact_mod_cast this
    rw [a4, b4, hx]
    unfold ulp0
    have e1 : (ma : ℚ) * 2 ^ (xa - 1) / (mb * 2 ^ (xb - 1)) / 2 ^ (1 - (F.bias : ℤ) - F.s) =
      ma / mb * (2 ^ (xa - 1) / 2 ^ (xb - 1) / 2 ^ (1 - (F.bias : ℤ) - F.s)) := by field_simp
    have e2 : (ma : ℚ) * 2 ^ F.s / mb * 2 ^ (xa - xb + F.bias - 1) =
      ma / mb * (2 ^ F.s * 2 ^ (xa - xb + F.bias - 1)) := by field_simp
    rw [e1, e2, ← zpow_sub₀ two0, ← zpow_sub₀ two0, ← zpow_natCast 2 F.s, ← zpow_add₀ two0]
    congr 2
    ring
  rw [hX]
  unfold divCore
  dsimp only
  refine Ok.bind (shlC_spec (by omega)) ?_
  intro bq hbq
  have ewe : F.w - F.s - 1 = F.e := by omega
  rw [hsb, ewe, Nat.mod_eq_of_lt (by rw [hW]; exact Nat.mul_lt_mul_of_pos_right b1 hpe0)] at hbq
  refine Ok.bind (hrec bq (by rw [hbq, hW1]; exact Nat.mul_le_mul_right _ b0) (by rw [hbq]; exact Dvd.intro_left _ rfl)) ?_
  rintro x ⟨hr1, hr2⟩
  have eN : 2 ^ (2 * F.w - 1) = 2 ^ (F.w + F.s) * 2 ^ F.e := by rw [← Nat.pow_add]; congr 1; omega
  rw [hbq, eN, ← Nat.mul_assoc] at hr1
  rw [hbq, eN, ← Nat.mul_assoc, ← Nat.mul_assoc, ← Nat.add_mul] at hr2
  have hr1 := Nat.lt_of_mul_lt_mul_right hr1
  have hr2 := Nat.le_of_mul_le_mul_right hr2 hpe0
  refine Ok.bind (shlC_spec (by omega)) ?_
  intro a' ha'
  rw [hsa, pow_one, Nat.mod_eq_of_lt (by omega)] at ha'
  refine Ok.bind (hO.widenMul _ _) ?_
  intro p hp
  have hval : O.val p = (O.hi p).toNat * 2 ^ F.w + (O.lo p).toNat := rfl
  rw [hval, ha'] at hp
  obtain ⟨hq0, hq1, hcase1, hcase2⟩ := divQuot_arith (S := F.s) (E := F.e) (W := F.w) (a := ma) (b := mb) hwd he hs a0 a1
    b0 b1 hr1 hr2 hd x.isLt (q := (O.hi p).toNat) (r := (O.lo p).toNat)
    (by rw [hp]; ring) (O.lo p).isLt
  refine Ok.bind (P := fun z : BitVec F.w × BitVec F.w × BitVec F.w × Int =>
    ∃ j : Nat, z.2.2.1.toNat = 2 ^ j * ma ∧ z.2.2.2 = x0 - j ∧ j ≤ 1 ∧
    2 ^ F.s ≤ z.1.toNat ∧ z.1.toNat < 2 ^ (F.s + 1) ∧ z.2.2.1.toNat * 2 ^ F.s = z.1.toNat * mb + z.2.1.toNat ∧
    z.2.1.toNat < 2 * mb ∧ z.2.2.1.toNat ≤ 2 * mb ∧ (d ≤ 2 ^ (F.e - 2) → 2 * z.2.1.toNat < 3 * mb)) ?_ ?_
  · unfold divQuot
    refine Ok.bind (shlC_spec (by omega)) ?_
    intro u hu
    rw [F.toNat_implicitBit, pow_one, Nat.mod_eq_of_lt (by omega)] at hu
    by_cases hc : O.hi p < u
    · rw [if_pos hc]
      rw [BitVec.lt_def, hu] at hc
      obtain ⟨R, hR1, hR2, hR3, hR4⟩ := hcase1 (by omega)
      refine Ok.bind (shlC_spec (by omega)) ?_
      intro v hv
      rw [hsa] at hv
      refine Ok.bind (i32C_spec (by omega)) ?_
      rintro _ rfl
      refine Ok.bind (shlC_spec (by omega)) ?_
      intro a'' ha''
      rw [hsa, pow_one, Nat.mod_eq_of_lt (by omega)] at ha''
      refine Ok.pure' ⟨1, ?_⟩
      dsimp only
      rw [resid_toNat (T := ma * 2 ^ (F.s + 1)) (R := R) hv
        (by rw [hsb, ← hR1, hp1]; ring) (by omega), ha'']
      refine ⟨by ring, by ring, le_refl _, hq0, by omega, by rw [← hR1]; ring, hR2, by omega, hR4⟩
    · rw [if_neg hc]
      rw [BitVec.lt_def, hu] at hc
      obtain ⟨R, hR1, hR2⟩ := hcase2 (by omega)
      refine Ok.bind (shrC_spec (by omega)) ?_
      intro q hq
      rw [pow_one] at hq
      refine Ok.bind (shlC_spec (by omega)) ?_
      intro v hv
      rw [hsa] at hv
      refine Ok.pure' ⟨0, ?_⟩
      dsimp only
      rw [resid_toNat (T := ma * 2 ^ F.s) (R := R) hv
        (by rw [hsb, hq, ← hR1]) (by omega), hsa, hq]
      refine ⟨by ring, by simp, by omega, by omega, by omega, hR1, by omega, by omega, fun _ => hR2⟩
  rintro ⟨q, R, A, x'⟩ ⟨j, hA, hxj, hj, z1, z2, z3, z4, z5, z6⟩
  dsimp only at hA hxj z1 z2 z3 z4 z5 z6 ⊢
  refine F.divFinish_spec hps (by omega) (by rw [hsb]; exact b0) (by rw [hsb]; exact b1) z1 z2 (by rw [hsb]; exact z3)
    (by rw [hsb]; exact z4) (by rw [hsb]; exact z5)
    (by rw [hsb]; exact div_no_tie (by omega) a1 z1 hA z3) (fun h => by
      rw [hsb]; exact z6 (hd2 (by simpa using h))) ?_
  rw [hsb, hA, hxj]
  push_cast
  have ez : (2 : ℚ) ^ (x0 - 1) = 2 ^ j * 2 ^ (x0 - j - 1) := by
    rw [← zpow_natCast, ← zpow_add₀ two0]; congr 1; ring
  rw [ez]; ring

/-- the operand is a nonzero finite number: renormalisation yields its decomposition -/
theorem divNorm_spec {sub : Bool} {b : BitVec F.w} {e0 : Int} (hsc : -2 ^ 20 ≤ e0 ∧ e0 ≤ 2 ^ 20)
    (h0 : F.mag b ≠ 0) (hf : F.mag b < F.infRep) :
    Ok (F.divNorm sub b (b &&& F.sigMask) e0) (fun p => ∃ x m, -200 ≤ p.1 - e0 ∧ p.1 - e0 ≤ 200 ∧
      p.1 = (if sub then e0 + ((F.mag b / 2 ^ F.s : Nat) : Int) - x else e0 - ((F.mag b / 2 ^ F.s : Nat) : Int) + x) ∧
      (p.2 ||| F.implicitBit).toNat = m ∧ F.Dec (F.mag b) x m) := by
  have hs' := F.hs'
  unfold divNorm
  have hlt : b &&& F.absMask < F.implicitBit ↔ F.mag b < 2 ^ F.s := by
    rw [BitVec.lt_def, F.toNat_and_absMask, F.toNat_implicitBit]
  have hsig : (b &&& F.sigMask).toNat = F.mag b % 2 ^ F.s := by rw [F.toNat_and_sigMask, F.mag_mod]
  have hps := Nat.two_pow_pos F.s
  by_cases hc : F.mag b < 2 ^ F.s
  · simp only [hlt, if_pos hc]
    have hz : F.mag b / 2 ^ F.s = 0 := Nat.div_eq_of_lt hc
    have hm : F.mag b % 2 ^ F.s = F.mag b := Nat.mod_eq_of_lt hc
    refine Ok.bind (F.normalize_spec (by rw [hsig, hm]; omega) (by rw [hsig, hm]; exact hc)) ?_
    rintro ⟨x, g⟩ ⟨k, hk1, hk2, hx, hg, hg0, hg1⟩
    dsimp only at hx hg hg0 hg1 ⊢
    refine Ok.bind (i32C_spec (by split <;> omega)) ?_
    rintro _ rfl
    refine Ok.pure' ⟨x, g.toNat, ?_, ?_, ?_, F.or_implicit' hg0 hg1, ?_⟩
    · dsimp only; split <;> omega
    · dsimp only; split <;> omega
    · rw [hz]; dsimp only; split <;> push_cast <;> ring
    · rw [hx]
      exact F.dec_subnormal hz hk1 hk2 (by rw [hg, hsig]) hg0 hg1
  · simp only [hlt, if_neg hc]
    have hz : F.mag b / 2 ^ F.s ≠ 0 := by
      intro h
      rcases (Nat.div_eq_zero_iff).mp h with h | h <;> omega
    refine Ok.pure' ⟨_, _, ?_, ?_, ?_, ?_, F.dec_normal hf hz⟩
    · dsimp only; omega
    · dsimp only; omega
    · dsimp only; split <;> ring
    · rw [F.or_implicit (by rw [hsig]; exact Nat.mod_lt _ hps), hsig]

theorem divSpecial_eq (a b ps : BitVec F.w) : F.divSpecial a b ps =
    if F.IsNaN a then some (a ||| F.quietBit)
    else if F.IsNaN b then some (b ||| F.quietBit)
    else if F.IsInf a then if F.IsInf b then some F.qnanRep else some ((a &&& F.absMask) ||| ps)
    else if F.IsInf b then some ps
    else if F.mag a = 0 then if F.mag b = 0 then some F.qnanRep else some ps
    else if F.mag b = 0 then some (F.expMask ||| ps)
    else none := by
  unfold divSpecial
  dsimp only
  simp only [F.abs_gt_inf_iff, F.abs_eq_inf_iff, F.abs_eq_zero_iff]

/-- A target configuration for which `div` is set up: the iteration counts and the precision bound exist, and the
reciprocal they produce is at most `d` units too small. -/
structure DivCfg (ptr : Nat) where
  half : Nat
  full : Nat
  prec : Nat
  d : Nat
  hiter : getIterations F.w ptr = .ok (half, full)
  hprec : reciprocalPrecision F.w ptr = .ok prec
  hrec : ∀ b1 : BitVec F.w, 2 ^ (F.w - 1) ≤ b1.toNat → 2 ^ F.e ∣ b1.toNat →
      Ok (F.divRecip (if F.w = 128 then half + 1 else half) full prec b1) (F.RecipOk d b1)
  hd : d < 2 ^ (F.e - 1)
  hd2 : ¬ (F.w = 128 ∨ (F.w = 32 ∧ (if F.w = 128 then half + 1 else half) > 0)) → d ≤ 2 ^ (F.e - 2)

variable {F}

theorem div_prefix {O : DOps F.w} {ptr : Nat} (C : F.DivCfg ptr) (a b : BitVec F.w) {P : BitVec F.w → Prop}
    (h : ∀ (ps : BitVec F.w) (e0 : Int),
      (ps.toNat = if (F.sign a ^^ F.sign b) then 2 ^ (F.e + F.s) else 0) →
      e0 = ((F.mag a / 2 ^ F.s : Nat) : Int) - ((F.mag b / 2 ^ F.s : Nat) : Int) + F.bias →
      Ok (if (F.mag a < 2 ^ F.s ∨ F.infRep ≤ F.mag a) ∨ (F.mag b < 2 ^ F.s ∨ F.infRep ≤ F.mag b) then
        match F.divSpecial a b ps with
        | some r => pure r
        | none => do
          let (e1, a_sig) ← F.divNorm false a (a &&& F.sigMask) e0
          let (e2, b_sig) ← F.divNorm true b (b &&& F.sigMask) e1
          F.divCore O (if F.w = 128 then C.half + 1 else C.half) C.full C.prec ps a_sig b_sig e2
        else F.divCore O (if F.w = 128 then C.half + 1 else C.half) C.full C.prec ps (a &&& F.sigMask)
          (b &&& F.sigMask) e0) P) : Ok (F.div O ptr a b) P := by
  have hpe := F.pe_ge
  have hpe2 := F.pe_le
  have hbias := F.pe_bias
  have hpw : 2 ^ F.e < 2 ^ F.w := Nat.pow_lt_pow_right (by omega) (by show F.e < F.e + F.s + 1; omega)
  have hae := F.mag_div_lt a
  have hbe := F.mag_div_lt b
  unfold div
  rw [C.hiter]
  refine Ok.bind (P := fun z => z = (C.half, C.full)) ⟨_, rfl, rfl⟩ ?_
  rintro _ rfl
  dsimp only
  rw [C.hprec]
  refine Ok.bind (P := fun z => z = C.prec) ⟨_, rfl, rfl⟩ ?_
  rintro _ rfl
  refine Ok.bind (F.mulExp_spec a) ?_
  intro ea hea
  refine Ok.bind (F.mulExp_spec b) ?_
  intro eb heb
  refine Ok.bind (castToI32_spec (by omega)) ?_
  rintro _ rfl
  refine Ok.bind (castToI32_spec (by omega)) ?_
  rintro _ rfl
  refine Ok.bind (i32C_spec (by omega)) ?_
  rintro _ rfl
  refine Ok.bind (i32C_spec (by omega)) ?_
  rintro _ rfl
  refine Ok.bind (nsubC_spec (by rw [F.expSat_eq]; omega)) ?_
  rintro _ rfl
  refine Ok.bind (castU_spec (w := F.w) (by rw [F.expSat_eq]; omega)) ?_
  intro t ht
  have ht' : t.toNat = 2 ^ F.e - 2 := by rw [ht, F.expSat_eq]; omega
  simp only [F.mulGuard hea (F.mag_lt a) ht', F.mulGuard heb (F.mag_lt b) ht']
  exact h _ _ (by rw [F.toNat_and_signMask, F.sign_xor]) (by rw [hea, heb])

/-- finite operands, nonzero divisor: correctly rounded quotient -/
theorem div_fin {O : DOps F.w} (hO : O.Lawful) {ptr : Nat} (C : F.DivCfg ptr) {a b : BitVec F.w} (ha : F.IsFin a)
    (hb : F.IsFin b) (hbz : ¬ F.IsZero b) :
    Ok (F.div O ptr a b) (fun r => F.Rounds (F.val a / F.val b) r ∧ F.sign r = (F.sign a ^^ F.sign b)) := by
  have hu := F.ulp0_pos ℚ
  have ha' : F.mag a < F.infRep := ha
  have hb' : F.mag b < F.infRep := hb
  have h1 : ¬ F.IsNaN a := by unfold IsNaN; omega
  have h2 : ¬ F.IsNaN b := by unfold IsNaN; omega
  have h3 : ¬ F.IsInf a := by unfold IsInf; omega
  have h4 : ¬ F.IsInf b := by unfold IsInf; omega
  have hzb : ¬ F.mag b = 0 := hbz
  have hps0 := F.ps_ge
  have hpe2 := F.pe_le
  have hbias := F.pe_bias
  have hae := F.mag_div_lt a
  have hbe := F.mag_div_lt b
  apply div_prefix C
  intro ps e0 hps he0
  have hae' : -2 ^ 17 ≤ e0 ∧ e0 ≤ 2 ^ 17 := by
    generalize F.mag a / 2 ^ F.s = u at *
    generalize F.mag b / 2 ^ F.s = v at *
    omega
  have key : ∀ r : BitVec F.w, (F.sign r = (F.sign a ^^ F.sign b) ∧
      F.IsRNEu ((F.valU (F.mag a) : ℚ) / F.valU (F.mag b) / F.ulp0 ℚ) (F.mag r)) →
      F.Rounds (F.val a / F.val b) r ∧ F.sign r = (F.sign a ^^ F.sign b) := by
    rintro r ⟨hr1, hr2⟩
    refine ⟨F.rounds_of (t := F.sign a ^^ F.sign b) (X := (F.valU (F.mag a) : ℚ) / F.valU (F.mag b) / F.ulp0 ℚ)
      (by positivity) ?_ (fun _ => hr1) hr2, hr1⟩
    rw [val, val, F.valK_eq ℚ a, F.valK_eq ℚ b]
    have hvb : (F.valU (F.mag b) : ℚ) ≠ 0 := by
      intro h
      have h0 : F.valU (F.mag b) = F.valU 0 := by rw [F.valU_zero]; exact_mod_cast h
      exact hzb (F.valU_inj.mp h0)
    have hu0 : F.ulp0 ℚ ≠ 0 := ne_of_gt hu
    cases F.sign a <;> cases F.sign b <;> simp <;> field_simp
  by_cases hg : (F.mag a < 2 ^ F.s ∨ F.infRep ≤ F.mag a) ∨ (F.mag b < 2 ^ F.s ∨ F.infRep ≤ F.mag b)
  · rw [if_pos hg, F.divSpecial_eq, if_neg h1, if_neg h2, if_neg h3, if_neg h4]
    by_cases hza : F.mag a = 0
    · rw [if_pos hza, if_neg hzb]
      refine Ok.pure' (key _ ?_)
      have hsm := F.sign_mag_of (b := ps) (n := 0) (Nat.two_pow_pos _) (by rw [hps]; rfl)
      refine ⟨hsm.1, ?_⟩
      rw [hsm.2, hza, F.valU_zero]
      exact F.isRNEu_zero (by simp) (by simp)
    rw [if_neg hza, if_neg hzb]
    dsimp only
    refine Ok.bind (F.divNorm_spec (sub := false) (e0 := e0) (by omega) hza ha') ?_
    rintro ⟨e1, sa⟩ ⟨xa, ma, hs1, hs2, hsum, hma, hda⟩
    dsimp only at hs1 hs2 hsum hma hda ⊢
    refine Ok.bind (F.divNorm_spec (sub := true) (e0 := e1) (by omega) hzb hb') ?_
    rintro ⟨e2, sb⟩ ⟨xb, mb, ht1, ht2, hsum', hmb, hdb⟩
    dsimp only at ht1 ht2 hsum' hmb hdb ⊢
    refine (F.divCore_spec hO C.hrec C.hd C.hd2 hps ?_ hma hmb hda hdb).mono key
    rw [if_neg (by simp)] at hsum
    rw [if_pos rfl] at hsum'
    rw [hsum', hsum, he0]
    ring
  · rw [if_neg hg]
    push Not at hg
    obtain ⟨⟨g1, g2⟩, g3, g4⟩ := hg
    have hza : F.mag a / 2 ^ F.s ≠ 0 := by
      intro h; rcases (Nat.div_eq_zero_iff).mp h with h | h <;> omega
    have hzb : F.mag b / 2 ^ F.s ≠ 0 := by
      intro h; rcases (Nat.div_eq_zero_iff).mp h with h | h <;> omega
    have hsa : (a &&& F.sigMask).toNat = F.mag a % 2 ^ F.s := by rw [F.toNat_and_sigMask, F.mag_mod]
    have hsb : (b &&& F.sigMask).toNat = F.mag b % 2 ^ F.s := by rw [F.toNat_and_sigMask, F.mag_mod]
    refine (F.divCore_spec hO C.hrec C.hd C.hd2 hps he0 ?_ ?_ (F.dec_normal ha' hza) (F.dec_normal hb' hzb)).mono key
    · rw [F.or_implicit (by rw [hsa]; exact Nat.mod_lt _ (by omega)), hsa]
    · rw [F.or_implicit (by rw [hsb]; exact Nat.mod_lt _ (by omega)), hsb]

theorem div_nan {O : DOps F.w} {ptr : Nat} (C : F.DivCfg ptr) {a b : BitVec F.w} (h : F.IsNaN a ∨ F.IsNaN b) :
    Ok (F.div O ptr a b) (fun r => F.IsQNaN r) := by
  have hg : (F.mag a < 2 ^ F.s ∨ F.infRep ≤ F.mag a) ∨ (F.mag b < 2 ^ F.s ∨ F.infRep ≤ F.mag b) := by
    unfold IsNaN at h; omega
  apply div_prefix C
  intro ps e0 hps he0
  rw [if_pos hg, F.divSpecial_eq]
  by_cases ha : F.IsNaN a
  · rw [if_pos ha]; exact Ok.pure' (F.isQNaN_or_quiet ha)
  · rw [if_neg ha, if_pos (h.resolve_left ha)]; exact Ok.pure' (F.isQNaN_or_quiet (h.resolve_left ha))

/-- no NaN, but an infinity or a zero divisor -/
theorem div_special {O : DOps F.w} {ptr : Nat} (C : F.DivCfg ptr) {a b : BitVec F.w} (ha : ¬ F.IsNaN a)
    (hb : ¬ F.IsNaN b) (h : F.IsInf a ∨ F.IsInf b ∨ F.IsZero b) :
    Ok (F.div O ptr a b) (fun r =>
      if (F.IsInf a ∧ F.IsInf b) ∨ (F.IsZero a ∧ F.IsZero b) then F.IsQNaN r
      else F.sign r = (F.sign a ^^ F.sign b) ∧ (if F.IsInf b then F.IsZero r else F.IsInf r)) := by
  have hinf0 := F.ps_le_infRep
  have hps0 := F.ps_ge
  have hg : (F.mag a < 2 ^ F.s ∨ F.infRep ≤ F.mag a) ∨ (F.mag b < 2 ^ F.s ∨ F.infRep ≤ F.mag b) := by
    unfold IsInf IsZero at h; omega
  apply div_prefix C
  intro ps e0 hps he0
  have hzr : F.sign ps = (F.sign a ^^ F.sign b) ∧ F.IsZero ps :=
    F.sign_mag_of (b := ps) (n := 0) (Nat.two_pow_pos _) (by rw [hps]; rfl)
  rw [if_pos hg, F.divSpecial_eq, if_neg ha, if_neg hb]
  by_cases hia : F.IsInf a
  · rw [if_pos hia]
    have hna : ¬ F.IsZero a := by unfold IsZero; unfold IsInf at hia; omega
    by_cases hib : F.IsInf b
    · rw [if_pos hib]
      refine Ok.pure' ?_
      rw [if_pos (Or.inl ⟨hia, hib⟩)]; exact F.isQNaN_qnanRep
    · rw [if_neg hib]
      refine Ok.pure' ?_
      rw [if_neg (by rintro (h | h); exacts [hib h.2, hna h.1]), if_neg hib]
      have hc' : F.mag a = F.infRep := hia
      have := F.sign_mag_of (b := (a &&& F.absMask) ||| ps) (F.mag_lt a) (by
        rw [F.toNat_or_sign' (by rw [F.toNat_and_absMask]; exact F.mag_lt a) hps, F.toNat_and_absMask])
      exact ⟨this.1, by unfold IsInf; rw [this.2, hc']⟩
  rw [if_neg hia]
  by_cases hib : F.IsInf b
  · rw [if_pos hib]
    have hnb : ¬ F.IsZero b := by unfold IsZero; unfold IsInf at hib; omega
    refine Ok.pure' ?_
    rw [if_neg (by rintro (h | h); exacts [hia h.1, hnb h.2]), if_pos hib]
    exact hzr
  rw [if_neg hib]
  have hzb : F.mag b = 0 := (h.resolve_left hia).resolve_left hib
  by_cases hza : F.mag a = 0
  · rw [if_pos hza, if_pos hzb]
    refine Ok.pure' ?_
    rw [if_pos (Or.inr ⟨hza, hzb⟩)]; exact F.isQNaN_qnanRep
  · rw [if_neg hza, if_pos hzb]
    refine Ok.pure' ?_
    rw [if_neg (by rintro (h | h); exacts [hia h.1, hza h.1]), if_neg hib]
    have := F.sign_mag_of (b := F.expMask ||| ps) F.infRep_lt (by
      rw [F.toNat_or_sign' (by rw [F.toNat_expMask]; exact F.infRep_lt) hps, F.toNat_expMask])
    exact ⟨this.1, by unfold IsInf; exact this.2⟩

/-- `f32` on targets with pointers of at least 8 bytes: three full-width iterations -/
def divCfg_f32_full {ptr : Nat} (h : 8 ≤ ptr) : f32.DivCfg ptr where
  half := 0
  full := 3
  prec := 10
  d := 20
  hiter := by unfold getIterations; rw [show f32.w = 32 from rfl]; simp [nsubC, h, Nat.log2]; rfl
  hprec := by
    unfold reciprocalPrecision getIterations; rw [show f32.w = 32 from rfl]; simp [nsubC, h, Nat.log2]; rfl
  hrec := fun b1 h1 h2 => divRecip_f32_full h1 h2
  hd := by decide
  hd2 := fun _ => by decide

/-- `f32` on smaller targets: two half-width iterations and one full-width iteration -/
def divCfg_f32_half {ptr : Nat} (h : ptr < 8) : f32.DivCfg ptr where
  half := 2
  full := 1
  prec := 74
  d := 111
  hiter := (by decide +kernel : ∀ p < 8, getIterations 32 p = .ok (2, 1)) ptr h
  hprec := (by decide +kernel : ∀ p < 8, reciprocalPrecision 32 p = .ok 74) ptr h
  hrec := fun b1 h1 h2 => divRecip_f32_half h1 h2
  hd := by decide
  hd2 := fun h => absurd (Or.inr ⟨rfl, by decide⟩) h

def divCfg_f64 {ptr : Nat} (h : ptr < 16) : f64.DivCfg ptr where
  half := 3
  full := 1
  prec := 220
  d := 400
  hiter := (by decide +kernel : ∀ p < 16, getIterations 64 p = .ok (3, 1)) ptr h
  hprec := (by decide +kernel : ∀ p < 16, reciprocalPrecision 64 p = .ok 220) ptr h
  hrec := fun b1 h1 h2 => divRecip_f64 h1 h2
  hd := by decide
  hd2 := fun _ => by decide

def divCfg_f128 {ptr : Nat} (h : ptr < 32) : f128.DivCfg ptr where
  half := 4
  full := 1
  prec := 13922
  d := 14000
  hiter := (by decide +kernel : ∀ p < 32, getIterations 128 p = .ok (4, 1)) ptr h
  hprec := (by decide +kernel : ∀ p < 32, reciprocalPrecision 128 p = .ok 13922) ptr h
  hrec := fun b1 h1 h2 => divRecip_f128 h1 h2
  hd := by decide
  hd2 := fun h => absurd (Or.inl rfl) h

end Fmt
end Verif
