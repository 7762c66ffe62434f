import Verif.Float.Conv
import Verif.Float.MulProofs
import Verif.Float.ExtTruncProofs
import Mathlib.Data.Rat.Floor
/-! # Correctness of the integer/float conversions -/
namespace Verif

/-- shifting out the leading zeros -/
theorem nlz_shift {N : Nat} {i : BitVec N} (h : i ≠ 0#N) :
    nlz i < N ∧ 2 ^ (N - 1) ≤ i.toNat * 2 ^ nlz i ∧ i.toNat * 2 ^ nlz i < 2 ^ N := by
  have h0 : i.toNat ≠ 0 := by
    intro e; exact h (BitVec.eq_of_toNat_eq (by simpa using e))
  have h1 := bitLen_le_width i
  have h2 := bitLen_pos h0
  have h3 := two_pow_le_of_bitLen h0
  have h4 := lt_two_pow_bitLen i.toNat
  unfold nlz
  refine ⟨by omega, ?_, ?_⟩
  · calc 2 ^ (N - 1) = 2 ^ (bitLen i.toNat - 1) * 2 ^ (N - bitLen i.toNat) := by
          rw [← Nat.pow_add]; congr 1; omega
      _ ≤ _ := Nat.mul_le_mul_right _ h3
  · calc _ < 2 ^ bitLen i.toNat * 2 ^ (N - bitLen i.toNat) := Nat.mul_lt_mul_of_pos_right h4 (Nat.two_pow_pos _)
      _ = _ := by rw [← Nat.pow_add]; congr 1; omega

namespace Fmt
variable (F : Fmt)

theorem convExp_spec {N n : Nat} (h : n ≤ N) (hN : F.bias + N < 2 ^ F.e) :
    Ok (F.convExp N n) (fun r => r.toNat = F.bias - 1 + N - n) := by
  have hb := F.bias_ge
  have he : 2 ^ F.e ≤ 2 ^ F.w := two_pow_le (by show F.e ≤ F.e + F.s + 1; omega)
  unfold convExp
  refine Ok.bind (nsubC_spec (by omega)) ?_
  rintro _ rfl
  refine Ok.bind (nsubC_spec (by omega)) ?_
  rintro _ rfl
  exact castU_spec (by omega)

/-- the rounding increment -/
theorem mAdj_spec {m d : BitVec F.w} (h : m.toNat + 1 < 2 ^ F.w) :
    Ok (F.mAdj m d) (fun r => r.toNat = m.toNat +
      (if d.toNat < 2 ^ (F.w - 1) then 0 else if d.toNat = 2 ^ (F.w - 1) then m.toNat % 2 else 1)) := by
  have hw : F.w = F.e + F.s + 1 := rfl
  have hd := d.isLt
  have hp : 2 ^ F.w = 2 * 2 ^ (F.w - 1) := by rw [← Nat.pow_succ']; congr 1
  have h0 := Nat.two_pow_pos (F.w - 1)
  have hs := F.ps_ge
  have hs2 : 2 ^ F.s ≤ 2 ^ (F.w - 1) := two_pow_le (by omega)
  unfold mAdj
  refine Ok.bind (shrC_spec (by omega)) ?_
  intro t ht
  have hnm : (~~~m).toNat % 2 = 1 - m.toNat % 2 := by
    rw [BitVec.toNat_not]; omega
  have hand : (t &&& ~~~m).toNat = if d.toNat < 2 ^ (F.w - 1) then 0 else 1 - m.toNat % 2 := by
    rw [BitVec.toNat_and, ht]
    split
    · rename_i hlt
      rw [Nat.div_eq_of_lt hlt, Nat.zero_and]
    · rename_i hge
      have : d.toNat / 2 ^ (F.w - 1) = 1 := by
        rw [Nat.div_eq_iff h0]; omega
      rw [this, Nat.one_and_eq_mod_two, hnm]
  refine Ok.bind (subC_spec (by rw [hand]; split <;> omega)) ?_
  intro u hu
  refine Ok.bind (shrC_spec (by omega)) ?_
  intro v hv
  have hvv : v.toNat = (if d.toNat < 2 ^ (F.w - 1) then 0 else if d.toNat = 2 ^ (F.w - 1) then m.toNat % 2 else 1) := by
    rw [hv, hu, hand]
    split
    · rename_i hlt
      exact Nat.div_eq_of_lt (by omega)
    · split
      · rename_i heq
        rw [heq]
        rcases Nat.mod_two_eq_zero_or_one m.toNat with e | e
        · rw [e]; exact Nat.div_eq_of_lt (by omega)
        · rw [e]; exact Nat.div_self h0
      · rw [Nat.div_eq_iff h0]; omega
  refine (addC_spec (by rw [hvv]; split <;> [skip; split] <;> omega)).mono ?_
  intro r hr
  rw [hr, hvv]

theorem convRepr_spec {e m : BitVec F.w} (h : e.toNat * 2 ^ F.s + m.toNat < 2 ^ F.w) :
    Ok (F.convRepr e m) (fun r => r.toNat = e.toNat * 2 ^ F.s + m.toNat) := by
  unfold convRepr
  have hw : F.w = F.e + F.s + 1 := rfl
  refine Ok.bind (shlC_spec (by omega)) ?_
  intro t ht
  rw [Nat.mod_eq_of_lt (by omega)] at ht
  exact (addC_spec (by omega)).mono (fun r hr => by rw [hr, ht])

/-- the result pattern for the integer `i`, given as the left-aligned `I = i * 2^n` of `N` bits -/
theorem isRNEu_int {I N n k B D r : Nat} (hI1 : 2 ^ (N - 1) ≤ I) (hI2 : I < 2 ^ N) (hk : 2 ≤ k)
    (hNk : N = F.s + 1 + k) (hn : n < N) (hN : F.bias + N < 2 ^ F.e)
    (hD1 : D < 2 ^ (B - 1) ↔ I % 2 ^ k < 2 ^ (k - 1)) (hD2 : D = 2 ^ (B - 1) ↔ I % 2 ^ k = 2 ^ (k - 1))
    (hr : r = (F.bias - 1 + N - n - 1) * 2 ^ F.s + (I / 2 ^ k +
      (if D < 2 ^ (B - 1) then 0 else if D = 2 ^ (B - 1) then I / 2 ^ k % 2 else 1))) :
    F.IsRNEu ((I : ℚ) / 2 ^ k * 2 ^ (F.bias + N - 2 - n)) r ∧ 2 ^ F.s ≤ I / 2 ^ k ∧ I / 2 ^ k < 2 ^ (F.s + 1) := by
  have hb := F.bias_ge
  have hm1 : I / 2 ^ k < 2 ^ (F.s + 1) := by
    apply Nat.div_lt_of_lt_mul; rw [← Nat.pow_add]; rw [hNk, Nat.add_comm] at hI2; exact hI2
  have hm0 : 2 ^ F.s ≤ I / 2 ^ k := by
    rw [Nat.le_div_iff_mul_le (Nat.two_pow_pos _), ← Nat.pow_add]
    exact le_trans (two_pow_le (by omega)) hI1
  have hp1 := F.ps_succ
  have hps := F.ps_ge
  have hev : ∀ j, (j * 2 ^ F.s) % 2 = 0 := by
    intro j
    have hs := F.hs
    obtain ⟨q, hq⟩ : ∃ q, F.s = q + 1 := ⟨F.s - 1, by omega⟩
    rw [hq, Nat.pow_succ, ← Nat.mul_assoc, Nat.mul_mod_left]
  refine ⟨?_, hm0, hm1⟩
  have hlt : (F.bias + N - 1 - n - 1) * 2 ^ F.s + I / 2 ^ k < F.infRep := by
    have h1 : (F.bias + N - 1 - n - 1 + 2) * 2 ^ F.s ≤ (2 ^ F.e - 1) * 2 ^ F.s :=
      Nat.mul_le_mul_right _ (by omega)
    unfold infRep
    rw [Nat.add_mul] at h1
    omega
  refine F.isRNEu_of_stk (Stk.exact I) (k := k) (E := F.bias + N - 1 - n) hk (by omega) hm1 (Or.inl hm0) hlt ?_ ?_
  · congr 2
    omega
  · rw [hr]
    simp only [hD1, hD2]
    have e1 : F.bias + N - 1 - n - 1 = F.bias - 1 + N - n - 1 := by omega
    rw [e1]
    have := hev (F.bias - 1 + N - n - 1)
    rw [Nat.add_mod ((F.bias - 1 + N - n - 1) * 2 ^ F.s), this, Nat.zero_add, Nat.mod_mod, Nat.add_assoc]

/-- What every unsigned conversion establishes: the pattern is the magnitude to which the integer rounds. -/
def ConvU (i : Nat) (r : BitVec F.w) : Prop := F.sign r = false ∧ F.IsRNE (i : ℚ) (F.mag r)

theorem convU_zero : F.ConvU 0 0#F.w := by
  have h := F.rounds_self (K := ℚ) (b := 0#F.w) (by unfold mag; simp)
  refine ⟨?_, ?_⟩
  · unfold sign; simp
  · have h1 := F.valK_eq ℚ 0#F.w
    have hm : F.mag 0#F.w = 0 := by unfold mag; simp
    rw [hm, F.valU_zero] at h1
    have h2 := h.1
    rw [h1] at h2
    simpa using h2

/-- from units to the value -/
theorem convU_of {i : Nat} {r : BitVec F.w} {X : ℚ} (h : F.IsRNEu X r.toNat) (hX : X * F.ulp0 ℚ = i) : F.ConvU i r := by
  have hlt : r.toNat < 2 ^ (F.e + F.s) := lt_of_le_of_lt h.1 F.infRep_lt
  have h2 := F.sign_mag_of (b := r) (t := false) hlt (by simp)
  refine ⟨h2.1, ?_⟩
  rw [h2.2, ← hX, F.isRNE_iff]
  exact h

theorem ulp_scale {I N n k i : Nat} (hI : I = i * 2 ^ n) (hNk : N = F.s + 1 + k) (hn : n < N) :
    (I : ℚ) / 2 ^ k * 2 ^ (F.bias + N - 2 - n) * F.ulp0 ℚ = i := by
  have hb := F.bias_ge
  have two0 : (2 : ℚ) ≠ 0 := by norm_num
  unfold ulp0
  rw [hI]
  push_cast
  have e : (2 : ℚ) ^ n / 2 ^ k * 2 ^ (F.bias + N - 2 - n) * 2 ^ (1 - (F.bias : ℤ) - F.s) = 1 := by
    rw [← zpow_natCast, ← zpow_natCast, ← zpow_natCast, ← zpow_sub₀ two0, ← zpow_add₀ two0, ← zpow_add₀ two0]
    have : ((n : ℤ) - k + ((F.bias + N - 2 - n : Nat) : ℤ) + (1 - (F.bias : ℤ) - F.s)) = 0 := by omega
    rw [this, zpow_zero]
  calc _ = (i : ℚ) * ((2 : ℚ) ^ n / 2 ^ k * 2 ^ (F.bias + N - 2 - n) * 2 ^ (1 - (F.bias : ℤ) - F.s)) := by ring
    _ = i := by rw [e, mul_one]

/-- the common tail of the conversions: from `m_base`, `adj` and the exponent to the result -/
theorem convTail_spec {I N n k i : Nat} {m d : BitVec F.w} (hI : I = i * 2 ^ n) (hI1 : 2 ^ (N - 1) ≤ I)
    (hI2 : I < 2 ^ N) (hk : 2 ≤ k) (hNk : N = F.s + 1 + k) (hn : n < N) (hN : F.bias + N < 2 ^ F.e)
    (hD1 : d.toNat < 2 ^ (F.w - 1) ↔ I % 2 ^ k < 2 ^ (k - 1))
    (hD2 : d.toNat = 2 ^ (F.w - 1) ↔ I % 2 ^ k = 2 ^ (k - 1)) (hm : m.toNat = I / 2 ^ k) :
    Ok (do
      let m ← F.mAdj m d
      let e ← F.convExp N n
      let e ← subC e 1#F.w
      F.convRepr e m) (fun r => F.ConvU i r) := by
  have hb := F.bias_ge
  have hw : F.w = F.e + F.s + 1 := rfl
  have key := fun r => F.isRNEu_int (r := r) hI1 hI2 hk hNk hn hN hD1 hD2
  have hmb := (key _ rfl).2
  have hp1 := F.ps_succ
  have hw1 : 2 ^ (F.s + 2) ≤ 2 ^ F.w := two_pow_le (by have := F.he; omega)
  have hp2 : 2 ^ (F.s + 2) = 4 * 2 ^ F.s := by rw [Nat.pow_add]; omega
  have hps := F.ps_ge
  refine Ok.bind (F.mAdj_spec (by omega)) ?_
  intro m' hm'
  refine Ok.bind (F.convExp_spec (by omega) hN) ?_
  intro e he
  refine Ok.bind (subC_spec (by rw [F.toNat_one']; omega)) ?_
  intro e' he'
  rw [F.toNat_one', he] at he'
  rw [hm] at hm'
  have hr := (key _ (by rw [← hm', ← he'])).1
  have hle := hr.1
  have hinf := F.infRep_lt
  have h2 : 2 ^ (F.e + F.s) ≤ 2 ^ F.w := two_pow_le (by omega)
  refine (F.convRepr_spec (by omega)).mono ?_
  intro r hrr
  rw [← hrr] at hr
  exact F.convU_of hr (F.ulp_scale hI hNk hn)

theorem toNat_ne_zero {N} {i : BitVec N} (h : i ≠ 0#N) : i.toNat ≠ 0 := by
  intro e; exact h (BitVec.eq_of_toNat_eq (by simpa using e))

theorem uToSame_spec (hF : F.bias + F.w < 2 ^ F.e) (i : BitVec F.w) : Ok (F.uToSame i) (F.ConvU i.toNat) := by
  have hw : F.w = F.e + F.s + 1 := rfl
  have he := F.he
  unfold uToSame
  by_cases hz : i = 0#F.w
  · rw [if_pos hz]
    refine Ok.pure' ?_
    rw [hz, BitVec.toNat_ofNat, Nat.zero_mod]
    exact F.convU_zero
  rw [if_neg hz]
  obtain ⟨hn, h1, h2⟩ := nlz_shift hz
  dsimp only
  refine Ok.bind (shlC_spec hn) ?_
  intro t ht
  rw [Nat.mod_eq_of_lt h2] at ht
  refine Ok.bind (shrC_spec (by omega)) ?_
  intro m hm
  refine Ok.bind (shlC_spec hn) ?_
  intro t' ht'
  rw [Nat.mod_eq_of_lt h2] at ht'
  refine Ok.bind (shlC_spec (by omega)) ?_
  intro d hd
  rw [ht] at hm
  have hdv : d.toNat = (i.toNat * 2 ^ nlz i) % 2 ^ F.e * 2 ^ (F.s + 1) := by
    have e : 2 ^ F.w = 2 ^ F.e * 2 ^ (F.s + 1) := by rw [← Nat.pow_add]; rfl
    rw [hd, ht', e, Nat.mul_mod_mul_right]
  have hp : 2 ^ (F.w - 1) = 2 ^ (F.e - 1) * 2 ^ (F.s + 1) := by rw [← Nat.pow_add]; congr 1; omega
  have hpos : 0 < 2 ^ (F.s + 1) := Nat.two_pow_pos _
  refine F.convTail_spec (k := F.e) rfl h1 h2 (by omega) (by omega) hn hF ?_ ?_ hm
  · rw [hdv, hp]; exact Nat.mul_lt_mul_right hpos
  · rw [hdv, hp]; exact ⟨fun h => Nat.eq_of_mul_eq_mul_right hpos h, fun h => by rw [h]⟩

/-! ### the integer fits the significand -/

theorem convU_wide {N n i : Nat} {r : BitVec F.w} (hN : N ≤ F.s) (hN1 : 1 ≤ N) (hn : n < N)
    (h1 : 2 ^ (N - 1) ≤ i * 2 ^ n) (h2 : i * 2 ^ n < 2 ^ N)
    (hr : r.toNat = (F.bias - 1 + N - n - 1) * 2 ^ F.s + i * 2 ^ (F.s - N + 1 + n)) : F.ConvU i r := by
  have hb := F.bias_ge
  have hpe := F.pe_bias
  have hm1 : i * 2 ^ (F.s - N + 1 + n) < 2 ^ (F.s + 1) := by
    rw [Nat.add_comm (F.s - N + 1), Nat.pow_add, ← Nat.mul_assoc]
    calc _ < 2 ^ N * 2 ^ (F.s - N + 1) := Nat.mul_lt_mul_of_pos_right h2 (Nat.two_pow_pos _)
      _ = _ := by rw [← Nat.pow_add]; congr 1; omega
  have hm0 : 2 ^ F.s ≤ i * 2 ^ (F.s - N + 1 + n) := by
    rw [Nat.add_comm (F.s - N + 1), Nat.pow_add, ← Nat.mul_assoc]
    calc 2 ^ F.s = 2 ^ (N - 1) * 2 ^ (F.s - N + 1) := by rw [← Nat.pow_add]; congr 1; omega
      _ ≤ _ := Nat.mul_le_mul_right _ h1
  have hval := F.valU_eq (E := F.bias - 1 + N - n) (m := i * 2 ^ (F.s - N + 1 + n)) (by omega) (by omega) (Or.inl hm0)
  have hinf : (F.bias - 1 + N - n - 1) * 2 ^ F.s + i * 2 ^ (F.s - N + 1 + n) ≤ F.infRep := by
    have h3 : ((F.bias - 1 + N - n - 1) + 2) * 2 ^ F.s ≤ (2 ^ F.e - 1) * 2 ^ F.s :=
      Nat.mul_le_mul_right _ (by omega)
    rw [Nat.add_mul] at h3
    have := F.ps_succ
    unfold infRep
    omega
  have hx := F.isRNEu_exact (K := ℚ) hinf
  rw [hval, ← hr] at hx
  refine F.convU_of hx ?_
  unfold ulp0
  push_cast
  have two0 : (2 : ℚ) ≠ 0 := by norm_num
  rw [mul_assoc, mul_assoc]
  have : (2 : ℚ) ^ (F.s - N + 1 + n) * (2 ^ (F.bias - 1 + N - n - 1) * 2 ^ (1 - (F.bias : ℤ) - F.s)) = 1 := by
    rw [← zpow_natCast, ← zpow_natCast, ← zpow_add₀ two0, ← zpow_add₀ two0]
    rw [show (((F.s - N + 1 + n : Nat) : ℤ) + (((F.bias - 1 + N - n - 1 : Nat) : ℤ) +
      (1 - (F.bias : ℤ) - F.s))) = 0 by omega, zpow_zero]
  rw [this, mul_one]

theorem wide_bound {N n i : Nat} (hN : N ≤ F.s) (hN1 : 1 ≤ N) (hn : n < N) (h2 : i * 2 ^ n < 2 ^ N) :
    i * 2 ^ (F.s - N + 1 + n) < 2 ^ (F.s + 1) ∧
    (F.bias - 1 + N - n - 1) * 2 ^ F.s + i * 2 ^ (F.s - N + 1 + n) < 2 ^ (F.e + F.s) := by
  have hb := F.bias_ge
  have hpe := F.pe_bias
  have hm1 : i * 2 ^ (F.s - N + 1 + n) < 2 ^ (F.s + 1) := by
    rw [Nat.add_comm (F.s - N + 1), Nat.pow_add, ← Nat.mul_assoc]
    calc _ < 2 ^ N * 2 ^ (F.s - N + 1) := Nat.mul_lt_mul_of_pos_right h2 (Nat.two_pow_pos _)
      _ = _ := by rw [← Nat.pow_add]; congr 1; omega
  refine ⟨hm1, ?_⟩
  have h3 : ((F.bias - 1 + N - n - 1) + 2) * 2 ^ F.s ≤ 2 ^ F.e * 2 ^ F.s := Nat.mul_le_mul_right _ (by omega)
  rw [Nat.add_mul] at h3
  have := F.ps_succ
  rw [F.pes]
  omega

theorem uToWide_spec {N : Nat} (hN : N ≤ F.s) (hN1 : 1 ≤ N) (i : BitVec N) : Ok (F.uToWide i) (F.ConvU i.toNat) := by
  have hw : F.w = F.e + F.s + 1 := rfl
  have hb := F.bias_ge
  have hpe := F.pe_bias
  unfold uToWide
  by_cases hz : i = 0#N
  · rw [if_pos hz]
    refine Ok.pure' ?_
    rw [hz, BitVec.toNat_ofNat, Nat.zero_mod]
    exact F.convU_zero
  rw [if_neg hz]
  obtain ⟨hn, h1, h2⟩ := nlz_shift hz
  obtain ⟨b1, b2⟩ := F.wide_bound hN hN1 hn h2
  dsimp only
  unfold shiftFGtI
  refine Ok.bind (P := fun r => r = F.s - N + 1 + nlz i)
    (Ok.bind (nsubC_spec hN) (by rintro _ rfl; exact Ok.pure' rfl)) ?_
  rintro _ rfl
  have hset : (i.setWidth F.w).toNat = i.toNat := by
    rw [BitVec.toNat_setWidth]
    exact Nat.mod_eq_of_lt (lt_of_lt_of_le i.isLt (two_pow_le (by omega)))
  have hlt : 2 ^ (F.e + F.s) ≤ 2 ^ F.w := two_pow_le (by omega)
  refine Ok.bind (shlC_spec (by omega)) ?_
  intro m hm
  rw [hset, Nat.mod_eq_of_lt (by omega)] at hm
  refine Ok.bind (F.convExp_spec (by omega) (by omega)) ?_
  intro e he
  refine Ok.bind (subC_spec (by rw [F.toNat_one']; omega)) ?_
  intro e' he'
  rw [F.toNat_one', he] at he'
  refine (F.convRepr_spec (by rw [he', hm]; omega)).mono ?_
  intro r hr
  rw [he', hm] at hr
  exact F.convU_wide hN hN1 hn h1 h2 hr

theorem uToWideHi_spec {N H : Nat} (hN : N + H ≤ F.s + 1) (hN1 : 1 ≤ N) (hNH : N ≤ H) (hH : F.w = 2 * H)
    (hHs : H ≤ F.s) (heH : F.e + 1 ≤ H) (i : BitVec N) :
    Ok (F.uToWideHi H i) (F.ConvU i.toNat) := by
  have hw : F.w = F.e + F.s + 1 := rfl
  have hb := F.bias_ge
  have hpe := F.pe_bias
  unfold uToWideHi
  by_cases hz : i = 0#N
  · rw [if_pos hz]
    refine Ok.pure' ?_
    rw [hz, BitVec.toNat_ofNat, Nat.zero_mod]
    exact F.convU_zero
  rw [if_neg hz]
  obtain ⟨hn, h1, h2⟩ := nlz_shift hz
  have hNs : N ≤ F.s := by omega
  obtain ⟨b1, b2⟩ := F.wide_bound hNs hN1 hn h2
  dsimp only
  unfold shiftFGtI
  refine Ok.bind (P := fun r => r = F.s - N + 1 + nlz i)
    (Ok.bind (nsubC_spec hNs) (by rintro _ rfl; exact Ok.pure' rfl)) ?_
  rintro _ rfl
  refine Ok.bind (nsubC_spec (by omega)) ?_
  rintro _ rfl
  have hset : (i.setWidth H).toNat = i.toNat := by
    rw [BitVec.toNat_setWidth]
    exact Nat.mod_eq_of_lt (lt_of_lt_of_le i.isLt (two_pow_le (by omega)))
  have hHp := Nat.two_pow_pos H
  have em : i.toNat * 2 ^ (F.s - N + 1 + nlz i) = i.toNat * 2 ^ (F.s - N + 1 + nlz i - H) * 2 ^ H := by
    rw [Nat.mul_assoc, ← Nat.pow_add]; congr 2; omega
  have ee : (F.bias - 1 + N - nlz i - 1) * 2 ^ F.s = (F.bias - 1 + N - nlz i - 1) * 2 ^ (F.s - H) * 2 ^ H := by
    rw [Nat.mul_assoc, ← Nat.pow_add]; congr 2; omega
  have hlt : 2 ^ (F.e + F.s) ≤ 2 ^ H * 2 ^ H := by rw [← Nat.pow_add]; exact two_pow_le (by omega)
  rw [ee, em, ← Nat.add_mul] at b2
  have b3 := Nat.lt_of_mul_lt_mul_right (lt_of_lt_of_le b2 hlt)
  have h2e : 2 ^ F.e * 2 ≤ 2 ^ H := by rw [← Nat.pow_succ]; exact two_pow_le heH
  refine Ok.bind (shlC_spec (by omega)) ?_
  intro m hm
  rw [hset, Nat.mod_eq_of_lt (by omega)] at hm
  refine Ok.bind (F.convExp_spec (by omega) (by omega)) ?_
  intro e he
  have h1H : (1#H).toNat = 1 := by
    rw [BitVec.toNat_ofNat]; exact Nat.mod_eq_of_lt (by omega)
  have he2 : (e.setWidth H).toNat = F.bias - 1 + N - nlz i := by
    rw [BitVec.toNat_setWidth, he]
    exact Nat.mod_eq_of_lt (by omega)
  refine Ok.bind (subC_spec (by rw [h1H, he2]; omega)) ?_
  intro e' he'
  rw [h1H, he2] at he'
  refine Ok.bind (nsubC_spec (by omega)) ?_
  rintro _ rfl
  refine Ok.bind (shlC_spec (by omega)) ?_
  intro t ht
  rw [he', Nat.mod_eq_of_lt (by omega)] at ht
  refine Ok.bind (addC_spec (by rw [ht, hm]; omega)) ?_
  intro h hh
  rw [ht, hm] at hh
  have hset2 : (h.setWidth F.w).toNat = h.toNat := by
    rw [BitVec.toNat_setWidth]
    exact Nat.mod_eq_of_lt (lt_of_lt_of_le h.isLt (two_pow_le (by omega)))
  refine (shlC_spec (by omega)).mono ?_
  intro r hr
  have hW : 2 ^ (F.e + F.s) ≤ 2 ^ F.w := two_pow_le (by omega)
  rw [hset2, hh, Nat.mod_eq_of_lt (by omega), Nat.add_mul, ← em, ← ee] at hr
  exact F.convU_wide hNs hN1 hn h1 h2 hr

/-! ### the integer is wider than the float -/

/-- the discarded bits `I % 2^(j+B)`, compressed to their upper `B` bits or-ed with something that is nonzero
exactly when a lower part is -/
theorem compress_spec {I j B q b : Nat} (hB : 1 ≤ B) (hq : j ≤ q) (hq2 : q ≤ j + B - 1) (hb : b < 2 ^ (B - 1))
    (hb0 : b = 0 ↔ I % 2 ^ q = 0) :
    (((I / 2 ^ j % 2 ^ B) ||| b) < 2 ^ (B - 1) ↔ I % 2 ^ (j + B) < 2 ^ (j + B - 1)) ∧
    (((I / 2 ^ j % 2 ^ B) ||| b) = 2 ^ (B - 1) ↔ I % 2 ^ (j + B) = 2 ^ (j + B - 1)) := by
  obtain ⟨c, rfl⟩ : ∃ c, B = c + 1 := ⟨B - 1, by omega⟩
  rw [Nat.add_sub_cancel] at *
  rw [show j + (c + 1) - 1 = j + c by omega] at *
  -- D = hi*2^c + lo
  have hc := Nat.two_pow_pos c
  have hj := Nat.two_pow_pos j
  generalize hD : ((I / 2 ^ j % 2 ^ (c + 1)) ||| b) = D
  have hhi : D / 2 ^ c = I / 2 ^ (j + c) % 2 := by
    rw [← hD, ← Nat.shiftRight_eq_div_pow, Nat.shiftRight_or_distrib, Nat.shiftRight_eq_div_pow,
      Nat.shiftRight_eq_div_pow, Nat.div_eq_of_lt hb, Nat.or_zero]
    rw [Nat.pow_succ, Nat.mod_mul_right_div_self, Nat.div_div_eq_div_mul, ← Nat.pow_add]
  have hlo : D % 2 ^ c = 0 ↔ I % 2 ^ (j + c) = 0 := by
    rw [← hD, Nat.or_mod_two_pow, Nat.or_eq_zero_iff, Nat.mod_eq_of_lt hb, hb0]
    rw [Nat.mod_mod_of_dvd _ (Nat.pow_dvd_pow 2 (by omega))]
    have e1 : I % 2 ^ (j + c) = I % 2 ^ j + 2 ^ j * (I / 2 ^ j % 2 ^ c) := by
      rw [Nat.pow_add, Nat.mod_mul]
    constructor
    · rintro ⟨h1, h2⟩
      have h3 : I % 2 ^ j = 0 := by
        have := Nat.mod_mod_of_dvd I (Nat.pow_dvd_pow 2 hq)
        rw [h2, Nat.zero_mod] at this
        exact this.symm
      rw [e1, h1, h3]
      simp
    · intro h
      rw [h] at e1
      refine ⟨?_, ?_⟩
      · have : 2 ^ j * (I / 2 ^ j % 2 ^ c) = 0 := by omega
        rcases Nat.mul_eq_zero.mp this with h | h
        · omega
        · exact h
      · have := Nat.mod_mod_of_dvd I (Nat.pow_dvd_pow 2 (show q ≤ j + c by omega))
        rw [h, Nat.zero_mod] at this
        exact this.symm
  have hL : I % 2 ^ (j + (c + 1)) = I % 2 ^ (j + c) + 2 ^ (j + c) * (I / 2 ^ (j + c) % 2) := by
    rw [← Nat.add_assoc, Nat.pow_succ, Nat.mod_mul]
  have hDd := Nat.div_add_mod D (2 ^ c)
  have hDl := Nat.mod_lt D hc
  have hIl := Nat.mod_lt I (Nat.two_pow_pos (j + c))
  rw [hL]
  rw [hhi] at hDd
  rcases Nat.mod_two_eq_zero_or_one (I / 2 ^ (j + c)) with h | h
  · rw [h, Nat.mul_zero] at hDd ⊢
    constructor
    · constructor <;> intro _ <;> omega
    · constructor <;> intro _ <;> omega
  · rw [h, Nat.mul_one] at hDd ⊢
    constructor
    · constructor <;> intro _ <;> omega
    · constructor <;> intro _ <;> omega

theorem wshl_nlz {N} {i : BitVec N} (h : i ≠ 0#N) : (wshl i (nlz i)).toNat = i.toNat * 2 ^ nlz i := by
  obtain ⟨h1, h2, h3⟩ := nlz_shift h
  unfold wshl
  rw [Nat.mod_eq_of_lt h1, BitVec.toNat_shiftLeft, Nat.shiftLeft_eq, Nat.mod_eq_of_lt h3]

theorem wshl_zero {N} (n : Nat) : wshl 0#N n = 0#N := by
  unfold wshl
  apply BitVec.eq_of_toNat_eq
  simp

/-- `i = 0` in the branchless conversions -/
theorem convTail_zero {m d : BitVec F.w} (hm : m = 0#F.w) (hd : d = 0#F.w) :
    Ok (do
      let m ← F.mAdj m d
      F.convRepr 0#F.w m) (fun r => F.ConvU 0 r) := by
  have h1 := Nat.two_pow_pos (F.w - 1)
  have h2 : 2 ^ 1 < 2 ^ F.w := Nat.pow_lt_pow_right (by omega) (by show 1 < F.e + F.s + 1; have := F.he; omega)
  subst hm; subst hd
  have z : (0#F.w).toNat = 0 := by simp
  refine Ok.bind (F.mAdj_spec (by rw [z]; omega)) ?_
  intro m hm
  rw [z, if_pos (by omega)] at hm
  refine (F.convRepr_spec (by rw [z, hm]; omega)).mono ?_
  intro r hr
  rw [z, hm] at hr
  have : r = 0#F.w := BitVec.eq_of_toNat_eq (by rw [hr, z]; omega)
  rw [this]
  exact F.convU_zero

theorem uToNarrow_spec {N q : Nat} {mask : BitVec N} (hN : F.bias + N < 2 ^ F.e) (hNw : N = 2 * F.w)
    (hmask : mask.toNat = 2 ^ q - 1) (hq : F.e ≤ q) (hq2 : q ≤ F.w - 1) (i : BitVec N) :
    Ok (F.uToNarrow mask i) (F.ConvU i.toNat) := by
  have hww : F.w = F.e + F.s + 1 := rfl
  have he := F.he
  unfold uToNarrow
  dsimp only
  unfold shiftFLtI
  refine Ok.bind (P := fun r => r = N - F.w + F.e)
    (Ok.bind (nsubC_spec (by omega)) (by rintro _ rfl; exact Ok.pure' rfl)) ?_
  rintro _ rfl
  refine Ok.bind (shrC_spec (by omega)) ?_
  intro t ht
  refine Ok.bind (shrC_spec (by omega)) ?_
  intro u hu
  by_cases hz : i = 0#N
  · simp only [if_pos hz]
    subst hz
    rw [wshl_zero] at ht hu ⊢
    have z : ∀ n, (0#n).toNat = 0 := by simp
    rw [z, Nat.zero_div] at ht hu
    rw [z]
    have ht0 : t = 0#N := BitVec.eq_of_toNat_eq (by rw [ht, z])
    have hu0 : u = 0#N := BitVec.eq_of_toNat_eq (by rw [hu, z])
    refine F.convTail_zero ?_ ?_
    · rw [ht0]; simp
    · rw [hu0]; simp
  simp only [if_neg hz]
  obtain ⟨hn, h1, h2⟩ := nlz_shift hz
  have hI := wshl_nlz hz
  rw [hI] at ht hu
  have hadj : ((u ||| (wshl i (nlz i) &&& mask)).setWidth F.w).toNat =
      ((i.toNat * 2 ^ nlz i) / 2 ^ F.e % 2 ^ F.w) ||| (i.toNat * 2 ^ nlz i % 2 ^ q) := by
    rw [BitVec.toNat_setWidth, BitVec.toNat_or, BitVec.toNat_and, hu, hI, hmask, Nat.and_two_pow_sub_one_eq_mod,
      Nat.or_mod_two_pow]
    congr 1
    exact Nat.mod_eq_of_lt (lt_of_lt_of_le (Nat.mod_lt _ (Nat.two_pow_pos _)) (two_pow_le (by omega)))
  have hc := compress_spec (I := i.toNat * 2 ^ nlz i) (j := F.e) (B := F.w) (q := q)
    (b := i.toNat * 2 ^ nlz i % 2 ^ q) (by omega) hq (by omega)
    (lt_of_lt_of_le (Nat.mod_lt _ (Nat.two_pow_pos _)) (two_pow_le hq2)) Iff.rfl
  rw [← hadj] at hc
  have hsh : N - F.w + F.e = F.e + F.w := by omega
  have hm : (t.setWidth F.w).toNat = (i.toNat * 2 ^ nlz i) / 2 ^ (F.e + F.w) := by
    rw [BitVec.toNat_setWidth, ht, hsh]
    apply Nat.mod_eq_of_lt
    apply Nat.div_lt_of_lt_mul
    refine lt_of_lt_of_le h2 ?_
    rw [← Nat.pow_add]; exact two_pow_le (by omega)
  have := F.convTail_spec (i := i.toNat) (N := N) (n := nlz i) (k := F.e + F.w) rfl h1 h2 (by omega) (by omega) hn hN
    hc.1 hc.2 hm
  simpa only [bind_assoc] using this

theorem uToNarrower_spec {N : Nat} (hN : F.bias + N < 2 ^ F.e) (hNw : 2 * F.w ≤ N) (i : BitVec N) :
    Ok (F.uToNarrower i) (F.ConvU i.toNat) := by
  have hww : F.w = F.e + F.s + 1 := rfl
  have he := F.he
  unfold uToNarrower
  dsimp only
  unfold shiftFLtI
  refine Ok.bind (P := fun r => r = N - F.w + F.e)
    (Ok.bind (nsubC_spec (by omega)) (by rintro _ rfl; exact Ok.pure' rfl)) ?_
  rintro _ rfl
  refine Ok.bind (shrC_spec (by omega)) ?_
  intro t ht
  refine Ok.bind (nsubC_spec (by omega)) ?_
  rintro _ rfl
  refine Ok.bind (nsubC_spec (by omega)) ?_
  rintro _ rfl
  refine Ok.bind (nsubC_spec (by omega)) ?_
  rintro _ rfl
  refine Ok.bind (shrC_spec (by omega)) ?_
  intro u hu
  refine Ok.bind (shlC_spec (by omega)) ?_
  intro v hv
  refine Ok.bind (shrC_spec (by omega)) ?_
  intro v' hv'
  by_cases hz : i = 0#N
  · simp only [if_pos hz]
    subst hz
    rw [wshl_zero] at ht hu hv
    have z : ∀ n, (0#n).toNat = 0 := by simp
    rw [z] at ht hu hv ⊢
    rw [Nat.zero_div] at ht hu
    rw [hv, Nat.zero_mul, Nat.zero_mod, Nat.zero_div] at hv'
    have ht0 : t = 0#N := BitVec.eq_of_toNat_eq (by rw [ht, z])
    have hu0 : u = 0#N := BitVec.eq_of_toNat_eq (by rw [hu, z])
    have hv0 : v' = 0#N := BitVec.eq_of_toNat_eq (by rw [hv', z])
    refine F.convTail_zero ?_ ?_
    · rw [ht0]; simp
    · rw [hu0, hv0]; simp
  simp only [if_neg hz]
  obtain ⟨hn, h1, h2⟩ := nlz_shift hz
  have hI := wshl_nlz hz
  rw [hI] at ht hu hv
  generalize hIe : i.toNat * 2 ^ nlz i = I at *
  have hvz : v' = 0#N ↔ I % 2 ^ (N - F.w) = 0 := by
    have e : 2 ^ N = 2 ^ (N - F.w) * 2 ^ F.w := by rw [← Nat.pow_add]; congr 1; omega
    rw [← BitVec.toNat_inj, hv', hv, e, Nat.mul_mod_mul_right, Nat.mul_div_cancel _ (Nat.two_pow_pos _)]
    simp
  have hadj : (u.setWidth F.w ||| (if v' ≠ 0#N then 1#F.w else 0#F.w)).toNat =
      (I / 2 ^ (N - F.w - F.s - 1) % 2 ^ F.w) ||| (if I % 2 ^ (N - F.w) = 0 then 0 else 1) := by
    rw [BitVec.toNat_or, BitVec.toNat_setWidth, hu]
    congr 1
    by_cases h : I % 2 ^ (N - F.w) = 0
    · rw [if_pos h, if_neg (by rw [ne_eq, not_not]; exact hvz.mpr h)]; simp
    · rw [if_neg h, if_pos (fun e => h (hvz.mp e))]; exact F.toNat_one'
  have h2w : 2 ^ 1 ≤ 2 ^ (F.w - 1) := two_pow_le (by omega)
  have hc := compress_spec (I := I) (j := N - F.w - F.s - 1) (B := F.w) (q := N - F.w)
    (b := if I % 2 ^ (N - F.w) = 0 then 0 else 1) (by omega) (by omega) (by omega) (by split <;> omega)
    (by split <;> simp_all)
  have hsh : N - F.w + F.e = N - F.w - F.s - 1 + F.w := by omega
  rw [← hadj, ← hsh] at hc
  have hm : (t.setWidth F.w).toNat = I / 2 ^ (N - F.w + F.e) := by
    rw [BitVec.toNat_setWidth, ht]
    apply Nat.mod_eq_of_lt
    apply Nat.div_lt_of_lt_mul
    refine lt_of_lt_of_le h2 ?_
    rw [← Nat.pow_add]; exact two_pow_le (by omega)
  have := F.convTail_spec (i := i.toNat) (N := N) (n := nlz i) (k := N - F.w + F.e) hIe.symm h1 h2 (by omega)
    (by omega) hn hN hc.1 hc.2 hm
  simpa only [bind_assoc] using this

/-! ### the nine unsigned conversions -/

theorem u32ToF32_spec (i : BitVec 32) : Ok (u32ToF32 i) (f32.ConvU i.toNat) := f32.uToSame_spec (by decide) i
theorem u64ToF64_spec (i : BitVec 64) : Ok (u64ToF64 i) (f64.ConvU i.toNat) := f64.uToSame_spec (by decide) i
theorem u128ToF128_spec (i : BitVec 128) : Ok (u128ToF128 i) (f128.ConvU i.toNat) := f128.uToSame_spec (by decide) i
theorem u32ToF64_spec (i : BitVec 32) : Ok (u32ToF64 i) (f64.ConvU i.toNat) :=
  f64.uToWide_spec (by decide) (by decide) i
theorem u64ToF128_spec (i : BitVec 64) : Ok (u64ToF128 i) (f128.ConvU i.toNat) :=
  f128.uToWide_spec (by decide) (by decide) i
theorem u64ToF32_spec (i : BitVec 64) : Ok (u64ToF32 i) (f32.ConvU i.toNat) :=
  f32.uToNarrow_spec (q := 16) (by decide) (by decide) (by decide) (by decide) (by decide) i
theorem u128ToF64_spec (i : BitVec 128) : Ok (u128ToF64 i) (f64.ConvU i.toNat) :=
  f64.uToNarrow_spec (q := 32) (by decide) (by decide) (by decide) (by decide) (by decide) i
theorem u128ToF32_spec (i : BitVec 128) : Ok (u128ToF32 i) (f32.ConvU i.toNat) :=
  f32.uToNarrower_spec (by decide) (by decide) i

theorem u32ToF128_spec (i : BitVec 32) : Ok (u32ToF128 i) (f128.ConvU i.toNat) :=
  f128.uToWideHi_spec (by decide) (by decide) (by decide) (by decide) (by decide) (by decide) i

/-! ### signed -/

theorem toInt_unsignedAbs {N} (i : BitVec N) : ((unsignedAbs i).toNat : ℤ) = |i.toInt| := by
  unfold unsignedAbs
  rcases Nat.eq_zero_or_pos N with rfl | hN
  · rw [BitVec.of_length_zero (x := i)]; simp
  have hlt := i.isLt
  have hp : 2 ^ N = 2 * 2 ^ (N - 1) := by rw [← Nat.pow_succ']; congr 1; omega
  split
  · rename_i h
    have h1 := (BitVec.msb_eq_true_iff_two_mul_ge).mp h
    rw [BitVec.toInt_eq_msb_cond, if_pos h, BitVec.toNat_neg, Nat.mod_eq_of_lt (by omega), abs_of_neg (by
      have : ((i.toNat : ℤ)) < ((2 ^ N : Nat) : ℤ) := by exact_mod_cast hlt
      push_cast at this ⊢; omega)]
    push_cast [Nat.le_of_lt hlt]
    ring
  · rename_i h
    rw [BitVec.toInt_eq_msb_cond, if_neg h, abs_of_nonneg (by positivity)]

theorem sign_bit_spec {N} (hN : 1 ≤ N) (i : BitVec N) :
    ((i.sshiftRight (N - 1)).signExtend F.w).toNat % 2 = if i.msb then 1 else 0 := by
  have h : ((i.sshiftRight (N - 1)).signExtend F.w).getLsbD 0 = i.msb := by
    rw [BitVec.getLsbD_signExtend]
    have hw : 0 < F.w := by show 0 < F.e + F.s + 1; omega
    rw [BitVec.getLsbD_sshiftRight]
    have hN' : 0 < N := hN
    have hN0 : N ≠ 0 := by omega
    simp [hw, BitVec.msb_eq_getLsbD_last, hN', hN0]
  rw [BitVec.getLsbD, Nat.testBit_zero] at h
  rcases Nat.mod_two_eq_zero_or_one ((i.sshiftRight (N - 1)).signExtend F.w).toNat with e | e <;>
    simp_all

theorem signedConv_spec {N} (hN : 1 ≤ N) {conv : BitVec N → M (BitVec F.w)}
    (hc : ∀ i, Ok (conv i) (F.ConvU i.toNat)) (i : BitVec N) :
    Ok (signedConv F conv i) (fun r => F.Rounds (i.toInt : ℚ) r ∧ F.sign r = i.msb) := by
  have hw : F.w = F.e + F.s + 1 := rfl
  unfold signedConv
  dsimp only
  refine Ok.bind (shlC_spec (by omega)) ?_
  intro sb hsb
  refine Ok.bind (hc (unsignedAbs i)) ?_
  rintro r ⟨hs, hr⟩
  refine Ok.pure' ?_
  have hsb' : sb.toNat = if i.msb then 2 ^ (F.e + F.s) else 0 := by
    have e : 2 ^ F.w = 2 * 2 ^ (F.w - 1) := by rw [← Nat.pow_succ']; congr 1
    rw [hsb, e, Nat.mul_mod_mul_right, F.sign_bit_spec hN]
    split
    · rw [Nat.one_mul]; rfl
    · rw [Nat.zero_mul]
  have hrn : r.toNat < 2 ^ (F.e + F.s) := by
    have := F.toNat_eq r
    rw [hs] at this
    have := F.mag_lt r
    simp_all
  have hrm : F.mag r = r.toNat := by unfold mag; exact Nat.mod_eq_of_lt hrn
  have h3 := F.sign_mag_of (b := r ||| sb) hrn (F.toNat_or_sign' hrn hsb')
  refine ⟨⟨?_, ?_⟩, h3.1⟩
  · rw [h3.2, ← hrm]
    have := toInt_unsignedAbs i
    have e : (((unsignedAbs i).toNat : ℤ) : ℚ) = |(i.toInt : ℚ)| := by rw [this]; push_cast; rfl
    rw [← e]
    exact_mod_cast hr
  · intro hne
    rw [h3.1]
    have : (i.toInt : ℚ) < 0 ↔ i.toInt < 0 := by exact_mod_cast Iff.rfl
    rw [this, BitVec.msb_eq_toInt, decide_eq_true_eq]

/-! ### float to integer -/

theorem mul_pow_div_pow {a p q p' q' : Nat} (h : p + q' = p' + q) : a * 2 ^ p / 2 ^ q = a * 2 ^ p' / 2 ^ q' := by
  rcases Nat.le_total p p' with hp | hp
  · obtain ⟨c, rfl⟩ := Nat.exists_eq_add_of_le hp
    have : q' = q + c := by omega
    rw [this, Nat.pow_add, ← Nat.mul_assoc, Nat.pow_add, Nat.mul_div_mul_right _ _ (Nat.two_pow_pos c)]
  · obtain ⟨c, rfl⟩ := Nat.exists_eq_add_of_le hp
    have : q = q' + c := by omega
    rw [this, Nat.pow_add, ← Nat.mul_assoc, Nat.pow_add, Nat.mul_div_mul_right _ _ (Nat.two_pow_pos c)]

theorem cvMag_le_iff {m n : Nat} : F.magVal ℚ m ≤ F.magVal ℚ n ↔ m ≤ n := by
  rw [F.magVal_eq, F.magVal_eq, mul_le_mul_iff_left₀ (F.ulp0_pos ℚ), Nat.cast_le, F.valU_le_iff]

theorem cvMag_lt_iff {m n : Nat} : F.magVal ℚ m < F.magVal ℚ n ↔ m < n := by
  rw [F.magVal_eq, F.magVal_eq, mul_lt_mul_iff_left₀ (F.ulp0_pos ℚ), Nat.cast_lt, F.valU_lt_iff]

theorem cvMag_nonneg (n : Nat) : 0 ≤ F.magVal ℚ n := by
  rw [F.magVal_eq]; exact mul_nonneg (Nat.cast_nonneg _) (le_of_lt (F.ulp0_pos ℚ))

theorem cvMag_pow (L : Nat) : F.magVal ℚ ((F.bias + L) * 2 ^ F.s) = 2 ^ L := by
  have hb := F.bias_ge
  unfold magVal
  rw [Nat.mul_div_cancel _ (Nat.two_pow_pos _), if_neg (by omega), Nat.mul_mod_left, Nat.add_zero]
  push_cast
  rw [← zpow_natCast, ← zpow_natCast, ← zpow_add₀ (by norm_num)]
  congr 1
  ring

/-- the integer part of a finite magnitude that is at least 1 -/
theorem floor_magVal {n : Nat} (h : F.bias * 2 ^ F.s ≤ n) :
    ⌊F.magVal ℚ n⌋ = (((2 ^ F.s + n % 2 ^ F.s) * 2 ^ (n / 2 ^ F.s - F.bias) / 2 ^ F.s : Nat) : ℤ) := by
  have hb := F.bias_ge
  have hE : F.bias ≤ n / 2 ^ F.s := (Nat.le_div_iff_mul_le (Nat.two_pow_pos _)).mpr h
  have e : F.magVal ℚ n = ((((2 ^ F.s + n % 2 ^ F.s) * 2 ^ (n / 2 ^ F.s - F.bias) : Nat) : ℚ) / ((2 ^ F.s : Nat) : ℚ)) := by
    unfold magVal
    rw [if_neg (by omega)]
    generalize n / 2 ^ F.s = E at *
    rw [Nat.cast_mul, mul_div_assoc]
    congr 1
    push_cast
    rw [← zpow_natCast, ← zpow_natCast, ← zpow_sub₀ (by norm_num)]
    congr 1
    omega
  rw [e, Rat.floor_natCast_div_natCast]
  exact (Int.natCast_ediv _ _).symm

theorem toNat_oneBits : F.oneBits.toNat = F.bias * 2 ^ F.s := by
  have hpe := F.pe_bias
  have hp := F.pw
  have h : F.bias * 2 ^ F.s < 2 ^ F.w := by
    rw [hp]
    have := Nat.mul_lt_mul_of_pos_right (show F.bias < 2 ^ F.e by omega) (Nat.two_pow_pos F.s)
    omega
  have h2 : F.bias < 2 ^ F.w := lt_of_le_of_lt (Nat.le_mul_of_pos_right _ (Nat.two_pow_pos F.s)) h
  unfold oneBits
  rw [BitVec.toNat_shiftLeft, Nat.shiftLeft_eq, BitVec.toNat_ofNat, Nat.mod_eq_of_lt h2, Nat.mod_eq_of_lt h]

theorem floatToIntInner_spec {N L : Nat} {max : BitVec N} {fbits : BitVec F.w} {inb : BitVec N → M (BitVec N)}
    {oob : BitVec N} {Q : BitVec N → Prop} (hN : 1 ≤ N) (hN32 : N < 2 ^ 16) (hmax : bitLen max.toNat = L) (hL : 1 ≤ L)
    (hNw : F.w ≤ N ∨ N ≤ F.s) (hFL : F.bias + L < 2 ^ F.e)
    (h1 : fbits.toNat < F.bias * 2 ^ F.s → Q 0#N)
    (h2 : F.bias * 2 ^ F.s ≤ fbits.toNat → fbits.toNat < (F.bias + L) * 2 ^ F.s →
      ∀ u : BitVec N, (u.toNat : ℤ) = ⌊F.magVal ℚ fbits.toNat⌋ → Ok (inb u) Q)
    (h3 : (F.bias + L) * 2 ^ F.s ≤ fbits.toNat → fbits.toNat ≤ F.infRep → Q oob)
    (h4 : F.infRep < fbits.toNat → Q 0#N) :
    Ok (F.floatToIntInner max fbits inb oob) Q := by
  have hb := F.bias_ge
  have hw : F.w = F.e + F.s + 1 := rfl
  have hLN : L ≤ N := by rw [← hmax]; exact bitLen_le_width max
  have hpel := F.pe_le
  have heW : 2 ^ F.e ≤ 2 ^ F.w := two_pow_le (by omega)
  have hb0 : (F.bias + L) * 2 ^ F.s < 2 ^ F.w := by
    rw [F.pw]
    have := Nat.mul_lt_mul_of_pos_right hFL (Nat.two_pow_pos F.s)
    omega
  unfold floatToIntInner
  refine Ok.bind (nsubC_spec hN) ?_
  rintro _ rfl
  refine Ok.bind (nsubC_spec (by unfold nlz; omega)) ?_
  rintro _ rfl
  have hl : F.bias + (N - 1 - nlz max) + 1 = F.bias + L := by unfold nlz; omega
  dsimp only
  rw [hl]
  refine Ok.bind (nsubC_spec (by omega)) ?_
  rintro _ rfl
  simp only [BitVec.lt_def (x := fbits), F.toNat_oneBits]
  by_cases c1 : fbits.toNat < F.bias * 2 ^ F.s
  · rw [if_pos c1]
    exact Ok.pure' (h1 c1)
  rw [if_neg c1]
  refine Ok.bind (castU_spec (by omega)) ?_
  intro t ht
  refine Ok.bind (shlC_spec (by omega)) ?_
  intro t' ht'
  rw [ht, Nat.mod_eq_of_lt hb0] at ht'
  rw [ht']
  by_cases c2 : fbits.toNat < (F.bias + L) * 2 ^ F.s
  · rw [if_pos c2]
    have h2' := h2 (by omega) c2
    rw [F.floor_magVal (by omega)] at h2'
    have hE1 : F.bias ≤ fbits.toNat / 2 ^ F.s := (Nat.le_div_iff_mul_le (Nat.two_pow_pos _)).mpr (by omega)
    have hE2 : fbits.toNat / 2 ^ F.s < F.bias + L := (Nat.div_lt_iff_lt_mul (Nat.two_pow_pos _)).mpr c2
    have hdm := Nat.div_add_mod fbits.toNat (2 ^ F.s)
    have hml := Nat.mod_lt fbits.toNat (Nat.two_pow_pos F.s)
    have h1N : (1#N).toNat = 1 := by
      rw [BitVec.toNat_ofNat]
      exact Nat.mod_eq_of_lt (Nat.one_lt_two_pow (by omega))
    have hps1 := F.ps_succ
    -- the significand, left aligned
    have hm : ∀ (m0 : BitVec N), (m0.toNat % 2 ^ (N - 1) * 2 ^ F.s = fbits.toNat % 2 ^ F.s * 2 ^ (N - 1) ∨
        (N ≤ F.s ∧ m0.toNat % 2 ^ (N - 1) = fbits.toNat % 2 ^ F.s / 2 ^ (F.s - N + 1))) →
        Ok (do
          let t ← shlC 1#N (N - 1)
          let m := t ||| m0
          let t ← shrC fbits F.s
          let t ← castToU32 t
          let s ← nsubC (F.bias + N - 1) t
          let unsigned ← shrC m s
          inb unsigned) Q := by
      intro m0 hm0
      refine Ok.bind (shlC_spec (by omega)) ?_
      intro a ha
      rw [h1N, Nat.one_mul, Nat.mod_eq_of_lt (Nat.pow_lt_pow_right (by omega) (by omega))] at ha
      refine Ok.bind (shrC_spec (by omega)) ?_
      intro b hbb
      refine Ok.bind (castToU32_spec (by omega)) ?_
      rintro _ rfl
      rw [hbb]
      refine Ok.bind (nsubC_spec (by omega)) ?_
      rintro _ rfl
      refine Ok.bind (shrC_spec (by omega)) ?_
      intro u hu
      refine h2' u ?_
      rw [hu]
      congr 1
      have hor : (a ||| m0).toNat = 2 ^ (N - 1) + m0.toNat % 2 ^ (N - 1) := by
        have hlt := m0.isLt
        have hp : 2 ^ N = 2 ^ (N - 1) * 2 := by rw [← Nat.pow_succ]; congr 1; omega
        rw [BitVec.toNat_or, ha]
        have hd := Nat.div_add_mod m0.toNat (2 ^ (N - 1))
        have hd2 : m0.toNat / 2 ^ (N - 1) < 2 := Nat.div_lt_of_lt_mul (by omega)
        have hml := Nat.mod_lt m0.toNat (Nat.two_pow_pos (N - 1))
        generalize m0.toNat / 2 ^ (N - 1) = c at *
        generalize m0.toNat % 2 ^ (N - 1) = l at *
        have hc : c = 0 ∨ c = 1 := by omega
        have ho := or_eq_add' hml (dvd_refl (2 ^ (N - 1)))
        rcases hc with rfl | rfl
        · rw [← hd, Nat.mul_zero, Nat.zero_add, ho, Nat.add_comm]
        · rw [← hd, Nat.mul_one, Nat.add_comm (2 ^ (N - 1)) l, ← ho, ← Nat.or_assoc, Nat.or_self]
      rw [hor]
      generalize hE : fbits.toNat / 2 ^ F.s = E at *
      generalize fbits.toNat % 2 ^ F.s = x at *
      generalize m0.toNat % 2 ^ (N - 1) = y at *
      rcases hm0 with he | ⟨hNs, he⟩
      · have e1 : (2 ^ (N - 1) + y) * 2 ^ F.s = (2 ^ F.s + x) * 2 ^ (N - 1) := by
          rw [Nat.add_mul, he]; ring
        have e2 : (2 ^ (N - 1) + y) / 2 ^ (F.bias + N - 1 - E) =
            (2 ^ (N - 1) + y) * 2 ^ F.s / 2 ^ (F.bias + N - 1 - E + F.s) := by
          have := mul_pow_div_pow (a := 2 ^ (N - 1) + y) (p := 0) (q := F.bias + N - 1 - E) (p' := F.s)
            (q' := F.bias + N - 1 - E + F.s) (by omega)
          simpa using this
        rw [e2, e1]
        exact mul_pow_div_pow (by omega)
      · have e1 : 2 ^ (N - 1) + y = (2 ^ F.s + x) / 2 ^ (F.s - N + 1) := by
          have : 2 ^ F.s = 2 ^ (N - 1) * 2 ^ (F.s - N + 1) := by rw [← Nat.pow_add]; congr 1; omega
          rw [he, this, Nat.add_comm (2 ^ (N - 1) * _), Nat.add_mul_div_right _ _ (Nat.two_pow_pos _), Nat.add_comm]
        rw [e1, Nat.div_div_eq_div_mul, ← Nat.pow_add]
        have := mul_pow_div_pow (a := 2 ^ F.s + x) (p := 0) (q := F.s - N + 1 + (F.bias + N - 1 - E))
          (p' := E - F.bias) (q' := F.s) (by omega)
        simpa using this
    by_cases c3 : N ≥ F.w
    · simp only [if_pos c3, bind_assoc]
      have hfl : fbits.toNat < 2 ^ N := lt_of_lt_of_le fbits.isLt (two_pow_le c3)
      refine Ok.bind (castC_spec hfl) ?_
      intro x hx
      refine Ok.bind (nsubC_spec (by omega)) ?_
      rintro _ rfl
      refine Ok.bind (nsubC_spec (by omega)) ?_
      rintro _ rfl
      refine Ok.bind (shlC_spec (by omega)) ?_
      intro m0 hm0
      refine hm m0 (Or.inl ?_)
      rw [hm0, hx, Nat.mod_mod_of_dvd _ (Nat.pow_dvd_pow 2 (by omega))]
      have e1 : 2 ^ (N - 1) = 2 ^ F.s * 2 ^ (N - F.s - 1) := by rw [← Nat.pow_add]; congr 1; omega
      rw [e1, Nat.mul_mod_mul_right]
      ring
    · simp only [if_neg c3, bind_assoc]
      have hNs : N ≤ F.s := by omega
      refine Ok.bind (nsubC_spec hNs) ?_
      rintro _ rfl
      refine Ok.bind (shrC_spec (by omega)) ?_
      intro x hx
      refine hm (x.setWidth N) (Or.inr ⟨hNs, ?_⟩)
      rw [BitVec.toNat_setWidth, hx, Nat.mod_mod_of_dvd _ (Nat.pow_dvd_pow 2 (by omega))]
      have e1 : 2 ^ F.s = 2 ^ (F.s - N + 1) * 2 ^ (N - 1) := by rw [← Nat.pow_add]; congr 1; omega
      rw [e1, Nat.mod_mul_right_div_self]
  · rw [if_neg c2]
    simp only [BitVec.le_def, F.toNat_expMask]
    by_cases c3 : fbits.toNat ≤ F.infRep
    · rw [if_pos c3]; exact Ok.pure' (h3 (by omega) c3)
    · rw [if_neg c3]; exact Ok.pure' (h4 (by omega))

/-- Specification: truncation toward zero. -/
def truncZ (x : ℚ) : ℤ := if x < 0 then -⌊-x⌋ else ⌊x⌋

/-- Specification: truncation toward zero, then saturation to `[lo, hi]`. -/
def satTrunc (lo hi : ℤ) (x : ℚ) : ℤ := max lo (min hi (truncZ x))

theorem truncZ_mag (t : Bool) {v : ℚ} (hv : 0 ≤ v) :
    truncZ ((if t then -1 else 1) * v) = (if t then -1 else 1) * ⌊v⌋ := by
  unfold truncZ
  cases t
  · simp only [Bool.false_eq_true, if_false, one_mul]
    rw [if_neg (not_lt.mpr hv)]
  · simp only [if_true, neg_one_mul]
    by_cases h : v = 0
    · rw [h]; simp
    · rw [if_pos (by have := lt_of_le_of_ne hv (Ne.symm h); linarith), neg_neg]

theorem floor_lt_pow {n L : Nat} (h : n < (F.bias + L) * 2 ^ F.s) : ⌊F.magVal ℚ n⌋ < 2 ^ L := by
  rw [Int.floor_lt]
  have := F.cvMag_lt_iff.mpr h
  rw [F.cvMag_pow] at this
  exact_mod_cast this

theorem floor_ge_pow {n L : Nat} (h : (F.bias + L) * 2 ^ F.s ≤ n) : 2 ^ L ≤ ⌊F.magVal ℚ n⌋ := by
  rw [Int.le_floor]
  have := F.cvMag_le_iff.mpr h
  rw [F.cvMag_pow] at this
  exact_mod_cast this

theorem floor_small {n : Nat} (h : n < F.bias * 2 ^ F.s) : ⌊F.magVal ℚ n⌋ = 0 := by
  rw [Int.floor_eq_zero_iff]
  have := F.cvMag_lt_iff.mpr (show n < (F.bias + 0) * 2 ^ F.s from h)
  rw [F.cvMag_pow] at this
  exact ⟨F.cvMag_nonneg n, by simpa using this⟩

theorem floor_nonneg (n : Nat) : 0 ≤ ⌊F.magVal ℚ n⌋ := Int.floor_nonneg.mpr (F.cvMag_nonneg n)

theorem bitLen_allOnes (N : Nat) (hN : 1 ≤ N) : bitLen (BitVec.allOnes N).toNat = N := by
  obtain ⟨k, rfl⟩ : ∃ k, N = k + 1 := ⟨N - 1, by omega⟩
  rw [BitVec.toNat_allOnes]
  have := Nat.two_pow_pos k
  exact bitLen_unique (by rw [Nat.pow_succ]; omega) (by rw [Nat.pow_succ]; omega)

theorem bitLen_intMax (N : Nat) (hN : 2 ≤ N) : bitLen (BitVec.intMax N).toNat = N - 1 := by
  obtain ⟨k, rfl⟩ : ∃ k, N = k + 2 := ⟨N - 2, by omega⟩
  rw [BitVec.toNat_intMax]
  have := Nat.two_pow_pos k
  have e : 2 ^ (k + 2 - 1) = 2 ^ k * 2 := pow_succ 2 k
  exact bitLen_unique (k := k) (by rw [Nat.pow_succ]; omega) (by omega)

/-- negative or not: the pattern read by the unsigned conversion -/
theorem toNat_of_sign (f : BitVec F.w) :
    (F.sign f = false → f.toNat = F.mag f) ∧ (F.sign f = true → F.infRep < f.toNat) := by
  have h := F.toNat_eq f
  have hi := F.infRep_lt
  constructor
  · intro hs; rw [hs] at h; simpa using h
  · intro hs; rw [hs] at h; simp at h; omega

theorem floatToUnsigned_fin {N : Nat} (hN : 1 ≤ N) (hN32 : N < 2 ^ 16) (hNw : F.w ≤ N ∨ N ≤ F.s)
    (hFN : F.bias + N < 2 ^ F.e) {f : BitVec F.w} (hf : F.IsFin f) :
    Ok (F.floatToUnsigned N f) (fun r => (r.toNat : ℤ) = satTrunc 0 (2 ^ N - 1) (F.val f)) := by
  have hf' : F.mag f < F.infRep := hf
  have hs := F.toNat_of_sign f
  have hz : (0#N).toNat = 0 := by simp
  have ht : truncZ (F.val f) = (if F.sign f then -1 else 1) * ⌊F.magVal ℚ (F.mag f)⌋ :=
    truncZ_mag _ (F.cvMag_nonneg _)
  have hf0 := F.floor_nonneg (F.mag f)
  have hp : (1 : ℤ) ≤ 2 ^ N := by exact_mod_cast Nat.two_pow_pos N
  unfold satTrunc
  rw [ht]
  unfold floatToUnsigned
  cases hsf : F.sign f
  · have e := hs.1 hsf
    rw [if_neg (by simp), one_mul]
    refine F.floatToIntInner_spec (L := N) hN hN32 (bitLen_allOnes N hN) hN hNw hFN ?_ ?_ ?_ ?_
    · rw [e]
      intro h
      rw [F.floor_small h, hz]
      omega
    · rw [e]
      intro _ h u hu
      have := F.floor_lt_pow h
      refine Ok.pure' ?_
      rw [hu]; omega
    · rw [e]
      intro h _
      have := F.floor_ge_pow h
      rw [BitVec.toNat_allOnes]
      have : ((2 ^ N - 1 : Nat) : ℤ) = 2 ^ N - 1 := by
        rw [Nat.cast_sub (Nat.two_pow_pos N)]; push_cast; rfl
      rw [this]; omega
    · rw [e]; intro h; omega
  · have e := hs.2 hsf
    rw [if_pos rfl]
    have hb : F.bias * 2 ^ F.s ≤ F.infRep ∧ (F.bias + N) * 2 ^ F.s ≤ F.infRep := by
      unfold infRep
      exact ⟨Nat.mul_le_mul_right _ (by omega), Nat.mul_le_mul_right _ (by omega)⟩
    refine F.floatToIntInner_spec (L := N) hN hN32 (bitLen_allOnes N hN) hN hNw hFN ?_ ?_ ?_ ?_
    · intro h; omega
    · intro _ h; omega
    · intro _ h; omega
    · intro _; rw [hz]; omega

/-- infinities and NaN -/
theorem floatToUnsigned_special {N : Nat} (hN : 1 ≤ N) (hN32 : N < 2 ^ 16) (hNw : F.w ≤ N ∨ N ≤ F.s)
    (hFN : F.bias + N < 2 ^ F.e) {f : BitVec F.w} (hf : F.infRep ≤ F.mag f) :
    F.floatToUnsigned N f = .ok (if F.IsInf f ∧ F.sign f = false then BitVec.allOnes N else 0#N) := by
  have hs := F.toNat_of_sign f
  have hb : F.bias * 2 ^ F.s ≤ F.infRep ∧ (F.bias + N) * 2 ^ F.s ≤ F.infRep := by
    unfold infRep
    exact ⟨Nat.mul_le_mul_right _ (by omega), Nat.mul_le_mul_right _ (by omega)⟩
  have hi : F.IsInf f ↔ F.mag f = F.infRep := Iff.rfl
  apply Ok.eq
  unfold floatToUnsigned
  have hlow : F.bias * 2 ^ F.s < F.infRep := by
    unfold infRep
    exact Nat.mul_lt_mul_of_pos_right (by omega) (Nat.two_pow_pos _)
  cases hsf : F.sign f
  · have e := hs.1 hsf
    refine F.floatToIntInner_spec (L := N) hN hN32 (bitLen_allOnes N hN) hN hNw hFN ?_ ?_ ?_ ?_
    · intro h; omega
    · intro _ h; omega
    · intro _ h; rw [if_pos ⟨hi.mpr (by omega), rfl⟩]
    · intro h; rw [if_neg (by rw [hi]; omega)]
  · have e := hs.2 hsf
    refine F.floatToIntInner_spec (L := N) hN hN32 (bitLen_allOnes N hN) hN hNw hFN ?_ ?_ ?_ ?_
    · intro h; omega
    · intro _ h; omega
    · intro _ h; omega
    · intro _; rw [if_neg (by simp)]

theorem cv_and_not_signMask (f : BitVec F.w) : (f &&& ~~~F.signMask).toNat = F.mag f := by
  have : ~~~F.signMask = F.absMask := by
    apply BitVec.eq_of_toNat_eq
    rw [BitVec.toNat_not, F.toNat_signMask, F.toNat_absMask]
    have : 2 ^ F.w = 2 * 2 ^ (F.e + F.s) := by rw [← Nat.pow_succ']
    omega
  rw [this, F.toNat_and_absMask]

theorem toInt_of_lt {N : Nat} {u : BitVec N} (h : u.toNat < 2 ^ (N - 1)) : u.toInt = u.toNat := by
  rcases Nat.eq_zero_or_pos N with rfl | hN
  · rw [BitVec.of_length_zero (x := u)]; simp
  have hp : 2 ^ N = 2 * 2 ^ (N - 1) := by rw [← Nat.pow_succ']; congr 1; omega
  rw [BitVec.toInt_eq_toNat_cond, if_pos (by omega)]

theorem negC_spec {N : Nat} (hN : 1 ≤ N) {u : BitVec N} (h : u.toNat < 2 ^ (N - 1)) :
    Ok (negC u) (fun r => r.toInt = -(u.toNat : ℤ)) := by
  have hp : 2 ^ N = 2 * 2 ^ (N - 1) := by rw [← Nat.pow_succ']; congr 1; omega
  have hne : u ≠ BitVec.intMin N := by
    intro e
    have := congrArg BitVec.toNat e
    rw [BitVec.toNat_intMin, Nat.mod_eq_of_lt (by have := Nat.two_pow_pos (N - 1); omega)] at this
    omega
  unfold negC
  rw [if_neg hne]
  refine Ok.pure ?_
  rw [BitVec.toInt_neg_of_ne_intMin hne, toInt_of_lt h]

theorem floatToSigned_fin {N : Nat} (hN : 2 ≤ N) (hN32 : N < 2 ^ 16) (hNw : F.w ≤ N ∨ N ≤ F.s)
    (hFN : F.bias + N < 2 ^ F.e) {f : BitVec F.w} (hf : F.IsFin f) :
    Ok (F.floatToSigned N f) (fun r => r.toInt = satTrunc (-2 ^ (N - 1)) (2 ^ (N - 1) - 1) (F.val f)) := by
  have hf' : F.mag f < F.infRep := hf
  have e := F.cv_and_not_signMask f
  have ht : truncZ (F.val f) = (if F.sign f then -1 else 1) * ⌊F.magVal ℚ (F.mag f)⌋ :=
    truncZ_mag _ (F.cvMag_nonneg _)
  have hf0 := F.floor_nonneg (F.mag f)
  have hp : (1 : ℤ) ≤ 2 ^ (N - 1) := by exact_mod_cast Nat.two_pow_pos (N - 1)
  unfold satTrunc
  rw [ht]
  unfold floatToSigned
  refine F.floatToIntInner_spec (L := N - 1) (by omega) hN32 (bitLen_intMax N hN) (by omega) hNw (by omega) ?_ ?_ ?_ ?_
  · rw [e]
    intro h
    rw [F.floor_small h, mul_zero, BitVec.toInt_zero]
    omega
  · rw [e]
    intro _ h u hu
    have h1 := F.floor_lt_pow h
    have h2 : u.toNat < 2 ^ (N - 1) := by
      rw [← hu] at h1; exact_mod_cast h1
    rw [← hu]
    rw [← hu] at h1
    cases F.sign f
    · rw [if_neg (by simp), if_neg (by simp)]
      refine Ok.pure' ?_
      rw [toInt_of_lt h2]; omega
    · rw [if_pos rfl, if_pos rfl]
      refine (negC_spec (by omega) h2).mono ?_
      intro r hr
      rw [hr]; omega
  · rw [e]
    intro h _
    have := F.floor_ge_pow h
    cases F.sign f
    · rw [if_neg (by simp), if_neg (by simp), BitVec.toInt_intMax]
      omega
    · rw [if_pos rfl, if_pos rfl, BitVec.toInt_intMin_of_pos (by omega)]; omega
  · rw [e]; intro h; omega

theorem floatToSigned_special {N : Nat} (hN : 2 ≤ N) (hN32 : N < 2 ^ 16) (hNw : F.w ≤ N ∨ N ≤ F.s)
    (hFN : F.bias + N < 2 ^ F.e) {f : BitVec F.w} (hf : F.infRep ≤ F.mag f) :
    F.floatToSigned N f = .ok (if F.IsInf f then
      (if F.sign f then BitVec.intMin N else BitVec.intMax N) else 0#N) := by
  have e := F.cv_and_not_signMask f
  have hi : F.IsInf f ↔ F.mag f = F.infRep := Iff.rfl
  have hb : F.bias * 2 ^ F.s ≤ F.infRep ∧ (F.bias + (N - 1)) * 2 ^ F.s ≤ F.infRep := by
    unfold infRep
    exact ⟨Nat.mul_le_mul_right _ (by omega), Nat.mul_le_mul_right _ (by omega)⟩
  apply Ok.eq
  unfold floatToSigned
  refine F.floatToIntInner_spec (L := N - 1) (by omega) hN32 (bitLen_intMax N hN) (by omega) hNw (by omega) ?_ ?_ ?_ ?_
  · rw [e]; intro h; omega
  · rw [e]; intro _ h; omega
  · rw [e]; intro _ h; rw [if_pos (hi.mpr (by omega))]
  · rw [e]; intro h; rw [if_neg (by rw [hi]; omega)]

/-! ### round trip -/

theorem ConvU.rounds {F : Fmt} {i : Nat} {r : BitVec F.w} (h : F.ConvU i r) :
    F.Rounds (i : ℚ) r ∧ F.sign r = false := by
  have h0 : (0 : ℚ) ≤ i := Nat.cast_nonneg i
  refine ⟨⟨by rw [abs_of_nonneg h0]; exact h.2, fun _ => ?_⟩, h.1⟩
  rw [h.1]
  simp [not_lt.mpr h0]

/-- integers up to `2^(s+1)` are representable -/
theorem exists_magVal_eq {i : Nat} (h : i ≤ 2 ^ (F.s + 1)) : ∃ n, n < F.infRep ∧ F.magVal ℚ n = i := by
  have hb := F.bias_ge
  have hpe := F.pe_bias
  by_cases h0 : i = 0
  · refine ⟨0, ?_, by rw [F.magVal_eq, F.valU_zero, h0]; simp⟩
    have := F.ps_le_infRep; have := F.ps_ge; omega
  have h1 := two_pow_le_of_bitLen h0
  have h2 := lt_two_pow_bitLen i
  have h3 := bitLen_pos h0
  have hB : bitLen i ≤ F.s + 2 := bitLen_le_iff.mpr (by rw [Nat.pow_succ]; have := Nat.two_pow_pos (F.s + 1); omega)
  have hp1 := F.ps_succ
  have hinf : ∀ E m, m ≤ 2 ^ (F.s + 1) → E + 2 ≤ 2 ^ F.e - 2 → E * 2 ^ F.s + m < F.infRep := by
    intro E m hm hE
    have h3 : (E + 2) * 2 ^ F.s ≤ (2 ^ F.e - 2) * 2 ^ F.s := Nat.mul_le_mul_right _ hE
    have h4 : (2 ^ F.e - 2) * 2 ^ F.s < (2 ^ F.e - 1) * 2 ^ F.s :=
      Nat.mul_lt_mul_of_pos_right (by omega) (Nat.two_pow_pos _)
    rw [Nat.add_mul] at h3
    unfold infRep
    omega
  have two0 : (2 : ℚ) ≠ 0 := by norm_num
  by_cases hbl : bitLen i ≤ F.s + 1
  · have m1 : i * 2 ^ (F.s + 1 - bitLen i) < 2 ^ (F.s + 1) := by
      calc _ < 2 ^ bitLen i * 2 ^ (F.s + 1 - bitLen i) := Nat.mul_lt_mul_of_pos_right h2 (Nat.two_pow_pos _)
        _ = _ := by rw [← Nat.pow_add]; congr 1; omega
    have m0 : 2 ^ F.s ≤ i * 2 ^ (F.s + 1 - bitLen i) := by
      calc _ = 2 ^ (bitLen i - 1) * 2 ^ (F.s + 1 - bitLen i) := by rw [← Nat.pow_add]; congr 1; omega
        _ ≤ _ := Nat.mul_le_mul_right _ h1
    refine ⟨(F.bias + bitLen i - 1 - 1) * 2 ^ F.s + i * 2 ^ (F.s + 1 - bitLen i),
      hinf _ _ (le_of_lt m1) (by omega), ?_⟩
    rw [F.magVal_eq, F.valU_eq (by omega) (le_of_lt m1) (Or.inl m0)]
    unfold ulp0
    push_cast
    rw [mul_assoc, mul_assoc]
    have : (2 : ℚ) ^ (F.s + 1 - bitLen i) * (2 ^ (F.bias + bitLen i - 1 - 1) * 2 ^ (1 - (F.bias : ℤ) - F.s)) = 1 := by
      rw [← zpow_natCast, ← zpow_natCast, ← zpow_add₀ two0, ← zpow_add₀ two0]
      rw [show (((F.s + 1 - bitLen i : Nat) : ℤ) + (((F.bias + bitLen i - 1 - 1 : Nat) : ℤ) +
        (1 - (F.bias : ℤ) - F.s))) = 0 by omega, zpow_zero]
    rw [this, mul_one]
  · have : i = 2 ^ (F.s + 1) := by
      have : bitLen i - 1 = F.s + 1 := by omega
      rw [this] at h1; omega
    refine ⟨(F.bias + (F.s + 1)) * 2 ^ F.s, ?_, ?_⟩
    · have := hinf (F.bias + (F.s + 1)) 0 (by omega) (by omega)
      simpa using this
    · rw [F.cvMag_pow, this]; push_cast; rfl

/-- rounding a representable number changes nothing -/
theorem magVal_of_isRNE {x : ℚ} {n m : Nat} (h : F.IsRNE x n) (hm : m < F.infRep) (hx : F.magVal ℚ m = x) :
    n = m := by
  have h1 := (h.2 m (by omega)).1
  rw [← hx, sub_self, abs_zero] at h1
  have h2 : F.magVal ℚ m - F.magVal ℚ n = 0 := abs_eq_zero.mp (le_antisymm h1 (abs_nonneg _))
  have h3 : F.magVal ℚ m = F.magVal ℚ n := by linarith
  have h4 := F.cvMag_le_iff.mp (le_of_eq h3)
  have h5 := F.cvMag_le_iff.mp (le_of_eq h3.symm)
  omega

theorem val_of_rounds_int {i : ℤ} {r : BitVec F.w} (h : F.Rounds (i : ℚ) r) (hi : |i| ≤ 2 ^ (F.s + 1)) :
    F.IsFin r ∧ F.val r = i := by
  have hi' : i.natAbs ≤ 2 ^ (F.s + 1) := by
    have : ((i.natAbs : Nat) : ℤ) ≤ ((2 ^ (F.s + 1) : Nat) : ℤ) := by rw [Int.natCast_natAbs]; exact_mod_cast hi
    exact_mod_cast this
  obtain ⟨n, hn, hv⟩ := F.exists_magVal_eq hi'
  have hab : ((i.natAbs : Nat) : ℚ) = |(i : ℚ)| := by
    rw [← Int.cast_natCast, Int.natCast_natAbs]; push_cast; rfl
  rw [hab] at hv
  have hm := F.magVal_of_isRNE h.1 hn hv
  refine ⟨by unfold IsFin; omega, ?_⟩
  show (if F.sign r then -1 else 1) * F.magVal ℚ (F.mag r) = (i : ℚ)
  rw [hm, hv]
  by_cases h0 : (i : ℚ) = 0
  · rw [h0]; simp
  · have hs := h.2 h0
    by_cases hlt : (i : ℚ) < 0
    · rw [if_pos (hs.mpr hlt), abs_of_neg hlt]; ring
    · rw [if_neg (fun e => hlt (hs.mp e)), abs_of_nonneg (not_lt.mp hlt), one_mul]

theorem truncZ_intCast (i : ℤ) : truncZ (i : ℚ) = i := by
  unfold truncZ
  split
  · rw [← Int.cast_neg, Int.floor_intCast, neg_neg]
  · rw [Int.floor_intCast]

end Fmt

/-! ### powi -/

/-- `powLoop` with an exact multiplication computes the power. -/
theorem powLoop_spec {K : Type} [CommMonoid K] {mulOp : K → K → M K} (hm : ∀ a b, mulOp a b = .ok (a * b))
    (fuel : Nat) (a m : K) (p : BitVec 32) (hp : p.toNat < 2 ^ fuel) (hf : 1 ≤ fuel) :
    powLoop mulOp fuel a p m = .ok (m * a ^ p.toNat) := by
  induction fuel generalizing a m p with
  | zero => omega
  | succ n ih =>
    have hodd : p &&& 1#32 ≠ 0#32 ↔ p.toNat % 2 = 1 := by
      rw [ne_eq, ← BitVec.toNat_inj, BitVec.toNat_and]
      show ¬ (p.toNat &&& 1 = 0) ↔ _
      rw [Nat.and_one_is_mod]
      omega
    have hstep : ∀ q : K, q = m * a ^ (p.toNat % 2) →
        (do
          let pow ← shrC p 1
          if pow = 0#32 then pure q
          else do
            let a ← mulOp a a
            powLoop mulOp n a pow q : M K) = .ok (m * a ^ p.toNat) := by
      rintro q rfl
      obtain ⟨p', hp', hv⟩ := shrC_spec (a := p) (n := 1) (by omega)
      rw [hp']
      show (if p' = 0#32 then _ else _) = _
      have hdm := Nat.div_add_mod p.toNat 2
      by_cases hz : p' = 0#32
      · rw [if_pos hz]
        rw [hz] at hv
        have : p.toNat % 2 = p.toNat := by simp at hv; omega
        rw [this]; rfl
      · rw [if_neg hz, hm]
        show powLoop mulOp n (a * a) p' _ = _
        have h1 : p'.toNat ≠ 0 := fun e => hz (BitVec.eq_of_toNat_eq (by simpa using e))
        have hn : 1 ≤ n := by
          rcases Nat.eq_zero_or_pos n with rfl | h
          · simp at hp; omega
          · exact h
        rw [ih _ _ _ (by rw [hv, Nat.pow_succ] at *; omega) hn, hv, ← pow_two, ← pow_mul, mul_assoc, ← pow_add]
        congr 3
        omega
    unfold powLoop
    by_cases ho : p &&& 1#32 ≠ 0#32
    · rw [if_pos ho, hm]
      exact hstep (m * a) (by rw [hodd.mp ho, pow_one])
    · rw [if_neg ho]
      have : p.toNat % 2 = 0 := by rw [hodd] at ho; omega
      exact hstep m (by rw [this, pow_zero, mul_one])

theorem absDiffZero_toNat (b : BitVec 32) : (absDiffZero b).toNat = b.toInt.natAbs := by
  have h : (((absDiffZero b).toNat : Nat) : ℤ) = |b.toInt| := Fmt.toInt_unsignedAbs b
  rw [← Int.natCast_natAbs] at h
  exact_mod_cast h

/-- the loop makes progress whatever the multiplication does, as long as it returns -/
theorem powLoop_total {K : Type} {mulOp : K → K → M K} {P : K → Prop} (hm : ∀ a b, P a → P b → Ok (mulOp a b) P)
    (fuel : Nat) (a m : K) (p : BitVec 32) (hp : p.toNat < 2 ^ fuel) (hf : 1 ≤ fuel) (ha : P a) (hmm : P m) :
    Ok (powLoop mulOp fuel a p m) P := by
  induction fuel generalizing a m p with
  | zero => omega
  | succ n ih =>
    unfold powLoop
    refine Ok.bind (P := P) (by split; exact hm _ _ hmm ha; exact Ok.pure' hmm) ?_
    intro q hq
    refine Ok.bind (shrC_spec (by omega)) ?_
    intro p' hv
    by_cases hz : p' = 0#32
    · rw [if_pos hz]; exact Ok.pure' hq
    · rw [if_neg hz]
      refine Ok.bind (hm _ _ ha ha) ?_
      intro a' ha'
      have h1 : p'.toNat ≠ 0 := fun e => hz (BitVec.eq_of_toNat_eq (by simpa using e))
      have hn : 1 ≤ n := by
        rcases Nat.eq_zero_or_pos n with rfl | h
        · simp at hp; omega
        · exact h
      exact ih _ _ _ (by rw [hv, Nat.pow_succ] at *; omega) hn ha' hq

end Verif
