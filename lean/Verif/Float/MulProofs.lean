import Verif.Float.Mul
import Verif.Float.AddProofs
import Verif.Int.ModularProofs
import Mathlib.Data.Nat.Bitwise
/-! # Correctness of soft-float multiplication -/
namespace Verif

/-- What a number kept with a sticky bit tells about the position of the exact number relative to the midpoint
`H` of the discarded part. -/
theorem Stk.half {G H : Nat} {y : ℚ} (h : Stk G y) (hH : 0 < H) (hev : H % 2 = 0) :
    ((2 * H * (G / (2 * H)) : Nat) : ℚ) ≤ y ∧ y < (2 * H * (G / (2 * H)) + 2 * H : Nat) ∧
    (G % (2 * H) < H → y < (2 * H * (G / (2 * H)) + H : Nat)) ∧
    (H < G % (2 * H) → ((2 * H * (G / (2 * H)) + H : Nat) : ℚ) < y) ∧
    (G % (2 * H) = H → y = (2 * H * (G / (2 * H)) + H : Nat)) := by
  have hdm := Nat.div_add_mod G (2 * H)
  have hlt := Nat.mod_lt G (show 0 < 2 * H by omega)
  obtain ⟨B, hB⟩ : ∃ B, B = 2 * H * (G / (2 * H)) := ⟨_, rfl⟩
  have hBe : B % 2 = 0 := by rw [hB, Nat.mul_assoc, Nat.mul_mod_right]
  rw [← hB] at hdm ⊢
  generalize G % (2 * H) = l at *
  subst hdm
  rcases h with ⟨he, rfl⟩ | ⟨ho, h1, h2⟩
  · refine ⟨?_, ?_, ?_, ?_, ?_⟩
    · exact_mod_cast (by omega : B ≤ B + l)
    · exact_mod_cast (by omega : B + l < B + 2 * H)
    · intro h; exact_mod_cast (by omega : B + l < B + H)
    · intro h; exact_mod_cast (by omega : B + H < B + l)
    · rintro rfl; rfl
  · have c1 : ∀ n : Nat, n + 1 ≤ B + l → (n : ℚ) < y := by
      intro n hn
      have : (n : ℚ) + 1 ≤ ((B + l : Nat) : ℚ) := by exact_mod_cast hn
      linarith
    have c2 : ∀ n : Nat, B + l + 1 ≤ n → y < (n : ℚ) := by
      intro n hn
      have : ((B + l : Nat) : ℚ) + 1 ≤ n := by exact_mod_cast hn
      linarith
    refine ⟨le_of_lt (c1 _ (by omega)), c2 _ (by omega), fun h => c2 _ (by omega), fun h => c1 _ (by omega), ?_⟩
    intro h
    omega

namespace Fmt
variable (F : Fmt)

/-- Rounding a number `G` (with sticky lowest bit) that carries `k` fraction bits. -/
theorem isRNEu_of_stk {G k E r : Nat} {y X : ℚ} (h : Stk G y) (hk : 2 ≤ k) (hE : 1 ≤ E)
    (hm1 : G / 2 ^ k < 2 ^ (F.s + 1)) (hm0 : 2 ^ F.s ≤ G / 2 ^ k ∨ E = 1)
    (hn : (E - 1) * 2 ^ F.s + G / 2 ^ k < F.infRep) (hX : X = y / 2 ^ k * 2 ^ (E - 1))
    (hr : r = (E - 1) * 2 ^ F.s + G / 2 ^ k + (if G % 2 ^ k < 2 ^ (k - 1) then 0
      else if G % 2 ^ k = 2 ^ (k - 1) then ((E - 1) * 2 ^ F.s + G / 2 ^ k) % 2 else 1)) :
    F.IsRNEu X r := by
  have e2 : 2 ^ k = 2 * 2 ^ (k - 1) := by rw [← Nat.pow_succ']; congr 1; omega
  have hev : 2 ^ (k - 1) % 2 = 0 := by
    obtain ⟨j, rfl⟩ : ∃ j, k = j + 2 := ⟨k - 2, by omega⟩
    rw [show j + 2 - 1 = j + 1 from rfl, Nat.pow_succ, Nat.mul_mod_left]
  have hh := h.half (Nat.two_pow_pos (k - 1)) hev
  rw [← e2] at hh
  have hkq : (2 : ℚ) ^ k = 2 * 2 ^ (k - 1) := by exact_mod_cast e2
  have hpos : (0 : ℚ) < 2 ^ (k - 1) := by positivity
  obtain ⟨h0, h1, h2, h3, h4⟩ := hh
  push_cast at h0 h1 h2 h3 h4
  rw [hkq] at hX
  rw [hkq] at h0 h1 h2 h3 h4
  generalize (2 : ℚ) ^ (k - 1) = H at *
  have hy : y / (2 * H) * (2 * H) = y := by field_simp
  refine F.isRNEu_of_frac (f := y / (2 * H) - (G / 2 ^ k : Nat)) hE hm1 hm0 hn (by rw [hX]; ring) ?_ ?_ ?_
  · rw [sub_nonneg, le_div_iff₀ (by linarith)]; linarith
  · rw [sub_le_iff_le_add, div_le_iff₀ (by linarith)]; linarith
  · rcases Nat.lt_trichotomy (G % 2 ^ k) (2 ^ (k - 1)) with hg | hg | hg
    · left
      refine ⟨?_, by rw [hr, if_pos hg, Nat.add_zero]⟩
      rw [sub_lt_iff_lt_add, div_lt_iff₀ (by linarith)]; linarith [h2 hg]
    · right; right
      refine ⟨?_, by rw [hr, if_neg (by omega), if_pos hg]⟩
      rw [sub_eq_iff_eq_add, div_eq_iff (by linarith)]; linarith [h4 hg]
    · right; left
      refine ⟨?_, by rw [hr, if_neg (by omega), if_neg (by omega)]⟩
      rw [lt_sub_iff_add_lt, lt_div_iff₀ (by linarith)]; linarith [h3 hg]

/-- signed packing: `magnitude | sign` -/
theorem toNat_or_sign' {x y : BitVec F.w} {t : Bool} (hx : x.toNat < 2 ^ (F.e + F.s))
    (hy : y.toNat = if t then 2 ^ (F.e + F.s) else 0) :
    (x ||| y).toNat = (if t then 2 ^ (F.e + F.s) else 0) + x.toNat := by
  rw [BitVec.toNat_or, or_eq_add hx, hy, Nat.add_comm]
  rw [hy]; split <;> simp

/-- the final rounding increments of `mul` -/
theorem mulRound_spec {r l : BitVec F.w} (h : r.toNat + 1 < 2 ^ F.w) :
    Ok (do
      let r ← (if l > F.signMask then addC r 1#F.w else pure r)
      if l = F.signMask then addC r (r &&& 1#F.w) else pure r)
    (fun q => q.toNat = r.toNat +
      (if l.toNat < 2 ^ (F.w - 1) then 0 else if l.toNat = 2 ^ (F.w - 1) then r.toNat % 2 else 1)) := by
  have h1 : (r &&& 1#F.w).toNat = r.toNat % 2 := by
    rw [BitVec.toNat_and, F.toNat_one']
    exact Nat.and_two_pow_sub_one_eq_mod r.toNat 1
  have hs : F.signMask.toNat = 2 ^ (F.w - 1) := F.toNat_signMask
  rw [← hs]
  simp only [gt_iff_lt, BitVec.lt_def, ← BitVec.toNat_inj (x := l)]
  rcases Nat.lt_trichotomy l.toNat F.signMask.toNat with hg | hg | hg
  · rw [if_neg (by omega), if_pos hg]
    refine Ok.bind (Ok.pure' (P := (· = r)) rfl) ?_
    rintro _ rfl
    rw [if_neg (by omega)]
    exact Ok.pure' rfl
  · rw [if_neg (by omega), if_neg (by omega), if_pos hg]
    refine Ok.bind (Ok.pure' (P := (· = r)) rfl) ?_
    rintro _ rfl
    rw [if_pos hg]
    refine (addC_spec (by rw [h1]; omega)).mono ?_
    intro q hq
    rw [hq, h1]
  · rw [if_pos hg, if_neg (by omega), if_neg (by omega)]
    refine Ok.bind (addC_spec (by rw [F.toNat_one']; omega)) ?_
    intro q hq
    rw [if_neg (by omega)]
    refine Ok.pure' ?_
    rw [hq, F.toNat_one']

/-- Packing and rounding once the significand part `m` and the exponent part `E` are in place. -/
theorem mulPack_spec {ps hi l : BitVec F.w} {t : Bool} {G E : Nat} {y X : ℚ}
    (hps : ps.toNat = if t then 2 ^ (F.e + F.s) else 0) (h : Stk G y) (hE : 1 ≤ E)
    (hm1 : G / 2 ^ F.w < 2 ^ (F.s + 1)) (hm0 : 2 ^ F.s ≤ G / 2 ^ F.w ∨ E = 1)
    (hn : (E - 1) * 2 ^ F.s + G / 2 ^ F.w < F.infRep) (hX : X = y / 2 ^ F.w * 2 ^ (E - 1))
    (hhi : hi.toNat = (E - 1) * 2 ^ F.s + G / 2 ^ F.w) (hl : l.toNat = G % 2 ^ F.w) :
    Ok (do
      let r := hi ||| ps
      let r ← (if l > F.signMask then addC r 1#F.w else pure r)
      if l = F.signMask then addC r (r &&& 1#F.w) else pure r)
    (fun r => F.sign r = t ∧ F.IsRNEu X (F.mag r)) := by
  have he := F.he; have hs := F.hs
  have hinfl := F.infRep_lt
  have hpw := F.pw
  have hpes := F.pes
  have hres := F.toNat_or_sign' (x := hi) (t := t) (by rw [hhi]; omega) hps
  rw [hhi] at hres
  refine (F.mulRound_spec (r := hi ||| ps) (l := l) ?_).mono ?_
  · rw [hres]
    have : 2 ^ F.w = 2 * 2 ^ (F.e + F.s) := by rw [hpw, hpes]
    split <;> omega
  intro q hq
  rw [hres, hl] at hq
  have hpar : ((if t then 2 ^ (F.e + F.s) else 0) + ((E - 1) * 2 ^ F.s + G / 2 ^ F.w)) % 2 =
      ((E - 1) * 2 ^ F.s + G / 2 ^ F.w) % 2 := by
    have : 2 ^ (F.e + F.s) = 2 * 2 ^ (F.e + F.s - 1) := by
      rw [← Nat.pow_succ']; congr 1; omega
    split <;> omega
  rw [hpar, Nat.add_assoc] at hq
  have hsm := F.sign_mag_of (by split <;> (try split) <;> omega) hq
  refine ⟨hsm.1, ?_⟩
  rw [hsm.2]
  exact F.isRNEu_of_stk h (by show 2 ≤ F.e + F.s + 1; omega) hE hm1 hm0 hn hX rfl

theorem isRNEu_zero {X : ℚ} (h0 : 0 ≤ X) (h1 : X < 1 / 2) : F.IsRNEu X 0 := by
  have := F.ps_le_infRep
  have := F.ps_ge
  have h := F.isRNEu_between (K := ℚ) (x := X) (n := 0) (r := 0) (by omega)
    (by rw [F.valU_zero]; exact_mod_cast h0)
    (by rw [F.valU_small (by rw [F.ps_succ]; omega)]; push_cast; linarith)
    (Or.inl ⟨by rw [F.valU_zero, F.valU_small (by rw [F.ps_succ]; omega)]; push_cast; linarith, rfl⟩)
  exact h

theorem mulFinish_spec {ps hi l : BitVec F.w} {t : Bool} {x : Int} {X : ℚ}
    (hps : ps.toNat = if t then 2 ^ (F.e + F.s) else 0)
    (hx0 : -(2 * F.s + F.bias + 10 : Int) ≤ x) (h0 : 2 ^ F.s ≤ hi.toNat) (h1 : hi.toNat < 2 ^ (F.s + 1))
    (hX : X = ((hi.toNat * 2 ^ F.w + l.toNat : Nat) : ℚ) / 2 ^ F.w * 2 ^ (x - 1)) :
    Ok (F.mulFinish ps x hi l) (fun r => F.sign r = t ∧ F.IsRNEu X (F.mag r)) := by
  have he := F.he; have he' := F.he'; have hs' := F.hs'; have hs := F.hs
  have hpe : 2 ^ F.e ≤ 32768 := F.pe_le
  have hpe' := F.pe_ge
  have hwd : F.w = F.e + F.s + 1 := rfl
  have hps1 := F.ps_ge
  have hp1 := F.ps_succ
  have hsat : (F.expSat : Int) = 2 ^ F.e - 1 := by
    rw [F.expSat_eq, Nat.cast_sub (by omega)]; push_cast; rfl
  have hpw := F.pw
  have hpes := F.pes
  have hinf := F.infRep_add
  have hw0 := Nat.two_pow_pos F.w
  have hll := l.isLt
  have two0 : (2 : ℚ) ≠ 0 := by norm_num
  have hbias := F.pe_bias
  unfold mulFinish
  by_cases hov : x ≥ (F.expSat : Int)
  · rw [if_pos hov]
    refine Ok.pure' ?_
    have hsm := F.sign_mag_of (b := F.expMask ||| ps) (t := t) F.infRep_lt (by
      rw [F.toNat_or_sign' (by rw [F.toNat_expMask]; exact F.infRep_lt) hps, F.toNat_expMask])
    refine ⟨hsm.1, ?_⟩
    rw [hsm.2]
    apply F.isRNEu_overflow
    rw [F.valU_infRep, hX]
    push_cast
    have a1 : (2 : ℚ) ^ F.s ≤ ((hi.toNat : ℚ) * 2 ^ F.w + l.toNat) / 2 ^ F.w := by
      rw [le_div_iff₀ (by positivity)]
      have a : ((2 ^ F.s : Nat) : ℚ) ≤ hi.toNat := by exact_mod_cast h0
      push_cast at a
      have b : (0 : ℚ) ≤ l.toNat := Nat.cast_nonneg _
      have : (2 : ℚ) ^ F.s * 2 ^ F.w ≤ hi.toNat * 2 ^ F.w := mul_le_mul_of_nonneg_right a (by positivity)
      linarith
    have a2 : (2 : ℚ) ^ (2 ^ F.e - 2) ≤ 2 ^ (x - 1) := by
      rw [← zpow_natCast]
      apply zpow_le_zpow_right₀ (by norm_num)
      rw [Nat.cast_sub (by omega)]; push_cast; omega
    exact mul_le_mul a1 a2 (by positivity) (by positivity)
  rw [if_neg hov]
  by_cases hx : x ≤ 0
  · simp only [hx, if_true]
    obtain ⟨k, hk⟩ : ∃ k : Nat, x = 1 - (k : Int) := ⟨(1 - x).toNat, by omega⟩
    have hk1 : 1 ≤ k := by omega
    have hkX : X = ((hi.toNat * 2 ^ F.w + l.toNat : Nat) : ℚ) / 2 ^ k / 2 ^ F.w * 2 ^ (1 - 1) := by
      have : x - 1 = -(k : ℤ) := by omega
      rw [hX, this, zpow_neg, zpow_natCast]
      simp only [Nat.sub_self, pow_zero]
      field_simp
    have hkw : k < 2 ^ F.w := by
      have : 2 ^ (F.e + F.s) = 2 ^ F.e * 2 ^ F.s := hpes
      have b : 1024 * (2 * F.bias + 2) ≤ 2 ^ F.e * 2 ^ F.s := by
        rw [← hbias, Nat.mul_comm]; exact Nat.mul_le_mul_left _ hps1
      have := F.bias_ge
      omega
    have hk32 : k < 2 ^ 32 := by omega
    have hsh : (1#F.w - castLossyI F.w x).toNat = k := by
      have e : 1#F.w - castLossyI F.w x = BitVec.ofNat F.w k := by
        unfold castLossyI
        rw [hk]
        apply BitVec.eq_of_toInt_eq
        rw [BitVec.toInt_sub, BitVec.toInt_ofInt]
        simp only [BitVec.toInt_ofNat']
        rw [Int.sub_bmod_bmod, Int.bmod_sub_bmod]
        congr 1
        push_cast
        ring
      rw [e, BitVec.toNat_ofNat, Nat.mod_eq_of_lt hkw]
    refine Ok.bind (P := fun o => (o = none ∧ F.w ≤ k) ∨
      (k < F.w ∧ ∃ hi' l', o = some (hi', l') ∧
        hi'.toNat = stickyShr (hi.toNat * 2 ^ F.w + l.toNat) k / 2 ^ F.w ∧
        l'.toNat = stickyShr (hi.toNat * 2 ^ F.w + l.toNat) k % 2 ^ F.w)) ?_ ?_
    · refine Ok.bind (castToU32_spec (by rw [hsh]; exact hk32)) ?_
      intro sh hsh'
      rw [hsh] at hsh'
      subst hsh'
      by_cases hkw' : sh ≥ F.w
      · rw [if_pos hkw']; exact Ok.pure' (Or.inl ⟨rfl, hkw'⟩)
      rw [if_neg hkw']
      refine Ok.bind (nsubC_spec (by omega)) ?_
      rintro j rfl
      refine Ok.bind (shlC_spec (by omega)) ?_
      intro t1 ht1
      refine Ok.bind (shlC_spec (by omega)) ?_
      intro t2 ht2
      refine Ok.bind (shrC_spec (by omega)) ?_
      intro t3 ht3
      refine Ok.bind (shrC_spec (by omega)) ?_
      intro t4 ht4
      refine Ok.pure' (Or.inr ⟨by omega, _, _, rfl, ?_⟩)
      -- arithmetic
      have eW : 2 ^ F.w = 2 ^ (F.w - sh) * 2 ^ sh := by rw [← Nat.pow_add]; congr 1; omega
      have pk := Nat.two_pow_pos sh
      have pj := Nat.two_pow_pos (F.w - sh)
      have hq : (hi.toNat * 2 ^ F.w + l.toNat) / 2 ^ sh = hi.toNat * 2 ^ (F.w - sh) + l.toNat / 2 ^ sh := by
        rw [eW, ← Nat.mul_assoc, Nat.add_comm, Nat.add_mul_div_right _ _ pk, Nat.add_comm]
      have hr : (hi.toNat * 2 ^ F.w + l.toNat) % 2 ^ sh = l.toNat % 2 ^ sh := by
        rw [eW, ← Nat.mul_assoc, Nat.add_comm, Nat.add_mul_mod_self_right]
      have hst : stickyShr (hi.toNat * 2 ^ F.w + l.toNat) sh =
          hi.toNat / 2 ^ sh * 2 ^ F.w + ((hi.toNat % 2 ^ sh * 2 ^ (F.w - sh) + l.toNat / 2 ^ sh) |||
            (if l.toNat % 2 ^ sh ≠ 0 then 1 else 0)) := by
        unfold stickyShr
        rw [hq, hr]
        have hsplit : hi.toNat * 2 ^ (F.w - sh) + l.toNat / 2 ^ sh =
            (hi.toNat % 2 ^ sh * 2 ^ (F.w - sh) + l.toNat / 2 ^ sh) + hi.toNat / 2 ^ sh * 2 ^ F.w := by
          conv_lhs => rw [← Nat.div_add_mod hi.toNat (2 ^ sh)]
          rw [eW]; ring
        have hsm : hi.toNat % 2 ^ sh * 2 ^ (F.w - sh) + l.toNat / 2 ^ sh < 2 ^ F.w := by
          have a := Nat.mod_lt hi.toNat pk
          have b : l.toNat / 2 ^ sh < 2 ^ (F.w - sh) := Nat.div_lt_of_lt_mul (by rw [Nat.mul_comm, ← eW]; exact hll)
          have c : (hi.toNat % 2 ^ sh + 1) * 2 ^ (F.w - sh) ≤ 2 ^ sh * 2 ^ (F.w - sh) := Nat.mul_le_mul_right _ a
          rw [Nat.add_mul] at c
          rw [eW, Nat.mul_comm (2 ^ (F.w - sh))]
          omega
        rw [hsplit, ← or_eq_add hsm (Dvd.intro_left _ rfl), Nat.or_comm _ (hi.toNat / 2 ^ sh * 2 ^ F.w), Nat.or_assoc]
        rw [Nat.or_comm (hi.toNat / 2 ^ sh * 2 ^ F.w), or_eq_add _ (Dvd.intro_left _ rfl), Nat.add_comm]
        apply Nat.or_lt_two_pow hsm
        split
        · exact Nat.one_lt_two_pow (by omega)
        · exact hw0
      have hstk : (if t1 ≠ 0#F.w then 1#F.w else 0#F.w).toNat = if l.toNat % 2 ^ sh ≠ 0 then 1 else 0 := by
        have e : t1 = 0#F.w ↔ l.toNat % 2 ^ sh = 0 := by
          rw [← BitVec.toNat_inj, ht1, eW, Nat.mul_comm l.toNat, Nat.mul_mod_mul_left]
          simp
        by_cases hz : l.toNat % 2 ^ sh = 0
        · rw [if_neg (by simpa using e.mpr hz), if_neg (by simpa using hz)]; rfl
        · rw [if_pos (fun h => hz (e.mp h)), if_pos hz]; exact F.toNat_one'
      have hlow : ((t2 ||| t3) ||| (if t1 ≠ 0#F.w then 1#F.w else 0#F.w)).toNat =
          ((hi.toNat % 2 ^ sh * 2 ^ (F.w - sh) + l.toNat / 2 ^ sh) |||
            (if l.toNat % 2 ^ sh ≠ 0 then 1 else 0)) := by
        rw [BitVec.toNat_or, hstk, BitVec.toNat_or, ht2, ht3]
        congr 1
        have e2 : hi.toNat * 2 ^ (F.w - sh) % 2 ^ F.w = hi.toNat % 2 ^ sh * 2 ^ (F.w - sh) := by
          rw [eW, Nat.mul_comm hi.toNat, Nat.mul_mod_mul_left, Nat.mul_comm]
        rw [e2, Nat.or_comm, or_eq_add (k := F.w - sh) _ (Dvd.intro_left _ rfl), Nat.add_comm]
        exact Nat.div_lt_of_lt_mul (by rw [Nat.mul_comm, ← eW]; exact hll)
      have hlt2 := ((t2 ||| t3) ||| (if t1 ≠ 0#F.w then 1#F.w else 0#F.w)).isLt
      rw [hst, ← hlow, ht4]
      constructor
      · rw [Nat.add_comm, Nat.add_mul_div_right _ _ hw0, Nat.div_eq_of_lt hlt2, Nat.zero_add]
      · rw [Nat.add_comm, Nat.add_mul_mod_self_right, Nat.mod_eq_of_lt hlt2]
    rintro o (⟨rfl, hkw'⟩ | ⟨hkw', hi', l', rfl, hhi', hl'⟩)
    · dsimp only
      refine Ok.pure' ?_
      have hsm := F.sign_mag_of (b := ps) (t := t) (n := 0) (Nat.two_pow_pos _) (by rw [hps]; rfl)
      refine ⟨hsm.1, ?_⟩
      rw [hsm.2]
      have hXn : 0 ≤ X := by rw [hX]; positivity
      refine F.isRNEu_zero hXn ?_
      rw [hkX]
      simp only [Nat.sub_self, pow_zero, mul_one]
      rw [div_lt_iff₀ (by positivity), div_lt_iff₀ (by positivity)]
      have a : hi.toNat * 2 ^ F.w + l.toNat < 2 ^ (F.s + 1) * 2 ^ F.w := by
        have := Nat.mul_le_mul_right (2 ^ F.w) (show hi.toNat + 1 ≤ 2 ^ (F.s + 1) from h1)
        rw [Nat.add_mul] at this; omega
      have b : 2 * 2 ^ (F.s + 1) ≤ 2 ^ k := by
        rw [← Nat.pow_succ']; exact two_pow_le (by omega)
      have c := Nat.mul_le_mul_right (2 ^ F.w) b
      have d : 2 * (hi.toNat * 2 ^ F.w + l.toNat) < 2 ^ k * 2 ^ F.w := by
        rw [Nat.mul_assoc] at c; omega
      have : ((2 * (hi.toNat * 2 ^ F.w + l.toNat) : Nat) : ℚ) < ((2 ^ k * 2 ^ F.w : Nat) : ℚ) := by exact_mod_cast d
      push_cast at this ⊢
      linarith
    · dsimp only
      have hG := (Stk.exact (hi.toNat * 2 ^ F.w + l.toNat)).shr k
      have hsb : stickyShr (hi.toNat * 2 ^ F.w + l.toNat) k / 2 ^ F.w ≤ 2 ^ F.s := by
        have a : hi.toNat * 2 ^ F.w + l.toNat < 2 ^ (F.s + 1) * 2 ^ F.w := by
          have := Nat.mul_le_mul_right (2 ^ F.w) (show hi.toNat + 1 ≤ 2 ^ (F.s + 1) from h1)
          rw [Nat.add_mul] at this; omega
        have b : (hi.toNat * 2 ^ F.w + l.toNat) / 2 ^ k < 2 ^ F.s * 2 ^ F.w := by
          rw [Nat.div_lt_iff_lt_mul (Nat.two_pow_pos _)]
          have c : 2 ^ 1 ≤ 2 ^ k := two_pow_le hk1
          have := Nat.mul_le_mul_left (2 ^ F.s * 2 ^ F.w) c
          have e : 2 ^ (F.s + 1) * 2 ^ F.w = 2 ^ F.s * 2 ^ F.w * 2 ^ 1 := by rw [hp1]; ring
          omega
        rw [← hhi']
        have : stickyShr (hi.toNat * 2 ^ F.w + l.toNat) k ≤ 2 ^ F.s * 2 ^ F.w := by
          rw [stickyShr_eq]; split <;> omega
        rw [hhi']
        exact Nat.div_le_of_le_mul (by rw [Nat.mul_comm (2 ^ F.w)]; exact this)
      refine F.mulPack_spec (E := 1) hps hG (le_refl _) (by omega) (Or.inr rfl) ?_ hkX ?_ hl'
      · have := F.infRep_eq
        have : 2 ^ F.s < F.infRep := by
          have h3 : 31 * 2 ^ F.s ≤ (2 ^ F.e - 1) * 2 ^ F.s := Nat.mul_le_mul_right _ (by omega)
          unfold infRep; omega
        omega
      · rw [hhi']; simp
  · simp only [hx, if_false]
    obtain ⟨E, hE⟩ : ∃ E : Nat, x = E := ⟨x.toNat, by omega⟩
    have hE1 : 1 ≤ E := by omega
    have hE2 : E < 2 ^ F.e - 1 := by
      have : (E : Int) < F.expSat := by omega
      rw [F.expSat_eq] at this
      exact_mod_cast this
    have hEw : E < 2 ^ F.w := by
      have : 2 ^ F.e ≤ 2 ^ F.w := two_pow_le (by omega)
      omega
    have hEs : E * 2 ^ F.s + 2 ^ F.s ≤ F.infRep := by
      unfold infRep
      calc E * 2 ^ F.s + 2 ^ F.s = (E + 1) * 2 ^ F.s := by ring
        _ ≤ _ := Nat.mul_le_mul_right _ (by omega)
    have hEm : (E - 1) * 2 ^ F.s + hi.toNat = E * 2 ^ F.s + (hi.toNat - 2 ^ F.s) := by
      obtain ⟨j, rfl⟩ : ∃ j, E = j + 1 := ⟨E - 1, by omega⟩
      rw [Nat.add_sub_cancel, Nat.succ_mul]; omega
    have hd : (hi.toNat * 2 ^ F.w + l.toNat) / 2 ^ F.w = hi.toNat := by
      rw [Nat.add_comm, Nat.add_mul_div_right _ _ hw0, Nat.div_eq_of_lt hll, Nat.zero_add]
    have hm : (hi.toNat * 2 ^ F.w + l.toNat) % 2 ^ F.w = l.toNat := by
      rw [Nat.add_comm, Nat.add_mul_mod_self_right, Nat.mod_eq_of_lt hll]
    refine Ok.bind (P := fun o => ∃ hi', o = some (hi', l) ∧ hi'.toNat = (E - 1) * 2 ^ F.s + hi.toNat) ?_ ?_
    · refine Ok.bind (castI_spec (w := F.w) ⟨by omega, by rw [hE]; exact_mod_cast hEw⟩) ?_
      intro ex hex0
      have hex0' : ex.toNat = E := by omega
      refine Ok.bind (shlC_spec (by omega)) ?_
      intro ex' hex1
      rw [hex0', Nat.mod_eq_of_lt (by omega)] at hex1
      refine Ok.pure' ⟨_, rfl, ?_⟩
      rw [BitVec.toNat_or, hex1, F.toNat_and_sigMask,
          or_eq_add (k := F.s) (Nat.mod_lt _ (by omega)) (Dvd.intro_left _ rfl), hEm,
          Nat.mod_eq_sub_mod h0, Nat.mod_eq_of_lt (by omega), Nat.add_comm]
    rintro _ ⟨hi', rfl, hhi'⟩
    dsimp only
    refine F.mulPack_spec (G := hi.toNat * 2 ^ F.w + l.toNat) (E := E) hps (Stk.exact _) hE1 (by rw [hd]; exact h1)
      (Or.inl (by rw [hd]; exact h0)) (by rw [hd, hEm]; omega) ?_ (by rw [hd]; exact hhi') hm.symm
    rw [hX]
    congr 1
    rw [hE, ← zpow_natCast, Nat.cast_sub hE1]; push_cast; rfl

theorem and_implicit {x : BitVec F.w} (h : x.toNat < 2 ^ (F.s + 1)) :
    x &&& F.implicitBit ≠ 0#F.w ↔ 2 ^ F.s ≤ x.toNat := by
  have hp := F.ps_succ
  have hp0 := F.ps_ge
  rw [ne_eq, ← BitVec.toNat_inj, BitVec.toNat_and, F.toNat_implicitBit, Nat.and_two_pow]
  have ht : x.toNat.testBit F.s = decide (2 ^ F.s ≤ x.toNat) := by
    rw [Nat.testBit_eq_decide_div_mod_eq]
    by_cases hc : 2 ^ F.s ≤ x.toNat
    · have : x.toNat / 2 ^ F.s = 1 := by
        rw [Nat.div_eq_of_lt_le] <;> omega
      rw [this]; simp [hc]
    · rw [Nat.div_eq_of_lt (by omega)]; simp; omega
  rw [ht]
  by_cases hc : 2 ^ F.s ≤ x.toNat
  · simp [hc]
  · simp [hc]

theorem mulCore_spec {O : DOps F.w} (hO : O.Lawful) {ps ea eb sa sb : BitVec F.w} {scale xa xb : Int}
    {t : Bool} {na nb ma mb : Nat}
    (hps : ps.toNat = if t then 2 ^ (F.e + F.s) else 0)
    (hea : ea.toNat < 2 ^ F.e) (heb : eb.toNat < 2 ^ F.e)
    (hx : (ea.toNat : Int) + eb.toNat + scale = xa + xb)
    (hsa : (sa ||| F.implicitBit).toNat = ma) (hsb : (sb ||| F.implicitBit).toNat = mb)
    (hda : F.Dec na xa ma) (hdb : F.Dec nb xb mb) :
    Ok (F.mulCore O ps ea eb sa sb scale) (fun r => F.sign r = t ∧
      F.IsRNEu ((F.valU na : ℚ) * F.valU nb * F.ulp0 ℚ) (F.mag r)) := by
  have he := F.he; have he' := F.he'; have hs' := F.hs'; have hs := F.hs
  have hpe : (2 : Int) ^ F.e ≤ 32768 := by exact_mod_cast F.pe_le
  have hpe2 := F.pe_le
  have hwd : F.w = F.e + F.s + 1 := rfl
  have hps1 := F.ps_ge
  have hp1 := F.ps_succ
  have hpw := F.pw
  have hbias := F.pe_bias
  have two0 : (2 : ℚ) ≠ 0 := by norm_num
  obtain ⟨a0, a1, a2, a3, a4⟩ := hda
  obtain ⟨b0, b1, b2, b3, b4⟩ := hdb
  have hr1 : -2 ^ 31 ≤ xa + xb - F.bias + 1 ∧ xa + xb - (F.bias : Int) + 1 < 2 ^ 31 := by omega
  have hr2 : -(2 * F.s + F.bias + 10 : Int) ≤ xa + xb - F.bias := by omega
  have hr3 : -(2 * F.s + F.bias + 10 : Int) ≤ xa + xb - F.bias + 1 := by omega
  unfold mulCore
  dsimp only
  refine Ok.bind (shlC_spec (by omega)) ?_
  intro b' hb'
  have hW : 2 ^ F.w = 2 ^ (F.s + 1) * 2 ^ F.e := by rw [← Nat.pow_add]; congr 1; omega
  rw [hsb, Nat.mod_eq_of_lt (by rw [hW]; exact Nat.mul_lt_mul_of_pos_right b1 (Nat.two_pow_pos _))] at hb'
  refine Ok.bind (hO.widenMul _ _) ?_
  intro p hp
  rw [hsa, hb'] at hp
  have hval : O.val p = (O.hi p).toNat * 2 ^ F.w + (O.lo p).toNat := rfl
  rw [hval] at hp
  refine Ok.bind (castToI32_spec (by omega)) ?_
  rintro _ rfl
  refine Ok.bind (castToI32_spec (by omega)) ?_
  rintro _ rfl
  have hiw : i32W (i32W (i32W ((ea.toNat : Int) + eb.toNat) + scale) - F.bias) = xa + xb - F.bias := by
    rw [i32W_eq (x := (ea.toNat : Int) + eb.toNat) (by omega), hx, i32W_eq (x := xa + xb) (by omega), i32W_eq (by omega)]
  rw [hiw]
  have hlo := (O.lo p).isLt
  have hlow : 2 ^ F.s * 2 ^ F.s ≤ ma * mb := Nat.mul_le_mul a0 b0
  have hhigh : ma * mb < 2 ^ (F.s + 1) * 2 ^ (F.s + 1) := Nat.mul_lt_mul'' a1 b1
  have hpe0 := Nat.two_pow_pos F.e
  have hPval : ma * (mb * 2 ^ F.e) = ma * mb * 2 ^ F.e := by ring
  rw [hPval] at hp
  have hhi1 : (O.hi p).toNat < 2 ^ (F.s + 1) := by
    have : (O.hi p).toNat * 2 ^ F.w < 2 ^ (F.s + 1) * 2 ^ F.w := by
      calc (O.hi p).toNat * 2 ^ F.w ≤ ma * mb * 2 ^ F.e := by omega
        _ < 2 ^ (F.s + 1) * 2 ^ (F.s + 1) * 2 ^ F.e := Nat.mul_lt_mul_of_pos_right hhigh hpe0
        _ = _ := by rw [hW]; ring
    exact Nat.lt_of_mul_lt_mul_right this
  have hhi0 : 2 ^ (F.s - 1) ≤ (O.hi p).toNat := by
    have e1 : 2 ^ F.s = 2 * 2 ^ (F.s - 1) := by rw [← Nat.pow_succ']; congr 1; omega
    have : 2 ^ (F.s - 1) * 2 ^ F.w < ((O.hi p).toNat + 1) * 2 ^ F.w := by
      calc 2 ^ (F.s - 1) * 2 ^ F.w = 2 ^ F.s * 2 ^ F.s * 2 ^ F.e := by
            rw [hW, hp1]
            generalize hq : 2 ^ (F.s - 1) = q at *
            rw [e1]; ring
        _ ≤ ma * mb * 2 ^ F.e := Nat.mul_le_mul_right _ hlow
        _ < _ := by rw [← hp, Nat.add_mul]; omega
    have := Nat.lt_of_mul_lt_mul_right this
    omega
  have e1 : 2 ^ F.s = 2 * 2 ^ (F.s - 1) := by rw [← Nat.pow_succ']; congr 1; omega
  -- the exact product
  have hXv : (F.valU na : ℚ) * F.valU nb * F.ulp0 ℚ =
      (((O.hi p).toNat * 2 ^ F.w + (O.lo p).toNat : Nat) : ℚ) / 2 ^ F.w * 2 ^ (xa + xb - F.bias) := by
    rw [hp, a4, b4]
    unfold ulp0
    have eWq : (2 : ℚ) ^ F.w = 2 ^ ((F.e : ℤ) + F.s + 1) := by
      rw [← zpow_natCast]; congr 1
    have eE : (2 : ℚ) ^ F.e = 2 ^ (F.e : ℤ) := (zpow_natCast _ _).symm
    push_cast
    rw [eWq, eE, div_eq_mul_inv, ← zpow_neg]
    have : (ma : ℚ) * 2 ^ (xa - 1) * (mb * 2 ^ (xb - 1)) * 2 ^ (1 - (F.bias : ℤ) - F.s) =
      ma * mb * (2 ^ (xa - 1) * 2 ^ (xb - 1) * 2 ^ (1 - (F.bias : ℤ) - F.s)) := by ring
    rw [this]
    have : (ma : ℚ) * mb * 2 ^ (F.e : ℤ) * 2 ^ (-((F.e : ℤ) + F.s + 1)) * 2 ^ (xa + xb - F.bias) =
      ma * mb * (2 ^ (F.e : ℤ) * 2 ^ (-((F.e : ℤ) + F.s + 1)) * 2 ^ (xa + xb - F.bias)) := by ring
    rw [this]
    congr 1
    rw [← zpow_add₀ two0, ← zpow_add₀ two0, ← zpow_add₀ two0, ← zpow_add₀ two0]
    congr 1
    ring
  rw [hXv]
  by_cases hc : O.hi p &&& F.implicitBit ≠ 0#F.w
  · rw [if_pos hc, i32W_eq hr1]
    have hc' := (F.and_implicit hhi1).mp hc
    refine F.mulFinish_spec hps hr3 hc' hhi1 ?_
    congr 2; ring
  · rw [if_neg hc]
    have hc' : (O.hi p).toNat < 2 ^ F.s := by
      by_contra h; exact hc ((F.and_implicit hhi1).mpr (by omega))
    refine Ok.bind (shlC_spec (by omega)) ?_
    intro h hh
    refine Ok.bind (shrC_spec (by omega)) ?_
    intro l hl
    refine Ok.bind (shlC_spec (by omega)) ?_
    intro l' hl'
    have e2 : 2 ^ F.w = 2 * 2 ^ (F.w - 1) := by rw [← Nat.pow_succ']; congr 1
    have hps2 : 2 ^ (F.s + 1) ≤ 2 ^ F.w := two_pow_le (by omega)
    have hl1 : (O.lo p).toNat / 2 ^ (F.w - 1) < 2 := by
      rw [Nat.div_lt_iff_lt_mul (Nat.two_pow_pos _)]; omega
    have hor : (h ||| l).toNat = 2 * (O.hi p).toNat + (O.lo p).toNat / 2 ^ (F.w - 1) := by
      rw [BitVec.toNat_or, hh, hl, Nat.mod_eq_of_lt (by omega), Nat.or_comm,
        or_eq_add (k := 1) hl1 (Dvd.intro_left _ rfl)]
      omega
    have hdm := Nat.div_add_mod (O.lo p).toNat (2 ^ (F.w - 1))
    have hl'' : l'.toNat = 2 * ((O.lo p).toNat % 2 ^ (F.w - 1)) := by
      rw [hl', pow_one, e2, Nat.mul_comm, Nat.mul_mod_mul_left]
    refine F.mulFinish_spec hps hr2 (by omega) (by omega) ?_
    have hG : (h ||| l).toNat * 2 ^ F.w + l'.toNat = 2 * ((O.hi p).toNat * 2 ^ F.w + (O.lo p).toNat) := by
      rw [hor, hl'']
      generalize (O.lo p).toNat / 2 ^ (F.w - 1) = q at *
      generalize (O.lo p).toNat % 2 ^ (F.w - 1) = r at *
      rw [← hdm, e2]; ring
    rw [hG]
    push_cast
    have hz : (2 : ℚ) ^ (xa + xb - F.bias) = 2 * 2 ^ (xa + xb - F.bias - 1) := by
      rw [zpow_sub_one₀ two0]; field_simp
    rw [hz]; ring

theorem mulExp_spec (b : BitVec F.w) : Ok (F.mulExp b) (fun r => r.toNat = F.mag b / 2 ^ F.s) := by
  have he' := F.he'
  have hpe := F.pe_ge
  have hpw : 2 ^ F.e < 2 ^ F.w := Nat.pow_lt_pow_right (by omega) (by show F.e < F.e + F.s + 1; omega)
  unfold mulExp
  refine Ok.bind (castU_spec (w := F.w) (by rw [F.expSat_eq]; omega)) ?_
  intro m hm
  refine Ok.pure' ?_
  rw [BitVec.toNat_and, hm, F.expSat_eq, Nat.and_two_pow_sub_one_eq_mod, BitVec.toNat_ushiftRight,
    Nat.shiftRight_eq_div_pow, F.toNat_div_mod]

/-- the operand is a nonzero finite number: renormalisation yields its decomposition -/
theorem mulNorm_spec {b : BitVec F.w} {scale : Int} (hsc : -2 ^ 20 ≤ scale ∧ scale ≤ 2 ^ 20)
    (h0 : F.mag b ≠ 0) (hf : F.mag b < F.infRep) :
    Ok (F.mulNorm b (b &&& F.sigMask) scale) (fun p => ∃ x m, scale ≤ 2 ^ 20 ∧ p.1 ≤ scale ∧ scale - 200 ≤ p.1 ∧
      ((F.mag b / 2 ^ F.s : Nat) : Int) + p.1 = x + scale ∧
      (p.2 ||| F.implicitBit).toNat = m ∧ F.Dec (F.mag b) x m) := by
  have hs' := F.hs'
  unfold mulNorm
  have hlt : b &&& F.absMask < F.implicitBit ↔ F.mag b < 2 ^ F.s := by
    rw [BitVec.lt_def, F.toNat_and_absMask, F.toNat_implicitBit]
  have hsig : (b &&& F.sigMask).toNat = F.mag b % 2 ^ F.s := by rw [F.toNat_and_sigMask, F.mag_mod]
  have hps := Nat.two_pow_pos F.s
  by_cases hc : F.mag b < 2 ^ F.s
  · simp only [hlt, if_pos hc]
    have hz : F.mag b / 2 ^ F.s = 0 := Nat.div_eq_of_lt hc
    have hm : F.mag b % 2 ^ F.s = F.mag b := Nat.mod_eq_of_lt hc
    refine Ok.bind (F.normalize_spec (by rw [hsig, hm]; omega) (by rw [hsig, hm]; exact hc)) ?_
    rintro ⟨x, g⟩ ⟨k, hk1, hk2, hx, hg, hg0, hg1⟩
    dsimp only at hx hg hg0 hg1 ⊢
    refine Ok.bind (i32C_spec (by omega)) ?_
    rintro _ rfl
    refine Ok.pure' ⟨x, g.toNat, hsc.2, ?_, ?_, ?_, F.or_implicit' hg0 hg1, ?_⟩
    · dsimp only; omega
    · dsimp only; omega
    · rw [hz]; dsimp only; push_cast; ring
    · rw [hx]
      exact F.dec_subnormal hz hk1 hk2 (by rw [hg, hsig]) hg0 hg1
  · simp only [hlt, if_neg hc]
    have hz : F.mag b / 2 ^ F.s ≠ 0 := by
      intro h
      rcases (Nat.div_eq_zero_iff).mp h with h | h <;> omega
    refine Ok.pure' ⟨_, _, hsc.2, le_refl _, ?_, rfl, ?_, F.dec_normal hf hz⟩
    · dsimp only; omega
    · rw [F.or_implicit (by rw [hsig]; exact Nat.mod_lt _ hps), hsig]

theorem sign_xor (a b : BitVec F.w) : F.sign (a ^^^ b) = (F.sign a ^^ F.sign b) := by
  unfold sign; rw [BitVec.msb_xor]

theorem mulSpecial_eq (a b ps : BitVec F.w) : F.mulSpecial a b ps =
    if F.IsNaN a then some (a ||| F.quietBit)
    else if F.IsNaN b then some (b ||| F.quietBit)
    else if F.IsInf a then if F.mag b ≠ 0 then some ((a &&& F.absMask) ||| ps) else some F.qnanRep
    else if F.IsInf b then if F.mag a ≠ 0 then some ((b &&& F.absMask) ||| ps) else some F.qnanRep
    else if F.mag a = 0 then some ps
    else if F.mag b = 0 then some ps
    else none := by
  unfold mulSpecial
  dsimp only
  simp only [F.abs_gt_inf_iff, F.abs_eq_inf_iff, F.abs_eq_zero_iff, ne_eq]

/-- the guard of the special cases -/
theorem mulGuard {ea : BitVec F.w} {n : Nat} (h : ea.toNat = n / 2 ^ F.s) (hn : n < 2 ^ (F.e + F.s))
    {t : BitVec F.w} (ht : t.toNat = 2 ^ F.e - 2) :
    ea - 1#F.w ≥ t ↔ n < 2 ^ F.s ∨ F.infRep ≤ n := by
  have hps := Nat.two_pow_pos F.s
  have hpe := F.pe_ge
  have h1 := F.toNat_one'
  have hlt : n / 2 ^ F.s < 2 ^ F.e := by rw [Nat.div_lt_iff_lt_mul hps, ← F.pes]; exact hn
  have hpw : 2 ^ F.e < 2 ^ F.w := Nat.pow_lt_pow_right (by omega) (by show F.e < F.e + F.s + 1; omega)
  have hz : n < 2 ^ F.s ↔ n / 2 ^ F.s = 0 := by
    constructor
    · exact Nat.div_eq_of_lt
    · intro h; rcases (Nat.div_eq_zero_iff).mp h with h | h <;> omega
  have hi : F.infRep ≤ n ↔ 2 ^ F.e - 1 ≤ n / 2 ^ F.s := by
    unfold infRep; rw [Nat.le_div_iff_mul_le hps]
  rw [hz, hi, ge_iff_le, BitVec.le_def, ht, ← h]
  rw [← h] at hlt
  by_cases hc : ea.toNat = 0
  · have : ea = 0#F.w := BitVec.eq_of_toNat_eq (by rw [hc]; simp)
    rw [BitVec.toNat_sub, h1, hc, Nat.mod_eq_of_lt (by omega)]
    omega
  · rw [BitVec.toNat_sub_of_le (by rw [BitVec.le_def, h1]; omega), h1]
    omega

theorem mul_prefix {O : DOps F.w} (a b : BitVec F.w) {P : BitVec F.w → Prop}
    (h : ∀ ea eb ps : BitVec F.w, ea.toNat = F.mag a / 2 ^ F.s → eb.toNat = F.mag b / 2 ^ F.s →
      (ps.toNat = if (F.sign a ^^ F.sign b) then 2 ^ (F.e + F.s) else 0) →
      Ok (if (F.mag a < 2 ^ F.s ∨ F.infRep ≤ F.mag a) ∨ (F.mag b < 2 ^ F.s ∨ F.infRep ≤ F.mag b) then
        match F.mulSpecial a b ps with
        | some r => pure r
        | none => do
          let (scale, a_sig) ← F.mulNorm a (a &&& F.sigMask) 0
          let (scale, b_sig) ← F.mulNorm b (b &&& F.sigMask) scale
          F.mulCore O ps ea eb a_sig b_sig scale
        else F.mulCore O ps ea eb (a &&& F.sigMask) (b &&& F.sigMask) 0) P) : Ok (F.mul O a b) P := by
  have hpe := F.pe_ge
  have hpw : 2 ^ F.e < 2 ^ F.w := Nat.pow_lt_pow_right (by omega) (by show F.e < F.e + F.s + 1; omega)
  unfold mul
  refine Ok.bind (F.mulExp_spec a) ?_
  intro ea hea
  refine Ok.bind (F.mulExp_spec b) ?_
  intro eb heb
  refine Ok.bind (nsubC_spec (by rw [F.expSat_eq]; omega)) ?_
  rintro _ rfl
  refine Ok.bind (castU_spec (w := F.w) (by rw [F.expSat_eq]; omega)) ?_
  intro t ht
  have ht' : t.toNat = 2 ^ F.e - 2 := by rw [ht, F.expSat_eq]; omega
  simp only [F.mulGuard hea (F.mag_lt a) ht', F.mulGuard heb (F.mag_lt b) ht']
  exact h ea eb _ hea heb (by rw [F.toNat_and_signMask, F.sign_xor])

theorem mul_fin {O : DOps F.w} (hO : O.Lawful) {a b : BitVec F.w} (ha : F.IsFin a) (hb : F.IsFin b) :
    Ok (F.mul O a b) (fun r => F.Rounds (F.val a * F.val b) r ∧ F.sign r = (F.sign a ^^ F.sign b)) := by
  have hu := F.ulp0_pos ℚ
  have ha' : F.mag a < F.infRep := ha
  have hb' : F.mag b < F.infRep := hb
  have h1 : ¬ F.IsNaN a := by unfold IsNaN; omega
  have h2 : ¬ F.IsNaN b := by unfold IsNaN; omega
  have h3 : ¬ F.IsInf a := by unfold IsInf; omega
  have h4 : ¬ F.IsInf b := by unfold IsInf; omega
  have hps0 := F.ps_ge
  apply F.mul_prefix
  intro ea eb ps hea heb hps
  have hlea : ea.toNat < 2 ^ F.e := by rw [hea]; exact F.mag_div_lt a
  have hleb : eb.toNat < 2 ^ F.e := by rw [heb]; exact F.mag_div_lt b
  -- turning the result about units into the statement about values
  have key : ∀ r : BitVec F.w, (F.sign r = (F.sign a ^^ F.sign b) ∧
      F.IsRNEu ((F.valU (F.mag a) : ℚ) * F.valU (F.mag b) * F.ulp0 ℚ) (F.mag r)) →
      F.Rounds (F.val a * F.val b) r ∧ F.sign r = (F.sign a ^^ F.sign b) := by
    rintro r ⟨hr1, hr2⟩
    refine ⟨F.rounds_of (t := F.sign a ^^ F.sign b) (X := (F.valU (F.mag a) : ℚ) * F.valU (F.mag b) * F.ulp0 ℚ)
      (by positivity) ?_ (fun _ => hr1) hr2, hr1⟩
    rw [val, val, F.valK_eq ℚ a, F.valK_eq ℚ b]
    cases F.sign a <;> cases F.sign b <;> simp <;> ring
  by_cases hg : (F.mag a < 2 ^ F.s ∨ F.infRep ≤ F.mag a) ∨ (F.mag b < 2 ^ F.s ∨ F.infRep ≤ F.mag b)
  · rw [if_pos hg, F.mulSpecial_eq, if_neg h1, if_neg h2, if_neg h3, if_neg h4]
    have hzero : (F.valU (F.mag a) : ℚ) * F.valU (F.mag b) * F.ulp0 ℚ = 0 →
        Ok (pure ps : M (BitVec F.w)) (fun r => F.Rounds (F.val a * F.val b) r ∧
          F.sign r = (F.sign a ^^ F.sign b)) := by
      intro hz
      refine Ok.pure' (key _ ?_)
      have hsm := F.sign_mag_of (b := ps) (n := 0) (Nat.two_pow_pos _) (by rw [hps]; rfl)
      refine ⟨hsm.1, ?_⟩
      rw [hsm.2, hz]
      exact F.isRNEu_zero (le_refl _) (by norm_num)
    by_cases hza : F.mag a = 0
    · rw [if_pos hza]
      exact hzero (by rw [hza, F.valU_zero]; simp)
    rw [if_neg hza]
    by_cases hzb : F.mag b = 0
    · rw [if_pos hzb]
      exact hzero (by rw [hzb, F.valU_zero]; simp)
    rw [if_neg hzb]
    dsimp only
    refine Ok.bind (F.mulNorm_spec (scale := 0) (by norm_num) hza ha') ?_
    rintro ⟨sc, sa⟩ ⟨xa, ma, _, hs1, hs2, hsum, hma, hda⟩
    dsimp only at hs1 hs2 hsum hma hda ⊢
    refine Ok.bind (F.mulNorm_spec (scale := sc) (by constructor <;> omega) hzb hb') ?_
    rintro ⟨sc', sb⟩ ⟨xb, mb, _, ht1, ht2, hsum', hmb, hdb⟩
    dsimp only at ht1 ht2 hsum' hmb hdb ⊢
    refine (F.mulCore_spec hO hps hlea hleb ?_ hma hmb hda hdb).mono key
    rw [hea, heb]
    linarith
  · rw [if_neg hg]
    push Not at hg
    obtain ⟨⟨g1, g2⟩, g3, g4⟩ := hg
    have hza : F.mag a / 2 ^ F.s ≠ 0 := by
      intro h; rcases (Nat.div_eq_zero_iff).mp h with h | h <;> omega
    have hzb : F.mag b / 2 ^ F.s ≠ 0 := by
      intro h; rcases (Nat.div_eq_zero_iff).mp h with h | h <;> omega
    have hsa : (a &&& F.sigMask).toNat = F.mag a % 2 ^ F.s := by rw [F.toNat_and_sigMask, F.mag_mod]
    have hsb : (b &&& F.sigMask).toNat = F.mag b % 2 ^ F.s := by rw [F.toNat_and_sigMask, F.mag_mod]
    refine (F.mulCore_spec hO hps hlea hleb ?_ ?_ ?_ (F.dec_normal ha' hza) (F.dec_normal hb' hzb)).mono key
    · rw [hea, heb, add_zero]
    · rw [F.or_implicit (by rw [hsa]; exact Nat.mod_lt _ (by omega)), hsa]
    · rw [F.or_implicit (by rw [hsb]; exact Nat.mod_lt _ (by omega)), hsb]

theorem mul_nan {O : DOps F.w} {a b : BitVec F.w} (h : F.IsNaN a ∨ F.IsNaN b) :
    Ok (F.mul O a b) (fun r => F.IsQNaN r) := by
  have hq : ∀ c : BitVec F.w, F.IsNaN c → F.IsQNaN (c ||| F.quietBit) := fun c hc => F.isQNaN_or_quiet hc
  have hg : (F.mag a < 2 ^ F.s ∨ F.infRep ≤ F.mag a) ∨ (F.mag b < 2 ^ F.s ∨ F.infRep ≤ F.mag b) := by
    unfold IsNaN at h; omega
  apply F.mul_prefix
  intro ea eb ps hea heb hps
  rw [if_pos hg, F.mulSpecial_eq]
  by_cases ha : F.IsNaN a
  · rw [if_pos ha]; exact Ok.pure' (hq a ha)
  · rw [if_neg ha, if_pos (h.resolve_left ha)]; exact Ok.pure' (hq b (h.resolve_left ha))

/-- an infinite operand and no NaN -/
theorem mul_inf {O : DOps F.w} {a b : BitVec F.w} (ha : ¬ F.IsNaN a) (hb : ¬ F.IsNaN b)
    (h : F.IsInf a ∨ F.IsInf b) :
    Ok (F.mul O a b) (fun r => if F.IsZero a ∨ F.IsZero b then F.IsQNaN r
      else F.IsInf r ∧ F.sign r = (F.sign a ^^ F.sign b)) := by
  have hinf0 := F.ps_le_infRep
  have hps0 := F.ps_ge
  have hg : (F.mag a < 2 ^ F.s ∨ F.infRep ≤ F.mag a) ∨ (F.mag b < 2 ^ F.s ∨ F.infRep ≤ F.mag b) := by
    unfold IsInf at h; omega
  apply F.mul_prefix
  intro ea eb ps hea heb hps
  have hpack : ∀ c : BitVec F.w, F.IsInf c → F.IsInf ((c &&& F.absMask) ||| ps) ∧
      F.sign ((c &&& F.absMask) ||| ps) = (F.sign a ^^ F.sign b) := by
    intro c hc
    have hc' : F.mag c = F.infRep := hc
    have := F.sign_mag_of (b := (c &&& F.absMask) ||| ps) (F.mag_lt c) (by
      rw [F.toNat_or_sign' (by rw [F.toNat_and_absMask]; exact F.mag_lt c) hps, F.toNat_and_absMask])
    exact ⟨by unfold IsInf; rw [this.2, hc'], this.1⟩
  rw [if_pos hg, F.mulSpecial_eq, if_neg ha, if_neg hb]
  by_cases hia : F.IsInf a
  · rw [if_pos hia]
    have hna : ¬ F.IsZero a := by unfold IsZero; unfold IsInf at hia; omega
    by_cases hz : F.mag b = 0
    · rw [if_neg (by simpa using hz)]
      refine Ok.pure' ?_
      rw [if_pos (show F.IsZero a ∨ F.IsZero b from Or.inr hz)]; exact F.isQNaN_qnanRep
    · rw [if_pos hz]
      refine Ok.pure' ?_
      rw [if_neg (by rintro (h | h); exacts [hna h, hz h])]
      exact hpack a hia
  · have hib := h.resolve_left hia
    rw [if_neg hia, if_pos hib]
    have hnb : ¬ F.IsZero b := by unfold IsZero; unfold IsInf at hib; omega
    by_cases hz : F.mag a = 0
    · rw [if_neg (by simpa using hz)]
      refine Ok.pure' ?_
      rw [if_pos (show F.IsZero a ∨ F.IsZero b from Or.inl hz)]; exact F.isQNaN_qnanRep
    · rw [if_pos hz]
      refine Ok.pure' ?_
      rw [if_neg (by rintro (h | h); exacts [hz h, hnb h])]
      exact hpack b hib

end Fmt
end Verif
