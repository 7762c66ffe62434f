import Verif.Libm.HexFmt
import Verif.Libm.HexTotal
import Verif.Libm.RoundIntProofs
/-!
# Proofs about hexadecimal float formatting
-/
namespace Verif
open HexSpec

theorem fmtDigits_value {b : Nat} (hb : 2 ≤ b) : ∀ fuel n, n < 2 ^ fuel → ofDigits b (fmtDigits b fuel n) = n := by
  intro fuel
  induction fuel with
  | zero => intro n h; have : n = 0 := by omega
            subst this; rfl
  | succ k ih =>
    intro n h
    unfold fmtDigits
    rw [ofDigits_concat]
    split
    · rename_i h2
      rw [Nat.mod_eq_of_lt h2]; simp [ofDigits]
    · rw [ih (n / b)]
      · exact Nat.div_add_mod' n b
      · have h3 : n / b ≤ n / 2 := Nat.div_le_div_left hb (by omega)
        rw [Nat.pow_succ] at h; omega

theorem fmtDigits_lt {b : Nat} (hb : 2 ≤ b) : ∀ fuel n, ∀ d ∈ fmtDigits b fuel n, d < b := by
  intro fuel
  induction fuel with
  | zero => intro n d h; exact absurd h (by simp [fmtDigits])
  | succ k ih =>
    intro n d h
    unfold fmtDigits at h
    rcases List.mem_append.mp h with h | h
    · split at h
      · exact absurd h (by simp)
      · exact ih _ d h
    · rw [List.mem_singleton.mp h]; exact Nat.mod_lt _ (by omega)

theorem fmtDigits_ne {b : Nat} (fuel n : Nat) : fmtDigits b (fuel + 1) n ≠ [] := by
  unfold fmtDigits; simp

theorem fmtDigits_len {b : Nat} (hb : 2 ≤ b) : ∀ fuel n w, n < b ^ (w + 1) → (fmtDigits b fuel n).length ≤ w + 1 := by
  intro fuel
  induction fuel with
  | zero => intro n w _; simp [fmtDigits]
  | succ k ih =>
    intro n w h
    unfold fmtDigits
    rw [List.length_append]
    split
    · simp
    · rename_i h2
      cases w with
      | zero => rw [Nat.zero_add, Nat.pow_one] at h; omega
      | succ w =>
        have := ih (n / b) w (by
          rw [Nat.div_lt_iff_lt_mul (by omega)]; rw [Nat.pow_succ] at h; exact h)
        simpa using this

theorem ofDigits_zeros (b k : Nat) (ds : List Nat) : ofDigits b (List.replicate k 0 ++ ds) = ofDigits b ds := by
  unfold ofDigits
  rw [List.foldl_append]
  congr 1
  induction k with
  | zero => rfl
  | succ k ih => rw [List.replicate_succ, List.foldl_cons]; simpa using ih

theorem ofDigits_cons (b d : Nat) (ds : List Nat) : ofDigits b ([d] ++ ds) = d * b ^ ds.length + ofDigits b ds := by
  have key : ∀ (ds : List Nat) (a : Nat), ds.foldl (fun a d => a * b + d) a = a * b ^ ds.length + ds.foldl (fun a d => a * b + d) 0 := by
    intro ds
    induction ds with
    | nil => intro a; simp
    | cons c cs ih =>
      intro a
      rw [List.foldl_cons, List.foldl_cons, ih, ih (0 * b + c), List.length_cons, Nat.pow_succ]
      ring
  unfold ofDigits
  rw [List.singleton_append, List.foldl_cons, key]
  simp

theorem log2_bound (n : Nat) : n < 2 ^ (n.log2 + 1) := Nat.lt_log2_self

theorem hexPad_value (w n : Nat) : ofDigits 16 (hexPad w n) = n := by
  unfold hexPad
  rw [ofDigits_zeros, fmtDigits_value (by omega) _ _ (log2_bound n)]

theorem hexPad_lt (w n : Nat) : ∀ d ∈ hexPad w n, d < 16 := by
  intro d h
  unfold hexPad at h
  rcases List.mem_append.mp h with h | h
  · rw [List.eq_of_mem_replicate h]; omega
  · exact fmtDigits_lt (by omega) _ _ d h

theorem hexPad_len {w n : Nat} (hw : 1 ≤ w) (h : n < 16 ^ w) : (hexPad w n).length = w := by
  obtain ⟨k, rfl⟩ : ∃ k, w = k + 1 := ⟨w - 1, by omega⟩
  have := fmtDigits_len (b := 16) (by omega) (n.log2 + 1) n k h
  unfold hexPad
  rw [List.length_append, List.length_replicate]
  omega

theorem digitCh_hex {d : Nat} (h : d < 16) : IsHexDigit (digitCh d) d := by
  left
  revert d
  decide

theorem digitCh_dec {d : Nat} (h : d < 10) : IsDecDigit (digitCh d) d := by
  unfold IsDecDigit
  revert d
  decide

theorem map_hex {ds : List Nat} (h : ∀ d ∈ ds, d < 16) : List.Forall₂ IsHexDigit (ds.map digitCh) ds := by
  induction ds with
  | nil => exact .nil
  | cons d ds ih =>
    exact .cons (digitCh_hex (h d (by simp))) (ih fun d' h' => h d' (by simp [h']))

theorem map_dec {ds : List Nat} (h : ∀ d ∈ ds, d < 10) : List.Forall₂ IsDecDigit (ds.map digitCh) ds := by
  induction ds with
  | nil => exact .nil
  | cons d ds ih =>
    exact .cons (digitCh_dec (h d (by simp))) (ih fun d' h' => h d' (by simp [h']))

theorem map_digitCh_inj {a b : List Nat} (ha : ∀ d ∈ a, d < 16) (hb : ∀ d ∈ b, d < 16)
    (h : a.map digitCh = b.map digitCh) : a = b := by
  have h1 := map_hex ha
  rw [h] at h1
  exact forall2_unique (R := IsHexDigit) (fun h h' => h.unique h') h1 (map_hex hb)

/-- `{n:+}` is a sign and decimal digits of value `n` -/
theorem fmtPlus_spec (n : Int) : ∃ g D ds, fmtPlus n = g ++ D ∧ IsSign g (decide (n < 0)) ∧
    List.Forall₂ IsDecDigit D ds ∧ ds ≠ [] ∧ ofDigits 10 ds = n.natAbs ∧
    (n.natAbs < 100000 → (g ++ D).length ≤ 6) := by
  refine ⟨[if n < 0 then hch '-' else hch '+'], _, _, rfl, ?_,
    map_dec (fmtDigits_lt (by omega) _ _), fmtDigits_ne _ _, fmtDigits_value (by omega) _ _ (log2_bound _), ?_⟩
  swap
  · intro h
    have := fmtDigits_len (b := 10) (by omega) (n.natAbs.log2 + 1) n.natAbs 4 (by omega)
    simp; omega
  by_cases h : n < 0
  · rw [if_pos h, decide_eq_true h]; exact .minus
  · rw [if_neg h, decide_eq_false h]; exact .plus

namespace Fmt
variable {F : Fmt}

theorem isInfinite_iff (x : BitVec F.w) : F.isInfinite x = true ↔ F.IsInf x := by
  unfold isInfinite
  rw [feq_iff]
  have h1 := F.toNat_and_absMask x
  have h2 := F.toNat_expMask
  have h3 := F.mag_lt x
  have h4 := F.infRep_lt
  have m1 : F.mag (x &&& F.absMask) = F.mag x := by
    unfold mag at *; rw [h1]; exact Nat.mod_mod _ _
  have m2 : F.mag F.expMask = F.infRep := by
    unfold mag; rw [h2]; exact Nat.mod_eq_of_lt h4
  have s1 : F.sign (x &&& F.absMask) = false := by
    have := (F.sign_mag_of (b := x &&& F.absMask) (t := false) (n := F.mag x) h3 (by rw [h1]; simp)).1
    exact this
  have s2 : F.sign F.expMask = false := by
    have := (F.sign_mag_of (b := F.expMask) (t := false) (n := F.infRep) h4 (by rw [h2]; simp)).1
    exact this
  have n1 : ¬ F.IsNaN F.expMask := by unfold IsNaN; omega
  unfold IsNaN IsInf smag
  rw [m1, m2, s1, s2]
  constructor
  · rintro ⟨_, _, h⟩
    simpa using h
  · intro h
    refine ⟨by omega, by omega, by simp [h]⟩

theorem feq_zero_iff (x : BitVec F.w) : F.feq x F.zero = true ↔ F.IsZero x := by
  rw [feq_iff]
  have hz := F.sign_mag_of (b := F.zero) (t := false) (n := 0) (Nat.two_pow_pos _) (by simp [zero])
  unfold IsNaN IsZero smag
  rw [hz.1, hz.2]
  have := F.infRep_lt
  have hp := F.pe_ge
  have : 0 < F.infRep := Nat.mul_pos (by omega) (Nat.two_pow_pos _)
  constructor
  · rintro ⟨_, _, h⟩
    split at h <;> simp at h <;> exact h
  · intro h
    refine ⟨by omega, by omega, ?_⟩
    rw [h]; simp

theorem signText (x : BitVec F.w) : IsSign (if F.sign x then fmtStr "-" else fmtStr "+") (F.sign x) := by
  cases F.sign x
  · exact .plus
  · exact .minus

/-- the literal written for a nonzero number -/
theorem lit_spec {n : Int} {lead sig : Nat} {L : List HByte} {w : Nat} (hL : L = fmtStr "0." ∧ lead = 0 ∨ L = fmtStr "1." ∧ lead = 1)
    (hw : 1 ≤ w) (hs : sig < 16 ^ w) (hn : n.natAbs < 2 ^ 16) :
    ∃ l, IsLit (fmtStr "0x" ++ L ++ (hexPad w sig).map digitCh ++ fmtStr "p" ++ fmtPlus n) l ∧
      l.value = ((lead * 16 ^ w + sig : Nat) : ℚ) * 2 ^ (-4 * (w : ℤ)) * 2 ^ n ∧ l.pexp = n ∧
      (fmtStr "0x" ++ L ++ (hexPad w sig).map digitCh ++ fmtStr "p" ++ fmtPlus n).length ≤ w + 11 := by
  obtain ⟨g, D, ds, e1, e2, e3, e4, e5, e6⟩ := fmtPlus_spec n
  have hlen := hexPad_len hw hs
  have hpx : Lit.pexp ⟨[lead], hexPad w sig, decide (n < 0), ds⟩ = n := by
    show (if decide (n < 0) = true then -1 else 1) * (ofDigits 10 ds : ℤ) = n
    rw [e5]
    by_cases h : n < 0
    · rw [if_pos (by simpa using h)]; omega
    · rw [if_neg (by simpa using h)]; omega
  refine ⟨⟨[lead], hexPad w sig, decide (n < 0), ds⟩, ?_, ?_, hpx, ?_⟩
  · rw [e1]
    have hx : ∃ c, L = [c] ++ bytes "." ∧ IsHexDigit c lead := by
      rcases hL with ⟨rfl, rfl⟩ | ⟨rfl, rfl⟩
      · exact ⟨hch '0', rfl, Or.inl rfl⟩
      · exact ⟨hch '1', rfl, Or.inl rfl⟩
    obtain ⟨c, rfl, hc⟩ := hx
    refine ⟨bytes "x", [c], bytes ".", _, bytes "p", g, D, ?_, Or.inl rfl, .cons hc .nil, map_hex (hexPad_lt _ _),
      Or.inl rfl, by simp, Or.inl rfl, e2, e3, e4⟩
    show (bytes "0" ++ bytes "x") ++ _ ++ _ ++ bytes "p" ++ (g ++ D) = _
    simp only [List.append_assoc]
  · show (ofDigits 16 ([lead] ++ hexPad w sig) : ℚ) * 2 ^ (-4 * ((hexPad w sig).length : ℤ)) * 2 ^ Lit.pexp _ = _
    rw [hpx, hlen, ofDigits_cons, hlen, hexPad_value]
  · have h6 := e6 (by omega)
    have h2 : L.length = 2 := by
      rcases hL with ⟨rfl, _⟩ | ⟨rfl, _⟩ <;> rfl
    rw [e1]
    have h0 : (fmtStr "0x").length = 2 := rfl
    have hp : (fmtStr "p").length = 1 := rfl
    simp only [List.length_append, List.length_map] at *
    omega

/-- What is written for a finite number: its sign and a literal of its magnitude. -/
theorem fmt_fin (mips : Bool) {x : BitVec F.w} (hx : F.IsFin x) : Ok (F.fmtAnyHex mips x) (fun out => ∃ g t l,
    out = g ++ t ∧ IsSign g (F.sign x) ∧ IsLit t l ∧ l.value = HexSpec.mag F.e F.s (F.mag x) ∧ t.length ≤ 100 ∧
    -2 ^ 16 < l.pexp ∧ l.pexp < 2 ^ 16) := by
  have hnan : F.isNan x = false := by
    rw [Bool.eq_false_iff, Ne, isNan_iff]; unfold IsNaN IsFin at *; omega
  have hinf : F.isInfinite x = false := by
    rw [Bool.eq_false_iff, Ne, isInfinite_iff]; unfold IsInf IsFin at *; omega
  unfold fmtAnyHex
  simp only [hnan, hinf, Bool.false_eq_true, if_false]
  by_cases hz : F.IsZero x
  · rw [if_pos ((feq_zero_iff x).mpr hz)]
    refine Ok.pure ⟨_, fmtStr "0x0p+0", ⟨[0], [], false, [0]⟩, rfl, signText x, ?_, ?_, by decide, ?_⟩
    · exact ⟨bytes "x", bytes "0", [], [], bytes "p", bytes "+", bytes "0", rfl, Or.inl rfl, .cons (Or.inl rfl) .nil, .nil,
        Or.inr ⟨rfl, rfl⟩, by simp, Or.inl rfl, .plus, .cons rfl .nil, by simp⟩
    · unfold IsZero at hz
      rw [hz]
      simp [Lit.value, HexSpec.mag, ofDigits]
    · simp [Lit.pexp, ofDigits]
  · rw [if_neg (by rw [feq_zero_iff]; exact hz)]
    have hb := F.pe_bias
    have hle := F.pe_le
    have hE := F.mag_isFin_div hx
    have hs := F.hs; have hs' := F.hs'; have he := F.he
    refine Ok.bind (F.expUnbiased_spec x) ?_
    rintro _ rfl
    have hmsh : F.s + (4 - F.s % 4) % 4 = 4 * ((F.s + 3) / 4) := by omega
    generalize (4 - F.s % 4) % 4 = sh at hmsh
    generalize hw : (F.s + 3) / 4 = w at hmsh
    refine Ok.bind (shlC_spec (by show sh < F.e + F.s + 1; omega)) ?_
    intro sig hsig
    rw [toNat_and_sigMask, mag_mod] at hsig
    have hm := Nat.mod_lt (F.mag x) (Nat.two_pow_pos F.s)
    have h16 : 16 ^ w = 2 ^ F.s * 2 ^ sh := by
      rw [← Nat.pow_add, hmsh, Nat.pow_mul]
    have hlt : F.mag x % 2 ^ F.s * 2 ^ sh < 16 ^ w := by
      rw [h16]; exact Nat.mul_lt_mul_of_pos_right hm (Nat.two_pow_pos _)
    rw [Nat.mod_eq_of_lt (lt_of_lt_of_le hlt (by
      rw [h16, ← Nat.pow_add]; exact Nat.pow_le_pow_right (by omega) (by show _ ≤ F.e + F.s + 1; omega)))] at hsig
    refine Ok.bind (i32C_spec (by omega)) ?_
    rintro _ rfl
    rw [← hsig] at hlt
    have hbz : (F.bias : ℤ) = 2 ^ (F.e - 1) - 1 := by
      unfold Fmt.bias
      have : 0 < 2 ^ (F.e - 1) := Nat.two_pow_pos _
      push_cast [this]
      rfl
    have key : ∀ (lead : Nat) (n : ℤ), ((lead * 16 ^ w + sig.toNat : Nat) : ℚ) * 2 ^ (-4 * (w : ℤ)) * 2 ^ n =
        ((lead * 2 ^ F.s + F.mag x % 2 ^ F.s : Nat) : ℚ) * 2 ^ (n - F.s) := by
      intro lead n
      rw [hsig, h16, ← Nat.mul_assoc, ← Nat.add_mul, Nat.cast_mul, mul_assoc, mul_assoc, Nat.cast_pow, Nat.cast_ofNat,
        ← zpow_natCast (2 : ℚ) sh, ← zpow_add₀ (by norm_num), ← zpow_add₀ (by norm_num)]
      congr 2
      omega
    by_cases hsub : F.mag x / 2 ^ F.s = 0
    · rw [hsub]
      simp only [Nat.cast_zero, zero_sub, if_true]
      refine Ok.bind (P := fun p => p = (fmtStr "0.", -(F.bias : ℤ) + 1)) ?_ ?_
      · refine Ok.bind (i32C_spec (by omega)) ?_
        rintro _ rfl
        exact Ok.pure rfl
      rintro _ rfl
      obtain ⟨l, l1, l2, l3, l4⟩ := lit_spec (n := -(F.bias : ℤ) + 1) (Or.inl ⟨rfl, rfl⟩) (w := w) (by omega) hlt (by omega)
      refine Ok.pure ⟨_, _, l, ?_, signText x, l1, ?_, by omega, by omega, by omega⟩
      · simp only [List.append_assoc]
      · rw [l2, key]
        unfold HexSpec.mag unit
        rw [if_pos hsub, hbz, Nat.zero_mul, Nat.zero_add]
        congr 2; ring
    · obtain ⟨q, hq⟩ : ∃ q, F.mag x / 2 ^ F.s = q := ⟨_, rfl⟩
      rw [hq] at hsub hE ⊢
      rw [if_neg (by omega)]
      refine Ok.bind (Ok.pure rfl) ?_
      rintro _ rfl
      obtain ⟨l, l1, l2, l3, l4⟩ := lit_spec (n := (q : Nat) - (F.bias : ℤ)) (Or.inr ⟨rfl, rfl⟩) (w := w)
        (by omega) hlt (by omega)
      refine Ok.pure ⟨_, _, l, ?_, signText x, l1, ?_, by omega, by omega, by omega⟩
      · simp only [List.append_assoc]
      · rw [l2, key]
        unfold HexSpec.mag unit
        rw [hq, if_neg hsub, hbz, Nat.one_mul, Nat.cast_mul, Nat.cast_pow, Nat.cast_ofNat, mul_assoc,
          ← zpow_natCast (2 : ℚ) (q - 1), ← zpow_add₀ (by norm_num)]
        congr 2
        have : ((q - 1 : Nat) : ℤ) = (q : ℤ) - 1 := by omega
        rw [this]; ring

theorem fmt_inf (mips : Bool) {x : BitVec F.w} (hx : F.IsInf x) :
    F.fmtAnyHex mips x = .ok ((if F.sign x then fmtStr "-" else fmtStr "+") ++ fmtStr "inf") := by
  have hnan : F.isNan x = false := by
    rw [Bool.eq_false_iff, Ne, isNan_iff]; unfold IsNaN IsInf at *; omega
  unfold fmtAnyHex
  simp only [hnan, (isInfinite_iff x).mpr hx, Bool.false_eq_true, if_false, if_true]
  rfl

theorem getLsbD_sigMask (i : Nat) : F.sigMask.getLsbD i = decide (i < F.s) := by
  rw [← BitVec.testBit_toNat, toNat_sigMask, Nat.testBit_two_pow_sub_one]
theorem getLsbD_quietBit (i : Nat) : F.quietBit.getLsbD i = decide (F.s - 1 = i) := by
  rw [← BitVec.testBit_toNat, toNat_quietBit, Nat.testBit_two_pow]

/-- the payload written for a NaN -/
theorem payload_spec (x : BitVec F.w) : ((x &&& F.sigMask) &&& ~~~F.quietBit).toNat = F.mag x % 2 ^ (F.s - 1) := by
  have hs := F.hs
  apply Nat.eq_of_testBit_eq
  intro i
  rw [BitVec.testBit_toNat, BitVec.getLsbD_and, BitVec.getLsbD_and, BitVec.getLsbD_not, getLsbD_sigMask, getLsbD_quietBit]
  unfold mag
  rw [Nat.testBit_mod_two_pow, Nat.testBit_mod_two_pow, BitVec.testBit_toNat]
  by_cases h : i < F.s - 1
  · have h1 : i < F.s := by omega
    have h2 : i < F.w := by show i < F.e + F.s + 1; omega
    have h3 : ¬ F.s - 1 = i := by omega
    have h4 : i < F.e + F.s := by omega
    simp [h, h1, h2, h3, h4]
  · by_cases h1 : F.s - 1 = i
    · simp [h1]
    · have h2 : ¬ i < F.s := by omega
      simp [h, h2]

theorem top_spec (x : BitVec F.w) : x &&& F.quietBit = 0#F.w ↔ F.mag x / 2 ^ (F.s - 1) % 2 = 0 := by
  have hs := F.hs
  have h1 : (F.mag x / 2 ^ (F.s - 1) % 2 = 0) ↔ x.getLsbD (F.s - 1) = false := by
    rw [← BitVec.testBit_toNat]
    have : x.toNat.testBit (F.s - 1) = (F.mag x).testBit (F.s - 1) := by
      unfold mag
      rw [Nat.testBit_mod_two_pow]
      simp only [show F.s - 1 < F.e + F.s by omega, decide_true, Bool.true_and]
    rw [this, Nat.testBit_eq_decide_div_mod_eq]
    simp
  rw [h1]
  constructor
  · intro h
    have := congrArg (fun b => b.getLsbD (F.s - 1)) h
    simp only [BitVec.getLsbD_and, getLsbD_quietBit] at this
    simpa using this
  · intro h
    apply BitVec.eq_of_getLsbD_eq
    intro i _
    rw [BitVec.getLsbD_and, getLsbD_quietBit]
    by_cases h1 : F.s - 1 = i
    · subst h1; simp [h]
    · simp [h1]

/-- What is written for a NaN. -/
theorem fmt_nan (mips : Bool) {x : BitVec F.w} (hx : F.IsNaN x) :
    F.fmtAnyHex mips x = .ok ((if F.sign x then fmtStr "-" else fmtStr "+") ++
      (if F.mag x / 2 ^ (F.s - 1) % 2 = (if mips then 0 else 1) then fmtStr "qNaN" else fmtStr "sNaN") ++ fmtStr "(0x" ++
      (hexPad ((F.s + 3) / 4) (F.mag x % 2 ^ (F.s - 1))).map digitCh ++ fmtStr ")") := by
  have hnan := (isNan_iff F x).mpr hx
  have hq : F.isSnan mips x = !decide (F.mag x / 2 ^ (F.s - 1) % 2 = (if mips then 0 else 1)) := by
    unfold isSnan isQnan
    rw [hnan]
    have := top_spec x
    cases mips
    · by_cases h : x &&& F.quietBit = 0#F.w
      · have h2 := this.mp h
        simp [h, h2]
      · have h2 := mt this.mpr h
        have h3 : F.mag x / 2 ^ (F.s - 1) % 2 = 1 := by omega
        simp [h, h3]
    · by_cases h : x &&& F.quietBit = 0#F.w
      · have h2 := this.mp h
        simp [h, h2]
      · have h2 := mt this.mpr h
        simp only [Bool.true_and, Bool.not_true, Bool.false_eq_true, if_false, if_true, h2, decide_false, Bool.not_false]
        simpa using h
  unfold fmtAnyHex
  simp only [hnan, if_true]
  rw [hq, payload_spec, Nat.add_sub_cancel]
  have : fmtStr "(0x" = fmtStr "(" ++ fmtStr "0x" := rfl
  rw [this]
  by_cases h : F.mag x / 2 ^ (F.s - 1) % 2 = (if mips then 0 else 1)
  · simp only [h, decide_true, Bool.not_true, Bool.false_eq_true, if_false, if_true, List.append_assoc]; rfl
  · simp only [h, decide_false, Bool.not_false, if_false, if_true, List.append_assoc]; rfl

end Fmt
end Verif
