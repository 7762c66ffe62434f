import Verif.Props.LibmHex
import Verif.Libm.HexFmtProofs
/-!
# C56: formatting a float as hexadecimal text and parsing it back

The texts are those of `Hex(x)` (`fmt_any_hex`). The specification of literals and their values is
`Verif/Libm/HexSpec.lean`, shared with C48.
-/
namespace Verif.Props
open HexSpec

/-- rounding a number of the format is exact in every direction -/
theorem rounds_exact_dir {e s m n : Nat} {dir : Dir} {x : ℚ} (h : HexSpec.Rounds e s dir x n) (hm : m < inf e s)
    (hx : HexSpec.mag e s m = x) : n = m := by
  have mono : ∀ a b, a < b → HexSpec.mag e s a < HexSpec.mag e s b := by
    intro a b hab
    rw [mag_eq, mag_eq]
    have := U_lt_iff (s := s).mpr hab
    exact mul_lt_mul_of_pos_right (by exact_mod_cast this) (unit_pos e s)
  cases dir with
  | nearest => exact rounds_exact h hm hx
  | down =>
    obtain ⟨_, h2, h3⟩ := h
    have := h3 m hm (le_of_eq hx)
    by_contra hne
    have := mono m n (by omega)
    linarith
  | up =>
    obtain ⟨_, h2, h3⟩ := h
    by_contra hne
    rcases Nat.lt_or_ge n m with hlt | hge
    · have h4 := h2 (by omega)
      have := mono n m hlt
      linarith
    · have := h3 m (by omega)
      linarith

theorem cfg_fmt (F : Fmt) : 1 ≤ F.s ∧ ¬ (F.s > 119 ∨ F.w > 128 ∨ F.w < F.s + 3 ∨ F.w > F.s + 30) := by
  have h1 := F.he; have h2 := F.he'; have h3 := F.hs; have h4 := F.hs'
  have hw : F.w = F.e + F.s + 1 := rfl
  omega

theorem fits_fmt (F : Fmt) {n : Nat} (hn : n < F.infRep) : FitsU128 F.e F.s (HexSpec.mag F.e F.s n) := by
  right
  have he' := F.he'; have hs' := F.hs'; have he := F.he
  rw [mag_eq]
  refine mul_lt_mul_of_pos_right ?_ (unit_pos _ _)
  have h1 : U F.s n < U F.s (inf F.e F.s) := U_lt_iff.mpr hn
  rw [U_inf (by omega), ← Nat.pow_add] at h1
  have h2 : 2 ^ (F.s + (2 ^ F.e - 2)) ≤ 2 ^ (F.s + 2 ^ (128 - F.s)) := by
    apply Nat.pow_le_pow_right (by omega)
    have : 2 ^ F.e ≤ 2 ^ (128 - F.s) := Nat.pow_le_pow_right (by omega) (by omega)
    have := Nat.two_pow_pos F.e
    omega
  exact_mod_cast lt_of_lt_of_le h1 h2

/-- C56: for every bit pattern the formatter writes some text; it never panics. -/
theorem C56_total (F : Fmt) (mips : Bool) (x : BitVec F.w) : ∃ t, F.fmtAnyHex mips x = .ok t := by
  rcases Nat.lt_trichotomy (F.mag x) F.infRep with h | h | h
  · obtain ⟨t, ht, _⟩ := Fmt.fmt_fin mips h
    exact ⟨t, ht⟩
  · exact ⟨_, Fmt.fmt_inf mips h⟩
  · exact ⟨_, Fmt.fmt_nan mips h⟩

/-- C56: the text of a finite number is its sign and a hexadecimal literal of exactly its value. -/
theorem C56_literal (F : Fmt) (mips : Bool) {x : BitVec F.w} (hx : F.IsFin x) {text : List HByte}
    (h : F.fmtAnyHex mips x = .ok text) :
    ∃ g neg t l, text = g ++ t ∧ IsSign g neg ∧ IsLit t l ∧ F.sign x = neg ∧
      F.val x = (if neg then -1 else 1) * l.value := by
  obtain ⟨r, hr, g, t, l, h1, h2, h3, h4, _⟩ := Fmt.fmt_fin mips hx
  rw [h] at hr
  injection hr with hr
  refine ⟨g, F.sign x, t, l, by rw [hr]; exact h1, h2, h3, rfl, ?_⟩
  rw [h4, mag_fmt]
  rfl

theorem toNat_ext {F : Fmt} (x : BitVec F.w) : (x.setWidth 128).toNat =
    F.mag x + (if F.sign x then 2 ^ (F.w - 1) else 0) := by
  have hw : F.w ≤ 128 := by
    have h2 := F.he'; have h4 := F.hs'
    show F.e + F.s + 1 ≤ 128; omega
  rw [BitVec.toNat_setWidth, Nat.mod_eq_of_lt (lt_of_lt_of_le x.isLt (Nat.pow_le_pow_right (by omega) hw)), F.toNat_eq x,
    Nat.add_comm]
  rfl

/-- C56, round trip: for every number of the format, subnormals, zeros of both signs and infinities included, and every
rounding mode, parsing the text of the number gives the number back, bit for bit, without any status flag. -/
theorem C56_roundtrip (F : Fmt) (mips : Bool) {x : BitVec F.w} (hx : ¬ F.IsNaN x) (round : Round) {text : List HByte}
    (h : F.fmtAnyHex mips x = .ok text) :
    parseAny text F.w F.s round = .ok (.ok (x.setWidth 128, Status.OK)) := by
  obtain ⟨hs1, hc⟩ := cfg_fmt F
  have hes : F.w - F.s - 1 = F.e := by unfold Fmt.w; omega
  have hw1 : F.w - 1 = F.e + F.s := by unfold Fmt.w; omega
  by_cases hf : F.IsFin x
  · obtain ⟨r, hr, g, t, l, h1, h2, h3, h4, h5, h6, h7⟩ := Fmt.fmt_fin mips hf
    rw [h] at hr
    injection hr with hr
    subst hr h1
    obtain ⟨b, st, hb⟩ := C48_accepts_partial round hs1 hc h2 h3 (by omega) (by constructor <;> omega)
    have hfits : FitsU128 (F.w - F.s - 1) F.s l.value := by rw [hes, h4]; exact fits_fmt F hf
    obtain ⟨_, _, n, hn, q1, q2, q3⟩ := parsed_lit h2 h3 hfits hb
    rw [hes] at q2 q3
    have hm : F.mag x < inf F.e F.s := hf
    have hnm := rounds_exact_dir q2 hm h4.symm
    subst hnm
    rw [hb]
    have e1 : b = x.setWidth 128 := by
      apply BitVec.eq_of_toNat_eq
      rw [q1, toNat_ext]
    have e2 : st = Status.OK := q3.trans (flags_zero.mpr ⟨hm, h4.symm⟩)
    rw [e1, e2]
  · have hi : F.IsInf x := by unfold Fmt.IsNaN Fmt.IsFin at *; unfold Fmt.IsInf; omega
    rw [Fmt.fmt_inf mips hi] at h
    injection h with h
    subst h
    have ok : ∃ r, parseAny ((if F.sign x then fmtStr "-" else fmtStr "+") ++ fmtStr "inf") F.w F.s round = .ok r ∧
        ((∃ y, r = .ok y) ↔ IsFloatText ((if F.sign x then fmtStr "-" else fmtStr "+") ++ fmtStr "inf")) := by
      apply C48_parse_total_partial round hs1 hc
      · cases F.sign x <;> decide
      · intro pre p rest he hp
        have := congrArg List.length he
        have hl : ((if F.sign x then fmtStr "-" else fmtStr "+") ++ fmtStr "inf").length = 4 := by
          cases F.sign x <;> rfl
        simp only [hl, List.length_append, List.length_cons] at this
        omega
    have hinf : IsInfText (fmtStr "inf") := ⟨hch 'i', hch 'n', hch 'f', rfl, by decide, by decide, by decide⟩
    obtain ⟨r, hr, hiff⟩ := ok
    obtain ⟨⟨b, st⟩, rfl⟩ := hiff.mpr ⟨_, F.sign x, fmtStr "inf", rfl, Fmt.signText x, Or.inl hinf⟩
    obtain ⟨c, e⟩ := cfg_of hs1 hc
    rw [hr]
    have hp : parseAny ((if F.sign x then fmtStr "-" else fmtStr "+") ++ fmtStr "inf") (F.w - F.s - 1 + F.s + 1) F.s round =
        .ok (.ok (b, st)) := by rw [e]; exact hr
    have hfits : Fits (F.w - F.s - 1) F.s ((if F.sign x then fmtStr "-" else fmtStr "+") ++ fmtStr "inf") := by
      intro g neg t l he hg hl
      obtain ⟨_, q, _, q4, _⟩ := C48_unambiguous (Fmt.signText x) hg (Or.inl hinf) (Or.inr (Or.inr ⟨l, hl⟩)) he
      exact absurd hinf (by rw [q] at q4 ⊢; exact (q4 l hl).1)
    obtain ⟨g, neg, t, n, he, hg, hn, hbn, hres⟩ := parsed_of c hfits hp
    have hgram : IsInfText t ∨ IsNanText t ∨ ∃ l, IsLit t l := by
      rcases hres with ⟨h, _⟩ | ⟨h, _⟩ | ⟨l', h, _⟩
      · exact Or.inl h
      · exact Or.inr (Or.inl h)
      · exact Or.inr (Or.inr ⟨l', h⟩)
    obtain ⟨q1, q2, q3, q4, _⟩ := C48_unambiguous (Fmt.signText x) hg (Or.inl hinf) hgram he
    rcases hres with ⟨_, h2, h3⟩ | ⟨h1, _⟩ | ⟨l, h1, _⟩
    · have e1 : b = x.setWidth 128 := by
        apply BitVec.eq_of_toNat_eq
        rw [hbn, toNat_ext, h2, ← q1, hes, hw1]
        unfold Fmt.IsInf at hi
        rw [hi]; rfl
      have e2 : st = Status.OK := h3
      rw [e1, e2]
    · exact absurd ⟨hinf, by rw [q2]; exact h1⟩ q3
    · exact absurd hinf (q4 l (by rw [q2]; exact h1)).1

/-- C56: the macros and constant functions (`hf16!`, `hf32!`, …, through `parse_hex_exact`) accept the text of every
number and return the number. -/
theorem C56_exact (F : Fmt) (mips : Bool) {x : BitVec F.w} (hx : ¬ F.IsNaN x) {text : List HByte}
    (h : F.fmtAnyHex mips x = .ok text) : parseHexExact text F.w F.s = .ok (.ok (x.setWidth 128)) := by
  unfold parseHexExact
  rw [C56_roundtrip F mips hx .nearest h]
  rfl

/-- C56: the text of a NaN shows its sign, whether it is quiet, and its payload in hexadecimal, padded to the width of
the significand. The quiet bit is set in quiet NaNs, on MIPS in signalling ones. -/
theorem C56_nan (F : Fmt) (mips : Bool) {x : BitVec F.w} (hx : F.IsNaN x) {text : List HByte}
    (h : F.fmtAnyHex mips x = .ok text) :
    ∃ g D ds, text = g ++ (if x.getLsbD (F.s - 1) = !mips then bytes "qNaN" else bytes "sNaN") ++ bytes "(0x" ++ D ++ bytes ")" ∧
      IsSign g (F.sign x) ∧ List.Forall₂ IsHexDigit D ds ∧ ds.length = (F.s + 3) / 4 ∧
      ofDigits 16 ds = F.mag x % 2 ^ (F.s - 1) := by
  have hs := F.hs
  rw [Fmt.fmt_nan mips hx] at h
  injection h with h
  refine ⟨_, _, _, ?_, Fmt.signText x, map_hex (hexPad_lt _ _), hexPad_len (by omega) ?_, hexPad_value _ _⟩
  · rw [← h]
    have hb : x.getLsbD (F.s - 1) = decide (F.mag x / 2 ^ (F.s - 1) % 2 = 1) := by
      rw [← BitVec.testBit_toNat, ← Nat.testBit_eq_decide_div_mod_eq]
      unfold Fmt.mag
      rw [Nat.testBit_mod_two_pow]
      simp only [show F.s - 1 < F.e + F.s by omega, decide_true, Bool.true_and]
    rw [hb]
    rcases Nat.mod_two_eq_zero_or_one (F.mag x / 2 ^ (F.s - 1)) with h0 | h0 <;> rw [h0] <;> cases mips <;> rfl
  · calc F.mag x % 2 ^ (F.s - 1) < 2 ^ (F.s - 1) := Nat.mod_lt _ (Nat.two_pow_pos _)
      _ ≤ 2 ^ (4 * ((F.s + 3) / 4)) := Nat.pow_le_pow_right (by omega) (by omega)
      _ = 16 ^ ((F.s + 3) / 4) := by rw [Nat.pow_mul]

theorem not_nan_of_text {F : Fmt} {mips : Bool} {x y : BitVec F.w} {text : List HByte} (hx : ¬ F.IsNaN x)
    (h : F.fmtAnyHex mips x = .ok text) (hy : F.fmtAnyHex mips y = .ok text) : ¬ F.IsNaN y := by
  intro hn
  rw [Fmt.fmt_nan mips hn] at hy
  injection hy with hy
  obtain ⟨hs1, hc⟩ := cfg_fmt F
  obtain ⟨c, e⟩ := cfg_of hs1 hc
  have hp := C56_roundtrip F mips hx .nearest h
  obtain ⟨_, _, _, h3⟩ := parseAny_part c text .nearest _ (by rw [e]; exact hp) _ _ rfl
  have ht : ∃ a b rest, dropSign text = b :: rest ∧ text = a :: b :: rest ∧ (b = hch 'q' ∨ b = hch 's') := by
    rw [← hy]
    generalize (if mips then 0 else 1) = m
    by_cases hm : F.mag y / 2 ^ (F.s - 1) % 2 = m <;> simp only [hm, if_true, if_false] <;> cases F.sign y <;> first
      | exact ⟨_, _, _, rfl, rfl, Or.inl rfl⟩
      | exact ⟨_, _, _, rfl, rfl, Or.inr rfl⟩
  obtain ⟨_, b, rest, hd, _, hb⟩ := ht
  rw [hd] at h3
  rcases h3 with ⟨⟨b', _, _, e1, e2, _⟩, _⟩ | ⟨⟨b', _, _, e1, e2, _⟩, _⟩ | ⟨l, hl, _⟩
  · injection e1 with e1
    subst e1
    rcases hb with rfl | rfl <;> exact absurd e2 (by decide)
  · injection e1 with e1
    subst e1
    rcases hb with rfl | rfl <;> exact absurd e2 (by decide)
  · obtain ⟨_, _, e1, _⟩ := isLit_iff.mp hl
    injection e1 with e1
    subst e1
    rcases hb with hb | hb <;> exact absurd hb (by decide)

/-- C56: different bit patterns have different texts, NaNs included. -/
theorem C56_injective (F : Fmt) (mips : Bool) {x y : BitVec F.w} {text : List HByte}
    (hx : F.fmtAnyHex mips x = .ok text) (hy : F.fmtAnyHex mips y = .ok text) : x = y := by
  have hw : F.w ≤ 128 := by
    have h2 := F.he'; have h4 := F.hs'
    show F.e + F.s + 1 ≤ 128; omega
  by_cases hn : F.IsNaN x
  · have hny : F.IsNaN y := by
      by_contra hny
      exact not_nan_of_text hny hy hx hn
    have hs := F.hs
    rw [Fmt.fmt_nan mips hn] at hx
    rw [Fmt.fmt_nan mips hny, ← hx] at hy
    injection hy with hy
    have hlen : ∀ z : BitVec F.w, ((if F.sign z then fmtStr "-" else fmtStr "+")).length = 1 := by
      intro z; split <;> rfl
    have hlen2 : ∀ z : BitVec F.w, (if F.mag z / 2 ^ (F.s - 1) % 2 = (if mips then 0 else 1) then fmtStr "qNaN"
        else fmtStr "sNaN").length = 4 := by
      intro z; generalize (if mips then 0 else 1) = m; split <;> rfl
    have pl : ∀ z : BitVec F.w, F.mag z % 2 ^ (F.s - 1) < 16 ^ ((F.s + 3) / 4) := by
      intro z
      calc F.mag z % 2 ^ (F.s - 1) < 2 ^ (F.s - 1) := Nat.mod_lt _ (Nat.two_pow_pos _)
        _ ≤ 2 ^ (4 * ((F.s + 3) / 4)) := Nat.pow_le_pow_right (by omega) (by omega)
        _ = 16 ^ ((F.s + 3) / 4) := by rw [Nat.pow_mul]
    obtain ⟨h1, _⟩ := List.append_inj' hy rfl
    obtain ⟨h2, h3⟩ := List.append_inj h1 (by simp only [List.length_append, hlen, hlen2])
    obtain ⟨h4, _⟩ := List.append_inj' h2 rfl
    obtain ⟨h5, h6⟩ := List.append_inj h4 (by simp only [hlen])
    have hpay := congrArg (ofDigits 16) (map_digitCh_inj (hexPad_lt _ _) (hexPad_lt _ _) h3)
    rw [hexPad_value, hexPad_value] at hpay
    refine F.ext_sign_mag ?_ ?_
    · revert h5
      cases F.sign x <;> cases F.sign y <;> decide
    · have hq : F.mag x / 2 ^ (F.s - 1) % 2 = F.mag y / 2 ^ (F.s - 1) % 2 := by
        revert h6
        rcases Nat.mod_two_eq_zero_or_one (F.mag x / 2 ^ (F.s - 1)) with a | a <;>
          rcases Nat.mod_two_eq_zero_or_one (F.mag y / 2 ^ (F.s - 1)) with b | b <;> rw [a, b] <;> cases mips <;> decide
      have top : ∀ z : BitVec F.w, F.IsNaN z → F.mag z / 2 ^ (F.s - 1) / 2 = 2 ^ F.e - 1 := by
        intro z hz
        rw [Nat.div_div_eq_div_mul, ← Nat.pow_succ, show (F.s - 1).succ = F.s by omega]
        have h1 := F.mag_div_lt z
        have h2 : (2 ^ F.e - 1) ≤ F.mag z / 2 ^ F.s := (Nat.le_div_iff_mul_le (Nat.two_pow_pos _)).mpr (le_of_lt hz)
        omega
      have t1 := top x hn
      have t2 := top y hny
      have : F.mag x / 2 ^ (F.s - 1) = F.mag y / 2 ^ (F.s - 1) := by omega
      rw [← Nat.div_add_mod' (F.mag x) (2 ^ (F.s - 1)), ← Nat.div_add_mod' (F.mag y) (2 ^ (F.s - 1)), this, hpay]
  · have h1 := C56_roundtrip F mips hn .nearest hx
    have h2 := C56_roundtrip F mips (not_nan_of_text hn hx hy) .nearest hy
    rw [h1] at h2
    injection h2 with h2
    injection h2 with h2
    have h3 := congrArg (BitVec.setWidth F.w) (congrArg Prod.fst h2)
    simpa [BitVec.setWidth_setWidth_of_le, hw] using h3

/-! ### examples -/

-- numbers, subnormals, zeros, infinities and NaNs of all formats; also the hypotheses of the theorems above
example : f32.fmtAnyHex false 0xbf400000#32 = .ok (bytes "-0x1.800000p-1") ∧
    f32.fmtAnyHex false 0x00000001#32 = .ok (bytes "+0x0.000002p-126") ∧
    f16.fmtAnyHex false 0x8001#16 = .ok (bytes "-0x0.004p-14") ∧
    f64.fmtAnyHex false 0x8000000000000000#64 = .ok (bytes "-0x0p+0") ∧
    f64.fmtAnyHex false 0x7fefffffffffffff#64 = .ok (bytes "+0x1.fffffffffffffp+1023") ∧
    f128.fmtAnyHex false 0x3fff8000000000000000000000000001#128 = .ok (bytes "+0x1.8000000000000000000000000001p+0") := by
  decide +kernel
example : f64.fmtAnyHex false 0xfff0000000000000#64 = .ok (bytes "-inf") ∧
    f32.fmtAnyHex false 0x7fc00000#32 = .ok (bytes "+qNaN(0x000000)") ∧
    f32.fmtAnyHex true 0x7fc00000#32 = .ok (bytes "+sNaN(0x000000)") ∧
    f32.fmtAnyHex false 0xff800abc#32 = .ok (bytes "-sNaN(0x000abc)") := by
  decide +kernel
example : ¬ f32.IsNaN 0xbf400000#32 ∧ f32.IsFin 0xbf400000#32 ∧ f32.IsNaN 0xff800abc#32 := by
  unfold Fmt.IsNaN Fmt.IsFin; decide
example : parseAny (bytes "-0x1.800000p-1") 32 23 .zero = .ok (.ok (0xbf400000#128, Status.OK)) := by decide +kernel

end Verif.Props
