import Verif.Libm.HexTotal
import Verif.Float.Spec
/-!
# C48: parsing hexadecimal float literals

The specification (`Verif/Libm/HexSpec.lean`) says which texts are literals, which number each denotes, and what the
rounded result and the status flags are. The claim as written is false in two ways, both shown here: long or huge
exponents make the arithmetic overflow (a panic with overflow checks), and for formats with more than 96 significand
bits numbers of `2^49154` and more (for `f128`) lose the top bits of the exponent. The theorems cover everything else:
for every string, whatever is returned is correct, and strings of moderate length and exponent never panic.
-/
namespace Verif.Props
open HexSpec

/-- What `parse_any` has to return for `text`: the bits `r` and the status `st`. -/
def Parsed (e s : Nat) (text : List (BitVec 8)) (round : Round) (r : Nat) (st : BitVec 8) : Prop :=
  ∃ g neg t n, text = g ++ t ∧ IsSign g neg ∧ n < 2 ^ (e + s) ∧ r = n + (if neg then 2 ^ (e + s) else 0) ∧
    ((IsInfText t ∧ n = inf e s ∧ st = 0#8) ∨
     (IsNanText t ∧ n = inf e s + 2 ^ (s - 1) ∧ st = 0#8) ∨
     ∃ l, IsLit t l ∧ Rounds e s (dirOf neg round) l.value n ∧ st = flags e s (dirOf neg round) l.value n)

/-- `text` is an optionally signed infinity, NaN or literal. -/
def IsFloatText (text : List (BitVec 8)) : Prop :=
  ∃ g neg t, text = g ++ t ∧ IsSign g neg ∧ (IsInfText t ∨ IsNanText t ∨ ∃ l, IsLit t l)

theorem cfg_of {bits s : Nat} (hs : 1 ≤ s)
    (h : ¬ (s > 119 ∨ bits > 128 ∨ bits < s + 3 ∨ bits > s + 30)) :
    HexCfg (bits - s - 1) s ∧ bits - s - 1 + s + 1 = bits :=
  ⟨⟨by omega, by omega, by omega, by omega, by omega⟩, by omega⟩

/-- Line 158 loses no bits of the exponent, if `text` is a literal. -/
def Fits (e s : Nat) (text : List (BitVec 8)) : Prop :=
  ∀ g neg t l, text = g ++ t → IsSign g neg → IsLit t l → FitsU128 e s l.value

/-- the result of a successful run -/
theorem parsed_of {e s : Nat} (c : HexCfg e s) {text : List HByte} {round : Round} {r : BitVec 128} {st : Status}
    (hf : Fits e s text)
    (h : parseAny text (e + s + 1) s round = .ok (.ok (r, st))) : Parsed e s text round r.toNat st := by
  obtain ⟨n, h1, h2, h3⟩ := parseAny_part c text round _ h r st rfl
  obtain ⟨g, hg, ht⟩ := sign_spec text
  refine ⟨g, isNeg text, dropSign text, n, ht, hg, h2, h1, ?_⟩
  rcases h3 with h3 | h3 | ⟨l, h3, h4⟩
  · exact Or.inl h3
  · exact Or.inr (Or.inl h3)
  · exact Or.inr (Or.inr ⟨l, h3, h4 (hf g _ _ l ht hg h3)⟩)

/-- a run that returns a number has a valid configuration -/
theorem cfg_of_ok {text : List HByte} {bits s : Nat} {round : Round} {x : BitVec 128 × Status}
    (h : parseAny text bits s round = .ok (.ok x)) :
    1 ≤ s ∧ s + 3 ≤ bits ∧ HexCfg (bits - s - 1) s ∧ bits - s - 1 + s + 1 = bits := by
  by_cases hc : s > 119 ∨ bits > 128 ∨ bits < s + 3 ∨ bits > s + 30
  · unfold parseAny at h
    rw [if_pos hc] at h
    injection h with h
    exact absurd h (by simp)
  · have hs : 1 ≤ s := by
      by_contra hs
      have hs0 : s = 0 := by omega
      subst hs0
      unfold parseAny at h
      rw [if_neg hc, (nsubC_spec (by omega)).eq] at h
      simp only [ok_bind] at h
      obtain ⟨sb, hsb, _⟩ := shlC_spec (w := 128) (a := 1#128) (n := bits - 1) (by omega)
      rw [hsb] at h
      exact absurd h (by simp [nsubC, ok_bind])
    obtain ⟨c, e⟩ := cfg_of hs hc
    exact ⟨hs, by omega, c, e⟩

/-- C48, for all strings, rounding modes and formats with up to 96 significand bits (so `f16`, `f32`, `f64`): whenever
`parse_any` returns a number, the text is an optionally signed infinity, NaN or hexadecimal literal, the number is the
exact value of the literal rounded in the requested direction, and the status flags are the ones of that rounding. The
literal may have any number of digits and its exponent too. -/
theorem C48_parse_correct {text : List HByte} {bits s : Nat} {round : Round} {r : BitVec 128} {st : Status}
    (h : parseAny text bits s round = .ok (.ok (r, st))) (hs : s ≤ 96) :
    1 ≤ s ∧ s + 3 ≤ bits ∧ Parsed (bits - s - 1) s text round r.toNat st := by
  obtain ⟨h1, h2, c, e⟩ := cfg_of_ok h
  exact ⟨h1, h2, parsed_of c (fun _ _ _ _ _ _ _ => Or.inl hs) (by rw [e]; exact h)⟩

/-- C48 for wider significands (`f128`). Missing: values with an exponent of which line 158 loses bits, for `f128`
those from `2^49154`. There the claim is false (`C48_f128_wraps`). -/
theorem C48_parse_correct_wide_partial {text : List HByte} {bits s : Nat} {round : Round} {r : BitVec 128} {st : Status}
    (h : parseAny text bits s round = .ok (.ok (r, st))) (hf : Fits (bits - s - 1) s text) :
    1 ≤ s ∧ s + 3 ≤ bits ∧ Parsed (bits - s - 1) s text round r.toNat st := by
  obtain ⟨h1, h2, c, e⟩ := cfg_of_ok h
  exact ⟨h1, h2, parsed_of c hf (by rw [e]; exact h)⟩

/-- C48: the grammar is unambiguous, so `Parsed` determines the literal. -/
theorem C48_unambiguous {g g' t t' : List HByte} {neg neg' : Bool} (hg : IsSign g neg) (hg' : IsSign g' neg')
    (ht : IsInfText t ∨ IsNanText t ∨ ∃ l, IsLit t l) (ht' : IsInfText t' ∨ IsNanText t' ∨ ∃ l, IsLit t' l)
    (he : g ++ t = g' ++ t') :
    neg = neg' ∧ t = t' ∧ ¬ (IsInfText t ∧ IsNanText t) ∧ (∀ l, IsLit t l → ¬ IsInfText t ∧ ¬ IsNanText t) ∧
      ∀ l l', IsLit t l → IsLit t' l' → l = l' := by
  obtain ⟨a1, a2⟩ := sign_drop hg (Grammatical.noSign ht)
  obtain ⟨b1, b2⟩ := sign_drop hg' (Grammatical.noSign ht')
  rw [he] at a1 a2
  have hn : neg = neg' := by rw [← a1, b1]
  have htt : t = t' := by rw [← a2, b2]
  subst hn htt
  exact ⟨rfl, rfl, fun h => not_inf_nan h.1 h.2,
    fun l hl => ⟨fun h => not_inf_lit h ⟨l, hl⟩, fun h => not_nan_lit h ⟨l, hl⟩⟩, fun l l' => isLit_unique⟩

/-- C48, panics and rejections. Missing: long texts and long exponents, where the claim is false (`C48_panics`). For
every other string and valid configuration `parse_any` returns without a panic, and it returns a number exactly if the
text is a well-formed float. -/
theorem C48_parse_total_partial {text : List HByte} {bits s : Nat} (round : Round) (hs : 1 ≤ s)
    (hc : ¬ (s > 119 ∨ bits > 128 ∨ bits < s + 3 ∨ bits > s + 30)) (hlen : text.length ≤ 2 ^ 27)
    (hexp : ∀ pre p rest, text = pre ++ p :: rest → (p = hch 'p' ∨ p = hch 'P') → rest.length ≤ 9) :
    ∃ r, parseAny text bits s round = .ok r ∧ ((∃ x, r = .ok x) ↔ IsFloatText text) := by
  obtain ⟨c, e⟩ := cfg_of hs hc
  obtain ⟨g0, hg0, ht0⟩ := sign_spec text
  have hl0 : (dropSign text).length ≤ text.length := by
    conv_rhs => rw [ht0]
    simp
  have ok : Ok (parseAny text bits s round) (fun _ => True) := by
    rw [← e]
    apply parseAny_total c
    intro x b hb _
    apply parseHex_total
    · have : (dropSign text).length = b.length + 2 := by rw [hb]; rfl
      omega
    · intro pre p rest hr hp
      refine hexp (g0 ++ hch '0' :: x :: pre) p rest ?_ hp
      rw [ht0, hb, hr]
      simp
  obtain ⟨r, hr, _⟩ := ok
  refine ⟨r, hr, ?_, ?_⟩
  · rintro ⟨⟨x, st⟩, rfl⟩
    obtain ⟨_, _, _, h3⟩ := parseAny_part c text round _ (by rw [e]; exact hr) x st rfl
    refine ⟨g0, isNeg text, dropSign text, ht0, hg0, ?_⟩
    rcases h3 with h3 | h3 | ⟨l, h3, _⟩
    · exact Or.inl h3.1
    · exact Or.inr (Or.inl h3.1)
    · exact Or.inr (Or.inr ⟨l, h3⟩)
  · rintro ⟨g, neg, t, rfl, hg, ht⟩
    have := (sign_drop hg (Grammatical.noSign ht)).2
    rw [← e] at hr
    exact parseAny_accept c (by rw [this]; exact ht) round _ hr

/-- C48: literals of moderate length and exponent are accepted. Here the exponent may have any number of digits, e.g.
leading zeros. -/
theorem C48_accepts_partial {g t : List HByte} {neg : Bool} {l : Lit} {bits s : Nat} (round : Round) (hs : 1 ≤ s)
    (hc : ¬ (s > 119 ∨ bits > 128 ∨ bits < s + 3 ∨ bits > s + 30)) (hg : IsSign g neg) (ht : IsLit t l)
    (hlen : t.length ≤ 2 ^ 27) (hexp : -2 ^ 32 < l.pexp ∧ l.pexp < 2 ^ 30) :
    ∃ r st, parseAny (g ++ t) bits s round = .ok (.ok (r, st)) := by
  obtain ⟨c, e⟩ := cfg_of hs hc
  have hd := (sign_drop hg (nosign_lit ht)).2
  have ok : Ok (parseAny (g ++ t) bits s round) (fun _ => True) := by
    rw [← e]
    apply parseAny_total c
    intro x b hb _
    rw [hd] at hb
    obtain ⟨x', b', e', _, hbody⟩ := isLit_iff.mp ht
    have hbb : b = b' := by
      rw [hb] at e'
      injection e' with _ e'
      injection e'
    subst hbb
    apply parseHex_total_lit hbody
    · have : t.length = b.length + 2 := by rw [hb]; rfl
      omega
    · unfold Lit.pexp at hexp
      split at hexp <;> split <;> omega
  obtain ⟨r, hr, _⟩ := ok
  obtain ⟨⟨x, st⟩, hx⟩ := parseAny_accept c (t := g ++ t) (round := round) (by rw [hd]; exact Or.inr (Or.inr ⟨l, ht⟩)) _
    (by rw [e]; exact hr)
  exact ⟨x, st, by rw [hr, hx]⟩

/-! ### `parse_hex_exact` -/

theorem flags_zero {e s : Nat} {dir : Dir} {x : ℚ} {n : Nat} :
    flags e s dir x n = 0#8 ↔ n < inf e s ∧ mag e s n = x := by
  unfold flags
  split
  · rename_i h; simp [h]
  · rename_i h
    refine iff_of_false ?_ h
    split <;> split <;> decide

theorem mag_inj {e s m n : Nat} (h : mag e s m = mag e s n) : m = n := by
  rw [mag_eq, mag_eq] at h
  have := mul_right_cancel₀ (ne_of_gt (unit_pos e s)) h
  exact U_inj.mp (by exact_mod_cast this)

theorem flags_bits (e s : Nat) (dir : Dir) (x : ℚ) (n : Nat) :
    flags e s dir x n = 0#8 ∨ Status.has (flags e s dir x n) .INEXACT = true := by
  unfold flags
  split
  · left; rfl
  · right; split <;> split <;> decide

/-- if some number of the format equals `x`, rounding `x` is exact -/
theorem rounds_exact {e s m n : Nat} {x : ℚ} (h : Rounds e s .nearest x n) (hm : m < inf e s)
    (hx : mag e s m = x) : n = m := by
  obtain ⟨h1, h2⟩ := h
  have h3 := (h2 m (le_of_lt hm)).1
  rw [hx, sub_self, abs_zero] at h3
  have h4 := abs_eq_zero.mp (le_antisymm h3 (abs_nonneg _))
  apply mag_inj (e := e) (s := s)
  rw [hx]; linarith

/-- a successful run on a literal -/
theorem parsed_lit {g t : List HByte} {neg : Bool} {l : Lit} {bits s : Nat} {round : Round} {r : BitVec 128} {st : Status}
    (hg : IsSign g neg) (ht : IsLit t l) (hf : FitsU128 (bits - s - 1) s l.value)
    (h : parseAny (g ++ t) bits s round = .ok (.ok (r, st))) :
    1 ≤ s ∧ s + 3 ≤ bits ∧ ∃ n, n < 2 ^ (bits - 1) ∧ r.toNat = n + (if neg then 2 ^ (bits - 1) else 0) ∧
      Rounds (bits - s - 1) s (dirOf neg round) l.value n ∧ st = flags (bits - s - 1) s (dirOf neg round) l.value n := by
  have hlit : Grammatical t := Or.inr (Or.inr ⟨l, ht⟩)
  have hfits : Fits (bits - s - 1) s (g ++ t) := by
    intro g' neg' t' l' he hg' ht'
    obtain ⟨_, _, _, _, h5⟩ := C48_unambiguous hg hg' hlit (Or.inr (Or.inr ⟨l', ht'⟩)) he
    rw [← h5 l l' ht ht']; exact hf
  obtain ⟨h1, h2, g', neg', t', n, he, hg', hn, hr, hres⟩ := C48_parse_correct_wide_partial h hfits
  have hgram' : Grammatical t' := by
    rcases hres with ⟨h, _⟩ | ⟨h, _⟩ | ⟨l', h, _⟩
    · exact Or.inl h
    · exact Or.inr (Or.inl h)
    · exact Or.inr (Or.inr ⟨l', h⟩)
  obtain ⟨q1, q2, _, q4, q5⟩ := C48_unambiguous hg hg' hlit hgram' he
  subst q1 q2
  have hb : bits - s - 1 + s = bits - 1 := by omega
  rw [hb] at hr hn
  refine ⟨h1, h2, n, hn, hr, ?_⟩
  rcases hres with ⟨h, _⟩ | ⟨h, _⟩ | ⟨l', h, h3, h4⟩
  · exact absurd h (q4 l ht).1
  · exact absurd h (q4 l ht).2
  · rw [q5 l l' ht h]
    exact ⟨h3, h4⟩

/-- C48, `parse_hex_exact` (behind `hf16!`, `hf32!`, `hf64!` and `hf128!`): on a literal for which `parse_any` returns a
number it never reaches its `unreachable!()`; it returns the number of the format that equals the literal if there is
one, and an error otherwise. Missing: values as in `C48_parse_correct_wide_partial`, and texts for which `parse_any`
panics. -/
theorem C48_exact_partial {g t : List HByte} {neg : Bool} {l : Lit} {bits s : Nat} {x : BitVec 128 × Status}
    (hg : IsSign g neg) (ht : IsLit t l) (hf : FitsU128 (bits - s - 1) s l.value)
    (hp : parseAny (g ++ t) bits s .nearest = .ok (.ok x)) :
    (∃ n r, n < inf (bits - s - 1) s ∧ mag (bits - s - 1) s n = l.value ∧
      r.toNat = n + (if neg then 2 ^ (bits - 1) else 0) ∧ parseHexExact (g ++ t) bits s = .ok (.ok r)) ∨
    ((¬ ∃ n, n < inf (bits - s - 1) s ∧ mag (bits - s - 1) s n = l.value) ∧
      ∃ er, parseHexExact (g ++ t) bits s = .ok (.error er)) := by
  obtain ⟨r, st⟩ := x
  obtain ⟨h1, h2, n, hn, hr, h3, h4⟩ := parsed_lit hg ht hf hp
  have hd : dirOf neg .nearest = .nearest := rfl
  rw [hd] at h3 h4
  unfold parseHexExact
  rw [hp]
  simp only [ok_bind]
  by_cases hst : st = Status.OK
  · left
    obtain ⟨h5, h6⟩ := flags_zero.mp (h4.symm.trans hst)
    refine ⟨n, r, h5, h6, hr, ?_⟩
    rw [if_pos hst]; rfl
  · right
    refine ⟨?_, ?_⟩
    · rintro ⟨m, hm1, hm2⟩
      have := rounds_exact h3 hm1 hm2
      subst this
      exact hst (h4.trans (flags_zero.mpr ⟨hm1, hm2⟩))
    · rw [if_neg hst]
      split
      · exact ⟨_, rfl⟩
      · split
        · exact ⟨_, rfl⟩
        · rcases flags_bits (bits - s - 1) s .nearest l.value n with h | h
          · exact absurd (h4.trans h) hst
          · rw [← h4] at h
            rw [if_pos h]
            exact ⟨_, rfl⟩

/-! ### the Rust float types -/

/-- The specification's `mag` and `inf` are the values of the IEEE formats of `Verif/Float/Spec.lean`. -/
theorem mag_fmt (F : Fmt) (n : Nat) : mag F.e F.s n = F.magVal ℚ n := by
  have he := F.he
  have hb : (F.bias : ℤ) = 2 ^ (F.e - 1) - 1 := by
    unfold Fmt.bias
    have : 0 < 2 ^ (F.e - 1) := Nat.two_pow_pos _
    push_cast [this]
    rfl
  unfold mag Fmt.magVal unit
  rw [hb]
  split
  · congr 2; ring
  · rename_i h
    push_cast
    rw [mul_assoc, ← zpow_natCast (2 : ℚ) (n / 2 ^ F.s - 1), ← zpow_add₀ (by norm_num : (2 : ℚ) ≠ 0)]
    congr 2
    have : ((n / 2 ^ F.s - 1 : Nat) : ℤ) = ((n / 2 ^ F.s : Nat) : ℤ) - 1 := by
      have : 1 ≤ n / 2 ^ F.s := Nat.one_le_iff_ne_zero.mpr h
      push_cast [this]; rfl
    rw [this]; push_cast; ring

/-- C48, `hf16!`, `hf32!`, `hf64!`: the constant these return is exactly the number written. -/
theorem C48_hf {F : Fmt} (hF : F.s ≤ 96) {g t : List HByte} {neg : Bool} {l : Lit} {r : BitVec 128}
    (hg : IsSign g neg) (ht : IsLit t l) (h : parseHexExact (g ++ t) F.w F.s = .ok (.ok r)) :
    F.IsFin (r.setWidth F.w) ∧ F.sign (r.setWidth F.w) = neg ∧
      F.val (r.setWidth F.w) = (if neg then -1 else 1) * l.value := by
  have hp : ∃ x, parseAny (g ++ t) F.w F.s .nearest = .ok (.ok x) := by
    unfold parseHexExact at h
    cases hp : parseAny (g ++ t) F.w F.s .nearest with
    | error e => rw [hp] at h; exact absurd h (by simp)
    | ok p =>
    rw [hp] at h
    simp only [ok_bind] at h
    cases p with
    | error e => injection h with h; exact absurd h (by simp)
    | ok p => exact ⟨p, rfl⟩
  obtain ⟨x, hp⟩ := hp
  have hes : F.w - F.s - 1 = F.e := by unfold Fmt.w; omega
  have hw1 : F.w - 1 = F.e + F.s := by unfold Fmt.w; omega
  rcases C48_exact_partial hg ht (Or.inl hF) hp with ⟨n, r', h1, h2, h3, h4⟩ | ⟨_, er, h4⟩
  · rw [h] at h4
    injection h4 with h4
    injection h4 with h4
    subst h4
    rw [hes] at h1 h2
    rw [hw1] at h3
    have hil : F.infRep < 2 ^ (F.e + F.s) := F.infRep_lt
    have hpw : 2 ^ F.w = 2 * 2 ^ (F.e + F.s) := by unfold Fmt.w; rw [Nat.pow_succ]; omega
    have hn : n < F.infRep := h1
    have hmod : (r.setWidth F.w).toNat = r.toNat := by
      rw [BitVec.toNat_setWidth, Nat.mod_eq_of_lt]
      rw [hpw, h3]; split <;> omega
    obtain ⟨sx, mx⟩ := F.sign_mag_of (b := r.setWidth F.w) (t := neg) (n := n) (by omega) (by
      rw [hmod, h3, Nat.add_comm])
    refine ⟨?_, sx, ?_⟩
    · unfold Fmt.IsFin; omega
    · unfold Fmt.val Fmt.valK
      rw [sx, mx, ← mag_fmt, h2]
  · rw [h] at h4
    injection h4 with h4
    exact absurd h4 (by simp)

/-! ### where the claim fails -/

/-- C48 fails for `f128`: `0x1p65536` is far beyond the range of `f128`, but the shift of line 158 drops the top bit of
the exponent and the result is `1.0`, without any flag; `hf128!("0x1p65536")` is `1.0`. -/
theorem C48_f128_wraps :
    parseAny (hstr "0x1p65536") 128 112 .nearest = .ok (.ok (0x3fff0000000000000000000000000000#128, Status.OK)) ∧
    parseHexExact (hstr "0x1p65536") 128 112 = .ok (.ok 0x3fff0000000000000000000000000000#128) := by
  decide +kernel

/-- C48 fails: the arithmetic on large exponents overflows, which panics when overflow checks are on; in the first two
cases in `exp - min_lsb` (line 157) and `exp += round_bits` (line 135), in the third in `pexp += digit` (line 295)
although the multiplication before it saturates. With `sig_bits = 0`, which the check of line 69 admits, line 79
underflows. -/
theorem C48_panics :
    parseAny (hstr "0x1p2147483600") 32 23 .nearest = .error .overflow ∧
    parseAny (hstr "0x1234567890p2147483647") 32 23 .nearest = .error .overflow ∧
    parseAny (hstr "0x1p4294967296") 32 23 .nearest = .error .overflow ∧
    parseAny (hstr "inf") 8 0 .nearest = .error .overflow := by
  decide +kernel

/-! ### examples -/

-- every direction, the flags, signs, subnormals, overflow, malformed text
example : parseAny (hstr "0x1.8p1") 32 23 .nearest = .ok (.ok (0x40400000#128, Status.OK)) ∧
    parseAny (hstr "-0X.fP+0") 32 23 .nearest = .ok (.ok (0xbf700000#128, Status.OK)) ∧
    parseAny (hstr "0x1.0000010p0") 32 23 .nearest = .ok (.ok (0x3f800000#128, Status.INEXACT)) ∧
    parseAny (hstr "0x1.0000010p0") 32 23 .positive = .ok (.ok (0x3f800001#128, Status.INEXACT)) ∧
    parseAny (hstr "-0x1.0000010p0") 32 23 .positive = .ok (.ok (0xbf800000#128, Status.INEXACT)) ∧
    parseAny (hstr "0x1p-150") 32 23 .nearest = .ok (.ok (0#128, Status.INEXACT ||| Status.UNDERFLOW)) ∧
    parseAny (hstr "0x1p-150") 32 23 .positive = .ok (.ok (1#128, Status.INEXACT ||| Status.UNDERFLOW)) := by
  decide +kernel
example :
    parseAny (hstr "0x1p128") 32 23 .nearest = .ok (.ok (0x7f800000#128, Status.INEXACT ||| Status.OVERFLOW)) ∧
    parseAny (hstr "0x1p128") 32 23 .zero = .ok (.ok (0x7f7fffff#128, Status.INEXACT ||| Status.OVERFLOW)) ∧
    parseAny (hstr "0x1p-00000000000000000000000000000000000000002") 32 23 .zero = .ok (.ok (0x3e800000#128, Status.OK)) ∧
    parseAny (hstr "-nan") 32 23 .zero = .ok (.ok (0xffc00000#128, Status.OK)) ∧
    parseAny (hstr "0x1.1.1p3") 32 23 .zero = .ok (.error .point) ∧
    parseAny (hstr "0x.p3") 32 23 .zero = .ok (.error .noDigits) ∧
    parseAny (hstr "0x1") 32 23 .zero = .ok (.error .noExpDigits) ∧
    parseAny (hstr "1.0") 32 23 .zero = .ok (.error .noHex) := by
  decide +kernel

/-- the parts of `0x1.8p-1` -/
def exLit : Lit := ⟨[1], [8], true, [1]⟩
theorem exLit_isLit : IsLit (bytes "0x1.8p-1") exLit :=
  ⟨bytes "x", bytes "1", bytes ".", bytes "8", bytes "p", bytes "-", bytes "1", rfl, Or.inl rfl,
    .cons (Or.inl rfl) .nil, .cons (Or.inl rfl) .nil, Or.inl rfl, by decide, Or.inl rfl, .minus, .cons rfl .nil, by decide⟩

-- hypotheses of `C48_parse_correct`, `C48_parse_correct_wide_partial`, `C48_exact_partial`, `C48_hf`
example : parseAny (hstr "-0x1.8p-1") 64 52 .nearest = .ok (.ok (0xbfe8000000000000#128, Status.OK)) ∧
    parseHexExact (hstr "-0x1.8p-1") 64 52 = .ok (.ok 0xbfe8000000000000#128) ∧
    parseHexExact (hstr "0x1p-1075") 64 52 = .ok (.error .tooTiny) ∧
    bytes "-0x1.8p-1" = bytes "-" ++ bytes "0x1.8p-1" ∧ hstr "-0x1.8p-1" = bytes "-0x1.8p-1" := by
  decide +kernel
example : exLit.value = 3 / 4 := by
  unfold Lit.value Lit.pexp exLit ofDigits; norm_num
example : Fits 15 112 (bytes "-" ++ bytes "0x1.8p-1") := by
  intro g neg t l he hg hl
  obtain ⟨_, _, _, _, h⟩ := C48_unambiguous IsSign.minus hg (Or.inr (Or.inr ⟨_, exLit_isLit⟩)) (Or.inr (Or.inr ⟨l, hl⟩)) he
  rw [← h _ l exLit_isLit hl]
  right
  have : exLit.value = 3 / 4 := by unfold Lit.value Lit.pexp exLit ofDigits; norm_num
  rw [this]
  have h1 : (2 : ℚ) ^ (112 + 2 ^ (128 - 112)) * unit 15 112 = 2 ^ (49154 : ℤ) := by
    unfold unit
    rw [← zpow_natCast (2 : ℚ), ← zpow_add₀ (by norm_num)]
    congr 1
  rw [h1]
  calc (3 / 4 : ℚ) < 2 ^ (1 : ℤ) := by norm_num
    _ ≤ 2 ^ (49154 : ℤ) := zpow_le_zpow_right₀ (by norm_num) (by norm_num)
-- hypotheses of `C48_accepts_partial` and `C48_parse_total_partial`
example : ∃ r st, parseAny (bytes "-" ++ bytes "0x1.8p-1") 32 23 .zero = .ok (.ok (r, st)) :=
  C48_accepts_partial .zero (by norm_num) (by norm_num) .minus exLit_isLit (by decide)
    (by unfold Lit.pexp exLit ofDigits; norm_num)
example : ∃ r, parseAny (bytes "0x1q") 32 23 .zero = .ok r ∧ ((∃ x, r = .ok x) ↔ IsFloatText (bytes "0x1q")) :=
  C48_parse_total_partial .zero (by norm_num) (by norm_num) (by decide) (by
    intro pre p rest h _
    have : (bytes "0x1q").length = pre.length + (rest.length + 1) := by rw [h]; simp
    have h4 : (bytes "0x1q").length = 4 := by decide
    omega)

end Verif.Props
