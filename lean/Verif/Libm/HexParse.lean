import Verif.Libm.HexFinish
/-! Reading the digits: proofs about `parse_hex`. -/
namespace Verif
open HexSpec

/-- Partial correctness: if `m` returns a value, the value satisfies `P`. -/
def Part {α} (m : M α) (P : α → Prop) : Prop := ∀ a, m = .ok a → P a

theorem Part.bind {α β} {m : M α} {f : α → M β} {P : α → Prop} {Q : β → Prop}
    (hm : Part m P) (hf : ∀ a, P a → Part (f a) Q) : Part (m >>= f) Q := by
  intro b hb
  cases m with
  | error e => exact absurd hb (by simp)
  | ok a => exact hf a (hm a rfl) b hb

theorem Part.pure {α} {a : α} {P : α → Prop} (h : P a) : Part (Pure.pure a : M α) P := by
  intro b hb
  injection hb with hb
  exact hb ▸ h

theorem Part.mono {α} {m : M α} {P Q : α → Prop} (h : Part m P) (hPQ : ∀ a, P a → Q a) : Part m Q :=
  fun a ha => hPQ a (h a ha)

theorem Ok.part {α} {m : M α} {P : α → Prop} (h : Ok m P) : Part m P := by
  obtain ⟨a, rfl, ha⟩ := h
  intro b hb
  injection hb with hb
  exact hb ▸ ha

theorem i32C_part (x : Int) : Part (i32C x) (fun r => r = x ∧ -2 ^ 31 ≤ x ∧ x < 2 ^ 31) := by
  intro a ha
  unfold i32C at ha
  split at ha
  · injection ha with ha; rename_i h; exact ⟨ha.symm, h⟩
  · exact absurd ha (by simp)

/-! ### digits -/

theorem ofDigits_concat (b : Nat) (ds : List Nat) (d : Nat) : ofDigits b (ds ++ [d]) = ofDigits b ds * b + d := by
  simp [ofDigits]

/-- the finite table behind `hexDigit_spec` -/
theorem hexDigit_table : ∀ c : HByte, (match hexDigit c with
    | .ok (some d) => decide (d.toNat < 16 ∧ ((bytes "0123456789abcdef")[d.toNat]? = some c ∨
        (bytes "0123456789ABCDEF")[d.toNat]? = some c))
    | .ok none => (List.range 16).all (fun d => decide ((bytes "0123456789abcdef")[d]? ≠ some c ∧
        (bytes "0123456789ABCDEF")[d]? ≠ some c))
    | .error _ => false) = true := by
  decide +kernel

theorem digit_lt {t : List (BitVec 8)} {d : Nat} {c : BitVec 8} (h : t[d]? = some c) : d < t.length :=
  (List.getElem?_eq_some_iff.mp h).1

theorem HexSpec.IsHexDigit.lt {c d} (h : IsHexDigit c d) : d < 16 := by
  rcases h with h | h
  · exact digit_lt h
  · exact digit_lt h

theorem hexDigit_spec (c : HByte) : Ok (hexDigit c) (fun r =>
    (∀ d, r = some d → IsHexDigit c d.toNat ∧ d.toNat < 16) ∧ (r = none → ∀ d, ¬ IsHexDigit c d)) := by
  have h := hexDigit_table c
  cases hm : hexDigit c with
  | error e => rw [hm] at h; exact absurd h (by simp)
  | ok r =>
    rw [hm] at h
    apply Ok.pure
    cases r with
    | none =>
      refine ⟨fun d hd => absurd hd (by simp), fun _ d hd => ?_⟩
      have hd16 := hd.lt
      simp only [List.all_eq_true, List.mem_range, decide_eq_true_eq] at h
      have := h d hd16
      rcases hd with hd | hd
      · exact this.1 hd
      · exact this.2 hd
    | some d =>
      simp only [decide_eq_true_eq] at h
      refine ⟨fun d' hd' => ?_, fun hn => absurd hn (by simp)⟩
      injection hd' with hd'
      subst hd'
      exact ⟨h.2, h.1⟩

/-- digits are unambiguous -/
theorem hexDigit_unique : ∀ c : HByte, (List.range 16).all (fun d => (List.range 16).all (fun d' =>
    decide (((bytes "0123456789abcdef")[d]? = some c ∨ (bytes "0123456789ABCDEF")[d]? = some c) →
      ((bytes "0123456789abcdef")[d']? = some c ∨ (bytes "0123456789ABCDEF")[d']? = some c) → d = d'))) = true := by
  decide +kernel

theorem HexSpec.IsHexDigit.unique {c d d'} (h : IsHexDigit c d) (h' : IsHexDigit c d') : d = d' := by
  have := hexDigit_unique c
  simp only [List.all_eq_true, List.mem_range, decide_eq_true_eq] at this
  exact this d h.lt d' h'.lt h h'

theorem decDigit_table : ∀ c : HByte, (match decDigit c with
    | .ok (some d) => decide (d.toNat < 10 ∧ (bytes "0123456789")[d.toNat]? = some c)
    | .ok none => (List.range 10).all (fun d => decide ((bytes "0123456789")[d]? ≠ some c))
    | .error _ => false) = true := by
  decide +kernel

theorem HexSpec.IsDecDigit.lt {c d} (h : IsDecDigit c d) : d < 10 := digit_lt h

theorem decDigit_spec (c : HByte) : Ok (decDigit c) (fun r =>
    (∀ d, r = some d → IsDecDigit c d.toNat ∧ d.toNat < 10) ∧ (r = none → ∀ d, ¬ IsDecDigit c d)) := by
  have h := decDigit_table c
  cases hm : decDigit c with
  | error e => rw [hm] at h; exact absurd h (by simp)
  | ok r =>
    rw [hm] at h
    apply Ok.pure
    cases r with
    | none =>
      refine ⟨fun d hd => absurd hd (by simp), fun _ d hd => ?_⟩
      have hd10 := hd.lt
      simp only [List.all_eq_true, List.mem_range, decide_eq_true_eq] at h
      exact h d hd10 hd
    | some d =>
      simp only [decide_eq_true_eq] at h
      refine ⟨fun d' hd' => ?_, fun hn => absurd hn (by simp)⟩
      injection hd' with hd'
      subst hd'
      exact ⟨h.2, h.1⟩

theorem decDigit_unique : ∀ c : HByte, (List.range 10).all (fun d => (List.range 10).all (fun d' =>
    decide ((bytes "0123456789")[d]? = some c → (bytes "0123456789")[d']? = some c → d = d'))) = true := by
  decide +kernel

theorem HexSpec.IsDecDigit.unique {c d d'} (h : IsDecDigit c d) (h' : IsDecDigit c d') : d = d' := by
  have := decDigit_unique c
  simp only [List.all_eq_true, List.mem_range, decide_eq_true_eq] at this
  exact this d h.lt d' h'.lt h h'

/-! ### the digit loop -/

/-- State of the loop after the digits `ds`, of which `fr` follow the point. -/
structure HexInv (ds : List Nat) (fr : Nat) (st : HexState) : Prop where
  val : ∃ k rest : Nat, ofDigits 16 ds = st.sig.toNat * 16 ^ k + rest ∧ rest < 16 ^ k ∧
    (st.inexact = true ↔ rest ≠ 0) ∧ (0 < k → 2 ^ 124 ≤ st.sig.toNat) ∧ st.exp = 4 * k - 4 * fr
  range : -2 ^ 31 ≤ st.exp ∧ st.exp < 2 ^ 31
  some : st.someDigits = true ↔ ds ≠ []

theorem hexInv_init : HexInv [] 0 ⟨0#128, 0, false, false, false⟩ := by
  refine ⟨⟨0, 0, rfl, by norm_num, by simp, by simp, by simp⟩, by norm_num, by simp⟩

theorem hexStep_aux {sig : BitVec 128} {d : HByte} (h : sig.toNat < 2 ^ 124) (hd : d.toNat < 16) :
    ((sig <<< 4) ||| d.setWidth 128).toNat = sig.toNat * 16 + d.toNat := by
  rw [BitVec.toNat_or, BitVec.toNat_shiftLeft, BitVec.toNat_setWidth, Nat.shiftLeft_eq,
    Nat.mod_eq_of_lt (by omega), Nat.mod_eq_of_lt (by omega), Nat.or_comm,
    or_eq_add (k := 4) (by omega) (Dvd.intro_left _ rfl), Nat.add_comm]
  rfl

theorem hexStep_part {ds : List Nat} {fr : Nat} {st : HexState} {d : HByte} (h : HexInv ds fr st) (hd : d.toNat < 16) :
    Part (hexStep d st) (fun st' => HexInv (ds ++ [d.toNat]) (fr + (if st.seenPoint then 1 else 0)) st' ∧
      st'.seenPoint = st.seenPoint) := by
  obtain ⟨⟨k, rest, hval, hrest, hin, hk, hexp⟩, hrange, hsome⟩ := h
  unfold hexStep
  refine Part.bind (shrC_spec (by omega)).part ?_
  intro t ht
  have ht0 : t = 0#128 ↔ st.sig.toNat < 2 ^ 124 := by
    rw [← BitVec.toNat_inj, ht, show (0#128).toNat = 0 from rfl, Nat.div_eq_zero_iff]
    constructor
    · rintro (h | h)
      · exact absurd h (by norm_num)
      · exact h
    · exact Or.inr
  have mid : Part (if t = 0#128 then do
      let s ← shlC st.sig 4
      pure (s ||| d.setWidth 128, st.exp, st.inexact)
    else do
      let e ← i32C (st.exp + 4)
      pure (st.sig, e, st.inexact || (d ≠ 0#8 : Bool)))
      (fun r => ∃ k rest : Nat, ofDigits 16 (ds ++ [d.toNat]) = r.1.toNat * 16 ^ k + rest ∧ rest < 16 ^ k ∧
        (r.2.2 = true ↔ rest ≠ 0) ∧ (0 < k → 2 ^ 124 ≤ r.1.toNat) ∧ r.2.1 = 4 * k - 4 * fr ∧
        -2 ^ 31 ≤ r.2.1 ∧ r.2.1 < 2 ^ 31) := by
    rw [ofDigits_concat, hval]
    split
    · rename_i h0
      have hlt := ht0.mp h0
      have hk0 : k = 0 := by
        by_contra hne
        have := hk (by omega)
        omega
      subst hk0
      have hr0 : rest = 0 := by omega
      subst hr0
      unfold shlC
      rw [if_pos (by omega)]
      apply Part.pure
      refine ⟨0, 0, ?_, by norm_num, hin, by simp, hexp, hrange⟩
      show _ = ((st.sig <<< 4) ||| d.setWidth 128).toNat * 16 ^ 0 + 0
      rw [hexStep_aux hlt hd]; ring
    · rename_i h0
      have hge : 2 ^ 124 ≤ st.sig.toNat := by
        rw [ht0] at h0; omega
      refine Part.bind (i32C_part _) ?_
      rintro e ⟨rfl, he⟩
      apply Part.pure
      refine ⟨k + 1, rest * 16 + d.toNat, ?_, ?_, ?_, fun _ => hge, ?_, he⟩
      · rw [Nat.pow_succ]; ring
      · rw [Nat.pow_succ]; omega
      · show (st.inexact || (d ≠ 0#8 : Bool)) = true ↔ _
        have hd0 : d ≠ 0#8 ↔ d.toNat ≠ 0 := by
          rw [not_iff_not, ← BitVec.toNat_inj]; rfl
        rw [Bool.or_eq_true, hin, decide_eq_true_eq, hd0]
        omega
      · show st.exp + 4 = _
        rw [hexp]; push_cast; ring
  refine Part.bind mid ?_
  rintro ⟨sig, exp, inexact⟩ ⟨k', rest', h1, h2, h3, h4, h5, h6⟩
  dsimp only at h1 h2 h3 h4 h5 h6 ⊢
  have mid2 : Part (if st.seenPoint = true then i32C (exp - 4) else pure exp)
      (fun r => r = 4 * k' - 4 * ((fr + (if st.seenPoint then 1 else 0) : Nat) : Int) ∧ -2 ^ 31 ≤ r ∧ r < 2 ^ 31) := by
    split
    · refine (i32C_part _).mono ?_
      rintro r ⟨rfl, hr⟩
      refine ⟨?_, hr⟩
      push_cast; omega
    · apply Part.pure
      refine ⟨?_, h6⟩
      push_cast; omega
  refine Part.bind mid2 ?_
  rintro exp' ⟨he1, he2⟩
  apply Part.pure
  refine ⟨⟨⟨k', rest', h1, h2, h3, h4, he1⟩, he2, ?_⟩, rfl⟩
  simp

/-- what the loop leaves: nothing, or the text after `p` -/
def LoopTail (tl rest : List HByte) : Prop :=
  (tl = [] ∧ rest = []) ∨ ∃ p, (p = bytes "p" ∨ p = bytes "P") ∧ tl = p ++ rest

theorem hexLoop_frac (b : List HByte) : ∀ (ds : List Nat) (fr : Nat) (st : HexState), HexInv ds fr st →
    st.seenPoint = true → Part (hexLoop b st) (fun r => ∀ st' rest, r = .ok (st', rest) →
      ∃ F fd tl, b = F ++ tl ∧ List.Forall₂ IsHexDigit F fd ∧ LoopTail tl rest ∧
        HexInv (ds ++ fd) (fr + fd.length) st') := by
  induction b with
  | nil =>
    intro ds fr st h _
    apply Part.pure
    intro st' rest he
    injection he with he
    injection he with he1 he2
    subst he1 he2
    exact ⟨[], [], [], rfl, List.Forall₂.nil, Or.inl ⟨rfl, rfl⟩, by simpa using h⟩
  | cons c b ih =>
    intro ds fr st h hsp
    rw [hexLoop]
    rw [hsp]
    split
    · rw [if_pos rfl]
      apply Part.pure
      intro st' rest he
      exact absurd he (by simp)
    · split
      · rename_i hp
        apply Part.pure
        intro st' rest he
        injection he with he
        injection he with he1 he2
        subst he1 he2
        refine ⟨[], [], c :: b, rfl, List.Forall₂.nil, Or.inr ⟨[c], ?_, rfl⟩, by simpa using h⟩
        rcases hp with rfl | rfl
        · left; rfl
        · right; rfl
      · refine Part.bind (hexDigit_spec c).part ?_
        rintro r ⟨hr, _⟩
        cases r with
        | none =>
          apply Part.pure
          intro st' rest he
          exact absurd he (by simp)
        | some d =>
          obtain ⟨hd1, hd2⟩ := hr d rfl
          refine Part.bind (hexStep_part h hd2) ?_
          rintro st1 ⟨hinv, hsp1⟩
          rw [if_pos hsp] at hinv
          refine (ih _ _ st1 hinv (by rw [hsp1]; exact hsp)).mono ?_
          intro r hr st' rest he
          obtain ⟨F, fd, tl, e1, e2, e3, e4⟩ := hr st' rest he
          refine ⟨c :: F, d.toNat :: fd, tl, by rw [e1]; rfl, List.Forall₂.cons hd1 e2, e3, ?_⟩
          have : fr + (d.toNat :: fd).length = fr + 1 + fd.length := by simp; omega
          rw [this]
          simpa using e4

theorem hexLoop_int (b : List HByte) : ∀ (ds : List Nat) (st : HexState), HexInv ds 0 st →
    st.seenPoint = false → Part (hexLoop b st) (fun r => ∀ st' rest, r = .ok (st', rest) →
      ∃ I id P F fd tl, b = I ++ P ++ F ++ tl ∧ List.Forall₂ IsHexDigit I id ∧ List.Forall₂ IsHexDigit F fd ∧
        (P = bytes "." ∨ P = [] ∧ F = []) ∧ LoopTail tl rest ∧ HexInv (ds ++ id ++ fd) fd.length st') := by
  induction b with
  | nil =>
    intro ds st h _
    apply Part.pure
    intro st' rest he
    injection he with he
    injection he with he1 he2
    subst he1 he2
    exact ⟨[], [], [], [], [], [], rfl, List.Forall₂.nil, List.Forall₂.nil, Or.inr ⟨rfl, rfl⟩, Or.inl ⟨rfl, rfl⟩,
      by simpa using h⟩
  | cons c b ih =>
    intro ds st h hsp
    rw [hexLoop]
    split
    · rename_i hc
      rw [if_neg (by rw [hsp]; simp)]
      have hinv : HexInv ds 0 { st with seenPoint := true } := ⟨h.val, h.range, h.some⟩
      refine (hexLoop_frac b ds 0 _ hinv rfl).mono ?_
      intro r hr st' rest he
      obtain ⟨F, fd, tl, e1, e2, e3, e4⟩ := hr st' rest he
      refine ⟨[], [], [c], F, fd, tl, by rw [e1]; rfl, List.Forall₂.nil, e2, Or.inl (by rw [hc]; rfl), e3, ?_⟩
      simpa using e4
    · split
      · rename_i hp
        apply Part.pure
        intro st' rest he
        injection he with he
        injection he with he1 he2
        subst he1 he2
        refine ⟨[], [], [], [], [], c :: b, rfl, List.Forall₂.nil, List.Forall₂.nil, Or.inr ⟨rfl, rfl⟩,
          Or.inr ⟨[c], ?_, rfl⟩, by simpa using h⟩
        rcases hp with rfl | rfl
        · left; rfl
        · right; rfl
      · refine Part.bind (hexDigit_spec c).part ?_
        rintro r ⟨hr, _⟩
        cases r with
        | none =>
          apply Part.pure
          intro st' rest he
          exact absurd he (by simp)
        | some d =>
          obtain ⟨hd1, hd2⟩ := hr d rfl
          refine Part.bind (hexStep_part h hd2) ?_
          rintro st1 ⟨hinv, hsp1⟩
          rw [if_neg (by rw [hsp]; simp)] at hinv
          refine (ih _ st1 hinv (by rw [hsp1]; exact hsp)).mono ?_
          intro r hr st' rest he
          obtain ⟨I, id, P, F, fd, tl, e1, e2, e3, e4, e5, e6⟩ := hr st' rest he
          refine ⟨c :: I, d.toNat :: id, P, F, fd, tl, by rw [e1]; rfl, List.Forall₂.cons hd1 e2, e3, e4, e5, ?_⟩
          simpa using e6

/-! ### the exponent loop -/

theorem decLoop_part (b : List HByte) : ∀ (ds : List Nat) (p : Nat) (sd : Bool),
    p = min (ofDigits 10 ds) (2 ^ 32 - 1) → (sd = true ↔ ds ≠ []) →
    Part (decLoop b p sd) (fun r => ∀ p' sd', r = .ok (p', sd') → ∃ D, List.Forall₂ IsDecDigit b D ∧
      p' = min (ofDigits 10 (ds ++ D)) (2 ^ 32 - 1) ∧ (sd' = true ↔ ds ++ D ≠ [])) := by
  induction b with
  | nil =>
    intro ds p sd hp hsd
    apply Part.pure
    intro p' sd' he
    injection he with he
    injection he with he1 he2
    subst he1 he2
    exact ⟨[], List.Forall₂.nil, by simpa using hp, by simpa using hsd⟩
  | cons c b ih =>
    intro ds p sd hp hsd
    rw [decLoop]
    refine Part.bind (decDigit_spec c).part ?_
    rintro r ⟨hr, _⟩
    cases r with
    | none =>
      apply Part.pure
      intro p' sd' he
      exact absurd he (by simp)
    | some d =>
      obtain ⟨hd1, hd2⟩ := hr d rfl
      have hu : Part (u32C (min (p * 10) (2 ^ 32 - 1) + d.toNat))
          (fun p' => p' = min (ofDigits 10 (ds ++ [d.toNat])) (2 ^ 32 - 1)) := by
        intro a ha
        unfold u32C at ha
        split at ha
        · rename_i hlt
          injection ha with ha
          rw [ofDigits_concat, ← ha]
          omega
        · exact absurd ha (by simp)
      refine Part.bind hu ?_
      intro p1 hp1
      refine (ih (ds ++ [d.toNat]) p1 true hp1 (by simp)).mono ?_
      intro r hr p' sd' he
      obtain ⟨D, e1, e2, e3⟩ := hr p' sd' he
      exact ⟨d.toNat :: D, List.Forall₂.cons hd1 e1, by simpa using e2, by simpa using e3⟩

/-! ### signs -/

theorem sign_spec (b : List HByte) : ∃ g, IsSign g (isNeg b) ∧ b = g ++ dropSign b := by
  cases b with
  | nil => exact ⟨[], IsSign.none, rfl⟩
  | cons c b =>
    show ∃ g, IsSign g (decide (c = hch '-')) ∧ c :: b = g ++ (if c = hch '-' ∨ c = hch '+' then b else c :: b)
    by_cases h1 : c = hch '-'
    · refine ⟨[c], ?_, ?_⟩
      · rw [show decide (c = hch '-') = true from decide_eq_true h1, h1]; exact IsSign.minus
      · rw [if_pos (Or.inl h1)]; rfl
    · rw [show decide (c = hch '-') = false from decide_eq_false h1]
      by_cases h2 : c = hch '+'
      · refine ⟨[c], ?_, ?_⟩
        · rw [h2]; exact IsSign.plus
        · rw [if_pos (Or.inr h2)]; rfl
      · refine ⟨[], IsSign.none, ?_⟩
        rw [if_neg (by tauto)]; rfl

/-- The text after `0x` -/
def IsBody (b : List HByte) (l : Lit) : Prop :=
  ∃ I P F p g D, b = I ++ P ++ F ++ p ++ g ++ D ∧
    List.Forall₂ IsHexDigit I l.int ∧ List.Forall₂ IsHexDigit F l.frac ∧
    (P = bytes "." ∨ P = [] ∧ F = []) ∧ l.int ++ l.frac ≠ [] ∧
    (p = bytes "p" ∨ p = bytes "P") ∧ IsSign g l.expNeg ∧ List.Forall₂ IsDecDigit D l.exp ∧ l.exp ≠ []

/-- `v·2^e` is the value of the literal, with the significand and exponent that `parse_hex` returns. -/
def ParsedAs (l : Lit) (sig : BitVec 128) (exp : Int) : Prop :=
  ∃ (v : ℚ) (e0 : Int), l.value = v * 2 ^ e0 ∧ Sticky v sig.toNat ∧
    exp = max (min e0 (2 ^ 31 - 1)) (-2 ^ 31)

theorem parseHex_part (b : List HByte) : Part (parseHex b) (fun r => ∀ sig exp, r = .ok (sig, exp) →
    ∃ l, IsBody b l ∧ ParsedAs l sig exp) := by
  unfold parseHex
  refine Part.bind (hexLoop_int b [] _ hexInv_init rfl) ?_
  intro r hr
  cases r with
  | error e => exact Part.pure (by intro _ _ h; exact absurd h (by simp))
  | ok r =>
  obtain ⟨st, rest⟩ := r
  obtain ⟨I, id, P, F, fd, tl, e1, e2, e3, e4, e5, e6⟩ := hr st rest rfl
  dsimp only
  split
  · exact Part.pure (by intro _ _ h; exact absurd h (by simp))
  rename_i hsome
  obtain ⟨g, hg1, hg2⟩ := sign_spec rest
  refine Part.bind (decLoop_part (dropSign rest) [] 0 false rfl (by simp)) ?_
  intro r hr
  cases r with
  | error e => exact Part.pure (by intro _ _ h; exact absurd h (by simp))
  | ok r =>
  obtain ⟨pexp, sd⟩ := r
  obtain ⟨D, hD1, hD2, hD3⟩ := hr pexp sd rfl
  dsimp only
  split
  · exact Part.pure (by intro _ _ h; exact absurd h (by simp))
  rename_i hsd
  apply Part.pure
  intro sig exp he
  injection he with he
  injection he with he1 he2
  rw [List.nil_append] at hD2 hD3 e6
  have hDne : D ≠ [] := hD3.mp (by simpa using hsd)
  have hds : id ++ fd ≠ [] := e6.some.mp (by simpa using hsome)
  refine ⟨⟨id, fd, isNeg rest, D⟩, ?_, ?_⟩
  · rcases e5 with ⟨rfl, rfl⟩ | ⟨p, hp, rfl⟩
    · exfalso
      have : dropSign ([] : List HByte) = [] := rfl
      rw [this] at hD1
      cases hD1
      exact hDne rfl
    · refine ⟨I, P, F, p, g, dropSign rest, ?_, e2, e3, e4, hds, hp, hg1, hD1, hDne⟩
      rw [e1]
      conv_lhs => rw [hg2]
      simp
  · obtain ⟨⟨k, rm, hval, hrm, hin, hk, hexp⟩, hrange, _⟩ := e6
    rw [Nat.cast_inj.mpr rfl] at hexp
    have hpos : (0 : ℚ) < 16 ^ k := by positivity
    have hposN : 0 < 16 ^ k := by positivity
    refine ⟨(st.sig.toNat : ℚ) + rm / 16 ^ k,
      st.exp + (if isNeg rest then -1 else 1) * (ofDigits 10 D : Int), ?_, ?_, ?_⟩
    · unfold Lit.value Lit.pexp
      dsimp only
      rw [hval, hexp, zpow_add₀ (by norm_num : (2 : ℚ) ≠ 0), ← mul_assoc]
      congr 1
      rw [show (4 * (k : Int) - 4 * (fd.length : Int)) = 4 * (k : Int) + (-4 * (fd.length : Int)) by ring,
        zpow_add₀ (by norm_num : (2 : ℚ) ≠ 0), ← mul_assoc]
      congr 1
      have : (2 : ℚ) ^ (4 * (k : Int)) = 16 ^ k := by
        rw [zpow_mul]; norm_num
      rw [this]
      push_cast
      field_simp
    · rw [← he1, BitVec.toNat_or]
      by_cases hi : st.inexact = true
      · have hr0 := hin.mp hi
        have hk0 : 0 < k := by
          rcases Nat.eq_zero_or_pos k with h | h
          · subst h; omega
          · exact h
        right
        refine ⟨st.sig.toNat, hk hk0, ?_, ?_, ?_⟩
        · have : (0 : ℚ) < rm := by exact_mod_cast Nat.pos_of_ne_zero hr0
          have : (0 : ℚ) < rm / 16 ^ k := by positivity
          linarith
        · have : (rm : ℚ) / 16 ^ k < 1 := by
            rw [div_lt_one hpos]; exact_mod_cast hrm
          linarith
        · rw [if_pos hi]; exact or_one' _
      · have hr0 : rm = 0 := by
          by_contra h; exact hi (hin.mpr h)
        left
        rw [if_neg hi, hr0]
        simp
    · rw [← he2]
      generalize ofDigits 10 D = N at *
      cases isNeg rest
      · rw [if_neg (by simp), if_neg (by simp)]; omega
      · rw [if_pos rfl, if_pos rfl]; omega

end Verif
