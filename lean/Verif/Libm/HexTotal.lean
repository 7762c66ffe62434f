import Verif.Libm.HexMain
/-! When parsing does not fault, what it accepts, and that literals are unambiguous. -/
namespace Verif
open HexSpec

/-! ### the digit loop does not fault -/

theorem hexStep_total {st : HexState} {d : HByte} {B : Int} (hB : -B ≤ st.exp ∧ st.exp ≤ B) (hB2 : B + 4 < 2 ^ 31) :
    Ok (hexStep d st) (fun st' => -(B + 4) ≤ st'.exp ∧ st'.exp ≤ B + 4) := by
  unfold hexStep
  refine Ok.bind (shrC_spec (by omega)) ?_
  intro t _
  have mid : Ok (if t = 0#128 then do
      let s ← shlC st.sig 4
      pure (s ||| d.setWidth 128, st.exp, st.inexact)
    else do
      let e ← i32C (st.exp + 4)
      pure (st.sig, e, st.inexact || (d ≠ 0#8 : Bool)))
      (fun r => -B ≤ r.2.1 ∧ r.2.1 ≤ B + 4) := by
    split
    · refine Ok.bind (shlC_spec (by omega)) ?_
      intro s _
      apply Ok.pure'
      dsimp only; omega
    · refine Ok.bind (i32C_spec (by omega)) ?_
      rintro _ rfl
      apply Ok.pure'
      dsimp only; omega
  refine Ok.bind mid ?_
  rintro ⟨sig, exp, inexact⟩ h
  dsimp only at h ⊢
  have mid2 : Ok (if st.seenPoint = true then i32C (exp - 4) else pure exp)
      (fun r => -(B + 4) ≤ r ∧ r ≤ B + 4) := by
    split
    · refine (i32C_spec (by omega)).mono ?_
      rintro _ rfl
      omega
    · exact Ok.pure' (by omega)
  refine Ok.bind mid2 ?_
  intro e he
  exact Ok.pure' he

theorem hexLoop_total (b : List HByte) : ∀ (st : HexState) (B : Int), -B ≤ st.exp ∧ st.exp ≤ B →
    B + 4 * b.length < 2 ^ 31 → Ok (hexLoop b st) (fun r => ∀ st' rest, r = .ok (st', rest) →
      -(B + 4 * b.length) ≤ st'.exp ∧ st'.exp ≤ B + 4 * b.length) := by
  induction b with
  | nil =>
    intro st B hB _
    apply Ok.pure'
    intro st' rest he
    injection he with he
    injection he with he1 he2
    subst he1
    simpa using hB
  | cons c b ih =>
    intro st B hB hlen
    rw [List.length_cons] at hlen ⊢
    push_cast at hlen ⊢
    rw [hexLoop]
    have errp : ∀ er : HexErr, Ok (pure (.error er) : M (Except HexErr (HexState × List HByte)))
        (fun r => ∀ st' rest, r = .ok (st', rest) →
        -(B + 4 * ((b.length : Int) + 1)) ≤ st'.exp ∧ st'.exp ≤ B + 4 * ((b.length : Int) + 1)) :=
      fun er => Ok.pure' (by intro _ _ h; exact absurd h (by simp))
    split
    · split
      · exact errp _
      · refine (ih { st with seenPoint := true } B hB (by omega)).mono ?_
        intro r hr st' rest he
        have := hr st' rest he
        omega
    · split
      · apply Ok.pure'
        intro st' rest he
        injection he with he
        injection he with he1 he2
        subst he1
        omega
      · refine Ok.bind (hexDigit_spec c) ?_
        intro r _
        cases r with
        | none => exact errp _
        | some d =>
          refine Ok.bind (hexStep_total hB (by omega)) ?_
          intro st1 hst1
          refine (ih st1 (B + 4) hst1 (by omega)).mono ?_
          intro r hr st' rest he
          have := hr st' rest he
          omega

/-! ### the digit loop accepts -/

theorem dot_ne : hch '.' ≠ hch 'p' ∧ hch '.' ≠ hch 'P' := by decide

/-- hexadecimal digits are neither points nor exponent marks -/
theorem hexDigit_sep : ∀ c : HByte, (List.range 16).all (fun d =>
    decide (((bytes "0123456789abcdef")[d]? = some c ∨ (bytes "0123456789ABCDEF")[d]? = some c) →
      c ≠ hch '.' ∧ c ≠ hch 'p' ∧ c ≠ hch 'P')) = true := by
  decide +kernel

theorem HexSpec.IsHexDigit.sep {c d} (h : IsHexDigit c d) : c ≠ hch '.' ∧ c ≠ hch 'p' ∧ c ≠ hch 'P' := by
  have := hexDigit_sep c
  simp only [List.all_eq_true, List.mem_range, decide_eq_true_eq] at this
  exact this d h.lt h

theorem hexStep_flags (d : HByte) (st : HexState) :
    Part (hexStep d st) (fun st' => st'.seenPoint = st.seenPoint ∧ st'.someDigits = true) := by
  unfold hexStep
  have tr : ∀ {α} (m : M α), Part m (fun _ => True) := fun _ _ _ => trivial
  exact Part.bind (tr _) (fun t _ => Part.bind (tr _) (fun r _ => Part.bind (tr _) (fun e _ => Part.pure ⟨rfl, rfl⟩)))

theorem hexLoop_acceptF {F : List HByte} {fd : List Nat} (hF : List.Forall₂ IsHexDigit F fd) {p : HByte}
    (hp : p = hch 'p' ∨ p = hch 'P') (rest : List HByte) : ∀ st : HexState,
    Part (hexLoop (F ++ p :: rest) st) (fun r => ∃ st', r = .ok (st', rest) ∧
      (st.someDigits = true ∨ fd ≠ [] → st'.someDigits = true)) := by
  induction hF with
  | nil =>
    intro st
    rw [List.nil_append, hexLoop, if_neg (by rcases hp with rfl | rfl <;> decide), if_pos hp]
    exact Part.pure ⟨st, rfl, by simp⟩
  | cons h _ ih =>
    intro st
    obtain ⟨s1, s2, s3⟩ := h.sep
    rw [List.cons_append, hexLoop, if_neg s1, if_neg (by tauto)]
    refine Part.bind (hexDigit_spec _).part ?_
    rintro r ⟨_, hr⟩
    cases r with
    | none => exact absurd h (hr rfl _)
    | some d =>
      refine Part.bind (hexStep_flags d st) ?_
      rintro st1 ⟨_, hsd⟩
      refine (ih st1).mono ?_
      rintro r ⟨st', e, hs⟩
      exact ⟨st', e, fun _ => hs (Or.inl hsd)⟩

theorem hexLoop_accept {I F P : List HByte} {id fd : List Nat} (hI : List.Forall₂ IsHexDigit I id)
    (hF : List.Forall₂ IsHexDigit F fd) (hP : P = bytes "." ∨ P = [] ∧ F = []) {p : HByte}
    (hp : p = hch 'p' ∨ p = hch 'P') (rest : List HByte) : ∀ st : HexState, st.seenPoint = false →
    Part (hexLoop (I ++ P ++ F ++ p :: rest) st) (fun r => ∃ st', r = .ok (st', rest) ∧
      (st.someDigits = true ∨ id ++ fd ≠ [] → st'.someDigits = true)) := by
  induction hI with
  | nil =>
    intro st hsp
    rcases hP with rfl | ⟨rfl, rfl⟩
    · show Part (hexLoop (hch '.' :: (F ++ p :: rest)) st) _
      rw [hexLoop, if_pos rfl, if_neg (by rw [hsp]; simp)]
      exact hexLoop_acceptF hF hp rest _
    · have := List.forall₂_nil_left_iff.mp hF
      subst this
      exact hexLoop_acceptF List.Forall₂.nil hp rest _
  | cons h _ ih =>
    intro st hsp
    obtain ⟨s1, s2, s3⟩ := h.sep
    rw [List.cons_append, List.cons_append, List.cons_append, hexLoop, if_neg s1, if_neg (by tauto)]
    refine Part.bind (hexDigit_spec _).part ?_
    rintro r ⟨_, hr⟩
    cases r with
    | none => exact absurd h (hr rfl _)
    | some d =>
      refine Part.bind (hexStep_flags d st) ?_
      rintro st1 ⟨hst1, hsd⟩
      refine (ih st1 (by rw [hst1]; exact hsp)).mono ?_
      rintro r ⟨st', e, hs⟩
      exact ⟨st', e, fun _ => hs (Or.inl hsd)⟩

/-- what is left is the text after a `p`, or nothing -/
theorem hexLoop_rest (b : List HByte) : ∀ st : HexState, Part (hexLoop b st) (fun r => ∀ st' rest, r = .ok (st', rest) →
    rest = [] ∨ ∃ pre p, b = pre ++ p :: rest ∧ (p = hch 'p' ∨ p = hch 'P')) := by
  induction b with
  | nil =>
    intro st
    apply Part.pure
    intro st' rest he
    injection he with he
    injection he with he1 he2
    exact Or.inl he2.symm
  | cons c b ih =>
    intro st
    rw [hexLoop]
    have errp : ∀ er : HexErr, Part (pure (.error er) : M (Except HexErr (HexState × List HByte)))
        (fun r => ∀ st' rest, r = .ok (st', rest) →
        rest = [] ∨ ∃ pre p, c :: b = pre ++ p :: rest ∧ (p = hch 'p' ∨ p = hch 'P')) :=
      fun er => Part.pure (by intro _ _ h; exact absurd h (by simp))
    have step : ∀ {m}, Part m (fun r => ∀ st' rest, r = .ok (st', rest) →
        rest = [] ∨ ∃ pre p, b = pre ++ p :: rest ∧ (p = hch 'p' ∨ p = hch 'P')) →
        Part (α := Except HexErr (HexState × List HByte)) m (fun r => ∀ st' rest, r = .ok (st', rest) →
        rest = [] ∨ ∃ pre p, c :: b = pre ++ p :: rest ∧ (p = hch 'p' ∨ p = hch 'P')) := by
      intro m hm
      refine hm.mono ?_
      intro r hr st' rest he
      rcases hr st' rest he with h | ⟨pre, p, h1, h2⟩
      · exact Or.inl h
      · exact Or.inr ⟨c :: pre, p, by rw [h1]; rfl, h2⟩
    split
    · split
      · exact errp _
      · exact step (ih _)
    · split
      · rename_i hp
        apply Part.pure
        intro st' rest he
        injection he with he
        injection he with he1 he2
        exact Or.inr ⟨[], c, by rw [he2]; rfl, hp⟩
      · refine Part.bind (hexDigit_spec c).part ?_
        intro r _
        cases r with
        | none => exact errp _
        | some d =>
          have tr : ∀ {α} (m : M α), Part m (fun _ => True) := fun _ _ _ => trivial
          exact Part.bind (tr _) (fun st1 _ => step (ih st1))

/-! ### the exponent loop -/

theorem decLoop_short (b : List HByte) : ∀ (p : Nat) (sd : Bool), (p + 1) * 10 ^ b.length ≤ 2 ^ 32 →
    Ok (decLoop b p sd) (fun r => ∀ p' sd', r = .ok (p', sd') → p' < (p + 1) * 10 ^ b.length) := by
  induction b with
  | nil =>
    intro p sd h
    apply Ok.pure'
    intro p' sd' he
    injection he with he
    injection he with he1 he2
    subst he1
    simp
  | cons c b ih =>
    intro p sd h
    rw [List.length_cons, Nat.pow_succ'] at h ⊢
    rw [← Nat.mul_assoc] at h ⊢
    have hpos : 0 < 10 ^ b.length := by positivity
    have hle : (p + 1) * 10 ≤ 2 ^ 32 := le_trans (Nat.le_mul_of_pos_right _ hpos) h
    rw [decLoop]
    refine Ok.bind (decDigit_spec c) ?_
    rintro r ⟨hr, _⟩
    cases r with
    | none => exact Ok.pure' (by intro _ _ h; exact absurd h (by simp))
    | some d =>
      obtain ⟨_, hd⟩ := hr d rfl
      have hm : min (p * 10) (2 ^ 32 - 1) = p * 10 := by omega
      have hu : u32C (min (p * 10) (2 ^ 32 - 1) + d.toNat) = .ok (p * 10 + d.toNat) := by
        rw [hm]; unfold u32C; rw [if_pos (by omega)]
      dsimp only
      rw [hu]
      simp only [ok_bind]
      have hle2 : (p * 10 + d.toNat + 1) * 10 ^ b.length ≤ (p + 1) * 10 * 10 ^ b.length :=
        Nat.mul_le_mul_right _ (by omega)
      refine (ih _ true (by omega)).mono ?_
      intro r hr p' sd' he
      have := hr p' sd' he
      omega

theorem foldl_ge (D : List Nat) : ∀ p, p ≤ D.foldl (fun a d => a * 10 + d) p := by
  induction D with
  | nil => intro p; exact le_refl _
  | cons d D ih => intro p; exact le_trans (by omega) (ih (p * 10 + d))

theorem decLoop_accept {b : List HByte} {D : List Nat} (hD : List.Forall₂ IsDecDigit b D) : ∀ (p : Nat) (sd : Bool),
    D.foldl (fun a d => a * 10 + d) p < 2 ^ 32 →
    Ok (decLoop b p sd) (fun r => r = .ok (D.foldl (fun a d => a * 10 + d) p, sd || (D ≠ [] : Bool))) := by
  induction hD with
  | nil => intro p sd _; exact Ok.pure' (by simp)
  | cons h _ ih =>
    rename_i c d b D _
    intro p sd hlt
    rw [List.foldl_cons] at hlt ⊢
    have := foldl_ge D (p * 10 + d)
    rw [decLoop]
    refine Ok.bind (decDigit_spec _) ?_
    rintro r ⟨hr1, hr⟩
    cases r with
    | none => exact absurd h (hr rfl _)
    | some d' =>
      have hdd := (hr1 d' rfl).1.unique h
      have hm : min (p * 10) (2 ^ 32 - 1) = p * 10 := by omega
      have hu : u32C (min (p * 10) (2 ^ 32 - 1) + d'.toNat) = .ok (p * 10 + d) := by
        rw [hm, hdd]; unfold u32C; rw [if_pos (by omega)]
      dsimp only
      rw [hu]
      simp only [ok_bind]
      refine (ih _ true hlt).mono ?_
      rintro r rfl
      simp

theorem decLoop_acceptP {b : List HByte} {D : List Nat} (hD : List.Forall₂ IsDecDigit b D) : ∀ (p : Nat) (sd : Bool),
    Part (decLoop b p sd) (fun r => ∃ p', r = .ok (p', sd || (D ≠ [] : Bool))) := by
  induction hD with
  | nil => intro p sd; exact Part.pure ⟨p, by simp⟩
  | cons h _ ih =>
    intro p sd
    rw [decLoop]
    refine Part.bind (decDigit_spec _).part ?_
    rintro r ⟨hr1, hr⟩
    cases r with
    | none => exact absurd h (hr rfl _)
    | some d' =>
      have tr : ∀ {α} (m : M α), Part m (fun _ => True) := fun _ _ _ => trivial
      refine Part.bind (tr _) (fun p1 _ => ?_)
      refine (ih p1 true).mono ?_
      rintro r ⟨p', rfl⟩
      exact ⟨p', by simp⟩

/-! ### signs -/

theorem hexdec_sign : ∀ c : HByte, (List.range 10).all (fun d =>
    decide ((bytes "0123456789")[d]? = some c → c ≠ hch '-' ∧ c ≠ hch '+')) = true := by
  decide +kernel

theorem HexSpec.IsDecDigit.nosign {c d} (h : IsDecDigit c d) : c ≠ hch '-' ∧ c ≠ hch '+' := by
  have := hexdec_sign c
  simp only [List.all_eq_true, List.mem_range, decide_eq_true_eq] at this
  exact this d h.lt h

/-- text that does not start with a sign -/
def NoSign (t : List HByte) : Prop := ∀ c r, t = c :: r → c ≠ hch '-' ∧ c ≠ hch '+'

theorem sign_drop {g t : List HByte} {neg : Bool} (hg : IsSign g neg) (ht : NoSign t) :
    isNeg (g ++ t) = neg ∧ dropSign (g ++ t) = t := by
  cases hg with
  | none =>
    rw [List.nil_append]
    cases t with
    | nil => exact ⟨rfl, rfl⟩
    | cons c r =>
      obtain ⟨h1, h2⟩ := ht c r rfl
      refine ⟨by show decide _ = _; simp [h1], ?_⟩
      show (if _ then _ else _) = _
      rw [if_neg (by tauto)]
  | plus => exact ⟨rfl, rfl⟩
  | minus => exact ⟨rfl, rfl⟩

theorem nosign_dec {b : List HByte} {D : List Nat} (hD : List.Forall₂ IsDecDigit b D) : NoSign b := by
  intro c r hc
  subst hc
  cases hD with
  | cons h _ => exact h.nosign

theorem nosign_lit {t : List HByte} {l : Lit} (h : IsLit t l) : NoSign t := by
  obtain ⟨x, b, rfl, _⟩ := isLit_iff.mp h
  intro c r hc
  injection hc with h1 h2
  rw [← h1]; decide

theorem nosign_inf {t : List HByte} (h : IsInfText t) : NoSign t := by
  obtain ⟨a, b, c, rfl, ha, _⟩ := h
  intro c r hc
  injection hc with h1 h2
  rw [← h1]
  rw [← mem2 (l := 'i') (u := 'I') rfl, isCh_iff] at ha
  rcases ha with rfl | rfl <;> decide

theorem nosign_nan {t : List HByte} (h : IsNanText t) : NoSign t := by
  obtain ⟨a, b, c, rfl, ha, _⟩ := h
  intro c r hc
  injection hc with h1 h2
  rw [← h1]
  rw [← mem2 (l := 'n') (u := 'N') rfl, isCh_iff] at ha
  rcases ha with rfl | rfl <;> decide

/-! ### literals are unambiguous -/

theorem forall2_unique {R : HByte → Nat → Prop} (hR : ∀ {c d d'}, R c d → R c d' → d = d') {a : List HByte} :
    ∀ {x y : List Nat}, List.Forall₂ R a x → List.Forall₂ R a y → x = y := by
  induction a with
  | nil => intro x y hx hy; cases hx; cases hy; rfl
  | cons c a ih =>
    intro x y hx hy
    cases hx with
    | cons h1 h2 => cases hy with
      | cons h3 h4 => rw [hR h1 h3, ih h2 h4]

theorem digits_split {a a' : List HByte} {x x' : List Nat} (h : List.Forall₂ IsHexDigit a x)
    (h' : List.Forall₂ IsHexDigit a' x') {c c' : HByte} {t t' : List HByte}
    (hc : ∀ d, ¬ IsHexDigit c d) (hc' : ∀ d, ¬ IsHexDigit c' d) (e : a ++ c :: t = a' ++ c' :: t') :
    x = x' ∧ c = c' ∧ t = t' := by
  induction h generalizing a' x' with
  | nil =>
    cases h' with
    | nil => injection e with e1 e2; exact ⟨rfl, e1, e2⟩
    | cons h1 _ => injection e with e1 e2; subst e1; exact absurd h1 (hc _)
  | cons h1 _ ih =>
    cases h' with
    | nil => injection e with e1 e2; subst e1; exact absurd h1 (hc' _)
    | cons h2 h3 =>
      injection e with e1 e2
      subst e1
      obtain ⟨q1, q2, q3⟩ := ih h3 e2
      exact ⟨by rw [h1.unique h2, q1], q2, q3⟩

theorem not_digit_dot (d : Nat) : ¬ IsHexDigit (hch '.') d := fun h => h.sep.1 rfl
theorem not_digit_p {p : HByte} (hp : p = hch 'p' ∨ p = hch 'P') (d : Nat) : ¬ IsHexDigit p d := by
  intro h
  rcases hp with rfl | rfl
  · exact h.sep.2.1 rfl
  · exact h.sep.2.2 rfl

theorem p_byte {p : List HByte} (hp : p = bytes "p" ∨ p = bytes "P") : ∃ c, p = [c] ∧ (c = hch 'p' ∨ c = hch 'P') := by
  rcases hp with rfl | rfl
  · exact ⟨hch 'p', rfl, Or.inl rfl⟩
  · exact ⟨hch 'P', rfl, Or.inr rfl⟩

theorem exp_unique {g D g' D' : List HByte} {n n' : Bool} {x x' : List Nat} (hg : IsSign g n) (hg' : IsSign g' n')
    (hD : List.Forall₂ IsDecDigit D x) (hD' : List.Forall₂ IsDecDigit D' x') (e : g ++ D = g' ++ D') :
    n = n' ∧ x = x' := by
  obtain ⟨a1, a2⟩ := sign_drop hg (nosign_dec hD)
  obtain ⟨b1, b2⟩ := sign_drop hg' (nosign_dec hD')
  rw [e] at a1 a2
  have : D = D' := by rw [← a2, b2]
  subst this
  exact ⟨by rw [← a1, b1], forall2_unique (fun h h' => h.unique h') hD hD'⟩

theorem isBody_unique {b : List HByte} {l l' : Lit} (h : IsBody b l) (h' : IsBody b l') : l = l' := by
  obtain ⟨I, P, F, p, g, D, hb, hI, hF, hP, _, hp, hg, hD, _⟩ := h
  obtain ⟨I', P', F', p', g', D', hb', hI', hF', hP', _, hp', hg', hD', _⟩ := h'
  obtain ⟨c, rfl, hc⟩ := p_byte hp
  obtain ⟨c', rfl, hc'⟩ := p_byte hp'
  have dot : bytes "." = [hch '.'] := rfl
  have hcdot : hch '.' ≠ c := by rcases hc with rfl | rfl <;> decide
  have hcdot' : hch '.' ≠ c' := by rcases hc' with rfl | rfl <;> decide
  have fin : l.int = l'.int → l.frac = l'.frac → g ++ D = g' ++ D' → l = l' := by
    intro e1 e2 e3
    obtain ⟨e4, e5⟩ := exp_unique hg hg' hD hD' e3
    cases l; cases l'
    simp only at e1 e2 e4 e5
    subst e1 e2 e4 e5
    rfl
  rcases hP with rfl | ⟨rfl, rfl⟩
  · rcases hP' with rfl | ⟨rfl, rfl⟩
    · have e : I ++ hch '.' :: (F ++ c :: (g ++ D)) = I' ++ hch '.' :: (F' ++ c' :: (g' ++ D')) := by
        have := hb.symm.trans hb'
        rw [dot] at this
        simpa using this
      obtain ⟨e1, _, e2⟩ := digits_split hI hI' not_digit_dot not_digit_dot e
      obtain ⟨e3, _, e4⟩ := digits_split hF hF' (not_digit_p hc) (not_digit_p hc') e2
      exact fin e1 e3 e4
    · have e : I ++ hch '.' :: (F ++ c :: (g ++ D)) = I' ++ c' :: (g' ++ D') := by
        have := hb.symm.trans hb'
        rw [dot] at this
        simpa using this
      obtain ⟨_, e2, _⟩ := digits_split hI hI' not_digit_dot (not_digit_p hc') e
      exact absurd e2 hcdot'
  · rcases hP' with rfl | ⟨rfl, rfl⟩
    · have e : I ++ c :: (g ++ D) = I' ++ hch '.' :: (F' ++ c' :: (g' ++ D')) := by
        have := hb.symm.trans hb'
        rw [dot] at this
        simpa using this
      obtain ⟨_, e2, _⟩ := digits_split hI hI' (not_digit_p hc) not_digit_dot e
      exact absurd e2.symm hcdot
    · have e : I ++ c :: (g ++ D) = I' ++ c' :: (g' ++ D') := by
        have := hb.symm.trans hb'
        simpa using this
      obtain ⟨e1, _, e2⟩ := digits_split hI hI' (not_digit_p hc) (not_digit_p hc') e
      have hf := List.forall₂_nil_left_iff.mp hF
      have hf' := List.forall₂_nil_left_iff.mp hF'
      exact fin e1 (by rw [hf, hf']) e2

theorem isLit_unique {t : List HByte} {l l' : Lit} (h : IsLit t l) (h' : IsLit t l') : l = l' := by
  obtain ⟨x, b, rfl, _, hb⟩ := isLit_iff.mp h
  obtain ⟨x', b', e, _, hb'⟩ := isLit_iff.mp h'
  injection e with _ e
  injection e with _ e
  subst e
  exact isBody_unique hb hb'

/-! ### `parse_hex` -/

theorem Ok.and_part {α} {m : M α} {P Q : α → Prop} (h : Ok m P) (h' : Part m Q) : Ok m (fun a => P a ∧ Q a) := by
  obtain ⟨a, e, hp⟩ := h
  exact ⟨a, e, hp, h' a e⟩

theorem isBody_split {b : List HByte} {l : Lit} (h : IsBody b l) : ∃ I P F c g D, b = I ++ P ++ F ++ c :: (g ++ D) ∧
    List.Forall₂ IsHexDigit I l.int ∧ List.Forall₂ IsHexDigit F l.frac ∧
    (P = bytes "." ∨ P = [] ∧ F = []) ∧ l.int ++ l.frac ≠ [] ∧
    (c = hch 'p' ∨ c = hch 'P') ∧ IsSign g l.expNeg ∧ List.Forall₂ IsDecDigit D l.exp ∧ l.exp ≠ [] := by
  obtain ⟨I, P, F, p, g, D, hb, hI, hF, hP, hd, hp, hg, hD, hD0⟩ := h
  obtain ⟨c, rfl, hc⟩ := p_byte hp
  exact ⟨I, P, F, c, g, D, by rw [hb]; simp, hI, hF, hP, hd, hc, hg, hD, hD0⟩

/-- `parse_hex` never rejects a literal -/
theorem parseHex_accept {b : List HByte} {l : Lit} (h : IsBody b l) :
    Part (parseHex b) (fun r => ∃ x, r = .ok x) := by
  obtain ⟨I, P, F, c, g, D, rfl, hI, hF, hP, hd, hc, hg, hD, hD0⟩ := isBody_split h
  unfold parseHex
  refine Part.bind (hexLoop_accept hI hF hP hc _ _ rfl) ?_
  rintro _ ⟨st, rfl, hs⟩
  dsimp only
  rw [if_neg (by rw [hs (Or.inr hd)]; simp), (sign_drop hg (nosign_dec hD)).2]
  refine Part.bind (decLoop_acceptP hD 0 false) ?_
  rintro _ ⟨p, rfl⟩
  dsimp only
  rw [if_neg (by simp [hD0])]
  exact Part.pure ⟨_, rfl⟩

/-- `parse_hex` does not fault on short text -/
theorem parseHex_total {b : List HByte} (hlen : b.length ≤ 2 ^ 27)
    (hexp : ∀ pre p rest, b = pre ++ p :: rest → (p = hch 'p' ∨ p = hch 'P') → rest.length ≤ 9) :
    Ok (parseHex b) (fun r => ∀ sig exp, r = .ok (sig, exp) → exp < 2 ^ 31 - 2 ^ 28 - 256) := by
  unfold parseHex
  refine Ok.bind ((hexLoop_total b _ 0 (by simp) (by omega)).and_part (hexLoop_rest b _)) ?_
  rintro r ⟨hr, hr2⟩
  cases r with
  | error e => exact Ok.pure' (by intro _ _ h; exact absurd h (by simp))
  | ok r =>
  obtain ⟨st, rest⟩ := r
  have hb := hr st rest rfl
  have hrest : rest.length ≤ 9 := by
    rcases hr2 st rest rfl with rfl | ⟨pre, p, h1, h2⟩
    · simp
    · exact hexp pre p rest h1 h2
  have hds : (dropSign rest).length ≤ 9 := by
    unfold dropSign
    split
    · split
      · rw [List.length_cons] at hrest; omega
      · exact hrest
    · exact hrest
  dsimp only
  split
  · exact Ok.pure' (by intro _ _ h; exact absurd h (by simp))
  have hpow : 10 ^ (dropSign rest).length ≤ 10 ^ 9 := Nat.pow_le_pow_right (by omega) hds
  refine Ok.bind (decLoop_short (dropSign rest) 0 false (by omega)) ?_
  intro r hr
  cases r with
  | error e => exact Ok.pure' (by intro _ _ h; exact absurd h (by simp))
  | ok r =>
  obtain ⟨p, sd⟩ := r
  have hp := hr p sd rfl
  dsimp only
  split
  · exact Ok.pure' (by intro _ _ h; exact absurd h (by simp))
  apply Ok.pure'
  intro sig exp he
  injection he with he
  injection he with he1 he2
  rw [← he2]
  split <;> omega

/-- `parse_hex` does not fault on a literal of moderate length and exponent -/
theorem parseHex_total_lit {b : List HByte} {l : Lit} (h : IsBody b l) (hlen : b.length ≤ 2 ^ 27)
    (hexp : ofDigits 10 l.exp < if l.expNeg then 2 ^ 32 else 2 ^ 30) :
    Ok (parseHex b) (fun r => ∀ sig exp, r = .ok (sig, exp) → exp < 2 ^ 31 - 2 ^ 28 - 256) := by
  obtain ⟨I, P, F, c, g, D, rfl, hI, hF, hP, hd, hc, hg, hD, hD0⟩ := isBody_split h
  unfold parseHex
  generalize hbl : (I ++ P ++ F ++ c :: (g ++ D)).length = len at hlen
  refine Ok.bind ((hexLoop_total _ _ 0 (by simp) (by omega)).and_part (hexLoop_accept hI hF hP hc _ _ rfl)) ?_
  rintro _ ⟨hr, st, rfl, hs⟩
  have hb := hr st _ rfl
  rw [hbl] at hb
  dsimp only
  obtain ⟨s1, s2⟩ := sign_drop hg (nosign_dec hD)
  have hlt : l.exp.foldl (fun a d => a * 10 + d) 0 < 2 ^ 32 := by
    show ofDigits 10 l.exp < _
    split at hexp <;> omega
  rw [if_neg (by rw [hs (Or.inr hd)]; simp), s2, s1]
  refine Ok.bind (decLoop_accept hD 0 false hlt) ?_
  rintro _ rfl
  dsimp only
  rw [if_neg (by simp [hD0])]
  apply Ok.pure'
  intro sig exp he
  injection he with he
  injection he with he1 he2
  rw [← he2]
  change (if l.expNeg = true then max (st.exp - (ofDigits 10 l.exp : Nat)) _ else min (st.exp + (ofDigits 10 l.exp : Nat)) _) < _
  generalize ofDigits 10 l.exp = X at *
  split at hexp
  · rename_i hn
    rw [if_pos hn]; omega
  · rename_i hn
    rw [if_neg hn]; omega

/-! ### `parse_finite`, `parse_any` -/

theorem parseFinite_accept {e s : Nat} (c : HexCfg e s) {b : List HByte} {l : Lit} (h : IsBody b l) (round : Round) :
    Part (parseFinite b (e + s + 1) s round) (fun r => ∃ x, r = .ok x) := by
  rw [parseFinite_pre c]
  refine Part.bind (parseHex_accept h) ?_
  rintro _ ⟨⟨sig, exp⟩, rfl⟩
  dsimp only
  split
  · exact Part.pure ⟨_, rfl⟩
  · have tr : ∀ {α} (m : M α), Part m (fun _ => True) := fun _ _ _ => trivial
    exact Part.bind (tr _) (fun r _ => Part.pure ⟨_, rfl⟩)

theorem parseFinite_total {e s : Nat} (c : HexCfg e s) {b : List HByte} (round : Round)
    (h : Ok (parseHex b) (fun r => ∀ sig exp, r = .ok (sig, exp) → exp < 2 ^ 31 - 2 ^ 28 - 256)) :
    Ok (parseFinite b (e + s + 1) s round) (fun _ => True) := by
  rw [parseFinite_pre c]
  refine Ok.bind (h.and_part (parseHex_part b)) ?_
  rintro r ⟨hr, hr2⟩
  cases r with
  | error e => exact Ok.pure' trivial
  | ok r =>
  obtain ⟨sig, exp⟩ := r
  have hexp := hr sig exp rfl
  obtain ⟨l, hbody, v, e0, hval, hst, he⟩ := hr2 sig exp rfl
  dsimp only
  split
  · exact Ok.pure' trivial
  · rename_i h0
    have hN : sig.toNat ≠ 0 := fun h => h0 (BitVec.eq_of_toNat_eq h)
    obtain ⟨hp1, hp2⟩ := c.pe
    have hs := c.hs; have hs2 := c.hs2
    have hbw := bitLen_le_width sig
    have hml : minLsb e s = 2 - 2 ^ (e - 1) - s := rfl
    have hfit : ExpFits s (minLsb e s) (bitLen sig.toNat - 1 : Int) exp := by
      unfold ExpFits
      rw [hml]
      generalize (2 : Int) ^ (e - 1) = P at *
      omega
    refine Ok.bind (finishFinite_spec c.he c.he2 c.hs c.hs2 c.hes rfl hst h0 (by omega) hfit) ?_
    intro r _
    exact Ok.pure' trivial

/-- text that is accepted -/
def Grammatical (t : List HByte) : Prop := IsInfText t ∨ IsNanText t ∨ ∃ l, IsLit t l

theorem parseBody_accept {e s : Nat} (c : HexCfg e s) {b : List HByte} (h : Grammatical b) (neg : Bool)
    (i nan : BitVec 128) (round : Round) :
    Part (parseBody b neg i nan (e + s + 1) s round) (fun r => ∃ x, r = .ok x) := by
  rcases h with ⟨x, y, z, rfl, h1, h2, h3⟩ | ⟨x, y, z, rfl, h1, h2, h3⟩ | ⟨l, h⟩
  · unfold parseBody
    have e1 := (mem2 (l := 'i') (u := 'I') rfl).mpr h1
    have e2 := (mem2 (l := 'n') (u := 'N') rfl).mpr h2
    have e3 := (mem2 (l := 'f') (u := 'F') rfl).mpr h3
    dsimp only
    rw [if_pos (by rw [e1, e2, e3]; rfl)]
    exact Part.pure ⟨_, rfl⟩
  · unfold parseBody
    have e1 := (mem2 (l := 'n') (u := 'N') rfl).mpr h1
    have e2 := (mem2 (l := 'a') (u := 'A') rfl).mpr h2
    have e3 := (mem2 (l := 'n') (u := 'N') rfl).mpr h3
    dsimp only
    split
    · exact Part.pure ⟨_, rfl⟩
    · rw [if_pos (by rw [e1, e2, e3]; rfl)]
      exact Part.pure ⟨_, rfl⟩
  · obtain ⟨x, b', rfl, hx, hb⟩ := isLit_iff.mp h
    have hi : isCh (hch '0') 'i' 'I' = false := by decide
    have hn : isCh (hch '0') 'n' 'N' = false := by decide
    unfold parseBody
    split
    · rename_i a1 a2 a3 heq
      injection heq with q1 q2
      injection q2 with q2 q3
      subst q1 q2 q3
      rw [if_neg (by rw [hi]; simp), if_neg (by rw [hn]; simp), if_pos ⟨rfl, hx⟩]
      exact parseFinite_accept c hb _
    · rename_i a1 a2 a3 _ heq
      injection heq with q1 q2
      injection q2 with q2 q3
      subst q1 q2 q3
      rw [if_pos ⟨rfl, hx⟩]
      exact parseFinite_accept c hb _
    · rename_i h1 h2
      exact absurd rfl (h2 _ _ _)

theorem parseBody_total {e s : Nat} (c : HexCfg e s) {b : List HByte} (neg : Bool) (i nan : BitVec 128) (round : Round)
    (h : ∀ x b', b = hch '0' :: x :: b' → isCh x 'x' 'X' = true →
      Ok (parseHex b') (fun r => ∀ sig exp, r = .ok (sig, exp) → exp < 2 ^ 31 - 2 ^ 28 - 256)) :
    Ok (parseBody b neg i nan (e + s + 1) s round) (fun _ => True) := by
  unfold parseBody
  split
  · split
    · exact Ok.pure' trivial
    · split
      · exact Ok.pure' trivial
      · split
        · rename_i hx
          exact parseFinite_total c _ (h _ _ (by rw [hx.1]) hx.2)
        · exact Ok.pure' trivial
  · split
    · rename_i hx
      exact parseFinite_total c _ (h _ _ (by rw [hx.1]) hx.2)
    · exact Ok.pure' trivial
  · exact Ok.pure' trivial

theorem parseAny_accept {e s : Nat} (c : HexCfg e s) {t : List HByte} (h : Grammatical (dropSign t)) (round : Round) :
    Part (parseAny t (e + s + 1) s round) (fun r => ∃ x, r = .ok x) := by
  obtain ⟨sb, nan, i, _, _, _, h4⟩ := parseAny_pre c t round
  rw [h4]
  refine Part.bind (parseBody_accept c h _ i nan round) ?_
  rintro _ ⟨⟨x, st⟩, rfl⟩
  exact Part.pure ⟨_, rfl⟩

theorem parseAny_total {e s : Nat} (c : HexCfg e s) {t : List HByte} (round : Round)
    (h : ∀ x b', dropSign t = hch '0' :: x :: b' → isCh x 'x' 'X' = true →
      Ok (parseHex b') (fun r => ∀ sig exp, r = .ok (sig, exp) → exp < 2 ^ 31 - 2 ^ 28 - 256)) :
    Ok (parseAny t (e + s + 1) s round) (fun _ => True) := by
  obtain ⟨sb, nan, i, _, _, _, h4⟩ := parseAny_pre c t round
  rw [h4]
  refine Ok.bind (parseBody_total c _ i nan round h) ?_
  intro r _
  cases r with
  | error e => exact Ok.pure' trivial
  | ok r => obtain ⟨x, st⟩ := r; exact Ok.pure' trivial

/-! ### infinity, NaN and literals exclude each other -/

theorem not_inf_lit {t : List HByte} (h : IsInfText t) : ¬ ∃ l, IsLit t l := by
  rintro ⟨l, hl⟩
  obtain ⟨x, b, rfl, _⟩ := isLit_iff.mp hl
  obtain ⟨a, b, c, e, ha, _⟩ := h
  injection e with e1
  rw [← e1] at ha
  exact absurd ha (by decide)

theorem not_nan_lit {t : List HByte} (h : IsNanText t) : ¬ ∃ l, IsLit t l := by
  rintro ⟨l, hl⟩
  obtain ⟨x, b, rfl, _⟩ := isLit_iff.mp hl
  obtain ⟨a, b, c, e, ha, _⟩ := h
  injection e with e1
  rw [← e1] at ha
  exact absurd ha (by decide)

theorem not_inf_nan {t : List HByte} (h : IsInfText t) (h' : IsNanText t) : False := by
  obtain ⟨a, b, c, rfl, ha, _⟩ := h
  obtain ⟨a', b', c', e, ha', _⟩ := h'
  injection e with e1
  rw [← e1] at ha'
  rw [← mem2 (l := 'i') (u := 'I') rfl, isCh_iff] at ha
  rcases ha with rfl | rfl <;> exact absurd ha' (by decide)

theorem Grammatical.noSign {t : List HByte} (h : Grammatical t) : NoSign t := by
  rcases h with h | h | ⟨l, h⟩
  · exact nosign_inf h
  · exact nosign_nan h
  · exact nosign_lit h

end Verif
