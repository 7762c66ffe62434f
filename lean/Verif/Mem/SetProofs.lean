import Verif.Mem.ForwardProofs
/-! # Proofs about the generic fill, comparison and string length -/
namespace Verif.Mem
variable {E : Env}

/-- `s` is `s0` with `n` bytes at `D` set to `c`. -/
def Filled (s0 s : Store) (c : Byte) (D n : Nat) : Prop :=
  ∀ a, s a = if D ≤ a ∧ a < D + n then c else s0 a

/-- What a fill of `N` bytes at `D` may rely on. -/
structure FillPre (E : Env) (D N : Nat) : Prop where
  good : E.Good
  hD : D + N < E.space
  wr : ∀ i, i < N → E.canW (D + i) = true

theorem filled_put {s0 s : Store} {c : Byte} {D i m : Nat} {f : Nat → Byte} (h : Filled s0 s c D i)
    (hf : ∀ k, k < m → f k = c) : Filled s0 (put s (D + i) m f) c D (i + m) := by
  intro a
  simp only [put]
  by_cases ha : D + i ≤ a ∧ a < D + i + m
  · rw [if_pos ha, if_pos (by omega), hf _ (by omega)]
  · rw [if_neg ha, h a]
    by_cases hb : D ≤ a ∧ a < D + i
    · rw [if_pos hb, if_pos (by omega)]
    · rw [if_neg hb, if_neg (by omega)]

theorem sbBytesLoop_spec {D N : Nat} (H : FillPre E D N) {s0 : Store} {c : Byte} :
    ∀ (fuel i m : Nat) (s : Store), m < fuel → i + m ≤ N → Filled s0 s c D i →
      OkS (sbBytesLoop E c fuel (D + i) (D + i + m)) s (fun _ s' => Filled s0 s' c D (i + m)) := by
  intro fuel
  have h1 := H.hD
  induction fuel with
  | zero => intros; omega
  | succ fuel ih =>
    intro i m s hm hi hc
    unfold sbBytesLoop
    by_cases h : D + i < D + i + m
    · rw [if_pos h]
      refine OkS.bind (writeB_spec (H.wr i (by omega))) ?_
      rintro _ s2 rfl
      rw [padd_eq (by omega)]
      have := ih (i + 1) (m - 1) _ (by omega) (by omega) (filled_put (m := 1) hc (f := fun _ => c) (fun _ _ => rfl))
      rw [show D + (i + 1) + (m - 1) = D + i + m by omega, show i + 1 + (m - 1) = i + m by omega] at this
      exact this
    · rw [if_neg h]
      have : m = 0 := by omega
      subst this
      exact OkS.pure' hc

theorem sbBytes_spec {D N : Nat} (H : FillPre E D N) {s0 : Store} {c : Byte} (i m : Nat) (s : Store)
    (hi : i + m ≤ N) (hc : Filled s0 s c D i) :
    OkS (sbBytes E (D + i) c m) s (fun _ s' => Filled s0 s' c D (i + m)) := by
  have h1 := H.hD
  unfold sbBytes
  rw [padd_eq (by omega)]
  exact sbBytesLoop_spec H _ _ _ _ (by omega) hi hc

/-- Low `8*m` bits of `b` are copies of `c`, the rest is zero. -/
def Bcast (c : Byte) {w : Nat} (b : BitVec w) (bits : Nat) : Prop :=
  ∀ j, b.getLsbD j = (decide (j < bits ∧ j < w) && c.getLsbD (j % 8))

theorem broadcastLoop_spec (hE : E.Good) (c : Byte) :
    Ok (broadcastLoop E (E.ws * 8 + 1) (c.setWidth (8 * E.ws)) 8) (fun b => Bcast c b (8 * E.ws)) := by
  have step : ∀ (bits : Nat) (b : BitVec (8 * E.ws)), bits % 8 = 0 → Bcast c b bits → Bcast c (b ||| b <<< bits) (bits * 2) := by
    intro bits b hb h j
    rw [BitVec.getLsbD_or, BitVec.getLsbD_shiftLeft, h, h]
    by_cases h1 : j < bits
    · have h2 : j < bits * 2 := by omega
      simp [h1, h2]
    · have e : (j - bits) % 8 = j % 8 := by omega
      have h3 : (j - bits < bits) ↔ j < bits * 2 := by omega
      rw [e]
      simp only [h1, h3, false_and, decide_false, Bool.false_and, Bool.false_or, Bool.not_false, Bool.and_true]
      by_cases h4 : j < bits * 2 <;> by_cases h5 : j < 8 * E.ws <;> simp [h4, h5]
      intro h; omega
  have init : Bcast c (c.setWidth (8 * E.ws)) 8 := by
    intro j
    rw [BitVec.getLsbD_setWidth]
    by_cases h : j < 8
    · have : j % 8 = j := by omega
      have h' : j < 8 * E.ws := by have := ws_pos hE; omega
      rw [this]; simp [h, h']
    · simp [BitVec.getLsbD_of_ge c j (by omega), h]
  have unroll : ∀ fuel (b : BitVec (8 * E.ws)) bits, bits < E.ws * 8 →
      broadcastLoop E (fuel + 1) b bits = broadcastLoop E fuel (b ||| b <<< bits) (bits * 2) := by
    intro fuel b bits h
    rw [broadcastLoop, if_pos h, shlC, if_pos (by omega)]; rfl
  have stop : ∀ fuel (b : BitVec (8 * E.ws)) bits, ¬ bits < E.ws * 8 → broadcastLoop E (fuel + 1) b bits = .ok b := by
    intro fuel b bits h
    rw [broadcastLoop, if_neg h]; rfl
  rcases hE with e | e | e
  · rw [show E.ws * 8 + 1 = 15 + 1 + 1 by omega, unroll _ _ _ (by omega), stop _ _ _ (by omega), ok_iff,
      show 8 * E.ws = 8 * 2 by omega]
    have := step _ _ (by omega) init
    intro j; have := this j; rw [show 8 * E.ws = 8 * 2 by omega] at this
    exact this
  · rw [show E.ws * 8 + 1 = 30 + 1 + 1 + 1 by omega, unroll _ _ _ (by omega), unroll _ _ _ (by omega), stop _ _ _ (by omega), ok_iff]
    have := step _ _ (by omega) (step _ _ (by omega) init)
    rwa [show 8 * 2 * 2 = 8 * E.ws by omega] at this
  · rw [show E.ws * 8 + 1 = 61 + 1 + 1 + 1 + 1 by omega, unroll _ _ _ (by omega), unroll _ _ _ (by omega), unroll _ _ _ (by omega),
      stop _ _ _ (by omega), ok_iff]
    have := step _ _ (by omega) (step _ _ (by omega) (step _ _ (by omega) init))
    rwa [show 8 * 2 * 2 * 2 = 8 * E.ws by omega] at this

theorem byteOf_bcast {c : Byte} {b : BitVec (8 * E.ws)} (h : Bcast c b (8 * E.ws)) {k : Nat} (hk : k < E.ws) :
    byteOf E.be E.ws b k = c := by
  apply BitVec.eq_of_getLsbD_eq
  intro j hj
  have hp := bytePos_lt (be := E.be) hk
  rw [byteOf, BitVec.getLsbD_extractLsb', h]
  have e2 : (8 * bytePos E.be E.ws k + j) % 8 = j := by omega
  have h3 : 8 * bytePos E.be E.ws k + j < 8 * E.ws := by omega
  rw [e2]; simp [hj, h3]

theorem sbWordsLoop_spec {D N : Nat} (H : FillPre E D N) {s0 : Store} {c : Byte} {w : BitVec (8 * E.ws)}
    (hb : Bcast c w (8 * E.ws)) :
    ∀ (fuel i m : Nat) (s : Store), m < fuel → i + m ≤ N → m % E.ws = 0 → (D + i) % E.ws = 0 → Filled s0 s c D i →
      OkS (sbWordsLoop E w fuel (D + i) (D + i + m)) s (fun _ s' => Filled s0 s' c D (i + m)) := by
  intro fuel
  have h1 := H.hD
  have hw := ws_pos H.good
  induction fuel with
  | zero => intros; omega
  | succ fuel ih =>
    intro i m s hm hi hmw hda hc
    unfold sbWordsLoop
    by_cases h : D + i < D + i + m
    · have hmle : E.ws ≤ m := Nat.le_of_dvd (by omega) (Nat.dvd_of_mod_eq_zero hmw)
      rw [if_pos h]
      refine OkS.bind (writeWord_spec (fun _ => hda) fun k hk => by have := H.wr (i + k) (by omega); rwa [← Nat.add_assoc] at this) ?_
      rintro _ s2 rfl
      rw [padd_eq (by omega)]
      have := ih (i + E.ws) (m - E.ws) _ (by omega) (by omega) (by rw [← Nat.mod_eq_sub_mod hmle]; exact hmw)
        (by rw [← Nat.add_assoc, Nat.add_mod_right]; exact hda)
        (filled_put (m := E.ws) hc (f := byteOf E.be E.ws w) (fun k hk => byteOf_bcast hb hk))
      rw [show D + (i + E.ws) + (m - E.ws) = D + i + m by omega, show i + E.ws + (m - E.ws) = i + m by omega,
          show D + (i + E.ws) = D + i + E.ws by omega] at this
      exact this
    · rw [if_neg h]
      have : m = 0 := by omega
      subst this
      exact OkS.pure' hc

theorem filled_zero (s : Store) (c : Byte) (D : Nat) : Filled s s c D 0 := by
  intro a; rw [if_neg (by omega)]

theorem setBytes_spec {D N : Nat} (H : FillPre E D N) (c : Byte) (s0 : Store) :
    OkS (setBytes E D c N) s0 (fun _ s' => Filled s0 s' c D N) := by
  have h1 := H.hD
  have hw := ws_pos H.good
  unfold setBytes
  refine OkS.bind (P := fun r s' => ∃ i, i ≤ N ∧ r = (D + i, N - i) ∧ Filled s0 s' c D i) ?_ ?_
  · by_cases hN : N ≥ threshold E
    · rw [if_pos hN]
      have hth := threshold_ge E
      obtain ⟨hm1, hm2⟩ := pneg_mod H.good (a := D) (by omega)
      generalize hmis : wmask E (pneg E D) = mis at hm1 hm2 ⊢
      have := sbBytes_spec H 0 mis s0 (by omega) (filled_zero _ c _)
      rw [Nat.add_zero, Nat.zero_add] at this
      refine OkS.bind this ?_
      rintro _ s1 hc
      rw [padd_eq (by omega)]
      refine OkS.bind (OkS.lift (nsubC_spec (by omega))) ?_
      rintro n s2 ⟨rfl, rfl⟩
      obtain ⟨w1, w2, w3⟩ := wround_spec H.good (N - mis)
      generalize hwd : wround E (N - mis) = nw at w1 w2 w3 ⊢
      refine OkS.bind (P := fun _ s' => Filled s0 s' c D (mis + nw)) ?_ ?_
      · unfold sbWords
        refine OkS.bind (OkS.lift (broadcastLoop_spec H.good c)) ?_
        rintro b s3 ⟨hb, rfl⟩
        rw [padd_eq (by omega)]
        exact sbWordsLoop_spec H hb _ mis nw _ (by omega) (by omega) w1 hm2 hc
      · rintro _ s3 hc3
        refine OkS.bind (OkS.lift (nsubC_spec (by omega))) ?_
        rintro n s4 ⟨rfl, rfl⟩
        refine OkS.pure' ⟨mis + nw, by omega, ?_, hc3⟩
        rw [padd_eq (by omega), Nat.add_assoc, Nat.sub_sub]
    · rw [if_neg hN]
      exact OkS.pure' ⟨0, by omega, rfl, filled_zero _ _ _⟩
  · rintro _ s1 ⟨i, hi, rfl, hc⟩
    have := sbBytes_spec H i (N - i) s1 (by omega) hc
    rw [show i + (N - i) = N by omega] at this
    exact this

theorem memset_spec {D N : Nat} (H : FillPre E D N) (c : BitVec 32) (s0 : Store) :
    OkS (memset E D c N) s0 (fun r s' => r = D ∧ Filled s0 s' (c.setWidth 8) D N) := by
  unfold memset
  refine OkS.bind (setBytes_spec H _ s0) ?_
  intro _ s' h
  exact OkS.pure' ⟨rfl, h⟩

/-! ### Comparison -/

/-- Lexicographic comparison of `n` unsigned bytes: the difference at the first position that differs. -/
def CmpResult (s : Store) (s1 s2 n : Nat) (r : Int) : Prop :=
  (∃ i, i < n ∧ (∀ j, j < i → s (s1 + j) = s (s2 + j)) ∧ s (s1 + i) ≠ s (s2 + i) ∧
    r = ((s (s1 + i)).toNat : Int) - ((s (s2 + i)).toNat : Int)) ∨
  ((∀ j, j < n → s (s1 + j) = s (s2 + j)) ∧ r = 0)

theorem cmpLoop_spec {s1 s2 n : Nat} (h1 : s1 + n < E.space) (h2 : s2 + n < E.space)
    (r1 : ∀ i, i < n → E.canR (s1 + i) = true) (r2 : ∀ i, i < n → E.canR (s2 + i) = true) (s : Store) :
    ∀ (fuel i : Nat), n < fuel + i → i ≤ n → (∀ j, j < i → s (s1 + j) = s (s2 + j)) →
      OkS (cmpLoop E s1 s2 n fuel i) s (fun r s' => s' = s ∧ CmpResult s s1 s2 n r) := by
  intro fuel
  induction fuel with
  | zero => intros; omega
  | succ fuel ih =>
    intro i hf hi heq
    unfold cmpLoop
    by_cases h : i < n
    · rw [if_pos h, padd_eq (by omega), padd_eq (by omega)]
      refine OkS.bind (readB_spec (r1 i h)) ?_
      rintro a s' ⟨rfl, rfl⟩
      refine OkS.bind (readB_spec (r2 i h)) ?_
      rintro b s' ⟨rfl, rfl⟩
      by_cases hab : s' (s1 + i) ≠ s' (s2 + i)
      · rw [if_pos hab]
        exact OkS.pure' ⟨rfl, .inl ⟨i, h, heq, hab, rfl⟩⟩
      · rw [if_neg hab]
        refine ih (i + 1) (by omega) (by omega) ?_
        intro j hj
        by_cases e : j = i
        · subst e; exact Decidable.not_not.1 hab
        · exact heq j (by omega)
    · rw [if_neg h]
      refine OkS.pure' ⟨rfl, .inr ⟨fun j hj => heq j (by omega), rfl⟩⟩

theorem memcmp_spec {s1 s2 n : Nat} (h1 : s1 + n < E.space) (h2 : s2 + n < E.space)
    (r1 : ∀ i, i < n → E.canR (s1 + i) = true) (r2 : ∀ i, i < n → E.canR (s2 + i) = true) (s : Store) :
    OkS (memcmp E s1 s2 n) s (fun r s' => s' = s ∧ CmpResult s s1 s2 n r) :=
  cmpLoop_spec h1 h2 r1 r2 s _ 0 (by omega) (by omega) (by intros; omega)

/-- With a difference at `d`, nothing beyond `d` is read. -/
theorem cmpLoop_first {s1 s2 n d : Nat} (hd : d < n) (h1 : s1 + d < E.space) (h2 : s2 + d < E.space)
    (r1 : ∀ i, i ≤ d → E.canR (s1 + i) = true) (r2 : ∀ i, i ≤ d → E.canR (s2 + i) = true) (s : Store)
    (heq : ∀ j, j < d → s (s1 + j) = s (s2 + j)) (hne : s (s1 + d) ≠ s (s2 + d)) :
    ∀ (fuel i : Nat), d < fuel + i → i ≤ d →
      OkS (cmpLoop E s1 s2 n fuel i) s (fun r s' => s' = s ∧ r = ((s (s1 + d)).toNat : Int) - ((s (s2 + d)).toNat : Int)) := by
  intro fuel
  induction fuel with
  | zero => intros; omega
  | succ fuel ih =>
    intro i hf hi
    unfold cmpLoop
    rw [if_pos (by omega), padd_eq (by omega), padd_eq (by omega)]
    refine OkS.bind (readB_spec (r1 i hi)) ?_
    rintro a s' ⟨rfl, rfl⟩
    refine OkS.bind (readB_spec (r2 i hi)) ?_
    rintro b s' ⟨rfl, rfl⟩
    by_cases h : i = d
    · subst h
      rw [if_pos hne]
      exact OkS.pure' ⟨rfl, rfl⟩
    · rw [if_neg (Decidable.not_not.2 (heq i (by omega)))]
      exact ih (i + 1) (by omega) (by omega)

/-! ### String length -/

theorem strlenLoop_spec {p k : Nat} (h1 : p + k < E.space) (hr : ∀ i, i ≤ k → E.canR (p + i) = true) (s : Store)
    (hz : s (p + k) = 0#8) (hnz : ∀ i, i < k → s (p + i) ≠ 0#8) :
    ∀ (fuel i : Nat), k < fuel + i → i ≤ k →
      OkS (strlenLoop E fuel (p + i) i) s (fun r s' => s' = s ∧ r = k) := by
  intro fuel
  induction fuel with
  | zero => intros; omega
  | succ fuel ih =>
    intro i hf hi
    unfold strlenLoop
    refine OkS.bind (readB_spec (hr i hi)) ?_
    rintro b s' ⟨rfl, rfl⟩
    by_cases h : i < k
    · rw [if_pos (hnz i h), if_pos (by omega), padd_eq (by omega)]
      exact ih (i + 1) (by omega) (by omega)
    · have : i = k := by omega
      subst this
      rw [if_neg (by simp [hz])]
      exact OkS.pure' ⟨rfl, rfl⟩

theorem strlen_spec {p k : Nat} (h1 : p + k < E.space) (hr : ∀ i, i ≤ k → E.canR (p + i) = true) (s : Store)
    (hz : s (p + k) = 0#8) (hnz : ∀ i, i < k → s (p + i) ≠ 0#8) :
    OkS (strlen E p) s (fun r s' => s' = s ∧ r = k) :=
  strlenLoop_spec h1 hr s hz hnz _ 0 (by omega) (by omega)

end Verif.Mem
