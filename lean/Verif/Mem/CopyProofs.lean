import Verif.Mem.Impls
/-! # Proofs about the generic copies -/
namespace Verif.Mem

/-- The pointer widths of the supported targets. -/
def Env.Good (E : Env) : Prop := E.ws = 2 ∨ E.ws = 4 ∨ E.ws = 8

/-- `s` is `s0` except that the bytes `lo..hi` of the copy `dest ← src` have been made. -/
def Copied (s0 s : Store) (D S lo hi : Nat) : Prop :=
  ∀ a, s a = if D + lo ≤ a ∧ a < D + hi then s0 (S + (a - D)) else s0 a

variable {E : Env}

theorem OkS.assert {β} {b : Bool} {f : Unit → MM β} {s : Store} {Q : β → Store → Prop} (h : b = true)
    (hf : OkS (f ()) s Q) : OkS (liftM (assertC b) >>= f) s Q := by
  refine OkS.bind (OkS.lift (assertC_spec h)) ?_
  rintro _ _ ⟨_, rfl⟩; exact hf

theorem wmask_eq (hE : E.Good) (a : Nat) : wmask E a = a % E.ws := by
  unfold wmask
  rcases hE with h | h | h <;> rw [h]
  · exact Nat.and_two_pow_sub_one_eq_mod a 1
  · exact Nat.and_two_pow_sub_one_eq_mod a 2
  · exact Nat.and_two_pow_sub_one_eq_mod a 3

theorem ws_pos (hE : E.Good) : 0 < E.ws := by rcases hE with h | h | h <;> omega
theorem ws_le (hE : E.Good) : E.ws ≤ 8 := by rcases hE with h | h | h <;> omega

theorem space_mod (hE : E.Good) : E.space % E.ws = 0 := by
  unfold Env.space
  rcases hE with h | h | h <;> rw [h]

theorem space_gt (hE : E.Good) : E.ws < E.space := by
  unfold Env.space
  rcases hE with h | h | h <;> rw [h] <;> decide

/-! ### Reassembly -/

theorem reasmF_spec {f g : Nat → Byte} {off : Nat} (h0 : 0 < off) (h1 : off < E.ws) :
    Ok (reasmF E (wordOf E.be E.ws f) (wordOf E.be E.ws g) (off * 8))
      (fun r => r = wordOf E.be E.ws (fun k => if k + off < E.ws then f (k + off) else g (k + off - E.ws))) := by
  unfold reasmF
  refine Ok.bind (nsubC_spec (by omega)) ?_
  rintro c rfl
  have hs : ∀ (x y : BitVec (8 * E.ws)) a b, a < 8 * E.ws → b < 8 * E.ws →
      (do let p ← shrC x a; let q ← shlC y b; pure (p ||| q) : M _) = .ok ((x >>> a) ||| (y <<< b)) := by
    intro x y a b ha hb
    simp [shrC, shlC, ha, hb]; rfl
  have hs' : ∀ (x y : BitVec (8 * E.ws)) a b, a < 8 * E.ws → b < 8 * E.ws →
      (do let p ← shlC x a; let q ← shrC y b; pure (p ||| q) : M _) = .ok ((x <<< a) ||| (y >>> b)) := by
    intro x y a b ha hb
    simp [shrC, shlC, ha, hb]; rfl
  cases hbe : E.be
  · simp only [Bool.not_false, if_true]
    rw [hs _ _ _ _ (by omega) (by omega), ok_iff]
    apply BitVec.eq_of_getLsbD_eq
    intro j hj
    rw [BitVec.getLsbD_or, BitVec.getLsbD_ushiftRight, BitVec.getLsbD_shiftLeft, getLsbD_wordOf hj]
    simp only [bytePos, Bool.false_eq_true, if_false]
    split
    · rw [getLsbD_wordOf (by omega)]
      simp only [bytePos, Bool.false_eq_true, if_false]
      have : j < E.ws * 8 - off * 8 := by omega
      simp only [this, decide_true, Bool.not_true, Bool.and_false, Bool.false_and, Bool.or_false]
      rw [show (off * 8 + j) / 8 = j / 8 + off by omega, show (off * 8 + j) % 8 = j % 8 by omega]
    · rw [BitVec.getLsbD_of_ge _ _ (by omega), getLsbD_wordOf (by omega)]
      simp only [bytePos, Bool.false_eq_true, if_false]
      have : ¬ j < E.ws * 8 - off * 8 := by omega
      simp only [this, hj, decide_true, decide_false, Bool.not_false, Bool.and_true, Bool.true_and, Bool.false_or]
      rw [show (j - (E.ws * 8 - off * 8)) / 8 = j / 8 + off - E.ws by omega,
        show (j - (E.ws * 8 - off * 8)) % 8 = j % 8 by omega]
  · simp only [Bool.not_true, Bool.false_eq_true, if_false]
    rw [hs' _ _ _ _ (by omega) (by omega), ok_iff]
    apply BitVec.eq_of_getLsbD_eq
    intro j hj
    rw [BitVec.getLsbD_or, BitVec.getLsbD_ushiftRight, BitVec.getLsbD_shiftLeft, getLsbD_wordOf hj]
    simp only [bytePos, if_true]
    split
    · have : ¬ j < off * 8 := by omega
      rw [BitVec.getLsbD_of_ge (wordOf true E.ws g) _ (by omega), getLsbD_wordOf (by omega)]
      simp only [bytePos, if_true]
      simp only [this, hj, decide_true, decide_false, Bool.not_false, Bool.and_true, Bool.true_and, Bool.or_false]
      rw [show E.ws - 1 - (j - off * 8) / 8 = E.ws - 1 - j / 8 + off by omega,
        show (j - off * 8) % 8 = j % 8 by omega]
    · have : j < off * 8 := by omega
      rw [getLsbD_wordOf (f := g) (by omega)]
      simp only [bytePos, if_true]
      simp only [this, decide_true, Bool.not_true, Bool.and_false, Bool.false_and, Bool.false_or]
      rw [show E.ws - 1 - (E.ws * 8 - off * 8 + j) / 8 = E.ws - 1 - j / 8 + off - E.ws by omega,
        show (E.ws * 8 - off * 8 + j) % 8 = j % 8 by omega]

theorem reasmB_eq (prev cur : BitVec (8 * E.ws)) (sh : Nat) : Ok (reasmF E cur prev sh) P → Ok (reasmB E prev cur sh) P := by
  rintro ⟨a, e, h⟩
  refine ⟨a, ?_, h⟩
  rw [← e]
  unfold reasmB reasmF nsubC
  by_cases h1 : sh ≤ E.ws * 8
  · rw [if_pos h1]
    simp only [ok_bind]
    cases E.be
    · simp only [Bool.not_false, if_true, shrC, shlC]
      split <;> split <;> first | rfl | (show Except.ok _ = Except.ok _; rw [BitVec.or_comm])
    · simp only [Bool.not_true, Bool.false_eq_true, if_false, shrC, shlC]
      split <;> split <;> first | rfl | (show Except.ok _ = Except.ok _; rw [BitVec.or_comm])
  · rw [if_neg h1]; rfl

theorem reasmB_spec {f g : Nat → Byte} {off : Nat} (h0 : 0 < off) (h1 : off < E.ws) :
    Ok (reasmB E (wordOf E.be E.ws g) (wordOf E.be E.ws f) (off * 8))
      (fun r => r = wordOf E.be E.ws (fun k => if k + off < E.ws then f (k + off) else g (k + off - E.ws))) :=
  reasmB_eq _ _ _ (reasmF_spec h0 h1)

/-! ### Partial words -/

theorem loadChunk_spec {c src d sz off : Nat} {out s : Store} (T : Nat)
    (ho : ∀ k, out k = if d ≤ k ∧ k < d + off then s (src + (k - d)) else 0#8)
    (hT : T = if sz &&& c ≠ 0 then off + c else off)
    (hor : sz &&& c ≠ 0 → off ||| c = off + c ∧ (src + off) % c = 0 ∧ (d + off) % c = 0 ∧ d + off + c ≤ E.ws ∧
      src + off < E.space ∧ ∀ i, i < c → E.canR (src + off + i) = true) :
    OkS (loadChunk E c src d sz off out) s
      (fun r s' => s' = s ∧ r.2 = T ∧ ∀ k, r.1 k = if d ≤ k ∧ k < d + T then s (src + (k - d)) else 0#8) := by
  by_cases h : sz &&& c ≠ 0
  · obtain ⟨h1, h2, h3, h4, h5, h6⟩ := hor h
    rw [if_pos h] at hT
    subst hT
    refine ⟨(put out (d + off) c (fun i => s (src + off + i)), off + c), s, ?_, rfl, rfl, ?_⟩
    · simp only [loadChunk]
      rw [if_pos h, if_pos, padd_eq h5, h1]
      rw [padd_eq h5]
      exact ⟨h2, h3, h4, allR_iff.2 h6⟩
    · intro k
      simp only [put]
      by_cases hk : d + off ≤ k ∧ k < d + off + c
      · rw [if_pos hk, if_pos (by omega), show src + off + (k - (d + off)) = src + (k - d) by omega]
      · rw [if_neg hk, ho]
        by_cases hk' : d ≤ k ∧ k < d + off
        · rw [if_pos hk', if_pos (by omega)]
        · rw [if_neg hk', if_neg (by omega)]
  · rw [if_neg h] at hT
    subst hT
    exact ⟨(out, T), s, by simp only [loadChunk]; rw [if_neg h], rfl, rfl, ho⟩

theorem loadPartial_spec (hE : E.Good) {src sz : Nat} {s : Store} (hal : src % E.ws = 0) (hsz : sz < E.ws)
    (hsp : src + sz < E.space) (hr : ∀ i, i < sz → E.canR (src + i) = true) :
    OkS (loadPartial E src sz) s
      (fun w s' => s' = s ∧ w = wordOf E.be E.ws (fun k => if k < sz then s (src + k) else 0#8)) := by
  have hw := ws_le hE
  have A : ∀ sz, sz < 8 → (sz &&& 4 ≠ 0 → 4 ≤ sz) ∧
      (sz &&& 2 ≠ 0 → (if sz &&& 4 ≠ 0 then 0 + 4 else 0) ||| 2 = (if sz &&& 4 ≠ 0 then 0 + 4 else 0) + 2 ∧
        (if sz &&& 4 ≠ 0 then 0 + 4 else 0) + 2 ≤ sz ∧ (if sz &&& 4 ≠ 0 then 0 + 4 else 0) % 2 = 0) ∧
      ∀ T2, T2 = (if sz &&& 2 ≠ 0 then (if sz &&& 4 ≠ 0 then 0 + 4 else 0) + 2 else (if sz &&& 4 ≠ 0 then 0 + 4 else 0)) →
        sz = (if sz &&& 1 ≠ 0 then T2 + 1 else T2) ∧ (sz &&& 1 ≠ 0 → T2 ||| 1 = T2 + 1 ∧ T2 + 1 ≤ sz) := by
    intro sz h
    have : sz = 0 ∨ sz = 1 ∨ sz = 2 ∨ sz = 3 ∨ sz = 4 ∨ sz = 5 ∨ sz = 6 ∨ sz = 7 := by omega
    rcases this with rfl | rfl | rfl | rfl | rfl | rfl | rfl | rfl <;>
      refine ⟨by decide, by decide, ?_⟩ <;> rintro T2 rfl <;> decide
  obtain ⟨A1, A2, A3⟩ := A sz (by omega)
  unfold loadPartial
  refine OkS.assert (by simpa using hsz) ?_
  refine OkS.bind (loadChunk_spec _ (by intro k; rw [if_neg (by omega)]) rfl ?_) ?_
  · intro h
    have := A1 h
    refine ⟨rfl, ?_, rfl, by omega, by omega, fun i hi => hr _ (by omega)⟩
    rcases hE with e | e | e <;> rw [e] at hal hsz <;> omega
  rintro ⟨out, i⟩ s1 ⟨rfl, e, ho⟩
  dsimp only at e ho ⊢
  subst e
  generalize hT1 : (if sz &&& 4 ≠ 0 then 0 + 4 else 0) = T1 at A2 A3 ho ⊢
  refine OkS.bind (loadChunk_spec _ ho rfl ?_) ?_
  · intro h
    obtain ⟨h1, h2, h3⟩ := A2 h
    refine ⟨h1, ?_, by omega, by omega, by omega, fun i hi => by have := hr (T1 + i) (by omega); rwa [← Nat.add_assoc] at this⟩
    rcases hE with e | e | e <;> rw [e] at hal hsz <;> omega
  rintro ⟨out, i⟩ s1 ⟨rfl, e, ho⟩
  dsimp only at e ho ⊢
  subst e
  obtain ⟨A4, A5⟩ := A3 _ rfl
  generalize hT2 : (if sz &&& 2 ≠ 0 then T1 + 2 else T1) = T2 at ho A4 A5 ⊢
  refine OkS.bind (loadChunk_spec sz ho A4 ?_) ?_
  · intro h
    obtain ⟨h1, h2⟩ := A5 h
    exact ⟨h1, Nat.mod_one _, Nat.mod_one _, by omega, by omega, fun i hi => by have := hr (T2 + i) (by omega); rwa [← Nat.add_assoc] at this⟩
  rintro ⟨out, i⟩ s1 ⟨rfl, e, ho⟩
  dsimp only at e ho ⊢
  subst e
  refine OkS.assert (by simp) ?_
  refine OkS.pure' ⟨rfl, ?_⟩
  apply wordOf_congr
  intro k hk
  rw [ho]
  simp

theorem loadEndPartial_spec (hE : E.Good) {src sz : Nat} {s : Store} (hal : src % E.ws = 0) (h0 : 0 < sz) (hsz : sz < E.ws)
    (hsp : src + E.ws < E.space) (hr : ∀ i, E.ws - sz ≤ i → i < E.ws → E.canR (src + i) = true) :
    OkS (loadEndPartial E src sz) s
      (fun w s' => s' = s ∧ w = wordOf E.be E.ws (fun k => if E.ws - sz ≤ k then s (src + k) else 0#8)) := by
  have hw := ws_le hE
  have A : ∀ sz, sz < 8 → (sz &&& 1 ≠ 0 → 1 ≤ sz) ∧
      (sz &&& 2 ≠ 0 → (if sz &&& 1 ≠ 0 then 0 + 1 else 0) ||| 2 = (if sz &&& 1 ≠ 0 then 0 + 1 else 0) + 2 ∧
        (if sz &&& 1 ≠ 0 then 0 + 1 else 0) + 2 ≤ sz ∧ (sz - (if sz &&& 1 ≠ 0 then 0 + 1 else 0)) % 2 = 0) ∧
      ∀ T2, T2 = (if sz &&& 2 ≠ 0 then (if sz &&& 1 ≠ 0 then 0 + 1 else 0) + 2 else (if sz &&& 1 ≠ 0 then 0 + 1 else 0)) →
        sz = (if sz &&& 4 ≠ 0 then T2 + 4 else T2) ∧ (sz &&& 4 ≠ 0 → T2 ||| 4 = T2 + 4 ∧ T2 + 4 = sz) := by
    intro sz h
    have : sz = 0 ∨ sz = 1 ∨ sz = 2 ∨ sz = 3 ∨ sz = 4 ∨ sz = 5 ∨ sz = 6 ∨ sz = 7 := by omega
    rcases this with rfl | rfl | rfl | rfl | rfl | rfl | rfl | rfl <;>
      refine ⟨by decide, by decide, ?_⟩ <;> rintro T2 rfl <;> decide
  obtain ⟨A1, A2, A3⟩ := A sz (by omega)
  have hp : padd E src (E.ws - sz) = src + (E.ws - sz) := padd_eq (by omega)
  have hr' : ∀ i, i < sz → E.canR (src + (E.ws - sz) + i) = true := by
    intro i hi
    have := hr (E.ws - sz + i) (by omega) (by omega)
    rwa [← Nat.add_assoc] at this
  unfold loadEndPartial
  rw [hp]
  refine OkS.assert (by simpa using hsz) ?_
  refine OkS.bind (loadChunk_spec _ (by intro k; rw [if_neg (by omega)]) rfl ?_) ?_
  · intro h
    have := A1 h
    exact ⟨rfl, Nat.mod_one _, Nat.mod_one _, by omega, by omega, fun i hi => hr' _ (by omega)⟩
  rintro ⟨out, i⟩ s1 ⟨rfl, e, ho⟩
  dsimp only at e ho ⊢
  subst e
  generalize hT1 : (if sz &&& 1 ≠ 0 then 0 + 1 else 0) = T1 at A2 A3 ho ⊢
  refine OkS.bind (loadChunk_spec _ ho rfl ?_) ?_
  · intro h
    obtain ⟨h1, h2, h3⟩ := A2 h
    refine ⟨h1, ?_, ?_, by omega, by omega, fun i hi => by have := hr' (T1 + i) (by omega); rwa [← Nat.add_assoc] at this⟩
    · rcases hE with e | e | e <;> rw [e] at hal hsz ⊢ <;> omega
    · rcases hE with e | e | e <;> rw [e] at hal hsz ⊢ <;> omega
  rintro ⟨out, i⟩ s1 ⟨rfl, e, ho⟩
  dsimp only at e ho ⊢
  subst e
  obtain ⟨A4, A5⟩ := A3 _ rfl
  generalize hT2 : (if sz &&& 2 ≠ 0 then T1 + 2 else T1) = T2 at ho A4 A5 ⊢
  refine OkS.bind (loadChunk_spec sz ho A4 ?_) ?_
  · intro h
    obtain ⟨h1, h2⟩ := A5 h
    refine ⟨h1, ?_, ?_, by omega, by omega, fun i hi => by have := hr' (T2 + i) (by omega); rwa [← Nat.add_assoc] at this⟩
    · rcases hE with e | e | e <;> rw [e] at hal hsz ⊢ <;> omega
    · rcases hE with e | e | e <;> rw [e] at hal hsz ⊢ <;> omega
  rintro ⟨out, i⟩ s1 ⟨rfl, e, ho⟩
  dsimp only at e ho ⊢
  subst e
  refine OkS.assert (by simp) ?_
  refine OkS.pure' ⟨rfl, ?_⟩
  apply wordOf_congr
  intro k hk
  rw [ho]
  by_cases h : E.ws - i ≤ k
  · rw [if_pos (by omega), if_pos h]; congr 1; omega
  · rw [if_neg (by omega), if_neg h]

end Verif.Mem
