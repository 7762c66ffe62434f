import Verif.Mem.CopyProofs
/-! # Proofs about the forward and backward copies -/
namespace Verif.Mem
variable {E : Env}

/-- What a copy of `N` bytes from `S` to `D` may rely on. -/
structure CopyPre (E : Env) (D S N : Nat) : Prop where
  good : E.Good
  hD : D + N < E.space
  hS : S + N < E.space
  rd : ∀ i, i < N → E.canR (S + i) = true
  wr : ∀ i, i < N → E.canW (D + i) = true

theorem copied_fwd {s0 s : Store} {D S i m : Nat} {f : Nat → Byte} (h : Copied s0 s D S 0 i)
    (hf : ∀ k, k < m → f k = s0 (S + i + k)) : Copied s0 (put s (D + i) m f) D S 0 (i + m) := by
  intro a
  simp only [put]
  by_cases ha : D + i ≤ a ∧ a < D + i + m
  · rw [if_pos ha, if_pos (by omega), hf _ (by omega)]
    congr 1; omega
  · rw [if_neg ha, h a]
    by_cases hb : D + 0 ≤ a ∧ a < D + i
    · rw [if_pos hb, if_pos (by omega)]
    · rw [if_neg hb, if_neg (by omega)]

theorem copied_bwd {s0 s : Store} {D S lo hi m : Nat} {f : Nat → Byte} (h : Copied s0 s D S (lo + m) hi)
    (hhi : lo + m ≤ hi)
    (hf : ∀ k, k < m → f k = s0 (S + lo + k)) : Copied s0 (put s (D + lo) m f) D S lo hi := by
  intro a
  simp only [put]
  by_cases ha : D + lo ≤ a ∧ a < D + lo + m
  · rw [if_pos ha, if_pos (by omega), hf _ (by omega)]
    congr 1; omega
  · rw [if_neg ha, h a]
    by_cases hb : D + (lo + m) ≤ a ∧ a < D + hi
    · rw [if_pos hb, if_pos (by omega)]
    · rw [if_neg hb, if_neg (by omega)]

theorem src_fwd {s0 s : Store} {D S N i j : Nat} (h : Copied s0 s D S 0 i) (hd : D ≤ S ∨ S + N ≤ D)
    (hi : i ≤ j) (hj : j < N) : s (S + j) = s0 (S + j) := by
  rw [h, if_neg (by omega)]

theorem src_bwd {s0 s : Store} {D S N i j : Nat} (h : Copied s0 s D S i N) (hd : S ≤ D ∨ D + N ≤ S)
    (hi : j < i) : s (S + j) = s0 (S + j) := by
  rw [h, if_neg (by omega)]

/-! ### Forward -/

theorem cfBytesLoop_spec {D S N : Nat} (H : CopyPre E D S N) (hd : D ≤ S ∨ S + N ≤ D) {s0 : Store} :
    ∀ (fuel i m : Nat) (s : Store), m < fuel → i + m ≤ N → Copied s0 s D S 0 i →
      OkS (cfBytesLoop E fuel (D + i) (S + i) (D + i + m)) s (fun _ s' => Copied s0 s' D S 0 (i + m)) := by
  intro fuel
  have h1 := H.hD
  have h2 := H.hS
  induction fuel with
  | zero => intros; omega
  | succ fuel ih =>
    intro i m s hm hi hc
    unfold cfBytesLoop
    by_cases h : D + i < D + i + m
    · rw [if_pos h]
      refine OkS.bind (readB_spec (H.rd i (by omega))) ?_
      rintro b s1 ⟨rfl, rfl⟩
      refine OkS.bind (writeB_spec (H.wr i (by omega))) ?_
      rintro _ s2 rfl
      rw [padd_eq (by omega), padd_eq (by omega)]
      have := ih (i + 1) (m - 1) _ (by omega) (by omega) (copied_fwd (m := 1) hc (f := fun _ => s1 (S + i)) ?_)
      · rw [show D + (i + 1) + (m - 1) = D + i + m by omega, show i + 1 + (m - 1) = i + m by omega] at this
        exact this
      · intro k hk
        rw [src_fwd hc hd (Nat.le_refl _) (by omega)]
        congr 1; omega
    · rw [if_neg h]
      have : m = 0 := by omega
      subst this
      exact OkS.pure' hc

theorem cfBytes_spec {D S N : Nat} (H : CopyPre E D S N) (hd : D ≤ S ∨ S + N ≤ D) {s0 : Store}
    (i m : Nat) (s : Store) (hi : i + m ≤ N) (hc : Copied s0 s D S 0 i) :
    OkS (cfBytes E (D + i) (S + i) m) s (fun _ s' => Copied s0 s' D S 0 (i + m)) := by
  have h1 := H.hD
  unfold cfBytes
  rw [padd_eq (by omega)]
  exact cfBytesLoop_spec H hd _ _ _ _ (by omega) hi hc

theorem cfWordsLoop_spec {D S N : Nat} (H : CopyPre E D S N) (hd : D ≤ S ∨ S + N ≤ D) {s0 : Store} {al : Bool} :
    ∀ (fuel i m : Nat) (s : Store), m < fuel → i + m ≤ N → m % E.ws = 0 → (D + i) % E.ws = 0 →
      (al = true → (S + i) % E.ws = 0) → Copied s0 s D S 0 i →
      OkS (cfWordsLoop E al fuel (D + i) (S + i) (D + i + m)) s (fun _ s' => Copied s0 s' D S 0 (i + m)) := by
  intro fuel
  have h1 := H.hD
  have h2 := H.hS
  have hw := ws_pos H.good
  induction fuel with
  | zero => intros; omega
  | succ fuel ih =>
    intro i m s hm hi hmw hda hsa hc
    unfold cfWordsLoop
    by_cases h : D + i < D + i + m
    · have hmle : E.ws ≤ m := Nat.le_of_dvd (by omega) (Nat.dvd_of_mod_eq_zero hmw)
      rw [if_pos h]
      refine OkS.bind (readWord_spec hsa fun k hk => by have := H.rd (i + k) (by omega); rwa [← Nat.add_assoc] at this) ?_
      rintro b s1 ⟨rfl, rfl⟩
      refine OkS.bind (writeWord_spec (fun _ => hda) fun k hk => by have := H.wr (i + k) (by omega); rwa [← Nat.add_assoc] at this) ?_
      rintro _ s2 rfl
      rw [padd_eq (by omega), padd_eq (by omega)]
      have := ih (i + E.ws) (m - E.ws) _ (by omega) (by omega) (by rw [← Nat.mod_eq_sub_mod hmle]; exact hmw)
        (by rw [← Nat.add_assoc, Nat.add_mod_right]; exact hda)
        (by intro h; rw [← Nat.add_assoc, Nat.add_mod_right]; exact hsa h) (copied_fwd (m := E.ws) hc
          (f := byteOf E.be E.ws (wordOf E.be E.ws fun k => s1 (S + i + k))) ?_)
      · rw [show D + (i + E.ws) + (m - E.ws) = D + i + m by omega, show i + E.ws + (m - E.ws) = i + m by omega,
          show D + (i + E.ws) = D + i + E.ws by omega, show S + (i + E.ws) = S + i + E.ws by omega] at this
        exact this
      · intro k hk
        rw [byteOf_wordOf hk, Nat.add_assoc, src_fwd hc hd (by omega) (by omega)]
    · rw [if_neg h]
      have : m = 0 := by omega
      subst this
      exact OkS.pure' hc

theorem cfWords_spec {D S N : Nat} (H : CopyPre E D S N) (hd : D ≤ S ∨ S + N ≤ D) {s0 : Store} {al : Bool}
    (i m : Nat) (s : Store) (hi : i + m ≤ N) (hm : m % E.ws = 0) (hda : (D + i) % E.ws = 0)
    (hsa : al = true → (S + i) % E.ws = 0) (hc : Copied s0 s D S 0 i) :
    OkS (cfWords E al (D + i) (S + i) m) s (fun _ s' => Copied s0 s' D S 0 (i + m)) := by
  have h1 := H.hD
  unfold cfWords
  rw [padd_eq (by omega)]
  exact cfWordsLoop_spec H hd _ _ _ _ (by omega) hi hm hda hsa hc

theorem cfMisLoop_spec {D S N : Nat} (H : CopyPre E D S N) (hd : D ≤ S ∨ S + N ≤ D) {s0 : Store} {off : Nat}
    (h0 : 0 < off) (how : off < E.ws) :
    ∀ (fuel i m : Nat) (s : Store) (f : Nat → Byte), m < fuel → i + m ≤ N → m % E.ws = 0 → 0 < m → (D + i) % E.ws = 0 →
      (S + i) % E.ws = off → (∀ k, off ≤ k → k < E.ws → f k = s0 (S + i - off + k)) → Copied s0 s D S 0 i →
      OkS (cfMisLoop E (off * 8) fuel (D + i) (S + i - off) (wordOf E.be E.ws f) (D + i + m)) s
        (fun r s' => ∃ f', r = (D + (i + m - E.ws), S + (i + m - E.ws) - off, wordOf E.be E.ws f') ∧ E.ws ≤ m ∧
          (∀ k, off ≤ k → k < E.ws → f' k = s0 (S + (i + m - E.ws) - off + k)) ∧
          Copied s0 s' D S 0 (i + m - E.ws)) := by
  intro fuel
  have h1 := H.hD
  have h2 := H.hS
  have hw := ws_pos H.good
  induction fuel with
  | zero => intros; omega
  | succ fuel ih =>
    intro i m s f hm hi hmw hm0 hda hsa hf hc
    unfold cfMisLoop
    have hmle : E.ws ≤ m := Nat.le_of_dvd (by omega) (Nat.dvd_of_mod_eq_zero hmw)
    have hoS : off ≤ S + i := by rw [← hsa]; exact Nat.mod_le _ _
    have hsa' : (S + i - off) % E.ws = 0 := by
      have := Nat.div_add_mod (S + i) E.ws
      rw [show S + i - off = E.ws * ((S + i) / E.ws) by omega]; exact Nat.mul_mod_right _ _
    rw [padd_eq (by omega)]
    by_cases h : D + i + E.ws < D + i + m
    · rw [if_pos h]
      have hm2 : (m - E.ws) % E.ws = 0 := by rw [← Nat.mod_eq_sub_mod hmle]; exact hmw
      have hmle2 : E.ws ≤ m - E.ws := Nat.le_of_dvd (by omega) (Nat.dvd_of_mod_eq_zero hm2)
      rw [padd_eq (by omega)]
      dsimp only
      have hsa2 : (S + i - off + E.ws) % E.ws = 0 := by rw [Nat.add_mod_right]; exact hsa'
      refine OkS.bind (readWord_spec (fun _ => hsa2) fun k hk => by
        have := H.rd (i + (E.ws - off) + k) (by omega); rwa [show S + (i + (E.ws - off) + k) = S + i - off + E.ws + k by omega] at this) ?_
      rintro b s1 ⟨rfl, rfl⟩
      have hg : ∀ k, k < E.ws → s1 (S + i - off + E.ws + k) = s0 (S + i - off + E.ws + k) := by
        intro k hk
        rw [show S + i - off + E.ws + k = S + (i + (E.ws - off) + k) by omega]
        exact src_fwd hc hd (by omega) (by omega)
      refine OkS.bind (OkS.lift (reasmF_spec h0 how)) ?_
      rintro r s2 ⟨rfl, rfl⟩
      refine OkS.bind (writeWord_spec (fun _ => hda) fun k hk => by have := H.wr (i + k) (by omega); rwa [← Nat.add_assoc] at this) ?_
      rintro _ s3 rfl
      have hc' : Copied s0 (put s2 (D + i) E.ws (byteOf E.be E.ws (wordOf E.be E.ws
          (fun k => if k + off < E.ws then f (k + off) else s2 (S + i - off + E.ws + (k + off - E.ws)))))) D S 0 (i + E.ws) := by
        refine copied_fwd hc ?_
        intro k hk
        rw [byteOf_wordOf hk]
        split
        · rw [hf _ (by omega) (by omega)]; congr 1; omega
        · rw [hg _ (by omega)]; congr 1; omega
      have := ih (i + E.ws) (m - E.ws) _ (fun k => s2 (S + i - off + E.ws + k)) (by omega) (by omega) hm2 (by omega)
        (by rw [← Nat.add_assoc, Nat.add_mod_right]; exact hda)
        (by rw [← Nat.add_assoc, Nat.add_mod_right]; exact hsa)
        (by intro k _ hk; rw [hg k hk]; congr 1; omega) hc'
      rw [show D + (i + E.ws) = D + i + E.ws by omega, show S + (i + E.ws) - off = S + i - off + E.ws by omega,
        show D + i + E.ws + (m - E.ws) = D + i + m by omega] at this
      refine OkS.mono this ?_
      rintro r s' ⟨f', hr, _, hf', hc'⟩
      rw [show i + E.ws + (m - E.ws) = i + m by omega] at hr hf' hc'
      exact ⟨f', hr, hmle, hf', hc'⟩
    · rw [if_neg h]
      have : m = E.ws := by omega
      subst this
      rw [show i + E.ws - E.ws = i by omega]
      exact OkS.pure' ⟨f, rfl, Nat.le_refl _, hf, hc⟩

theorem cfMis_spec {D S N : Nat} (H : CopyPre E D S N) (hd : D ≤ S ∨ S + N ≤ D) {s0 : Store}
    (i m : Nat) (s : Store) (hi : i + m ≤ N) (hm0 : 0 < m) (hm : m % E.ws = 0) (hda : (D + i) % E.ws = 0)
    (hsa : (S + i) % E.ws ≠ 0) (hc : Copied s0 s D S 0 i) :
    OkS (cfMis E (D + i) (S + i) m) s (fun _ s' => Copied s0 s' D S 0 (i + m)) := by
  have h1 := H.hD
  have h2 := H.hS
  have hw := ws_pos H.good
  have hsp := space_gt H.good
  have hmle : E.ws ≤ m := Nat.le_of_dvd (by omega) (Nat.dvd_of_mod_eq_zero hm)
  unfold cfMis
  refine OkS.assert (by simp [hm0, hm]) ?_
  refine OkS.assert (by simp [hsa]) ?_
  rw [wmask_eq H.good]
  dsimp only
  generalize hoff : (S + i) % E.ws = off at hsa ⊢
  have how : off < E.ws := by rw [← hoff]; exact Nat.mod_lt _ hw
  have hoS : off ≤ S + i := by rw [← hoff]; exact Nat.mod_le _ _
  have hal : (S + i - off) % E.ws = 0 := by
    have := Nat.div_add_mod (S + i) E.ws
    rw [show S + i - off = E.ws * ((S + i) / E.ws) by omega]; exact Nat.mul_mod_right _ _
  rw [padd_eq (by omega), psub_eq hoS (by omega)]
  refine OkS.bind (loadEndPartial_spec H.good hal (by omega) (by omega) (by omega) ?_) ?_
  · intro k hk hk'
    have := H.rd (i + (k - off)) (by omega)
    rwa [show S + (i + (k - off)) = S + i - off + k by omega] at this
  rintro prev s1 ⟨rfl, rfl⟩
  refine OkS.bind (cfMisLoop_spec H hd (by omega) how _ i m _ _ (by omega) hi hm hm0 hda hoff ?_ hc) ?_
  · intro k hk hk'
    rw [if_pos (by omega), show S + i - off + k = S + (i + (k - off)) by omega]
    exact src_fwd hc hd (by omega) (by omega)
  rintro _ s2 ⟨f, rfl, _, hf, hc2⟩
  dsimp only
  have hpa : padd E (S + (i + m - E.ws) - off) E.ws = S + (i + m) - off := by
    rw [padd_eq (by omega)]; omega
  rw [hpa]
  have hmd : ∀ x, (x + m) % E.ws = x % E.ws := by
    intro x; rw [Nat.add_mod, hm, Nat.add_zero, Nat.mod_mod]
  have hmd' : ∀ x, (x + (m - E.ws)) % E.ws = x % E.ws := by
    intro x
    have : (m - E.ws) % E.ws = 0 := by rw [← Nat.mod_eq_sub_mod hmle]; exact hm
    rw [Nat.add_mod, this, Nat.add_zero, Nat.mod_mod]
  refine OkS.bind (loadPartial_spec H.good (s := s2) ?_ how (by omega) ?_) ?_
  · rw [show S + (i + m) - off = S + i - off + m by omega, hmd]; exact hal
  · intro k hk
    have := H.rd (i + m - off + k) (by omega)
    rwa [show S + (i + m - off + k) = S + (i + m) - off + k by omega] at this
  rintro cur s3 ⟨rfl, rfl⟩
  refine OkS.bind (OkS.lift (reasmF_spec (by omega) how)) ?_
  rintro r s4 ⟨rfl, rfl⟩
  refine OkS.mono (writeWord_spec (fun _ => ?_) ?_) ?_
  · rw [show D + (i + m - E.ws) = D + i + (m - E.ws) by omega, hmd']; exact hda
  · intro k hk
    have := H.wr (i + m - E.ws + k) (by omega); rwa [← Nat.add_assoc] at this
  rintro _ s5 rfl
  have key := copied_fwd (m := E.ws) hc2 (f := byteOf E.be E.ws (wordOf E.be E.ws
      (fun k => if k + off < E.ws then f (k + off) else
        (if k + off - E.ws < off then s4 (S + (i + m) - off + (k + off - E.ws)) else 0#8)))) ?_
  · rw [show i + m - E.ws + E.ws = i + m by omega] at key
    exact key
  · intro k hk
    rw [byteOf_wordOf hk]
    split
    · rw [hf _ (by omega) (by omega)]; congr 1; omega
    · rw [if_pos (by omega), show S + (i + m) - off + (k + off - E.ws) = S + (i + m - E.ws + k) by omega,
        src_fwd hc2 hd (by omega) (by omega)]
      congr 1; omega

theorem pneg_mod (hE : E.Good) {a : Nat} (ha : a < E.space) : wmask E (pneg E a) < E.ws ∧
    (a + wmask E (pneg E a)) % E.ws = 0 := by
  have hw := ws_pos hE
  rw [wmask_eq hE]
  refine ⟨Nat.mod_lt _ hw, ?_⟩
  have hs := space_mod hE
  unfold pneg
  rw [Nat.mod_mod_of_dvd _ (Nat.dvd_of_mod_eq_zero hs), Nat.add_mod, Nat.mod_mod, ← Nat.add_mod,
    show a + (E.space - a) = E.space by omega]
  exact hs

theorem threshold_ge (E : Env) : 2 * E.ws ≤ threshold E := by
  unfold threshold; split <;> omega

theorem wround_spec (hE : E.Good) (n : Nat) : wround E n % E.ws = 0 ∧ wround E n ≤ n ∧ n < wround E n + E.ws := by
  have hw := ws_pos hE
  unfold wround
  rw [wmask_eq hE]
  have := Nat.div_add_mod n E.ws
  have := Nat.mod_lt n hw
  refine ⟨?_, by omega, by omega⟩
  rw [show n - n % E.ws = E.ws * (n / E.ws) by omega]; exact Nat.mul_mod_right _ _

theorem copied_zero (s : Store) (D S i : Nat) : Copied s s D S i i := by
  intro a; rw [if_neg (by omega)]

theorem copyForward_spec {D S N : Nat} (H : CopyPre E D S N) (hd : D ≤ S ∨ S + N ≤ D) (un : Bool) (s0 : Store) :
    OkS (copyForward E un D S N) s0 (fun _ s' => Copied s0 s' D S 0 N) := by
  have h1 := H.hD
  have h2 := H.hS
  have hw := ws_pos H.good
  unfold copyForward
  refine OkS.bind (P := fun r s' => ∃ i, i ≤ N ∧ r = (D + i, S + i, N - i) ∧ Copied s0 s' D S 0 i) ?_ ?_
  · by_cases hN : N ≥ threshold E
    · rw [if_pos hN]
      have hth := threshold_ge E
      dsimp only
      obtain ⟨hm1, hm2⟩ := pneg_mod H.good (a := D) (by omega)
      generalize hmis : wmask E (pneg E D) = mis at hm1 hm2 ⊢
      have := cfBytes_spec H hd 0 mis s0 (by omega) (copied_zero _ _ _ _)
      rw [Nat.add_zero, Nat.add_zero, Nat.zero_add] at this
      refine OkS.bind this ?_
      rintro _ s1 hc
      rw [padd_eq (by omega), padd_eq (by omega)]
      refine OkS.bind (OkS.lift (nsubC_spec (by omega))) ?_
      rintro n s2 ⟨rfl, rfl⟩
      obtain ⟨w1, w2, w3⟩ := wround_spec H.good (N - mis)
      generalize hwd : wround E (N - mis) = nw at w1 w2 w3 ⊢
      refine OkS.bind (P := fun _ s' => Copied s0 s' D S 0 (mis + nw)) ?_ ?_
      · rw [wmask_eq H.good]
        by_cases ha : (S + mis) % E.ws = 0
        · rw [if_pos ha]
          exact cfWords_spec H hd mis nw _ (by omega) w1 hm2 (fun _ => ha) hc
        · rw [if_neg ha]
          cases un
          · exact cfMis_spec H hd mis nw _ (by omega) (by omega) w1 hm2 ha hc
          · exact cfWords_spec H hd mis nw _ (by omega) w1 hm2 (fun h => by simp at h) hc
      · rintro _ s3 hc3
        refine OkS.bind (OkS.lift (nsubC_spec (by omega))) ?_
        rintro n s4 ⟨rfl, rfl⟩
        refine OkS.pure' ⟨mis + nw, by omega, ?_, hc3⟩
        rw [padd_eq (by omega), padd_eq (by omega), Nat.add_assoc, Nat.add_assoc, Nat.sub_sub]
    · rw [if_neg hN]
      exact OkS.pure' ⟨0, by omega, rfl, copied_zero _ _ _ _⟩
  · rintro _ s1 ⟨i, hi, rfl, hc⟩
    have := cfBytes_spec H hd i (N - i) s1 (by omega) hc
    rw [show i + (N - i) = N by omega] at this
    exact this

end Verif.Mem
