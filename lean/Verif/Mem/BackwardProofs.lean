import Verif.Mem.ForwardProofs
/-! # Proofs about the backward copies, `memcpy` and `memmove` -/
namespace Verif.Mem
variable {E : Env}

theorem cbBytesLoop_spec {D S N : Nat} (H : CopyPre E D S N) (hd : S ≤ D ∨ D + N ≤ S) {s0 : Store} :
    ∀ (fuel lo m : Nat) (s : Store), m < fuel → lo + m ≤ N → Copied s0 s D S (lo + m) N →
      OkS (cbBytesLoop E fuel (D + (lo + m)) (S + (lo + m)) (D + lo)) s (fun _ s' => Copied s0 s' D S lo N) := by
  intro fuel
  have h1 := H.hD
  have h2 := H.hS
  induction fuel with
  | zero => intros; omega
  | succ fuel ih =>
    intro lo m s hm hi hc
    unfold cbBytesLoop
    by_cases h : D + lo < D + (lo + m)
    · rw [if_pos h]
      dsimp only
      rw [psub_eq (by omega) (by omega), psub_eq (by omega) (by omega),
        show D + (lo + m) - 1 = D + (lo + (m - 1)) by omega, show S + (lo + m) - 1 = S + (lo + (m - 1)) by omega]
      refine OkS.bind (readB_spec (H.rd _ (by omega))) ?_
      rintro b s1 ⟨rfl, rfl⟩
      refine OkS.bind (writeB_spec (H.wr _ (by omega))) ?_
      rintro _ s2 rfl
      refine ih lo (m - 1) _ (by omega) (by omega) (copied_bwd ?_ (by omega) ?_)
      · rw [show lo + (m - 1) + 1 = lo + m by omega]; exact hc
      · intro k hk
        rw [src_bwd hc hd (by omega)]
        congr 1; omega
    · rw [if_neg h]
      have : m = 0 := by omega
      subst this
      exact OkS.pure' hc

theorem cbBytes_spec {D S N : Nat} (H : CopyPre E D S N) (hd : S ≤ D ∨ D + N ≤ S) {s0 : Store}
    (lo m : Nat) (s : Store) (hi : lo + m ≤ N) (hc : Copied s0 s D S (lo + m) N) :
    OkS (cbBytes E (D + (lo + m)) (S + (lo + m)) m) s (fun _ s' => Copied s0 s' D S lo N) := by
  have h1 := H.hD
  unfold cbBytes
  rw [psub_eq (by omega) (by omega), show D + (lo + m) - m = D + lo by omega]
  exact cbBytesLoop_spec H hd _ _ _ _ (by omega) hi hc

theorem cbWordsLoop_spec {D S N : Nat} (H : CopyPre E D S N) (hd : S ≤ D ∨ D + N ≤ S) {s0 : Store} {al : Bool} :
    ∀ (fuel lo m : Nat) (s : Store), m < fuel → lo + m ≤ N → m % E.ws = 0 → (D + lo) % E.ws = 0 →
      (al = true → (S + lo) % E.ws = 0) → Copied s0 s D S (lo + m) N →
      OkS (cbWordsLoop E al fuel (D + (lo + m)) (S + (lo + m)) (D + lo)) s (fun _ s' => Copied s0 s' D S lo N) := by
  intro fuel
  have h1 := H.hD
  have h2 := H.hS
  have hw := ws_pos H.good
  induction fuel with
  | zero => intros; omega
  | succ fuel ih =>
    intro lo m s hm hi hmw hda hsa hc
    unfold cbWordsLoop
    by_cases h : D + lo < D + (lo + m)
    · have hmle : E.ws ≤ m := Nat.le_of_dvd (by omega) (Nat.dvd_of_mod_eq_zero hmw)
      have hm2 : (m - E.ws) % E.ws = 0 := by rw [← Nat.mod_eq_sub_mod hmle]; exact hmw
      have hmd : ∀ x, (x + (m - E.ws)) % E.ws = x % E.ws := by
        intro x; rw [Nat.add_mod, hm2, Nat.add_zero, Nat.mod_mod]
      rw [if_pos h]
      dsimp only
      rw [psub_eq (by omega) (by omega), psub_eq (by omega) (by omega),
        show D + (lo + m) - E.ws = D + (lo + (m - E.ws)) by omega, show S + (lo + m) - E.ws = S + (lo + (m - E.ws)) by omega]
      refine OkS.bind (readWord_spec (fun h => by rw [← Nat.add_assoc, hmd]; exact hsa h) fun k hk => by
        have := H.rd (lo + (m - E.ws) + k) (by omega); rwa [← Nat.add_assoc] at this) ?_
      rintro b s1 ⟨rfl, rfl⟩
      refine OkS.bind (writeWord_spec (fun _ => by rw [← Nat.add_assoc, hmd]; exact hda) fun k hk => by
        have := H.wr (lo + (m - E.ws) + k) (by omega); rwa [← Nat.add_assoc] at this) ?_
      rintro _ s2 rfl
      refine ih lo (m - E.ws) _ (by omega) (by omega) hm2 hda hsa (copied_bwd ?_ (by omega) ?_)
      · rw [show lo + (m - E.ws) + E.ws = lo + m by omega]; exact hc
      · intro k hk
        rw [byteOf_wordOf hk, Nat.add_assoc, src_bwd hc hd (by omega), Nat.add_assoc]
    · rw [if_neg h]
      have : m = 0 := by omega
      subst this
      exact OkS.pure' hc

theorem cbWords_spec {D S N : Nat} (H : CopyPre E D S N) (hd : S ≤ D ∨ D + N ≤ S) {s0 : Store} {al : Bool}
    (lo m : Nat) (s : Store) (hi : lo + m ≤ N) (hm : m % E.ws = 0) (hda : (D + lo) % E.ws = 0)
    (hsa : al = true → (S + lo) % E.ws = 0) (hc : Copied s0 s D S (lo + m) N) :
    OkS (cbWords E al (D + (lo + m)) (S + (lo + m)) m) s (fun _ s' => Copied s0 s' D S lo N) := by
  have h1 := H.hD
  unfold cbWords
  rw [psub_eq (by omega) (by omega), show D + (lo + m) - m = D + lo by omega]
  exact cbWordsLoop_spec H hd _ _ _ _ (by omega) hi hm hda hsa hc

theorem cbMisLoop_spec {D S N : Nat} (H : CopyPre E D S N) (hd : S ≤ D ∨ D + N ≤ S) {s0 : Store} {off : Nat}
    (h0 : 0 < off) (how : off < E.ws) :
    ∀ (fuel lo m : Nat) (s : Store) (g : Nat → Byte), m < fuel → lo + m ≤ N → m % E.ws = 0 → 0 < m →
      (D + lo) % E.ws = 0 → (S + lo) % E.ws = off → (∀ k, k < off → g k = s0 (S + (lo + m) - off + k)) →
      Copied s0 s D S (lo + m) N →
      OkS (cbMisLoop E (off * 8) fuel (D + (lo + m)) (S + (lo + m) - off) (wordOf E.be E.ws g) (D + lo)) s
        (fun r s' => ∃ g', r = (D + (lo + E.ws), S + (lo + E.ws) - off, wordOf E.be E.ws g') ∧ E.ws ≤ m ∧
          (∀ k, k < off → g' k = s0 (S + (lo + E.ws) - off + k)) ∧
          Copied s0 s' D S (lo + E.ws) N) := by
  intro fuel
  have h1 := H.hD
  have h2 := H.hS
  have hw := ws_pos H.good
  induction fuel with
  | zero => intros; omega
  | succ fuel ih =>
    intro lo m s g hm hi hmw hm0 hda hsa hg hc
    unfold cbMisLoop
    have hmle : E.ws ≤ m := Nat.le_of_dvd (by omega) (Nat.dvd_of_mod_eq_zero hmw)
    have hm2 : (m - E.ws) % E.ws = 0 := by rw [← Nat.mod_eq_sub_mod hmle]; exact hmw
    have hmd : ∀ x, (x + (m - E.ws)) % E.ws = x % E.ws := by
      intro x; rw [Nat.add_mod, hm2, Nat.add_zero, Nat.mod_mod]
    have hoS : off ≤ S + lo := by rw [← hsa]; exact Nat.mod_le _ _
    have hsa' : (S + lo - off) % E.ws = 0 := by
      have := Nat.div_add_mod (S + lo) E.ws
      rw [show S + lo - off = E.ws * ((S + lo) / E.ws) by omega]; exact Nat.mul_mod_right _ _
    rw [padd_eq (by omega)]
    by_cases h : D + lo + E.ws < D + (lo + m)
    · rw [if_pos h]
      have hmle2 : E.ws ≤ m - E.ws := Nat.le_of_dvd (by omega) (Nat.dvd_of_mod_eq_zero hm2)
      dsimp only
      rw [psub_eq (by omega) (by omega), show S + (lo + m) - off - E.ws = S + lo - off + (m - E.ws) by omega,
        psub_eq (by omega) (by omega), show D + (lo + m) - E.ws = D + (lo + (m - E.ws)) by omega]
      refine OkS.bind (readWord_spec (fun _ => by rw [hmd]; exact hsa') fun k hk => by
        have := H.rd (lo + (m - E.ws) - off + k) (by omega)
        rwa [show S + (lo + (m - E.ws) - off + k) = S + lo - off + (m - E.ws) + k by omega] at this) ?_
      rintro b s1 ⟨rfl, rfl⟩
      have hf : ∀ k, k < E.ws → s1 (S + lo - off + (m - E.ws) + k) = s0 (S + lo - off + (m - E.ws) + k) := by
        intro k hk
        rw [show S + lo - off + (m - E.ws) + k = S + (lo + (m - E.ws) - off + k) by omega]
        exact src_bwd hc hd (by omega)
      refine OkS.bind (OkS.lift (reasmB_spec h0 how)) ?_
      rintro r s2 ⟨rfl, rfl⟩
      refine OkS.bind (writeWord_spec (fun _ => by rw [← Nat.add_assoc, hmd]; exact hda) fun k hk => by
        have := H.wr (lo + (m - E.ws) + k) (by omega); rwa [← Nat.add_assoc] at this) ?_
      rintro _ s3 rfl
      have := ih lo (m - E.ws) (put s2 (D + (lo + (m - E.ws))) E.ws (byteOf E.be E.ws (wordOf E.be E.ws
          (fun k => if k + off < E.ws then s2 (S + lo - off + (m - E.ws) + (k + off)) else g (k + off - E.ws)))))
          (fun k => s2 (S + lo - off + (m - E.ws) + k)) (by omega) (by omega) hm2 (by omega) hda hsa
        (by intro k hk; rw [hf k (by omega)]; congr 1; omega) (copied_bwd ?_ (by omega) ?_)
      · rw [show S + (lo + (m - E.ws)) - off = S + lo - off + (m - E.ws) by omega] at this
        refine OkS.mono this ?_
        rintro r s' ⟨f', hr, _, hf', hc'⟩
        exact ⟨f', hr, hmle, hf', hc'⟩
      · rw [show lo + (m - E.ws) + E.ws = lo + m by omega]; exact hc
      · intro k hk
        rw [byteOf_wordOf hk]
        split
        · rw [hf _ (by omega)]; congr 1; omega
        · rw [hg _ (by omega)]; congr 1; omega
    · rw [if_neg h]
      have : m = E.ws := by omega
      subst this
      exact OkS.pure' ⟨g, rfl, Nat.le_refl _, hg, hc⟩

theorem cbMis_spec {D S N : Nat} (H : CopyPre E D S N) (hd : S ≤ D ∨ D + N ≤ S) {s0 : Store}
    (lo m : Nat) (s : Store) (hi : lo + m ≤ N) (hm0 : 0 < m) (hm : m % E.ws = 0) (hda : (D + lo) % E.ws = 0)
    (hsa : (S + (lo + m)) % E.ws ≠ 0) (hc : Copied s0 s D S (lo + m) N) :
    OkS (cbMis E (D + (lo + m)) (S + (lo + m)) m) s (fun _ s' => Copied s0 s' D S lo N) := by
  have h1 := H.hD
  have h2 := H.hS
  have hw := ws_pos H.good
  have hmle : E.ws ≤ m := Nat.le_of_dvd (by omega) (Nat.dvd_of_mod_eq_zero hm)
  have hmd : ∀ x, (x + m) % E.ws = x % E.ws := by
    intro x; rw [Nat.add_mod, hm, Nat.add_zero, Nat.mod_mod]
  have hsp := space_gt H.good
  unfold cbMis
  refine OkS.assert (by simp [hm0, hm]) ?_
  refine OkS.assert (by simp [hsa]) ?_
  rw [wmask_eq H.good]
  dsimp only
  have hmm : (S + (lo + m)) % E.ws = (S + lo) % E.ws := by rw [← Nat.add_assoc, hmd]
  rw [hmm] at hsa ⊢
  generalize hoff : (S + lo) % E.ws = off at hsa ⊢
  have how : off < E.ws := by rw [← hoff]; exact Nat.mod_lt _ hw
  have hoS : off ≤ S + lo := by rw [← hoff]; exact Nat.mod_le _ _
  have hal : (S + lo - off) % E.ws = 0 := by
    have := Nat.div_add_mod (S + lo) E.ws
    rw [show S + lo - off = E.ws * ((S + lo) / E.ws) by omega]; exact Nat.mul_mod_right _ _
  rw [psub_eq (by omega) (by omega), psub_eq (by omega) (by omega), show D + (lo + m) - m = D + lo by omega]
  refine OkS.bind (loadPartial_spec H.good ?_ how (by omega) ?_) ?_
  · rw [show S + (lo + m) - off = S + lo - off + m by omega, hmd]; exact hal
  · intro k hk
    have := H.rd (lo + m - off + k) (by omega)
    rwa [show S + (lo + m - off + k) = S + (lo + m) - off + k by omega] at this
  rintro prev s1 ⟨rfl, rfl⟩
  refine OkS.bind (cbMisLoop_spec H hd (by omega) how _ lo m _ _ (by omega) hi hm hm0 hda hoff ?_ hc) ?_
  · intro k hk
    rw [if_pos (by omega), show S + (lo + m) - off + k = S + (lo + m - off + k) by omega]
    exact src_bwd hc hd (by omega)
  rintro _ s2 ⟨g, rfl, _, hg, hc2⟩
  dsimp only
  rw [psub_eq (by omega) (by omega), show S + (lo + E.ws) - off - E.ws = S + lo - off by omega,
    psub_eq (by omega) (by omega), show D + (lo + E.ws) - E.ws = D + lo by omega]
  refine OkS.bind (loadEndPartial_spec H.good hal (by omega) (by omega) (by omega) ?_) ?_
  · intro k hk hk'
    have := H.rd (lo + (k - off)) (by omega)
    rwa [show S + (lo + (k - off)) = S + lo - off + k by omega] at this
  rintro cur s3 ⟨rfl, rfl⟩
  refine OkS.bind (OkS.lift (reasmB_spec (by omega) how)) ?_
  rintro r s4 ⟨rfl, rfl⟩
  refine OkS.mono (writeWord_spec (fun _ => hda) ?_) ?_
  · intro k hk
    have := H.wr (lo + k) (by omega); rwa [← Nat.add_assoc] at this
  rintro _ s5 rfl
  refine copied_bwd hc2 (by omega) ?_
  intro k hk
  rw [byteOf_wordOf hk]
  split
  · rw [if_pos (by omega), show S + lo - off + (k + off) = S + (lo + k) by omega,
      src_bwd hc2 hd (by omega)]
    congr 1; omega
  · rw [hg _ (by omega)]; congr 1; omega

theorem copyBackward_spec {D S N : Nat} (H : CopyPre E D S N) (hd : S ≤ D ∨ D + N ≤ S) (un : Bool) (s0 : Store) :
    OkS (copyBackward E un D S N) s0 (fun _ s' => Copied s0 s' D S 0 N) := by
  have h1 := H.hD
  have h2 := H.hS
  have hw := ws_pos H.good
  unfold copyBackward
  dsimp only
  rw [padd_eq h1, padd_eq h2]
  refine OkS.bind (P := fun r s' => ∃ i, i ≤ N ∧ r = (D + i, S + i, i) ∧ Copied s0 s' D S i N) ?_ ?_
  · by_cases hN : N ≥ threshold E
    · rw [if_pos hN]
      have hth := threshold_ge E
      rw [wmask_eq H.good]
      have hm1 := Nat.mod_lt (D + N) hw
      have hm2 : (D + (N - (D + N) % E.ws)) % E.ws = 0 := by
        have := Nat.div_add_mod (D + N) E.ws
        rw [show D + (N - (D + N) % E.ws) = E.ws * ((D + N) / E.ws) by omega]; exact Nat.mul_mod_right _ _
      generalize hmis : (D + N) % E.ws = mis at hm1 hm2 ⊢
      have := cbBytes_spec H hd (N - mis) mis s0 (by omega) (by
        rw [show N - mis + mis = N by omega]; exact copied_zero _ _ _ _)
      rw [show N - mis + mis = N by omega] at this
      refine OkS.bind this ?_
      rintro _ s1 hc
      rw [psub_eq (by omega) (by omega), psub_eq (by omega) (by omega), show D + N - mis = D + (N - mis) by omega,
        show S + N - mis = S + (N - mis) by omega]
      refine OkS.bind (OkS.lift (nsubC_spec (by omega))) ?_
      rintro n s2 ⟨rfl, rfl⟩
      obtain ⟨w1, w2, w3⟩ := wround_spec H.good (N - mis)
      generalize hwd : wround E (N - mis) = nw at w1 w2 w3 ⊢
      obtain ⟨lo, hlo⟩ : ∃ lo, N - mis = lo + nw := ⟨N - mis - nw, by omega⟩
      rw [hlo] at hc ⊢
      rw [hlo, ← Nat.add_assoc] at hm2
      have hmd : ∀ x, (x + nw) % E.ws = x % E.ws := by
        intro x; rw [Nat.add_mod, w1, Nat.add_zero, Nat.mod_mod]
      rw [hmd] at hm2
      refine OkS.bind (P := fun _ s' => Copied s0 s' D S lo N) ?_ ?_
      · rw [wmask_eq H.good]
        by_cases ha : (S + (lo + nw)) % E.ws = 0
        · rw [if_pos ha]
          exact cbWords_spec H hd lo nw _ (by omega) w1 hm2 (fun _ => by rwa [← Nat.add_assoc, hmd] at ha) hc
        · rw [if_neg ha]
          cases un
          · exact cbMis_spec H hd lo nw _ (by omega) (by omega) w1 hm2 ha hc
          · exact cbWords_spec H hd lo nw _ (by omega) w1 hm2 (fun h => by simp at h) hc
      · rintro _ s3 hc3
        refine OkS.bind (OkS.lift (nsubC_spec (by omega))) ?_
        rintro n s4 ⟨rfl, rfl⟩
        refine OkS.pure' ⟨lo, by omega, ?_, hc3⟩
        rw [psub_eq (by omega) (by omega), psub_eq (by omega) (by omega), show D + (lo + nw) - nw = D + lo by omega,
          show S + (lo + nw) - nw = S + lo by omega, show lo + nw - nw = lo by omega]
    · rw [if_neg hN]
      exact OkS.pure' ⟨N, by omega, rfl, copied_zero _ _ _ _⟩
  · rintro _ s1 ⟨i, hi, rfl, hc⟩
    have := cbBytes_spec H hd 0 i s1 (by omega) (by rw [Nat.zero_add]; exact hc)
    rw [Nat.zero_add] at this
    exact this

theorem memcpy_spec {D S N : Nat} (H : CopyPre E D S N) (hd : D + N ≤ S ∨ S + N ≤ D) (un : Bool) (s0 : Store) :
    OkS (memcpy E un D S N) s0 (fun r s' => r = D ∧ Copied s0 s' D S 0 N) := by
  unfold memcpy
  refine OkS.bind (copyForward_spec H (by omega) un s0) ?_
  intro _ s' h
  exact OkS.pure' ⟨rfl, h⟩

theorem memmove_spec {D S N : Nat} (H : CopyPre E D S N) (un : Bool) (s0 : Store) :
    OkS (memmove E un D S N) s0 (fun r s' => r = D ∧ Copied s0 s' D S 0 N) := by
  have h1 := H.hD
  have h2 := H.hS
  unfold memmove
  dsimp only
  have hdel : psub E D S = if S ≤ D then D - S else D + E.space - S := by
    split
    · rename_i h; exact psub_eq h (by omega)
    · unfold psub
      rw [Nat.mod_eq_of_lt (a := S) (by omega), Nat.mod_eq_of_lt (by omega)]; omega
  by_cases h : psub E D S ≥ N
  · rw [if_pos h]
    refine OkS.bind (copyForward_spec H ?_ un s0) ?_
    · rw [hdel] at h; split at h <;> omega
    intro _ s' h
    exact OkS.pure' ⟨rfl, h⟩
  · rw [if_neg h]
    refine OkS.bind (copyBackward_spec H ?_ un s0) ?_
    · rw [hdel] at h; split at h <;> omega
    intro _ s' h
    exact OkS.pure' ⟨rfl, h⟩

end Verif.Mem
