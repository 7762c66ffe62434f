import Verif.Mem.X86
import Verif.Mem.BackwardProofs
import Verif.Mem.SetProofs
/-! # Proofs about the x86_64 copies, fills and comparison -/
namespace Verif.Mem.X86
open Verif.Mem
variable {E : Env}

theorem paddU_spec {a n : Nat} (h : a + n < E.space) : Ok (paddU E a n) (fun r => r = a + n) :=
  ⟨a + n, by simp [paddU, h], rfl⟩

theorem uaddC_spec {a n : Nat} (h : a + n < E.space) : Ok (uaddC E a n) (fun r => r = a + n) :=
  ⟨a + n, by simp [uaddC, h], rfl⟩

theorem repMovs_fwd {D S N : Nat} (H : CopyPre E D S N) (hd : D ≤ S ∨ S + N ≤ D) {s0 : Store} {sz : Nat} :
    ∀ (c i : Nat) (s : Store), i + sz * c ≤ N → Copied s0 s D S 0 i →
      OkS (repMovs E sz false c (D + i) (S + i)) s
        (fun r s' => r = (D + (i + sz * c), S + (i + sz * c)) ∧ Copied s0 s' D S 0 (i + sz * c)) := by
  have h1 := H.hD
  have h2 := H.hS
  intro c
  induction c with
  | zero => intro i s hi hc; exact OkS.pure' ⟨rfl, hc⟩
  | succ c ih =>
    intro i s hi hc
    rw [Nat.mul_succ] at hi ⊢
    unfold repMovs
    refine OkS.bind (readWord_spec (by simp) fun k hk => by have := H.rd (i + k) (by omega); rwa [← Nat.add_assoc] at this) ?_
    rintro b s1 ⟨rfl, rfl⟩
    refine OkS.bind (writeWord_spec (by simp) fun k hk => by have := H.wr (i + k) (by omega); rwa [← Nat.add_assoc] at this) ?_
    rintro _ s2 rfl
    simp only [Bool.false_eq_true, if_false]
    rw [padd_eq (by omega), padd_eq (by omega)]
    have := ih (i + sz) _ (by omega) (copied_fwd (m := sz) hc
      (f := byteOf E.be sz (wordOf E.be sz fun k => s1 (S + i + k))) ?_)
    · rw [show i + sz + sz * c = i + (sz * c + sz) by omega,
          show D + (i + sz) = D + i + sz by omega, show S + (i + sz) = S + i + sz by omega] at this
      exact this
    · intro k hk
      rw [byteOf_wordOf hk, Nat.add_assoc, src_fwd hc hd (by omega) (by omega)]

theorem repMovs_bwd {D S N : Nat} (H : CopyPre E D S N) (hd : S ≤ D ∨ D + N ≤ S) {s0 : Store} {sz : Nat} :
    ∀ (c lo : Nat) (s : Store), lo + sz * c ≤ N → Copied s0 s D S (lo + sz * c) N →
      OkS (repMovs E sz true c (psub E (D + (lo + sz * c)) sz) (psub E (S + (lo + sz * c)) sz)) s
        (fun r s' => r = (psub E (D + lo) sz, psub E (S + lo) sz) ∧ Copied s0 s' D S lo N) := by
  have h1 := H.hD
  have h2 := H.hS
  intro c
  induction c with
  | zero => intro i s hi hc; exact OkS.pure' ⟨rfl, hc⟩
  | succ c ih =>
    intro lo s hi hc
    rw [Nat.mul_succ] at hi hc ⊢
    rw [psub_eq (by omega) (by omega), psub_eq (by omega) (by omega),
      show D + (lo + (sz * c + sz)) - sz = D + (lo + sz * c) by omega,
      show S + (lo + (sz * c + sz)) - sz = S + (lo + sz * c) by omega]
    unfold repMovs
    refine OkS.bind (readWord_spec (by simp) fun k hk => by
      have := H.rd (lo + sz * c + k) (by omega); rwa [← Nat.add_assoc] at this) ?_
    rintro b s1 ⟨rfl, rfl⟩
    refine OkS.bind (writeWord_spec (by simp) fun k hk => by
      have := H.wr (lo + sz * c + k) (by omega); rwa [← Nat.add_assoc] at this) ?_
    rintro _ s2 rfl
    simp only [if_true]
    refine ih lo _ (by omega) (copied_bwd ?_ (by omega) ?_)
    · rwa [Nat.add_assoc]
    · intro k hk
      rw [byteOf_wordOf hk, Nat.add_assoc, src_bwd hc hd (by omega), Nat.add_assoc]

theorem repParam_spec (dest count : Nat) :
    Ok (repParam dest count) (fun r => r.1 + 8 * r.2.1 + r.2.2 = count ∧ r.1 < 8 ∧ r.2.2 < 8) := by
  have e7 : ∀ a, a &&& 7 = a % 8 := fun a => Nat.and_two_pow_sub_one_eq_mod a 3
  unfold repParam
  rw [e7]
  refine Ok.bind (nsubC_spec (by omega)) ?_
  rintro t rfl
  dsimp only
  rw [e7]
  refine Ok.bind (nsubC_spec (by omega)) ?_
  rintro n rfl
  refine Ok.pure' ?_
  dsimp only
  rw [e7, Nat.shiftRight_eq_div_pow]
  omega

theorem copyForward_spec {D S N : Nat} (H : CopyPre E D S N) (hd : D ≤ S ∨ S + N ≤ D) (ermsb : Bool) (s0 : Store) :
    OkS (copyForward E ermsb D S N) s0 (fun _ s' => Copied s0 s' D S 0 N) := by
  unfold copyForward
  cases ermsb
  · simp only [Bool.false_eq_true, if_false]
    refine OkS.bind (OkS.lift (repParam_spec D N)) ?_
    rintro ⟨pre, qw, bc⟩ s ⟨⟨hs, -, -⟩, rfl⟩
    dsimp only at hs ⊢
    have a1 := repMovs_fwd H hd (sz := 1) pre 0 s (by omega) (copied_zero _ _ _ _)
    simp only [Nat.add_zero, Nat.zero_add, Nat.one_mul] at a1
    refine OkS.bind a1 ?_
    rintro _ s1 ⟨rfl, hc1⟩
    refine OkS.bind (repMovs_fwd H hd (sz := 8) qw pre s1 (by omega) hc1) ?_
    rintro _ s2 ⟨rfl, hc2⟩
    refine OkS.bind (repMovs_fwd H hd (sz := 1) bc _ s2 (by omega) hc2) ?_
    rintro _ s3 ⟨-, hc3⟩
    rw [show pre + 8 * qw + 1 * bc = N by omega] at hc3
    exact OkS.pure' hc3
  · simp only [if_true]
    have a1 := repMovs_fwd H hd (sz := 1) N 0 s0 (by omega) (copied_zero _ _ _ _)
    simp only [Nat.add_zero, Nat.zero_add, Nat.one_mul] at a1
    refine OkS.bind a1 ?_
    rintro _ s3 ⟨-, hc3⟩
    exact OkS.pure' hc3

theorem psub_psub (h8 : E.ws = 8) (a : Nat) : psub E (psub E a 1) 7 = psub E a 8 := by
  have : E.space = 2 ^ 64 := by rw [Env.space, h8]
  unfold psub
  rw [this]
  omega

theorem padd_psub (h8 : E.ws = 8) (a : Nat) : padd E (psub E a 8) 7 = psub E a 1 := by
  have : E.space = 2 ^ 64 := by rw [Env.space, h8]
  unfold psub padd
  rw [this]
  omega

theorem copyBackward_spec (h8 : E.ws = 8) {D S N : Nat} (H : CopyPre E D S N) (hd : S ≤ D ∨ D + N ≤ S) (h0 : 0 < N)
    (s0 : Store) :
    OkS (copyBackward E D S N) s0 (fun _ s' => Copied s0 s' D S 0 N) := by
  have h1 := H.hD
  have h2 := H.hS
  unfold copyBackward
  refine OkS.bind (OkS.lift (repParam_spec D N)) ?_
  rintro ⟨pre, qw, bc⟩ s ⟨⟨hs, hpre, -⟩, rfl⟩
  dsimp only at hs hpre ⊢
  refine OkS.bind (OkS.lift (nsubC_spec (by omega))) ?_
  rintro c s' ⟨rfl, rfl⟩
  refine OkS.bind (OkS.lift (paddU_spec (by omega))) ?_
  rintro rdi s1 ⟨rfl, rfl⟩
  refine OkS.bind (OkS.lift (paddU_spec (by omega))) ?_
  rintro rsi s2 ⟨rfl, rfl⟩
  have a1 := repMovs_bwd H hd (sz := 1) bc (pre + 8 * qw) s2 (by omega) (by
    rw [show pre + 8 * qw + 1 * bc = N by omega]; exact copied_zero _ _ _ _)
  rw [show pre + 8 * qw + 1 * bc = N by omega, psub_eq (by omega) (by omega), psub_eq (by omega) (by omega),
    show D + N - 1 = D + (N - 1) by omega, show S + N - 1 = S + (N - 1) by omega] at a1
  refine OkS.bind a1 ?_
  rintro _ s3 ⟨rfl, hc1⟩
  dsimp only
  rw [psub_psub h8, psub_psub h8]
  refine OkS.bind (repMovs_bwd H hd (sz := 8) qw pre s3 (by omega) hc1) ?_
  rintro _ s4 ⟨rfl, hc2⟩
  dsimp only
  rw [padd_psub h8, padd_psub h8, Nat.mod_eq_of_lt (by omega)]
  have a3 := repMovs_bwd H hd (sz := 1) pre 0 s4 (by omega) (by rw [Nat.zero_add, Nat.one_mul]; exact hc2)
  rw [Nat.zero_add, Nat.one_mul] at a3
  refine OkS.bind a3 ?_
  rintro _ s5 ⟨-, hc3⟩
  exact OkS.pure' hc3

theorem memcpy_spec {D S N : Nat} (H : CopyPre E D S N) (hd : D + N ≤ S ∨ S + N ≤ D) (ermsb : Bool) (s0 : Store) :
    OkS (memcpy E ermsb D S N) s0 (fun r s' => r = D ∧ Copied s0 s' D S 0 N) := by
  unfold memcpy
  refine OkS.bind (copyForward_spec H (by omega) ermsb s0) ?_
  intro _ s' h
  exact OkS.pure' ⟨rfl, h⟩

theorem memmove_spec (h8 : E.ws = 8) {D S N : Nat} (H : CopyPre E D S N) (ermsb : Bool) (s0 : Store) :
    OkS (memmove E ermsb D S N) s0 (fun r s' => r = D ∧ Copied s0 s' D S 0 N) := by
  have h1 := H.hD
  have h2 := H.hS
  unfold memmove
  dsimp only
  have hdel : psub E D S = if S ≤ D then D - S else D + E.space - S := by
    split
    · rename_i h; exact psub_eq h (by omega)
    · unfold psub
      rw [Nat.mod_eq_of_lt (a := S) (by omega), Nat.mod_eq_of_lt (by omega)]; omega
  by_cases h : psub E D S ≥ N
  · rw [if_pos h]
    refine OkS.bind (copyForward_spec H ?_ ermsb s0) ?_
    · rw [hdel] at h; split at h <;> omega
    intro _ s' h
    exact OkS.pure' ⟨rfl, h⟩
  · rw [if_neg h]
    refine OkS.bind (copyBackward_spec h8 H ?_ (by omega) s0) ?_
    · rw [hdel] at h; split at h <;> omega
    intro _ s' h
    exact OkS.pure' ⟨rfl, h⟩

/-! ### Fill -/

theorem repStos_spec {D N : Nat} (H : FillPre E D N) {s0 : Store} {sz : Nat} {rax : BitVec 64} {c : Byte}
    (hb : ∀ k, k < sz → byteOf E.be sz (rax.setWidth (8 * sz)) k = c) :
    ∀ (n i : Nat) (s : Store), i + sz * n ≤ N → Filled s0 s c D i →
      OkS (repStos E sz rax n (D + i)) s
        (fun r s' => r = D + (i + sz * n) ∧ Filled s0 s' c D (i + sz * n)) := by
  have h1 := H.hD
  intro n
  induction n with
  | zero => intro i s hi hc; exact OkS.pure' ⟨rfl, hc⟩
  | succ n ih =>
    intro i s hi hc
    rw [Nat.mul_succ] at hi ⊢
    unfold repStos
    refine OkS.bind (writeWord_spec (by simp) fun k hk => by have := H.wr (i + k) (by omega); rwa [← Nat.add_assoc] at this) ?_
    rintro _ s2 rfl
    rw [padd_eq (by omega)]
    have := ih (i + sz) _ (by omega) (filled_put (m := sz) hc
      (f := byteOf E.be sz (rax.setWidth (8 * sz))) hb)
    rw [show i + sz + sz * n = i + (sz * n + sz) by omega, show D + (i + sz) = D + i + sz by omega] at this
    exact this

theorem byte_mul (c : Byte) (x : BitVec 64) (h : x.toNat = c.toNat * 0x0101010101010101) (k : Nat) (hk : k < 8) :
    x.extractLsb' (8 * k) 8 = c := by
  have hc := c.isLt
  apply BitVec.eq_of_toNat_eq
  rw [BitVec.extractLsb'_toNat, h, Nat.shiftRight_eq_div_pow]
  have key : ∀ v, v < 256 → ∀ k, k < 8 → v * 0x0101010101010101 / 2 ^ (8 * k) % 2 ^ 8 = v := by decide +kernel
  exact key _ hc k hk

theorem setBytes_spec {D N : Nat} (H : FillPre E D N) (ermsb : Bool) (c : Byte) (s0 : Store) :
    OkS (setBytes E ermsb D c N) s0 (fun _ s' => Filled s0 s' c D N) := by
  unfold setBytes
  cases ermsb
  · simp only [Bool.false_eq_true, if_false]
    have hc := c.isLt
    have hcw : (c.setWidth 64).toNat = c.toNat := by rw [BitVec.toNat_setWidth]; omega
    refine OkS.bind (OkS.lift (mulC_spec (by rw [hcw]; show c.toNat * 0x0101010101010101 < _; omega))) ?_
    rintro x s ⟨hx, rfl⟩
    rw [hcw] at hx
    replace hx : x.toNat = c.toNat * 0x0101010101010101 := hx
    have hb1 : ∀ k, k < 1 → byteOf E.be 1 (x.setWidth (8 * 1)) k = c := by
      intro k hk
      have : bytePos E.be 1 k = 0 := by unfold bytePos; split <;> omega
      rw [byteOf, this]
      have e := byte_mul c x hx 0 (by omega)
      rw [← e]
      apply BitVec.eq_of_toNat_eq
      simp [BitVec.extractLsb'_toNat]
    have hb8 : ∀ k, k < 8 → byteOf E.be 8 (x.setWidth (8 * 8)) k = c := by
      intro k hk
      have : x.setWidth (8 * 8) = x := BitVec.setWidth_eq x
      rw [byteOf, this]
      exact byte_mul c x hx _ (bytePos_lt hk)
    refine OkS.bind (OkS.lift (repParam_spec D N)) ?_
    rintro ⟨pre, qw, bc⟩ s1 ⟨⟨hs, -, -⟩, rfl⟩
    dsimp only at hs ⊢
    have a1 := repStos_spec H (sz := 1) hb1 pre 0 s1 (by omega) (filled_zero _ _ _)
    simp only [Nat.add_zero, Nat.zero_add, Nat.one_mul] at a1
    refine OkS.bind a1 ?_
    rintro _ s2 ⟨rfl, hc1⟩
    refine OkS.bind (repStos_spec H (sz := 8) hb8 qw pre s2 (by omega) hc1) ?_
    rintro _ s3 ⟨rfl, hc2⟩
    refine OkS.bind (repStos_spec H (sz := 1) hb1 bc _ s3 (by omega) hc2) ?_
    rintro _ s4 ⟨-, hc3⟩
    rw [show pre + 8 * qw + 1 * bc = N by omega] at hc3
    exact OkS.pure' hc3
  · simp only [if_true]
    have hb1 : ∀ k, k < 1 → byteOf E.be 1 ((c.setWidth 64).setWidth (8 * 1)) k = c := by
      intro k hk
      have : bytePos E.be 1 k = 0 := by unfold bytePos; split <;> omega
      rw [byteOf, this]
      apply BitVec.eq_of_toNat_eq
      have := c.isLt
      simp
    have a1 := repStos_spec H (sz := 1) hb1 N 0 s0 (by omega) (filled_zero _ _ _)
    simp only [Nat.add_zero, Nat.zero_add, Nat.one_mul] at a1
    refine OkS.bind a1 ?_
    rintro _ s3 ⟨-, hc3⟩
    exact OkS.pure' hc3

theorem memset_spec {D N : Nat} (H : FillPre E D N) (ermsb : Bool) (c : BitVec 32) (s0 : Store) :
    OkS (memset E ermsb D c N) s0 (fun r s' => r = D ∧ Filled s0 s' (c.setWidth 8) D N) := by
  unfold memset
  refine OkS.bind (setBytes_spec H _ _ s0) ?_
  intro _ s' h
  exact OkS.pure' ⟨rfl, h⟩

/-! ### Comparison -/

/-- `f` compares any sub-range correctly. -/
def CmpOk (s : Store) (A B N : Nat) (f : Nat → Nat → Nat → MM Int) : Prop :=
  ∀ i m, i + m ≤ N → OkS (f (A + i) (B + i) m) s (fun r s' => s' = s ∧ CmpResult s (A + i) (B + i) m r)

theorem c1_spec {A B N : Nat} (h1 : A + N < E.space) (h2 : B + N < E.space)
    (r1 : ∀ i, i < N → E.canR (A + i) = true) (r2 : ∀ i, i < N → E.canR (B + i) = true) (s : Store) :
    CmpOk s A B N (c1 E) := by
  intro i m
  induction m generalizing i with
  | zero =>
    intro _
    exact OkS.pure' ⟨rfl, .inr ⟨by intros; omega, rfl⟩⟩
  | succ m ih =>
    intro hi
    unfold c1
    refine OkS.bind (readB_spec (r1 i (by omega))) ?_
    rintro a s' ⟨rfl, rfl⟩
    refine OkS.bind (readB_spec (r2 i (by omega))) ?_
    rintro b s' ⟨rfl, rfl⟩
    by_cases hab : s' (A + i) ≠ s' (B + i)
    · rw [if_pos hab]
      exact OkS.pure' ⟨rfl, .inl ⟨0, by omega, by intros; omega, hab, rfl⟩⟩
    · rw [if_neg hab]
      have hab := Decidable.not_not.1 hab
      refine OkS.bind (OkS.lift (paddU_spec (by omega))) ?_
      rintro a s1 ⟨rfl, rfl⟩
      refine OkS.bind (OkS.lift (paddU_spec (by omega))) ?_
      rintro b s2 ⟨rfl, rfl⟩
      have := ih (i + 1) (by omega)
      rw [show A + (i + 1) = A + i + 1 by omega, show B + (i + 1) = B + i + 1 by omega] at this
      refine OkS.mono this ?_
      rintro r s' ⟨rfl, hr⟩
      refine ⟨rfl, ?_⟩
      have shift : ∀ t, s' (A + i + 1 + t) = s' (A + i + (t + 1)) ∧ s' (B + i + 1 + t) = s' (B + i + (t + 1)) := by
        intro t; constructor <;> congr 1 <;> omega
      rcases hr with ⟨j, hj, he, hn, rfl⟩ | ⟨he, rfl⟩
      · refine .inl ⟨j + 1, by omega, ?_, ?_, ?_⟩
        · intro t ht
          cases t with
          | zero => exact hab
          | succ t => have := he t (by omega); rwa [(shift t).1, (shift t).2] at this
        · rwa [(shift j).1, (shift j).2] at hn
        · rw [(shift j).1, (shift j).2]
      · refine .inr ⟨?_, rfl⟩
        intro t ht
        cases t with
        | zero => exact hab
        | succ t => have := he t (by omega); rwa [(shift t).1, (shift t).2] at this

theorem wordOf_inj {be : Bool} {sz : Nat} {f g : Nat → Byte} (h : wordOf be sz f = wordOf be sz g) :
    ∀ k, k < sz → f k = g k := by
  intro k hk
  rw [← byteOf_wordOf (be := be) (f := f) hk, h, byteOf_wordOf hk]

/-- An equal prefix may be skipped. -/
theorem cmp_prefix {s : Store} {a b p m : Nat} {r : Int} (hp : ∀ j, j < p → s (a + j) = s (b + j))
    (hr : CmpResult s (a + p) (b + p) m r) : CmpResult s a b (p + m) r := by
  have ext : ∀ j k, (∀ t, t < j → s (a + p + t) = s (b + p + t)) → k < p + j → s (a + k) = s (b + k) := by
    intro j k h hk
    by_cases hkp : k < p
    · exact hp k hkp
    · have := h (k - p) (by omega)
      rwa [show a + p + (k - p) = a + k by omega, show b + p + (k - p) = b + k by omega] at this
  rcases hr with ⟨j, hj, he, hn, rfl⟩ | ⟨he, rfl⟩
  · refine .inl ⟨p + j, by omega, fun k hk => ext j k he hk, ?_, ?_⟩
    · rwa [← Nat.add_assoc, ← Nat.add_assoc]
    · rw [← Nat.add_assoc, ← Nat.add_assoc]
  · exact .inr ⟨fun k hk => ext m k he hk, rfl⟩

/-- A suffix after a difference does not matter. -/
theorem cmp_extend {s : Store} {a b m n : Nat} {r : Int} (hm : m ≤ n) (hr : CmpResult s a b m r)
    (hne : ∃ k, k < m ∧ s (a + k) ≠ s (b + k)) : CmpResult s a b n r := by
  rcases hr with ⟨j, hj, he, hn, rfl⟩ | ⟨he, rfl⟩
  · exact .inl ⟨j, by omega, he, hn, rfl⟩
  · obtain ⟨k, hk, h⟩ := hne
    exact absurd (he k hk) h

theorem cmpTLoop_spec {A B N : Nat} (h1 : A + N < E.space) (h2 : B + N < E.space)
    (r1 : ∀ i, i < N → E.canR (A + i) = true) (r2 : ∀ i, i < N → E.canR (B + i) = true) {s : Store} {sz rest : Nat}
    (hsz : 0 < sz) {f : Nat → Nat → Nat → MM Int} (hf : CmpOk s A B N f) :
    ∀ (fuel c i : Nat), c < fuel → i + sz * c + rest ≤ N →
      OkS (cmpTLoop E sz f rest fuel (A + i) (B + i) (A + i + sz * c)) s
        (fun r s' => s' = s ∧ CmpResult s (A + i) (B + i) (sz * c + rest) r) := by
  intro fuel
  induction fuel with
  | zero => intros; omega
  | succ fuel ih =>
    intro c i hc hi
    unfold cmpTLoop
    cases c with
    | zero =>
      rw [if_neg (by simp), Nat.mul_zero, Nat.zero_add]
      exact hf i rest (by omega)
    | succ c =>
      rw [Nat.mul_succ] at hi ⊢
      rw [if_pos (by omega)]
      refine OkS.bind (readWord_spec (by simp) fun k hk => by have := r1 (i + k) (by omega); rwa [← Nat.add_assoc] at this) ?_
      rintro x s1 ⟨rfl, rfl⟩
      refine OkS.bind (readWord_spec (by simp) fun k hk => by have := r2 (i + k) (by omega); rwa [← Nat.add_assoc] at this) ?_
      rintro y s2 ⟨rfl, rfl⟩
      by_cases hxy : wordOf E.be sz (fun k => s2 (A + i + k)) ≠ wordOf E.be sz (fun k => s2 (B + i + k))
      · rw [if_pos hxy]
        refine OkS.mono (hf i sz (by omega)) ?_
        rintro r s' ⟨rfl, hr⟩
        refine ⟨rfl, cmp_extend (by omega) hr ?_⟩
        by_cases hall : ∃ k, k < sz ∧ s' (A + i + k) ≠ s' (B + i + k)
        · exact hall
        · exfalso
          refine hxy (wordOf_congr fun k hk => ?_)
          exact Decidable.byContradiction fun h => hall ⟨k, hk, h⟩
      · rw [if_neg hxy]
        have hxy := wordOf_inj (Decidable.not_not.1 hxy)
        refine OkS.bind (OkS.lift (paddU_spec (by omega))) ?_
        rintro a s1 ⟨rfl, rfl⟩
        refine OkS.bind (OkS.lift (paddU_spec (by omega))) ?_
        rintro b s2 ⟨rfl, rfl⟩
        have := ih c (i + sz) (by omega) (by omega)
        rw [show A + (i + sz) = A + i + sz by omega, show B + (i + sz) = B + i + sz by omega,
          show A + i + sz + sz * c = A + i + (sz * c + sz) by omega] at this
        refine OkS.mono this ?_
        rintro r s' ⟨rfl, hr⟩
        refine ⟨rfl, ?_⟩
        have := cmp_prefix (p := sz) (fun j hj => hxy j hj) hr
        rwa [show sz + (sz * c + rest) = sz * c + sz + rest by omega] at this

theorem cmpT_spec {A B N : Nat} (h1 : A + N < E.space) (h2 : B + N < E.space)
    (r1 : ∀ i, i < N → E.canR (A + i) = true) (r2 : ∀ i, i < N → E.canR (B + i) = true) {s : Store} {sz : Nat}
    (hsz : 0 < sz) {f : Nat → Nat → Nat → MM Int} (hf : CmpOk s A B N f) : CmpOk s A B N (cmpT E sz f) := by
  intro i m hi
  have hdm := Nat.div_add_mod m sz
  have hle : m / sz ≤ m := Nat.div_le_self _ _
  unfold cmpT
  rw [Nat.mul_comm (m / sz)]
  refine OkS.bind (OkS.lift (paddU_spec (by omega))) ?_
  rintro e s1 ⟨rfl, rfl⟩
  have := cmpTLoop_spec h1 h2 r1 r2 (rest := m % sz) hsz hf (m + 1) (m / sz) i (by omega) (by omega)
  rw [hdm] at this
  exact this

theorem memcmp_spec {A B N : Nat} (h1 : A + N < E.space) (h2 : B + N < E.space)
    (r1 : ∀ i, i < N → E.canR (A + i) = true) (r2 : ∀ i, i < N → E.canR (B + i) = true) (s : Store) :
    OkS (memcmp E A B N) s (fun r s' => s' = s ∧ CmpResult s A B N r) := by
  have t : ∀ {sz f}, 0 < sz → CmpOk s A B N f → CmpOk s A B N (cmpT E sz f) := fun hsz hf => cmpT_spec h1 h2 r1 r2 hsz hf
  exact t (sz := 16) (by omega) (t (by omega) (t (by omega) (t (by omega) (c1_spec h1 h2 r1 r2 s)))) 0 N (by omega)

end Verif.Mem.X86
