import Verif.Conc.Outline
import Verif.Conc.ThumbProofs
import Verif.Conc.Footprint
import Mathlib.Tactic.IntervalCases
/-! Linearizability of the AArch64 outline atomics. -/
namespace Verif.Conc

/-! ### pairs -/

theorem append_bit (b a : BitVec 64) (i : Nat) :
    BitVec.getLsbD (w := 128) (b ++ a) i = if i < 64 then a.getLsbD i else b.getLsbD (i - 64) :=
  BitVec.getLsbD_append

theorem wordAt_pair (be : Bool) (a b : BitVec 64) : wordAt be (pairVal be a b) 0 = a ∧ wordAt be (pairVal be a b) 1 = b := by
  unfold wordAt pairVal bytePos
  constructor <;> cases be <;> apply BitVec.eq_of_getLsbD_eq <;> intro i hi <;>
    simp only [BitVec.getLsbD_extractLsb', Bool.false_eq_true, if_false, if_true] <;> rw [append_bit] <;> simp [hi]

theorem getLsbD_pair (be : Bool) (v : BitVec 128) {i j : Nat} (hj : j < 64) :
    (wordAt be v i).getLsbD j = v.getLsbD (64 * bytePos be 2 i + j) := by
  unfold wordAt
  simp [hj]

theorem pair_ext {be : Bool} {u v : BitVec 128} (h0 : wordAt be u 0 = wordAt be v 0) (h1 : wordAt be u 1 = wordAt be v 1) :
    u = v := by
  apply BitVec.eq_of_getLsbD_eq
  intro i hi
  have h : ∀ k, k < 2 → wordAt be u k = wordAt be v k := by
    intro k hk
    interval_cases k <;> assumption
  have h2 := congrArg (fun x => x.getLsbD (i % 64)) (h (bytePos be 2 (i / 64)) (bytePos_lt (by omega)))
  rw [getLsbD_pair be u (by omega), getLsbD_pair be v (by omega),
    bytePos_invol (by omega), show 64 * (i / 64) + i % 64 = i by omega] at h2
  exact h2

theorem pair_word (be : Bool) (v : BitVec 128) : pairVal be (wordAt be v 0) (wordAt be v 1) = v :=
  pair_ext (wordAt_pair be _ _).1 (wordAt_pair be _ _).2

theorem word_readCell (be : Bool) (m : Mem 64) (ptr : BitVec 64) {i : Nat} (hi : i < 2) :
    wordAt be (readCell be m ptr 16) i = readCell be m (ptr + BitVec.ofNat 64 (8 * i)) 8 := by
  apply BitVec.eq_of_getLsbD_eq
  intro j hj
  rw [getLsbD_pair be _ hj, getLsbD_readCell, getLsbD_readCell]
  have hb := bytePos_lt (be := be) hi
  have e1 : (64 * bytePos be 2 i + j) / 8 = 8 * bytePos be 2 i + j / 8 := by omega
  have e2 : (64 * bytePos be 2 i + j) % 8 = j % 8 := by omega
  have e3 : bytePos be 16 (8 * bytePos be 2 i + j / 8) = 8 * i + bytePos be 8 (j / 8) := by
    unfold bytePos
    cases be <;> simp; omega
  rw [e1, e2, e3, BitVec.add_assoc, ← BitVec.ofNat_add]
  simp [show 64 * bytePos be 2 i + j < 128 by omega, hj]

theorem readCell16 (be : Bool) (m : Mem 64) (ptr : BitVec 64) :
    readCell be m ptr 16 = pairVal be (readCell be m ptr 8) (readCell be m (ptr + 8#64) 8) := by
  apply pair_ext (be := be)
  · rw [(wordAt_pair be _ _).1]
    have := word_readCell be m ptr (i := 0) (by omega)
    simpa using this
  · rw [(wordAt_pair be _ _).2]
    exact word_readCell be m ptr (i := 1) (by omega)

theorem writeCell16 (be : Bool) (m : Mem 64) (ptr : BitVec 64) (d : BitVec 128) :
    writeCell be (writeCell be m ptr 8 (wordAt be d 0)) (ptr + 8#64) 8 (wordAt be d 1) = writeCell be m ptr 16 d := by
  funext x
  unfold writeCell
  have hk : (x - (ptr + 8#64)).toNat = ((x - ptr).toNat + 2 ^ 64 - 8) % 2 ^ 64 := by
    rw [← BitVec.sub_sub, BitVec.toNat_sub]
    congr 1
    simp only [BitVec.toNat_ofNat]; omega
  have hlt := (x - ptr).isLt
  rw [hk]
  generalize (x - ptr).toNat = k at *
  by_cases h8 : k < 8
  · have e : ¬ (k + 2 ^ 64 - 8) % 2 ^ 64 < 8 := by omega
    rw [if_neg e, if_pos h8, if_pos (by omega)]
    apply BitVec.eq_of_getLsbD_eq
    intro i hi
    have hb := bytePos_lt (be := be) h8
    rw [BitVec.getLsbD_extractLsb', BitVec.getLsbD_extractLsb', getLsbD_pair be d (by omega)]
    have : 64 * bytePos be 2 0 + (8 * bytePos be 8 k + i) = 8 * bytePos be 16 k + i := by
      clear hk e hlt
      unfold bytePos
      cases be <;> simp; omega
    rw [this]
  · by_cases h16 : k < 16
    · have e : (k + 2 ^ 64 - 8) % 2 ^ 64 = k - 8 := by omega
      rw [e, if_pos (by omega), if_pos h16]
      apply BitVec.eq_of_getLsbD_eq
      intro i hi
      have hb := bytePos_lt (be := be) (n := 8) (k := k - 8) (by omega)
      rw [BitVec.getLsbD_extractLsb', BitVec.getLsbD_extractLsb', getLsbD_pair be d (by omega)]
      have : 64 * bytePos be 2 1 + (8 * bytePos be 8 (k - 8) + i) = 8 * bytePos be 16 k + i := by
        clear hk e hlt
        unfold bytePos
        cases be <;> simp <;> omega
      rw [this]
    · rw [if_neg (by omega), if_neg h8, if_neg h16]

/-! ### registers -/

theorem setWidth_regW {n : Nat} (h : n ≤ 8) (x : BitVec 64) : (regW n x).setWidth (8 * n) = x.setWidth (8 * n) := by
  unfold regW
  split
  · rw [BitVec.setWidth_setWidth_of_le _ (by omega), BitVec.setWidth_setWidth_of_le _ (by omega)]
  · rfl

theorem regW_setWidth {n : Nat} (h : n ≤ 8) (a : BitVec (8 * n)) : regW n (a.setWidth 64) = a.setWidth 64 := by
  unfold regW
  split
  · apply BitVec.eq_of_toNat_eq
    have := a.isLt
    have h2 : 2 ^ (8 * n) ≤ 2 ^ 32 := Nat.pow_le_pow_right (by omega) (by omega)
    simp only [BitVec.toNat_setWidth]
    omega
  · rfl

theorem roundtrip64 {n : Nat} (h : n ≤ 8) (a : BitVec (8 * n)) : (a.setWidth 64).setWidth (8 * n) = a := by
  rw [BitVec.setWidth_setWidth_of_le _ (by omega), BitVec.setWidth_eq]

theorem uxt_eq {n : Nat} (h : n = 1 ∨ n = 2 ∨ n = 4 ∨ n = 8) (x : BitVec 64) :
    uxt n x = (x.setWidth (8 * n)).setWidth 64 := by
  rcases h with rfl | rfl | rfl | rfl <;> simp [uxt, regW]

theorem OutKind.instr_eq {n : Nat} (h : n ≤ 8) (k : OutKind) (a : BitVec (8 * n)) (x : BitVec 64) :
    (k.instr n (a.setWidth 64) (regW n x)).setWidth (8 * n) = k.spec a (x.setWidth (8 * n)) := by
  have h1 := roundtrip64 h a
  have h2 := setWidth_regW h x
  have hw : 8 * n ≤ 64 := by omega
  cases k with
  | swp => simp only [instr, spec]; exact h2
  | ldadd =>
    simp only [instr, spec]
    rw [setWidth_regW h, BitVec.setWidth_add _ _ hw, h1, h2]
    apply BitVec.eq_of_toNat_eq
    simp [BitVec.toNat_add]
  | ldclr =>
    simp only [instr, spec]
    rw [setWidth_regW h, BitVec.setWidth_and, BitVec.setWidth_not hw, h1, h2]
  | ldeor => simp only [instr, spec]; rw [setWidth_regW h, BitVec.setWidth_xor, h1, h2]
  | ldset => simp only [instr, spec]; rw [setWidth_regW h, BitVec.setWidth_or, h1, h2]

theorem OutKind.lse_eq {w : Nat} (k : OutKind) (a b : BitVec w) : k.lse a b = k.spec a b := by
  cases k <;> simp only [lse, spec]
  apply BitVec.eq_of_toNat_eq
  simp [BitVec.toNat_add]

/-! ### the simulation -/

/-- the registers of the LL/SC loops -/
def OutRegs (op : OutOp 64) (x16 x1 : BitVec 64) : Prop :=
  match op with
  | .rmw n _ _ val => ∃ x0 : BitVec 64, x16 = regW n x0 ∧ x0.setWidth (8 * n) = val
  | .cas n _ e d => x16 = e.setWidth 64 ∧ x1.setWidth (8 * n) = d

/-- what a successful `stxr` does -/
def StxrOk (be tear : Bool) (op : OutOp 64) (x0 data : BitVec 64) : Prop :=
  ∀ m : Mem 64, readCell be m op.ptr op.size = x0.setWidth (8 * op.size) →
    op.apply be tear m =
      (writeCell be m op.ptr op.size (data.setWidth (8 * op.size)), {(x0.setWidth (8 * op.size)).toNat})

/-- related states of a thread -/
inductive OutRel (be tear : Bool) (m : Mem 64) (μ : Option (BitVec 64 × Nat)) : OutLocal → TState (outObj 64 be tear) → Prop
  | idle : OutRel be tear m μ .idle .idle
  | start (op : OutOp 64) (hv : op.sizeOk) : OutRel be tear m μ (.start op) (.pending op)
  | lse (op : OutOp 64) (hv : op.sizeOk) : OutRel be tear m μ (.lse op) (.pending op)
  | ldxr (op : OutOp 64) (x16 x1) (hn : op.size ≤ 8) (hg : OutRegs op x16 x1) :
      OutRel be tear m μ (.ldxr op x16 x1) (.pending op)
  | stxr (op : OutOp 64) (x16 x1 x0 data) (hn : op.size ≤ 8) (hg : OutRegs op x16 x1) (hs : StxrOk be tear op x0 data)
      (hm : μ = some (op.ptr, op.size) → readCell be m op.ptr op.size = x0.setWidth (8 * op.size)) :
      OutRel be tear m μ (.stxr op x16 x1 x0 data) (.pending op)
  | ldxp (ptr) (e d : BitVec (8 * 16)) : OutRel be tear m μ (.ldxp ptr e d) (.pending (.cas 16 ptr e d : OutOp 64))
  | ldxp2 (ptr) (e d : BitVec (8 * 16)) (i v) (ht : tear = true) (hi : i < 2) (hv : v = wordAt be e i)
      (hm : μ = some (ptr, 16) → wordAt be (readCell be m ptr 16) i = v) :
      OutRel be tear m μ (.ldxp2 ptr e d i v) (.pending (.cas 16 ptr e d : OutOp 64))
  | ldxp2_failed (ptr) (e d : BitVec (8 * 16)) (i v) (R : Set Nat) (hi : i < 2) (hv : v ≠ wordAt be e i)
      (hR : ∀ x : BitVec 128, wordAt be x i = v → x.toNat ∈ R) :
      OutRel be tear m μ (.ldxp2 ptr e d i v) (.done R)
  | stxp (ptr) (e d : BitVec (8 * 16)) (hm : μ = some (ptr, 16) → readCell be m ptr 16 = e) :
      OutRel be tear m μ (.stxp ptr e d (wordAt be e 0) (wordAt be e 1)) (.pending (.cas 16 ptr e d : OutOp 64))
  | done (r : Nat) (R : Set Nat) (h : r ∈ R) : OutRel be tear m μ (.done r) (.done R)

theorem OutRel.mono {be tear : Bool} {m m' : Mem 64} {μ μ' : Option (BitVec 64 × Nat)} {l : OutLocal}
    {s : TState (outObj 64 be tear)} (hr : OutRel be tear m μ l s)
    (h : ∀ b k, k ≤ 16 → μ' = some (b, k) → μ = some (b, k) ∧ readCell be m' b k = readCell be m b k) :
    OutRel be tear m' μ' l s := by
  cases hr with
  | idle => exact .idle
  | start op hv => exact .start op hv
  | lse op hv => exact .lse op hv
  | ldxr op x16 x1 hn hg => exact .ldxr op x16 x1 hn hg
  | stxr op x16 x1 x0 data hn hg hs hm =>
    refine .stxr op x16 x1 x0 data hn hg hs (fun e => ?_)
    obtain ⟨h1, h2⟩ := h _ _ (by omega) e
    rw [h2, hm h1]
  | ldxp ptr e d => exact .ldxp ptr e d
  | ldxp2 ptr e d i v ht hi hv hm =>
    refine .ldxp2 ptr e d i v ht hi hv (fun e => ?_)
    obtain ⟨h1, h2⟩ := h _ _ (by omega) e
    rw [h2, hm h1]
  | ldxp2_failed ptr e d i v R hi hv hR => exact .ldxp2_failed ptr e d i v R hi hv hR
  | stxp ptr e d hm =>
    refine .stxp ptr e d (fun e => ?_)
    obtain ⟨h1, h2⟩ := h _ _ (by omega) e
    rw [h2, hm h1]
  | done r R h => exact .done r R h

theorem afterLdxr_rel {be tear : Bool} {m : Mem 64} {op : OutOp 64} {x16 x1 : BitVec 64} (hn : op.size ≤ 8)
    (hg : OutRegs op x16 x1) :
    (∃ r, afterLdxr op x16 x1 ((readCell be m op.ptr op.size).setWidth 64) = .done r ∧ (op.apply be tear m).1 = m ∧
      r ∈ (op.apply be tear m).2) ∨
    ∃ data, afterLdxr op x16 x1 ((readCell be m op.ptr op.size).setWidth 64) =
        .stxr op x16 x1 ((readCell be m op.ptr op.size).setWidth 64) data ∧
      StxrOk be tear op ((readCell be m op.ptr op.size).setWidth 64) data := by
  cases op with
  | rmw n ptr k val =>
    right
    obtain ⟨x0, rfl, hx⟩ := hg
    simp only [OutOp.size, OutOp.ptr] at *
    refine ⟨_, rfl, ?_⟩
    intro m' hm'
    simp only [OutOp.size, OutOp.ptr, OutOp.apply] at *
    rw [OutKind.instr_eq hn, hm', roundtrip64 hn, hx]
  | cas n ptr e d =>
    obtain ⟨rfl, hx⟩ := hg
    simp only [OutOp.size, OutOp.ptr] at *
    by_cases he : readCell be m ptr n = e
    · right
      refine ⟨x1, ?_, ?_⟩
      · simp only [afterLdxr]
        rw [if_neg (by rw [he]; simp)]
      · intro m' hm'
        simp only [OutOp.size, OutOp.ptr, OutOp.apply] at *
        rw [hm', roundtrip64 hn, if_pos he, hx]
    · left
      refine ⟨(readCell be m ptr n).toNat, ?_, ?_, ?_⟩
      · simp only [afterLdxr]
        rw [regW_setWidth hn, regW_setWidth hn, if_pos, roundtrip64 hn]
        intro hc
        apply he
        have := congrArg (BitVec.setWidth (8 * n)) hc
        rwa [roundtrip64 hn, roundtrip64 hn] at this
      · simp only [OutOp.apply]; rw [if_neg he]
      · simp only [OutOp.apply]; rw [if_neg he]; exact Or.inl rfl

theorem OutOp.cas_ok (be tear : Bool) {m : Mem 64} {n : Nat} {ptr : BitVec 64} {e : BitVec (8 * n)} (d : BitVec (8 * n))
    (h : readCell be m ptr n = e) :
    OutOp.apply be tear (.cas n ptr e d) m = (writeCell be m ptr n d, {(readCell be m ptr n).toNat}) := if_pos h

theorem OutOp.cas_fail (be tear : Bool) {m : Mem 64} {n : Nat} {ptr : BitVec 64} {e : BitVec (8 * n)} (d : BitVec (8 * n))
    (h : readCell be m ptr n ≠ e) :
    OutOp.apply be tear (.cas n ptr e d) m = (m, casFail tear (readCell be m ptr n) e) := if_neg h

/-- a failing 16-byte compare-and-swap -/
theorem cas16_fail {be tear : Bool} {m : Mem 64} {ptr : BitVec 64} {e : BitVec (8 * 16)} (d : BitVec (8 * 16))
    (h : readCell be m ptr 16 ≠ e) :
    (outObj 64 be tear).apply (.cas 16 ptr e d : OutOp 64) m = (m, casFail tear (readCell be m ptr 16) e) :=
  OutOp.cas_fail be tear d h

theorem cas16_ok {be tear : Bool} {m : Mem 64} {ptr : BitVec 64} {e : BitVec (8 * 16)} (d : BitVec (8 * 16))
    (h : readCell be m ptr 16 = e) :
    (outObj 64 be tear).apply (.cas 16 ptr e d : OutOp 64) m = (writeCell be m ptr 16 d, {e.toNat}) :=
  (OutOp.cas_ok be tear d h).trans (by rw [h]; rfl)

/-- a torn value is among the allowed ones -/
theorem torn_mem {be : Bool} {a e : BitVec (8 * 16)} {x : BitVec 128} {i : Nat} (hi : i < 2) (h1 : wordAt be x i = wordAt be a i)
    (h2 : x ≠ e) : x.toNat ∈ casFail true a e :=
  Or.inr ⟨rfl, rfl, x, rfl, h2, bytePos be 2 i, bytePos_lt hi, h1⟩

theorem out_simulation {be tear : Bool} {Tid : Type} [DecidableEq Tid] {m₀ m : Mem 64} {mon : Mon 64 Tid}
    {h : List (Event Tid (OutOp 64) Nat (BitVec 64))} {ls : Tid → OutLocal} (hr : OutRun be tear Tid m₀ h m mon ls) :
    ∃ ts, Atomic (outObj 64 be tear) Tid m₀ h m ts ∧ ∀ t, OutRel be tear m (mon t) (ls t) (ts t) := by
  induction hr with
  | init mon => exact ⟨_, .init, fun _ => .idle⟩
  | @call h m mon ls t op hr hi hv ih =>
    obtain ⟨ts, ha, hR⟩ := ih
    have := hR t
    rw [hi] at this
    generalize e : ts t = s at this
    cases this
    refine ⟨_, .call t op ha e hv, ?_⟩
    have := update_rel' (R := OutRel be tear m) t (c := mon t) (fun t' _ => hR t') (.start op hv.1)
    rwa [Function.update_eq_self] at this
  | @flag h m mon ls t op hr hi ih =>
    obtain ⟨ts, ha, hR⟩ := ih
    have := hR t
    rw [hi] at this
    generalize e : ts t = s at this
    cases this with
    | start _ hv =>
    refine ⟨ts, ha, ?_⟩
    have := update_rel' (R := OutRel be tear m) t (c := mon t) (fun t' _ => hR t') (.lse op hv)
    rwa [Function.update_eq_self, ← e, Function.update_eq_self] at this
  | @fall_rmw h m mon ls t n ptr k val x0 x1 hr hi hx ih =>
    obtain ⟨ts, ha, hR⟩ := ih
    have := hR t
    rw [hi] at this
    generalize e : ts t = s at this
    cases this with
    | start _ hv =>
    refine ⟨ts, ha, ?_⟩
    have hn : n ≤ 8 := by simp only [OutOp.sizeOk] at hv; omega
    have := update_rel' (R := OutRel be tear m) t (c := mon t) (fun t' _ => hR t') (.ldxr (.rmw n ptr k val) (regW n x0) x1 hn ⟨x0, rfl, hx⟩)
    rwa [Function.update_eq_self, ← e, Function.update_eq_self] at this
  | @fall_cas h m mon ls t n ptr e d x0 x1 hr hi h16 hx hx1 ih =>
    obtain ⟨ts, ha, hR⟩ := ih
    have := hR t
    rw [hi] at this
    generalize es : ts t = s at this
    cases this with
    | start _ hv =>
    refine ⟨ts, ha, ?_⟩
    have hv : n = 1 ∨ n = 2 ∨ n = 4 ∨ n = 8 := by simp only [OutOp.sizeOk] at hv; omega
    have hn : n ≤ 8 := by omega
    have := update_rel' (R := OutRel be tear m) t (c := mon t) (fun t' _ => hR t')
      (.ldxr (.cas n ptr e d) (uxt n x0) x1 hn ⟨by rw [uxt_eq hv, hx], hx1⟩)
    rwa [Function.update_eq_self, ← es, Function.update_eq_self] at this
  | @fall_cas16 h m mon ls t ptr e d hr hi ih =>
    obtain ⟨ts, ha, hR⟩ := ih
    have := hR t
    rw [hi] at this
    generalize es : ts t = s at this
    cases this with
    | start _ hv =>
    refine ⟨ts, ha, ?_⟩
    have := update_rel' (R := OutRel be tear m) t (c := mon t) (fun t' _ => hR t') (.ldxp ptr e d)
    rwa [Function.update_eq_self, ← es, Function.update_eq_self] at this
  | @lse_rmw h m mon ls t n ptr k val x0 hr hi hx ih =>
    obtain ⟨ts, ha, hR⟩ := ih
    have := hR t
    rw [hi] at this
    generalize es : ts t = s at this
    cases this with
    | lse _ hv =>
    have hA := Atomic.effect t _ ha es
    rw [hx, OutKind.lse_eq]
    refine ⟨_, hA, ?_⟩
    have := update_rel' (R := OutRel be tear (writeCell be m ptr n (k.spec (readCell be m ptr n) val))) t
      (μ := clearMon mon ptr n) (c := clearMon mon ptr n t) (f := ls) (g := ts)
      (a := .done (readCell be m ptr n).toNat) (b := .done {(readCell be m ptr n).toNat}) (fun t' _ => ?_) ?_
    · rwa [Function.update_eq_self] at this
    · refine (hR t').mono (fun b k hk hμ => ?_)
      obtain ⟨h1, h2⟩ := clearMon_some hμ
      exact ⟨h1, readCell_write_disjoint (by omega) h2 _⟩
    · exact .done _ _ rfl
  | @lse_cas h m mon ls t n ptr e d x0 x1 hr hi h16 hx hx1 ih =>
    obtain ⟨ts, ha, hR⟩ := ih
    have := hR t
    rw [hi] at this
    generalize es : ts t = s at this
    cases this with
    | lse _ hv =>
    have hA := Atomic.effect t _ ha es
    rw [hx, hx1]
    by_cases hc : readCell be m ptr n = e
    · rw [if_pos hc, if_pos hc]
      have e1 : (outObj 64 be tear).apply (.cas n ptr e d : OutOp 64) m =
          (writeCell be m ptr n d, {(readCell be m ptr n).toNat}) := OutOp.cas_ok be tear d hc
      rw [e1] at hA
      refine ⟨_, hA, ?_⟩
      have := update_rel' (R := OutRel be tear (writeCell be m ptr n d)) t
        (μ := clearMon mon ptr n) (c := clearMon mon ptr n t) (f := ls) (g := ts)
        (a := .done (readCell be m ptr n).toNat) (b := .done {(readCell be m ptr n).toNat}) (fun t' _ => ?_) ?_
      · rwa [Function.update_eq_self] at this
      · refine (hR t').mono (fun b k hk hμ => ?_)
        obtain ⟨h1, h2⟩ := clearMon_some hμ
        exact ⟨h1, readCell_write_disjoint (by omega) h2 _⟩
      · exact .done _ _ rfl
    · rw [if_neg hc, if_neg hc]
      have e1 : (outObj 64 be tear).apply (.cas n ptr e d : OutOp 64) m = (m, casFail tear (readCell be m ptr n) e) := OutOp.cas_fail be tear d hc
      rw [e1] at hA
      refine ⟨_, hA, ?_⟩
      have := update_rel' (R := OutRel be tear m) t (c := mon t) (fun t' _ => hR t')
        (.done (readCell be m ptr n).toNat (casFail tear (readCell be m ptr n) e) (Or.inl rfl))
      rwa [Function.update_eq_self] at this
  | @lse_casp h m mon ls t ptr e d hr hi ih =>
    obtain ⟨ts, ha, hR⟩ := ih
    have := hR t
    rw [hi] at this
    generalize es : ts t = s at this
    cases this with
    | lse _ hv =>
    have hA := Atomic.effect t _ ha es
    rw [writeCell16, ← readCell16]
    have hiff : (readCell be m ptr 8 = wordAt be e 0 ∧ readCell be m (ptr + 8#64) 8 = wordAt be e 1) ↔
        readCell be m ptr 16 = e := by
      constructor
      · rintro ⟨h0, h1⟩
        rw [readCell16, h0, h1]
        exact pair_word be e
      · intro hc
        rw [readCell16] at hc
        rw [← hc]
        exact ⟨(wordAt_pair be _ _).1.symm, (wordAt_pair be _ _).2.symm⟩
    by_cases hc : readCell be m ptr 16 = e
    · rw [if_pos (hiff.mpr hc), if_pos (hiff.mpr hc)]
      rw [cas16_ok d hc] at hA
      refine ⟨_, hA, ?_⟩
      have := update_rel' (R := OutRel be tear (writeCell be m ptr 16 d)) t
        (μ := clearMon mon ptr 16) (c := clearMon mon ptr 16 t) (f := ls) (g := ts)
        (a := .done (readCell be m ptr 16).toNat) (b := .done {e.toNat}) (fun t' _ => ?_) ?_
      · rwa [Function.update_eq_self] at this
      · refine (hR t').mono (fun b k hk hμ => ?_)
        obtain ⟨h1, h2⟩ := clearMon_some hμ
        exact ⟨h1, readCell_write_disjoint (by omega) h2 _⟩
      · exact .done _ _ (by rw [hc]; rfl)
    · rw [if_neg (fun h => hc (hiff.mp h)), if_neg (fun h => hc (hiff.mp h))]
      rw [cas16_fail d hc] at hA
      refine ⟨_, hA, ?_⟩
      have := update_rel' (R := OutRel be tear m) t (c := mon t) (fun t' _ => hR t')
        (.done (readCell be m ptr 16).toNat (casFail tear (readCell be m ptr 16) e) (Or.inl rfl))
      rwa [Function.update_eq_self] at this
  | @ldxr h m mon ls t op x16 x1 hr hi ih =>
    obtain ⟨ts, ha, hR⟩ := ih
    have := hR t
    rw [hi] at this
    generalize es : ts t = s at this
    cases this with
    | ldxr _ _ _ hn hg =>
    rcases afterLdxr_rel (be := be) (tear := tear) (m := m) hn hg with ⟨r, h1, h2, h3⟩ | ⟨data, h1, h2⟩
    · rw [h1]
      have hA := Atomic.effect t op ha es
      have e1 : ((outObj 64 be tear).apply op m).1 = m := h2
      rw [e1] at hA
      exact ⟨_, hA, update_rel' (R := OutRel be tear m) t (fun t' _ => hR t') (.done r _ h3)⟩
    · rw [h1]
      refine ⟨ts, ha, ?_⟩
      have := update_rel' (R := OutRel be tear m) t (c := some (op.ptr, op.size)) (fun t' _ => hR t')
        (.stxr op x16 x1 _ data hn hg h2 (fun _ => (roundtrip64 hn _).symm))
      rwa [← es, Function.update_eq_self] at this
  | @stxr_ok h m mon ls t op x16 x1 x0 data hr hi hmon ih =>
    obtain ⟨ts, ha, hR⟩ := ih
    have := hR t
    rw [hi] at this
    generalize es : ts t = s at this
    cases this with
    | stxr _ _ _ _ _ hn hg hs hm =>
    have hA := Atomic.effect t op ha es
    have e1 : (outObj 64 be tear).apply op m = _ := hs m (hm hmon)
    rw [e1] at hA
    refine ⟨_, hA, update_rel' (R := OutRel be tear _) t (fun t' _ => ?_) (.done _ _ rfl)⟩
    refine (hR t').mono (fun b k hk hμ => ?_)
    obtain ⟨h1, h2⟩ := clearMon_some hμ
    exact ⟨h1, readCell_write_disjoint (by omega) h2 _⟩
  | @stxr_fail h m mon ls t op x16 x1 x0 data hr hi ih =>
    obtain ⟨ts, ha, hR⟩ := ih
    have := hR t
    rw [hi] at this
    generalize es : ts t = s at this
    cases this with
    | stxr _ _ _ _ _ hn hg hs hm =>
    refine ⟨ts, ha, ?_⟩
    have := update_rel' (R := OutRel be tear m) t (c := none) (fun t' _ => hR t') (.ldxr op x16 x1 hn hg)
    rwa [← es, Function.update_eq_self] at this
  | @ldxp h m mon ls t ptr e d hr hi ih =>
    obtain ⟨ts, ha, hR⟩ := ih
    have := hR t
    rw [hi] at this
    generalize es : ts t = s at this
    cases this
    unfold afterLdxp
    have h16 := readCell16 be m ptr
    split
    · rename_i hc
      have hc' : readCell be m ptr 16 = e := by rw [h16, hc.1, hc.2]; exact pair_word be e
      rw [hc.1, hc.2]
      refine ⟨ts, ha, ?_⟩
      have := update_rel' (R := OutRel be tear m) t (c := some (ptr, 16)) (fun t' _ => hR t') (.stxp ptr e d (fun _ => hc'))
      rwa [← es, Function.update_eq_self] at this
    · rename_i hc
      have hne : readCell be m ptr 16 ≠ e := by
        rintro rfl
        apply hc
        rw [h16]
        exact ⟨(wordAt_pair be _ _).1.symm, (wordAt_pair be _ _).2.symm⟩
      have hA := Atomic.effect t _ ha es
      rw [cas16_fail d hne] at hA
      rw [← h16]
      exact ⟨_, hA, update_rel' (R := OutRel be tear m) t (fun t' _ => hR t') (.done _ _ (Or.inl rfl))⟩
  | @ldxp_first h m mon ls t ptr e d i hr hi ht hi2 ih =>
    obtain ⟨ts, ha, hR⟩ := ih
    have := hR t
    rw [hi] at this
    generalize es : ts t = s at this
    cases this
    rw [← word_readCell be m ptr hi2]
    by_cases hw : wordAt be (readCell be m ptr 16) i = wordAt be e i
    · refine ⟨ts, ha, ?_⟩
      have := update_rel' (R := OutRel be tear m) t (c := some (ptr, 16)) (fun t' _ => hR t')
        (.ldxp2 ptr e d i _ ht hi2 hw (fun _ => rfl))
      rwa [← es, Function.update_eq_self] at this
    · have hne : readCell be m ptr 16 ≠ e := fun hc => hw (by rw [hc])
      have hA := Atomic.effect t _ ha es
      rw [cas16_fail d hne] at hA
      refine ⟨_, hA, update_rel' (R := OutRel be tear m) t (fun t' _ => hR t')
        (.ldxp2_failed ptr e d i _ _ hi2 hw (fun x hx => ?_))⟩
      subst ht
      exact torn_mem hi2 hx (fun hxe => hw (by rw [← hx, hxe]))
  | @ldxp_second h m mon ls t ptr e d i v hr hi ih =>
    obtain ⟨ts, ha, hR⟩ := ih
    have := hR t
    rw [hi] at this
    generalize es : ts t = s at this
    have h16 := readCell16 be m ptr
    have hw0 : wordAt be (readCell be m ptr 16) 0 = readCell be m ptr 8 := by rw [h16]; exact (wordAt_pair be _ _).1
    have hw1 : wordAt be (readCell be m ptr 16) 1 = readCell be m (ptr + 8#64) 8 := by
      rw [h16]; exact (wordAt_pair be _ _).2
    cases this with
    | ldxp2 _ _ _ _ _ ht hi2 hv hm =>
      -- the first half was the expected one
      have key : ∀ x0 x1 : BitVec 64, wordAt be (pairVal be x0 x1) i = v →
          wordAt be (pairVal be x0 x1) (1 - i) = wordAt be (readCell be m ptr 16) (1 - i) →
          ∃ ts', Atomic (outObj 64 be tear) Tid m₀ h m ts' ∧
            ∀ t', OutRel be tear m (mon t') (Function.update ls t (afterLdxp be ptr e d x0 x1) t') (ts' t') := by
        intro x0 x1 hxi hxj
        have hw := wordAt_pair be x0 x1
        unfold afterLdxp
        split
        · rename_i hc
          rw [hc.1, hc.2]
          refine ⟨ts, ha, ?_⟩
          have := update_rel' (R := OutRel be tear m) t (c := mon t) (fun t' _ => hR t') (.stxp ptr e d (fun hmu => ?_))
          · rwa [Function.update_eq_self, ← es, Function.update_eq_self] at this
          · have h1 := hm hmu
            rw [hc.1, hc.2] at hxj
            rw [show pairVal be (wordAt be e 0) (wordAt be e 1) = e from pair_word be e] at hxj
            have : i = 0 ∨ i = 1 := by omega
            apply pair_ext (be := be)
            · rcases this with rfl | rfl
              · rw [h1, hv]
              · exact hxj.symm
            · rcases this with rfl | rfl
              · exact hxj.symm
              · rw [h1, hv]
        · rename_i hc
          have hne : pairVal be x0 x1 ≠ e := by
            intro he
            apply hc
            rw [← he]
            exact ⟨hw.1.symm, hw.2.symm⟩
          have hne2 : readCell be m ptr 16 ≠ e := by
            intro he
            apply hne
            rw [he] at hxj
            have : i = 0 ∨ i = 1 := by omega
            apply pair_ext (be := be)
            · rcases this with rfl | rfl
              · rw [hxi, hv]
              · exact hxj
            · rcases this with rfl | rfl
              · exact hxj
              · rw [hxi, hv]
          have hA := Atomic.effect t _ ha es
          rw [cas16_fail d hne2] at hA
          refine ⟨_, hA, ?_⟩
          subst ht
          have := update_rel' (R := OutRel be true m) t (c := mon t) (fun t' _ => hR t')
            (.done (pairVal be x0 x1).toNat _ (torn_mem (by omega) hxj hne))
          rwa [Function.update_eq_self] at this
      by_cases hi0 : i = 0
      · subst hi0
        rw [if_pos rfl]
        refine key _ _ (wordAt_pair be _ _).1 ?_
        rw [show 1 - 0 = 1 from rfl, (wordAt_pair be _ _).2, hw1]
      · have : i = 1 := by omega
        subst this
        rw [if_neg (by omega)]
        refine key _ _ (wordAt_pair be _ _).2 ?_
        rw [show 1 - 1 = 0 from rfl, (wordAt_pair be _ _).1, hw0]
    | ldxp2_failed _ _ _ _ _ R hi2 hv hR' =>
      have key : ∀ x0 x1 : BitVec 64, wordAt be (pairVal be x0 x1) i = v →
          ∃ ts', Atomic (outObj 64 be tear) Tid m₀ h m ts' ∧
            ∀ t', OutRel be tear m (mon t') (Function.update ls t (afterLdxp be ptr e d x0 x1) t') (ts' t') := by
        intro x0 x1 hxi
        unfold afterLdxp
        rw [if_neg]
        · refine ⟨ts, ha, ?_⟩
          have := update_rel' (R := OutRel be tear m) t (c := mon t) (fun t' _ => hR t')
            (.done (pairVal be x0 x1).toNat R (hR' _ hxi))
          rwa [Function.update_eq_self, ← es, Function.update_eq_self] at this
        · rintro ⟨h0, h1⟩
          apply hv
          rw [← hxi, h0, h1]
          rw [show pairVal be (wordAt be e 0) (wordAt be e 1) = e from pair_word be e]
      by_cases hi0 : i = 0
      · subst hi0
        rw [if_pos rfl]
        exact key _ _ (wordAt_pair be _ _).1
      · have : i = 1 := by omega
        subst this
        rw [if_neg (by omega)]
        exact key _ _ (wordAt_pair be _ _).2
  | @stxp_ok h m mon ls t ptr e d x0 x1 hr hi hmon ih =>
    obtain ⟨ts, ha, hR⟩ := ih
    have := hR t
    rw [hi] at this
    generalize es : ts t = s at this
    cases this with
    | stxp _ _ _ hm =>
    have hA := Atomic.effect t _ ha es
    rw [cas16_ok d (hm hmon)] at hA
    rw [writeCell16, pair_word]
    refine ⟨_, hA, update_rel' (R := OutRel be tear _) t (fun t' _ => ?_) (.done _ _ rfl)⟩
    refine (hR t').mono (fun b k hk hμ => ?_)
    obtain ⟨h1, h2⟩ := clearMon_some hμ
    exact ⟨h1, readCell_write_disjoint (by omega) h2 _⟩
  | @stxp_fail h m mon ls t ptr e d x0 x1 hr hi ih =>
    obtain ⟨ts, ha, hR⟩ := ih
    have := hR t
    rw [hi] at this
    generalize es : ts t = s at this
    cases this with
    | stxp _ _ _ hm =>
    refine ⟨ts, ha, ?_⟩
    have := update_rel' (R := OutRel be tear m) t (c := none) (fun t' _ => hR t') (.ldxp ptr e d)
    rwa [← es, Function.update_eq_self] at this
  | @ret h m mon ls t r hr hi ih =>
    obtain ⟨ts, ha, hR⟩ := ih
    have := hR t
    rw [hi] at this
    generalize es : ts t = s at this
    cases this with
    | done _ R hrR =>
    refine ⟨_, .ret t _ r ha es hrR, ?_⟩
    have := update_rel' (R := OutRel be tear m) t (c := mon t) (fun t' _ => hR t') .idle
    rwa [Function.update_eq_self] at this
  | @store h m mon ls a b hr ih =>
    obtain ⟨ts, ha, hR⟩ := ih
    refine ⟨ts, .store a b ha, fun t => (hR t).mono (fun c k hk hμ => ?_)⟩
    obtain ⟨h1, h2⟩ := clearMon_some hμ
    exact ⟨h1, readCell_store_disjoint (by omega) h2 _⟩

/-! ### consequences -/

/-- `x` is one of the bytes of the cell of `op` -/
def OutOp.covers {A : Nat} (op : OutOp A) (x : BitVec A) : Prop := (x - op.ptr).toNat < op.size

theorem OutOp.apply_frame {A : Nat} (be tear : Bool) (op : OutOp A) (m : Mem A) {x : BitVec A} (h : ¬ op.covers x) :
    (op.apply be tear m).1 x = m x := by
  cases op with
  | rmw n p k v => exact if_neg h
  | cas n p e d =>
    show ((if readCell be m p n = e then (writeCell be m p n d, {(readCell be m p n).toNat})
      else (m, casFail tear (readCell be m p n) e) : Mem A × Set Nat)).1 x = m x
    split
    · exact if_neg h
    · rfl

/-- A thread state without 16-byte compare-and-swaps is the same with and without tearing. -/
def TState.retear {A : Nat} {be tear : Bool} : TState (outObj A be tear) → TState (outObj A be false)
  | .idle => .idle
  | .pending op => .pending op
  | .done R => .done R

theorem OutOp.apply_small {A : Nat} (be tear : Bool) (op : OutOp A) (h : op.size ≠ 16) (m : Mem A) :
    op.apply be tear m = op.apply be false m := by
  cases op with
  | rmw n p k v => rfl
  | cas n p e d =>
    simp only [OutOp.size] at h
    have : casFail tear (readCell be m p n) e = casFail false (readCell be m p n) e := by
      funext r
      unfold casFail
      simp [h]
    simp only [OutOp.apply, this]

/-- Without 16-byte compare-and-swaps tearing makes no difference. -/
theorem atomic_small {A : Nat} {be tear : Bool} {Tid : Type} [DecidableEq Tid] {m₀ m : Mem A}
    {h : List (Event Tid (outObj A be tear).Op (outObj A be tear).Ret (BitVec A))} {ts : Tid → TState (outObj A be tear)}
    (hr : Atomic (outObj A be tear) Tid m₀ h m ts) (hs : ∀ t (op : OutOp A), .call t op ∈ h → op.size ≠ 16) :
    Atomic (outObj A be false) Tid m₀ h m (fun t => (ts t).retear) := by
  have hup : ∀ (ts : Tid → TState (outObj A be tear)) t s,
      (fun t' => (Function.update ts t s t').retear) = Function.update (fun t' => (ts t').retear) t s.retear := by
    intro ts t s
    funext t'
    by_cases e : t' = t
    · subst e; simp
    · rw [Function.update_of_ne e, Function.update_of_ne e]
  induction hr with
  | init => exact .init
  | @call h m ts t op hr hi hv ih =>
    rw [hup]
    exact Atomic.call (O := outObj A be false) t op (ih (fun t op ho => hs t op (by simp [ho]))) (by simp only [hi]; rfl) hv
  | @effect h m ts t op hr hi ih =>
    rw [hup]
    have hc := (atomic_frame (cov := fun _ _ => True) (fun op m x h => absurd trivial h) hr (x := 0)).1 t op hi
    have e : (outObj A be tear).apply op m = (outObj A be false).apply op m := OutOp.apply_small be tear op (hs t op hc) m
    rw [e]
    exact Atomic.effect (O := outObj A be false) t op (ih hs) (by simp only [hi]; rfl)
  | @ret h m ts t R r hr hi hR ih =>
    rw [hup]
    exact Atomic.ret (O := outObj A be false) t R r (ih (fun t op ho => hs t op (by simp [ho]))) (by simp only [hi]; rfl) hR
  | @store h m ts a b hr ih => exact .store a b (ih (fun t op ho => hs t op (by simp [ho])))

/-! ### tearing is not linearizable -/

/-- the memory after the stores of a history -/
def memOf {A : Nat} {Tid Op Ret : Type} (m₀ : Mem A) (h : List (Event Tid Op Ret (BitVec A))) : Mem A :=
  h.foldl (fun m e => match e with
    | .store a b => Function.update m a b
    | _ => m) m₀

/-- If only one compare-and-swap is ever called, and it never finds its expected value, then it returns a value that
the memory had at some time. -/
theorem atomic_only_cas {A : Nat} {be : Bool} {Tid : Type} [DecidableEq Tid] {m₀ m : Mem A} {n : Nat} {p : BitVec A}
    {e d : BitVec (8 * n)}
    {h : List (Event Tid (outObj A be false).Op (outObj A be false).Ret (BitVec A))} {ts : Tid → TState (outObj A be false)}
    (hr : Atomic (outObj A be false) Tid m₀ h m ts)
    (hc : ∀ t (op : OutOp A), .call t op ∈ h → op = .cas n p e d)
    (hne : ∀ h', h' <+: h → readCell be (memOf m₀ h') p n ≠ e) :
    m = memOf m₀ h ∧
    (∀ t (R : Set Nat), ts t = .done R → ∀ r ∈ R, ∃ h', h' <+: h ∧ r = (readCell be (memOf m₀ h') p n).toNat) ∧
    ∀ t r, .ret t r ∈ h → ∃ h', h' <+: h ∧ r = (readCell be (memOf m₀ h') p n).toNat := by
  have ext : ∀ {h h'' : List (Event Tid (outObj A be false).Op (outObj A be false).Ret (BitVec A))} {r : Nat},
      (∃ h', h' <+: h ∧ r = (readCell be (memOf m₀ h') p n).toNat) →
      ∃ h', h' <+: h ++ h'' ∧ r = (readCell be (memOf m₀ h') p n).toNat := by
    rintro h h'' r ⟨h', h1, h2⟩
    exact ⟨h', h1.trans (List.prefix_append _ _), h2⟩
  induction hr with
  | init => exact ⟨rfl, fun t R h => (by cases h), fun t r h => (by cases h)⟩
  | @call h m ts t op hr hi hv ih =>
    obtain ⟨h1, h2, h3⟩ := ih (fun t op ho => hc t op (by simp [ho])) (fun h' hp => hne h' (hp.trans (List.prefix_append _ _)))
    refine ⟨by rw [h1]; simp [memOf], fun t' R hd r hrR => ?_, fun t' r hr' => ?_⟩
    · by_cases et : t' = t
      · subst et; simp at hd
      · rw [Function.update_of_ne et] at hd
        exact ext (h2 t' R hd r hrR)
    · exact ext (h3 t' r (by simpa using hr'))
  | @effect h m ts t op hr hi ih =>
    obtain ⟨h1, h2, h3⟩ := ih hc hne
    have hop := hc t op ((atomic_frame (cov := fun _ _ => True) (fun op m x h => absurd trivial h) hr (x := 0)).1 t op hi)
    subst hop
    have hf : (outObj A be false).apply (.cas n p e d : OutOp A) m = (m, casFail false (readCell be m p n) e) :=
      if_neg (by rw [h1]; exact hne h (List.prefix_refl h))
    rw [hf]
    refine ⟨h1, fun t' R hd r hrR => ?_, h3⟩
    by_cases et : t' = t
    · subst et
      rw [Function.update_self] at hd
      cases hd
      rcases hrR with hrR | ⟨h, -⟩
      · exact ⟨h, List.prefix_refl h, by rw [← h1]; exact hrR⟩
      · cases h
    · rw [Function.update_of_ne et] at hd
      exact h2 t' R hd r hrR
  | @ret h m ts t R r hr hi hR ih =>
    obtain ⟨h1, h2, h3⟩ := ih (fun t op ho => hc t op (by simp [ho])) (fun h' hp => hne h' (hp.trans (List.prefix_append _ _)))
    refine ⟨by rw [h1]; simp [memOf], fun t' R' hd r' hrR => ?_, fun t' r' hr' => ?_⟩
    · by_cases et : t' = t
      · subst et; simp at hd
      · rw [Function.update_of_ne et] at hd
        exact ext (h2 t' R' hd r' hrR)
    · rcases List.mem_append.mp hr' with hr' | hr'
      · exact ext (h3 t' r' hr')
      · cases List.mem_singleton.mp hr'
        exact ext (h2 t R hi r hR)
  | @store h m ts a b hr ih =>
    obtain ⟨h1, h2, h3⟩ := ih (fun t op ho => hc t op (by simp [ho])) (fun h' hp => hne h' (hp.trans (List.prefix_append _ _)))
    refine ⟨by rw [h1]; simp [memOf], fun t' R hd r hrR => ext (h2 t' R hd r hrR), fun t' r hr' => ?_⟩
    exact ext (h3 t' r (by simpa using hr'))

end Verif.Conc
