import Verif.Conc.ArmLinux
import Verif.Conc.Cell
import Mathlib.Tactic.IntervalCases
/-! Proofs about the ARM/Linux atomics. -/
namespace Verif.Conc

theorem Kind.op_eq {w : Nat} (k : Kind) (a b : BitVec w) : k.op a b = k.spec a b := by
  cases k <;> simp only [Kind.op, Kind.spec]
  · rw [BitVec.ofNat_add, BitVec.ofNat_toNat, BitVec.ofNat_toNat, BitVec.setWidth_eq, BitVec.setWidth_eq]
  · rw [BitVec.sub_eq_add_neg]
    rw [Int.sub_eq_add_neg, BitVec.ofInt_add, BitVec.ofInt_neg, BitVec.ofInt_natCast, BitVec.ofInt_natCast,
      BitVec.ofNat_toNat, BitVec.ofNat_toNat, BitVec.setWidth_eq, BitVec.setWidth_eq]
  · by_cases h : b.toInt < a.toInt
    · rw [if_pos (by rw [BitVec.slt]; simpa using h), max_eq_left (by omega), BitVec.ofInt_toInt]
    · rw [if_neg (by rw [BitVec.slt]; simpa using h), max_eq_right (by omega), BitVec.ofInt_toInt]
  · by_cases h : b.toNat < a.toNat
    · rw [if_pos (by rw [BitVec.lt_def]; exact h), max_eq_left (by omega), BitVec.ofNat_toNat, BitVec.setWidth_eq]
    · rw [if_neg (by rw [BitVec.lt_def]; exact h), max_eq_right (by omega), BitVec.ofNat_toNat, BitVec.setWidth_eq]
  · by_cases h : a.toInt < b.toInt
    · rw [if_pos (by rw [BitVec.slt]; simpa using h), min_eq_left (by omega), BitVec.ofInt_toInt]
    · rw [if_neg (by rw [BitVec.slt]; simpa using h), min_eq_right (by omega), BitVec.ofInt_toInt]
  · by_cases h : a.toNat < b.toNat
    · rw [if_pos (by rw [BitVec.lt_def]; exact h), min_eq_left (by omega), BitVec.ofNat_toNat, BitVec.setWidth_eq]
    · rw [if_neg (by rw [BitVec.lt_def]; exact h), min_eq_right (by omega), BitVec.ofNat_toNat, BitVec.setWidth_eq]

theorem and_split (p q : BitVec 32) : (p &&& ~~~q) + (p &&& q) = p := by
  rw [BitVec.add_eq_or_of_and_eq_zero]
  · apply BitVec.eq_of_getElem_eq
    intro i hi
    simp only [BitVec.getElem_or, BitVec.getElem_and, BitVec.getElem_not]
    cases p[i] <;> cases q[i] <;> rfl
  · apply BitVec.eq_of_getElem_eq
    intro i hi
    simp only [BitVec.getElem_and, BitVec.getElem_not, BitVec.getElem_zero]
    cases p[i] <;> cases q[i] <;> rfl

/-- the position of a cell in its word -/
theorem align_spec {n : Nat} {ptr : BitVec 32} (be : Bool) (hn : n = 1 ∨ n = 2 ∨ n = 4) (ha : ptr.toNat % n = 0) :
    ∃ off, off + n ≤ 4 ∧ (alignPtr n ptr).toNat % 4 = 0 ∧ alignPtr n ptr + BitVec.ofNat 32 off = ptr ∧
      getShiftMask be n ptr = .ok (8 * (if be then 4 - n - off else off), BitVec.ofNat 32 (2 ^ (8 * n) - 1)) := by
  have hmod3 : (ptr &&& 3#32).toNat = ptr.toNat % 4 := by
    rw [BitVec.toNat_and]; exact Nat.and_two_pow_sub_one_eq_mod ptr.toNat 2
  have hx3 : ptr &&& 3#32 = BitVec.ofNat 32 (ptr.toNat % 4) := by
    apply BitVec.eq_of_toNat_eq
    rw [hmod3, BitVec.toNat_ofNat, Nat.mod_eq_of_lt (b := 2 ^ 32) (by omega)]
  -- the masked low bits are `ptr % 4`
  have hx : ptr &&& (3#32 &&& (4#32 - BitVec.ofNat 32 n)) = BitVec.ofNat 32 (ptr.toNat % 4) := by
    rcases hn with rfl | rfl | rfl
    · exact hx3
    · rw [← hx3]
      have h0 : ptr.getLsbD 0 = false := by
        simp only [BitVec.getLsbD, Nat.testBit_zero]
        simp; omega
      apply BitVec.eq_of_getLsbD_eq
      intro i hi
      rw [BitVec.getLsbD_and (x := ptr), BitVec.getLsbD_and (x := ptr)]
      by_cases hi0 : i = 0
      · subst hi0; rw [h0]; rfl
      · congr 1
        have : ∀ i : Fin 32, i.val ≠ 0 → (3#32 &&& (4#32 - BitVec.ofNat 32 2)).getLsbD i.val = (3#32).getLsbD i.val := by decide
        exact this ⟨i, hi⟩ hi0
    · have h0 : ptr.toNat % 4 = 0 := ha
      rw [h0]
      show ptr &&& 0#32 = 0#32
      simp
  have hk := and_split ptr (3#32 &&& (4#32 - BitVec.ofNat 32 n))
  have hal : alignPtr n ptr + BitVec.ofNat 32 (ptr.toNat % 4) = ptr := by rw [← hx]; exact hk
  have hlt : ptr.toNat % 4 < 4 := Nat.mod_lt _ (by omega)
  refine ⟨ptr.toNat % 4, ?_, ?_, hal, ?_⟩
  · rcases hn with rfl | rfl | rfl <;> omega
  · have h1 : alignPtr n ptr = ptr - BitVec.ofNat 32 (ptr.toNat % 4) := by
      exact BitVec.eq_sub_iff_add_eq.mpr hal
    rw [h1, BitVec.toNat_sub_of_le]
    · rw [BitVec.toNat_ofNat, Nat.mod_eq_of_lt (b := 2 ^ 32) (by omega)]; omega
    · rw [BitVec.le_def, BitVec.toNat_ofNat, Nat.mod_eq_of_lt (b := 2 ^ 32) (by omega)]; omega
  · unfold getShiftMask
    simp only []
    rw [hx]
    generalize ho : ptr.toNat % 4 = o at *
    rcases hn with rfl | rfl | rfl <;> cases be <;> interval_cases o <;> first | rfl | omega

/-! ### the word computations on cells -/

/-- where the cell is in its word -/
structure InWord (be : Bool) (n : Nat) (ptr al : BitVec 32) (off sh : Nat) : Prop where
  pos : 0 < n
  le : off + n ≤ 4
  add : al + BitVec.ofNat 32 off = ptr
  sh : sh = if be then 4 - n - off else off

theorem InWord.addr {be : Bool} {n : Nat} {ptr al : BitVec 32} {off sh : Nat} (w : InWord be n ptr al off sh) {j : Nat}
    (hj : j < n) : al + BitVec.ofNat 32 (bytePos be 4 (j + sh)) = ptr + BitVec.ofNat 32 (bytePos be n j) := by
  rw [← w.add, BitVec.add_assoc, ← BitVec.ofNat_add]
  congr 2
  have := w.sh; have := w.le
  unfold bytePos
  cases be <;> simp_all <;> omega

theorem getLsbD_mask {n i : Nat} (hi : i < 32) : (BitVec.ofNat 32 (2 ^ (8 * n) - 1)).getLsbD i = decide (i < 8 * n) := by
  rw [BitVec.getLsbD_ofNat, Nat.testBit_two_pow_sub_one]; simp [hi]

theorem InWord.sh_le {be : Bool} {n : Nat} {ptr al : BitVec 32} {off sh : Nat} (w : InWord be n ptr al off sh) :
    sh + n ≤ 4 := by
  have := w.sh; have := w.le
  cases be <;> simp_all; omega

theorem extract_spec {be : Bool} {n : Nat} {ptr al : BitVec 32} {off sh : Nat} (w : InWord be n ptr al off sh) (m : Mem 32) :
    extractAligned (readCell be m al 4) (8 * sh) (BitVec.ofNat 32 (2 ^ (8 * n) - 1)) =
      .ok ((readCell be m ptr n).setWidth 32) := by
  have hs := w.sh_le
  have hp := w.pos
  unfold extractAligned
  rw [show shrC (readCell be m al 4) (8 * sh) = .ok (readCell be m al 4 >>> (8 * sh)) by
    unfold shrC; rw [if_pos (by omega)]]
  show Except.ok _ = Except.ok _
  congr 1
  apply BitVec.eq_of_getLsbD_eq
  intro i hi
  rw [BitVec.getLsbD_and, getLsbD_mask hi, BitVec.getLsbD_ushiftRight, BitVec.getLsbD_setWidth,
    getLsbD_readCell, getLsbD_readCell]
  by_cases h : i < 8 * n
  · have e1 : (8 * sh + i) / 8 = i / 8 + sh := by omega
    have e2 : (8 * sh + i) % 8 = i % 8 := by omega
    rw [e1, e2, w.addr (by omega)]
    simp [h, hi, show 8 * sh + i < 32 by omega]
  · simp [h]

theorem insert_spec {be : Bool} {n : Nat} {ptr al : BitVec 32} {off sh : Nat} (w : InWord be n ptr al off sh) (m : Mem 32)
    (v : BitVec 32) : ∃ r : BitVec 32, insertAligned (readCell be m al 4) v (8 * sh) (BitVec.ofNat 32 (2 ^ (8 * n) - 1)) = .ok r ∧
      writeCell be m al 4 r = writeCell be m ptr n (v.setWidth (8 * n)) := by
  have hs := w.sh_le
  have hp := w.pos
  have hle := w.le
  unfold insertAligned
  have e : ∀ x : BitVec 32, shlC x (8 * sh) = .ok (x <<< (8 * sh)) := by
    intro x; unfold shlC; rw [if_pos (by omega)]
  rw [e, e]
  refine ⟨_, rfl, ?_⟩
  funext x
  unfold writeCell
  have hk : (x - ptr).toNat = ((x - al).toNat + 2 ^ 32 - off) % 2 ^ 32 := by
    rw [← w.add, ← BitVec.sub_sub, BitVec.toNat_sub, BitVec.toNat_ofNat, Nat.mod_eq_of_lt (a := off) (by omega)]
    congr 1; omega
  have hx : al + BitVec.ofNat 32 (x - al).toNat = x := add_sub_toNat al x
  have hlt := (x - al).isLt
  generalize (x - al).toNat = k at *
  by_cases hk4 : k < 4
  · rw [if_pos hk4]
    have hp4 := bytePos_lt (be := be) hk4
    by_cases hin : off ≤ k ∧ k < off + n
    · have hk2 : (x - ptr).toNat = k - off := by rw [hk]; omega
      rw [hk2, if_pos (by omega)]
      have hpos : bytePos be 4 k = bytePos be n (k - off) + sh := by
        have := w.sh
        clear hk hk2 hlt
        unfold bytePos
        cases be <;> simp_all; omega
      have hb := bytePos_lt (be := be) (n := n) (k := k - off) (by omega)
      apply BitVec.eq_of_getLsbD_eq
      intro i hi
      simp only [BitVec.getLsbD_extractLsb', BitVec.getLsbD_or, BitVec.getLsbD_and, BitVec.getLsbD_not,
        BitVec.getLsbD_shiftLeft, BitVec.getLsbD_setWidth]
      rw [getLsbD_mask (by omega), hpos]
      have e3 : 8 * (bytePos be n (k - off) + sh) + i - 8 * sh = 8 * bytePos be n (k - off) + i := by omega
      rw [e3]
      simp [hi, show 8 * (bytePos be n (k - off) + sh) + i < 32 by omega,
        show ¬ 8 * (bytePos be n (k - off) + sh) + i < 8 * sh by omega,
        show 8 * bytePos be n (k - off) + i < 8 * n by omega]
    · rw [if_neg (by rw [hk]; omega)]
      rw [← hx, ← extract_readCell be m al hk4]
      have hpos : bytePos be 4 k < sh ∨ sh + n ≤ bytePos be 4 k := by
        have := w.sh
        unfold bytePos
        cases be <;> simp_all <;> omega
      apply BitVec.eq_of_getLsbD_eq
      intro i hi
      simp only [BitVec.getLsbD_extractLsb', BitVec.getLsbD_or, BitVec.getLsbD_and, BitVec.getLsbD_not,
        BitVec.getLsbD_shiftLeft]
      rcases hpos with hpos | hpos
      · simp [hi, show 8 * bytePos be 4 k + i < 32 by omega, show 8 * bytePos be 4 k + i < 8 * sh by omega]
      · rw [getLsbD_mask (by omega)]
        simp [hi, show 8 * bytePos be 4 k + i < 32 by omega,
          show ¬ 8 * bytePos be 4 k + i - 8 * sh < 8 * n by omega]
  · rw [if_neg hk4, if_neg (by rw [hk]; omega)]

/-! ### the step after the load -/

theorem setWidth_asU32 {w : Nat} (h : w ≤ 32) (s : Bool) (x : BitVec w) : (asU32 s x).setWidth w = x := by
  unfold asU32
  split
  · apply BitVec.eq_of_getLsbD_eq
    intro i hi
    rw [BitVec.getLsbD_setWidth, BitVec.getLsbD_signExtend]
    simp [hi, show i < 32 by omega]
  · rw [BitVec.setWidth_setWidth_of_le x h, BitVec.setWidth_eq]

theorem setWidth_inj32 {w : Nat} (h : w ≤ 32) {x y : BitVec w} : x.setWidth 32 = y.setWidth 32 ↔ x = y := by
  constructor
  · intro e
    have := congrArg (BitVec.setWidth w) e
    rwa [BitVec.setWidth_setWidth_of_le x h, BitVec.setWidth_setWidth_of_le y h,
      BitVec.setWidth_eq, BitVec.setWidth_eq] at this
  · rintro rfl; rfl

/-- The step after the load either finishes a failing compare-and-swap, or computes the word to store. -/
theorem onLoad_spec {be : Bool} {op : SyncOp 32} (hv : (syncObj 32 be).valid op) (m : Mem 32) :
    (∃ r, onLoad be op (readCell be m (alignPtr op.size op.ptr) 4) = .ok (.done r) ∧ op.apply be m = (m, {r})) ∨
    ∃ new res, onLoad be op (readCell be m (alignPtr op.size op.ptr) 4) =
        .ok (.loaded op (readCell be m (alignPtr op.size op.ptr) 4) new res) ∧
      op.apply be m = (writeCell be m (alignPtr op.size op.ptr) 4 new, {(res.setWidth (8 * op.size)).toNat}) := by
  obtain ⟨hn, ha⟩ := hv
  obtain ⟨off, h1, -, h3, h4⟩ := align_spec be hn ha
  have w : InWord be op.size op.ptr (alignPtr op.size op.ptr) off _ := ⟨by omega, h1, h3, rfl⟩
  have hx := extract_spec w m
  have hins := insert_spec w m
  have hw : 8 * op.size ≤ 32 := by omega
  generalize alignPtr op.size op.ptr = al at *
  cases op with
  | rmw n ptr k new val =>
    right
    simp only [SyncOp.size, SyncOp.ptr] at *
    obtain ⟨r, hr, hwr⟩ := hins (asU32 k.signed (k.op (readCell be m ptr n) val))
    refine ⟨r, (if new then asU32 k.signed (k.op (readCell be m ptr n) val) else (readCell be m ptr n).setWidth 32), ?_, ?_⟩
    · simp only [onLoad]
      rw [h4]; simp only [bind, Except.bind]
      rw [hx]; simp only
      rw [BitVec.setWidth_setWidth_of_le _ hw, BitVec.setWidth_eq, hr]
      rfl
    · rw [hwr, setWidth_asU32 hw, Kind.op_eq]
      simp only [SyncOp.apply]
      cases new
      · simp [BitVec.setWidth_setWidth_of_le _ hw]
      · simp only [if_true]; rw [setWidth_asU32 hw]
  | cas n ptr old new =>
    simp only [SyncOp.size, SyncOp.ptr] at *
    by_cases he : readCell be m ptr n = old
    · right
      obtain ⟨r, hr, hwr⟩ := hins (asU32 false new)
      refine ⟨r, asU32 false old, ?_, ?_⟩
      · simp only [onLoad]
        rw [h4]; simp only [bind, Except.bind]
        rw [hx]; simp only
        rw [if_neg (by rw [he]; simp [asU32]), hr]
        rfl
      · rw [hwr, setWidth_asU32 hw]
        simp only [SyncOp.apply]
        rw [if_pos he, setWidth_asU32 hw, he]
    · left
      refine ⟨(((readCell be m ptr n).setWidth 32).setWidth (8 * n)).toNat, ?_, ?_⟩
      · simp only [onLoad]
        rw [h4]; simp only [bind, Except.bind]
        rw [hx]; simp only
        rw [if_pos (by simp only [asU32]; exact fun h => he ((setWidth_inj32 hw).mp h))]
        rfl
      · simp only [SyncOp.apply]
        rw [if_neg he, BitVec.setWidth_setWidth_of_le _ hw, BitVec.setWidth_eq]

/-! ### the simulation -/

/-- related states of a thread -/
inductive ArmRel (be : Bool) : ArmLocal → TState (syncObj 32 be) → Prop
  | idle : ArmRel be .idle .idle
  | start (op : SyncOp 32) (hv : (syncObj 32 be).valid op) : ArmRel be (.start op) (.pending op)
  | loaded (op : SyncOp 32) (cur new res) (hv : (syncObj 32 be).valid op)
      (h : onLoad be op cur = .ok (.loaded op cur new res)) : ArmRel be (.loaded op cur new res) (.pending op)
  | done (r : Nat) : ArmRel be (.done r) (.done ({r} : Set Nat))

theorem update_rel {α β Tid : Type} [DecidableEq Tid] {R : α → β → Prop} {f : Tid → α} {g : Tid → β}
    (h : ∀ t, R (f t) (g t)) (t : Tid) {a : α} {b : β} (hab : R a b) :
    ∀ t', R (Function.update f t a t') (Function.update g t b t') := by
  intro t'
  by_cases e : t' = t
  · subst e; simpa using hab
  · simpa [Function.update_of_ne e] using h t'

theorem update_rel_left {α β Tid : Type} [DecidableEq Tid] {R : α → β → Prop} {f : Tid → α} {g : Tid → β}
    (h : ∀ t, R (f t) (g t)) (t : Tid) {a : α} (hab : R a (g t)) :
    ∀ t', R (Function.update f t a t') (g t') := by
  intro t'
  by_cases e : t' = t
  · subst e; simpa using hab
  · simpa [Function.update_of_ne e] using h t'

theorem arm_simulation {be : Bool} {Tid : Type} [DecidableEq Tid] {m₀ m : Mem 32}
    {h : List (Event Tid (SyncOp 32) Nat (BitVec 32))} {ls : Tid → ArmLocal} (hr : ArmRun be Tid m₀ h m ls) :
    ∃ ts, Atomic (syncObj 32 be) Tid m₀ h m ts ∧ ∀ t, ArmRel be (ls t) (ts t) := by
  induction hr with
  | init => exact ⟨_, .init, fun _ => .idle⟩
  | call t op hr hi hv ih =>
    obtain ⟨ts, ha, hR⟩ := ih
    have := hR t
    rw [hi] at this
    generalize e : ts t = s at this
    cases this
    exact ⟨_, .call t op ha e hv, update_rel hR t (.start op hv)⟩
  | @load h m ls t op hr hi ih =>
    obtain ⟨ts, ha, hR⟩ := ih
    have := hR t
    rw [hi] at this
    generalize e : ts t = s at this
    cases this with
    | start _ hv =>
    obtain ⟨off, -, h2, -, -⟩ := align_spec be hv.1 hv.2
    have hl : loadStep be op m = onLoad be op (readCell be m (alignPtr op.size op.ptr) 4) := by
      unfold loadStep
      simp only [h2, ne_eq, not_true_eq_false, if_false]
      rfl
    rw [hl]
    rcases onLoad_spec hv m with ⟨r, h3, h4⟩ | ⟨new, res, h3, h4⟩
    · have hA := Atomic.effect t op ha e
      have e1 : ((syncObj 32 be).apply op m) = (m, ({r} : Set Nat)) := h4
      rw [e1] at hA
      rw [h3]
      exact ⟨_, hA, update_rel hR t (.done r)⟩
    · rw [h3]
      exact ⟨ts, ha, update_rel_left hR t (by rw [e]; exact .loaded op _ new res hv h3)⟩
  | @cmpxchg_ok h m ls t op cur new res hr hi hc ih =>
    obtain ⟨ts, ha, hR⟩ := ih
    have := hR t
    rw [hi] at this
    generalize e : ts t = s at this
    cases this with
    | loaded _ _ _ _ hv h1 =>
    subst hc
    rcases onLoad_spec hv m with ⟨r, h3, h4⟩ | ⟨new', res', h3, h4⟩
    · rw [h1] at h3; cases h3
    · rw [h1] at h3; cases h3
      have hA := Atomic.effect t op ha e
      have e1 : ((syncObj 32 be).apply op m) = _ := h4
      rw [e1] at hA
      exact ⟨_, hA, update_rel hR t (.done _)⟩
  | cmpxchg_fail t op cur new res hr hi ih =>
    obtain ⟨ts, ha, hR⟩ := ih
    have := hR t
    rw [hi] at this
    generalize e : ts t = s at this
    cases this with
    | loaded _ _ _ _ hv h1 =>
    exact ⟨ts, ha, update_rel_left hR t (by rw [e]; exact .start op hv)⟩
  | ret t r hr hi ih =>
    obtain ⟨ts, ha, hR⟩ := ih
    have := hR t
    rw [hi] at this
    generalize e : ts t = s at this
    cases this
    exact ⟨_, .ret t _ r ha e rfl, update_rel hR t .idle⟩
  | store a b hr ih =>
    obtain ⟨ts, ha, hR⟩ := ih
    exact ⟨ts, .store a b ha, hR⟩

theorem arm_no_fault {be : Bool} {Tid : Type} [DecidableEq Tid] {m₀ m : Mem 32}
    {h : List (Event Tid (SyncOp 32) Nat (BitVec 32))} {ls : Tid → ArmLocal} (hr : ArmRun be Tid m₀ h m ls) (t : Tid)
    (f : Fault) : ls t ≠ .fault f := by
  obtain ⟨ts, -, hR⟩ := arm_simulation hr
  have := hR t
  intro h
  rw [h] at this
  cases this

end Verif.Conc
