import Verif.Conc.FeatureProofs
/-!
# C51: the CPU feature cache; C55: CPU feature detection on x86

C51: `OnceRun` (Verif/Conc/Once.lean) are the executions of any number of threads on a cell accessed with relaxed atomics.
C55: `loadX86Features` against what the processor manuals say about the availability of an instruction set.
-/
namespace Verif.Props
open Verif.Conc

/-! ### C51 -/

theorem flagsCode_good (D : Flags → Prop) : flagsCode.Good D 0#32 := by
  refine ⟨by decide, fun i v r _ hi => ?_⟩
  simp only [flagsCode, assertC] at hi ⊢
  split at hi
  · cases hi
    have : Flags.contains (Flags.insert i INITIALIZED) INITIALIZED = true := by
      rw [show INITIALIZED = 1#32 <<< 31 from rfl, contains_one_bit _ 31 (by omega), Flags.insert, BitVec.getLsbD_or]
      simp
    rw [this]
    rfl
  · cases hi

theorem flagsCode_onInit (f : Flags) :
    flagsCode.onInit f = if f.getLsbD 31 then .error .assert else .ok (f ||| 0x80000000#32, f ||| 0x80000000#32) := by
  simp only [flagsCode, assertC, show INITIALIZED = 1#32 <<< 31 from rfl, contains_one_bit _ 31 (by omega : 31 < 32)]
  by_cases h : f.getLsbD 31
  · simp only [h, Bool.not_true, Bool.false_eq_true, if_false, if_true]; rfl
  · simp only [h, Bool.not_false, if_true]; rfl

/-- Every caller of `get_or_init_flags_cache` gets flags that a detection computed in this execution (by whatever thread),
with only the top bit added. -/
theorem C51_result {T Tid : Type} [LinearOrder T] [DecidableEq Tid] {D : Flags → Prop} {t₀ : T}
    {h : List (OnceEvent Tid Flags Flags)} {ms : T → Option Flags} {vw : Tid → T} {ls : Tid → OnceLocal Flags Flags}
    (hr : OnceRun flagsCode D t₀ 0#32 h ms vw ls) {t : Tid} {r : Flags} (hm : .ret t r ∈ h) :
    ∃ t' f, .detect t' f ∈ h ∧ D f ∧ r = f ||| 0x80000000#32 := by
  obtain ⟨t', f, v, h1, h2, h3⟩ := (once_inv (flagsCode_good D) hr).rets t r hm
  rw [flagsCode_onInit] at h3
  split at h3
  · cases h3
  · cases h3; exact ⟨t', f, h1, h2, rfl⟩

/-- So callers agree on every flag but the reserved one as soon as the detections do. -/
theorem C51_agree {T Tid : Type} [LinearOrder T] [DecidableEq Tid] {f : Flags} {t₀ : T}
    {h : List (OnceEvent Tid Flags Flags)} {ms : T → Option Flags} {vw : Tid → T} {ls : Tid → OnceLocal Flags Flags}
    (hr : OnceRun flagsCode (· = f) t₀ 0#32 h ms vw ls) {t : Tid} {r : Flags} (hm : .ret t r ∈ h) (k : Nat) (hk : k < 31) :
    Flags.contains r (1#32 <<< k) = f.getLsbD k := by
  obtain ⟨_, f', _, rfl, rfl⟩ := C51_result hr hm
  rw [contains_one_bit _ k (by omega), BitVec.getLsbD_or, show (0x80000000#32) = 1#32 <<< 31 from rfl,
    BitVec.getLsbD_shiftLeft]
  simp [hk]

/-- The assertion that the reserved bit is not set by the detection holds if no detection sets it. -/
theorem C51_no_fault {T Tid : Type} [LinearOrder T] [DecidableEq Tid] {D : Flags → Prop} (hD : ∀ f, D f → f.getLsbD 31 = false)
    {t₀ : T} {h : List (OnceEvent Tid Flags Flags)} {ms : T → Option Flags} {vw : Tid → T} {ls : Tid → OnceLocal Flags Flags}
    (hr : OnceRun flagsCode D t₀ 0#32 h ms vw ls) (t : Tid) (e : Fault) : ls t ≠ .failed e := by
  intro he
  have := (once_inv (flagsCode_good D) hr).loc t
  rw [he] at this
  obtain ⟨f, h1, h2⟩ := this
  rw [flagsCode_onInit, hD f h1] at h2
  cases h2

/-- Detection is never run again by a thread that is after a completed call, its own or that of a thread it
synchronised with. -/
theorem C51_once_observed {T Tid : Type} [LinearOrder T] [DecidableEq Tid] {D : Flags → Prop} {t₀ : T}
    {h : List (OnceEvent Tid Flags Flags)} {ms : T → Option Flags} {vw : Tid → T} {ls : Tid → OnceLocal Flags Flags}
    (hr : OnceRun flagsCode D t₀ 0#32 h ms vw ls) (a b : List (OnceEvent Tid Flags Flags)) (t : Tid) (f : Flags)
    (he : h = a ++ .detect t f :: b) : ¬ afterCall a.reverse t :=
  (once_inv (flagsCode_good D) hr).quiet a t f b he

/-- `select_once!`: every call is answered by an implementation that `init` chose in this execution, and `init` is not run
again by a thread that is after a completed call. -/
theorem C51_select_once {F T Tid : Type} [LinearOrder T] [DecidableEq Tid] {D : F → Prop} {t₀ : T}
    {h : List (OnceEvent Tid F F)} {ms : T → Option (Option F)} {vw : Tid → T} {ls : Tid → OnceLocal (Option F) F}
    (hr : OnceRun (selectCode F) D t₀ none h ms vw ls) :
    (∀ t p, .ret t p ∈ h → D p ∧ ∃ t', .detect t' p ∈ h) ∧ (∀ t e, ls t ≠ .failed e) ∧
    (∀ a b t p, h = a ++ .detect t p :: b → ¬ afterCall a.reverse t) := by
  have hg : (selectCode F).Good D none := ⟨rfl, fun i v r _ hi => by cases hi; rfl⟩
  have hi := once_inv hg hr
  refine ⟨fun t p hm => ?_, fun t e he => ?_, fun a b t p he => hi.quiet a t p b he⟩
  · obtain ⟨t', i, v, h1, h2, h3⟩ := hi.rets t p hm
    cases h3
    exact ⟨h2, t', h1⟩
  · have := hi.loc t
    rw [he] at this
    obtain ⟨_, _, h2⟩ := this
    cases h2

/-- An execution: threads 0 and 1 race, both miss and both detect; thread 1 stores first but later in the order of stores; thread 0
hands over to thread 2, which reads the older store. -/
example : ∃ ms vw ls, OnceRun (T := Nat) (Tid := Fin 3) flagsCode (· = 5#32) 0 0#32
    [.call 0, .call 1, .detect 0 5#32, .detect 1 5#32, .ret 1 0x80000005#32, .ret 0 0x80000005#32, .sync 0 2, .call 2,
      .ret 2 0x80000005#32] ms vw ls := by
  have r1 := OnceRun.init (C := flagsCode) (D := (· = 5#32)) (t₀ := (0 : Nat)) (v₀ := 0#32) (Tid := Fin 3)
  have r2 := r1.call 0 rfl
  have r3 := r2.call 1 rfl
  have r4 := r3.load_miss 0 0 0#32 rfl (by simp) (by simp) (by decide)
  have r5 := r4.load_miss 1 0 0#32 rfl (by simp [Function.update]) (by simp) (by decide)
  have r6 := r5.detect 0 5#32 0x80000005#32 0x80000005#32 rfl rfl (by decide)
  have r7 := r6.detect 1 5#32 0x80000005#32 0x80000005#32 rfl rfl (by decide)
  have r8 := r7.store 1 2 0x80000005#32 0x80000005#32 rfl (by simp [Function.update]) (by simp [Function.update])
  have r9 := r8.ret 1 0x80000005#32 rfl
  have r10 := r9.store 0 1 0x80000005#32 0x80000005#32 rfl (by simp [Function.update]) (by simp [Function.update])
  have r11 := r10.ret 0 0x80000005#32 rfl
  have r12 := r11.sync 0 2 rfl rfl
  have r13 := r12.call 2 rfl
  have r14 := r13.load_hit 2 1 0x80000005#32 0x80000005#32 rfl (by simp [Function.update]) (by simp [Function.update]) (by decide)
  exact ⟨_, _, _, r14.ret 2 0x80000005#32 rfl⟩

/-! ### C55 -/

/-- The OS saves and restores the AVX registers: CR4.OSXSAVE is set (leaf 1, ECX bit 27) and XCR0 has SSE and AVX state enabled
(Intel SDM volume 1, 14.3). -/
def OsAvx (c : Cpu) : Prop := (c.cpuid 1 0).ecx.getLsbD 27 ∧ c.xcr0.getLsbD 1 ∧ c.xcr0.getLsbD 2
/-- Likewise for AVX-512 (SDM volume 1, 15.2). -/
def OsAvx512 (c : Cpu) : Prop := OsAvx c ∧ c.xcr0.getLsbD 5 ∧ c.xcr0.getLsbD 6 ∧ c.xcr0.getLsbD 7
/-- `cpuid` knows the basic leaf `n`. -/
def HasLeaf (c : Cpu) (n : Nat) : Prop := n ≤ (c.cpuid 0 0).eax.toNat
/-- The vendor string is "AuthenticAMD" or "HygonGenuine". -/
def AmdLike (c : Cpu) : Prop :=
  let r := c.cpuid 0 0
  (r.ebx = 0x68747541#32 ∧ r.edx = 0x69746e65#32 ∧ r.ecx = 0x444d4163#32) ∨
  (r.ebx = 0x6f677948#32 ∧ r.edx = 0x6e65476e#32 ∧ r.ecx = 0x656e6975#32)

/-- The processor has the instruction set (whether or not the OS enabled the registers it needs). -/
def Reported (c : Cpu) : Feat → Prop
  | .SSE3 => HasLeaf c 1 ∧ (c.cpuid 1 0).ecx.getLsbD 0
  | .F16C => HasLeaf c 1 ∧ (c.cpuid 1 0).ecx.getLsbD 29
  | .SSE => HasLeaf c 1 ∧ (c.cpuid 1 0).edx.getLsbD 25
  | .SSE2 => HasLeaf c 1 ∧ (c.cpuid 1 0).edx.getLsbD 26
  | .ERMSB => HasLeaf c 7 ∧ (c.cpuid 7 0).ebx.getLsbD 9
  | .MOVRS => HasLeaf c 7 ∧ (c.cpuid 7 1).eax.getLsbD 31
  | .FMA => HasLeaf c 1 ∧ (c.cpuid 1 0).ecx.getLsbD 12
  | .FMA4 => HasLeaf c 1 ∧ AmdLike c ∧ 0x80000001 ≤ (c.cpuid 0x80000000 0).eax.toNat ∧ (c.cpuid 0x80000001 0).ecx.getLsbD 16
  | .AVX512FP16 => HasLeaf c 7 ∧ (c.cpuid 7 0).edx.getLsbD 23
  | .AVX512BF16 => HasLeaf c 7 ∧ (c.cpuid 7 1).eax.getLsbD 5

/-- The instructions can be executed. -/
def Usable (c : Cpu) (ft : Feat) : Prop :=
  Reported c ft ∧ match ft with
    | .F16C | .FMA | .FMA4 => OsAvx c
    | .AVX512FP16 | .AVX512BF16 => OsAvx512 c
    | _ => True

/-- OSXSAVE is reported only by processors that have XSAVE (leaf 1, ECX bit 26). -/
def WellFormed (c : Cpu) : Prop := (c.cpuid 1 0).ecx.getLsbD 27 → (c.cpuid 1 0).ecx.getLsbD 26

theorem and_mask_6 (x : BitVec 64) : (x &&& 6#64 == 6#64) = (x.getLsbD 1 && x.getLsbD 2) := by
  rw [Bool.eq_iff_iff, beq_iff_eq, Bool.and_eq_true]
  constructor
  · intro h
    have h1 := congrArg (·.getLsbD 1) h
    have h2 := congrArg (·.getLsbD 2) h
    simp at h1 h2
    exact ⟨h1, h2⟩
  · rintro ⟨h1, h2⟩
    apply BitVec.eq_of_getLsbD_eq
    intro j hj
    rw [BitVec.getLsbD_and]
    by_cases e1 : j = 1
    · subst e1; simp [h1]
    by_cases e2 : j = 2
    · subst e2; simp [h2]
    have : (6#64).getLsbD j = false := by
      have : ∀ j < 64, j ≠ 1 → j ≠ 2 → (6#64).getLsbD j = false := by decide
      exact this j hj e1 e2
    rw [this, Bool.and_false]

theorem and_mask_e0 (x : BitVec 64) : (x &&& 0xe0#64 == 0xe0#64) = (x.getLsbD 5 && x.getLsbD 6 && x.getLsbD 7) := by
  rw [Bool.eq_iff_iff, beq_iff_eq, Bool.and_eq_true, Bool.and_eq_true]
  constructor
  · intro h
    have h1 := congrArg (·.getLsbD 5) h
    have h2 := congrArg (·.getLsbD 6) h
    have h3 := congrArg (·.getLsbD 7) h
    simp at h1 h2 h3
    exact ⟨⟨h1, h2⟩, h3⟩
  · rintro ⟨⟨h1, h2⟩, h3⟩
    apply BitVec.eq_of_getLsbD_eq
    intro j hj
    rw [BitVec.getLsbD_and]
    by_cases e1 : j = 5
    · subst e1; simp [h1]
    by_cases e2 : j = 6
    · subst e2; simp [h2]
    by_cases e3 : j = 7
    · subst e3; simp [h3]
    have : (0xe0#64).getLsbD j = false := by
      have : ∀ j < 64, j ≠ 5 → j ≠ 6 → j ≠ 7 → (0xe0#64).getLsbD j = false := by decide
      exact this j hj e1 e2 e3
    rw [this, Bool.and_false]

theorem leBytes_inj {x y : BitVec 32} (h : leBytes x = leBytes y) : x = y := by
  simp only [leBytes, List.cons.injEq, and_true] at h
  obtain ⟨h0, h1, h2, h3⟩ := h
  apply BitVec.eq_of_getLsbD_eq
  intro j hj
  have g : ∀ k, k + 8 ≤ 32 → x.extractLsb' k 8 = y.extractLsb' k 8 → k ≤ j → j < k + 8 → x.getLsbD j = y.getLsbD j := by
    intro k _ he h1 h2
    have := congrArg (·.getLsbD (j - k)) he
    simp only [BitVec.getLsbD_extractLsb'] at this
    have e : k + (j - k) = j := by omega
    simpa [show j - k < 8 by omega, e] using this
  by_cases a : j < 8
  · exact g 0 (by omega) h0 (by omega) a
  by_cases b : j < 16
  · exact g 8 (by omega) h1 (by omega) b
  by_cases c : j < 24
  · exact g 16 (by omega) h2 (by omega) c
  · exact g 24 (by omega) h3 (by omega) (by omega)

theorem vendor_iff (a b d : BitVec 32) (a' b' d' : BitVec 32) :
    leBytes a ++ leBytes b ++ leBytes d = leBytes a' ++ leBytes b' ++ leBytes d' ↔ a = a' ∧ b = b' ∧ d = d' := by
  constructor
  · intro h
    have h1 := List.append_inj' h rfl
    have h2 := List.append_inj' h1.1 rfl
    exact ⟨leBytes_inj h2.1, leBytes_inj h2.2, leBytes_inj h1.2⟩
  · rintro ⟨rfl, rfl, rfl⟩; rfl

theorem isAmd_iff (c : Cpu) : isAmd c = true ↔ AmdLike c := by
  have e1 : authenticAMD = leBytes 0x68747541#32 ++ leBytes 0x69746e65#32 ++ leBytes 0x444d4163#32 := by decide
  have e2 : hygonGenuine = leBytes 0x6f677948#32 ++ leBytes 0x6e65476e#32 ++ leBytes 0x656e6975#32 := by decide
  simp only [isAmd, Bool.or_eq_true, beq_iff_eq, e1, e2, vendor_iff]
  rfl

theorem avxOn_iff {c : Cpu} (hw : WellFormed c) : avxOn c = true ↔ OsAvx c := by
  simp only [avxOn, and_mask_6, Bool.and_eq_true]
  exact ⟨fun h => ⟨h.1.2, h.2⟩, fun h => ⟨⟨hw h.1, h.1⟩, h.2⟩⟩

theorem avx512On_iff {c : Cpu} (hw : WellFormed c) : avx512On c = true ↔ OsAvx512 c := by
  simp only [avx512On, and_mask_e0, Bool.and_eq_true, avxOn_iff hw, OsAvx512, and_assoc]

/-- what the code tests for each feature -/
def Tested (c : Cpu) : Feat → Bool
  | .SSE3 => (c.cpuid 1 0).ecx.getLsbD 0
  | .F16C => (c.cpuid 1 0).ecx.getLsbD 29
  | .SSE => (c.cpuid 1 0).edx.getLsbD 25
  | .SSE2 => (c.cpuid 1 0).edx.getLsbD 26
  | .ERMSB => decide (7 ≤ (c.cpuid 0 0).eax.toNat) && (c.cpuid 7 0).ebx.getLsbD 9
  | .MOVRS => decide (7 ≤ (c.cpuid 0 0).eax.toNat) && (c.cpuid 7 1).eax.getLsbD 31
  | .FMA => avxOn c && (c.cpuid 1 0).ecx.getLsbD 12
  | .FMA4 => isAmd c && (decide (1 ≤ (c.cpuid 0x80000000 0).eax.toNat) && (c.cpuid 0x80000001 0).ecx.getLsbD 16)
  | .AVX512FP16 => avx512On c && (decide (7 ≤ (c.cpuid 0 0).eax.toNat) && (c.cpuid 7 0).edx.getLsbD 23)
  | .AVX512BF16 => avx512On c && (decide (7 ≤ (c.cpuid 0 0).eax.toNat) && (c.cpuid 7 1).eax.getLsbD 5)

theorem detectedBit_idx (c : Cpu) (ft : Feat) :
    detectedBit c ft.idx = (decide (1 ≤ (c.cpuid 0 0).eax.toNat) && Tested c ft) := by
  cases ft <;> simp [detectedBit, Feat.idx, Tested]

theorem contains_iff {c : Cpu} {f : Flags} (h : ∀ j, f.getLsbD j = detectedBit c j) (ft : Feat) :
    Flags.contains f ft.mask = true ↔ 1 ≤ (c.cpuid 0 0).eax.toNat ∧ Tested c ft = true := by
  rw [Feat.mask, contains_one_bit _ _ (by have := ft.idx_lt; omega), h, detectedBit_idx]
  simp

/-- Detection does not panic (in particular, XGETBV is executed only where it is available), sets no bit but the ten named
ones, and reports every usable instruction set. On SGX it reports nothing. -/
theorem C55_complete (c : Cpu) (hw : WellFormed c) :
    loadX86Features c true = .ok 0#32 ∧
    ∃ f, loadX86Features c false = .ok f ∧ (∀ ft, Usable c ft → Flags.contains f ft.mask) ∧
      (∀ j, f.getLsbD j → ∃ ft : Feat, j = ft.idx) := by
  refine ⟨rfl, ?_⟩
  obtain ⟨f, h1, h2⟩ := load_spec c
  refine ⟨f, h1, fun ft hu => ?_, fun j hj => ?_⟩
  · rw [contains_iff h2]
    have l1 : HasLeaf c 7 → 1 ≤ (c.cpuid 0 0).eax.toNat := fun h => by
      have : 7 ≤ _ := h
      omega
    cases ft <;> simp only [Usable, Reported, ← avxOn_iff hw, ← avx512On_iff hw, ← isAmd_iff] at hu <;>
      simp only [Tested, Bool.and_eq_true, decide_eq_true_eq]
    all_goals first
      | exact ⟨hu.1.1, hu.1.2⟩
      | exact ⟨l1 hu.1.1, hu.1.1, hu.1.2⟩
      | exact ⟨hu.1.1, hu.2, hu.1.2⟩
      | exact ⟨l1 hu.1.1, hu.2, hu.1.1, hu.1.2⟩
      | exact ⟨hu.1.1, hu.1.2.1, le_trans (by decide) hu.1.2.2.1, hu.1.2.2.2⟩
  · rw [h2, detectedBit] at hj
    simp only [Bool.and_eq_true, Bool.or_eq_true, decide_eq_true_eq] at hj
    rcases hj.2 with ((((((((h | h) | h) | h) | h) | h) | h) | h) | h) | h
    · exact ⟨.SSE3, h.1⟩
    · exact ⟨.F16C, h.1⟩
    · exact ⟨.SSE, h.1⟩
    · exact ⟨.SSE2, h.1⟩
    · exact ⟨.ERMSB, h.1⟩
    · exact ⟨.MOVRS, h.1⟩
    · exact ⟨.FMA, h.1⟩
    · exact ⟨.AVX512FP16, h.1⟩
    · exact ⟨.AVX512BF16, h.1⟩
    · exact ⟨.FMA4, h.1⟩

/-- Conversely, what is reported is usable, except for F16C and FMA4: these two are reported whether or not the OS has enabled the
AVX registers, and FMA4 is looked up in leaf 0x80000001 without checking that this leaf exists. -/
theorem C55_sound_partial (c : Cpu) (hw : WellFormed c) (f : Flags) (hf : loadX86Features c false = .ok f) :
    (∀ ft, ft ≠ .F16C → ft ≠ .FMA4 → Flags.contains f ft.mask → Usable c ft) ∧
    (Flags.contains f Feat.F16C.mask → Reported c .F16C) ∧
    (0x80000001 ≤ (c.cpuid 0x80000000 0).eax.toNat → Flags.contains f Feat.FMA4.mask → Reported c .FMA4) := by
  obtain ⟨f', h1, h2⟩ := load_spec c
  rw [h1] at hf
  cases hf
  refine ⟨fun ft n1 n2 hc => ?_, fun hc => ?_, fun hx hc => ?_⟩
  · rw [contains_iff h2] at hc
    cases ft <;> simp only [Tested, Bool.and_eq_true, decide_eq_true_eq] at hc <;>
      simp only [Usable, Reported, ← avxOn_iff hw, ← avx512On_iff hw, HasLeaf]
    all_goals first
      | exact absurd rfl n1
      | exact absurd rfl n2
      | exact ⟨⟨hc.1, hc.2⟩, trivial⟩
      | exact ⟨⟨hc.2.1, hc.2.2⟩, trivial⟩
      | exact ⟨⟨hc.1, hc.2.2⟩, hc.2.1⟩
      | exact ⟨⟨hc.2.2.1, hc.2.2.2⟩, hc.2.1⟩
  · rw [contains_iff h2] at hc
    exact hc
  · rw [contains_iff h2] at hc
    simp only [Tested, Bool.and_eq_true, decide_eq_true_eq, isAmd_iff] at hc
    exact ⟨hc.1, hc.2.1, hx, hc.2.2.2⟩

/-- A processor with FMA and AVX, OS support enabled, of another vendor. -/
def someCpu : Cpu where
  cpuid leaf _ := if leaf = 0#32 then ⟨7#32, 0x756e6547#32, 0x6c65746e#32, 0x49656e69#32⟩
    else if leaf = 1#32 then ⟨0#32, 0#32, 0x3c001001#32, 0x06000000#32⟩ else ⟨0#32, 0#32, 0#32, 0#32⟩
  xcr0 := 7#64
example : WellFormed someCpu ∧ Usable someCpu .FMA ∧ loadX86Features someCpu false = .ok 0b1001111#32 := by
  refine ⟨fun _ => rfl, ⟨⟨show 1 ≤ 7 by decide, rfl⟩, rfl, rfl, rfl⟩, by decide +kernel⟩

/-- An AMD processor with FMA4 under an operating system that does not use XSAVE (for example Linux booted with `noxsave`). -/
def noXsaveCpu : Cpu where
  cpuid leaf _ := if leaf = 0#32 then ⟨1#32, 0x68747541#32, 0x444d4163#32, 0x69746e65#32⟩
    else if leaf = 1#32 then ⟨0#32, 0#32, 0x34001001#32, 0x06000000#32⟩
    else if leaf = 0x80000000#32 then ⟨0x80000001#32, 0#32, 0#32, 0#32⟩
    else if leaf = 0x80000001#32 then ⟨0#32, 0#32, 0x10000#32, 0#32⟩ else ⟨0#32, 0#32, 0#32, 0#32⟩
  xcr0 := 1#64

/-- Soundness does fail for FMA4 (and F16C): there `fma` and `fmaf` choose an implementation whose instruction raises an
invalid-opcode exception. -/
theorem C55_fma4_fails : WellFormed noXsaveCpu ∧ ¬ Usable noXsaveCpu .FMA4 ∧ ¬ Usable noXsaveCpu .F16C ∧
    ∃ f, loadX86Features noXsaveCpu false = .ok f ∧ Flags.contains f Feat.FMA4.mask ∧ Flags.contains f Feat.F16C.mask ∧
      fmaInit (f ||| INITIALIZED) = .fma4 := by
  have h27 : ¬ OsAvx noXsaveCpu := fun h => absurd h.1 (by decide)
  exact ⟨fun h => absurd h (by decide), fun h => h27 h.2, fun h => h27 h.2, 0b10001111#32, by decide +kernel, by decide, by decide,
    by decide⟩

/-- The instructions an implementation of `fma` consists of can be executed. -/
def CanRun (c : Cpu) : FmaImpl → Prop
  | .fma => Usable c .FMA
  | .fma4 => Usable c .FMA4
  | .fallback => True

/-- `fma`/`fmaf` on x86, all threads, all schedules: the implementation that answers a call is the FMA one if FMA is usable, and
otherwise, on processors whose FMA4 is usable if reported (missing: see `C55_fma4_fails`), the FMA4 one if FMA4 is usable, and the generic one
if neither is. Its `debug_assert!` holds. -/
theorem C55_fma_partial {T Tid : Type} [LinearOrder T] [DecidableEq Tid] {c : Cpu} (hw : WellFormed c)
    (h4 : ∀ f, loadX86Features c false = .ok f → Flags.contains f Feat.FMA4.mask → Usable c .FMA4)
    {t₁ : T} {hc : List (OnceEvent Tid Flags Flags)} {msc : T → Option Flags} {vwc : Tid → T} {lsc : Tid → OnceLocal Flags Flags}
    (hrc : OnceRun flagsCode (fun f => loadX86Features c false = .ok f) t₁ 0#32 hc msc vwc lsc)
    {t₀ : T} {h : List (OnceEvent Tid FmaImpl FmaImpl)} {ms : T → Option (Option FmaImpl)} {vw : Tid → T}
    {ls : Tid → OnceLocal (Option FmaImpl) FmaImpl}
    (hr : OnceRun (selectCode FmaImpl) (fun p => ∃ t r, .ret t r ∈ hc ∧ p = fmaInit r) t₀ none h ms vw ls)
    {t : Tid} {p : FmaImpl} (hm : .ret t p ∈ h) :
    CanRun c p ∧ (Usable c .FMA → p = .fma) ∧ (¬ Usable c .FMA → Usable c .FMA4 → p = .fma4) ∧
    (p = .fallback → ¬ Usable c .FMA ∧ ¬ Usable c .FMA4) ∧ ∀ t r, .ret t r ∈ hc → p.enter r = .ok () := by
  obtain ⟨f, h1, h2⟩ := load_spec c
  have key : ∀ r, (∃ t, .ret t r ∈ hc) → ∀ ft : Feat, Flags.contains r ft.mask = Flags.contains f ft.mask := by
    rintro r ⟨t, hm⟩ ft
    obtain ⟨_, f', _, hf', rfl⟩ := C51_result hrc hm
    rw [h1] at hf'
    cases hf'
    have := ft.idx_lt
    rw [Feat.mask, contains_one_bit _ _ (by omega), contains_one_bit _ _ (by omega), BitVec.getLsbD_or,
      show (0x80000000#32) = 1#32 <<< 31 from rfl, BitVec.getLsbD_shiftLeft]
    simp [show ft.idx < 31 by omega]
  have hs := C55_sound_partial c hw f h1
  have hc' := (C55_complete c hw).2
  obtain ⟨f', e, hcomp, _⟩ := hc'
  rw [h1] at e
  cases e
  have iF : Flags.contains f Feat.FMA.mask = true ↔ Usable c .FMA := ⟨hs.1 .FMA (by decide) (by decide), hcomp .FMA⟩
  have i4 : Flags.contains f Feat.FMA4.mask = true ↔ Usable c .FMA4 := ⟨h4 f h1, hcomp .FMA4⟩
  obtain ⟨⟨t', r, hm', rfl⟩, _⟩ := (C51_select_once hr).1 t p hm
  have kF := key r ⟨t', hm'⟩ .FMA
  have k4 := key r ⟨t', hm'⟩ .FMA4
  have henter : ∀ t r', .ret t r' ∈ hc → (fmaInit r).enter r' = .ok () := by
    intro u r' hu
    have kF' := key r' ⟨u, hu⟩ .FMA
    have k4' := key r' ⟨u, hu⟩ .FMA4
    simp only [fmaInit, kF, k4]
    split
    · rename_i hx; simp [FmaImpl.enter, kF', hx, assertC]
    · split
      · rename_i hx; simp [FmaImpl.enter, k4', hx, assertC]
      · rfl
  refine ⟨?_, ?_, ?_, ?_, henter⟩
  all_goals simp only [fmaInit, kF, k4]
  · split
    · rename_i hx; exact iF.1 hx
    · split
      · rename_i hx; exact i4.1 hx
      · trivial
  · intro hu; rw [if_pos (iF.2 hu)]
  · intro hn hu; rw [if_neg (mt iF.1 hn), if_pos (i4.2 hu)]
  · intro he
    split at he
    · cases he
    · split at he
      · cases he
      · rename_i n1 n2
        exact ⟨mt iF.2 n1, mt i4.2 n2⟩

/-- executions meeting the hypotheses: on `someCpu` thread 0 calls `fma` -/
example : (∀ f, loadX86Features someCpu false = .ok f → Flags.contains f Feat.FMA4.mask → Usable someCpu .FMA4) ∧
    (∃ ms vw ls, OnceRun (T := Nat) (Tid := Fin 2) flagsCode (fun f => loadX86Features someCpu false = .ok f) 0 0#32
      [.call 0, .detect 0 0b1001111#32, .ret 0 0x8000004f#32] ms vw ls) ∧
    (∃ ms vw ls, OnceRun (T := Nat) (Tid := Fin 2) (selectCode FmaImpl) (fun p => ∃ (t : Fin 2) (r : Flags),
      .ret t r ∈ ([.call 0, .detect 0 0b1001111#32, .ret 0 0x8000004f#32] : List (OnceEvent (Fin 2) Flags Flags)) ∧ p = fmaInit r) 0 none
      [.call 0, .detect 0 .fma, .ret 0 .fma] ms vw ls) := by
  have hl : loadX86Features someCpu false = .ok 0b1001111#32 := by decide +kernel
  refine ⟨fun f hf hc => ?_, ?_, ?_⟩
  · rw [hl] at hf
    cases hf
    exact absurd hc (by decide)
  · have r1 := OnceRun.init (C := flagsCode) (D := fun f => loadX86Features someCpu false = .ok f) (t₀ := (0 : Nat)) (v₀ := 0#32)
      (Tid := Fin 2)
    have r2 := r1.call 0 rfl
    have r3 := r2.load_miss 0 0 0#32 rfl (by simp) (by simp) (by decide)
    have r4 := r3.detect 0 0b1001111#32 0x8000004f#32 0x8000004f#32 rfl hl (by decide)
    have r5 := r4.store 0 1 0x8000004f#32 0x8000004f#32 rfl (by simp [Function.update]) (by simp [Function.update])
    exact ⟨_, _, _, r5.ret 0 0x8000004f#32 rfl⟩
  · have r1 := OnceRun.init (C := selectCode FmaImpl) (D := fun p => ∃ (t : Fin 2) (r : Flags),
      .ret t r ∈ ([.call 0, .detect 0 0b1001111#32, .ret 0 0x8000004f#32] : List (OnceEvent (Fin 2) Flags Flags)) ∧ p = fmaInit r)
      (t₀ := (0 : Nat)) (v₀ := none) (Tid := Fin 2)
    have r2 := r1.call 0 rfl
    have r3 := r2.load_miss 0 0 none rfl (by simp) (by simp) rfl
    have r4 := r3.detect 0 .fma (some .fma) .fma rfl ⟨0, 0x8000004f#32, by simp, by decide⟩ rfl
    have r5 := r4.store 0 1 (some .fma) .fma rfl (by simp [Function.update]) (by simp [Function.update])
    have r6 := r5.ret 0 FmaImpl.fma rfl
    exact ⟨_, _, _, r6⟩

end Verif.Props
