import Verif.Conc.Feature
import Mathlib.Tactic.IntervalCases
/-!
# Lemmas on the feature detection model
-/
namespace Verif.Conc

theorem contains_one_bit (f : Flags) (k : Nat) (hk : k < 32) : Flags.contains f (1#32 <<< k) = f.getLsbD k := by
  have h1 : ∀ j, j < 32 → (1#32 <<< k).getLsbD j = decide (j = k) := by
    intro j hj
    simp only [BitVec.getLsbD_shiftLeft, BitVec.getLsbD_one]
    simp only [hj, decide_true, Bool.true_and]
    by_cases h : j = k
    · subst h; simp
    · simp only [h, decide_false, Bool.and_eq_false_iff, decide_eq_false_iff_not, Bool.not_eq_false']
      by_cases h2 : j < k
      · left; simp [h2]
      · right; omega
  rw [Flags.contains, Bool.eq_iff_iff, beq_iff_eq]
  constructor
  · intro h
    have := congrArg (·.getLsbD k) h
    simpa [BitVec.getLsbD_and, h1 k hk] using this
  · intro h
    apply BitVec.eq_of_getLsbD_eq
    intro j hj
    rw [BitVec.getLsbD_and, h1 j hj]
    by_cases e : j = k
    · subst e; simp [h]
    · simp [e]

theorem testNth_eq (f : Flags) (k : Nat) (hk : k < 32) : Flags.testNth f k = .ok (f.getLsbD k) := by
  have h := contains_one_bit f k hk
  have h2 : (f &&& 1#32 <<< k != 0#32) = f.getLsbD k := by
    rw [← h, Flags.contains, Bool.eq_iff_iff, bne_iff_ne, beq_iff_eq]
    have hz : ∀ j, j < 32 → (1#32 <<< k).getLsbD j = decide (j = k) := by
      intro j hj
      simp only [BitVec.getLsbD_shiftLeft, BitVec.getLsbD_one]
      simp only [hj, decide_true, Bool.true_and]
      by_cases h : j = k
      · subst h; simp
      · simp only [h, decide_false, Bool.and_eq_false_iff, decide_eq_false_iff_not, Bool.not_eq_false']
        by_cases h2 : j < k
        · left; simp [h2]
        · right; omega
    constructor
    · intro hne
      by_contra hc
      apply hne
      have hb : f.getLsbD k = false := by
        rw [← h, Flags.contains]; simpa using hc
      apply BitVec.eq_of_getLsbD_eq
      intro j hj
      rw [BitVec.getLsbD_and, hz j hj]
      by_cases e : j = k
      · subst e; simp [hb]
      · simp [e]
    · intro he h0
      rw [h0] at he
      have := congrArg (·.getLsbD k) he
      simp [hz k hk] at this
  simp only [Flags.testNth, assertC, shlC, hk, decide_true, if_true]
  show Except.ok _ = _
  rw [h2]

theorem Feat.idx_lt (f : Feat) : f.idx < 10 := by cases f <;> decide

theorem Feat.idx_inj {f g : Feat} (h : f.idx = g.idx) : f = g := by
  cases f <;> cases g <;> first | rfl | (exact absurd h (by decide))

theorem mask_bit (f : Feat) (j : Nat) : f.mask.getLsbD j = decide (j = f.idx) := by
  have := f.idx_lt
  by_cases hj : j < 32
  · simp only [Feat.mask, BitVec.getLsbD_shiftLeft, BitVec.getLsbD_one, hj, decide_true, Bool.true_and]
    by_cases h : j = f.idx
    · rw [h]; simp
    · simp only [h, decide_false, Bool.and_eq_false_iff, decide_eq_false_iff_not, Bool.not_eq_false']
      by_cases h2 : j < f.idx
      · left; simp [h2]
      · right; omega
  · rw [BitVec.getLsbD_of_ge _ _ (by omega)]
    simp; omega

theorem enable_spec (v r : Flags) (b : Nat) (ft : Feat) (hb : b < 32) :
    Ok (enable v r b ft) (fun w => ∀ j, w.getLsbD j = (v.getLsbD j || (decide (j = ft.idx) && r.getLsbD b))) := by
  rw [enable, testNth_eq r b hb]
  show Ok (if r.getLsbD b = true then _ else _) _
  split
  · rename_i h
    refine Ok.pure' fun j => ?_
    rw [Flags.insert, BitVec.getLsbD_or, mask_bit, h, Bool.and_true]
  · rename_i h
    refine Ok.pure' fun j => ?_
    simp [h]

/-- The OS has enabled the state needed for AVX, as tested by the code. -/
def avxOn (c : Cpu) : Bool :=
  (c.cpuid 1#32 0#32).ecx.getLsbD 26 && (c.cpuid 1#32 0#32).ecx.getLsbD 27 && (c.xcr0 &&& 6#64 == 6#64)
/-- The OS has enabled the state needed for AVX-512, as tested by the code. -/
def avx512On (c : Cpu) : Bool := avxOn c && (c.xcr0 &&& 0xe0#64 == 0xe0#64)

theorem enableAvx_spec (c : Cpu) (edx7 eax71 v : Flags) :
    Ok (enableAvx c (c.cpuid 1#32 0#32).ecx edx7 eax71 v) (fun w => ∀ j, w.getLsbD j = (v.getLsbD j
      || (decide (j = Feat.FMA.idx) && (avxOn c && (c.cpuid 1#32 0#32).ecx.getLsbD 12))
      || (decide (j = Feat.AVX512FP16.idx) && (avx512On c && edx7.getLsbD 23))
      || (decide (j = Feat.AVX512BF16.idx) && (avx512On c && eax71.getLsbD 5)))) := by
  rw [enableAvx, testNth_eq _ 26 (by omega), testNth_eq _ 27 (by omega)]
  show Ok (if (c.cpuid 1#32 0#32).ecx.getLsbD 26 = true then (if (c.cpuid 1#32 0#32).ecx.getLsbD 27 = true then _ else _) else _) _
  split
  · rename_i h26
    split
    · rename_i h27
      have hx : c.xgetbv = .ok c.xcr0 := by rw [Cpu.xgetbv, if_pos h27]
      rw [hx]
      show Ok (if (c.xcr0 &&& 6#64 == 6#64) = true then _ else _) _
      split
      · rename_i h6
        refine Ok.bind (enable_spec v _ 12 .FMA (by omega)) fun v1 h1 => ?_
        split
        · rename_i he
          refine Ok.bind (enable_spec v1 _ 23 .AVX512FP16 (by omega)) fun v2 h2 => ?_
          refine Ok.mono (enable_spec v2 _ 5 .AVX512BF16 (by omega)) fun w h3 j => ?_
          rw [h3, h2, h1]
          simp only [avxOn, avx512On, h26, h27, h6, he, Bool.true_and]
        · rename_i he
          refine Ok.pure' fun j => ?_
          rw [h1]
          have he : (c.xcr0 &&& 0xe0#64 == 0xe0#64) = false := by simpa using he
          simp only [avxOn, avx512On, h26, h27, h6, he, Bool.true_and, Bool.and_false, Bool.or_false, Bool.false_and]
      · rename_i h6
        refine Ok.pure' fun j => ?_
        have h6 : (c.xcr0 &&& 6#64 == 6#64) = false := by simpa using h6
        simp only [avxOn, avx512On, h6, Bool.and_false, Bool.or_false, Bool.false_and]
    · rename_i h27
      refine Ok.pure' fun j => ?_
      have h27 : (c.cpuid 1#32 0#32).ecx.getLsbD 27 = false := by simpa using h27
      simp only [avxOn, avx512On, h27, Bool.and_false, Bool.or_false, Bool.false_and]
  · rename_i h26
    refine Ok.pure' fun j => ?_
    have h26 : (c.cpuid 1#32 0#32).ecx.getLsbD 26 = false := by simpa using h26
    simp only [avxOn, avx512On, h26, Bool.and_false, Bool.or_false, Bool.false_and]

/-- the vendor test of the code -/
def isAmd (c : Cpu) : Bool :=
  let l0 := c.cpuid 0#32 0#32
  let vendor := leBytes l0.ebx ++ leBytes l0.edx ++ leBytes l0.ecx
  vendor == authenticAMD || vendor == hygonGenuine

/-- what bit `j` of the detected flags is -/
def detectedBit (c : Cpu) (j : Nat) : Bool :=
  let l0 := c.cpuid 0#32 0#32
  let l1 := c.cpuid 1#32 0#32
  let l7 := decide (7 ≤ l0.eax.toNat)
  decide (1 ≤ l0.eax.toNat) &&
  (decide (j = 0) && l1.ecx.getLsbD 0 || decide (j = 1) && l1.ecx.getLsbD 29 || decide (j = 2) && l1.edx.getLsbD 25
  || decide (j = 3) && l1.edx.getLsbD 26 || decide (j = 4) && (l7 && (c.cpuid 7#32 0#32).ebx.getLsbD 9)
  || decide (j = 5) && (l7 && (c.cpuid 7#32 1#32).eax.getLsbD 31) || decide (j = 6) && (avxOn c && l1.ecx.getLsbD 12)
  || decide (j = 8) && (avx512On c && (l7 && (c.cpuid 7#32 0#32).edx.getLsbD 23))
  || decide (j = 9) && (avx512On c && (l7 && (c.cpuid 7#32 1#32).eax.getLsbD 5))
  || decide (j = 7) && (isAmd c && (decide (1 ≤ (c.cpuid 0x80000000#32 0#32).eax.toNat) && (c.cpuid 0x80000001#32 0#32).ecx.getLsbD 16)))

theorem load_spec (c : Cpu) : Ok (loadX86Features c false) (fun f => ∀ j, f.getLsbD j = detectedBit c j) := by
  rw [loadX86Features]
  simp only [Bool.false_eq_true, if_false, Cpu.cpuid0]
  by_cases h : (c.cpuid 0#32 0#32).eax < 1#32
  · rw [if_pos h]
    refine Ok.pure' fun j => ?_
    have : ¬ 1 ≤ (c.cpuid 0#32 0#32).eax.toNat := by
      have := BitVec.lt_def.1 h
      simp at this; omega
    simp [detectedBit, this]
  · rw [if_neg h]
    have h1 : 1 ≤ (c.cpuid 0#32 0#32).eax.toNat := by
      have := BitVec.lt_def.not.1 h
      simp at this; omega
    have pull : ∀ (p : Prop) [Decidable p] (q : Prop) [Decidable q] (x : BitVec 32) k, (p ↔ q) →
        (if p then x else 0#32).getLsbD k = (decide q && x.getLsbD k) := by
      intro p _ q _ x k hpq
      by_cases hq : q
      · simp [hq, hpq.2 hq]
      · simp [hq, mt hpq.1 hq]
    have c7 : (c.cpuid 0#32 0#32).eax ≥ 7#32 ↔ 7 ≤ (c.cpuid 0#32 0#32).eax.toNat := by
      rw [ge_iff_le, BitVec.le_def]; simp
    have cx : (c.cpuid 0x80000000#32 0#32).eax ≥ 1#32 ↔ 1 ≤ (c.cpuid 0x80000000#32 0#32).eax.toNat := by
      rw [ge_iff_le, BitVec.le_def]; simp
    refine Ok.bind (enable_spec _ _ 0 .SSE3 (by omega)) fun v1 h1' => ?_
    refine Ok.bind (enable_spec _ _ 29 .F16C (by omega)) fun v2 h2 => ?_
    refine Ok.bind (enable_spec _ _ 25 .SSE (by omega)) fun v3 h3 => ?_
    refine Ok.bind (enable_spec _ _ 26 .SSE2 (by omega)) fun v4 h4 => ?_
    refine Ok.bind (enable_spec _ _ 9 .ERMSB (by omega)) fun v5 h5 => ?_
    refine Ok.bind (enable_spec _ _ 31 .MOVRS (by omega)) fun v6 h6 => ?_
    refine Ok.bind (enableAvx_spec c _ _ _) fun v7 h7 => ?_
    by_cases hv : isAmd c = true
    · have hv' := hv
      simp only [isAmd] at hv
      rw [if_pos hv]
      refine Ok.mono (enable_spec _ _ 16 .FMA4 (by omega)) fun w h8 j => ?_
      rw [h8, h7, h6, h5, h4, h3, h2, h1']
      simp only [pull _ _ _ _ c7, pull _ _ _ _ cx, detectedBit, hv', h1, Feat.idx, decide_true, Bool.true_and,
        BitVec.getLsbD_zero, Bool.false_or]
      rfl
    · have hv' : isAmd c = false := by simpa using hv
      simp only [isAmd] at hv
      rw [if_neg hv]
      refine Ok.pure' fun j => ?_
      rw [h7, h6, h5, h4, h3, h2, h1']
      simp only [pull _ _ _ _ c7, detectedBit, hv', h1, Feat.idx, decide_true, Bool.true_and,
        BitVec.getLsbD_zero, Bool.false_or, Bool.false_and, Bool.and_false, Bool.or_false]
      rfl

end Verif.Conc
