import Verif.Mem.X86Proofs
/-! # Proofs about the x86_64 string length routines -/
namespace Verif.Mem.X86
open Verif.Mem
variable {E : Env}

theorem blockLoad_spec {sz a i : Nat} {s : Store} (hal : a % sz = 0) (hi : i < sz) (h : E.canR (a + i) = true) :
    OkS (blockLoad E sz a) s (fun f s' => s' = s ∧ f = fun i => s (a + i)) := by
  refine ⟨_, s, ?_, rfl, rfl⟩
  unfold blockLoad
  rw [if_pos]
  refine ⟨hal, ?_⟩
  rw [List.any_eq_true]
  exact ⟨i, List.mem_range.2 hi, h⟩

theorem zeroMask_lt (f : Nat → Byte) (n : Nat) : zeroMask f n < 2 ^ n := by
  induction n with
  | zero => simp [zeroMask]
  | succ n ih =>
    simp only [zeroMask]
    have : 2 ^ (n + 1) = 2 ^ n * 2 := Nat.pow_succ ..
    split <;> omega

theorem testBit_zeroMask (f : Nat → Byte) (n j : Nat) (hj : j < n) :
    (zeroMask f n).testBit j = decide (f j = 0#8) := by
  induction n with
  | zero => omega
  | succ n ih =>
    simp only [zeroMask]
    rw [Nat.testBit_two_pow_mul_add _ (zeroMask_lt f n)]
    split
    · exact ih (by assumption)
    · have e1 : j = n := by omega
      subst e1
      rw [Nat.sub_self]
      split <;> simp_all

theorem getLsbD_movemask (f : Nat → Byte) (j : Nat) :
    (movemask f).getLsbD j = (decide (j < 16) && decide (f j = 0#8)) := by
  rw [movemask, BitVec.getLsbD_ofNat]
  by_cases h : j < 16
  · have h' : j < 32 := by omega
    rw [testBit_zeroMask _ _ _ h]; simp [h, h']
  · have : (zeroMask f 16).testBit j = false :=
      Nat.testBit_lt_two_pow (Nat.lt_of_lt_of_le (zeroMask_lt f 16) (Nat.pow_le_pow_right (by omega) (by omega)))
    simp [h, this]

theorem tz_eq {w k : Nat} {x : BitVec w} (hk : k < w) (h1 : x.getLsbD k = true) (h2 : ∀ j, j < k → x.getLsbD j = false) :
    tz x = k := by
  unfold tz
  have : (List.range w).find? (fun i => x.getLsbD i) = some k := by
    rw [List.find?_range_eq_some]
    refine ⟨h1, List.mem_range.2 hk, fun j hj => by simp [h2 j hj]⟩
  rw [this]; rfl

/-- What a string of length `k` at `p` may rely on. -/
structure StrPre (E : Env) (s : Store) (p k : Nat) : Prop where
  h8 : E.ws = 8
  hp : p + k < E.space
  rd : ∀ i, i ≤ k → E.canR (p + i) = true
  hz : s (p + k) = 0#8
  hnz : ∀ i, i < k → s (p + i) ≠ 0#8

theorem space_eq (h8 : E.ws = 8) : E.space = 2 ^ 64 := by rw [Env.space, h8]

theorem sseHead_spec {s : Store} {p k : Nat} (H : StrPre E s p k) :
    ∀ (c i : Nat), i ≤ k →
      OkS (sseHead E c (p + i) i) s (fun r s' => s' = s ∧
        (r = .inl k ∨ (r = .inr (p + (i + c), i + c) ∧ i + c ≤ k))) := by
  have h1 := H.hp
  intro c
  induction c with
  | zero => intro i hi; exact OkS.pure' ⟨rfl, .inr ⟨rfl, hi⟩⟩
  | succ c ih =>
    intro i hi
    unfold sseHead
    refine OkS.bind (readB_spec (H.rd i hi)) ?_
    rintro b s' ⟨rfl, rfl⟩
    by_cases h : s' (p + i) = 0#8
    · rw [if_pos h]
      have : i = k := by
        have := H.hnz i
        have h2 : ¬ i < k := fun hh => this hh h
        omega
      subst this
      exact OkS.pure' ⟨rfl, .inl rfl⟩
    · rw [if_neg h]
      have hik : i < k := by
        have : i ≠ k := by rintro rfl; exact h H.hz
        omega
      refine OkS.bind (OkS.lift (uaddC_spec (by omega))) ?_
      rintro n s1 ⟨rfl, rfl⟩
      refine OkS.bind (OkS.lift (paddU_spec (by omega))) ?_
      rintro n s2 ⟨rfl, rfl⟩
      have := ih (i + 1) (by omega)
      rw [show i + 1 + c = i + (c + 1) by omega] at this
      exact this

theorem sseLoop_spec {s : Store} {p k : Nat} (H : StrPre E s p k) :
    ∀ (fuel i : Nat), k < fuel + i → i ≤ k → (p + i) % 16 = 0 →
      OkS (sseLoop E fuel (p + i) i) s (fun r s' => s' = s ∧ r = k) := by
  have h1 := H.hp
  have h64 := space_eq H.h8
  intro fuel
  induction fuel with
  | zero => intros; omega
  | succ fuel ih =>
    intro i hf hi hal
    unfold sseLoop
    refine OkS.bind (blockLoad_spec hal (i := 0) (by omega) (H.rd i hi)) ?_
    rintro f s' ⟨rfl, rfl⟩
    dsimp only
    by_cases hk : k < i + 16
    · rw [if_neg]
      · have : tz (movemask fun j => s' (p + i + j)) = k - i := by
          apply tz_eq (by omega)
          · rw [getLsbD_movemask, show p + i + (k - i) = p + k by omega, H.hz]
            simp; omega
          · intro j hj
            rw [getLsbD_movemask]
            have := H.hnz (i + j) (by omega)
            rw [← Nat.add_assoc] at this
            simp [this]
        rw [this]
        refine OkS.mono (OkS.lift (uaddC_spec (by omega))) ?_
        rintro r s2 ⟨rfl, rfl⟩
        exact ⟨rfl, by omega⟩
      · intro h0
        have := getLsbD_movemask (fun j => s' (p + i + j)) (k - i)
        rw [h0, show p + i + (k - i) = p + k by omega, H.hz] at this
        simp at this
        omega
    · rw [if_pos]
      · refine OkS.bind (OkS.lift (uaddC_spec (by omega))) ?_
        rintro n s1 ⟨rfl, rfl⟩
        refine OkS.bind (OkS.lift (paddU_spec (by omega))) ?_
        rintro n s2 ⟨rfl, rfl⟩
        have := ih (i + 16) (by omega) (by omega) (by omega)
        rw [← Nat.add_assoc] at this
        exact this
      · apply BitVec.eq_of_getLsbD_eq
        intro j hj
        rw [getLsbD_movemask]
        by_cases h : j < 16
        · have := H.hnz (i + j) (by omega)
          rw [← Nat.add_assoc] at this
          simp [this]
        · simp [h]

theorem strlenSse_spec {s : Store} {p k : Nat} (H : StrPre E s p k) :
    OkS (strlenSse E p) s (fun r s' => s' = s ∧ r = k) := by
  have h1 := H.hp
  have h64 := space_eq H.h8
  unfold strlenSse
  refine OkS.bind (sseHead_spec H 4 0 (by omega)) ?_
  rintro h s' ⟨rfl, rfl | ⟨rfl, h4⟩⟩
  · exact OkS.pure' ⟨rfl, rfl⟩
  · dsimp only
    rw [Nat.zero_add] at h4 ⊢
    rw [show (p + 4) &&& 15 = (p + 4) % 16 from Nat.and_two_pow_sub_one_eq_mod _ 4]
    generalize ha : (p + 4) % 16 = al
    refine OkS.bind (OkS.lift (nsubC_spec (by omega))) ?_
    rintro q s1 ⟨rfl, rfl⟩
    refine OkS.bind (blockLoad_spec (i := al) (by omega) (by omega) ?_) ?_
    · rw [show p + 4 - al + al = p + 4 by omega]; exact H.rd 4 h4
    rintro f s2 ⟨rfl, rfl⟩
    have hshr : shrC (movemask fun i => s2 (p + 4 - al + i)) al = .ok ((movemask fun i => s2 (p + 4 - al + i)) >>> al) := by
      rw [shrC, if_pos (by omega)]
    rw [hshr]
    refine OkS.bind (OkS.lift (P := fun r => r = (movemask fun i => s2 (p + 4 - al + i)) >>> al) (Ok.pure rfl)) ?_
    rintro x s3 ⟨rfl, rfl⟩
    have hbit : ∀ j, ((movemask fun i => s3 (p + 4 - al + i)) >>> al).getLsbD j =
        (decide (al + j < 16) && decide (s3 (p + (4 + j)) = 0#8)) := by
      intro j
      rw [BitVec.getLsbD_ushiftRight, getLsbD_movemask, show p + 4 - al + (al + j) = p + (4 + j) by omega]
    generalize (movemask fun i => s3 (p + 4 - al + i)) >>> al = x at hbit ⊢
    by_cases hk : k < 4 + (16 - al)
    · rw [if_pos]
      · have : tz x = k - 4 := by
          apply tz_eq (by omega)
          · rw [hbit, show p + (4 + (k - 4)) = p + k by omega, H.hz]
            simp; omega
          · intro j hj
            rw [hbit]
            have := H.hnz (4 + j) (by omega)
            simp [this]
        rw [this]
        refine OkS.mono (OkS.lift (uaddC_spec (by omega))) ?_
        rintro r s2 ⟨rfl, rfl⟩
        exact ⟨rfl, by omega⟩
      · intro h0
        have := hbit (k - 4)
        rw [h0, show p + (4 + (k - 4)) = p + k by omega, H.hz] at this
        simp at this
        omega
    · rw [if_neg]
      · refine OkS.bind (OkS.lift (nsubC_spec (by omega))) ?_
        rintro t s1 ⟨rfl, rfl⟩
        refine OkS.bind (OkS.lift (uaddC_spec (by omega))) ?_
        rintro n s1 ⟨rfl, rfl⟩
        refine OkS.bind (OkS.lift (paddU_spec (by omega))) ?_
        rintro n s2 ⟨rfl, rfl⟩
        have := sseLoop_spec H E.space (4 + (16 - al)) (by omega) (by omega) (by omega)
        rw [show p + (4 + (16 - al)) = p + 4 - al + 16 by omega] at this
        exact this
      · rw [Decidable.not_not]
        apply BitVec.eq_of_getLsbD_eq
        intro j hj
        rw [hbit]
        by_cases h : al + j < 16
        · have := H.hnz (4 + j) (by omega)
          simp [this]
        · simp [h]

/-! ### SWAR -/

theorem byte_of_word (f : Nat → Byte) (k : Nat) (hk : k < 8) :
    (wordOf false 8 f).toNat / 2 ^ (8 * k) % 256 = (f k).toNat := by
  have := congrArg BitVec.toNat (byteOf_wordOf (be := false) (sz := 8) (f := f) hk)
  rwa [byteOf, BitVec.extractLsb'_toNat, Nat.shiftRight_eq_div_pow] at this

theorem testBit_byte (x i : Nat) : x.testBit (8 * i + 7) = decide (128 ≤ x / 2 ^ (8 * i) % 256) := by
  rw [show 8 * i + 7 = 7 + 8 * i by omega, ← Nat.testBit_div_two_pow]
  generalize x / 2 ^ (8 * i) = y
  rw [Nat.testBit_eq_decide_div_mod_eq]
  by_cases h : 128 ≤ y % 256
  · rw [decide_eq_true h, decide_eq_true_eq]
    omega
  · rw [decide_eq_false h, decide_eq_false_iff_not]
    omega

theorem leNat_mod (f : Nat → Byte) (m n : Nat) (h : m ≤ n) : leNat f n % 2 ^ (8 * m) = leNat f m := by
  induction n with
  | zero =>
    have : m = 0 := by omega
    subst this; rfl
  | succ n ih =>
    by_cases e : m = n + 1
    · subst e; exact Nat.mod_eq_of_lt (leNat_lt _ _)
    · simp only [leNat]
      rw [show 8 * n = 8 * m + (8 * n - 8 * m) by omega, Nat.pow_add, Nat.mul_assoc, Nat.mul_add_mod]
      exact ih (by omega)

theorem leNat_mono {f g : Nat → Byte} {n : Nat} (h : ∀ i, i < n → (f i).toNat ≤ (g i).toNat) : leNat f n ≤ leNat g n := by
  induction n with
  | zero => exact Nat.le_refl _
  | succ n ih =>
    simp only [leNat]
    exact Nat.add_le_add (Nat.mul_le_mul_left _ (h n (by omega))) (ih fun i hi => h i (by omega))

theorem hasZero_spec (f : Nat → Byte) : hasZero (wordOf false 8 f) = true ↔ ∃ k, k < 8 ∧ f k = 0#8 := by
  have hb := byte_of_word f
  have hx : (wordOf false 8 f).toNat < 2 ^ 64 := (wordOf false 8 f).isLt
  have hd : (wordOf false 8 f - 0x0101010101010101#64).toNat =
      ((wordOf false 8 f).toNat + (2 ^ 64 - 0x0101010101010101)) % 2 ^ 64 := by
    rw [BitVec.toNat_sub, Nat.add_comm]; rfl
  have hm : ∀ j, j < 64 → (0x8080808080808080#64).getLsbD j = decide (j % 8 = 7) := by decide
  have hbits : ∀ i, i < 8 →
      ((wordOf false 8 f - 0x0101010101010101#64) &&& ~~~(wordOf false 8 f) &&& 0x8080808080808080#64).getLsbD (8 * i + 7)
      = (decide (128 ≤ (wordOf false 8 f - 0x0101010101010101#64).toNat / 2 ^ (8 * i) % 256) && decide (¬ 128 ≤ (f i).toNat)) := by
    intro i hi
    rw [BitVec.getLsbD_and, BitVec.getLsbD_and, BitVec.getLsbD_not, hm _ (by omega), BitVec.getLsbD, testBit_byte,
      BitVec.getLsbD, testBit_byte, hb i hi]
    have : 8 * i + 7 < 64 := by omega
    have h7 : (8 * i + 7) % 8 = 7 := by omega
    simp only [this, h7, decide_true, Bool.true_and, Bool.and_true, decide_not]
  have hfz : ∀ i, f i = 0#8 ↔ (f i).toNat = 0 := fun i => ⟨fun h => by rw [h]; rfl, fun h => BitVec.eq_of_toNat_eq h⟩
  generalize hdd : (wordOf false 8 f - 0x0101010101010101#64) = d at hd hbits
  have hnz : hasZero (wordOf false 8 f) = true ↔ ∃ i, i < 8 ∧ 128 ≤ d.toNat / 2 ^ (8 * i) % 256 ∧ ¬ 128 ≤ (f i).toNat := by
    unfold hasZero
    rw [hdd, decide_eq_true_eq]
    constructor
    · intro h
      by_cases hex : ∃ i, i < 8 ∧ 128 ≤ d.toNat / 2 ^ (8 * i) % 256 ∧ ¬ 128 ≤ (f i).toNat
      · exact hex
      · exfalso
        apply h
        apply BitVec.eq_of_getLsbD_eq
        intro j hj
        by_cases h7 : j % 8 = 7
        · rw [show j = 8 * (j / 8) + 7 by omega, hbits _ (by omega)]
          have : ¬ (128 ≤ d.toNat / 2 ^ (8 * (j / 8)) % 256 ∧ ¬ 128 ≤ (f (j / 8)).toNat) :=
            fun hh => hex ⟨j / 8, by omega, hh⟩
          simp only [BitVec.getLsbD_zero, ← Bool.decide_and]
          exact decide_eq_false this
        · rw [BitVec.getLsbD_and, hm j hj, decide_eq_false h7]; simp
    · rintro ⟨i, hi, h1, h2⟩ h0
      have := hbits i hi
      rw [h0, decide_eq_true h1, decide_eq_true h2] at this
      simp at this
  rw [hnz]
  have hX : (wordOf false 8 f).toNat = leNat f 8 := by
    rw [wordOf, BitVec.toNat_ofNat]
    exact Nat.mod_eq_of_lt (leNat_lt f 8)
  have hc : ∀ i, (f i).toNat < 256 := fun i => (f i).isLt
  constructor
  · rintro ⟨i, hi, h1, h2⟩
    by_cases hall : ∃ k, k < 8 ∧ f k = 0#8
    · exact hall
    · exfalso
      have hne : ∀ k, k < 8 → 0 < (f k).toNat := by
        intro k hk
        have : ¬ f k = 0#8 := fun h => hall ⟨k, hk, h⟩
        rw [hfz] at this; omega
      have hg : ∀ k, k < 8 → (f k - 1#8).toNat = (f k).toNat - 1 := by
        intro k hk
        have := hne k hk
        have := hc k
        rw [BitVec.toNat_sub]
        show (2 ^ 8 - 1 + _) % _ = _
        omega
      have e : d.toNat = (wordOf false 8 (fun k => f k - 1#8)).toNat := by
        have hl : leNat (fun k => f k - 1#8) 8 + 0x0101010101010101 = leNat f 8 := by
          simp only [leNat, hg 0 (by omega), hg 1 (by omega), hg 2 (by omega), hg 3 (by omega), hg 4 (by omega),
            hg 5 (by omega), hg 6 (by omega), hg 7 (by omega)]
          have := hne 0 (by omega)
          have := hne 1 (by omega)
          have := hne 2 (by omega)
          have := hne 3 (by omega)
          have := hne 4 (by omega)
          have := hne 5 (by omega)
          have := hne 6 (by omega)
          have := hne 7 (by omega)
          omega
        have hY : (wordOf false 8 (fun k => f k - 1#8)).toNat = leNat (fun k => f k - 1#8) 8 := by
          rw [wordOf, BitVec.toNat_ofNat]
          exact Nat.mod_eq_of_lt (leNat_lt _ 8)
        rw [hX] at hx
        rw [hd, hX, hY]
        omega
      rw [e, byte_of_word _ i hi, hg i hi] at h1
      omega
  · rintro ⟨k, hk, hfk⟩
    -- the lowest zero byte
    obtain ⟨m, hm8, hm0, hmin⟩ : ∃ m, m < 8 ∧ f m = 0#8 ∧ ∀ j, j < m → f j ≠ 0#8 := by
      induction k using Nat.strongRecOn with
      | ind k ih =>
        by_cases h : ∃ j, j < k ∧ f j = 0#8
        · obtain ⟨j, hj, hfj⟩ := h
          exact ih j hj (by omega) hfj
        · exact ⟨k, hk, hfk, fun j hj hh => h ⟨j, hj, hh⟩⟩
    refine ⟨m, hm8, ?_, by rw [(hfz m).1 hm0]; omega⟩
    have hmin' : ∀ j, j < m → 0 < (f j).toNat := by
      intro j hj
      have := hmin j hj
      rw [Ne, hfz] at this; omega
    have hz := (hfz m).1 hm0
    rw [hd, hX]
    have key : ∀ (M o lo hi : Nat), M * 256 * hi + lo < 2 ^ 64 → lo < M → o ≤ lo → M * 256 ∣ 2 ^ 64 → 
        0x0101010101010101 % (M * 256) = M + o → 0 < M →
        255 = (M * 256 * hi + lo + (2 ^ 64 - 0x0101010101010101)) % 2 ^ 64 / M % 256 := by
      intro M o lo hi h1 h2 h3 h4 h5 h6
      rw [← Nat.mod_mul_right_div_self, Nat.mod_mod_of_dvd _ h4]
      obtain ⟨q, hq⟩ : ∃ q, 0x0101010101010101 = M * 256 * q + (M + o) :=
        ⟨_, by rw [← h5]; exact (Nat.div_add_mod _ _).symm⟩
      obtain ⟨r, hr⟩ := h4
      have hq' : q < r := by
        rcases Nat.lt_or_ge q r with h | h
        · exact h
        · have := Nat.mul_le_mul_left (M * 256) h
          rw [← hr] at this; omega
      have e : M * 256 * hi + lo + (2 ^ 64 - 0x0101010101010101) = (lo - o + M * 255) + M * 256 * (hi + (r - q - 1)) := by
        have e1 : M * 256 * (hi + (r - q - 1)) = M * 256 * hi + (M * 256 * r - M * 256 * q - M * 256) := by
          rw [Nat.mul_add, Nat.mul_sub, Nat.mul_sub, Nat.mul_one]
        have e2 : M * 256 * (q + 1) ≤ M * 256 * r := Nat.mul_le_mul_left _ hq'
        rw [Nat.mul_add, Nat.mul_one] at e2
        rw [e1]; omega
      rw [e, Nat.add_mul_mod_self_left, Nat.mod_eq_of_lt (by omega)]
      symm
      rw [Nat.div_eq_iff (by omega)]
      omega
    have hlo : leNat f 8 % (2 ^ (8 * m) * 256) = leNat f m := by
      have := leNat_mod f (m + 1) 8 (by omega)
      rw [Nat.mul_succ, Nat.pow_add] at this
      rw [show (256 : Nat) = 2 ^ 8 by decide, this]
      simp only [leNat]
      rw [hz, Nat.mul_zero, Nat.zero_add]
    have hdm := Nat.div_add_mod (leNat f 8) (2 ^ (8 * m) * 256)
    rw [hlo] at hdm
    have hC : ∀ m, m < 8 → 2 ^ (8 * m) * 256 ∣ 2 ^ 64 ∧
        0x0101010101010101 % (2 ^ (8 * m) * 256) = 2 ^ (8 * m) + leNat (fun _ => 1#8) m := by decide
    have h255 := key (2 ^ (8 * m)) (leNat (fun _ => 1#8) m) (leNat f m) (leNat f 8 / (2 ^ (8 * m) * 256))
      (by rw [hdm]; exact leNat_lt f 8) (leNat_lt f m) (leNat_mono fun i hi => hmin' i hi) (hC m hm8).1 (hC m hm8).2
      (Nat.two_pow_pos _)
    rw [hdm] at h255
    rw [← h255]; omega

theorem swarHead_spec {s : Store} {p k : Nat} (H : StrPre E s p k) :
    ∀ (fuel i : Nat), (8 - (p + i) % 8) % 8 < fuel → i ≤ k →
      OkS (swarHead E fuel (p + i) i) s (fun r s' => s' = s ∧
        (r = .inl k ∨ ∃ j, r = .inr (p + j, j) ∧ j ≤ k ∧ (p + j) % 8 = 0)) := by
  have h1 := H.hp
  have e7 : ∀ a, a &&& 7 = a % 8 := fun a => Nat.and_two_pow_sub_one_eq_mod a 3
  intro fuel
  induction fuel with
  | zero => intros; omega
  | succ fuel ih =>
    intro i hf hi
    unfold swarHead
    rw [e7]
    by_cases h8 : (p + i) % 8 ≠ 0
    · rw [if_pos h8]
      refine OkS.bind (readB_spec (H.rd i hi)) ?_
      rintro b s' ⟨rfl, rfl⟩
      by_cases h : s' (p + i) = 0#8
      · rw [if_pos h]
        have : i = k := by
          have := H.hnz i
          have h2 : ¬ i < k := fun hh => this hh h
          omega
        subst this
        exact OkS.pure' ⟨rfl, .inl rfl⟩
      · rw [if_neg h]
        have hik : i < k := by
          have : i ≠ k := by rintro rfl; exact h H.hz
          omega
        refine OkS.bind (OkS.lift (uaddC_spec (by omega))) ?_
        rintro n s1 ⟨rfl, rfl⟩
        refine OkS.bind (OkS.lift (paddU_spec (by omega))) ?_
        rintro n s2 ⟨rfl, rfl⟩
        exact ih (i + 1) (by omega) (by omega)
    · rw [if_neg h8]
      exact OkS.pure' ⟨rfl, .inr ⟨i, rfl, hi, by omega⟩⟩

theorem swarByte_spec (f : Nat → Byte) {k : Nat} (hk : k < 8) (hz : f k = 0#8) (hnz : ∀ j, j < k → f j ≠ 0#8) {n : Nat}
    (hn : n + k < E.space) :
    ∀ (fuel i : Nat) (cs : BitVec 64), k < fuel + i → i ≤ k → cs.toNat = (wordOf false 8 f).toNat / 2 ^ (8 * i) →
      Ok (swarByte E fuel cs (n + i)) (fun r => r = n + k) := by
  have hfz : ∀ i, f i = 0#8 ↔ (f i).toNat = 0 := fun i => ⟨fun h => by rw [h]; rfl, fun h => BitVec.eq_of_toNat_eq h⟩
  intro fuel
  induction fuel with
  | zero => intros; omega
  | succ fuel ih =>
    intro i cs hf hi hcs
    unfold swarByte
    have hb : (cs &&& 255#64).toNat = (f i).toNat := by
      rw [BitVec.toNat_and, ← byte_of_word f i (by omega), ← hcs]
      exact Nat.and_two_pow_sub_one_eq_mod _ 8
    have hiff : cs &&& 255#64 = 0#64 ↔ f i = 0#8 := by
      rw [hfz, ← hb]
      exact ⟨fun h => by rw [h]; rfl, fun h => BitVec.eq_of_toNat_eq h⟩
    by_cases h : i < k
    · rw [if_neg (fun hh => hnz i h (hiff.1 hh))]
      refine Ok.bind (shrC_spec (by omega)) ?_
      intro cs' hcs'
      refine Ok.bind (uaddC_spec (by omega)) ?_
      rintro n' rfl
      rw [Nat.add_assoc]
      refine ih (i + 1) cs' (by omega) (by omega) ?_
      rw [hcs', hcs, Nat.div_div_eq_div_mul, ← Nat.pow_add]; rfl
    · have : i = k := by omega
      subst this
      rw [if_pos (hiff.2 hz)]
      exact Ok.pure' rfl

theorem swarLoop_spec {s : Store} {p k : Nat} (H : StrPre E s p k) :
    ∀ (fuel i : Nat), k < fuel + i → i ≤ k → (p + i) % 8 = 0 →
      OkS (swarLoop E fuel (p + i) i) s (fun r s' => s' = s ∧ r = k) := by
  have h1 := H.hp
  have h64 := space_eq H.h8
  intro fuel
  induction fuel with
  | zero => intros; omega
  | succ fuel ih =>
    intro i hf hi hal
    unfold swarLoop
    refine OkS.bind (blockLoad_spec hal (i := 0) (by omega) (H.rd i hi)) ?_
    rintro f s' ⟨rfl, rfl⟩
    dsimp only
    have hnz : ∀ j, i + j < k → s' (p + i + j) ≠ 0#8 := by
      intro j hj
      have := H.hnz (i + j) hj
      rwa [← Nat.add_assoc] at this
    by_cases hk : k < i + 8
    · have hz : s' (p + i + (k - i)) = 0#8 := by
        rw [show p + i + (k - i) = p + k by omega]; exact H.hz
      rw [if_pos ((hasZero_spec _).2 ⟨k - i, by omega, hz⟩)]
      refine OkS.mono (OkS.lift (swarByte_spec (E := E) (n := i) (k := k - i) (fun j => s' (p + i + j)) (by omega) hz
        (fun j hj => hnz j (by omega)) (by omega) 9 0 _ (by omega) (by omega) (by simp))) ?_
      rintro r s2 ⟨rfl, rfl⟩
      exact ⟨rfl, by omega⟩
    · rw [if_neg]
      · refine OkS.bind (OkS.lift (uaddC_spec (by omega))) ?_
        rintro n s1 ⟨rfl, rfl⟩
        refine OkS.bind (OkS.lift (paddU_spec (by omega))) ?_
        rintro n s2 ⟨rfl, rfl⟩
        have := ih (i + 8) (by omega) (by omega) (by omega)
        rw [← Nat.add_assoc] at this
        exact this
      · intro h
        obtain ⟨j, hj, hz⟩ := (hasZero_spec _).1 h
        exact hnz j (by omega) hz

theorem strlenSwar_spec {s : Store} {p k : Nat} (H : StrPre E s p k) :
    OkS (strlenSwar E p) s (fun r s' => s' = s ∧ r = k) := by
  have h1 := H.hp
  unfold strlenSwar
  refine OkS.bind (swarHead_spec H 9 0 (by omega) (by omega)) ?_
  rintro h s' ⟨rfl, rfl | ⟨j, rfl, hj, hal⟩⟩
  · exact OkS.pure' ⟨rfl, rfl⟩
  · exact swarLoop_spec H E.space j (by omega) hj hal

theorem strlen_spec {s : Store} {p k : Nat} (H : StrPre E s p k) (sse2 : Bool) :
    OkS (strlen E sse2 p) s (fun r s' => s' = s ∧ r = k) := by
  cases sse2
  · exact strlenSwar_spec H
  · exact strlenSse_spec H

end Verif.Mem.X86
