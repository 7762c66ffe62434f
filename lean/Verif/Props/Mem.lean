import Verif.Mem.BackwardProofs
import Verif.Mem.SetProofs
import Verif.Mem.X86StrlenProofs
/-!
# Properties C15 - C22: memory routines

In every statement `E.canR`/`E.canW` are arbitrary permission predicates of which only the listed addresses
are known to be allowed. A run that made any other access, or a misaligned access through a word pointer,
would be the fault `ub`, so `= .ok _` also says that all accesses are in bounds and aligned.

Regions satisfy `base + n < 2^W`: a Rust allocation never contains the last byte of the address space.
-/
namespace Verif.Props
open Verif.Mem

/-- `n` bytes at `a` are inside the address space and may be read. -/
def Readable (E : Env) (a n : Nat) : Prop := a + n < 2 ^ (8 * E.ws) ∧ ∀ i, i < n → E.canR (a + i) = true
/-- `n` bytes at `a` are inside the address space and may be written. -/
def Writable (E : Env) (a n : Nat) : Prop := a + n < 2 ^ (8 * E.ws) ∧ ∀ i, i < n → E.canW (a + i) = true
/-- 16, 32 and 64 bit targets. -/
def Target (E : Env) : Prop := E.ws = 2 ∨ E.ws = 4 ∨ E.ws = 8

/-- The byte-wise meaning of a copy: memory with the old bytes `src..src+n` placed at `dest..dest+n`. -/
def copySpec (s : Nat → BitVec 8) (dest src n : Nat) : Nat → BitVec 8 :=
  fun a => if dest ≤ a ∧ a < dest + n then s (src + (a - dest)) else s a

/-- The byte-wise meaning of a fill. -/
def fillSpec (s : Nat → BitVec 8) (dest : Nat) (c : BitVec 8) (n : Nat) : Nat → BitVec 8 :=
  fun a => if dest ≤ a ∧ a < dest + n then c else s a

theorem copy_pre {E : Env} {dest src n : Nat} (hE : Target E) (hr : Readable E src n) (hw : Writable E dest n) :
    CopyPre E dest src n := ⟨hE, hw.1, hr.1, hr.2, hw.2⟩

theorem copied_eq {s s' : Store} {d r n : Nat} (h : Copied s s' d r 0 n) : s' = copySpec s d r n := by
  funext a; rw [h a, Nat.add_zero]; rfl

theorem filled_eq {s s' : Store} {d n : Nat} {c : Byte} (h : Filled s s' c d n) : s' = fillSpec s d c n := by
  funext a; exact h a

theorem run_of_okS {α} {m : MM α} {s s' : Store} {a : α} (h : OkS m s (fun r t => r = a ∧ t = s')) : m s = .ok (a, s') := by
  obtain ⟨b, t, e, rfl, rfl⟩ := h; exact e

/-! ## C15 -/

/-- `memcpy` of non-overlapping regions: for every word size, endianness, alignment and length, with and
without the `mem_unaligned` configuration (`un`). -/
theorem C15_memcpy (E : Env) (hE : Target E) (un : Bool) (dest src n : Nat) (s : Nat → BitVec 8)
    (hr : Readable E src n) (hw : Writable E dest n) (hd : dest + n ≤ src ∨ src + n ≤ dest) :
    memcpy E un dest src n s = .ok (dest, copySpec s dest src n) := by
  refine run_of_okS (OkS.mono (memcpy_spec (copy_pre hE hr hw) hd un s) ?_)
  rintro r s' ⟨rfl, h⟩
  exact ⟨rfl, copied_eq h⟩

/-- An environment that allows reading `[100, 140)` and writing `[203, 243)`. -/
def exEnv (ws : Nat) (be : Bool) : Env := ⟨ws, be, fun a => 100 ≤ a && a < 140, fun a => 203 ≤ a && a < 243⟩

example : Target (exEnv 4 true) ∧ Readable (exEnv 4 true) 101 37 ∧ Writable (exEnv 4 true) 203 37 ∧ 101 + 37 ≤ 203 := by
  refine ⟨.inr (.inl rfl), ⟨by decide, ?_⟩, ⟨by decide, ?_⟩, by decide⟩ <;>
    (intro i hi; simp [exEnv]; omega)

/-- A big-endian 16-bit copy whose source and destination have different alignment. -/
example : ((memcpy (exEnv 2 true) false 203 100 19 (fun a => BitVec.ofNat 8 a)).map
    (fun r => (List.range 21).map (fun i => (r.2 (202 + i)).toNat))) =
    .ok [202, 100, 101, 102, 103, 104, 105, 106, 107, 108, 109, 110, 111, 112, 113, 114, 115, 116, 117, 118, 222] := by
  decide +kernel

/-! ## C16 -/

/-- `memmove` under any overlap. -/
theorem C16_memmove (E : Env) (hE : Target E) (un : Bool) (dest src n : Nat) (s : Nat → BitVec 8)
    (hr : Readable E src n) (hw : Writable E dest n) :
    memmove E un dest src n s = .ok (dest, copySpec s dest src n) := by
  refine run_of_okS (OkS.mono (memmove_spec (copy_pre hE hr hw) un s) ?_)
  rintro r s' ⟨rfl, h⟩
  exact ⟨rfl, copied_eq h⟩

/-- Everything in `[100, 160)` may be read and written. -/
def exEnv2 (ws : Nat) (be : Bool) : Env := ⟨ws, be, fun a => 100 ≤ a && a < 160, fun a => 100 ≤ a && a < 160⟩

example : Target (exEnv2 8 false) ∧ Readable (exEnv2 8 false) 101 37 ∧ Writable (exEnv2 8 false) 104 37 := by
  refine ⟨.inr (.inr rfl), ⟨by decide, ?_⟩, ⟨by decide, ?_⟩⟩ <;> (intro i hi; simp [exEnv2]; omega)

/-- Overlapping by all but three bytes, upwards: the backward copy. -/
example : ((memmove (exEnv2 4 false) false 104 101 18 (fun a => BitVec.ofNat 8 a)).map
    (fun r => (List.range 20).map (fun i => (r.2 (103 + i)).toNat))) =
    .ok [103, 101, 102, 103, 104, 105, 106, 107, 108, 109, 110, 111, 112, 113, 114, 115, 116, 117, 118, 122] := by
  decide +kernel

/-! ## C17 -/

/-- `memset` stores the low byte of `c`. -/
theorem C17_memset (E : Env) (hE : Target E) (dest : Nat) (c : BitVec 32) (n : Nat) (s : Nat → BitVec 8)
    (hw : Writable E dest n) :
    memset E dest c n s = .ok (dest, fillSpec s dest (BitVec.ofNat 8 c.toNat) n) := by
  refine run_of_okS (OkS.mono (memset_spec ⟨hE, hw.1, hw.2⟩ c s) ?_)
  rintro r s' ⟨rfl, h⟩
  exact ⟨rfl, filled_eq h⟩

example : Target (exEnv 4 true) ∧ Writable (exEnv 4 true) 205 33 := by
  refine ⟨.inr (.inl rfl), ⟨by decide, ?_⟩⟩; intro i hi; simp [exEnv]; omega

example : ((memset (exEnv2 4 true) 103 0x1234567#32 17 (fun _ => 1#8)).map
    (fun r => (List.range 19).map (fun i => (r.2 (102 + i)).toNat))) =
    .ok ([1] ++ List.replicate 17 0x67 ++ [1]) := by decide +kernel

/-! ## C18 -/

theorem cmp_result_spec {s : Store} {a b n : Nat} {r : Int} (h : CmpResult s a b n r) :
    (r = 0 ↔ ∀ j, j < n → s (a + j) = s (b + j)) ∧
      (r < 0 ↔ ∃ i, i < n ∧ (∀ j, j < i → s (a + j) = s (b + j)) ∧ (s (a + i)).toNat < (s (b + i)).toNat) ∧
      (0 < r ↔ ∃ i, i < n ∧ (∀ j, j < i → s (a + j) = s (b + j)) ∧ (s (b + i)).toNat < (s (a + i)).toNat) ∧
      -(2 ^ 31) ≤ r ∧ r < 2 ^ 31 := by
  rcases h with ⟨i, hi, he, hn, rfl⟩ | ⟨he, rfl⟩
  · have hn' : (s (a + i)).toNat ≠ (s (b + i)).toNat := fun h => hn (BitVec.eq_of_toNat_eq h)
    have b1 := (s (a + i)).isLt
    have b2 := (s (b + i)).isLt
    have uniq : ∀ j, (∀ t, t < j → s (a + t) = s (b + t)) → s (a + j) ≠ s (b + j) → j = i := by
      intro j hj hne
      rcases Nat.lt_trichotomy j i with h | h | h
      · exact absurd (he j h) hne
      · exact h
      · exact absurd (hj i h) hn
    refine ⟨⟨fun h => by omega, fun h => absurd (h i hi) hn⟩, ⟨fun h => ⟨i, hi, he, by omega⟩, ?_⟩,
      ⟨fun h => ⟨i, hi, he, by omega⟩, ?_⟩, by omega, by omega⟩
    · rintro ⟨j, hj, hje, hlt⟩
      have := uniq j hje (fun h => by rw [h] at hlt; omega)
      subst this; omega
    · rintro ⟨j, hj, hje, hlt⟩
      have := uniq j hje (fun h => by rw [h] at hlt; omega)
      subst this; omega
  · refine ⟨⟨fun _ => he, fun _ => rfl⟩, ⟨fun h => by omega, ?_⟩, ⟨fun h => by omega, ?_⟩, by omega, by omega⟩
    · rintro ⟨j, hj, hje, hlt⟩
      rw [he j hj] at hlt; omega
    · rintro ⟨j, hj, hje, hlt⟩
      rw [he j hj] at hlt; omega

/-- `memcmp`: zero exactly for equal regions; otherwise the sign of the result is the order of the first
differing unsigned bytes. Memory is not changed. -/
theorem C18_memcmp (E : Env) (a b n : Nat) (s : Nat → BitVec 8) (ha : Readable E a n) (hb : Readable E b n) :
    ∃ r : Int, memcmp E a b n s = .ok (r, s) ∧
      (r = 0 ↔ ∀ j, j < n → s (a + j) = s (b + j)) ∧
      (r < 0 ↔ ∃ i, i < n ∧ (∀ j, j < i → s (a + j) = s (b + j)) ∧ (s (a + i)).toNat < (s (b + i)).toNat) ∧
      (0 < r ↔ ∃ i, i < n ∧ (∀ j, j < i → s (a + j) = s (b + j)) ∧ (s (b + i)).toNat < (s (a + i)).toNat) ∧
      -(2 ^ 31) ≤ r ∧ r < 2 ^ 31 := by
  obtain ⟨r, s', e, rfl, h⟩ := memcmp_spec ha.1 hb.1 ha.2 hb.2 s
  refine ⟨r, e, cmp_result_spec h⟩

/-- With a first difference at `d`, nothing beyond it is read by either `memcmp` or `bcmp`. -/
theorem C18_memcmp_reads (E : Env) (a b n d : Nat) (s : Nat → BitVec 8) (hd : d < n) (ha : Readable E a (d + 1))
    (hb : Readable E b (d + 1)) (heq : ∀ j, j < d → s (a + j) = s (b + j)) (hne : s (a + d) ≠ s (b + d)) :
    memcmp E a b n s = .ok (((s (a + d)).toNat : Int) - ((s (b + d)).toNat : Int), s) := by
  have h1 : a + (d + 1) < E.space := ha.1
  have h2 : b + (d + 1) < E.space := hb.1
  refine run_of_okS (OkS.mono (cmpLoop_first hd (by omega) (by omega) (fun i hi => ha.2 i (by omega))
    (fun i hi => hb.2 i (by omega)) s heq hne (n + 1) 0 (by omega) (by omega)) ?_)
  rintro r s' ⟨rfl, h⟩
  exact ⟨h, rfl⟩

/-- `bcmp` is zero exactly for equal regions. -/
theorem C18_bcmp (E : Env) (a b n : Nat) (s : Nat → BitVec 8) (ha : Readable E a n) (hb : Readable E b n) :
    ∃ r : Int, bcmp E a b n s = .ok (r, s) ∧ (r = 0 ↔ ∀ j, j < n → s (a + j) = s (b + j)) := by
  obtain ⟨r, h, h', _⟩ := C18_memcmp E a b n s ha hb
  exact ⟨r, h, h'⟩

example : Readable (exEnv2 8 false) 103 17 ∧ Readable (exEnv2 8 false) 130 17 := by
  refine ⟨⟨by decide, ?_⟩, ⟨by decide, ?_⟩⟩ <;> (intro i hi; simp [exEnv2]; omega)

/-! ## C19 -/

/-- `strlen` returns the index of the first zero byte, for every string whose bytes up to and including the
terminator may be read - and reads nothing else. -/
theorem C19_strlen (E : Env) (p k : Nat) (s : Nat → BitVec 8) (hr : Readable E p (k + 1)) (hz : s (p + k) = 0#8)
    (hnz : ∀ i, i < k → s (p + i) ≠ 0#8) : strlen E p s = .ok (k, s) := by
  have h1 : p + (k + 1) < E.space := hr.1
  refine run_of_okS (OkS.mono (strlen_spec (by omega) (fun i hi => hr.2 i (by omega)) s hz hnz) ?_)
  rintro r s' ⟨rfl, h⟩
  exact ⟨h, rfl⟩

example : ∃ s : Nat → BitVec 8, Readable (exEnv2 8 false) 103 18 ∧ s (103 + 17) = 0#8 ∧ ∀ i, i < 17 → s (103 + i) ≠ 0#8 := by
  refine ⟨fun a => if a = 120 then 0#8 else 7#8, ⟨by decide, ?_⟩, by decide, by decide⟩
  intro i hi; simp [exEnv2]; omega

/-! ## C20: the x86_64 versions -/

theorem C20_x86_memcpy (E : Env) (hE : E.ws = 8) (ermsb : Bool) (dest src n : Nat) (s : Nat → BitVec 8)
    (hr : Readable E src n) (hw : Writable E dest n) (hd : dest + n ≤ src ∨ src + n ≤ dest) :
    X86.memcpy E ermsb dest src n s = .ok (dest, copySpec s dest src n) := by
  refine run_of_okS (OkS.mono (X86.memcpy_spec (copy_pre (.inr (.inr hE)) hr hw) hd ermsb s) ?_)
  rintro r s' ⟨rfl, h⟩
  exact ⟨rfl, copied_eq h⟩

theorem C20_x86_memmove (E : Env) (hE : E.ws = 8) (ermsb : Bool) (dest src n : Nat) (s : Nat → BitVec 8)
    (hr : Readable E src n) (hw : Writable E dest n) :
    X86.memmove E ermsb dest src n s = .ok (dest, copySpec s dest src n) := by
  refine run_of_okS (OkS.mono (X86.memmove_spec hE (copy_pre (.inr (.inr hE)) hr hw) ermsb s) ?_)
  rintro r s' ⟨rfl, h⟩
  exact ⟨rfl, copied_eq h⟩

theorem C20_x86_memset (E : Env) (hE : E.ws = 8) (ermsb : Bool) (dest : Nat) (c : BitVec 32) (n : Nat)
    (s : Nat → BitVec 8) (hw : Writable E dest n) :
    X86.memset E ermsb dest c n s = .ok (dest, fillSpec s dest (BitVec.ofNat 8 c.toNat) n) := by
  refine run_of_okS (OkS.mono (X86.memset_spec ⟨.inr (.inr hE), hw.1, hw.2⟩ ermsb c s) ?_)
  rintro r s' ⟨rfl, h⟩
  exact ⟨rfl, filled_eq h⟩

/-- Overlap by all but three bytes while moving quadwords backward. -/
example : ((X86.memmove (exEnv2 8 false) false 104 101 21 (fun a => BitVec.ofNat 8 a)).map
    (fun r => (List.range 23).map (fun i => (r.2 (103 + i)).toNat))) =
    .ok ([103] ++ (List.range 21).map (101 + ·) ++ [125]) := by
  decide +kernel

/-! ## C21 -/

theorem C21_x86_memcmp (E : Env) (a b n : Nat) (s : Nat → BitVec 8) (ha : Readable E a n) (hb : Readable E b n) :
    ∃ r : Int, X86.memcmp E a b n s = .ok (r, s) ∧
      (r = 0 ↔ ∀ j, j < n → s (a + j) = s (b + j)) ∧
      (r < 0 ↔ ∃ i, i < n ∧ (∀ j, j < i → s (a + j) = s (b + j)) ∧ (s (a + i)).toNat < (s (b + i)).toNat) ∧
      (0 < r ↔ ∃ i, i < n ∧ (∀ j, j < i → s (a + j) = s (b + j)) ∧ (s (b + i)).toNat < (s (a + i)).toNat) ∧
      -(2 ^ 31) ≤ r ∧ r < 2 ^ 31 := by
  obtain ⟨r, s', e, rfl, h⟩ := X86.memcmp_spec ha.1 hb.1 ha.2 hb.2 s
  exact ⟨r, e, cmp_result_spec h⟩

example : Readable (exEnv2 8 false) 103 27 ∧ Readable (exEnv2 8 false) 130 27 := by
  refine ⟨⟨by decide, ?_⟩, ⟨by decide, ?_⟩⟩ <;> (intro i hi; simp [exEnv2]; omega)

/-! ## C22 -/

/-- Both x86_64 versions of `strlen`. Block loads fault unless they are aligned and at least one byte of
the block is known to be readable, which here are only the bytes of the string and its terminator. -/
theorem C22_x86_strlen (E : Env) (hE : E.ws = 8) (sse2 : Bool) (p k : Nat) (s : Nat → BitVec 8)
    (hr : Readable E p (k + 1)) (hz : s (p + k) = 0#8) (hnz : ∀ i, i < k → s (p + i) ≠ 0#8) :
    X86.strlen E sse2 p s = .ok (k, s) := by
  have h1 : p + (k + 1) < E.space := hr.1
  refine run_of_okS (OkS.mono (X86.strlen_spec ⟨hE, by omega, fun i hi => hr.2 i (by omega), hz, hnz⟩ sse2) ?_)
  rintro r s' ⟨rfl, h⟩
  exact ⟨h, rfl⟩

/-- The zero-byte test of the 8-byte version is exact. -/
theorem C22_zero_byte_test (x : BitVec 64) :
    X86.hasZero x = true ↔ ∃ k, k < 8 ∧ x.toNat / 256 ^ k % 256 = 0 := by
  have hx : x = wordOf false 8 (fun k => x.extractLsb' (8 * k) 8) := by
    apply BitVec.eq_of_getLsbD_eq
    intro j hj
    rw [getLsbD_wordOf hj, bytePos]
    simp only [Bool.false_eq_true, if_false]
    rw [BitVec.getLsbD_extractLsb', show 8 * (j / 8) + j % 8 = j by omega]
    have : j % 8 < 8 := by omega
    simp [this]
  have hb : ∀ k, x.extractLsb' (8 * k) 8 = 0#8 ↔ x.toNat / 256 ^ k % 256 = 0 := by
    intro k
    rw [← BitVec.toNat_inj, BitVec.extractLsb'_toNat, Nat.shiftRight_eq_div_pow, Nat.pow_mul]
    exact Iff.rfl
  have := X86.hasZero_spec (fun k => x.extractLsb' (8 * k) 8)
  rw [← hx] at this
  rw [this]
  simp only [hb]

example : X86.hasZero 0x1122330080556677#64 = true ∧ X86.hasZero 0x1122330180556677#64 = false := by decide

end Verif.Props
