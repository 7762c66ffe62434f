import Verif.Mem.Basic
/-!
# Model of the generic memory routines

`compiler-builtins/src/mem/impls.rs` and the entry points of `compiler-builtins/src/mem/mod.rs`.
`usize` values are natural numbers below `2^(8*ws)`. Loops take fuel; running out of fuel is a fault.
-/
namespace Verif.Mem

variable (E : Env)

/-- `WORD_COPY_THRESHOLD`, impls.rs 32-36. -/
def threshold : Nat := if 2 * E.ws > 16 then 2 * E.ws else 16

/-- `a & WORD_MASK`, for a power-of-two word size. -/
def wmask (a : Nat) : Nat := a &&& (E.ws - 1)

/-- `n & !WORD_MASK`, written as `n - (n & WORD_MASK)`. -/
def wround (n : Nat) : Nat := n - wmask E n

/-- `load_chunk_aligned::<T>`, impls.rs 49-64, with `size_of::<T>() = c`. The local variable that `dst`
points into is a function from byte offsets (relative to its own, `usize`-aligned, start) to bytes;
`dst` is the offset of the pointer. Returns the variable and the new offset. -/
def loadChunk (c src dst loadSz offset : Nat) (out : Store) : MM (Store × Nat) := fun s =>
  if loadSz &&& c ≠ 0 then
    if padd E src offset % c = 0 ∧ (dst + offset) % c = 0 ∧ dst + offset + c ≤ E.ws ∧
        allR E (padd E src offset) c then
      .ok ((put out (dst + offset) c (fun i => s (padd E src offset + i)), offset ||| c), s)
    else .error .ub
  else .ok ((out, offset), s)

/-- `load_aligned_partial`, impls.rs 71-85. -/
def loadPartial (src loadSz : Nat) : MM (BitVec (8 * E.ws)) := do
  assertC (decide (loadSz < E.ws))
  let (out, i) ← loadChunk E 4 src 0 loadSz 0 (fun _ => 0#8)
  let (out, i) ← loadChunk E 2 src 0 loadSz i out
  let (out, i) ← loadChunk E 1 src 0 loadSz i out
  assertC (decide (i = loadSz))
  pure (wordOf E.be E.ws out)

/-- `load_aligned_end_partial`, impls.rs 93-110. -/
def loadEndPartial (src loadSz : Nat) : MM (BitVec (8 * E.ws)) := do
  assertC (decide (loadSz < E.ws))
  let srcShifted := padd E src (E.ws - loadSz)
  let d := E.ws - loadSz
  let (out, i) ← loadChunk E 1 srcShifted d loadSz 0 (fun _ => 0#8)
  let (out, i) ← loadChunk E 2 srcShifted d loadSz i out
  let (out, i) ← loadChunk E 4 srcShifted d loadSz i out
  assertC (decide (i = loadSz))
  pure (wordOf E.be E.ws out)

/-! ### Forward copies -/

/-- Loop of `copy_forward_bytes`, impls.rs 117-121. -/
def cfBytesLoop : Nat → Nat → Nat → Nat → MM Unit
  | 0, _, _, _ => fault .fuel
  | fuel + 1, dest, src, destEnd =>
    if dest < destEnd then do
      let b ← readB E src
      writeB E dest b
      cfBytesLoop fuel (padd E dest 1) (padd E src 1) destEnd
    else pure ()

/-- `copy_forward_bytes`, impls.rs 115-122. -/
def cfBytes (dest src n : Nat) : MM Unit := cfBytesLoop E (n + 1) dest src (padd E dest n)

/-- Loop of `copy_forward_aligned_words`, impls.rs 130-134 (`al = true`), and of the `mem_unaligned`
version of `copy_forward_misaligned_words`, impls.rs 193-197 (`al = false`: `read_usize_unaligned`). -/
def cfWordsLoop (al : Bool) : Nat → Nat → Nat → Nat → MM Unit
  | 0, _, _, _ => fault .fuel
  | fuel + 1, dest, src, destEnd =>
    if dest < destEnd then do
      let w ← readWord E al E.ws src
      writeWord E true E.ws dest w
      cfWordsLoop al fuel (padd E dest E.ws) (padd E src E.ws) destEnd
    else pure ()

/-- `copy_forward_aligned_words`, impls.rs 125-135, and the `mem_unaligned` version of
`copy_forward_misaligned_words`, impls.rs 188-198. -/
def cfWords (al : Bool) (dest src n : Nat) : MM Unit := cfWordsLoop E al (n + 1) dest src (padd E dest n)

/-- Reassembly of a word from two aligned words, impls.rs 161-165 and 176-180. -/
def reasmF (prev cur : BitVec (8 * E.ws)) (shift : Nat) : M (BitVec (8 * E.ws)) := do
  let c ← nsubC (E.ws * 8) shift
  if !E.be then
    let a ← shrC prev shift
    let b ← shlC cur c
    pure (a ||| b)
  else
    let a ← shlC prev shift
    let b ← shrC cur c
    pure (a ||| b)

/-- Loop of `copy_forward_misaligned_words`, impls.rs 158-170. -/
def cfMisLoop (shift : Nat) : Nat → Nat → Nat → BitVec (8 * E.ws) → Nat →
    MM (Nat × Nat × BitVec (8 * E.ws))
  | 0, _, _, _, _ => fault .fuel
  | fuel + 1, dest, srcA, prev, destEnd =>
    if padd E dest E.ws < destEnd then do
      let srcA := padd E srcA E.ws
      let cur ← readWord E true E.ws srcA
      let r ← reasmF E prev cur shift
      writeWord E true E.ws dest r
      cfMisLoop shift fuel (padd E dest E.ws) srcA cur destEnd
    else pure (dest, srcA, prev)

/-- `copy_forward_misaligned_words` without `mem_unaligned`, impls.rs 141-183. -/
def cfMis (dest src n : Nat) : MM Unit := do
  assertC (decide (n > 0 ∧ n % E.ws = 0))
  assertC (decide (src % E.ws ≠ 0))
  let destEnd := padd E dest n
  let offset := wmask E src
  let shift := offset * 8
  let srcA := psub E src offset
  let prev ← loadEndPartial E srcA (E.ws - offset)
  let (dest, srcA, prev) ← cfMisLoop E shift (n + 1) dest srcA prev destEnd
  let srcA := padd E srcA E.ws
  let cur ← loadPartial E srcA offset
  let r ← reasmF E prev cur shift
  writeWord E true E.ws dest r

/-- `copy_forward`, impls.rs 113-224; `un` is `cfg(mem_unaligned)`. -/
def copyForward (un : Bool) (dest src n : Nat) : MM Unit := do
  let (dest, src, n) ← (if n ≥ threshold E then do
      let mis := wmask E (pneg E dest)
      cfBytes E dest src mis
      let dest := padd E dest mis
      let src := padd E src mis
      let n ← nsubC n mis
      let nWords := wround E n
      (if wmask E src = 0 then cfWords E true dest src nWords
       else if un then cfWords E false dest src nWords
       else cfMis E dest src nWords)
      let n' ← nsubC n nWords
      pure (padd E dest nWords, padd E src nWords, n')
    else pure (dest, src, n))
  cfBytes E dest src n

/-! ### Backward copies (pointers past the end) -/

/-- Loop of `copy_backward_bytes`, impls.rs 233-237. -/
def cbBytesLoop : Nat → Nat → Nat → Nat → MM Unit
  | 0, _, _, _ => fault .fuel
  | fuel + 1, dest, src, destStart =>
    if destStart < dest then do
      let dest := psub E dest 1
      let src := psub E src 1
      let b ← readB E src
      writeB E dest b
      cbBytesLoop fuel dest src destStart
    else pure ()

/-- `copy_backward_bytes`, impls.rs 231-238. -/
def cbBytes (dest src n : Nat) : MM Unit := cbBytesLoop E (n + 1) dest src (psub E dest n)

/-- Loop of `copy_backward_aligned_words`, impls.rs 246-250, and of the `mem_unaligned` version of
`copy_backward_misaligned_words`, impls.rs 312-316. -/
def cbWordsLoop (al : Bool) : Nat → Nat → Nat → Nat → MM Unit
  | 0, _, _, _ => fault .fuel
  | fuel + 1, dest, src, destStart =>
    if destStart < dest then do
      let dest := psub E dest E.ws
      let src := psub E src E.ws
      let w ← readWord E al E.ws src
      writeWord E true E.ws dest w
      cbWordsLoop al fuel dest src destStart
    else pure ()

/-- `copy_backward_aligned_words`, impls.rs 241-251, and the `mem_unaligned` version of
`copy_backward_misaligned_words`, impls.rs 307-317. -/
def cbWords (al : Bool) (dest src n : Nat) : MM Unit := cbWordsLoop E al (n + 1) dest src (psub E dest n)

/-- Reassembly in the backward direction, impls.rs 276-280 and 293-297. -/
def reasmB (prev cur : BitVec (8 * E.ws)) (shift : Nat) : M (BitVec (8 * E.ws)) := do
  let c ← nsubC (E.ws * 8) shift
  if !E.be then
    let a ← shlC prev c
    let b ← shrC cur shift
    pure (a ||| b)
  else
    let a ← shrC prev c
    let b ← shlC cur shift
    pure (a ||| b)

/-- Loop of `copy_backward_misaligned_words`, impls.rs 273-285. -/
def cbMisLoop (shift : Nat) : Nat → Nat → Nat → BitVec (8 * E.ws) → Nat →
    MM (Nat × Nat × BitVec (8 * E.ws))
  | 0, _, _, _, _ => fault .fuel
  | fuel + 1, dest, srcA, prev, destStart =>
    if padd E destStart E.ws < dest then do
      let srcA := psub E srcA E.ws
      let cur ← readWord E true E.ws srcA
      let r ← reasmB E prev cur shift
      let dest := psub E dest E.ws
      writeWord E true E.ws dest r
      cbMisLoop shift fuel dest srcA cur destStart
    else pure (dest, srcA, prev)

/-- `copy_backward_misaligned_words` without `mem_unaligned`, impls.rs 257-301. -/
def cbMis (dest src n : Nat) : MM Unit := do
  assertC (decide (n > 0 ∧ n % E.ws = 0))
  assertC (decide (src % E.ws ≠ 0))
  let destStart := psub E dest n
  let offset := wmask E src
  let shift := offset * 8
  let srcA := psub E src offset
  let prev ← loadPartial E srcA offset
  let (dest, srcA, prev) ← cbMisLoop E shift (n + 1) dest srcA prev destStart
  let srcA := psub E srcA E.ws
  let cur ← loadEndPartial E srcA (E.ws - offset)
  let r ← reasmB E prev cur shift
  let dest := psub E dest E.ws
  writeWord E true E.ws dest r

/-- `copy_backward`, impls.rs 227-343. -/
def copyBackward (un : Bool) (dest src n : Nat) : MM Unit := do
  let dest := padd E dest n
  let src := padd E src n
  let (dest, src, n) ← (if n ≥ threshold E then do
      let mis := wmask E dest
      cbBytes E dest src mis
      let dest := psub E dest mis
      let src := psub E src mis
      let n ← nsubC n mis
      let nWords := wround E n
      (if wmask E src = 0 then cbWords E true dest src nWords
       else if un then cbWords E false dest src nWords
       else cbMis E dest src nWords)
      let n' ← nsubC n nWords
      pure (psub E dest nWords, psub E src nWords, n')
    else pure (dest, src, n))
  cbBytes E dest src n

/-! ### Fill, compare, length -/

/-- Loop of `set_bytes_bytes`, impls.rs 350-353. -/
def sbBytesLoop (c : Byte) : Nat → Nat → Nat → MM Unit
  | 0, _, _ => fault .fuel
  | fuel + 1, s, e =>
    if s < e then do
      writeB E s c
      sbBytesLoop c fuel (padd E s 1) e
    else pure ()

/-- `set_bytes_bytes`, impls.rs 348-354. -/
def sbBytes (s : Nat) (c : Byte) (n : Nat) : MM Unit := sbBytesLoop E c (n + 1) s (padd E s n)

/-- The broadcast loop, impls.rs 360-363. -/
def broadcastLoop : Nat → BitVec (8 * E.ws) → Nat → M (BitVec (8 * E.ws))
  | 0, _, _ => .error .fuel
  | fuel + 1, b, bits =>
    if bits < E.ws * 8 then do
      let t ← shlC b bits
      broadcastLoop fuel (b ||| t) (bits * 2)
    else pure b

/-- Loop of `set_bytes_words`, impls.rs 368-371. -/
def sbWordsLoop (w : BitVec (8 * E.ws)) : Nat → Nat → Nat → MM Unit
  | 0, _, _ => fault .fuel
  | fuel + 1, s, e =>
    if s < e then do
      writeWord E true E.ws s w
      sbWordsLoop w fuel (padd E s E.ws) e
    else pure ()

/-- `set_bytes_words`, impls.rs 357-372. -/
def sbWords (s : Nat) (c : Byte) (n : Nat) : MM Unit := do
  let b ← broadcastLoop E (E.ws * 8 + 1) (c.setWidth (8 * E.ws)) 8
  sbWordsLoop E b (n + 1) s (padd E s n)

/-- `set_bytes`, impls.rs 346-390. -/
def setBytes (s : Nat) (c : Byte) (n : Nat) : MM Unit := do
  let (s, n) ← (if n ≥ threshold E then do
      let mis := wmask E (pneg E s)
      sbBytes E s c mis
      let s := padd E s mis
      let n ← nsubC n mis
      let nWords := wround E n
      sbWords E s c nWords
      let n' ← nsubC n nWords
      pure (padd E s nWords, n')
    else pure (s, n))
  sbBytes E s c n

/-- Loop of `compare_bytes`, impls.rs 393-404; `c_int` is kept as an integer (the difference of two
bytes always fits). -/
def cmpLoop (s1 s2 n : Nat) : Nat → Nat → MM Int
  | 0, _ => fault .fuel
  | fuel + 1, i =>
    if i < n then do
      let a ← readB E (padd E s1 i)
      let b ← readB E (padd E s2 i)
      if a ≠ b then pure ((a.toNat : Int) - b.toNat)
      else cmpLoop s1 s2 n fuel (i + 1)
    else pure 0

/-- `compare_bytes`, impls.rs 393-404. -/
def compareBytes (s1 s2 n : Nat) : MM Int := cmpLoop E s1 s2 n (n + 1) 0

/-- Loop of `c_string_length`, impls.rs 407-414; `n += 1` is checked. -/
def strlenLoop : Nat → Nat → Nat → MM Nat
  | 0, _, _ => fault .fuel
  | fuel + 1, s, n => do
    let b ← readB E s
    if b ≠ 0#8 then
      if n + 1 < E.space then strlenLoop fuel (padd E s 1) (n + 1) else fault .overflow
    else pure n

/-- `c_string_length`, impls.rs 407-414. The fuel is the size of the address space. -/
def cStringLength (s : Nat) : MM Nat := strlenLoop E E.space s 0

/-! ### Entry points, mod.rs 12-57 -/

/-- `memcpy`, mod.rs 15-18. -/
def memcpy (un : Bool) (dest src n : Nat) : MM Nat := do
  copyForward E un dest src n
  pure dest

/-- `memmove`, mod.rs 22-32. -/
def memmove (un : Bool) (dest src n : Nat) : MM Nat := do
  let delta := psub E dest src
  if delta ≥ n then copyForward E un dest src n else copyBackward E un dest src n
  pure dest

/-- `memset`, mod.rs 36-39 (`c as u8` truncates). -/
def memset (s : Nat) (c : BitVec 32) (n : Nat) : MM Nat := do
  setBytes E s (c.setWidth 8) n
  pure s

/-- `memcmp`, mod.rs 43-45. -/
def memcmp (s1 s2 n : Nat) : MM Int := compareBytes E s1 s2 n

/-- `bcmp`, mod.rs 49-51. -/
def bcmp (s1 s2 n : Nat) : MM Int := memcmp E s1 s2 n

/-- `strlen`, mod.rs 54-56. -/
def strlen (s : Nat) : MM Nat := cStringLength E s

end Verif.Mem
