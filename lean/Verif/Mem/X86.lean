import Verif.Mem.Impls
/-!
# Model of the x86_64 memory routines

`compiler-builtins/src/mem/x86_64.rs`, selected by mod.rs 9-10 on x86_64. The `rep` string instructions and
the aligned vector loads are modelled operationally.
-/
namespace Verif.Mem.X86
open Verif.Mem

variable (E : Env)

/-- Checked `usize` addition. -/
def uaddC (a b : Nat) : M Nat := if a + b < E.space then .ok (a + b) else .error .overflow

/-- `ptr.add(n)` (in bytes): leaving the address space is undefined behaviour. Simplified: that the result
stays within the allocation is not tracked, only accesses are. -/
def paddU (a n : Nat) : M Nat := if a + n < E.space then .ok (a + n) else .error .ub

/-- `rep movsb` (`sz = 1`) / `rep movsq` (`sz = 8`), direction flag `df`; the count is `rcx`. Returns
`(rdi, rsi)`. Each step reads one element at `rsi`, writes it at `rdi` and moves both registers. -/
def repMovs (sz : Nat) (df : Bool) : Nat → Nat → Nat → MM (Nat × Nat)
  | 0, rdi, rsi => pure (rdi, rsi)
  | rcx + 1, rdi, rsi => do
    let w ← readWord E false sz rsi
    writeWord E false sz rdi w
    if df then repMovs sz df rcx (psub E rdi sz) (psub E rsi sz)
    else repMovs sz df rcx (padd E rdi sz) (padd E rsi sz)

/-- `rep stosb` (`sz = 1`) / `rep stosq` (`sz = 8`) with the direction flag clear. Returns `rdi`. -/
def repStos (sz : Nat) (rax : BitVec 64) : Nat → Nat → MM Nat
  | 0, rdi => pure rdi
  | rcx + 1, rdi => do
    writeWord E false sz rdi (rax.setWidth (8 * sz))
    repStos sz rax rcx (padd E rdi sz)

/-- `rep_param`, x86_64.rs 302-309. -/
def repParam (dest count : Nat) : M (Nat × Nat × Nat) := do
  let t ← nsubC 8 (dest &&& 7)
  let pre := min (t &&& 7) count
  let count ← nsubC count pre
  pure (pre, count >>> 3, count &&& 7)

/-- `copy_forward`: with `ermsb` x86_64.rs 22-32, without it 34-60. -/
def copyForward (ermsb : Bool) (dest src count : Nat) : MM Unit := do
  if ermsb then
    let _ ← repMovs E 1 false count dest src
    pure ()
  else
    let (pre, qw, bc) ← repParam dest count
    let (dest, src) ← repMovs E 1 false pre dest src
    let (dest, src) ← repMovs E 8 false qw dest src
    let _ ← repMovs E 1 false bc dest src
    pure ()

/-- `copy_backward`, x86_64.rs 62-85. -/
def copyBackward (dest src count : Nat) : MM Unit := do
  let (pre, qw, bc) ← repParam dest count
  let c ← nsubC count 1
  let rdi ← paddU E dest c
  let rsi ← paddU E src c
  let (rdi, rsi) ← repMovs E 1 true bc rdi rsi
  let rsi := psub E rsi 7
  let rdi := psub E rdi 7
  let (rdi, rsi) ← repMovs E 8 true qw rdi rsi
  let rsi := padd E rsi 7
  let rdi := padd E rdi 7
  let _ ← repMovs E 1 true (pre % 2 ^ 32) rdi rsi
  pure ()

/-- `set_bytes`: with `ermsb` x86_64.rs 87-97 (only `al` matters), without it 99-126. -/
def setBytes (ermsb : Bool) (dest : Nat) (c : Byte) (count : Nat) : MM Unit := do
  if ermsb then
    let _ ← repStos E 1 (c.setWidth 64) count dest
    pure ()
  else
    let c ← mulC (c.setWidth 64) 0x0101010101010101#64
    let (pre, qw, bc) ← repParam dest count
    let dest ← repStos E 1 c pre dest
    let dest ← repStos E 8 c qw dest
    let _ ← repStos E 1 c bc dest
    pure ()

/-- Loop of the local function `cmp`, x86_64.rs 141-147; the early return calls `f` on one element. -/
def cmpTLoop (sz : Nat) (f : Nat → Nat → Nat → MM Int) (rest : Nat) : Nat → Nat → Nat → Nat → MM Int
  | 0, _, _, _ => fault .fuel
  | fuel + 1, a, b, e =>
    if a ≠ e then do
      let x ← readWord E false sz a
      let y ← readWord E false sz b
      if x ≠ y then f a b sz
      else do
        let a ← paddU E a sz
        let b ← paddU E b sz
        cmpTLoop sz f rest fuel a b e
    else f a b rest

/-- Local function `cmp::<T, _, _>` with `size_of::<T>() = sz`, x86_64.rs 131-153. -/
def cmpT (sz : Nat) (f : Nat → Nat → Nat → MM Int) (a b n : Nat) : MM Int := do
  let e ← paddU E a (n / sz * sz)
  cmpTLoop E sz f (n % sz) (n + 1) a b e

/-- Closure `c1`, x86_64.rs 154-163. -/
def c1 (a b : Nat) : Nat → MM Int
  | 0 => pure 0
  | n + 1 => do
    let x ← readB E a
    let y ← readB E b
    if x ≠ y then pure ((x.toNat : Int) - y.toNat)
    else do
      let a ← paddU E a 1
      let b ← paddU E b 1
      c1 a b n

/-- `compare_bytes`, x86_64.rs 128-169. -/
def compareBytes (a b n : Nat) : MM Int :=
  cmpT E 16 (cmpT E 8 (cmpT E 4 (cmpT E 2 (c1 E)))) a b n

/-! ### `strlen` -/

/-- Aligned `sz`-byte load by inline assembly. The load never crosses a page, so it is allowed as soon
as one byte of the block may be read; the other bytes read are arbitrary (whatever the store says). -/
def blockLoad (sz a : Nat) : MM (Nat → Byte) := fun s =>
  if a % sz = 0 ∧ (List.range sz).any (fun i => E.canR (a + i)) then .ok (fun i => s (a + i), s) else .error .ub

/-- Bits of `_mm_movemask_epi8(_mm_cmpeq_epi8(x, 0))`: bit `i` is set iff byte `i` is zero. -/
def zeroMask (f : Nat → Byte) : Nat → Nat
  | 0 => 0
  | n + 1 => 2 ^ n * (if f n = 0#8 then 1 else 0) + zeroMask f n

/-- `_mm_movemask_epi8(_mm_cmpeq_epi8(x, zero))` as an `i32`. -/
def movemask (f : Nat → Byte) : BitVec 32 := BitVec.ofNat 32 (zeroMask f 16)

/-- `x.trailing_zeros()`: the position of the lowest set bit. -/
def tz {w : Nat} (x : BitVec w) : Nat := ((List.range w).find? (fun i => x.getLsbD i)).getD w

/-- The loop over the first bytes, x86_64.rs 192-199. `inl` is an early return. -/
def sseHead : Nat → Nat → Nat → MM (Nat ⊕ (Nat × Nat))
  | 0, s, n => pure (.inr (s, n))
  | c + 1, s, n => do
    let b ← readB E s
    if b = 0#8 then pure (.inl n)
    else do
      let n ← uaddC E n 1
      let s ← paddU E s 1
      sseHead c s n

/-- The main loop, x86_64.rs 227-245. -/
def sseLoop : Nat → Nat → Nat → MM Nat
  | 0, _, _ => fault .fuel
  | fuel + 1, s, n => do
    let x ← blockLoad E 16 s
    let cmp := movemask x
    if cmp = 0#32 then do
      let n ← uaddC E n 16
      let s ← paddU E s 16
      sseLoop fuel s n
    else uaddC E n (tz cmp)

/-- `c_string_length` with `sse2`, x86_64.rs 181-246. The mask fits 16 bits, so the arithmetic shift of the
`i32` is a logical one. -/
def strlenSse (s : Nat) : MM Nat := do
  let h ← sseHead E 4 s 0
  match h with
  | .inl n => pure n
  | .inr (s, n) => do
    let align := s &&& 15
    let s ← nsubC s align
    let x ← blockLoad E 16 s
    let cmp ← shrC (movemask x) align
    if cmp ≠ 0#32 then uaddC E n (tz cmp)
    else do
      let t ← nsubC 16 align
      let n ← uaddC E n t
      let s ← paddU E s 16
      sseLoop E E.space s n

/-- The loop up to an eight byte boundary, x86_64.rs 260-266. -/
def swarHead : Nat → Nat → Nat → MM (Nat ⊕ (Nat × Nat))
  | 0, _, _ => fault .fuel
  | fuel + 1, s, n =>
    if s &&& 7 ≠ 0 then do
      let b ← readB E s
      if b = 0#8 then pure (.inl n)
      else do
        let n ← uaddC E n 1
        let s ← paddU E s 1
        swarHead fuel s n
    else pure (.inr (s, n))

/-- The loop that finds the zero byte in a word, x86_64.rs 287-294. -/
def swarByte : Nat → BitVec 64 → Nat → M Nat
  | 0, _, _ => .error .fuel
  | fuel + 1, cs, n =>
    if cs &&& 255#64 = 0#64 then pure n
    else do
      let cs ← shrC cs 8
      let n ← uaddC E n 1
      swarByte fuel cs n

/-- The zero byte test, x86_64.rs 286. -/
def hasZero (cs : BitVec 64) : Bool :=
  (cs - 0x0101010101010101#64) &&& ~~~cs &&& 0x8080808080808080#64 ≠ 0#64

/-- The main loop, x86_64.rs 273-299. -/
def swarLoop : Nat → Nat → Nat → MM Nat
  | 0, _, _ => fault .fuel
  | fuel + 1, s, n => do
    let x ← blockLoad E 8 s
    let cs := wordOf false 8 x
    if hasZero cs then swarByte E 9 cs n
    else do
      let n ← uaddC E n 8
      let s ← paddU E s 8
      swarLoop fuel s n

/-- `c_string_length` without `sse2`, x86_64.rs 250-299. -/
def strlenSwar (s : Nat) : MM Nat := do
  let h ← swarHead E 9 s 0
  match h with
  | .inl n => pure n
  | .inr (s, n) => swarLoop E E.space s n

/-! ### Entry points with these implementations, mod.rs 15-56 -/

/-- `memcpy`, mod.rs 15-18. -/
def memcpy (ermsb : Bool) (dest src n : Nat) : MM Nat := do
  copyForward E ermsb dest src n
  pure dest

/-- `memmove`, mod.rs 22-32. -/
def memmove (ermsb : Bool) (dest src n : Nat) : MM Nat := do
  let delta := psub E dest src
  (if delta ≥ n then copyForward E ermsb dest src n else copyBackward E dest src n)
  pure dest

/-- `memset`, mod.rs 36-39. -/
def memset (ermsb : Bool) (s : Nat) (c : BitVec 32) (n : Nat) : MM Nat := do
  setBytes E ermsb s (c.setWidth 8) n
  pure s

/-- `memcmp`, mod.rs 43-45. -/
def memcmp (s1 s2 n : Nat) : MM Int := compareBytes E s1 s2 n

/-- `strlen`, mod.rs 54-56. -/
def strlen (sse2 : Bool) (s : Nat) : MM Nat := if sse2 then strlenSse E s else strlenSwar E s

end Verif.Mem.X86
