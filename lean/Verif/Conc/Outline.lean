import Verif.Conc.OutSpec
import Verif.Conc.Excl
/-!
# Model of the AArch64 outline atomics (compiler-builtins/src/aarch64_outline_atomics.rs)

One step is one memory access together with the computation up to the next one. Registers have 64 bits; the arguments
smaller than a register have arbitrary upper bits (AAPCS64). The orderings (`_relax`, `_acq`, …) have no effect in this
interleaving model. An exclusive pair load `ldxp` is one access if `tear = false` (FEAT_LSE2) and otherwise two accesses
of 8 bytes each, in either order.
-/
namespace Verif.Conc

/-- The name `reg!(n, i)` (lines 64-70): the `w` name of a register stands for its lower 32 bits, and writing it clears the upper
ones. -/
def regW (n : Nat) (x : BitVec 64) : BitVec 64 := if n ≤ 4 then (x.setWidth 32).setWidth 64 else x

/-- `uxt!` (lines 105-109) -/
def uxt (n : Nat) (x : BitVec 64) : BitVec 64 :=
  if n = 1 then (x.setWidth 8).setWidth 64 else if n = 2 then (x.setWidth 16).setWidth 64 else regW n x

/-- The value stored by the LL/SC loop, `x0` is the loaded and `x16` the operand register: the operands of `stxr` in `swap!`
(line 324) and the instruction `$op` of `fetch_op!` (line 352, with lines 365-387). -/
def OutKind.instr (n : Nat) : OutKind → BitVec 64 → BitVec 64 → BitVec 64
  | .swp, _, x16 => x16
  | .ldadd, x0, x16 => regW n (x0 + x16)
  | .ldclr, x0, x16 => regW n (x0 &&& ~~~x16)
  | .ldeor, x0, x16 => regW n (x0 ^^^ x16)
  | .ldset, x0, x16 => regW n (x0 ||| x16)

/-- The value stored by the LSE instructions SWP, LDADD, LDCLR, LDEOR, LDSET (ARM architecture manual, `MemAtomic`). -/
def OutKind.lse {w : Nat} : OutKind → BitVec w → BitVec w → BitVec w
  | .swp, _, v => v
  | .ldadd, d, v => d + v
  | .ldclr, d, v => d &&& ~~~v
  | .ldeor, d, v => d ^^^ v
  | .ldset, d, v => d ||| v

/-- The doubleword number `i` in memory of a 16-byte number; registers hold 16-byte arguments in this way (AAPCS64). -/
def wordAt (be : Bool) (v : BitVec 128) (i : Nat) : BitVec 64 := v.extractLsb' (64 * bytePos be 2 i) 64

/-- The 16-byte number held by two registers. -/
def pairVal (be : Bool) (w0 w1 : BitVec 64) : BitVec 128 := if be then w0 ++ w1 else w1 ++ w0

/-- The local state of a thread. -/
inductive OutLocal where
  | idle
  /-- before the load of `HAVE_LSE_ATOMICS` (line 212) -/
  | start (op : OutOp 64)
  /-- before the LSE instruction (line 215) -/
  | lse (op : OutOp 64)
  /-- before `ldxr` (line 258, 322 or 350) -/
  | ldxr (op : OutOp 64) (x16 x1 : BitVec 64)
  /-- before `stxr` of the register `data` (line 263, 324 or 354) -/
  | stxr (op : OutOp 64) (x16 x1 x0 data : BitVec 64)
  /-- before `ldxp` (line 290) of `__aarch64_cas16` -/
  | ldxp (ptr : BitVec 64) (e d : BitVec 128)
  /-- in the middle of `ldxp`, after loading the doubleword number `i` -/
  | ldxp2 (ptr : BitVec 64) (e d : BitVec 128) (i : Nat) (v : BitVec 64)
  /-- before `stxp` (line 295) -/
  | stxp (ptr : BitVec 64) (e d : BitVec 128) (x0 x1 : BitVec 64)
  /-- about to return -/
  | done (r : Nat)

/-- From `ldxr` to `stxr` or `ret`: lines 260-261 (`compare_and_swap!`), 322-324 (`swap!`), 350-352 (`fetch_op!`). -/
def afterLdxr (op : OutOp 64) (x16 x1 x0 : BitVec 64) : OutLocal :=
  match op with
  | .rmw n _ k _ => .stxr op x16 x1 x0 (k.instr n x0 x16)
  | .cas n _ _ _ =>
    if regW n x0 ≠ regW n x16 then .done (x0.setWidth (8 * n)).toNat else .stxr op x16 x1 x0 x1

/-- From `ldxp` to `stxp` or `ret`, lines 291-293: `cmp x0, x16; ccmp x1, x17, #0, eq; bne 1f`. `x16`, `x17` hold `e` and
`x2`, `x3` hold `d`. -/
def afterLdxp (be : Bool) (ptr : BitVec 64) (e d : BitVec 128) (x0 x1 : BitVec 64) : OutLocal :=
  if x0 = wordAt be e 0 ∧ x1 = wordAt be e 1 then .stxp ptr e d x0 x1 else .done (pairVal be x0 x1).toNat

/-- Executions. -/
inductive OutRun (be tear : Bool) (Tid : Type) [DecidableEq Tid] (m₀ : Mem 64) :
    List (Event Tid (OutOp 64) Nat (BitVec 64)) → Mem 64 → Mon 64 Tid → (Tid → OutLocal) → Prop
  | init (mon : Mon 64 Tid) : OutRun be tear Tid m₀ [] m₀ mon (fun _ => .idle)
  | call {h m mon ls} (t : Tid) (op : OutOp 64) : OutRun be tear Tid m₀ h m mon ls → ls t = .idle →
      (outObj 64 be tear).valid op → OutRun be tear Tid m₀ (h ++ [.call t op]) m mon (Function.update ls t (.start op))
  /-- lines 211-213: the flag is set -/
  | flag {h m mon ls} (t : Tid) (op : OutOp 64) : OutRun be tear Tid m₀ h m mon ls → ls t = .start op →
      OutRun be tear Tid m₀ h m mon (Function.update ls t (.lse op))
  /-- lines 211-213: the flag is not set; then `mov` (line 319 or 347) -/
  | fall_rmw {h m mon ls} (t : Tid) (n ptr k val) (x0 x1 : BitVec 64) : OutRun be tear Tid m₀ h m mon ls →
      ls t = .start (.rmw n ptr k val) → x0.setWidth (8 * n) = val →
      OutRun be tear Tid m₀ h m mon (Function.update ls t (.ldxr (.rmw n ptr k val) (regW n x0) x1))
  /-- lines 211-213: the flag is not set; then `uxt` (line 255) -/
  | fall_cas {h m mon ls} (t : Tid) (n ptr e d) (x0 x1 : BitVec 64) : OutRun be tear Tid m₀ h m mon ls →
      ls t = .start (.cas n ptr e d) → n ≠ 16 → x0.setWidth (8 * n) = e → x1.setWidth (8 * n) = d →
      OutRun be tear Tid m₀ h m mon (Function.update ls t (.ldxr (.cas n ptr e d) (uxt n x0) x1))
  /-- lines 211-213: the flag is not set; then lines 286-287 -/
  | fall_cas16 {h m mon ls} (t : Tid) (ptr) (e d : BitVec (8 * 16)) : OutRun be tear Tid m₀ h m mon ls →
      ls t = .start (.cas 16 ptr e d) → OutRun be tear Tid m₀ h m mon (Function.update ls t (.ldxp ptr e d))
  /-- the instructions SWP, LDADD, LDCLR, LDEOR, LDSET with `s(0)` as operand and result, and `ret` -/
  | lse_rmw {h m mon ls} (t : Tid) (n ptr k val) (x0 : BitVec 64) : OutRun be tear Tid m₀ h m mon ls →
      ls t = .lse (.rmw n ptr k val) → x0.setWidth (8 * n) = val →
      OutRun be tear Tid m₀ h (writeCell be m ptr n (k.lse (readCell be m ptr n) (x0.setWidth (8 * n))))
        (clearMon mon ptr n) (Function.update ls t (.done (readCell be m ptr n).toNat))
  /-- the instruction CAS `s(0), s(1), [x2]`, and `ret` -/
  | lse_cas {h m mon ls} (t : Tid) (n ptr e d) (x0 x1 : BitVec 64) : OutRun be tear Tid m₀ h m mon ls →
      ls t = .lse (.cas n ptr e d) → n ≠ 16 → x0.setWidth (8 * n) = e → x1.setWidth (8 * n) = d →
      OutRun be tear Tid m₀ h
        (if readCell be m ptr n = x0.setWidth (8 * n) then writeCell be m ptr n (x1.setWidth (8 * n)) else m)
        (if readCell be m ptr n = x0.setWidth (8 * n) then clearMon mon ptr n else mon)
        (Function.update ls t (.done (readCell be m ptr n).toNat))
  /-- the instruction CASP `x0, x1, x2, x3, [x4]`, and `ret` -/
  | lse_casp {h m mon ls} (t : Tid) (ptr) (e d : BitVec (8 * 16)) : OutRun be tear Tid m₀ h m mon ls →
      ls t = .lse (.cas 16 ptr e d) →
      OutRun be tear Tid m₀ h
        (if readCell be m ptr 8 = wordAt be e 0 ∧ readCell be m (ptr + 8#64) 8 = wordAt be e 1 then
          writeCell be (writeCell be m ptr 8 (wordAt be d 0)) (ptr + 8#64) 8 (wordAt be d 1) else m)
        (if readCell be m ptr 8 = wordAt be e 0 ∧ readCell be m (ptr + 8#64) 8 = wordAt be e 1 then
          clearMon mon ptr 16 else mon)
        (Function.update ls t (.done (pairVal be (readCell be m ptr 8) (readCell be m (ptr + 8#64) 8)).toNat))
  /-- `ldxr` -/
  | ldxr {h m mon ls} (t : Tid) (op : OutOp 64) (x16 x1 : BitVec 64) : OutRun be tear Tid m₀ h m mon ls →
      ls t = .ldxr op x16 x1 →
      OutRun be tear Tid m₀ h m (Function.update mon t (some (op.ptr, op.size)))
        (Function.update ls t (afterLdxr op x16 x1 ((readCell be m op.ptr op.size).setWidth 64)))
  /-- `stxr` succeeds -/
  | stxr_ok {h m mon ls} (t : Tid) (op : OutOp 64) (x16 x1 x0 data : BitVec 64) : OutRun be tear Tid m₀ h m mon ls →
      ls t = .stxr op x16 x1 x0 data → mon t = some (op.ptr, op.size) →
      OutRun be tear Tid m₀ h (writeCell be m op.ptr op.size (data.setWidth (8 * op.size)))
        (Function.update (clearMon mon op.ptr op.size) t none)
        (Function.update ls t (.done (x0.setWidth (8 * op.size)).toNat))
  /-- `stxr` fails -/
  | stxr_fail {h m mon ls} (t : Tid) (op : OutOp 64) (x16 x1 x0 data : BitVec 64) : OutRun be tear Tid m₀ h m mon ls →
      ls t = .stxr op x16 x1 x0 data →
      OutRun be tear Tid m₀ h m (Function.update mon t none) (Function.update ls t (.ldxr op x16 x1))
  /-- `ldxp` as one access -/
  | ldxp {h m mon ls} (t : Tid) (ptr) (e d : BitVec 128) : OutRun be tear Tid m₀ h m mon ls →
      ls t = .ldxp ptr e d →
      OutRun be tear Tid m₀ h m (Function.update mon t (some (ptr, 16)))
        (Function.update ls t (afterLdxp be ptr e d (readCell be m ptr 8) (readCell be m (ptr + 8#64) 8)))
  /-- the first half of `ldxp` -/
  | ldxp_first {h m mon ls} (t : Tid) (ptr) (e d : BitVec 128) (i : Nat) : OutRun be tear Tid m₀ h m mon ls →
      ls t = .ldxp ptr e d → tear = true → i < 2 →
      OutRun be tear Tid m₀ h m (Function.update mon t (some (ptr, 16)))
        (Function.update ls t (.ldxp2 ptr e d i (readCell be m (ptr + BitVec.ofNat 64 (8 * i)) 8)))
  /-- the second half of `ldxp` -/
  | ldxp_second {h m mon ls} (t : Tid) (ptr) (e d : BitVec 128) (i : Nat) (v : BitVec 64) :
      OutRun be tear Tid m₀ h m mon ls → ls t = .ldxp2 ptr e d i v →
      OutRun be tear Tid m₀ h m mon
        (Function.update ls t (if i = 0 then afterLdxp be ptr e d v (readCell be m (ptr + 8#64) 8)
          else afterLdxp be ptr e d (readCell be m ptr 8) v))
  /-- `stxp` succeeds -/
  | stxp_ok {h m mon ls} (t : Tid) (ptr) (e d : BitVec 128) (x0 x1 : BitVec 64) : OutRun be tear Tid m₀ h m mon ls →
      ls t = .stxp ptr e d x0 x1 → mon t = some (ptr, 16) →
      OutRun be tear Tid m₀ h (writeCell be (writeCell be m ptr 8 (wordAt be d 0)) (ptr + 8#64) 8 (wordAt be d 1))
        (Function.update (clearMon mon ptr 16) t none) (Function.update ls t (.done (pairVal be x0 x1).toNat))
  /-- `stxp` fails -/
  | stxp_fail {h m mon ls} (t : Tid) (ptr) (e d : BitVec 128) (x0 x1 : BitVec 64) : OutRun be tear Tid m₀ h m mon ls →
      ls t = .stxp ptr e d x0 x1 →
      OutRun be tear Tid m₀ h m (Function.update mon t none) (Function.update ls t (.ldxp ptr e d))
  | ret {h m mon ls} (t : Tid) (r : Nat) : OutRun be tear Tid m₀ h m mon ls → ls t = .done r →
      OutRun be tear Tid m₀ (h ++ [.ret t r]) m mon (Function.update ls t .idle)
  | store {h m mon ls} (a : BitVec 64) (b : BitVec 8) : OutRun be tear Tid m₀ h m mon ls →
      OutRun be tear Tid m₀ (h ++ [.store a b]) (Function.update m a b) (clearMon mon a 1) ls

end Verif.Conc
