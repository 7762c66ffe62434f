import Verif.Conc.Once
/-!
# Model of libm/src/math/support/feature_detect.rs and libm/src/math/arch/x86/detect.rs
-/
namespace Verif.Conc

/-- `Flags` (feature_detect.rs lines 85-86) -/
abbrev Flags := BitVec 32

/-- `Flags::insert` (feature_detect.rs lines 105-108) -/
def Flags.insert (f : Flags) (mask : BitVec 32) : Flags := f ||| mask

/-- `Flags::contains` (feature_detect.rs lines 110-113) -/
def Flags.contains (f : Flags) (mask : BitVec 32) : Bool := f &&& mask == mask

/-- `Flags::test_nth` (feature_detect.rs lines 115-119) -/
def Flags.testNth (f : Flags) (bit : Nat) : M Bool := do
  assertC (decide (bit < 32))
  let m ← shlC (1#32) bit
  pure (f &&& m != 0#32)

/-- `INITIALIZED` (feature_detect.rs line 129) -/
def INITIALIZED : BitVec 32 := 1#32 <<< 31

/-- `get_or_init_flags_cache` (feature_detect.rs lines 127-149): lines 132-134 on the loaded word, lines 139-145 on the result
of `init`. -/
def flagsCode : OnceCode Flags Flags Flags where
  onLoad v := if !(Flags.contains v INITIALIZED) then none else some v
  onInit f := do
    assertC (!(Flags.contains f INITIALIZED))
    let f := Flags.insert f INITIALIZED
    pure (f, f)

/-- `select_once!` (feature_detect.rs lines 44-77): the cell holds a function pointer, `none` being `initializer`. Lines 69-75 load
and call it; `initializer` (lines 60-67) runs `init`, stores the outcome and calls it. -/
def selectCode (F : Type) : OnceCode (Option F) F F where
  onLoad p := p
  onInit f := pure (some f, f)

/-- `CpuidResult` of core::arch -/
structure CpuidResult where
  eax : BitVec 32
  ebx : BitVec 32
  ecx : BitVec 32
  edx : BitVec 32

/-- What the detection reads of the machine: `cpuid` by leaf and sub-leaf, and the register `XCR0`. -/
structure Cpu where
  cpuid : BitVec 32 → BitVec 32 → CpuidResult
  xcr0 : BitVec 64

/-- `__cpuid`: `__cpuid_count` with sub-leaf 0 -/
abbrev Cpu.cpuid0 (c : Cpu) (leaf : BitVec 32) : CpuidResult := c.cpuid leaf 0#32

/-- `_xgetbv(0)`: an invalid-opcode exception unless the OS has set CR4.OSXSAVE, which `cpuid` reports in leaf 1, ECX bit 27. -/
def Cpu.xgetbv (c : Cpu) : M (BitVec 64) :=
  if (c.cpuid 1#32 0#32).ecx.getLsbD 27 then .ok c.xcr0 else .error .ub

/-- The names of `cpu_flags` in the order of detect.rs lines 12-28; `unique_masks!` (feature_detect.rs lines 11-29) gives the
`n`-th the mask `1 << n`. -/
inductive Feat where
  | SSE3 | F16C | SSE | SSE2 | ERMSB | MOVRS | FMA | FMA4 | AVX512FP16 | AVX512BF16
  deriving DecidableEq, Repr

/-- position in the list of `unique_masks!` -/
def Feat.idx : Feat → Nat
  | .SSE3 => 0 | .F16C => 1 | .SSE => 2 | .SSE2 => 3 | .ERMSB => 4 | .MOVRS => 5 | .FMA => 6 | .FMA4 => 7
  | .AVX512FP16 => 8 | .AVX512BF16 => 9

/-- `cpu_flags::NAME` -/
def Feat.mask (f : Feat) : BitVec 32 := 1#32 <<< f.idx

/-- The closure `enable` (detect.rs lines 107-111). -/
def enable (value regflags : Flags) (regbit : Nat) (flag : Feat) : M Flags := do
  if ← Flags.testNth regflags regbit then pure (Flags.insert value flag.mask) else pure value

/-- `u32::to_ne_bytes` on x86 -/
def leBytes (x : BitVec 32) : List (BitVec 8) :=
  [x.extractLsb' 0 8, x.extractLsb' 8 8, x.extractLsb' 16 8, x.extractLsb' 24 8]

/-- `b"AuthenticAMD"` -/
def authenticAMD : List (BitVec 8) := "AuthenticAMD".toList.map (fun c => BitVec.ofNat 8 c.toNat)
/-- `b"HygonGenuine"` -/
def hygonGenuine : List (BitVec 8) := "HygonGenuine".toList.map (fun c => BitVec.ofNat 8 c.toNat)

/-- detect.rs lines 120-178: the flags that need `XSAVE` -/
def enableAvx (c : Cpu) (ecx1 edx7 eax71 value : Flags) : M Flags := do
  if ← Flags.testNth ecx1 26 then
    if ← Flags.testNth ecx1 27 then
      let xcr0 ← c.xgetbv
      if xcr0 &&& 6#64 == 6#64 then
        let value ← enable value ecx1 12 .FMA
        if xcr0 &&& 0xe0#64 == 0xe0#64 then
          let value ← enable value edx7 23 .AVX512FP16
          enable value eax71 5 .AVX512BF16
        else pure value
      else pure value
    else pure value
  else pure value

/-- `load_x86_features` (detect.rs lines 44-197); `sgx` is `cfg!(target_env = "sgx")`. The vendor id of lines 60-68 is kept as a list
of bytes. -/
def loadX86Features (c : Cpu) (sgx : Bool) : M Flags := do
  if sgx then pure 0#32 else
  let l0 := c.cpuid0 0#32
  let vendor := leBytes l0.ebx ++ leBytes l0.edx ++ leBytes l0.ecx
  if l0.eax < 1#32 then pure 0#32 else
  let l1 := c.cpuid0 1#32
  let ebx7 := if l0.eax ≥ 7#32 then (c.cpuid0 7#32).ebx else 0#32
  let edx7 := if l0.eax ≥ 7#32 then (c.cpuid0 7#32).edx else 0#32
  let eax71 := if l0.eax ≥ 7#32 then (c.cpuid 7#32 1#32).eax else 0#32
  let extMax := (c.cpuid0 0x80000000#32).eax
  let extEcx := if extMax ≥ 1#32 then (c.cpuid0 0x80000001#32).ecx else 0#32
  let value ← enable 0#32 l1.ecx 0 .SSE3
  let value ← enable value l1.ecx 29 .F16C
  let value ← enable value l1.edx 25 .SSE
  let value ← enable value l1.edx 26 .SSE2
  let value ← enable value ebx7 9 .ERMSB
  let value ← enable value eax71 31 .MOVRS
  let value ← enableAvx c l1.ecx edx7 eax71 value
  if vendor == authenticAMD || vendor == hygonGenuine then
    enable value extEcx 16 .FMA4
  else pure value

/-- The implementations of `fma`/`fmaf` in libm/src/math/arch/x86/fma.rs (lines 48-137). -/
inductive FmaImpl where
  /-- `fma_with_fma`, `fmaf_with_fma`: `vfmadd213sd`/`vfmadd213ss` -/
  | fma
  /-- `fma_with_fma4`, `fmaf_with_fma4`: `vfmaddsd`/`vfmaddss` -/
  | fma4
  /-- `fma_fallback`, `fmaf_fallback`: the generic functions -/
  | fallback
  deriving DecidableEq, Repr

/-- The `init` expression of `fma` and `fmaf` (libm/src/math/arch/x86/fma.rs lines 13-22, 31-40), on the result of
`get_cpu_features`. -/
def fmaInit (features : Flags) : FmaImpl :=
  if Flags.contains features Feat.FMA.mask then .fma
  else if Flags.contains features Feat.FMA4.mask then .fma4
  else .fallback

/-- The `debug_assert!` at the entry of each implementation (fma.rs lines 50, 70, 90, 110), on the result of
`get_cpu_features`. -/
def FmaImpl.enter (p : FmaImpl) (features : Flags) : M Unit :=
  match p with
  | .fma => assertC (Flags.contains features Feat.FMA.mask)
  | .fma4 => assertC (Flags.contains features Feat.FMA4.mask)
  | .fallback => pure ()

end Verif.Conc
