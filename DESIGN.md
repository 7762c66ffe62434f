# Formal model of compiler-builtins / libm in Lean 4

The repository (`/repo`, rust-lang/compiler-builtins at the pinned commit) is read as text and
re-expressed, function by function, as total computable Lean functions. Theorems in `lean/Verif`
are about that model; nothing here runs the Rust code.

## 1. Modelling conventions

* **Machine integers** are `BitVec w` (width `w` generic wherever the Rust code is a macro or a
  generic function). `wrapping_*` operations are the plain `BitVec` operations. Ordinary Rust
  `+ - * << >>` are *checked*: the model runs in the monad `M α = Except Fault α` and an overflow, an
  over-wide shift, a failed (debug-)assert, a division by zero or an `unreachable_unchecked` is an
  explicit fault. So a theorem `f x = .ok y` states both absence of panic/UB and the value; it holds
  for builds with and without overflow checks, since both agree when no check fires.
* **Loops** are recursive functions (well-founded or with fuel); when fuel is used, running out of
  fuel is a fault, so `= .ok _` also proves termination.
* **Floats** are bit patterns. A format is a pair (exponent bits, significand bits); `f16`, `f32`,
  `f64`, `f128` are instances. The specification of a value is the usual IEEE-754 one, a rational
  number computed from sign, exponent and significand (section 3).
* **Hardware float operations** used by libm (`x + y`, `x * y`, comparisons, casts) are modelled by
  the IEEE-754 round-to-nearest-even specification (trusted). `FPU F` (Verif/Libm/Native.lean) is the structure of
  four operations together with that specification; NaN payloads are left open. The libm theorems hold for *every*
  `FPU F`; it is inhabited (`FPU.ideal`) and the soft-float functions of this crate form one (`FPU.soft*`), so the
  specification is satisfiable. Comparisons are fixed functions on patterns.
* **Not modelled in libm**: floating-point exception flags (`force_eval!`, apart from the explicit `Status` values),
  the `select_implementation!` redirections to architecture-specific versions, x87 excess precision.
* **Memory** is a function from addresses to bytes together with explicit word loads/stores of
  a given endianness; access outside the permitted ranges or misaligned access is a fault.
* **Concurrency** is an interleaving transition system with an arbitrary scheduler; one atomic
  machine step per transition; CAS and store-exclusive may fail spuriously.

## 2. Trusted base

* Lean 4 kernel; axioms `propext`, `Classical.choice`, `Quot.sound` only (checked with
  `#print axioms` and by the gate). No `sorry`, no `native_decide`, no `bv_decide`, no own axioms.
* The reading of the Rust source: each definition cites the file and lines it models.
* Concurrency (C49, C50): sequentially consistent interleaving. Barriers, acquire/release suffixes and compiler reordering are
  not modelled. `__kuser_cmpxchg` is one atomic step and may fail although the value matches. Exclusive monitors: a store-exclusive
  succeeds only if no overlapping write happened since the thread's own load-exclusive, and may always fail. Code outside the
  modelled functions may store any byte at any time (event `store`). The LSE flag is arbitrary for each call; upper register
  bits of narrow arguments are arbitrary (AAPCS64). `LDXP` of 16 bytes is two 8-byte loads when `tear = true`.
* Relaxed cells (C51): a view-based coherence model, see `Verif/Conc/Once.lean`; loads from stores that come later in the execution are
  not modelled. `cpuid` answers are constant during an execution.
* Rust/LLVM/CPU semantics as summarised in section 1 (wrapping ops, shifts, asm instructions such as
  `rep movsb`, `ldrex/strex`, the Linux `__kuser_cmpxchg` helper).

## 3. Specifications

Specifications are in files named `Spec*.lean` or at the head of the property file and
refer only to mathematics (`Nat`, `Int`, `ℚ`, `ℝ`), not to helper functions of the model.

For rounding: magnitude patterns `n ≤ inf` have value `val n` (infinity valued `2^(emax+1)`, which
is precisely the IEEE overflow rule for round-to-nearest); `IsNearestEven x n` says that no other
pattern is nearer to `x`, and that on a tie `n` is even.

## 4. Plan per property

| id | modelled | proof |
|----|----------|-------|
| C01-C03 | normalisation shift, binary-long, delegate, asymmetric, trifecta as `BitVec` programs | loop invariants on `toNat`; uniqueness of quotient/remainder |
| C04 | `sdiv.rs` macros over any unsigned divider meeting its spec | case split on signs, `Int.tdiv`/`Int.tmod` |
| C05, C06 | `mul.rs` generic in half width | `toNat`/`toInt` arithmetic |
| C07, C08, C12 | limb-wise programs generic in limb width | `toNat` arithmetic |
| C09, C10, C11 | binary search / byte extraction | bit-level induction |
| C13 | narrowing division | Knuth digit bound |
| C14 | `modular.rs` | invariants from the source comments, proved |
| C15-C19 | `impls.rs`, memory model with word accesses, both endiannesses | loop invariants |
| C20-C22 | `x86_64.rs` with an operational `rep` semantics | loop invariants |
| C23 | `cmp.rs` generic format | case analysis against rational order |
| C24-C27 | `add/sub/mul/div.rs` generic format | exact integer arithmetic + one rounding lemma |
| C28-C30 | `extend.rs`, `trunc.rs` generic pair of formats | same |
| C31, C32, C54 | `conv.rs` | same |
| C33 | `pow.rs` over an abstract multiplication | loop invariant in a field |
| C34-C42, C45-C47, C53 | libm generic functions | exact arithmetic on patterns |
| C43 | `sqrt.rs` fixed-point Goldschmidt | real error analysis per iteration and format, integer argument for the final correction |
| C44 | `fma.rs`, `fma_wide.rs`, `fmaf16.rs` | rounding lemma; negation for the sticky bug |
| C48 | `hex_float.rs` parser over lists of bytes, any width and rounding mode | induction on digits, sticky-bit argument, one rounding lemma for all directions; negations for the overflows |
| C49 | `arm_linux.rs`: thread transition system, one step per atomic load / `__kuser_cmpxchg` / call / return | simulation by the system `Atomic` in which an operation is a single step |
| C50 | `thumbv6k.rs`, `aarch64_outline_atomics.rs`: one step per exclusive load/store, per-thread monitors | same; negation for the torn 16-byte load |
| C51 | `feature_detect.rs`: threads over one relaxed atomic cell (coherence only, views) | inductive invariant |
| C55 | `load_x86_features` over arbitrary `cpuid`/`XCR0`, the choice made by `fma`/`fmaf` | bit by bit against the conditions of the processor manuals; negation for FMA4/F16C |
| C56 | `fmt_any_hex`, output as a list of bytes; `core::fmt` of integers per its documentation | digits by induction; the text is a literal of the exact value, then C48 and exactness of rounding in every direction |
| C57 | `hypot` whole (all branches), over any lawful `fma`, `sqrt`, native operators and casts; instantiated with those of this repository | real-number error analysis of the double-double part, integer analysis of the exact part, brackets between adjacent numbers; partial: two families of exact values are excluded, with counterexamples |
| C58 | the table of `rem_pio2_large.rs`; the distance to multiples of `π/2` | Machin's formula with exact integer bounds; a verified continued-fraction bound evaluated by the kernel for all 1025 exponents |
| C59 | `rem_pio2_large` (both precisions used, both table sizes), `rem_pio2`, `rem_pio2f`, over any correctly rounded native operations; arrays with checked indices, `i32` arithmetic checked | every floating-point step shown exact or bounded; the retry loop bounded by C58; Cody-Waite rounds by error analysis |
| C60 | `k_sin`, `k_cos`, `sin`, `cos`, `sincos` over any correctly rounded native operations | truncated Taylor series with remainder; polynomial differences bounded by a certified interval check (`Poly.chk_sound`); rounding errors by a certified error calculator (`Ex.bd_sound`); faithful rounding from the total error (`Near.faithful_rel`, `Near.faithful_abs`) |
| C61 | `k_sinf`, `k_cosf`, `sinf`, `cosf`, `sincosf` (branches for multiples of pi/2, casts to `f32`) over any correctly rounded native operations | the same machinery; a distance bound of nonzero `f32` numbers from multiples of pi/2 turns the absolute error of the reduction into a relative one |
| C62 | `k_tanf`, `tanf` over any correctly rounded native operations | `kTanD` is compared with `tan` through the defect `R cos T - sin T`, bounded by polynomial positivity; the odd case divides; the relative error of the reduced argument comes from the distances of C58 |
| C63 | `k_tan`, `tan` over any correctly rounded native operations | error calculus for the polynomial tail (relative below 0.58, absolute above); `tanP` is compared with `tan` by polynomial positivity; the split reciprocal is shown accurate to 2^-69; from 0.6743 on the formula `s - 2(x + (r - w²/(w+s)))` is compared with the Möbius form of `tan(π/4 - x)` |
| C64 | `exp` over any correctly rounded native operations; `scalbn` as in C42 | 33 digits of `ln 2` from the series; reduction exact in `hi`; the rational approximation `1 + (x c / (2 - c) - lo + hi)` is compared with `e^r` by polynomial positivity on Taylor bounds; `scalbn` rounds once; thresholds compared with multiples of `ln 2` |
| C65 | `expf`, likewise | the same generic lemmas (`ExpCore`, `ExpRed`, `ExpScale`) instantiated at 24 bits |
| C66 | `log` over any correctly rounded native operations; `u32`/`i32` arithmetic checked | `log((1+s)/(1-s))` against its series; polynomial differences by the certified interval check; rounding errors by the error calculator scaled with the argument (`LogCore`) for exponent 0; for other exponents (`LogK`) the final sums, where one is exact if the total is small; bit arithmetic of the reduction by `omega` |
| C67 | `logf`, likewise | the same generic lemmas instantiated at 24 bits |
| C68 | `atan` over any correctly rounded native operations; table accesses checked | `arctan` series with certified polynomial differences (`AtanR`); addition theorems for the four reductions; exact numerators, error of the quotient, error calculator for the polynomial and the last sums (`AtanCore`, `AtanRed`); the range from the rounding of the last difference |
| C69 | `atanf`, likewise | the same generic lemmas instantiated at 24 bits; an example shows a result above `π/2` |
| C70 | `atan2` over any correctly rounded native operations, the quotients of constants computed by them | the angle as `Complex.arg`; `arctan t / t` decreases and the addition theorem bound the effect of the rounded quotient (`Atan2R`); errors of `PI - (z - PI_LO)` by binades; exponent comparisons by `magVal_up`; special values by uniqueness of correct rounding |
| C71 | `atan2f`, with checked `u32` additions | the same generic lemmas instantiated at 24 bits |
| C72 | `asin` over any correctly rounded native operations, `sqrt` the generic implementation of C43 | the arcsine by its power series with remainder (`AsinR`, from the derivative), the rational function against it by kernel-checked polynomial inequalities (`AsinRat`), rounding errors by a verified interval calculator with error terms (`IvCalc`), exactness of `0.5*PIO2_HI - 2f` and `f*f` by multiples of powers of two (`AsinCore`) |
| C73 | `acos`, the same copies of constants and rational function | near 1 a relative analysis by hand (`posCase`), elsewhere the interval calculator; doubling is exact |
| C74 | `asinf` with conversions `f32`/`f64` as specified operations (`FloatCast`) | the generic lemmas at 24 bits; for `abs x >= 0.5` the f64 calculation by the interval calculator |
| C75 | `acosf` | the generic lemmas of C73 at 24 bits |
| C76 | `cbrtf` with conversions `f32`/`f64` as specified operations (`FloatCast`) | the first approximation is within 1/31 (piecewise linear against cubic, four pieces, all exponents by shift invariance, `CbrtfGuess`); a Halley step has error `(s-1)^3(s+1)/(1+2s^3)` exactly, plus 10 units of relative rounding error (`CbrtR`); two steps give 2^-46, then one rounding. Perfect rounding as claimed in the comment of the source is not proved: it would need the distances of all cube roots of f32 numbers from midpoints |
| C77 | `expm1`: special cases, reduction, rational function, the branches on `k` | the part after the reduction is modelled and proved once for both formats (`Expm1Core`, `Expm1Tail`, `Expm1Sum`): each branch is a small program checked by the interval calculator of rounding errors (`IvCalc`) over pieces of the range of the reduced argument, then a scaling by `2^k` that is exact; the rational function against the Taylor polynomial (`Expm1R`). `force_eval!` is left out |
| C78 | `expm1f` | the same theorems for the other format and constants (`Expm1Inst`, `Expm1FMain`) |
| C79 | `cosh`, `k_expo2` | the formula of each branch once for both formats, from the proved relative errors of `exp` and `expm1` (`HyperCore` over the real lemmas of `HyperR`); `k_expo2` by an exact subtraction and two exact scalings (`HyperTail`); the limit of overflow is located between two consecutive floats from rational bounds of `ln 2` (`HyperMain`). `force_eval!` is left out |
| C80 | `coshf`, `k_expo2f` | the same theorems for the other format (`HyperFMain`) |
| C81 | `sinh` | as C79, from `expm1` |
| C82 | `sinhf` | the same theorems for the other format |
| C83 | `tanh` | as C79, from `expm1`; arguments below `2^-59` by a direct argument about `expm1` of them (`tC_tiny`) |
| C84 | `tanhf` | the same theorems for the other format |
| C85 | `log1p` | the polynomial part is shared with `log` (`LogK.coreE`, now with a correction term); the sum `1 + x` and its error (`Log1pRed`: both differences are exact), the reduction for `f64` (`Log1pMain`). `force_eval!` is left out |
| C86 | `log1pf` | the same theorems for the other format (`Log1pFMain`); one argument (`0xbe95f61a`) is reduced with `k = 0` and is treated on its own |
| C87 | `asinh` | the formulas are modelled once for both formats (`InvHyp`); a calculus of relative errors in units of the last place (`RelCalc`: `Ap` and its rules for sum, difference, product, quotient, root, logarithm), one theorem for each formula (`InvHypCore`); thresholds, large and tiny arguments, sign (`InvHypMain`). `force_eval!` is left out |
| C88 | `asinhf` | the same theorems for the other format (`InvHypFMain`) |
| C89 | `acosh` | as C87; for the NaN results (`InvHypNan`) the root of a negative number or the sum below `-1` is followed through `log1p` |
| C90 | `acoshf` | the same theorems for the other format |
| C91 | `atanh` | as C87; `1 - x` is at least `2^-53` below 1; poles and NaN in `InvHypNan` |
| C92 | `atanhf` | the same theorems for the other format |
| C93 | `log2` | special arguments and reduction are modelled once for `log2`, `log10` (`Log2`, `LogSkel`, `Log2Spec`); the parts `hi`, `lo` in any format (`Log2Core`); products with the constants, compensated sums by Fast2Sum (`Log2Scale`); constants against `ln 2` (`Log2Main`) |
| C94 | `log2f` | the same with plain sums (`Log2FMain`) |
| C95 | `log10` | as C93; `ln 10` from `3 ln 2 + ln(5/4)` to 20 digits |
| C96 | `log10f` | as C94 |
| C97 | `exp2f` | reduction by adding `3 * 2^p` in any format (`Exp2Red`); table against `exp(j/16 ln 2)` by rational Taylor enclosures checked in the kernel (`Exp2R`); polynomial by the error calculus (`Exp2F`) |
| C98 | `exp2` | as C97 with 256 pairs of table entries (`Exp2D`), special arguments (`Exp2Top`) |
| C99 | `exp10f` | `modf` by C45, cast by C32, `exp2f`, `exp2` by C97, C98, the table by correctly rounded quotients, `ln 10` to 20 digits (`Exp10F`). `isize` is taken to have 64 bits |
| C100 | `cbrt` (f64), rounding mode nearest (`cbrt_round` with `Round::Nearest`) | polynomial by a kernel-checked enclosure, cubic step (`CbrtStart`, 2.17e-12); a Newton step with `fma` gives a pair `y1 + dy` whose sum `v` is within `2 E^2` of the root and of which `y1` is the rounding (`CbrtStep`, `CbrtNewton`); the test for midpoints, second step and the two hard cases (`CbrtRefine`); the correction at the end never changes the value (`CbrtFinish`); decoding and scaling (`CbrtTop`). That no cube root of an f64 number other than the two listed is within `2^-100` of a midpoint is the exhaustive search of the original authors and is not proved |
| C101 | `pow`, all of pow.rs 60-402 (the formulas of the logarithm and the exponential shared with `powf`, `Pow.lean`) | the words are reduced to sign and magnitude (`PowFront`: `pow_eq`, `yisint_spec` for the parity of `y`), the special cases are proved once for both formats (`PowSpecial`), multiplication by ±1 is exact (`PowNeg`). The accuracy of the general path is C103 |
| C102 | `powf`, all of powf.rs 17-343 | as C101 (`powf_eq`, `yisintS_spec`). The accuracy of the general path of `powf` is not stated |
| C103 | `pow` as in C101, here the general path pow.rs 225-402 | `PowLogD`/`PowSumD`: the logarithm as a sum of two doubles with interval error calculus (`PowCalc`), `PowLogWordD`/`PowLogFinD`: the words select the break point, `PowNearD`: the series for x near 1 and |y| > 2^31, `PowExpD`/`PowExp2D`: the exponential and its scaling, `PowFinishD`: the product with y and the tests for over- and underflow, `PowCoreD`: all branches together; the result is compared with the real power. The bound grows with the binary exponent: it is a proved bound, not the ulp bound claimed in the comments of the C original. In the gap of 2^-30 around P = 1024 only the absence of a panic is claimed |
| C104 | `exp10`, all of exp10.rs but the x87 variant (`Exp10.lean`) | `Exp10D`: every entry of the table is the correctly rounded power of ten; modf splits exactly, so `10^x = 2^(y log2 10) 10^n` and the errors of `exp2` (C98), of the product and of the constant add up; for `|x| ≥ 16` the result is that of `pow` (C103) |
| C105 | `erf`, `erfc`, `erfc1`, `erfc2`, all of erf.rs (`Erf.lean`) | `ErfD`: the interval calculator of `IvCalc` bounds each rational function with its rounding errors on pieces of its range; the tail uses C64 for `exp` (`erfc2_spec`). `ErfMain`: the branches, the sign of each sum, the operations on constants by uniqueness of IEEE results. The accuracy against the real error function is not part of the claim |
| C106 | `erff`, `erfcf`, `erfc1`, `erfc2`, all of erff.rs (`ErfF.lean`) | as C105 with the error bounds of f32 (`ErfFD`, `ErfFMain`); `expf` by C65, the mask `0xffffe000` by the lemma on cleared low bits. The accuracy against the real error function is not part of the claim |
| C107 | `erf` as in C105 | `ErfR`: the integral is compared with 18 terms of its series, `2/√π` with a rational number by Mathlib's bounds of π; `ErfAcc`: the rational function against the series by polynomial bounds on pieces, its rounding errors by `IvCalc`, then the two last operations. The other ranges of x are not covered |
| C52 | corollaries of C24-C26 | uniqueness of rounding |

## 5. Findings (model/code versus property)

* `libm/src/math/generic/fma.rs` lines 73-77: the sticky bit is computed from the already
  overwritten low word; `fma` (f64) and `fmaf128` are not correctly rounded in a sparse set of inputs
  (theorem `C44_fma_f64_fails`).
* `libm/src/math/generic/fma_wide.rs` lines 27-36: the halfway test inspects the bits discarded from a *normal* result; a
  result that is subnormal in f32 can be rounded twice. `fmaf(0x190007ff, 0x1afff003, 0x00400002)` (bit patterns) returns
  `0x00400002`, the correctly rounded result is `0x00400003` (theorem `C44_fmaf_fails`).
* `libm/src/math/support/hex_float.rs` lines 294-295: the decimal exponent accumulates with
  `saturating_mul(10)` followed by a plain `+`, which overflows `u32`; lines 135 and 157 overflow `i32` for exponents near
  `2^31`; line 69 admits `sig_bits = 0`, for which line 79 underflows (theorem `C48_panics`).
* `libm/src/math/support/hex_float.rs` line 158: `uexp << sig_bits` silently drops high bits of the exponent when
  `sig_bits > 96`. `parse_any("0x1p65536", 128, 112, Nearest)` returns `1.0` with status OK, and so does
  `hf128!("0x1p65536")` (theorem `C48_f128_wraps`).
* `libm/src/math/remquof.rs` increments the quotient without wrapping, `remquo.rs` with. Both are right: `C47_remquof_finite` shows that the f32 increment cannot overflow, `C47_remquo_finite` that the wrapped f64 quotient still has the right low 31 bits.
* `compiler-builtins/src/mem/impls.rs`: a region ending exactly at the top of the address space would make
  `dest.wrapping_add(n)` zero and the copy loops would do nothing. Rust allocations never include the last
  address, so the memory theorems assume `base + n < 2^W`.
* `compiler-builtins/src/float/div.rs` line 414 (FIXME "Is x_UQ0 still >= 0.5?") and lines 122-125 (one more
  half-width iteration for `f128`): the proof of C27 answers both. The reciprocal is at least one half whenever its
  error is below `2^(e-1)` units, which holds in all configurations. For `f128` the proved error after four half-width
  iterations (about 27000 units) exceeds what the correction can repair (`2^14`); with the fifth it is below 14000.
* `libm/src/math/generic/sqrt.rs`: the source comment (lines 184-185) says "I do not follow how the rounding bit is extracted".
  The proof of C43 supplies the missing argument: after the last iteration `m - 1/2 <= 2^p sqrt(x) < m + 3/2`, `d1` is
  `m^2 + m - 2^(2p) x` and its sign decides between `m` and `m + 1` because `(m + 1/2)^2` is never an integer. Line 205
  computes `d2` from `m` after the exponent was or-ed in (musl does so before), so the "exact" test of line 206 does not mean what
  its comment says. This affects only the floating-point inexact flag, which is outside the model; the returned value is right
  in either case (`sqrtInexact_eq`).
* `compiler-builtins/src/aarch64_outline_atomics.rs` `__aarch64_cas16*`, LL/SC path: when the comparison fails the code returns the pair
  read by `LDXP` without the store-exclusive that would confirm it. On cores where `LDXP` is not single-copy atomic for 16 bytes
  (before LSE2) the returned value may be one that memory never contained (theorem `C50_aarch64_cas16_torn`).
* `compiler-builtins/src/sync/arm_linux.rs`: a failing compare-and-swap returns after a relaxed load, without the barrier that a
  successful `__kuser_cmpxchg` implies. Orderings are outside the model; this is an observation, not a theorem.
* `libm/src/math/arch/x86/detect.rs` lines 114 and 193: F16C and FMA4 are reported from `cpuid` alone, without the OSXSAVE/XCR0 check
  that guards FMA. On an AMD processor with FMA4 whose OS does not enable AVX state, `fma`/`fmaf` jump to `vfmaddsd`/`vfmaddss`, which
  raise an invalid-opcode exception (theorem `C55_fma4_fails`). Line 102 tests `extended_max_basic_leaf >= 1`; extended leaves start at
  0x80000000, so the test is always true on processors with extended leaves and does not establish that leaf 0x80000001 exists.
* `libm/src/math/hypot.rs` line 205 (and 216): `m2 as i64 - rm2 as i64` is a difference of values modulo `2^64` written with a plain
  `-`; in a build with overflow checks `hypot(6650865.0, 64455968.0)` panics (theorem `C57_panics`).
* `libm/src/math/hypot.rs` line 220: on a tie the last bit of `rm` is cleared, but when `rm > 2^53` the result's last bit is the one
  above. `hypot(8034534073192032, 4071351205843455)` is exactly `2^53 + 1` and returns `2^53 + 2` instead of `2^53` (theorem
  `C57_tie_fails`). The ties concerned are exactly `2^j (1 + 2^-53)` and `2^j (1 + 5 * 2^-53)`.
* `libm/src/math/hypot.rs` lines 119-124: whether the fast path can be trusted is decided from the exponent of the rounded sum `th`. When
  `th` is a power of two and the correction is negative the spacing is half of what is assumed and the midpoint is not recognised:
  `hypot(0x1.cc26a5e15d271p+0, 0x1.c10583b5afc0bp-1)` returns `2.0`, the nearest number is `2 - 2^-52` (theorem `C57_blindspot_fails`).
