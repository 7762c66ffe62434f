{"id": "C01", "title": "128-bit unsigned division is exact", "statement": "For every 128-bit n and every d != 0, __udivmodti4/__udivti3/__umodti3 return q and r with n = q*d + r and r < d, no arithmetic step inside panics or is undefined, and the computation terminates. This holds for each of the three algorithms a target may select (trifecta, delegate, asymmetric).", "quantifier": "all 2^128 dividends, all non-zero 2^128-1 divisors, all three algorithms", "why_tests_cant": "2^256 input pairs; the algorithms have rarely taken correction branches (off by one quotient digits) that random sampling hits with negligible probability.", "anchors": ["compiler-builtins/src/int/specialized_div_rem/trifecta.rs: impl_trifecta!", "compiler-builtins/src/int/specialized_div_rem/delegate.rs: impl_delegate!", "compiler-builtins/src/int/specialized_div_rem/asymmetric.rs: impl_asymmetric!", "compiler-builtins/src/int/specialized_div_rem/mod.rs: u128_div_rem", "compiler-builtins/src/int/udiv.rs: __udivmodti4, __udivti3, __umodti3"]}
{"id": "C02", "title": "64-bit unsigned division is exact", "statement": "For every 64-bit n and every d != 0, __udivmoddi4/__udivdi3/__umoddi3 return q and r with n = q*d + r and r < d without panicking or undefined behaviour, whichever of the delegate, binary-long or asymmetric algorithms the target selects.", "quantifier": "all 64-bit dividends and non-zero divisors, all selectable algorithms", "why_tests_cant": "2^128 input pairs, several normalisation paths per algorithm.", "anchors": ["compiler-builtins/src/int/specialized_div_rem/delegate.rs", "compiler-builtins/src/int/specialized_div_rem/binary_long.rs", "compiler-builtins/src/int/specialized_div_rem/asymmetric.rs", "compiler-builtins/src/int/specialized_div_rem/mod.rs: u64_div_rem", "compiler-builtins/src/int/udiv.rs: __udivmoddi4, __udivdi3, __umoddi3"]}
{"id": "C03", "title": "32-bit unsigned division is exact", "statement": "For every 32-bit n and every d != 0, __udivmodsi4/__udivsi3/__umodsi3 return the unique q, r with n = q*d + r and r < d without panicking or undefined behaviour, and the restoring loop terminates within the word width.", "quantifier": "all 32-bit dividends and non-zero divisors", "why_tests_cant": "2^64 pairs; termination of the loop and correctness of the estimated initial shift are for-all statements.", "anchors": ["compiler-builtins/src/int/specialized_div_rem/binary_long.rs: impl_binary_long!", "compiler-builtins/src/int/specialized_div_rem/norm_shift.rs: impl_normalization_shift!", "compiler-builtins/src/int/specialized_div_rem/mod.rs: u32_div_rem", "compiler-builtins/src/int/udiv.rs"]}
{"id": "C04", "title": "Signed division truncates toward zero", "statement": "For every signed n and every d != 0 with (n,d) != (MIN,-1), __divsi3/__divdi3/__divti3 return the quotient rounded toward zero, __modsi3/... return a remainder with the sign of the dividend and magnitude below |d|, and __divmod*4 returns both. For (MIN,-1) the quotient wraps to MIN and the remainder is 0 (no trap).", "quantifier": "all signed operand pairs of each width with non-zero divisor", "why_tests_cant": "Sign/edge combinations including MIN in either operand; pairs are too many to enumerate.", "anchors": ["compiler-builtins/src/int/sdiv.rs: sdiv!, smod!, sdivmod!"]}
{"id": "C05", "title": "Multiplication returns the low half of the exact product", "statement": "__mulsi3, __muldi3 and __multi3 return the exact product reduced modulo 2^width, for both the signed and unsigned reading of the operands, and no intermediate addition overflows in a checked build.", "quantifier": "all operand pairs of each width", "why_tests_cant": "2^64 to 2^256 pairs; carry propagation between partial products.", "anchors": ["compiler-builtins/src/int/mul.rs: Mul, __mulsi3, __muldi3, __multi3"]}
{"id": "C06", "title": "Overflow flag of checked multiplication is exact", "statement": "__mulosi4/__mulodi4/__muloti4 and __rust_u128_mulo/__rust_i128_mulo return the wrapped product and report overflow if and only if the mathematical product does not fit in the (signed or unsigned) result type.", "quantifier": "all operand pairs of each width, signed and unsigned", "why_tests_cant": "Both directions of the iff are for-all statements; the failing inputs of a wrong flag are a thin boundary set.", "anchors": ["compiler-builtins/src/int/mul.rs: UMulo, Mulo, __mulosi4, __mulodi4, __muloti4, __rust_u128_mulo, __rust_i128_mulo"]}
{"id": "C07", "title": "128-bit add/sub and their overflow flags are exact", "statement": "__rust_{u,i}128_add/sub return the sum/difference modulo 2^128; __rust_{u,i}128_addo/subo additionally report overflow iff the mathematical result is not representable in the type.", "quantifier": "all operand pairs", "why_tests_cant": "Carries between halves and sign corner cases over 2^256 pairs.", "anchors": ["compiler-builtins/src/int/addsub.rs: AddSub, Addo, Subo, __rust_u128_addo ..."]}
{"id": "C08", "title": "Software shifts equal mathematical shifts", "statement": "For every value and every shift amount below the width, __ashldi3/__ashlti3 return a*2^b mod 2^width, __lshrdi3/__lshrti3 return floor(a/2^b) for the unsigned value, __ashrdi3/__ashrti3 return floor(a/2^b) for the signed value; no inner shift is by an amount at or above its own width.", "quantifier": "all values, all shift amounts below the width, all widths (two halves of any size)", "why_tests_cant": "2^128 values times 128 amounts; the b=0 and b=half-width branches are guarded specially.", "anchors": ["compiler-builtins/src/int/shift.rs: Ashl, Ashr, Lshr"]}
{"id": "C09", "title": "Leading-zero count is exact", "statement": "__clzsi2/__clzdi2/__clzti2 return the number of leading zero bits of every input including 0 (returning the full width), for the binary-search and the riscv-style comparison variants alike.", "quantifier": "all inputs of each width, both implementations", "why_tests_cant": "2^128 inputs for the widest; two independently written variants must agree everywhere.", "anchors": ["compiler-builtins/src/int/leading_zeros.rs: leading_zeros_default, leading_zeros_riscv, __clzti2"]}
{"id": "C10", "title": "Trailing-zero count is exact", "statement": "__ctzsi2/__ctzdi2/__ctzti2 return the index of the lowest set bit of every non-zero input and the full width for 0.", "quantifier": "all inputs of each width", "why_tests_cant": "2^128 inputs.", "anchors": ["compiler-builtins/src/int/trailing_zeros.rs: trailing_zeros, __ctzsi2, __ctzdi2, __ctzti2"]}
{"id": "C11", "title": "Byte swap reverses bytes", "statement": "__bswapsi2/__bswapdi2/__bswapti2 return the value whose i-th byte is byte (n-1-i) of the input; applying it twice is the identity.", "quantifier": "all inputs, all byte positions", "why_tests_cant": "2^128 inputs.", "anchors": ["compiler-builtins/src/int/bswap.rs"]}
{"id": "C12", "title": "256-bit helper integers compute exact arithmetic", "statement": "u256/i256 addition, subtraction, shift-left, shift-right and negation-style operations agree with arithmetic modulo 2^256 (shift right of i256 is floor division), and widening multiplication of two 128-bit numbers gives the exact 256-bit product.", "quantifier": "all operands and all shift amounts below 256", "why_tests_cant": "2^512 operand pairs, limb-wise carries.", "anchors": ["libm/src/math/support/big.rs: u256, i256, impl Add/Sub/Shl/Shr, zero_widen_mul"]}
{"id": "C13", "title": "Narrowing division is exact and detects overflow", "statement": "Dividing a double-width n by a single-width d with checked narrowing division returns Some((q, r)) with n = q*d+r, r < d exactly when d != 0 and the quotient fits in the single width, and None otherwise; this holds for the primitive widths and for 256-by-128 bits, where the inner three-by-two digit division never overflows.", "quantifier": "all double-width dividends and single-width divisors", "why_tests_cant": "Knuth-style quotient-digit correction happens at most twice but on vanishingly rare inputs.", "anchors": ["libm/src/math/support/int_traits/narrowing_div.rs: NarrowingDiv, div_three_digits_by_two"]}
{"id": "C14", "title": "Modular power-of-two multiplication is exact", "statement": "The reducer used by fmod computes (x * 2^e) mod y exactly for every x, every e and every y in its accepted range, and every intermediate product fits its integer type.", "quantifier": "all x, e, y in the accepted ranges", "why_tests_cant": "The number of reduction steps is unbounded in e and the invariants are tight; a wrong bound shows up only on rare operands.", "anchors": ["libm/src/math/support/modular.rs: linear_mul_reduction, Reducer"]}
{"id": "C15", "title": "memcpy copies exactly the requested bytes", "statement": "memcpy(dest, src, n) with non-overlapping regions leaves dest[0..n) equal to the original src[0..n), changes no other byte of memory, returns dest, reads only inside src[0..n), writes only inside dest[0..n), and every word access is aligned - for every n, every pair of alignments, every word size and both endiannesses.", "quantifier": "all memories, addresses, lengths, alignments, word sizes, endiannesses", "why_tests_cant": "Tests sample some lengths/alignments; out-of-bounds reads by word access are invisible to tests; big-endian shifting paths are rarely run.", "anchors": ["compiler-builtins/src/mem/impls.rs: copy_forward, load_aligned_partial, load_aligned_end_partial, load_chunk_aligned", "compiler-builtins/src/mem/mod.rs: memcpy"]}
{"id": "C16", "title": "memmove is correct under any overlap", "statement": "memmove(dest, src, n) leaves dest[0..n) equal to the original contents of src[0..n) for every relative position of the two regions, touching no other byte and making only in-bounds, aligned word accesses.", "quantifier": "all memories, addresses, overlaps, lengths, word sizes, endiannesses", "why_tests_cant": "Overlap distance x alignment x length is unbounded; the direction choice depends on wrapping pointer subtraction.", "anchors": ["compiler-builtins/src/mem/impls.rs: copy_forward, copy_backward", "compiler-builtins/src/mem/mod.rs: memmove"]}
{"id": "C17", "title": "memset fills exactly the requested bytes", "statement": "memset(dest, c, n) sets every byte of dest[0..n) to c mod 256, changes nothing else, and only makes in-bounds aligned word writes.", "quantifier": "all memories, addresses, values, lengths, word sizes", "why_tests_cant": "Off-by-one errors depend on alignment/length combinations.", "anchors": ["compiler-builtins/src/mem/impls.rs: set_bytes", "compiler-builtins/src/mem/mod.rs: memset"]}
{"id": "C18", "title": "memcmp/bcmp order by first differing byte", "statement": "memcmp(a,b,n) is 0 iff the n bytes agree; otherwise its sign is that of the difference of the first differing unsigned bytes. bcmp is zero iff equal. Only bytes up to and including the first difference (in the simple version) or inside the n-byte regions are read.", "quantifier": "all memories, addresses, lengths", "why_tests_cant": "Unbounded lengths.", "anchors": ["compiler-builtins/src/mem/impls.rs: compare_bytes", "compiler-builtins/src/mem/mod.rs: memcmp, bcmp"]}
{"id": "C19", "title": "strlen returns the index of the first NUL", "statement": "strlen(s) returns the least k with s[k]=0 and terminates whenever such k exists, reading nothing beyond the terminator (generic version).", "quantifier": "all memories and addresses containing a terminator", "why_tests_cant": "Unbounded string lengths.", "anchors": ["compiler-builtins/src/mem/impls.rs: c_string_length", "compiler-builtins/src/mem/mod.rs: strlen"]}
{"id": "C20", "title": "x86_64 rep-based copies and fills equal the byte-wise specification", "statement": "The x86_64 memcpy/memmove/memset (both with and without ERMSB) have the same effect as the byte-wise specification for every length, alignment and (for memmove) overlap, although they move aligned quadwords in the middle and, when copying backward, decrement pointers by 7 and 8.", "quantifier": "all memories, addresses, lengths, overlaps", "why_tests_cant": "Overlap with distance smaller than 8 while moving quadwords; only a proof covers all distances/alignments.", "anchors": ["compiler-builtins/src/mem/x86_64.rs: rep_param, copy_forward, copy_backward, set_bytes"]}
{"id": "C21", "title": "x86_64 memcmp equals the byte-wise order", "statement": "The x86_64 memcmp, which compares 16/8/4/2/1-byte blocks in a cascade, returns a value with the sign of the first differing byte, or 0, and reads only within the two n-byte regions.", "quantifier": "all memories, addresses, lengths", "why_tests_cant": "Unbounded lengths and positions of the first difference.", "anchors": ["compiler-builtins/src/mem/x86_64.rs: compare_bytes"]}
{"id": "C22", "title": "x86_64 strlen is correct and never touches a foreign block", "statement": "Both x86_64 strlen variants (SSE2 with 16-byte blocks, SWAR with 8-byte blocks) return the index of the first NUL; every wide read is naturally aligned and its block contains at least one byte of the string including its terminator (so it cannot cross into an unmapped page).", "quantifier": "all memories, addresses containing a terminator", "why_tests_cant": "The zero-byte bit trick must be exact as a predicate for all 2^64 words; over-reads are invisible to tests.", "anchors": ["compiler-builtins/src/mem/x86_64.rs: c_string_length"]}
{"id": "C23", "title": "Soft-float comparisons implement IEEE-754 predicates", "statement": "__lesf2/__gesf2/__unordsf2 and the eq/ne/lt/gt/cmp derivatives (f16..f128 generic) return a value whose sign encodes the numeric order of the two operands, treating -0 = +0 and infinities correctly, and NaN operands make ordered predicates false and unord true.", "quantifier": "all pairs of bit patterns in every format", "why_tests_cant": "2^64 to 2^256 pairs of patterns.", "anchors": ["compiler-builtins/src/float/cmp.rs: cmp, unord, __lesf2, __gesf2, __unordsf2, __aeabi_fcmp*"]}
{"id": "C24", "title": "Soft-float addition is correctly rounded", "statement": "__addsf3/__adddf3/__addtf3 return, for all finite operands, the representable value nearest to the exact sum (ties to even, overflow to infinity, exact zero sum +0 unless both negative), propagate NaN as quiet NaN and handle infinities per IEEE-754; no step panics.", "quantifier": "all pairs of bit patterns in every format", "why_tests_cant": "2^64..2^256 operand pairs; rounding/sticky errors occur on sparse inputs.", "anchors": ["compiler-builtins/src/float/add.rs: add"]}
{"id": "C25", "title": "Soft-float subtraction is correctly rounded", "statement": "__subsf3/__subdf3/__subtf3 return the representable value nearest to a-b (ties to even) with IEEE handling of zeros, infinities and NaN.", "quantifier": "all pairs of bit patterns in every format", "why_tests_cant": "as C24", "anchors": ["compiler-builtins/src/float/sub.rs", "compiler-builtins/src/float/add.rs"]}
{"id": "C26", "title": "Soft-float multiplication is correctly rounded", "statement": "__mulsf3/__muldf3/__multf3 return the representable value nearest to the exact product (ties to even, gradual underflow, overflow to infinity), with the sign the xor of signs, IEEE handling of 0*inf, NaN; no step panics.", "quantifier": "all pairs of bit patterns in every format", "why_tests_cant": "as C24; double rounding in the subnormal range", "anchors": ["compiler-builtins/src/float/mul.rs: mul"]}
{"id": "C27", "title": "Soft-float division is correctly rounded", "statement": "__divsf3/__divdf3/__divtf3 return the representable value nearest to the exact quotient (ties to even incl. subnormal results), IEEE handling of zero/inf/NaN; the Newton-Raphson reciprocal estimate never errs outside the bound the final correction can repair.", "quantifier": "all pairs of bit patterns in every format", "why_tests_cant": "Error analysis of the iteration is needed: failing divisors are rare.", "anchors": ["compiler-builtins/src/float/div.rs: div, get_iterations, reciprocal_precision"]}
{"id": "C28", "title": "Float extension is exact", "statement": "__extendsfdf2, __extendhfsf2, ... map every finite value to a pattern with exactly the same real value and sign (normalising subnormals), infinities to infinities and NaN to NaN.", "quantifier": "all patterns of the source format, all format pairs", "why_tests_cant": "Up to 2^64 patterns, normalisation shift.", "anchors": ["compiler-builtins/src/float/extend.rs: extend"]}
{"id": "C29", "title": "Float truncation is correctly rounded", "statement": "__truncdfsf2, __truncsfhf2, __trunctfdf2, ... return the destination value nearest to the source value (ties to even, gradual underflow, overflow to infinity), keep the sign, and map NaN to a quiet NaN and infinity to infinity.", "quantifier": "all patterns of the source format, all format pairs", "why_tests_cant": "2^128 patterns; sticky/denormal path.", "anchors": ["compiler-builtins/src/float/trunc.rs: trunc"]}
{"id": "C30", "title": "Truncating an extended value gives it back", "statement": "Extending any non-NaN value to a wider format and truncating back yields the identical bit pattern.", "quantifier": "all patterns of the narrow format, all format pairs", "why_tests_cant": "2^64 patterns per pair.", "anchors": ["compiler-builtins/src/float/extend.rs", "compiler-builtins/src/float/trunc.rs"]}
{"id": "C31", "title": "Integer to float conversion is correctly rounded", "statement": "__floatunsisf ... __floattitf (all integer widths, signed and unsigned, to f16..f128) return the representable value nearest to the integer, ties to even, with correct sign and +0 for 0.", "quantifier": "all integers of each width", "why_tests_cant": "2^128 integers; rounding at different bit positions with hand-written bit tricks.", "anchors": ["compiler-builtins/src/float/conv.rs: int_to_float, u32_to_f32_bits, u64_to_f32_bits, u128_to_f64_bits, ..."]}
{"id": "C32", "title": "Float to integer conversion saturates and truncates", "statement": "__fixsfsi ... __fixunstfti return the value truncated toward zero when it is representable, the nearest type bound when it is out of range (including infinities), and 0 for NaN.", "quantifier": "all patterns of each format, each integer width", "why_tests_cant": "2^128 patterns; boundary exponents.", "anchors": ["compiler-builtins/src/float/conv.rs: float_to_unsigned_int, float_to_signed_int, float_to_int_inner"]}
{"id": "C33", "title": "powi multiplies the right number of times", "statement": "__powisf2/__powidf2/__powitf2(a, n) evaluate a product that equals a^n exactly over any commutative field (1/a^|n| for negative n), including n = i32::MIN, and terminate for every n.", "quantifier": "all exponents (2^32) and all bases", "why_tests_cant": "Covers n = i32::MIN, where |n| is not an i32.", "anchors": ["compiler-builtins/src/float/pow.rs: pow"]}
{"id": "C34", "title": "floor, ceil and trunc are exact", "statement": "For every finite x, floor/ceil/trunc return exactly the greatest integer <= x / least integer >= x / integer part toward zero, preserving the sign of zero results; infinities are returned unchanged and NaN stays NaN. The status result reports inexact iff the value changed.", "quantifier": "all patterns of every format", "why_tests_cant": "2^64 patterns and more.", "anchors": ["libm/src/math/generic/floor.rs", "libm/src/math/generic/ceil.rs", "libm/src/math/generic/trunc.rs"]}
{"id": "C35", "title": "rint/roundeven round to nearest, ties to even", "statement": "For every finite x, rint/roundeven return the nearest integer, ties to even, with the sign of x kept when the result is zero; infinities and NaN map to themselves.", "quantifier": "all patterns of every format", "why_tests_cant": "The implementation adds and subtracts 2^SIG_BITS and relies on exact IEEE rounding; ties are sparse.", "anchors": ["libm/src/math/generic/rint.rs", "libm/src/math/roundeven.rs"]}
{"id": "C36", "title": "round rounds to nearest, ties away from zero", "statement": "For every finite x, round returns the nearest integer with halfway cases away from zero, in particular 0.49999999999999994 rounds to 0 and odd integers above 2^SIG_BITS are unchanged.", "quantifier": "all patterns of every format", "why_tests_cant": "Adding just-below-half can round up wrongly for specific x; needs a proof for every x.", "anchors": ["libm/src/math/generic/round.rs"]}
{"id": "C37", "title": "copysign and fabs only touch the sign bit", "statement": "copysign(x,y) has the magnitude bits of x and sign bit of y; fabs clears the sign bit; for every pattern including NaN payloads.", "quantifier": "all pattern pairs", "why_tests_cant": "2^128 pairs.", "anchors": ["libm/src/math/generic/copysign.rs", "libm/src/math/generic/fabs.rs"]}
{"id": "C38", "title": "min/max families follow IEEE-754 (2008/2019)", "statement": "fmin/fmax return the other operand if exactly one is NaN; fminimum/fmaximum propagate NaN and order -0 < +0; fminimum_num/fmaximum_num ignore a NaN operand and order -0 < +0; otherwise the numerically smaller/larger operand is returned, bit-identical to one of the operands.", "quantifier": "all pattern pairs in every format", "why_tests_cant": "2^256 pairs.", "anchors": ["libm/src/math/generic/fmin.rs", "libm/src/math/generic/fmax.rs", "libm/src/math/generic/fminimum.rs", "libm/src/math/generic/fmaximum.rs", "libm/src/math/generic/fminimum_num.rs", "libm/src/math/generic/fmaximum_num.rs"]}
{"id": "C39", "title": "fmod is exact", "statement": "For finite x and finite non-zero y, fmod returns exactly x - y*trunc(x/y): the result has the sign of x and magnitude below |y|; fmod(x,inf)=x, and invalid operands give NaN. No intermediate step panics, and the number of reduction steps is bounded.", "quantifier": "all pattern pairs in every format", "why_tests_cant": "Exponent differences up to 2^15 and unbounded quotient sizes.", "anchors": ["libm/src/math/generic/fmod.rs", "libm/src/math/support/modular.rs"]}
{"id": "C40", "title": "frexp decomposes exactly", "statement": "For finite non-zero x, frexp returns (m,e) with x = m*2^e exactly and 0.5 <= |m| < 1; 0, infinities and NaN are returned unchanged.", "quantifier": "all patterns of every format", "why_tests_cant": "Subnormal normalisation for each leading-zero count.", "anchors": ["libm/src/math/generic/frexp.rs"]}
{"id": "C41", "title": "ilogb is the exact exponent", "statement": "For finite non-zero x, ilogb(x) is the integer e with 2^e <= |x| < 2^(e+1); zero and NaN give FP_ILOGB0/FP_ILOGBNAN and infinity gives i32::MAX.", "quantifier": "all patterns of every format", "why_tests_cant": "as C40", "anchors": ["libm/src/math/generic/ilogb.rs"]}
{"id": "C42", "title": "scalbn/ldexp are correctly rounded", "statement": "scalbn(x,n) returns the representable value nearest to x*2^n, ties to even, for every i32 n: no double rounding in the subnormal range, overflow to infinity.", "quantifier": "all patterns x all 2^32 exponents", "why_tests_cant": "Multi-step scaling could double round; a proof is needed over all n.", "anchors": ["libm/src/math/generic/scalbn.rs", "libm/src/math/ldexp.rs"]}
{"id": "C43", "title": "sqrt is correctly rounded", "statement": "For every non-negative finite x the software sqrt returns the representable value nearest to the real square root; sqrt(-0)=-0, sqrt(+inf)=+inf, negative numbers and NaN give NaN; fixed-point Goldschmidt steps never overflow.", "quantifier": "all patterns of every format", "why_tests_cant": "2^64..2^128 inputs, worst cases very close to midpoints.", "anchors": ["libm/src/math/generic/sqrt.rs"]}
{"id": "C44", "title": "fma rounds once", "statement": "fma(x,y,z) returns the representable value nearest to the exact x*y+z (ties to even).", "quantifier": "all pattern triples in every format", "why_tests_cant": "2^192 triples; the failing inputs of the f64/f128 implementation form a sparse set.", "anchors": ["libm/src/math/generic/fma.rs", "libm/src/math/generic/fma_wide.rs", "libm/src/math/fmaf16.rs", "libm/src/math/fma.rs"]}
{"id": "C45", "title": "modf splits exactly", "statement": "For finite x, modf returns (frac, int) with int = trunc(x), frac + int = x exactly, both carrying the sign of x; infinities give (+-0, inf), NaN gives NaN.", "quantifier": "all patterns", "why_tests_cant": "2^64 patterns.", "anchors": ["libm/src/math/modf.rs", "libm/src/math/modff.rs"]}
{"id": "C46", "title": "nextafter is the adjacent value", "statement": "For non-NaN x != y, nextafter(x,y) is the representable value adjacent to x in the direction of y (no representable value lies strictly between); nextafter(x,x)=y.", "quantifier": "all pattern pairs", "why_tests_cant": "2^128 pairs, crossing zero, subnormals, max-finite to infinity.", "anchors": ["libm/src/math/nextafter.rs", "libm/src/math/nextafterf.rs"]}
{"id": "C47", "title": "remainder/remquo are exact", "statement": "For finite x and non-zero y, remainder returns exactly x - n*y where n is the integer nearest x/y (ties to even); remquo additionally returns the sign and the low bits of n.", "quantifier": "all pattern pairs", "why_tests_cant": "Loop iterations up to 2^11 (f64), tie cases sparse.", "anchors": ["libm/src/math/remquo.rs", "libm/src/math/remquof.rs", "libm/src/math/remainder.rs"]}
{"id": "C48", "title": "Hex float parsing is correctly rounded and total", "statement": "Parsing a hexadecimal float literal returns the representable value nearest to the denoted real number under the requested rounding, with correct status flags, or an error for malformed text; it never panics and never mis-reads a long exponent.", "quantifier": "all strings", "why_tests_cant": "Unbounded strings, saturating exponent accumulations.", "anchors": ["libm/src/math/support/hex_float.rs: parse_any, parse_finite, parse_hex"]}
{"id": "C49", "title": "ARM/Linux sub-word atomics are linearizable", "statement": "Any number of threads running __sync_fetch_and_*/__sync_*_and_fetch/__sync_lock_test_and_set/__sync_val_compare_and_swap of sizes 1, 2, 4 on any addresses, interleaved arbitrarily, with spurious kernel cmpxchg failures allowed: every completed operation took effect atomically exactly once on its own 1/2/4 bytes between its call and return, returned the documented old/new value, and never changed neighbouring bytes.", "quantifier": "all schedules, all thread counts, all operand values, both endiannesses", "why_tests_cant": "All interleavings of an unbounded number of threads cannot be enumerated.", "anchors": ["compiler-builtins/src/sync/arm_linux.rs: atomic_rmw, atomic_cmpxchg, get_shift_mask", "compiler-builtins/src/sync/arm_thumb_shared.rs"]}
{"id": "C50", "title": "LL/SC based atomics are linearizable", "statement": "The ldrex/strex (thumbv6k) and ldxr/stxr or LSE (aarch64 outline atomics) operations are linearizable for all interleavings with arbitrary spurious store-exclusive failures, and both code paths chosen by the runtime CPU-feature flag have the same observable behaviour.", "quantifier": "all schedules, thread counts, values, sizes", "why_tests_cant": "as C49", "anchors": ["compiler-builtins/src/sync/thumbv6k.rs", "compiler-builtins/src/aarch64_outline_atomics.rs"]}
{"id": "C51", "title": "CPU feature cache is race free", "statement": "However threads race on the lazily initialised CPU-feature word, every caller gets the flags that detection computes, and once a caller has observed the initialised word all later callers do too; detected flags never contain the reserved initialised bit.", "quantifier": "all schedules and thread counts", "why_tests_cant": "Races.", "anchors": ["libm/src/math/support/feature_detect.rs: get_or_init_flags_cache, Flags, select_once!"]}
{"id": "C52", "title": "Soft-float arithmetic is commutative and sign-symmetric", "statement": "a+b and b+a (and a*b, b*a) are bit-identical for non-NaN results; negating both operands of an addition whose sum is non-zero negates the result; a-b = a+(-b).", "quantifier": "all pattern pairs", "why_tests_cant": "2^128+ pairs.", "anchors": ["compiler-builtins/src/float/add.rs", "compiler-builtins/src/float/mul.rs", "compiler-builtins/src/float/sub.rs"]}
{"id": "C53", "title": "fdim is max(x-y, 0)", "statement": "For all non-NaN x,y fdim returns the correctly rounded x-y when x > y and +0 when x <= y; NaN operands give NaN.", "quantifier": "all pattern pairs", "why_tests_cant": "2^128 pairs.", "anchors": ["libm/src/math/generic/fdim.rs"]}
{"id": "C54", "title": "Integer/float round trip", "statement": "Converting an integer whose magnitude is at most 2^(SIG_BITS+1) to a float and back returns the same integer, and for every integer the result of int->float->int differs only by the rounding of the first step (saturating).", "quantifier": "all integers of each width", "why_tests_cant": "2^128 integers.", "anchors": ["compiler-builtins/src/float/conv.rs"]}
{"id": "C55", "title": "CPU feature detection reports exactly the usable instruction sets", "statement": "On every x86 processor/OS combination (any answers of cpuid and any XCR0) feature detection does not fault, reports each instruction set that can be executed, reports none that cannot, and the implementation of fma/fmaf chosen at run time consists of executable instructions and passes its own precondition check.", "quantifier": "all cpuid/XCR0 contents, all schedules of racing callers", "why_tests_cant": "A test sees only the machine it runs on.", "anchors": ["libm/src/math/arch/x86/detect.rs: load_x86_features, get_cpu_features", "libm/src/math/arch/x86/fma.rs: fma, fmaf"]}
{"id": "C56", "title": "Hexadecimal formatting is exact, total and reversible", "statement": "Formatting a float as hexadecimal text (Hex(x)) never panics; the text of a finite number is its sign and a hex literal of exactly its value; parsing the text in any rounding mode, or with the hf16!/hf32!/hf64!/hf128! functions, returns the same bit pattern with no status flag (zeros of both signs, subnormals and infinities included); NaN texts show sign, kind and payload; different bit patterns never have the same text.", "quantifier": "all bit patterns of all four formats, all rounding modes, both NaN conventions", "why_tests_cant": "2^128 bit patterns of f128, and the correspondence of two independent algorithms (printer and parser).", "anchors": ["libm/src/math/support/hex_float.rs: fmt_any_hex, parse_any, parse_hex_exact"]}
{"id": "C57", "title": "hypot is correctly rounded and never panics", "statement": "hypot(x, y) returns the f64 nearest (ties to even) to the real number sqrt(x^2+y^2), without intermediate overflow or underflow and without panicking; the result is +inf if either argument is infinite (even if the other is NaN), NaN for other NaN arguments, exact when the exact value is a number, never smaller than |x| or |y|, and independent of the signs and the order of the arguments.", "quantifier": "all pairs of f64 bit patterns; compiled with or without overflow checks; any correctly rounded native operations", "why_tests_cant": "2^128 argument pairs; the exceptional cases (ties, near-ties next to a power of two, wrapped differences) are rarer than one in 2^50 and are not found by random or spaced tests.", "anchors": ["libm/src/math/hypot.rs: hypot, cr_hypot, as_hypot_hard, as_hypot_denorm, as_hypot_overflow, fasttwosum"]}
{"id": "C58", "title": "The digits of 2/pi are right and no float is a near multiple of pi/2", "statement": "The 690 entries of the table used by the argument reduction of the trigonometric functions are exactly the first 690 base-2^24 digits of 2/pi, and no f64 of magnitude at least 1/2 (f32 of magnitude at least 2^23) is closer to a multiple of pi/2 than 2^-62 (2^-36) in units of pi/2, so the number of digits the reduction keeps is sufficient.", "quantifier": "all table entries; all finite f64/f32 of the stated magnitude and all integers k", "why_tests_cant": "The table is checked against the irrational number pi itself; 2^63 numbers times unboundedly many multiples.", "anchors": ["libm/src/math/rem_pio2_large.rs", "libm/src/math/rem_pio2.rs", "libm/src/math/rem_pio2f.rs"]}
{"id": "C59", "title": "Argument reduction modulo pi/2 is accurate, total and memory safe", "statement": "For every finite f64 above pi/4 (f32 above 9pi/4) rem_pio2 (rem_pio2f) returns without panicking, without indexing outside its arrays and after finitely many iterations of its retry loop, an octant n congruent modulo 8 to some integer k and a remainder equal to x - k*pi/2 up to a relative error of 2^-64 (0.75*2^-25, and an absolute error of 2^-46), of magnitude at most pi/4 up to the tolerance of the thresholds; for infinities and NaN the octant is 0 and the remainder NaN.", "quantifier": "all f64/f32 bit patterns, both pointer widths, any correctly rounded native operations", "why_tests_cant": "The hard cases are isolated: 2^64 arguments, a retry loop entered only for special ones.", "anchors": ["libm/src/math/rem_pio2.rs", "libm/src/math/rem_pio2f.rs", "libm/src/math/rem_pio2_large.rs"]}
{"id": "C60", "title": "sin, cos and sincos are faithfully rounded for every argument", "statement": "For every finite f64 x, sin(x), cos(x) and both results of sincos(x) are finite floats with no float strictly between them and the real sine or cosine of x (equal to it if it is representable), lie in [-1, 1], and are computed without a panic; tiny arguments and signed zeros are returned unchanged by sin; infinities and NaN give NaN.", "quantifier": "all 2^64 f64 bit patterns, both pointer widths, any correctly rounded native operations", "why_tests_cant": "2^64 arguments; the true value is a transcendental number that tests can only approximate; worst cases of the reduction and of the polynomial kernels are isolated.", "anchors": ["libm/src/math/sin.rs", "libm/src/math/cos.rs", "libm/src/math/sincos.rs", "libm/src/math/k_sin.rs", "libm/src/math/k_cos.rs"]}
{"id": "C61", "title": "sinf, cosf and sincosf are faithfully rounded for every argument", "statement": "For every finite f32 x, sinf(x), cosf(x) and both results of sincosf(x) are finite floats with no f32 strictly between them and the real sine or cosine of x (equal to it if it is representable), lie in [-1, 1], and are computed without a panic; arguments below 2^-12 in magnitude, in particular signed zeros, are returned unchanged by sinf; infinities and NaN give NaN.", "quantifier": "all 2^32 f32 bit patterns, both pointer widths, any correctly rounded native operations", "why_tests_cant": "The true value is a transcendental number that tests can only approximate, and the result depends on five argument ranges, two signs and the multi-word reduction for large arguments.", "anchors": ["libm/src/math/sinf.rs", "libm/src/math/cosf.rs", "libm/src/math/sincosf.rs", "libm/src/math/k_sinf.rs", "libm/src/math/k_cosf.rs", "libm/src/math/rem_pio2f.rs"]}
{"id": "C62", "title": "tanf is faithfully rounded for every argument", "statement": "For every finite f32 x, tanf(x) is a finite float with no f32 strictly between it and the real tangent of x (equal to it if it is representable), computed without a panic; arguments below 2^-12 in magnitude, in particular signed zeros, are returned unchanged; infinities and NaN give NaN.", "quantifier": "all 2^32 f32 bit patterns, both pointer widths, any correctly rounded native operations", "why_tests_cant": "Near odd multiples of pi/2 the tangent amplifies the error of the reduced argument without bound; whether the reduction keeps enough bits there for every float, and whether the result stays within one ulp elsewhere, is a statement about isolated worst cases of a transcendental function.", "anchors": ["libm/src/math/tanf.rs", "libm/src/math/k_tanf.rs", "libm/src/math/rem_pio2f.rs"]}
{"id": "C63", "title": "tan is accurate to 2^-52 for every argument and faithfully rounded near its zeros and poles", "statement": "For every finite f64 x, tan(x) is finite, is computed without a panic, and differs from the real tangent of x by at most 2^-52 times its magnitude. It is faithfully rounded (no f64 strictly between it and the tangent) for every |x| up to pi/4, and for every larger x whose distance to the nearest multiple of pi/2 is at most 0.47 or at least 0.675. Arguments below 2^-27 in magnitude, in particular signed zeros, are returned unchanged; infinities and NaN give NaN.", "quantifier": "all 2^64 f64 bit patterns, both pointer widths, any correctly rounded native operations", "why_tests_cant": "Near a pole the tangent amplifies the error of the reduced argument without bound, and the reciprocal is computed in extra precision by splitting words; whether this suffices for each of 2^64 arguments is a statement about isolated worst cases of a transcendental function.", "anchors": ["libm/src/math/tan.rs", "libm/src/math/k_tan.rs", "libm/src/math/rem_pio2.rs"]}
{"id": "C64", "title": "exp is accurate to 0.95 * 2^-52 relatively for every argument, with exact overflow threshold", "statement": "For every finite f64 x with e^x < 2^1024, exp(x) is finite, positively signed, computed without a panic, and differs from the real e^x by at most 0.95 * 2^-52 * e^x + 2^-1075 (the last term is half of the least subnormal). For every finite x with e^x >= 2^1024 it is +infinity. exp(+-0) is 1, exp(+inf) = +inf, exp(-inf) = +0, and a NaN is returned unchanged.", "quantifier": "all 2^64 f64 bit patterns, any correctly rounded native operations", "why_tests_cant": "The reduction x - k ln 2 cancels against a two-part ln 2, k is picked by a rounded product, and the result is scaled through subnormals; whether the error stays bounded, no overflow threshold is off by one float and the i32 conversion never leaves its range for all 2^64 arguments is not settled by samples.", "anchors": ["libm/src/math/exp.rs", "libm/src/math/generic/scalbn.rs"]}
{"id": "C65", "title": "expf is accurate to 0.95 * 2^-23 relatively for every argument, with exact overflow threshold", "statement": "For every finite f32 x with e^x < 2^128, expf(x) is finite, positively signed, computed without a panic, and differs from the real e^x by at most 0.95 * 2^-23 * e^x + 2^-150. For every finite x with e^x >= 2^128 it is +infinity. expf(+-0) is 1, expf(+inf) = +inf, expf(-inf) = +0, and a NaN is returned unchanged.", "quantifier": "all 2^32 f32 bit patterns, any correctly rounded native operations", "why_tests_cant": "Same mechanism as exp with only 24 bits of working precision, integer comparisons of bit patterns instead of float comparisons for the thresholds, and a degree-2 rational approximation; the claim is about a real transcendental function.", "anchors": ["libm/src/math/expf.rs", "libm/src/math/generic/scalbn.rs"]}
{"id": "C66", "title": "log is accurate to 2^-52 relatively for every positive argument", "statement": "For every finite f64 x > 0, log(x) is finite, computed without a panic, and differs from the real natural logarithm ln x by at most 2^-52 * |ln x| (also next to x = 1, where the logarithm vanishes, and for subnormal x). log(1) is +0, log(+-0) is -infinity, log(+inf) = +inf, and the result is NaN for negative numbers, -infinity and NaN.", "quantifier": "all 2^64 f64 bit patterns, any correctly rounded native operations", "why_tests_cant": "The result is a sum of several terms of both signs with cancellation next to 1 and for exponents 0 and -1; a relative bound holds only because some of the sums and products are exact. It is a claim about a real transcendental function at 2^63 arguments.", "anchors": ["libm/src/math/log.rs"]}
{"id": "C67", "title": "logf is accurate to 2^-23 relatively for every positive argument", "statement": "For every finite f32 x > 0, logf(x) is finite, computed without a panic, and differs from ln x by at most 2^-23 * |ln x|. logf(1) is +0, logf(+-0) is -infinity, logf(+inf) = +inf, and the result is NaN for negative numbers, -infinity and NaN.", "quantifier": "all 2^32 f32 bit patterns, any correctly rounded native operations", "why_tests_cant": "Same mechanism as log at 24 bits: a relative error bound of a cancelling sum against a real transcendental function.", "anchors": ["libm/src/math/logf.rs"]}
{"id": "C68", "title": "atan is accurate to 2^-52 relatively and stays in [-pi/2, pi/2]", "statement": "For every finite f64 x, atan(x) is finite, computed without a panic, differs from the real arc tangent of x by at most 2^-52 * |arctan x|, and lies in [-pi/2, pi/2]. atan(+-inf) is the f64 nearest to +-pi/2, a NaN is returned unchanged, and atan(+-0) = +-0.", "quantifier": "all 2^64 f64 bit patterns, any correctly rounded native operations", "why_tests_cant": "The argument is reduced by four different addition theorems with rounded quotients, and the range claim depends on how the last subtraction rounds near pi/2; it is a claim about a real transcendental function at 2^64 arguments.", "anchors": ["libm/src/math/atan.rs"]}
{"id": "C69", "title": "atanf is accurate to 2^-23 relatively", "statement": "For every finite f32 x, atanf(x) is finite, computed without a panic, differs from arctan x by at most 2^-23 * |arctan x|, and its absolute value is at most the f32 nearest to pi/2 (which is greater than pi/2, and is reached: the documented range is exceeded by rounding). atanf(+-inf) is within 2^-23 of +-pi/2, a NaN is returned unchanged, and atanf(+-0) = +-0.", "quantifier": "all 2^32 f32 bit patterns, any correctly rounded native operations", "why_tests_cant": "Same mechanism as atan at 24 bits: a relative error bound against a real transcendental function over four reductions.", "anchors": ["libm/src/math/atanf.rs"]}
{"id": "C70", "title": "atan2 returns the angle of the point (x, y) to 2^-51 relatively", "statement": "For all finite f64 x and y with y != 0, atan2(y, x) is finite, computed without a panic, differs from the angle (argument) theta of the point (x, y) by at most 2^-51 * |theta| + 2^-1074, has the sign bit of y, and its absolute value is at most the f64 nearest to pi (which is below pi). For y = +-0 the result is y when the sign bit of x is clear and +-PI when it is set (x = +-0 included); infinities give the standard multiples of pi/4 exactly as rounded; a NaN operand gives NaN.", "quantifier": "all pairs of 2^64 f64 bit patterns, any correctly rounded native operations", "why_tests_cant": "2^128 pairs; quotients that overflow or underflow, cut-offs by exponent difference and the correction by the low part of pi in four quadrants all contribute to an error bound against a real function.", "anchors": ["libm/src/math/atan2.rs", "libm/src/math/atan.rs"]}
{"id": "C71", "title": "atan2f returns the angle of the point (x, y) to 2^-22 relatively", "statement": "For all finite f32 x and y with y != 0, atan2f(y, x) is finite, computed without a panic (no overflow of the exponent sums), differs from the angle theta of (x, y) by at most 2^-22 * |theta| + 2^-149, has the sign bit of y, and its absolute value is at most the f32 nearest to pi. Zeros, infinities and NaN as for atan2, except that atan2f(+-inf, 1.0) is the predecessor of the value returned for every other finite x.", "quantifier": "all pairs of 2^32 f32 bit patterns, any correctly rounded native operations", "why_tests_cant": "2^64 pairs; same mechanism as atan2 at 24 bits, with checked additions of exponents that must not overflow.", "anchors": ["libm/src/math/atan2f.rs", "libm/src/math/atanf.rs"]}
{"id": "C72", "title": "asin is within 5/2^54 of the arcsine relatively on all of [-1, 1]", "statement": "For every f64 x with |x| <= 1, asin(x) is finite, computed without a panic, differs from the arcsine of x by at most 5/2^54 times it, and lies in [-pi/2, pi/2]. asin(+-1) is the f64 nearest to +-pi/2, asin(+-0) = +-0. For |x| > 1, infinities and NaN the result is NaN.", "quantifier": "all 2^64 f64 bit patterns, any correctly rounded native operations", "why_tests_cant": "The domain has 2^62 values; the rational approximation, the square root of the reduced argument, its split into an upper half with an exact square and a correction, and the two-part constant for pi/2 all contribute to a bound against a real function that cannot be evaluated exactly.", "anchors": ["libm/src/math/asin.rs", "libm/src/math/sqrt.rs"]}
{"id": "C73", "title": "acos is within 2^-52 of the arccosine relatively on all of [-1, 1]", "statement": "For every f64 x with |x| <= 1, acos(x) is finite, computed without a panic, differs from the arccosine of x by at most 2^-52 times it (also near x = 1 where it tends to 0), and lies in [0, pi]. acos(1) = +0 and acos(-1) is the f64 nearest to pi. For |x| > 1, infinities and NaN the result is NaN.", "quantifier": "all 2^64 f64 bit patterns, any correctly rounded native operations", "why_tests_cant": "The domain has 2^62 values; the rational approximation, the square root of the reduced argument, its split into an upper half with an exact square and a correction, and the two-part constant for pi/2 all contribute to a bound against a real function that cannot be evaluated exactly.", "anchors": ["libm/src/math/acos.rs", "libm/src/math/sqrt.rs"]}
{"id": "C74", "title": "asinf is within 2^-23 of the arcsine relatively on all of [-1, 1]", "statement": "For every f32 x with |x| <= 1, asinf(x) is finite, computed without a panic, differs from the arcsine of x by at most 2^-23 times it, and its absolute value is at most the f32 nearest to pi/2. asinf(+-1) is that number, asinf(+-0) = +-0. For |x| > 1, infinities and NaN the result is NaN.", "quantifier": "all 2^32 f32 bit patterns, any correctly rounded native operations and conversions between f32 and f64", "why_tests_cant": "As for asin at 24 bits; the claim is for every correctly rounding machine, and against a real function.", "anchors": ["libm/src/math/asinf.rs", "libm/src/math/sqrt.rs"]}
{"id": "C75", "title": "acosf is within 2^-23 of the arccosine relatively on all of [-1, 1]", "statement": "For every f32 x with |x| <= 1, acosf(x) is finite, computed without a panic, differs from the arccosine of x by at most 2^-23 times it, and lies in [0, acosf(-1)]. acosf(1) = +0, acosf(-1) = 0x40490fda. For |x| > 1, infinities and NaN the result is NaN.", "quantifier": "all 2^32 f32 bit patterns, any correctly rounded native operations", "why_tests_cant": "As for acos at 24 bits; the claim is for every correctly rounding machine, and against a real function.", "anchors": ["libm/src/math/acosf.rs", "libm/src/math/sqrtf.rs"]}
{"id": "C76", "title": "cbrtf is the f32 nearest to the cube root, up to 2^-45, and exact on cubes", "statement": "For every finite nonzero f32 x, cbrtf(x) is finite, computed without a panic (no overflow of the u32 additions), has the sign of x, and no f32 is closer to the real cube root of x by more than 2^-45 of it; so it is within 2^-24 + 2^-44 of the cube root relatively. If x is the cube of an f32 number c, the result is exactly c. NaN gives NaN, infinities and zeros are returned unchanged.", "quantifier": "all 2^32 f32 bit patterns, any correctly rounded native operations and conversions between f32 and f64", "why_tests_cant": "The first approximation comes from an integer division of the bit pattern and has a different error for every exponent class and significand; the claim is against a real cube root, for every machine that rounds correctly, including every subnormal.", "anchors": ["libm/src/math/cbrtf.rs"]}
{"id": "C77", "title": "expm1 is within one unit of e^x - 1 relatively, for all arguments", "statement": "For every finite f64 x with e^x < 2^1024, expm1(x) is finite, computed without a panic, is never below -1, has the sign bit of x, and is within 2^-52 of e^x - 1 relatively - also where e^x - 1 is tiny, where it is close to -1, and where e^x is just below overflow. If e^x >= 2^1024 the result is +infinity. NaN is returned as it is, +infinity gives +infinity, -infinity gives exactly -1, and both zeros are returned unchanged.", "quantifier": "all 2^64 f64 bit patterns, any correctly rounded native operations", "why_tests_cant": "The claim is relative to a real number that is exponentially close to 0 or -1 in parts of the range; the code has eight branches by the multiple of ln 2, with different cancellation in each, and a wrong branch bound only shows for a few arguments.", "anchors": ["libm/src/math/expm1.rs"]}
{"id": "C78", "title": "expm1f is within one unit of e^x - 1 relatively, for all arguments", "statement": "For every finite f32 x with e^x < 2^128, expm1f(x) is finite, computed without a panic, is never below -1, has the sign bit of x, and is within 2^-23 of e^x - 1 relatively - also where e^x - 1 is tiny, where it is close to -1, and where e^x is just below overflow. If e^x >= 2^128 the result is +infinity. NaN is returned as it is, +infinity gives +infinity, -infinity gives exactly -1, and both zeros are returned unchanged.", "quantifier": "all 2^32 f32 bit patterns, any correctly rounded native operations", "why_tests_cant": "As for expm1; a test on one machine does not speak about another one that rounds correctly, and the comparison is with a real number.", "anchors": ["libm/src/math/expm1f.rs"]}
{"id": "C79", "title": "cosh is within 1.6 units of the hyperbolic cosine, for all arguments, and overflows only when it must", "statement": "For every finite f64 x with cosh x < 2^1024, cosh(x) is finite, computed without a panic, at least 1, and within 1.6 * 2^-52 of cosh x relatively - also between ln(2^1024) and the true overflow limit, where e^x itself overflows. If cosh x >= 2^1024 the result is +infinity. NaN gives NaN, both infinities give +infinity.", "quantifier": "all 2^64 f64 bit patterns, any correctly rounded native operations", "why_tests_cant": "The claim compares with a real number for every argument; the scaled exponential used near overflow is only reached by a tiny part of the range, and the finite/infinite boundary must match the real one exactly.", "anchors": ["libm/src/math/cosh.rs", "libm/src/math/k_expo2.rs"]}
{"id": "C80", "title": "coshf is within 1.6 units of the hyperbolic cosine, for all arguments, and overflows only when it must", "statement": "For every finite f32 x with cosh x < 2^128, coshf(x) is finite, computed without a panic, at least 1, and within 1.6 * 2^-23 of cosh x relatively - also between ln(2^128) and the true overflow limit, where e^x itself overflows. If cosh x >= 2^128 the result is +infinity. NaN gives NaN, both infinities give +infinity.", "quantifier": "all 2^32 f32 bit patterns, any correctly rounded native operations", "why_tests_cant": "The claim compares with a real number for every argument; the scaled exponential used near overflow is only reached by a tiny part of the range, and the finite/infinite boundary must match the real one exactly.", "anchors": ["libm/src/math/coshf.rs", "libm/src/math/k_expo2f.rs"]}
{"id": "C81", "title": "sinh is within 2.25 units of the hyperbolic sine, for all arguments, with the sign kept", "statement": "For every finite f64 x with |sinh x| < 2^1024, sinh(x) is finite, computed without a panic, has the sign bit of x, and is within 2.25 * 2^-52 of sinh x relatively, also for tiny x. If |sinh x| >= 2^1024 the result is the infinity with the sign of x. NaN gives NaN, infinities and both zeros are returned unchanged.", "quantifier": "all 2^64 f64 bit patterns, any correctly rounded native operations", "why_tests_cant": "Relative accuracy near zero, in the middle and near overflow depends on three formulas whose switching points no sample of arguments can certify.", "anchors": ["libm/src/math/sinh.rs", "libm/src/math/expo2.rs"]}
{"id": "C82", "title": "sinhf is within 2.25 units of the hyperbolic sine, for all arguments, with the sign kept", "statement": "For every finite f32 x with |sinh x| < 2^128, sinhf(x) is finite, computed without a panic, has the sign bit of x, and is within 2.25 * 2^-23 of sinh x relatively, also for tiny x. If |sinh x| >= 2^128 the result is the infinity with the sign of x. NaN gives NaN, infinities and both zeros are returned unchanged.", "quantifier": "all 2^32 f32 bit patterns, any correctly rounded native operations", "why_tests_cant": "Relative accuracy near zero, in the middle and near overflow depends on three formulas whose switching points no sample of arguments can certify.", "anchors": ["libm/src/math/sinhf.rs", "libm/src/math/k_expo2f.rs"]}
{"id": "C83", "title": "tanh is within 2.3 units of the hyperbolic tangent, never exceeds 1, with the sign kept", "statement": "For every finite f64 x, tanh(x) is finite, computed without a panic, at most 1 in magnitude, has the sign bit of x, and is within 2.3 * 2^-52 of tanh x relatively, also for subnormal x. NaN gives NaN, and an infinity gives exactly 1 with its sign.", "quantifier": "all 2^64 f64 bit patterns, any correctly rounded native operations", "why_tests_cant": "That no argument gives a result above 1, and that the five branches agree with the real function relatively down to the smallest numbers, is a claim over the whole range.", "anchors": ["libm/src/math/tanh.rs"]}
{"id": "C84", "title": "tanhf is within 2.3 units of the hyperbolic tangent, never exceeds 1, with the sign kept", "statement": "For every finite f32 x, tanhf(x) is finite, computed without a panic, at most 1 in magnitude, has the sign bit of x, and is within 2.3 * 2^-23 of tanh x relatively, also for subnormal x. NaN gives NaN, and an infinity gives exactly 1 with its sign.", "quantifier": "all 2^32 f32 bit patterns, any correctly rounded native operations", "why_tests_cant": "That no argument gives a result above 1, and that the five branches agree with the real function relatively down to the smallest numbers, is a claim over the whole range.", "anchors": ["libm/src/math/tanhf.rs"]}
{"id": "C85", "title": "log1p is within one unit of ln(1 + x), for every argument above -1, with the sign kept", "statement": "For every finite f64 x > -1, log1p(x) is finite, computed without a panic, has the sign bit of x, and is within 2^-52 of ln(1 + x) relatively - also for tiny x and for x next to -1. Arguments below 2^-53 in magnitude (also both zeros) are returned unchanged. log1p(-1) is -infinity; numbers below -1, -infinity and NaN give NaN; +infinity gives +infinity.", "quantifier": "all 2^64 f64 bit patterns, any correctly rounded native operations", "why_tests_cant": "The claim compares with a real number for every argument. 1 + x is rounded before the logarithm is taken and the correction term is exact only because of alignment facts that hold for all x; a wrong threshold only shows for a few arguments.", "anchors": ["libm/src/math/log1p.rs"]}
{"id": "C86", "title": "log1pf is within one unit of ln(1 + x), for every argument above -1, with the sign kept", "statement": "For every finite f32 x > -1, log1pf(x) is finite, computed without a panic, has the sign bit of x, and is within 2^-23 of ln(1 + x) relatively - also for tiny x and for x next to -1. Arguments below 2^-24 in magnitude (also both zeros) are returned unchanged. log1pf(-1) is -infinity; numbers below -1, -infinity and NaN give NaN; +infinity gives +infinity.", "quantifier": "all 2^32 f32 bit patterns, any correctly rounded native operations", "why_tests_cant": "The claim compares with a real number for every argument. 1 + x is rounded before the logarithm is taken and the correction term is exact only because of alignment facts that hold for all x; a wrong threshold only shows for a few arguments.", "anchors": ["libm/src/math/log1pf.rs"]}
{"id": "C87", "title": "asinh is within three units of the inverse hyperbolic sine for every finite argument, with the sign kept", "statement": "For every finite f64 x, asinh(x) is finite, computed without a panic, has the sign bit of x, and is within 3 * 2^-52 of the inverse hyperbolic sine of x relatively. Arguments below 2^-26 in magnitude (also both zeros) are returned unchanged, infinities are returned unchanged, NaN gives NaN.", "quantifier": "all 2^64 f64 bit patterns, any correctly rounded native operations", "why_tests_cant": "The claim compares with a real number for every argument; four formulas meet at thresholds, and x*x must not overflow or lose the small terms anywhere in the range of its formula.", "anchors": ["libm/src/math/asinh.rs"]}
{"id": "C88", "title": "asinhf is within three units of the inverse hyperbolic sine for every finite argument, with the sign kept", "statement": "For every finite f32 x, asinhf(x) is finite, computed without a panic, has the sign bit of x, and is within 3 * 2^-23 of the inverse hyperbolic sine of x relatively. Arguments below 2^-12 in magnitude (also both zeros) are returned unchanged, infinities are returned unchanged, NaN gives NaN.", "quantifier": "all 2^32 f32 bit patterns, any correctly rounded native operations", "why_tests_cant": "The claim compares with a real number for every argument; four formulas meet at thresholds, and x*x must not overflow or lose the small terms anywhere in the range of its formula.", "anchors": ["libm/src/math/asinhf.rs"]}
{"id": "C89", "title": "acosh is within three units of the inverse hyperbolic cosine for every argument from 1, and NaN below", "statement": "For every finite f64 x >= 1, acosh(x) is finite, computed without a panic, has no sign bit, and is within 3 * 2^-52 of the inverse hyperbolic cosine of x relatively - also for x next to 1, where the value is near 0. acosh(1) is +0; every number below 1, -infinity and NaN give NaN; +infinity gives +infinity.", "quantifier": "all 2^64 f64 bit patterns, any correctly rounded native operations", "why_tests_cant": "The claim compares with a real number for every argument. Near 1 the relative error would be unbounded for a formula that cancels; that numbers from -2 to 1 give NaN relies on how a square root of a negative or of a rounded value propagates through log1p.", "anchors": ["libm/src/math/acosh.rs"]}
{"id": "C90", "title": "acoshf is within three units of the inverse hyperbolic cosine for every argument from 1, and NaN below", "statement": "For every finite f32 x >= 1, acoshf(x) is finite, computed without a panic, has no sign bit, and is within 3 * 2^-23 of the inverse hyperbolic cosine of x relatively - also for x next to 1, where the value is near 0. acoshf(1) is +0; every number below 1, -infinity and NaN give NaN; +infinity gives +infinity.", "quantifier": "all 2^32 f32 bit patterns, any correctly rounded native operations", "why_tests_cant": "The claim compares with a real number for every argument. Near 1 the relative error would be unbounded for a formula that cancels; that numbers from -2 to 1 give NaN relies on how a square root of a negative or of a rounded value propagates through log1p.", "anchors": ["libm/src/math/acoshf.rs"]}
{"id": "C91", "title": "atanh is within three units of the inverse hyperbolic tangent between -1 and 1, infinite at the ends and NaN outside", "statement": "For every finite f64 x with |x| < 1, atanh(x) is finite, computed without a panic, has the sign bit of x, and is within 3 * 2^-52 of the inverse hyperbolic tangent of x relatively. Arguments below 2^-32 in magnitude (also both zeros) are returned unchanged. atanh(1) is +infinity, atanh(-1) is -infinity; |x| > 1, infinities and NaN give NaN.", "quantifier": "all 2^64 f64 bit patterns, any correctly rounded native operations", "why_tests_cant": "The claim compares with a real number for every argument, also next to 1 where 1 - x is a single unit and the quotient is near 2^53; a wrong threshold only shows for a few arguments.", "anchors": ["libm/src/math/atanh.rs"]}
{"id": "C92", "title": "atanhf is within three units of the inverse hyperbolic tangent between -1 and 1, infinite at the ends and NaN outside", "statement": "For every finite f32 x with |x| < 1, atanhf(x) is finite, computed without a panic, has the sign bit of x, and is within 3 * 2^-23 of the inverse hyperbolic tangent of x relatively. Arguments below 2^-32 in magnitude (also both zeros) are returned unchanged. atanhf(1) is +infinity, atanhf(-1) is -infinity; |x| > 1, infinities and NaN give NaN.", "quantifier": "all 2^32 f32 bit patterns, any correctly rounded native operations", "why_tests_cant": "The claim compares with a real number for every argument, also next to 1 where 1 - x is a single unit and the quotient is near 2^53; a wrong threshold only shows for a few arguments.", "anchors": ["libm/src/math/atanhf.rs"]}
{"id": "C93", "title": "log2 is accurate to 2^-52 relatively for every positive argument and exact at powers of two", "statement": "For every finite f64 x > 0, log2(x) is finite, computed without a panic, and differs from the real logarithm of x to base 2 by at most 2^-52 * |log_2 x| (also next to x = 1, where the logarithm vanishes, and for subnormal x). If x is a power of two 2^k, also a subnormal one, the result is exactly k. log2(1) is +0, log2(+-0) is -infinity, log2(+inf) = +inf, and the result is NaN for negative numbers, -infinity and NaN.", "quantifier": "all 2^64 f64 bit patterns, any correctly rounded native operations", "why_tests_cant": "The scaled logarithm is kept as a sum of two numbers, of which the high one must have so few digits that its product with the high part of the constant is exact, and the last sums compensate an error term; whether the bound holds next to 1 and next to powers of two depends on every one of these steps. It is a claim about a real transcendental function at 2^63 arguments.", "anchors": ["libm/src/math/log2.rs"]}
{"id": "C94", "title": "log2f is accurate to 3 * 2^-24 relatively for every positive argument and exact at powers of two", "statement": "For every finite f32 x > 0, log2f(x) is finite, computed without a panic, and differs from the real logarithm of x to base 2 by at most 3 * 2^-24 * |log_2 x| (also next to x = 1, where the logarithm vanishes, and for subnormal x). If x is a power of two 2^k, also a subnormal one, the result is exactly k. log2f(1) is +0, log2f(+-0) is -infinity, log2f(+inf) = +inf, and the result is NaN for negative numbers, -infinity and NaN.", "quantifier": "all 2^32 f32 bit patterns, any correctly rounded native operations", "why_tests_cant": "The relative bound next to 1 depends on exact products of parts with few digits; a wrong mask or constant changes only the last digit for some arguments. The comparison is with a real transcendental function.", "anchors": ["libm/src/math/log2f.rs"]}
{"id": "C95", "title": "log10 is accurate to 2^-52 relatively for every positive argument", "statement": "For every finite f64 x > 0, log10(x) is finite, computed without a panic, and differs from the real logarithm of x to base 10 by at most 2^-52 * |log_10 x| (also next to x = 1, where the logarithm vanishes, and for subnormal x). log10(1) is +0, log10(+-0) is -infinity, log10(+inf) = +inf, and the result is NaN for negative numbers, -infinity and NaN.", "quantifier": "all 2^64 f64 bit patterns, any correctly rounded native operations", "why_tests_cant": "The scaled logarithm is kept as a sum of two numbers, of which the high one must have so few digits that its product with the high part of the constant is exact, and the last sums compensate an error term; whether the bound holds next to 1 and next to powers of two depends on every one of these steps. It is a claim about a real transcendental function at 2^63 arguments.", "anchors": ["libm/src/math/log10.rs"]}
{"id": "C96", "title": "log10f is accurate to 3 * 2^-24 relatively for every positive argument", "statement": "For every finite f32 x > 0, log10f(x) is finite, computed without a panic, and differs from the real logarithm of x to base 10 by at most 3 * 2^-24 * |log_10 x| (also next to x = 1, where the logarithm vanishes, and for subnormal x). log10f(1) is +0, log10f(+-0) is -infinity, log10f(+inf) = +inf, and the result is NaN for negative numbers, -infinity and NaN.", "quantifier": "all 2^32 f32 bit patterns, any correctly rounded native operations", "why_tests_cant": "The relative bound next to 1 depends on exact products of parts with few digits; a wrong mask or constant changes only the last digit for some arguments. The comparison is with a real transcendental function.", "anchors": ["libm/src/math/log10f.rs"]}
{"id": "C97", "title": "exp2f is nearest to 2^x up to 2^-32 and exact at integers", "statement": "For every finite f32 x < 128, exp2f(x) is computed without a panic and is the float nearest to a real number that differs from 2^x by at most 2^-32 * 2^x, also where the result is subnormal or zero. At the integers from -149 to 127 the result is exactly 2^x. For x >= 128 the result is +infinity. exp2f(NaN) is the argument, exp2f(+inf) = +inf, exp2f(-inf) = +0.", "quantifier": "all 2^32 f32 bit patterns, any correctly rounded native f32 and f64 operations and conversions", "why_tests_cant": "The reduction adds and subtracts a large constant and takes the table index and the exponent from the bits of the sum; a table entry or a bit field wrong by one shows only for a part of the arguments. The claim compares with a real transcendental function for any native arithmetic.", "anchors": ["libm/src/math/exp2f.rs"]}
{"id": "C98", "title": "exp2 is accurate to 0.52 ulp and exact at integers", "statement": "For every finite f64 x < 1024, exp2(x) is computed without a panic, finite, has a clear sign bit and differs from 2^x by at most 1.04 * 2^-53 * 2^x + 2^-1075. At the integers from -1074 to 1023 the result is exactly 2^x. For x >= 1024 the result is +infinity. exp2(NaN) is NaN, exp2(+inf) = +inf, exp2(-inf) = +0.", "quantifier": "all 2^64 f64 bit patterns, any correctly rounded native operations", "why_tests_cant": "512 table entries, of which 256 are tiny corrections of the grid points, enter the result; a wrong digit in one of them changes the last bits for 1/256 of the arguments only. The claim is about a real transcendental function at 2^63 arguments.", "anchors": ["libm/src/math/exp2.rs"]}
{"id": "C99", "title": "exp10f is accurate and overflows exactly where 10^x >= 2^128", "statement": "For every finite f32 x with |x| < 8, exp10f(x) is finite and differs from 10^x by at most 6.2 * 2^-24 * 10^x; at integers it is the float nearest to 10^x. For |x| >= 8 with 10^x < 2^128 it is the float nearest to a real number that differs from 10^x by at most 2^-40 * 10^x (so it is finite). Where 10^x >= 2^128 it is +infinity. NaN gives NaN, +inf gives +inf, -inf gives +0. The table of powers is never read outside its bounds.", "quantifier": "all 2^32 f32 bit patterns, any correctly rounded native f32 and f64 operations and conversions", "why_tests_cant": "Three branches with different arithmetic meet at |x| = 8 and at the integers; the index into the table is computed from a float by a saturating cast. The bound is a claim about a real transcendental function.", "anchors": ["libm/src/math/exp10f.rs"]}
{"id": "C100", "title": "cbrt is correctly rounded unless the root is within 2^-100 of a midpoint", "statement": "For every finite nonzero f64 x, cbrt(x) is computed without a panic, finite, has the sign of x, and is a nearest f64 number to the real cube root y of x: if another number c is nearer, then y is within 2^-100 |y| of the middle of c and the result. The result is within (2^-53 + 2^-98) |y| of y. If x is the cube of an f64 number c, the result is c. NaN gives NaN, infinities and zeros are kept with their sign.", "quantifier": "all 2^64 f64 bit patterns, any correctly rounded native operations; the fma of this crate (generic version)", "why_tests_cant": "The claim is about rounding of an irrational number at 2^63 arguments. The final correction and the two listed hard cases apply to a handful of arguments that random tests do not meet; the code computes exponents with wrapping arithmetic for subnormals.", "anchors": ["libm/src/math/cbrt.rs"]}
{"id": "C101", "title": "pow: special values, sign rules and exact special exponents", "statement": "For all f64 x and y, pow returns 1 if y is 0 or x is 1 (NaN included), a NaN if otherwise an argument is a NaN; for y infinite the result is 1, +inf or +0 by |x| compared with 1; x^1 = x, x^-1, x^2 and (for x >= 0) x^(1/2) are correctly rounded; for x = 0 or inf and finite y the result is 0 or inf with the sign of x exactly if y is an odd integer; (-1)^y is 1 for even, -1 for odd integers and NaN otherwise; a negative finite x to a finite power that is not an integer gives NaN; and for an integer y, pow(x, y) is exactly pow(-x, y), negated if y is odd. Integers and their parity are those of the real value of y.", "quantifier": "all 2^128 pairs of f64 bit patterns (in each case the pairs described), any correctly rounded native operations", "why_tests_cant": "Whether a float is an odd integer is decided by shifts of the words that depend on the exponent, with separate code for both halves of an f64; tests try a few integers. The sign symmetry is a statement about pairs of executions.", "anchors": ["libm/src/math/pow.rs"]}
{"id": "C102", "title": "powf: special values, sign rules and exact special exponents", "statement": "For all f32 x and y, powf returns 1 if y is 0 or x is 1 (NaN included), a NaN if otherwise an argument is a NaN; for y infinite the result is 1, +inf or +0 by |x| compared with 1; x^1 = x, x^-1, x^2 and (for x >= 0) x^(1/2) are correctly rounded; for x = 0 or inf and finite y the result is 0 or inf with the sign of x exactly if y is an odd integer; (-1)^y is 1 for even, -1 for odd integers and NaN otherwise; a negative finite x to a finite power that is not an integer gives NaN; and for an integer y, powf(x, y) is exactly powf(-x, y), negated if y is odd. Integers and their parity are those of the real value of y.", "quantifier": "all 2^64 pairs of f32 bit patterns (in each case the pairs described), any correctly rounded native operations", "why_tests_cant": "Whether a float is an odd integer is decided by shifts of the words that depend on the exponent, with separate code for both halves of an f64; tests try a few integers. The sign symmetry is a statement about pairs of executions.", "anchors": ["libm/src/math/powf.rs"]}
{"id": "C103", "title": "pow: accuracy of every power of a positive base, overflow and no panic", "statement": "For every finite f64 x > 0 and every finite y, pow(x, y) returns without panicking. With P = y log2 x the exact binary exponent of the real power x^y: if P <= 1024 - 2^-30 the result is finite, has no sign bit and differs from the real x^y by at most (9 + 13 |P|) 2^-53 relative plus 2^-1074 (gradual underflow included: nothing is assumed about the size of the result from below); if P >= 1024 + 2^-30 the result is +infinity. For a finite x < 0 and a nonzero integer y the result is that for |x|, negated exactly if y is odd.", "quantifier": "all pairs of a finite positive (or, with integer y, negative) f64 base and a finite f64 exponent, any correctly rounded native operations", "why_tests_cant": "pow has 2^128 inputs and a dozen paths (two tables of break points, bases within 2^-20 of 1, huge exponents, subnormal bases and results, over- and underflow); the logarithm is carried in two doubles and an error in a low part shows only for large |y log x|. Tests compare some thousand points.", "anchors": ["libm/src/math/pow.rs", "libm/src/math/generic/scalbn.rs"]}
{"id": "C104", "title": "exp10: accuracy, exact powers, overflow limit, special values and no panic", "statement": "For every finite f64 x, exp10(x) returns without panicking or reading outside its table. For |x| < 16 the result is finite and within 7.4 * 2^-53 of the real 10^x relatively, and for an integer x it is a float nearest to 10^x. For |x| >= 16 and x <= 308.2547155 it is finite, has no sign bit and is within (9 + 44|x|) 2^-53 relative plus 2^-1074 absolute of 10^x (subnormal results and underflow included); from x = 308.2547156 on it is +infinity (10^x reaches 2^1024 at 308.25471555991...). exp10(NaN) is a NaN, exp10(+inf) = +inf, exp10(-inf) = +0.", "quantifier": "all f64 bit patterns (only the result in the interval (308.2547155, 308.2547156) is left open), any correctly rounded native operations", "why_tests_cant": "The table is read with an index computed from a float converted to an integer; the two branches meet at 16 and rest on exp2 and on pow with their own tables. Tests sample some arguments.", "anchors": ["libm/src/math/exp10.rs", "libm/src/math/exp2.rs", "libm/src/math/pow.rs"]}
{"id": "C105", "title": "erf and erfc: range, exact oddness, saturation, special values and no panic", "statement": "For every f64 bit pattern erf(x) and erfc(x) return without panicking. For finite x, erf(x) is finite, |erf(x)| <= 1, erf(x) >= 0 for x >= 0 and <= 0 for x <= 0, and erf(x) is exactly 1 for x >= 6 and exactly -1 for x <= -6. For every x that is not a NaN erf(-x) is -erf(x) bit by bit (zeros, subnormals and infinities included). For finite x, erfc(x) is finite, in [0,1] for x >= 0 and in [1,2] for x <= 0, exactly +0 for x >= 28 and exactly 2 for x <= -28. erf(NaN) and erfc(NaN) are NaNs, erf(+-inf) = +-1, erf(+-0) = +-0, erfc(+inf) = +0, erfc(-inf) = 2, erfc(+-0) = 1.", "quantifier": "all f64 bit patterns, any correctly rounded native operations", "why_tests_cant": "The functions are stitched together from five rational approximations and two calls of exp with an argument splitting; a probability outside [0,1] or a NaN at a single argument near a seam would pass the sampled tests.", "anchors": ["libm/src/math/erf.rs"]}
{"id": "C106", "title": "erff and erfcf: range, exact oddness, saturation, special values and no panic", "statement": "For every f32 bit pattern erff(x) and erfcf(x) return without panicking. For finite x, erff(x) is finite, |erff(x)| <= 1, erff(x) >= 0 for x >= 0 and <= 0 for x <= 0, and erff(x) is exactly 1 for x >= 6 and exactly -1 for x <= -6. For every x that is not a NaN erff(-x) is -erff(x) bit by bit (zeros, subnormals and infinities included). For finite x, erfcf(x) is finite, in [0,1] for x >= 0 and in [1,2] for x <= 0, exactly +0 for x >= 28 and exactly 2 for x <= -28. erff(NaN) and erfcf(NaN) are NaNs, erff(+-inf) = +-1, erff(+-0) = +-0, erfcf(+inf) = +0, erfcf(-inf) = 2, erfcf(+-0) = 1.", "quantifier": "all f32 bit patterns, any correctly rounded native operations", "why_tests_cant": "The functions are stitched together from five rational approximations and two calls of expf with an argument splitting by a bit mask; a probability outside [0,1] or a NaN at a single argument near a seam would pass the sampled tests.", "anchors": ["libm/src/math/erff.rs"]}
{"id": "C107", "title": "erf: accuracy against the real error function for 2^-28 <= |x| < 0.84375", "statement": "For every f64 x with 2^-28 <= |x| < 0.84375, erf(x) is finite and within 2.1 * 2^-53 relatively of the real error function 2/sqrt(pi) * integral from 0 to x of exp(-t^2) dt.", "quantifier": "all f64 x with 2^-28 <= |x| < 0.84375, any correctly rounded native operations", "why_tests_cant": "The claim is about about 2.6e17 arguments and a real integral; tests compare some of them with a multi-precision library.", "anchors": ["libm/src/math/erf.rs"]}
