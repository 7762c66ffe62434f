{
 "claims": [
  {
   "property": "C01",
   "status": "proved",
   "theorems": [
    "Verif.Props.C01_u128_div_rem",
    "Verif.Props.C01_trifecta_generic",
    "Verif.Props.C01_asymmetric_generic",
    "Verif.Props.C01_delegate_generic",
    "Verif.Props.C01_entry_points",
    "Verif.Props.C01_udivmodti4"
   ],
   "note": "trifecta, delegate and asymmetric, each over native or software half division; entry points"
  },
  {
   "property": "C02",
   "status": "proved",
   "theorems": [
    "Verif.Props.C02_u64_div_rem",
    "Verif.Props.C02_udivmoddi4"
   ],
   "note": "delegate, binary long and asymmetric"
  },
  {
   "property": "C03",
   "status": "proved",
   "theorems": [
    "Verif.Props.C03_u32_div_rem",
    "Verif.Props.C03_binary_long_generic",
    "Verif.Props.C03_udivmodsi4",
    "Verif.Props.C03_udivmodsi4_avr",
    "Verif.Props.C03_udivmodqi4_avr",
    "Verif.Props.C03_udivmodhi4_avr"
   ],
   "note": "binary long with and without CLZ; AVR packed entry point and the two AVR assembly routines"
  },
  {
   "property": "C04",
   "status": "proved",
   "theorems": [
    "Verif.Props.C04_signed",
    "Verif.Props.C04_signed_equations",
    "Verif.Props.C04_divmodti4",
    "Verif.Props.C04_divmoddi4",
    "Verif.Props.C04_divmodsi4",
    "Verif.Props.C04_divmodsi4_avr"
   ],
   "note": "all widths, all targets, AVR packed variant"
  },
  {
   "property": "C05",
   "status": "proved",
   "theorems": [
    "Verif.Props.C05_mulsi3",
    "Verif.Props.C05_mulsi3_signed",
    "Verif.Props.C05_mul_generic",
    "Verif.Props.C05_muldi3",
    "Verif.Props.C05_muldi3_riscv",
    "Verif.Props.C05_multi3"
   ],
   "note": "schoolbook and shift-and-add versions"
  },
  {
   "property": "C06",
   "status": "proved",
   "theorems": [
    "Verif.Props.C06_umulo",
    "Verif.Props.C06_smulo",
    "Verif.Props.C06_mulosi4",
    "Verif.Props.C06_mulodi4",
    "Verif.Props.C06_muloti4",
    "Verif.Props.C06_muloti4_uefi"
   ],
   "note": ""
  },
  {
   "property": "C07",
   "status": "proved",
   "theorems": [
    "Verif.Props.C07_add_generic",
    "Verif.Props.C07_sub_generic",
    "Verif.Props.C07_add",
    "Verif.Props.C07_sub",
    "Verif.Props.C07_addo_unsigned",
    "Verif.Props.C07_subo_unsigned",
    "Verif.Props.C07_addo_signed",
    "Verif.Props.C07_subo_signed"
   ],
   "note": ""
  },
  {
   "property": "C08",
   "status": "proved",
   "theorems": [
    "Verif.Props.C08_ashl",
    "Verif.Props.C08_lshr",
    "Verif.Props.C08_ashr",
    "Verif.Props.C08_ashlti3",
    "Verif.Props.C08_lshrti3",
    "Verif.Props.C08_ashrti3"
   ],
   "note": ""
  },
  {
   "property": "C09",
   "status": "proved",
   "theorems": [
    "Verif.Props.C09_clzsi2",
    "Verif.Props.C09_clzdi2",
    "Verif.Props.C09_clzti2",
    "Verif.Props.C09_clz16"
   ],
   "note": ""
  },
  {
   "property": "C10",
   "status": "proved",
   "theorems": [
    "Verif.Props.C10_ctzsi2",
    "Verif.Props.C10_ctzdi2",
    "Verif.Props.C10_ctzti2"
   ],
   "note": ""
  },
  {
   "property": "C11",
   "status": "proved",
   "theorems": [
    "Verif.Props.C11_bswap",
    "Verif.Props.C11_bswap_involutive"
   ],
   "note": ""
  },
  {
   "property": "C12",
   "status": "proved",
   "theorems": [
    "Verif.Props.C12_u256_add",
    "Verif.Props.C12_u256_add_wraps",
    "Verif.Props.C12_u256_sub",
    "Verif.Props.C12_u256_sub_wraps",
    "Verif.Props.C12_i256_add",
    "Verif.Props.C12_i256_sub",
    "Verif.Props.C12_i256_checked",
    "Verif.Props.C12_shl",
    "Verif.Props.C12_u256_shr",
    "Verif.Props.C12_i256_shr",
    "Verif.Props.C12_lt",
    "Verif.Props.C12_bitwise",
    "Verif.Props.C12_widen",
    "Verif.Props.C12_widen_mul"
   ],
   "note": "every limb width; shifts for power-of-two limb widths; debug assertions and release wrap-around"
  },
  {
   "property": "C13",
   "status": "proved",
   "theorems": [
    "Verif.Props.C13_primitive",
    "Verif.Props.C13_u256",
    "Verif.Props.C13_unchecked_defined",
    "Verif.Props.C13_three_by_two",
    "Verif.Props.C13_inverse_of_mul"
   ],
   "note": "primitive types and u256; three-by-two digit division for every digit width"
  },
  {
   "property": "C14",
   "status": "proved",
   "theorems": [
    "Verif.Props.C14_reduction_primitive",
    "Verif.Props.C14_reduction_u128",
    "Verif.Props.C14_step"
   ],
   "note": "primitive and u256 double-width types; loop unbounded in e (e + BITS must be a u32, as the code requires)"
  },
  {
   "property": "C15",
   "status": "proved",
   "theorems": [
    "Verif.Props.C15_memcpy"
   ],
   "note": "16/32/64-bit words, both endiannesses, with and without mem_unaligned; permissions outside the two regions arbitrary"
  },
  {
   "property": "C16",
   "status": "proved",
   "theorems": [
    "Verif.Props.C16_memmove"
   ],
   "note": "every overlap; same generality as C15"
  },
  {
   "property": "C17",
   "status": "proved",
   "theorems": [
    "Verif.Props.C17_memset"
   ],
   "note": ""
  },
  {
   "property": "C18",
   "status": "proved",
   "theorems": [
    "Verif.Props.C18_memcmp",
    "Verif.Props.C18_memcmp_reads",
    "Verif.Props.C18_bcmp"
   ],
   "note": "including that nothing past the first difference is read (generic version)"
  },
  {
   "property": "C19",
   "status": "proved",
   "theorems": [
    "Verif.Props.C19_strlen"
   ],
   "note": "generic version"
  },
  {
   "property": "C20",
   "status": "proved",
   "theorems": [
    "Verif.Props.C20_x86_memcpy",
    "Verif.Props.C20_x86_memmove",
    "Verif.Props.C20_x86_memset"
   ],
   "note": "operational semantics of rep movs/stos; with and without ERMSB"
  },
  {
   "property": "C21",
   "status": "proved",
   "theorems": [
    "Verif.Props.C21_x86_memcmp"
   ],
   "note": ""
  },
  {
   "property": "C22",
   "status": "proved",
   "theorems": [
    "Verif.Props.C22_x86_strlen",
    "Verif.Props.C22_zero_byte_test"
   ],
   "note": "SSE2 and SWAR versions; wide loads only when the aligned block holds a readable byte"
  },
  {
   "property": "C23",
   "status": "proved",
   "theorems": [
    "Verif.Props.C23_le_family",
    "Verif.Props.C23_ge_family",
    "Verif.Props.C23_nan_operand",
    "Verif.Props.C23_unord",
    "Verif.Props.C23_aeabi"
   ],
   "note": "generic in the format: f16, f32, f64, f128; AEABI predicates"
  },
  {
   "property": "C24",
   "status": "proved",
   "theorems": [
    "Verif.Props.C24_add_finite",
    "Verif.Props.C24_add_nan",
    "Verif.Props.C24_add_inf_left",
    "Verif.Props.C24_add_inf_right"
   ],
   "note": "generic in the format; full specification (rounding, zeros, infinities, NaN, absence of panics)"
  },
  {
   "property": "C25",
   "status": "proved",
   "theorems": [
    "Verif.Props.C25_sub_finite",
    "Verif.Props.C25_sub_nan",
    "Verif.Props.C25_sub_inf_left",
    "Verif.Props.C25_sub_inf_right"
   ],
   "note": "as C24"
  },
  {
   "property": "C26",
   "status": "proved",
   "theorems": [
    "Verif.Props.C26_mul_finite",
    "Verif.Props.C26_mul_nan",
    "Verif.Props.C26_mul_inf",
    "Verif.Props.C26_multf3_finite",
    "Verif.Props.C26_multf3_nan",
    "Verif.Props.C26_multf3_inf"
   ],
   "note": "generic in the format over a primitive double-width product; __multf3 separately over the crate's u256"
  },
  {
   "property": "C27",
   "status": "proved",
   "theorems": [
    "Verif.Props.C27_divsf3_finite",
    "Verif.Props.C27_divsf3_special",
    "Verif.Props.C27_divdf3_finite",
    "Verif.Props.C27_divdf3_special",
    "Verif.Props.C27_divtf3_finite",
    "Verif.Props.C27_divtf3_special",
    "Verif.Props.C27_reciprocal"
   ],
   "note": "f32 (both iteration schemes), f64, f128; reciprocal error bound proved for every divisor"
  },
  {
   "property": "C28",
   "status": "proved",
   "theorems": [
    "Verif.Props.C28_extend_finite",
    "Verif.Props.C28_extend_inf",
    "Verif.Props.C28_extend_nan"
   ],
   "note": "all six format pairs (Wider); signalling NaNs are not quieted by the code, which the statement allows"
  },
  {
   "property": "C29",
   "status": "proved",
   "theorems": [
    "Verif.Props.C29_trunc_finite",
    "Verif.Props.C29_trunc_inf",
    "Verif.Props.C29_trunc_nan"
   ],
   "note": "all six format pairs (Wider)"
  },
  {
   "property": "C30",
   "status": "proved",
   "theorems": [
    "Verif.Props.C30_trunc_extend",
    "Verif.Props.C30_extend_extend"
   ],
   "note": "all six format pairs; also extension in two steps"
  },
  {
   "property": "C31",
   "status": "proved",
   "theorems": [
    "Verif.Props.C31_unsigned",
    "Verif.Props.C31_signed"
   ],
   "note": "all nine unsigned and nine signed conversions; f16 conversions do not exist in conv.rs"
  },
  {
   "property": "C32",
   "status": "proved",
   "theorems": [
    "Verif.Props.C32_unsigned_finite",
    "Verif.Props.C32_unsigned_special",
    "Verif.Props.C32_signed_finite",
    "Verif.Props.C32_signed_special"
   ],
   "note": "f32, f64, f128 to 32/64/128-bit integers, signed and unsigned"
  },
  {
   "property": "C33",
   "status": "proved",
   "theorems": [
    "Verif.Props.C33_powi_field",
    "Verif.Props.C33_powi_total"
   ],
   "note": "exact in any field; termination and absence of panics for every (rounding) multiplication"
  },
  {
   "property": "C34",
   "status": "proved",
   "theorems": [
    "Verif.Props.C34_floor",
    "Verif.Props.C34_ceil",
    "Verif.Props.C34_trunc",
    "Verif.Props.C34_special"
   ],
   "note": "generic in the format (f16, f32, f64, f128); finite inputs, signed zeros, infinities, NaN; no panic"
  },
  {
   "property": "C35",
   "status": "proved",
   "theorems": [
    "Verif.Props.C35_rint_finite",
    "Verif.Props.C35_rint_special"
   ],
   "note": "generic in the format (f16, f32, f64, f128); for every native addition/subtraction meeting IEEE-754"
  },
  {
   "property": "C36",
   "status": "proved",
   "theorems": [
    "Verif.Props.C36_round_finite",
    "Verif.Props.C36_round_special"
   ],
   "note": "generic in the format (f16, f32, f64, f128); for every native addition/subtraction meeting IEEE-754"
  },
  {
   "property": "C37",
   "status": "proved",
   "theorems": [
    "Verif.Props.C37_copysign",
    "Verif.Props.C37_fabs",
    "Verif.Props.C37_value"
   ],
   "note": "generic in the format (f16, f32, f64, f128); all bit patterns"
  },
  {
   "property": "C38",
   "status": "proved",
   "theorems": [
    "Verif.Props.C38_fmax",
    "Verif.Props.C38_fmin",
    "Verif.Props.C38_fmaximum",
    "Verif.Props.C38_fminimum",
    "Verif.Props.C38_fmaximum_num",
    "Verif.Props.C38_fminimum_num"
   ],
   "note": "generic in the format (f16, f32, f64, f128); fmax, fmin, fmaximum, fminimum, fmaximum_num, fminimum_num; NaN payloads are not specified"
  },
  {
   "property": "C39",
   "status": "proved",
   "theorems": [
    "Verif.Props.C39_fmod_finite",
    "Verif.Props.C39_fmod_special"
   ],
   "note": "generic in the format; the native operators are any IEEE-754 FPU, the widening operations any lawful implementation"
  },
  {
   "property": "C40",
   "status": "proved",
   "theorems": [
    "Verif.Props.C40_frexp_finite",
    "Verif.Props.C40_frexp_special"
   ],
   "note": "generic in the format (f16, f32, f64, f128)"
  },
  {
   "property": "C41",
   "status": "proved",
   "theorems": [
    "Verif.Props.C41_ilogb_finite",
    "Verif.Props.C41_ilogb_special"
   ],
   "note": "generic in the format (f16, f32, f64, f128)"
  },
  {
   "property": "C42",
   "status": "proved",
   "theorems": [
    "Verif.Props.C42_scalbn_finite",
    "Verif.Props.C42_scalbn_special"
   ],
   "note": "f16 (own branch), f32, f64, f128; every FPU meeting IEEE-754; all i32 exponents"
  },
  {
   "property": "C43",
   "status": "proved",
   "theorems": [
    "Verif.Props.C43_sqrtf16",
    "Verif.Props.C43_sqrtf",
    "Verif.Props.C43_sqrt",
    "Verif.Props.C43_sqrtf128"
   ],
   "note": "sqrtf16, sqrtf, sqrt, sqrtf128 (generic sqrt_round): correctly rounded real square root for every non-negative finite pattern, special values, status; no overflow, shift or cast failure in any fixed-point step. The native multiplication (subnormal scaling) and addition (inexact flag) are any operations meeting their IEEE specification."
  },
  {
   "property": "C44",
   "status": "partial",
   "theorems": [
    "Verif.Props.C44_fma_f64_partial",
    "Verif.Props.C44_fma_f128_partial",
    "Verif.Props.C44_fma_balanced_partial",
    "Verif.Props.C44_fma_f64_fails",
    "Verif.Props.C44_fmaf_partial",
    "Verif.Props.C44_fmaf_normal_partial",
    "Verif.Props.C44_fmaf_fails",
    "Verif.Props.C44_fmaf16"
   ],
   "note": "Generic fma_round (f64, f128): correctly rounded for every input outside FmaLost (a precise set of significand/exponent patterns, all with |z| > 2^(e-1)|xy|); the unrestricted claim is false and C44_fma_f64_fails proves it (f64 witness). fma_wide (f32 through f64): correctly rounded outside FmaWideLost (double rounding of a subnormal result), in particular whenever the exact result is zero or at least the least normal; the unrestricted claim is false, C44_fmaf_fails proves it. fmaf16: proved for all inputs. Native f16/f32/f64 add/mul/conversions are any operations meeting their IEEE specification (an FPU structure, inhabited by the crate's own soft-float routines)."
  },
  {
   "property": "C45",
   "status": "proved",
   "theorems": [
    "Verif.Props.C45_modf_finite",
    "Verif.Props.C45_modf_special"
   ],
   "note": "generic in the format (modf = f64, modff = f32)"
  },
  {
   "property": "C46",
   "status": "proved",
   "theorems": [
    "Verif.Props.C46_nextafter",
    "Verif.Props.C46_nextafter_nan"
   ],
   "note": "generic in the format (nextafter = f64, nextafterf = f32)"
  },
  {
   "property": "C47",
   "status": "proved",
   "theorems": [
    "Verif.Props.C47_remquo_finite",
    "Verif.Props.C47_remquof_finite",
    "Verif.Props.C47_remquo_special",
    "Verif.Props.C47_remquof_special",
    "Verif.Props.C47_remainder",
    "Verif.Props.C47_remainderf"
   ],
   "note": "remquo/remainder (f64) and remquof/remainderf (f32), over any IEEE-754 FPU; all finite operands, infinite divisor and invalid operands"
  },
  {
   "property": "C48",
   "status": "partial",
   "theorems": [
    "Verif.Props.C48_parse_correct",
    "Verif.Props.C48_parse_correct_wide_partial",
    "Verif.Props.C48_unambiguous",
    "Verif.Props.C48_parse_total_partial",
    "Verif.Props.C48_accepts_partial",
    "Verif.Props.C48_exact_partial",
    "Verif.Props.C48_hf",
    "Verif.Props.C48_f128_wraps",
    "Verif.Props.C48_panics"
   ],
   "note": "parse_any for every byte string, width, rounding mode: whatever number is returned is the literal's exact value rounded in the requested direction with the right flags (unconditional up to 96 significand bits; for f128 below 2^49154, beyond which C48_f128_wraps shows it is wrong). No panic, and acceptance exactly of the grammar, for texts up to 2^27 bytes with at most nine characters after p, or literals with exponent in (-2^32, 2^30); C48_panics shows the panics outside. parse_hex_exact/hf16/hf32/hf64: exact value or an error, unreachable!() not reached."
  },
  {
   "property": "C49",
   "status": "proved",
   "theorems": [
    "Verif.Props.C49_linearizable",
    "Verif.Props.C49_no_fault",
    "Verif.Props.C49_neighbours",
    "Verif.Props.C49_progress"
   ],
   "note": "any number of threads, any schedule, both endiannesses, spurious __kuser_cmpxchg failures, ordinary byte stores by other code; sequentially consistent interleaving (memory orderings and barriers are not modelled). Also: no overflow/shift fault, bytes outside every cell unchanged, and from every reachable state a started operation can finish by its own steps."
  },
  {
   "property": "C50",
   "status": "partial",
   "theorems": [
    "Verif.Props.C50_thumb_linearizable",
    "Verif.Props.C50_thumb_neighbours",
    "Verif.Props.C50_thumb_progress",
    "Verif.Props.C50_aarch64_linearizable_partial",
    "Verif.Props.C50_aarch64_linearizable_small",
    "Verif.Props.C50_aarch64_neighbours",
    "Verif.Props.C50_aarch64_progress",
    "Verif.Props.C50_aarch64_cas16_torn"
   ],
   "note": "thumbv6k: all operations. aarch64: all operations and both code paths (flag arbitrary per call) when 16-byte exclusive loads are single-copy atomic, and all sizes but 16 unconditionally. For __aarch64_cas16 without that guarantee (cores before LSE2) the claim is false: C50_aarch64_cas16_torn; what remains true then is C50_aarch64_linearizable_partial with tear = true. Sequentially consistent interleaving; acquire/release suffixes are not modelled."
  },
  {
   "property": "C51",
   "status": "proved",
   "theorems": [
    "Verif.Props.C51_result",
    "Verif.Props.C51_agree",
    "Verif.Props.C51_no_fault",
    "Verif.Props.C51_once_observed",
    "Verif.Props.C51_select_once"
   ],
   "note": "relaxed atomics: per-location coherence with views and arbitrary insertion of stores (not sequential consistency); `later callers' means later in happens-before order; outcomes of detection may even differ between calls. select_once! has the same theorem. That x86 detection never sets the reserved bit is part of C55_complete."
  },
  {
   "property": "C52",
   "status": "proved",
   "theorems": [
    "Verif.Props.C52_add_comm",
    "Verif.Props.C52_mul_comm",
    "Verif.Props.C52_add_neg",
    "Verif.Props.C52_sub",
    "Verif.Props.C52_mul_neg"
   ],
   "note": "bit-identical except for NaN payloads; a zero sum is exempted from sign symmetry (it is +0 both ways)"
  },
  {
   "property": "C53",
   "status": "proved",
   "theorems": [
    "Verif.Props.C53_fdim_finite",
    "Verif.Props.C53_fdim_special"
   ],
   "note": "generic in the format (f16, f32, f64, f128)"
  },
  {
   "property": "C54",
   "status": "proved",
   "theorems": [
    "Verif.Props.C54_roundtrip_unsigned",
    "Verif.Props.C54_roundtrip_signed",
    "Verif.Props.C54_any_unsigned"
   ],
   "note": "generic in the conversion meeting C31; C31 provides it for all nine pairs"
  },
  {
   "property": "C55",
   "status": "partial",
   "theorems": [
    "Verif.Props.C55_complete",
    "Verif.Props.C55_sound_partial",
    "Verif.Props.C55_fma4_fails",
    "Verif.Props.C55_fma_partial"
   ],
   "note": "C55_complete: every usable feature is reported, nothing else than the ten bits, XGETBV never faults. Soundness for eight of ten features; for F16C and FMA4 the OS check is missing, C55_fma4_fails gives a machine on which fma picks an implementation that raises #UD."
  },
  {
   "property": "C56",
   "status": "proved",
   "theorems": [
    "Verif.Props.C56_total",
    "Verif.Props.C56_literal",
    "Verif.Props.C56_roundtrip",
    "Verif.Props.C56_exact",
    "Verif.Props.C56_nan",
    "Verif.Props.C56_injective"
   ],
   "note": "integer formatting by core::fmt ({:0w$x}, {:+}) is modelled after its documentation; everything else is the code of fmt_any_hex"
  },
  {
   "property": "C57",
   "status": "partial",
   "theorems": [
    "Verif.Props.C57_hypot_partial",
    "Verif.Props.C57_special",
    "Verif.Props.C57_exact",
    "Verif.Props.C57_bounds",
    "Verif.Props.C57_symmetric",
    "Verif.Props.C57_panics",
    "Verif.Props.C57_tie_fails",
    "Verif.Props.C57_blindspot_fails"
   ],
   "note": "C57_hypot_partial: faithful (one of the two neighbouring numbers, exact if the value is a number) for all arguments and correctly rounded unless the exact value is a WrongTie (2^j(1+2^-53) or 2^j(1+5*2^-53)) or in a BlindSpot (a window of relative width 15*2^-106 below the tie under a power of two). The full claim is false: C57_tie_fails, C57_blindspot_fails (misrounded), C57_panics (overflow panic in a build with overflow checks). With checks the result is the same or an overflow panic. Special cases, exactness, bounds and symmetry are proved without exception."
  },
  {
   "property": "C58",
   "status": "proved",
   "theorems": [
    "Verif.Props.C58_table",
    "Verif.Props.C58_no_near_multiple",
    "Verif.Props.C58_no_near_multiple_f32"
   ],
   "note": "C58_table: all 690 entries against Real.pi (Machin's formula, exact integer arithmetic). C58_no_near_multiple, C58_no_near_multiple_f32: Euclid's algorithm run by the kernel for every exponent, with a proved lower bound for all significands and multiples at once."
  },
  {
   "property": "C59",
   "status": "proved",
   "theorems": [
    "Verif.Props.C59_rem_pio2",
    "Verif.Props.C59_rem_pio2_special",
    "Verif.Props.C59_rem_pio2f",
    "Verif.Props.C59_rem_pio2f_special"
   ],
   "note": "C59_rem_pio2 and C59_rem_pio2f for all finite arguments for which the callers use them; C59_rem_pio2_special, C59_rem_pio2f_special for infinities and NaN. x87 excess precision (force_eval) is not modelled."
  },
  {
   "property": "C60",
   "status": "proved",
   "theorems": [
    "Verif.Props.C60_sin",
    "Verif.Props.C60_cos",
    "Verif.Props.C60_sincos",
    "Verif.Props.C60_range",
    "Verif.Props.C60_sin_tiny",
    "Verif.Props.C60_special"
   ],
   "note": "C60_sin, C60_cos, C60_sincos: faithful rounding (error below one unit in the last place) and no panic for all finite arguments; C60_range, C60_sin_tiny, C60_special. The exceptions raised by force_eval! are not modelled."
  },
  {
   "property": "C61",
   "status": "proved",
   "theorems": [
    "Verif.Props.C61_sinf",
    "Verif.Props.C61_cosf",
    "Verif.Props.C61_sincosf",
    "Verif.Props.C61_range",
    "Verif.Props.C61_sinf_tiny",
    "Verif.Props.C61_special"
   ],
   "note": "C61_sinf, C61_cosf, C61_sincosf: faithful rounding and no panic for all finite arguments; C61_range, C61_sinf_tiny, C61_special. The exceptions raised by force_eval! are not modelled."
  },
  {
   "property": "C62",
   "status": "proved",
   "theorems": [
    "Verif.Props.C62_tanf",
    "Verif.Props.C62_tanf_tiny",
    "Verif.Props.C62_tanf_special"
   ],
   "note": "C62_tanf: faithful rounding and no panic for all finite arguments; C62_tanf_tiny, C62_tanf_special. The exceptions raised by force_eval! are not modelled."
  },
  {
   "property": "C63",
   "status": "proved",
   "theorems": [
    "Verif.Props.C63_tan",
    "Verif.Props.C63_tan_direct",
    "Verif.Props.C63_tan_reduced",
    "Verif.Props.C63_tan_tiny",
    "Verif.Props.C63_tan_special"
   ],
   "note": "C63_tan: no panic, finite, relative error at most 2^-52 for all finite arguments; C63_tan_direct and C63_tan_reduced: faithful rounding in the stated regions; C63_tan_tiny, C63_tan_special. The exceptions raised by force_eval! are not modelled."
  },
  {
   "property": "C64",
   "status": "proved",
   "theorems": [
    "Verif.Props.C64_exp",
    "Verif.Props.C64_exp_overflow",
    "Verif.Props.C64_exp_special",
    "Verif.Props.C64_exp_zero"
   ],
   "note": "C64_exp: error bound and no panic below the threshold; C64_exp_overflow: the threshold is e^x >= 2^1024 exactly; C64_exp_special, C64_exp_zero. The exceptions raised by force_eval! and the x86-without-sse2 implementation are not modelled."
  },
  {
   "property": "C65",
   "status": "proved",
   "theorems": [
    "Verif.Props.C65_expf",
    "Verif.Props.C65_expf_overflow",
    "Verif.Props.C65_expf_special",
    "Verif.Props.C65_expf_zero"
   ],
   "note": "C65_expf, C65_expf_overflow, C65_expf_special, C65_expf_zero, as for C64."
  },
  {
   "property": "C66",
   "status": "proved",
   "theorems": [
    "Verif.Props.C66_log",
    "Verif.Props.C66_log_one",
    "Verif.Props.C66_log_zero",
    "Verif.Props.C66_log_nan",
    "Verif.Props.C66_log_inf"
   ],
   "note": "C66_log (accuracy of every positive number), C66_log_one, C66_log_zero, C66_log_nan, C66_log_inf, for all native operations that round correctly."
  },
  {
   "property": "C67",
   "status": "proved",
   "theorems": [
    "Verif.Props.C67_logf",
    "Verif.Props.C67_logf_one",
    "Verif.Props.C67_logf_zero",
    "Verif.Props.C67_logf_nan",
    "Verif.Props.C67_logf_inf"
   ],
   "note": "C67_logf, C67_logf_one, C67_logf_zero, C67_logf_nan, C67_logf_inf, as for C66."
  },
  {
   "property": "C68",
   "status": "proved",
   "theorems": [
    "Verif.Props.C68_atan",
    "Verif.Props.C68_atan_inf",
    "Verif.Props.C68_atan_nan",
    "Verif.Props.C68_atan_zero"
   ],
   "note": "C68_atan (accuracy and range for every finite number), C68_atan_inf, C68_atan_nan, C68_atan_zero, for all native operations that round correctly."
  },
  {
   "property": "C69",
   "status": "proved",
   "theorems": [
    "Verif.Props.C69_atanf",
    "Verif.Props.C69_atanf_inf",
    "Verif.Props.C69_atanf_nan",
    "Verif.Props.C69_atanf_zero"
   ],
   "note": "C69_atanf, C69_atanf_inf, C69_atanf_nan, C69_atanf_zero, as for C68."
  },
  {
   "property": "C70",
   "status": "proved",
   "theorems": [
    "Verif.Props.C70_atan2",
    "Verif.Props.C70_atan2_range",
    "Verif.Props.C70_atan2_nan",
    "Verif.Props.C70_atan2_zero",
    "Verif.Props.C70_atan2_inf"
   ],
   "note": "C70_atan2 (accuracy, range, sign for finite arguments with y ≠ 0), C70_atan2_range, C70_atan2_zero, C70_atan2_inf, C70_atan2_nan, for all native operations that round correctly."
  },
  {
   "property": "C71",
   "status": "proved",
   "theorems": [
    "Verif.Props.C71_atan2f",
    "Verif.Props.C71_atan2f_nan",
    "Verif.Props.C71_atan2f_zero",
    "Verif.Props.C71_atan2f_inf"
   ],
   "note": "C71_atan2f, C71_atan2f_zero, C71_atan2f_inf, C71_atan2f_nan, as for C70."
  },
  {
   "property": "C72",
   "status": "proved",
   "theorems": [
    "Verif.Props.C72_asin",
    "Verif.Props.C72_asin_ends",
    "Verif.Props.C72_asin_nan"
   ],
   "note": "C72_asin (accuracy and range on [-1, 1]), C72_asin_ends, C72_asin_nan, for all native operations that round correctly."
  },
  {
   "property": "C73",
   "status": "proved",
   "theorems": [
    "Verif.Props.C73_acos",
    "Verif.Props.C73_acos_ends",
    "Verif.Props.C73_acos_nan"
   ],
   "note": "C73_acos, C73_acos_ends, C73_acos_nan."
  },
  {
   "property": "C74",
   "status": "proved",
   "theorems": [
    "Verif.Props.C74_asinf",
    "Verif.Props.C74_asinf_ends",
    "Verif.Props.C74_asinf_nan"
   ],
   "note": "C74_asinf, C74_asinf_ends, C74_asinf_nan."
  },
  {
   "property": "C75",
   "status": "proved",
   "theorems": [
    "Verif.Props.C75_acosf",
    "Verif.Props.C75_acosf_ends",
    "Verif.Props.C75_acosf_nan"
   ],
   "note": "C75_acosf, C75_acosf_ends, C75_acosf_nan."
  },
  {
   "property": "C76",
   "status": "proved",
   "theorems": [
    "Verif.Props.C76_cbrtf",
    "Verif.Props.C76_cbrtf_exact",
    "Verif.Props.C76_cbrtf_special"
   ],
   "note": "C76_cbrtf (near-nearest, relative error, sign, finiteness), C76_cbrtf_exact (cubes), C76_cbrtf_special."
  },
  {
   "property": "C77",
   "status": "proved",
   "theorems": [
    "Verif.Props.C77_expm1",
    "Verif.Props.C77_expm1_overflow",
    "Verif.Props.C77_expm1_special",
    "Verif.Props.C77_expm1_zero"
   ],
   "note": "C77_expm1 (accuracy, sign, lower bound), C77_expm1_overflow, C77_expm1_special, C77_expm1_zero."
  },
  {
   "property": "C78",
   "status": "proved",
   "theorems": [
    "Verif.Props.C78_expm1f",
    "Verif.Props.C78_expm1f_overflow",
    "Verif.Props.C78_expm1f_special",
    "Verif.Props.C78_expm1f_zero"
   ],
   "note": "C78_expm1f (accuracy, sign, lower bound), C78_expm1f_overflow, C78_expm1f_special, C78_expm1f_zero."
  },
  {
   "property": "C79",
   "status": "proved",
   "theorems": [
    "Verif.Props.C79_cosh",
    "Verif.Props.C79_cosh_overflow",
    "Verif.Props.C79_cosh_special"
   ],
   "note": "C79_cosh (accuracy, lower bound), C79_cosh_overflow, C79_cosh_special."
  },
  {
   "property": "C80",
   "status": "proved",
   "theorems": [
    "Verif.Props.C80_coshf",
    "Verif.Props.C80_coshf_overflow",
    "Verif.Props.C80_coshf_special"
   ],
   "note": "C80_coshf, C80_coshf_overflow, C80_coshf_special."
  },
  {
   "property": "C81",
   "status": "proved",
   "theorems": [
    "Verif.Props.C81_sinh",
    "Verif.Props.C81_sinh_overflow",
    "Verif.Props.C81_sinh_special",
    "Verif.Props.C81_sinh_zero"
   ],
   "note": "C81_sinh (accuracy, sign), C81_sinh_overflow, C81_sinh_special, C81_sinh_zero."
  },
  {
   "property": "C82",
   "status": "proved",
   "theorems": [
    "Verif.Props.C82_sinhf",
    "Verif.Props.C82_sinhf_overflow",
    "Verif.Props.C82_sinhf_special",
    "Verif.Props.C82_sinhf_zero"
   ],
   "note": "C82_sinhf, C82_sinhf_overflow, C82_sinhf_special, C82_sinhf_zero."
  },
  {
   "property": "C83",
   "status": "proved",
   "theorems": [
    "Verif.Props.C83_tanh",
    "Verif.Props.C83_tanh_special"
   ],
   "note": "C83_tanh (accuracy, sign, range), C83_tanh_special."
  },
  {
   "property": "C84",
   "status": "proved",
   "theorems": [
    "Verif.Props.C84_tanhf",
    "Verif.Props.C84_tanhf_special"
   ],
   "note": "C84_tanhf, C84_tanhf_special."
  },
  {
   "property": "C85",
   "status": "proved",
   "theorems": [
    "Verif.Props.C85_log1p",
    "Verif.Props.C85_log1p_tiny",
    "Verif.Props.C85_log1p_neg_one",
    "Verif.Props.C85_log1p_nan",
    "Verif.Props.C85_log1p_inf"
   ],
   "note": "C85_log1p (accuracy, sign), C85_log1p_tiny, C85_log1p_neg_one, C85_log1p_nan, C85_log1p_inf."
  },
  {
   "property": "C86",
   "status": "proved",
   "theorems": [
    "Verif.Props.C86_log1pf",
    "Verif.Props.C86_log1pf_tiny",
    "Verif.Props.C86_log1pf_neg_one",
    "Verif.Props.C86_log1pf_nan",
    "Verif.Props.C86_log1pf_inf"
   ],
   "note": "C86_log1pf, C86_log1pf_tiny, C86_log1pf_neg_one, C86_log1pf_nan, C86_log1pf_inf."
  },
  {
   "property": "C87",
   "status": "proved",
   "theorems": [
    "Verif.Props.C87_asinh",
    "Verif.Props.C87_asinh_tiny",
    "Verif.Props.C87_asinh_inf",
    "Verif.Props.C87_asinh_nan"
   ],
   "note": "C87_asinh (accuracy, sign), C87_asinh_tiny, C87_asinh_inf, C87_asinh_nan."
  },
  {
   "property": "C88",
   "status": "proved",
   "theorems": [
    "Verif.Props.C88_asinhf",
    "Verif.Props.C88_asinhf_tiny",
    "Verif.Props.C88_asinhf_inf",
    "Verif.Props.C88_asinhf_nan"
   ],
   "note": "C88_asinhf (accuracy, sign), C88_asinhf_tiny, C88_asinhf_inf, C88_asinhf_nan."
  },
  {
   "property": "C89",
   "status": "proved",
   "theorems": [
    "Verif.Props.C89_acosh_one",
    "Verif.Props.C89_acosh",
    "Verif.Props.C89_acosh_nan",
    "Verif.Props.C89_acosh_inf"
   ],
   "note": "C89_acosh (accuracy, sign), C89_acosh_one, C89_acosh_nan, C89_acosh_inf."
  },
  {
   "property": "C90",
   "status": "proved",
   "theorems": [
    "Verif.Props.C90_acoshf_one",
    "Verif.Props.C90_acoshf",
    "Verif.Props.C90_acoshf_nan",
    "Verif.Props.C90_acoshf_inf"
   ],
   "note": "C90_acoshf (accuracy, sign), C90_acoshf_one, C90_acoshf_nan, C90_acoshf_inf."
  },
  {
   "property": "C91",
   "status": "proved",
   "theorems": [
    "Verif.Props.C91_atanh",
    "Verif.Props.C91_atanh_tiny",
    "Verif.Props.C91_atanh_one",
    "Verif.Props.C91_atanh_nan"
   ],
   "note": "C91_atanh (accuracy, sign), C91_atanh_tiny, C91_atanh_one, C91_atanh_nan."
  },
  {
   "property": "C92",
   "status": "proved",
   "theorems": [
    "Verif.Props.C92_atanhf",
    "Verif.Props.C92_atanhf_tiny",
    "Verif.Props.C92_atanhf_one",
    "Verif.Props.C92_atanhf_nan"
   ],
   "note": "C92_atanhf (accuracy, sign), C92_atanhf_tiny, C92_atanhf_one, C92_atanhf_nan."
  },
  {
   "property": "C93",
   "status": "proved",
   "theorems": [
    "Verif.Props.C93_log2",
    "Verif.Props.C93_log2_pow",
    "Verif.Props.C93_log2_one",
    "Verif.Props.C93_log2_zero",
    "Verif.Props.C93_log2_nan",
    "Verif.Props.C93_log2_inf"
   ],
   "note": "C93_log2 (accuracy), C93_log2_pow, C93_log2_one, C93_log2_zero, C93_log2_nan, C93_log2_inf."
  },
  {
   "property": "C94",
   "status": "proved",
   "theorems": [
    "Verif.Props.C94_log2f",
    "Verif.Props.C94_log2f_pow",
    "Verif.Props.C94_log2f_one",
    "Verif.Props.C94_log2f_zero",
    "Verif.Props.C94_log2f_nan",
    "Verif.Props.C94_log2f_inf"
   ],
   "note": "C94_log2f (accuracy), C94_log2f_pow, C94_log2f_one, C94_log2f_zero, C94_log2f_nan, C94_log2f_inf."
  },
  {
   "property": "C95",
   "status": "proved",
   "theorems": [
    "Verif.Props.C95_log10",
    "Verif.Props.C95_log10_one",
    "Verif.Props.C95_log10_zero",
    "Verif.Props.C95_log10_nan",
    "Verif.Props.C95_log10_inf"
   ],
   "note": "C95_log10 (accuracy), C95_log10_one, C95_log10_zero, C95_log10_nan, C95_log10_inf."
  },
  {
   "property": "C96",
   "status": "proved",
   "theorems": [
    "Verif.Props.C96_log10f",
    "Verif.Props.C96_log10f_one",
    "Verif.Props.C96_log10f_zero",
    "Verif.Props.C96_log10f_nan",
    "Verif.Props.C96_log10f_inf"
   ],
   "note": "C96_log10f (accuracy), C96_log10f_one, C96_log10f_zero, C96_log10f_nan, C96_log10f_inf."
  },
  {
   "property": "C97",
   "status": "proved",
   "theorems": [
    "Verif.Props.C97_exp2f",
    "Verif.Props.C97_exp2f_int",
    "Verif.Props.C97_exp2f_overflow",
    "Verif.Props.C97_exp2f_special"
   ],
   "note": "C97_exp2f (nearest), C97_exp2f_int, C97_exp2f_overflow, C97_exp2f_special."
  },
  {
   "property": "C98",
   "status": "proved",
   "theorems": [
    "Verif.Props.C98_exp2",
    "Verif.Props.C98_exp2_int",
    "Verif.Props.C98_exp2_overflow",
    "Verif.Props.C98_exp2_special"
   ],
   "note": "C98_exp2 (accuracy), C98_exp2_int, C98_exp2_overflow, C98_exp2_special."
  },
  {
   "property": "C99",
   "status": "proved",
   "theorems": [
    "Verif.Props.C99_exp10f_small",
    "Verif.Props.C99_exp10f_large",
    "Verif.Props.C99_exp10f_overflow",
    "Verif.Props.C99_exp10f_special",
    "Verif.Props.C99_limit"
   ],
   "note": "C99_exp10f_small, C99_exp10f_large, C99_exp10f_overflow, C99_exp10f_special, C99_limit (the limit in floats)."
  },
  {
   "property": "C100",
   "status": "proved",
   "theorems": [
    "Verif.Props.C100_cbrt",
    "Verif.Props.C100_cbrt_exact",
    "Verif.Props.C100_cbrt_special"
   ],
   "note": "C100_cbrt (nearest up to 2^-100, accuracy, sign), C100_cbrt_exact (cubes), C100_cbrt_special. The other rounding modes of cbrt_round are not modelled."
  },
  {
   "property": "C101",
   "status": "proved",
   "theorems": [
    "Verif.Props.C101_pow_one",
    "Verif.Props.C101_pow_nan",
    "Verif.Props.C101_pow_yinf",
    "Verif.Props.C101_pow_simple",
    "Verif.Props.C101_pow_x0inf",
    "Verif.Props.C101_pow_m1",
    "Verif.Props.C101_pow_nonint",
    "Verif.Props.C101_pow_neg"
   ],
   "note": "C101_pow_one, _nan, _yinf, _simple, _x0inf, _m1, _nonint, _neg. The general path is modelled and evaluated on examples."
  },
  {
   "property": "C102",
   "status": "proved",
   "theorems": [
    "Verif.Props.C102_powf_one",
    "Verif.Props.C102_powf_nan",
    "Verif.Props.C102_powf_yinf",
    "Verif.Props.C102_powf_simple",
    "Verif.Props.C102_powf_x0inf",
    "Verif.Props.C102_powf_m1",
    "Verif.Props.C102_powf_nonint",
    "Verif.Props.C102_powf_neg"
   ],
   "note": "C102_powf_one, _nan, _yinf, _simple, _x0inf, _m1, _nonint, _neg."
  },
  {
   "property": "C103",
   "status": "proved",
   "theorems": [
    "Verif.Props.C103_pow_accuracy",
    "Verif.Props.C103_pow_accuracy_neg"
   ],
   "note": "C103_pow_accuracy, _neg: proved for every finite positive base and finite exponent."
  },
  {
   "property": "C104",
   "status": "proved",
   "theorems": [
    "Verif.Props.C104_exp10_small",
    "Verif.Props.C104_exp10_large",
    "Verif.Props.C104_exp10_special"
   ],
   "note": "C104_exp10_small, _large, _special."
  },
  {
   "property": "C105",
   "status": "proved",
   "theorems": [
    "Verif.Props.C105_erf_range",
    "Verif.Props.C105_erf_odd",
    "Verif.Props.C105_erf_special",
    "Verif.Props.C105_erfc_range",
    "Verif.Props.C105_erfc_special"
   ],
   "note": "C105_erf_range, _odd, _special, C105_erfc_range, _special."
  },
  {
   "property": "C106",
   "status": "proved",
   "theorems": [
    "Verif.Props.C106_erff_range",
    "Verif.Props.C106_erff_odd",
    "Verif.Props.C106_erff_special",
    "Verif.Props.C106_erfcf_range",
    "Verif.Props.C106_erfcf_special"
   ],
   "note": "C106_erff_range, _odd, _special, C106_erfcf_range, _special."
  },
  {
   "property": "C107",
   "status": "proved",
   "theorems": [
    "Verif.Props.C107_erf_accuracy"
   ],
   "note": "C107_erf_accuracy."
  }
 ]
}