import Verif.Float.Repr
import Verif.Int.NarrowDiv
/-!
# Model of float extension and truncation (compiler-builtins/src/float/extend.rs, trunc.rs)
-/
namespace Verif

namespace Fmt

/-- extend.rs 34-65: the magnitude. -/
def extendAbs (F R : Fmt) (a : BitVec F.w) : M (BitVec R.w) := do
  let sig_bits_delta ← nsubC R.s F.s
  let exp_bias_delta ← nsubC R.bias F.bias
  let src_nan_code ← subC F.sigMask 1#F.w
  let a_abs := a &&& F.absMask
  if a_abs - F.implicitBit < F.expMask - F.implicitBit then do
    let abs_dst ← castC R.w a_abs
    let bias_dst ← castU R.w exp_bias_delta
    addC (wshl abs_dst sig_bits_delta) (wshl bias_dst R.s)
  else if a_abs ≥ F.expMask then do
    let qnan_dst ← castC R.w (a_abs &&& F.sigMask)
    let nan_code_dst ← castC R.w (a_abs &&& src_nan_code)
    let inf_exp_dst ← castU R.w R.expSat
    pure ((wshl inf_exp_dst R.s ||| wshl qnan_dst sig_bits_delta) ||| wshl nan_code_dst sig_bits_delta)
  else if a_abs ≠ 0#F.w then do
    let scale ← nsubC (nlz a_abs) (nlz F.implicitBit)
    let abs_dst ← castC R.w a_abs
    let t ← nsubC exp_bias_delta scale
    let bias_dst ← castU R.w (t + 1)
    let r := wshl abs_dst (sig_bits_delta + scale)
    pure ((r ^^^ R.implicitBit) ||| wshl bias_dst R.s)
  else pure 0#R.w

/-- `extend`, extend.rs 4-69. -/
def extend (F R : Fmt) (a : BitVec F.w) : M (BitVec R.w) := do
  let abs_result ← extendAbs F R a
  let sign_result ← castC R.w (a &&& F.signMask)
  let d ← nsubC R.w F.w
  pure (abs_result ||| wshl sign_result d)

/-- trunc.rs 58-65 and 100-108: rounding of the shifted significand. -/
def truncRound (F R : Fmt) (bits : BitVec F.w) (round_mask halfway : BitVec F.w) (abs_result : BitVec R.w) :
    M (BitVec R.w) := do
  let round_bits := bits &&& round_mask
  if round_bits > halfway then addC abs_result 1#R.w
  else if round_bits = halfway then addC abs_result (abs_result &&& 1#R.w)
  else pure abs_result

/-- trunc.rs 44-110: the magnitude. -/
def truncAbs (F R : Fmt) (a : BitVec F.w) : M (BitVec R.w) := do
  let d ← nsubC F.s R.s
  let t ← shlC 1#F.w d
  let round_mask ← subC t 1#F.w
  let d1 ← nsubC d 1
  let halfway ← shlC 1#F.w d1
  let t ← nsubC F.s 1
  let src_qnan ← shlC 1#F.w t
  let src_nan_code ← subC src_qnan 1#F.w
  let t ← nsubC (F.bias + 1) R.bias
  let underflow_exponent ← castU F.w t
  let t ← nsubC (F.bias + R.expSat) R.bias
  let overflow_exponent ← castU F.w t
  let underflow ← shlC underflow_exponent F.s
  let overflow ← shlC overflow_exponent F.s
  let t ← nsubC R.s 1
  let dst_qnan ← shlC 1#R.w t
  let dst_nan_code ← subC dst_qnan 1#R.w
  let a_abs := a &&& F.absMask
  if a_abs - underflow < a_abs - overflow then do
    let t ← shrC a_abs d
    let abs_result := t.setWidth R.w
    let bias_diff ← castU R.w ((F.bias + (2 ^ 32 - R.bias)) % 2 ^ 32)
    let tmp ← shlC bias_diff R.s
    truncRound F R a_abs round_mask halfway (abs_result - tmp)
  else if a_abs > F.expMask then do
    let dst_inf_exp ← castU R.w R.expSat
    let abs_result ← shlC dst_inf_exp R.s
    let t ← shrC (a_abs &&& src_nan_code) d
    let t ← castC R.w t
    pure ((abs_result ||| dst_qnan) ||| (dst_nan_code &&& t))
  else if a_abs ≥ overflow then do
    let dst_inf_exp ← castU R.w R.expSat
    shlC dst_inf_exp R.s
  else do
    let t ← shrC a_abs F.s
    let a_exp ← castToU32 t
    let t ← nsubC F.bias R.bias
    let t ← nsubC t a_exp
    let shift := t + 1
    let significand := (a &&& F.sigMask) ||| F.implicitBit
    if shift > F.s then pure 0#R.w
    else do
      let t ← nsubC F.w shift
      let t ← shlC significand t
      let sticky := if t ≠ 0#F.w then 1#F.w else 0#F.w
      let t ← shrC significand shift
      let denormalized_significand := t ||| sticky
      let t ← shrC denormalized_significand d
      let abs_result ← castC R.w t
      truncRound F R denormalized_significand round_mask halfway abs_result

/-- `trunc`, trunc.rs 3-114. -/
def trunc (F R : Fmt) (a : BitVec F.w) : M (BitVec R.w) := do
  let abs_result ← truncAbs F R a
  let d ← nsubC F.w R.w
  let s ← castC R.w (wshr (a &&& F.signMask) d)
  pure (abs_result ||| s)

end Fmt
end Verif
