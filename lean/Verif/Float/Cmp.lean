import Verif.Float.Repr
/-! # Model of the soft-float comparisons (compiler-builtins/src/float/cmp.rs) -/
namespace Verif
namespace Fmt
variable (F : Fmt)

/-- cmp.rs 32-38 -/
inductive CmpRes where
  | Less | Equal | Greater | Unordered
  deriving DecidableEq, Repr

/-- `to_default_cmp_result`, cmp.rs 51-58. `CmpResult` is `i8`, `i32` or `isize`; the values fit all. -/
def CmpRes.toDefault : CmpRes → Int
  | .Less => -1
  | .Equal => 0
  | .Greater => 1
  | .Unordered => 1

/-- `to_gt_ge_cmp_result`, cmp.rs 60-67. -/
def CmpRes.toGtGe : CmpRes → Int
  | .Less => -1
  | .Equal => 0
  | .Greater => 1
  | .Unordered => -1

/-- `cmp`, cmp.rs 70-119. `to_bits_signed` is `BitVec.toInt`. -/
def cmp (a b : BitVec F.w) : CmpRes :=
  let a_abs := a &&& F.absMask
  let b_abs := b &&& F.absMask
  let inf_rep := F.expMask
  if a_abs > inf_rep ∨ b_abs > inf_rep then .Unordered
  else if a_abs ||| b_abs = 0#F.w then .Equal
  else if (a &&& b).toInt ≥ 0 then
    if a.toInt < b.toInt then .Less else if a.toInt = b.toInt then .Equal else .Greater
  else if a.toInt > b.toInt then .Less
  else if a.toInt = b.toInt then .Equal
  else .Greater

/-- `unord`, cmp.rs 121-135. -/
def unord (a b : BitVec F.w) : Bool :=
  a &&& F.absMask > F.expMask || b &&& F.absMask > F.expMask

/-- `__lesf2`/`__ledf2`/`__letf2`/`__lehf2`, cmp.rs 139, 170, 199, 232. -/
def le2 (a b : BitVec F.w) : Int := (F.cmp a b).toDefault
/-- `__gesf2` ..., cmp.rs 143, 174, 203, 237. -/
def ge2 (a b : BitVec F.w) : Int := (F.cmp a b).toGtGe
/-- `__unordsf2` ..., cmp.rs 147, 179, 208, 242. -/
def unord2 (a b : BitVec F.w) : Int := if F.unord a b then 1 else 0
/-- `__eqsf2` ..., cmp.rs 151, 183, 212, 247. -/
def eq2 (a b : BitVec F.w) : Int := (F.cmp a b).toDefault
/-- `__ltsf2` ..., cmp.rs 155, 187, 216, 252. -/
def lt2 (a b : BitVec F.w) : Int := (F.cmp a b).toDefault
/-- `__nesf2` ..., cmp.rs 159, 191, 220, 257. -/
def ne2 (a b : BitVec F.w) : Int := (F.cmp a b).toDefault
/-- `__gtsf2` ..., cmp.rs 163, 195, 224, 262. -/
def gt2 (a b : BitVec F.w) : Int := (F.cmp a b).toGtGe

/-- `__aeabi_fcmple`/`__aeabi_dcmple`, cmp.rs 269, 289. -/
def aeabiLe (a b : BitVec F.w) : Int := if F.le2 a b ≤ 0 then 1 else 0
/-- `__aeabi_fcmpge`/`__aeabi_dcmpge`, cmp.rs 273, 293. -/
def aeabiGe (a b : BitVec F.w) : Int := if F.ge2 a b ≥ 0 then 1 else 0
/-- `__aeabi_fcmpeq`/`__aeabi_dcmpeq`, cmp.rs 277, 297. -/
def aeabiEq (a b : BitVec F.w) : Int := if F.eq2 a b = 0 then 1 else 0
/-- `__aeabi_fcmplt`/`__aeabi_dcmplt`, cmp.rs 281, 301. -/
def aeabiLt (a b : BitVec F.w) : Int := if F.lt2 a b < 0 then 1 else 0
/-- `__aeabi_fcmpgt`/`__aeabi_dcmpgt`, cmp.rs 285, 305. -/
def aeabiGt (a b : BitVec F.w) : Int := if F.gt2 a b > 0 then 1 else 0

end Fmt
end Verif
