import Verif.Libm.Native
/-! # Specification of fused multiply-add -/
namespace Verif
namespace Fmt
variable (F : Fmt)

/-- Specification: IEEE-754 fused multiply-add. -/
def FmaSpec (x y z r : BitVec F.w) : Prop :=
  (F.IsFin x → F.IsFin y → F.IsFin z → F.Rounds (F.val x * F.val y + F.val z) r ∧
    (F.val x * F.val y + F.val z = 0 → F.sign r = ((F.sign x ^^ F.sign y) && F.sign z))) ∧
  (F.IsNaN x ∨ F.IsNaN y ∨ F.IsNaN z → F.IsNaN r) ∧
  (¬ F.IsNaN z → (F.IsInf x ∧ F.IsZero y) ∨ (F.IsZero x ∧ F.IsInf y) → F.IsNaN r) ∧
  (¬ F.IsNaN x → ¬ F.IsNaN y → ¬ F.IsNaN z → F.IsInf x ∨ F.IsInf y → ¬ F.IsZero x → ¬ F.IsZero y →
    if F.IsInf z ∧ F.sign z ≠ (F.sign x ^^ F.sign y) then F.IsNaN r
    else F.IsInf r ∧ F.sign r = (F.sign x ^^ F.sign y)) ∧
  (F.IsFin x → F.IsFin y → F.IsInf z → r = z)

end Fmt
end Verif
