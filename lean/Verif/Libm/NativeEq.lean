import Verif.Libm.Native
import Verif.Libm.MinMax
/-! # Operations on given numbers do not depend on the machine -/
namespace Verif
open Fmt
namespace FPU
variable {F : Fmt} (N N' : FPU F) {a b c : BitVec F.w}

theorem add_eq (h : N'.add a b = c) (hc : ¬ F.IsNaN c) : N.add a b = c := by
  have e := N'.add_spec a b
  rw [h] at e
  rcases AddSpec.unique F (N.add_spec a b) e with h | h
  · exact h
  · exact absurd h.2 hc
theorem sub_eq (h : N'.sub a b = c) (hc : ¬ F.IsNaN c) : N.sub a b = c := by
  have e := N'.sub_spec a b
  rw [h] at e
  rcases AddSpec.unique F (N.sub_spec a b) e with h | h
  · exact h
  · exact absurd h.2 hc
theorem mul_eq (ha : F.IsFin a) (hb : F.IsFin b) (h : N'.mul a b = c) : N.mul a b = c := by
  rw [← h]
  obtain ⟨p, q⟩ := (N.mul_spec a b).1 ha hb
  obtain ⟨p', q'⟩ := (N'.mul_spec a b).1 ha hb
  exact F.ext_sign_mag (by rw [q, q']) (Rounds.mag_unique F p p').1
theorem div_eq (ha : F.IsFin a) (hb : F.IsFin b) (h0 : ¬ F.IsZero b) (h : N'.div a b = c) : N.div a b = c := by
  rw [← h]
  obtain ⟨p, q⟩ := (N.div_spec a b).1 ha hb h0
  obtain ⟨p', q'⟩ := (N'.div_spec a b).1 ha hb h0
  exact F.ext_sign_mag (by rw [q, q']) (Rounds.mag_unique F p p').1
end FPU
end Verif
