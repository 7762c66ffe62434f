import Verif.Libm.ErfR
import Verif.Libm.ErfMain
/-! # The accuracy of `erf` for `2^-28 ≤ |x| < 0.84375` -/
namespace Verif
open Fmt Poly
namespace Erf

def PL : List ℚ := PP.map f64.val
def QL : List ℚ := QQ.map f64.val

theorem D_chk : chkT (sub PL (mul QL (sub (mul [c0] eL) [1]))) (15 / 100 / 2 ^ 53 * (98 / 100)) 24 8 (729 / 1024) = true := by decide +kernel
theorem Q_chk : chk (sub QL [117 / 100]) (117 / 100 - 98 / 100) 8 0 (729 / 1024) = true := by decide +kernel
theorem y_chk : IE.split (IE.ok1 csS ratS (65 / 100 / 2 ^ 53)) (-27 / 32) [-13 / 16, -25 / 32, -3 / 4, -11 / 16, -5 / 8, -1 / 2, -3 / 8, -1 / 4, -1 / 8, 0, 1 / 8, 1 / 4, 3 / 8, 1 / 2, 5 / 8, 11 / 16, 3 / 4, 25 / 32, 13 / 16] (27 / 32) = true := by decide +kernel
theorem yr_chk : IE.split (rg csS ratS (-1 / 10) (13 / 100)) (-27 / 32) [-13 / 16, -25 / 32, -3 / 4, -11 / 16, -5 / 8, -1 / 2, 0, 1 / 2, 5 / 8, 11 / 16, 3 / 4, 25 / 32, 13 / 16] (27 / 32) = true := by decide +kernel

theorem ratS_ideal (X : ℝ) : ratS.ideal csS (fun _ => X) = ev PL (X ^ 2) / ev QL (X ^ 2) := by
  have e1 : ∀ a : ℝ, a + X ^ 2 * 0 = a := fun a => by ring
  have e2 : X * X = X ^ 2 := by ring
  simp only [ratS, hp, IE.ideal, PL, QL, PP, QQ, List.map, ev, e1, e2]
  rfl

/-- the rational function against the series -/
theorem rat_near {z : ℝ} (h0 : 0 ≤ z) (h1 : z ≤ 729 / 1024) : |ev PL z / ev QL z - (c0 * ev eL z - 1)| ≤ 15 / 100 / 2 ^ 53 := by
  have a := chkT_sound D_chk (t := z) h0 (by push_cast; exact h1)
  have b := chk_sound Q_chk (t := z) (by push_cast; exact h0) (by push_cast; exact h1)
  rw [ev_sub, ev_mul, ev_sub, ev_mul, show ev [c0] z = c0 by simp only [ev]; ring, show ev [1] z = 1 by simp only [ev]; push_cast; ring] at a
  rw [ev_sub, show ev [117 / 100] z = 117 / 100 by simp only [ev]; push_cast; ring] at b
  push_cast at a b
  have hq : (98 / 100 : ℝ) ≤ ev QL z := by have := (abs_le.mp b).1; linarith
  generalize ev PL z = p at *
  generalize ev QL z = q at *
  generalize (c0 : ℝ) * ev eL z - 1 = r at *
  have hq0 : 0 < q := by linarith
  have e : p / q - r = (p - q * r) / q := by field_simp
  rw [e, abs_div, abs_of_pos hq0, div_le_iff₀ hq0]
  exact a.trans (mul_le_mul_of_nonneg_left hq (by norm_num))

theorem erf_mid (N : FPU f64) {x : D} {X : ℝ} (hx : GFv f64 x X) (h0 : 1 / 2 ^ 28 ≤ |X|) (h1 : |X| < 27 / 32) :
    ∃ r R, erf N x = .ok r ∧ GFv f64 r R ∧ |R - erfR X| ≤ 2.1 / 2 ^ 53 * |erfR X| := by
  have hf := hi_fin.mpr hx.fin
  have c27 : Pio2.hi x < 0x3feb0000 ↔ |X| < (27 / 32 : ℚ) := hi_lt hx 0x3feb0000 (by decide +kernel)
  have c28 : Pio2.hi x < 0x3e300000 ↔ |X| < (1 / 2 ^ 28 : ℚ) := hi_lt hx 0x3e300000 (by decide +kernel)
  push_cast at c27 c28
  rw [erf_eq, if_neg (not_le.mpr hf), if_pos (c27.mpr h1), if_neg (by rw [c28, not_lt]; exact h0)]
  have hb := abs_le.mp h1.le
  obtain ⟨Y, gy, ey⟩ := IE.ok1_sound big N csS_fin y_chk hx (by push_cast; linarith [hb.1]) (by push_cast; exact hb.2)
  obtain ⟨Y', gy', y0, y1⟩ := rg_sound N csS_fin yr_chk hx (by push_cast; linarith [hb.1]) (by push_cast; exact hb.2)
  rw [ratS_flt] at gy gy'
  rw [ratS_ideal] at ey
  have : Y' = Y := by rw [← gy.val, ← gy'.val]
  subst this
  push_cast at ey y0 y1
  have hz : X ^ 2 ≤ 729 / 1024 := by rw [← sq_abs]; nlinarith [abs_nonneg X]
  have hr := rat_near (sq_nonneg X) hz
  have he := erfR_near h1.le
  -- `y` against the quotient
  generalize (c0 : ℝ) * ev eL (X ^ 2) = s at hr he
  generalize ev PL (X ^ 2) / ev QL (X ^ 2) = w at hr ey
  have hys : |Y' - (s - 1)| ≤ 80 / 100 / 2 ^ 53 := by
    have := abs_add_le (Y' - w) (w - (s - 1))
    rw [sub_add_sub_cancel] at this
    linarith
  have hX : 0 < |X| := lt_of_lt_of_le (by norm_num) h0
  have hY : |Y'| ≤ 13 / 100 := abs_le.mpr ⟨by linarith, by linarith⟩
  have hXY : |X * Y'| ≤ 13 / 100 * |X| := by
    rw [abs_mul, mul_comm]; exact mul_le_mul_of_nonneg_right hY hX.le
  obtain ⟨T, gt, et⟩ := GFv.rnd big (hx.mulR N gy) (by refine (hXY.trans (by linarith : _ ≤ (1 : ℝ))).trans (by norm_num))
  rw [show f64.s + 1 = 53 from rfl] at et
  have et' : |T - X * Y'| ≤ 131 / 1000 / 2 ^ 53 * |X| := by
    have a2 : (1 : ℝ) / 2 ^ 53 * |X * Y'| ≤ 1 / 2 ^ 53 * (13 / 100 * |X|) := mul_le_mul_of_nonneg_left hXY (by norm_num)
    norm_num at a2 et h0 ⊢
    linarith
  -- the exact sum against the error function
  have hq : |(X + T) - erfR X| ≤ 96 / 100 / 2 ^ 53 * |X| := by
    have e : (X + T) - erfR X = (T - X * Y') + X * (Y' - (s - 1)) - (erfR X - X * s) := by ring
    rw [e]
    refine (abs_sub _ _).trans ?_
    refine (add_le_add_left (abs_add_le _ _) _).trans ?_
    rw [abs_mul]
    have a3 : |X| * |Y' - (s - 1)| ≤ |X| * (80 / 100 / 2 ^ 53) := mul_le_mul_of_nonneg_left hys hX.le
    norm_num at a3 et' he ⊢
    linarith
  have hE : 89 / 100 * |X| ≤ |erfR X| := by
    have a4 : |X * (1 + Y')| = |X| * (1 + Y') := by rw [abs_mul, abs_of_pos (by linarith : (0 : ℝ) < 1 + Y')]
    have a5 : 9 / 10 * |X| ≤ |X * (1 + Y')| := by rw [a4]; nlinarith
    have a6 : |X * (1 + Y') - erfR X| ≤ |(X + T) - erfR X| + |T - X * Y'| := by
      have := abs_sub ((X + T) - erfR X) (T - X * Y')
      rwa [show (X + T) - erfR X - (T - X * Y') = X * (1 + Y') - erfR X by ring] at this
    have a7 : |X * (1 + Y')| ≤ |X * (1 + Y') - erfR X| + |erfR X| := by
      have := abs_add_le (X * (1 + Y') - erfR X) (erfR X)
      rwa [sub_add_cancel] at this
    norm_num at hq et' ⊢
    linarith
  have hsum : |X + T| ≤ |erfR X| + 96 / 100 / 2 ^ 53 * |X| := by
    have := abs_add_le (X + T - erfR X) (erfR X)
    rw [sub_add_cancel] at this
    linarith
  have hTb : |X + T| ≤ 2 := by
    refine (abs_add_le _ _).trans ?_
    have := abs_add_le (T - X * Y') (X * Y')
    rw [sub_add_cancel] at this
    norm_num at et' ⊢
    linarith
  obtain ⟨R, gr, er⟩ := GFv.rnd big (hx.addR N gt) (hTb.trans (by norm_num))
  rw [show f64.s + 1 = 53 from rfl] at er
  refine ⟨_, R, rfl, gr, ?_⟩
  have := abs_add_le (R - (X + T)) ((X + T) - erfR X)
  rw [sub_add_sub_cancel] at this
  have a8 : (1 : ℝ) / 2 ^ 53 * |X + T| ≤ 1 / 2 ^ 53 * (|erfR X| + 96 / 100 / 2 ^ 53 * |X|) := mul_le_mul_of_nonneg_left hsum (by norm_num)
  norm_num at a8 er hq hE h0 ⊢
  linarith

end Erf
end Verif
