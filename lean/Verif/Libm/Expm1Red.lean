import Verif.Libm.Expm1Sum
import Verif.Libm.ExpRed
/-! # The reduction of the argument in `expm1` and `expm1f`, in any format -/
namespace Verif
open Fmt Poly
namespace Expm1
variable {F : Fmt}

theorem rd_mk (hF : F.Big) (hs : F.s ≤ 52) (N : FPU F) {x hi lo : BitVec F.w} {X h l L : ℝ} {k : ℤ} (hx : GFv F x X) (hX : 1 / 4 ≤ |X|)
    (hhi : F.Rounds (X - k * h) hi) (hlo : GFv F lo L) {jh : ℤ} (hgk : Mul2 jh (k * h)) (hj : -2 - (F.s : ℤ) ≤ jh)
    (hr : |X - k * Real.log 2| ≤ 0.34665) (hkl : |k * l| ≤ 1 / 850) (hL : |L - k * l| ≤ 1 / 2 ^ (F.s + 1) / 800)
    (hd : |(k : ℝ)| * |h + l - Real.log 2| ≤ 1 / 2 ^ (F.s + 1) / 600) :
    ∃ X' γ, Rd F (N.sub hi lo) (N.sub (N.sub hi (N.sub hi lo)) lo) X' γ (X - k * Real.log 2) := by
  have h127 := hF.bias
  have h23 := hF.s
  have hu0 := u_pos F
  have hu1 := u_le hF
  have hu2 := u_tiny hs
  have h2p : (2000 : ℝ) ≤ 2 ^ (100 : ℤ) := by norm_num
  have hu1' : (1 : ℝ) / 2 ^ (F.s + 1) ≤ 1 / 1000000 := hu1.trans (by norm_num)
  have hT : (1 : ℝ) / 2 ^ 150 ≤ 1 / 2 ^ (F.s + 1) / 1000000 := by
    have h5 : (1 : ℝ) / 2 ^ 150 ≤ 1 / 2 ^ 53 / 1000000 := by norm_num
    linarith
  have hgx : Mul2 (-2 - F.s) X := by
    have := F.mul2_ge (b := x) (k := -2) (by rw [hx.val]; norm_num at hX ⊢; exact hX)
    rwa [hx.val] at this
  have hdX : |X - k * h| ≤ 1 / 2 := by
    have e : X - k * h = (X - k * Real.log 2) + k * l - k * (h + l - Real.log 2) := by ring
    rw [e]
    refine ((abs_sub _ _).trans (add_le_add (abs_add_le _ _) (le_refl _))).trans ?_
    rw [abs_mul (k : ℝ) (h + l - _)]
    norm_num at hr
    linarith
  have hh1 : (1 : ℝ) / 2 = 2 ^ (-2 - (F.s : ℤ) + F.s + 1) := by rw [show -2 - (F.s : ℤ) + F.s + 1 = -1 by ring]; norm_num
  have p2 : GFv F hi (X - k * h) :=
    GFv.of_rounds hF hhi (hgx.sub (hgk.mono hj)) (by rw [← hh1]; exact hdX) (by omega) (by linarith)
  obtain ⟨H, hH⟩ : ∃ H, H = X - k * h := ⟨_, rfl⟩
  rw [← hH] at p2
  have hLb : |L| ≤ 1 / 840 := by
    have := abs_add_le (L - k * l) (k * l); rw [sub_add_cancel] at this
    linarith
  have hHL : |X - k * Real.log 2 - (H - L)| ≤ 1 / 300 * (1 / 2 ^ (F.s + 1)) := by
    have e : X - k * Real.log 2 - (H - L) = k * (h + l - Real.log 2) + (L - k * l) := by rw [hH]; ring
    rw [e]
    refine (abs_add_le _ _).trans ?_
    rw [abs_mul]
    linarith
  have hHLb : |H - L| ≤ 34666 / 100000 := by
    have := abs_sub_abs_le_abs_sub (H - L) (X - k * Real.log 2)
    rw [abs_sub_comm (H - L)] at this
    norm_num at hr
    linarith
  have hR := p2.subR N hlo
  have he := hR.err F (k := -1) (by norm_num at hHLb ⊢; linarith) (by omega) (by omega)
  have hz : (2 : ℝ) ^ (-1 - (F.s : ℤ) - 2) = 1 / 4 * (1 / 2 ^ (F.s + 1)) := by
    rw [show -1 - (F.s : ℤ) - 2 = -2 - ((F.s + 1 : ℕ) : ℤ) by push_cast; ring, zpow_sub₀ (by norm_num), zpow_natCast]; norm_num; ring
  rw [hz] at he
  have hf := hR.fin100 hF (by linarith)
  have p3 := GFv.self hf
  obtain ⟨X', hX'⟩ : ∃ X', X' = F.valK ℝ (N.sub hi lo) := ⟨_, rfl⟩
  rw [← hX'] at he p3
  have hd1 : |H - X'| ≤ 1 / 830 := by
    have e : H - X' = L - (X' - (H - L)) := by ring
    rw [e]
    refine (abs_sub _ _).trans ?_
    linarith
  obtain ⟨C1, g1, e1⟩ := GFv.rnd hF (p2.subR N p3) (by linarith)
  have e1' : |C1 - (H - X')| ≤ 1 / 820 * (1 / 2 ^ (F.s + 1)) := by
    have := mul_le_mul_of_nonneg_left hd1 hu0.le
    linarith
  have hγ : |H - L - X'| ≤ 1 / 4 * (1 / 2 ^ (F.s + 1)) := by rw [abs_sub_comm]; exact he
  have hC1 : |C1 - L| ≤ 26 / 100 * (1 / 2 ^ (F.s + 1)) := by
    have := abs_add_le (C1 - (H - X')) (H - L - X')
    rw [show C1 - (H - X') + (H - L - X') = C1 - L by ring] at this
    linarith
  obtain ⟨C, g2, e2⟩ := GFv.rnd hF (g1.subR N hlo) (by linarith)
  refine ⟨X', H - L - X', p3, ?_, ⟨C, g2, ?_⟩, hγ, ?_⟩
  · have := abs_add_le (X' - (H - L)) (H - L)
    rw [sub_add_cancel] at this
    norm_num
    linarith
  · have e := abs_add_le (C - (C1 - L)) (C1 - (H - X'))
    rw [show C - (C1 - L) + (C1 - (H - X')) = C - (H - L - X') by ring] at e
    have h3 := mul_le_mul_of_nonneg_right (hu1'.trans (by norm_num : (1 : ℝ) / 1000000 ≤ 1 / 100000)) (abs_nonneg (C1 - L))
    linarith
  · rw [show X - k * Real.log 2 - X' - (H - L - X') = X - k * Real.log 2 - (H - L) by ring]
    exact hHL
end Expm1
end Verif
