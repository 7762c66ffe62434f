import Verif.Libm.Log2Core
import Verif.Libm.ExpR
/-! # `log2`, `log10`, `log2f`, `log10f` from the reduced argument, in any format -/
namespace Verif
open Fmt
namespace Log2
open Log
variable {F : Fmt}

theorem HL.mono {c : ℕ} {hi lo : BitVec F.w} {a a' T : ℝ} (h : HL F c hi lo a T) (ha : a ≤ a') : HL F c hi lo a' T := by
  obtain ⟨H, L, j, h1, h2, h3, h4, h5, h6, h7, h8⟩ := h
  have hu0 : (0 : ℝ) < 1 / 2 ^ (F.s + 1) := by positivity
  have := mul_le_mul_of_nonneg_left ha hu0.le
  exact ⟨H, L, j, h1, h2, h3, h4, h5, by linarith, by linarith, by linarith⟩

/-- `hi`, `lo` from the reduced argument -/
theorem hilo_spec (hF : F.Big) (hs : F.s = 23 ∨ F.s = 52) (N : FPU F) {cl : BitVec F.w → BitVec F.w} {c : ℕ} (hc : c + 10 ≤ F.s) (hc2 : 2 ≤ c)
    (hcl : ∀ b, F.mag (cl b) = F.mag b / 2 ^ c * 2 ^ c ∧ F.sign (cl b) = F.sign b) {x one half two : BitVec F.w} {r : BitVec F.w → BitVec F.w} {X : ℝ}
    (hx : GFv F x X) (h1 : GFv F one 1) (hh : GFv F half (1 / 2)) (h2 : GFv F two 2) (hX0 : 7071 / 10000 ≤ X) (hX1 : X ≤ 141422 / 100000) {P : List ℚ}
    (hr : ∀ s S, Ex.Holds F 1 s S ⟨1716 / 10000, 33 / 100 / 2 ^ (F.s + 1), false⟩ →
      Ex.Holds F 1 (r s) (S * S * Poly.ev P (S * S)) ⟨2 / 100, 14 / 100 / 2 ^ (F.s + 1), false⟩)
    (hP0 : (P.all fun c => decide (0 ≤ c)) = true) {B : ℚ} {n : ℕ} (hP : Poly.chk (0 :: Poly.sub P Poly.logL) B n 0 (2945 / 100000) = true)
    (hB : (B : ℝ) + 1 / 2 ^ 68 ≤ 4 / 100 * (1 / 2 ^ (F.s + 1))) :
    HL F c (hilo N one two half r cl x).1 (hilo N one two half r cl x).2 |X - 1| (Real.log X) ∧ 0.828 * |X - 1| ≤ |Real.log X| ∧ |Real.log X| ≤ 0.34665 ∧
      (X ≠ 1 → (1 : ℝ) / 2 ^ 150 ≤ 1 / 1000000 * (1 / 2 ^ (F.s + 1) * |X - 1|)) := by
  have h127 := hF.bias
  have hu0 : (0 : ℝ) < 1 / 2 ^ (F.s + 1) := by positivity
  have hu9 : (1 : ℝ) / 2 ^ (F.s + 1) ≤ 1 / 1000000 := le_trans (one_div_le_one_div_of_le (by positivity) (pow_le_pow_right₀ (by norm_num) (show 20 ≤ F.s + 1 by rcases hs with h | h <;> omega))) (by norm_num)
  have hu2 : (1 : ℝ) / 2 ^ 53 ≤ 1 / 2 ^ (F.s + 1) :=
    one_div_le_one_div_of_le (by positivity) (pow_le_pow_right₀ (by norm_num) (by rcases hs with h | h <;> omega))
  have hgX : Mul2 (-1 - (F.s : ℤ)) X := by
    have := F.mul2_ge (b := x) (k := -1) (by
      rw [hx.val, abs_of_pos (by linarith), show (2 : ℝ) ^ (-1 : ℤ) = 1 / 2 by norm_num]; linarith)
    rwa [hx.val] at this
  have hg1 : Mul2 (-1 - (F.s : ℤ)) (X - 1) := hgX.sub ((show Mul2 0 (1 : ℝ) from ⟨1, by simp⟩).mono (by omega))
  have hf9 : |X - 1| ≤ 1 := by rw [abs_le]; constructor <;> linarith
  have hf : GFv F (N.sub x one) (X - 1) := GFv.of_rounds hF (hx.subR N h1) hg1
    (by rw [show -1 - (F.s : ℤ) + F.s + 1 = 0 by ring, zpow_zero]; exact hf9) (by omega) (hf9.trans (by norm_num))
  have a0 : (-0.2929 : ℝ) ≤ X - 1 := by linarith
  have a1 : X - 1 ≤ 0.41422 := by linarith
  have hs1 := s_spec hF hs N hf h2 a0 a1
  have hsl := s_le rfl a0 a1
  have hr1 := hr _ _ ⟨hs1.1, by simp only [Ex.sv, Bool.false_eq_true, if_false, mul_one]; push_cast; norm_num at hsl ⊢; exact hsl, hs1.2.2⟩
  have hhf := half_spec hF N hf hh hg1 hf9
  have hR := mul_nonneg (mul_self_nonneg ((X - 1) / (2 + (X - 1)))) (ev_nonneg hP0 (mul_self_nonneg ((X - 1) / (2 + (X - 1)))))
  have hap := Poly.log_rat hP rfl (by linarith) hsl
  have hap' := hap.trans (mul_le_mul_of_nonneg_right (hB.trans (le_of_eq (show (4 : ℝ) / 100 * (1 / 2 ^ (F.s + 1)) = 0.04 * (1 / 2 ^ (F.s + 1)) by norm_num)))
    (abs_nonneg _))
  have hR9 := hr1.2.1
  simp only [Ex.sv, Bool.false_eq_true, if_false, mul_one] at hR9
  push_cast at hR9
  have eX : 1 + (X - 1) = X := by ring
  have key := hilo_fv hF N hc hc2 hcl hs hf h2 hhf hr1 hap' a0 a1 hg1
  rw [eX] at key hap'
  refine ⟨key, ?_, ?_, ?_⟩
  · generalize (X - 1) / (2 + (X - 1)) * ((X - 1) / (2 + (X - 1))) * Poly.ev P ((X - 1) / (2 + (X - 1)) * ((X - 1) / (2 + (X - 1)))) = R at *
    have h2X : (0 : ℝ) < 2 + (X - 1) := by linarith
    have hs1 : |X - 1| ≤ 2.41422 * |(X - 1) / (2 + (X - 1))| := by
      rw [abs_div, abs_of_pos h2X, ← mul_div_assoc, le_div_iff₀ h2X]
      nlinarith [abs_nonneg (X - 1)]
    generalize (X - 1) / (2 + (X - 1)) = s at *
    have h5 : |s * (2 + R)| = |s| * (2 + R) := by rw [abs_mul, abs_of_nonneg (show (0 : ℝ) ≤ 2 + R by linarith)]
    have h6 := abs_sub_abs_le_abs_sub (s * (2 + R)) (Real.log X)
    rw [abs_sub_comm, h5] at h6
    have h7 := mul_le_mul_of_nonneg_right hu9 (abs_nonneg s)
    have h8 : 0 ≤ |s| * R := mul_nonneg (abs_nonneg _) hR
    linarith [abs_nonneg s]
  · generalize (X - 1) / (2 + (X - 1)) * ((X - 1) / (2 + (X - 1))) * Poly.ev P ((X - 1) / (2 + (X - 1)) * ((X - 1) / (2 + (X - 1)))) = R at *
    generalize (X - 1) / (2 + (X - 1)) = s at *
    have h5 : |s * (2 + R)| = |s| * (2 + R) := by rw [abs_mul, abs_of_nonneg (show (0 : ℝ) ≤ 2 + R by linarith)]
    have h6 := abs_sub_abs_le_abs_sub (Real.log X) (s * (2 + R))
    rw [h5] at h6
    have h7 := mul_le_mul hu9 hsl (abs_nonneg s) (by norm_num)
    have hR3 : R ≤ 2 / 100 := (le_abs_self R).trans hR9
    have h8 : |s| * (2 + R) ≤ 0.1716 * 2.02 := mul_le_mul hsl (by linarith) (by linarith) (by norm_num)
    linarith
  · intro hne
    have hmin := mul2_min hg1 (sub_ne_zero.mpr hne)
    have hmin2 : (2 : ℝ) ^ (-53 : ℤ) ≤ |X - 1| := le_trans (zpow_le_zpow_right₀ (by norm_num) (by rcases hs with h | h <;> omega)) hmin
    have h1 : (1 : ℝ) / 2 ^ 53 * (2 : ℝ) ^ (-53 : ℤ) ≤ 1 / 2 ^ (F.s + 1) * |X - 1| := mul_le_mul hu2 hmin2 (by positivity) hu0.le
    refine le_trans ?_ (mul_le_mul_of_nonneg_left h1 (by norm_num))
    norm_num

/-- the two parts of a constant `C` -/
structure Iv (F : Fmt) (c : ℕ) (ivhi ivlo : BitVec F.w) (C A B : ℝ) : Prop where
  hA : GFv F ivhi A
  hB : GFv F ivlo B
  C0 : 0.43 ≤ C
  C1 : C ≤ 1.45
  B1 : |B| ≤ 0.00025 * C
  AB : |A + B - C| ≤ 0.001 * (1 / 2 ^ (F.s + 1)) * C
  bits : ∃ ja : ℤ, Mul2 ja A ∧ |A| ≤ 2 ^ (ja + c) ∧ -60 ≤ ja

theorem scale_real {u t a C A B H L S P Q T : ℝ} (hu0 : 0 < u) (hu : u ≤ 1 / 1000000) (ha0 : 0 ≤ a) (ht : t ≤ 1 / 1000000 * (u * a)) (C0 : 0.43 ≤ C)
    (B1 : |B| ≤ 0.00025 * C) (AB : |A + B - C| ≤ 0.001 * u * C) (hT : |H + L - T| ≤ 0.6 * (u * a)) (hL : |L| ≤ 0.06 * a) (hH : |H| ≤ 1.25 * a)
    (hS : |S - (L + H)| ≤ u * |L + H| + t) (hP : |P - S * B| ≤ u * |S * B| + t) (hQ : |Q - L * A| ≤ u * |L * A| + t) :
    |H * A + P + Q - C * T| ≤ 0.663 * (C * (u * a)) ∧ |P| ≤ 0.00034 * (C * a) ∧ |Q| ≤ 0.0602 * (C * a) ∧ |H * A| ≤ 1.252 * (C * a) := by
  have hA : |A| ≤ 1.0003 * C := by
    have h1 := abs_sub_abs_le_abs_sub A (C - B)
    have h2 := abs_sub C B
    rw [show A - (C - B) = A + B - C by ring] at h1
    rw [abs_of_pos (show 0 < C by linarith)] at h2
    nlinarith
  have hua : u * a ≤ 1 / 1000000 * a := mul_le_mul_of_nonneg_right hu ha0
  have hua0 : 0 ≤ u * a := by positivity
  have hCa : 0 ≤ C * a := mul_nonneg (by linarith) ha0
  have hCu : 0 ≤ C * (u * a) := mul_nonneg (by linarith) hua0
  have hCu2 : C * (u * a) ≤ 1 / 1000000 * (C * a) := by nlinarith
  have ht2 : t ≤ 0.000003 * (C * (u * a)) := by nlinarith
  have hLH : |L + H| ≤ 1.31 * a := by have := abs_add_le L H; linarith
  have hLH2 := mul_le_mul_of_nonneg_left hLH hu0.le
  have hS1 : |S| ≤ 1.3101 * a := by have := abs_sub_abs_le_abs_sub S (L + H); linarith
  have hSB : |S * B| ≤ 0.00033 * (C * a) := by
    rw [abs_mul]
    have := mul_le_mul hS1 B1 (abs_nonneg _) (by positivity)
    linarith
  have hSB2 := mul_le_mul_of_nonneg_left hSB hu0.le
  have hLA : |L * A| ≤ 0.06002 * (C * a) := by
    rw [abs_mul]
    have := mul_le_mul hL hA (abs_nonneg _) (by positivity)
    linarith
  have hLA2 := mul_le_mul_of_nonneg_left hLA hu0.le
  have hHA : |H * A| ≤ 1.252 * (C * a) := by
    rw [abs_mul]
    have := mul_le_mul hH hA (abs_nonneg _) (by positivity)
    linarith
  have hSBe : |S * B - (L + H) * B| ≤ 0.00033 * (C * (u * a)) := by
    rw [← sub_mul, abs_mul]
    have h1 : |S - (L + H)| ≤ 1.31001 * (u * a) := by linarith
    have := mul_le_mul h1 B1 (abs_nonneg _) (by positivity)
    linarith
  have hABe : |(H + L) * (A + B - C)| ≤ 0.00132 * (C * (u * a)) := by
    rw [abs_mul, add_comm H L]
    have := mul_le_mul hLH AB (abs_nonneg _) (by positivity)
    linarith
  have hTe : |C * (H + L - T)| ≤ 0.6 * (C * (u * a)) := by
    rw [abs_mul, abs_of_pos (show 0 < C by linarith)]
    have := mul_le_mul_of_nonneg_left hT (show 0 ≤ C by linarith)
    linarith
  refine ⟨?_, ?_, ?_, hHA⟩
  · have e : H * A + P + Q - C * T = (P - S * B) + (S * B - (L + H) * B) + (Q - L * A) + (H + L) * (A + B - C) + C * (H + L - T) := by ring
    rw [e]
    have h1 := abs_add_le ((P - S * B) + (S * B - (L + H) * B) + (Q - L * A) + (H + L) * (A + B - C)) (C * (H + L - T))
    have h2 := abs_add_le ((P - S * B) + (S * B - (L + H) * B) + (Q - L * A)) ((H + L) * (A + B - C))
    have h3 := abs_add_le ((P - S * B) + (S * B - (L + H) * B)) (Q - L * A)
    have h4 := abs_add_le (P - S * B) (S * B - (L + H) * B)
    linarith
  · have := abs_sub_abs_le_abs_sub P (S * B); linarith
  · have := abs_sub_abs_le_abs_sub Q (L * A); linarith

/-- what is shown of the three products; `V` is `hi * ivhi` -/
def Prods (F : Fmt) (vh p q : BitVec F.w) (a C T : ℝ) : Prop :=
  ∃ V P Q : ℝ, GFv F vh V ∧ GFv F p P ∧ GFv F q Q ∧ |V + P + Q - C * T| ≤ 0.663 * (C * (1 / 2 ^ (F.s + 1) * a)) ∧ |P| ≤ 0.00034 * (C * a) ∧ |Q| ≤ 0.0602 * (C * a) ∧
    |V| ≤ 1.252 * (C * a)

theorem u_le (hs : F.s = 23 ∨ F.s = 52) : (1 : ℝ) / 2 ^ (F.s + 1) ≤ 1 / 1000000 :=
  le_trans (one_div_le_one_div_of_le (by positivity) (pow_le_pow_right₀ (by norm_num) (show 20 ≤ F.s + 1 by rcases hs with h | h <;> omega))) (by norm_num)

theorem prods_spec (hF : F.Big) (hs : F.s = 23 ∨ F.s = 52) (N : FPU F) {c : ℕ} {hi lo ivhi ivlo : BitVec F.w} {a T C A B : ℝ} (h : HL F c hi lo a T)
    (ha0 : 0 ≤ a) (ha1 : a ≤ 0.41422) (ht : (1 : ℝ) / 2 ^ 150 ≤ 1 / 1000000 * (1 / 2 ^ (F.s + 1) * a)) (iv : Iv F c ivhi ivlo C A B) :
    Prods F (N.mul hi ivhi) (N.mul (N.add lo hi) ivlo) (N.mul lo ivhi) a C T := by
  have h127 := hF.bias
  have hu0 : (0 : ℝ) < 1 / 2 ^ (F.s + 1) := by positivity
  have hu := u_le hs
  obtain ⟨H, L, j, gH, gL, mH, bH, hj, h1, h2, h3⟩ := h
  obtain ⟨ja, mA, bA, hja⟩ := iv.bits
  have C0 := iv.C0
  have C1 := iv.C1
  have hA : |A| ≤ 2 := by
    have h1 := abs_sub_abs_le_abs_sub A (C - B)
    have h2 := abs_sub C B
    rw [show A - (C - B) = A + B - C by ring] at h1
    rw [abs_of_pos (show 0 < C by linarith)] at h2
    have := iv.AB
    have := iv.B1
    nlinarith
  have hH1 : |H| ≤ 1 := by linarith
  have hL1 : |L| ≤ 1 := by linarith
  have hHA : |H * A| ≤ 2 := by rw [abs_mul]; nlinarith [abs_nonneg H, abs_nonneg A]
  have hLA : |L * A| ≤ 2 := by rw [abs_mul]; nlinarith [abs_nonneg L, abs_nonneg A]
  have gV : GFv F (N.mul hi ivhi) (H * A) := GFv.of_rounds hF (gH.mulR N iv.hA) (mH.mul mA) (by
    rw [abs_mul]
    refine (mul_le_mul bH bA (abs_nonneg _) (by positivity)).trans (le_of_eq ?_)
    rw [← zpow_add₀ (by norm_num)]; congr 1; ring) (by rcases hs with h | h <;> omega) (hHA.trans (by norm_num))
  have hLH : |L + H| ≤ 2 := by have := abs_add_le L H; linarith
  obtain ⟨S, gS, eS⟩ := GFv.rnd hF (gL.addR N gH) (hLH.trans (by norm_num))
  have hS : |S| ≤ 3 := by
    have := abs_sub_abs_le_abs_sub S (L + H)
    have := mul_le_mul hu hLH (abs_nonneg _) (by norm_num)
    nlinarith
  have hSB : |S * B| ≤ 3 := by
    rw [abs_mul]
    have := iv.B1
    have h5 : |B| ≤ 1 := by linarith
    have := mul_le_mul hS h5 (abs_nonneg _) (by norm_num)
    linarith
  obtain ⟨P, gP, eP⟩ := GFv.rnd hF (gS.mulR N iv.hB) (hSB.trans (by norm_num))
  obtain ⟨Q, gQ, eQ⟩ := GFv.rnd hF (gL.mulR N iv.hA) (hLA.trans (by norm_num))
  obtain ⟨r1, r2, r3, r4⟩ := scale_real hu0 hu ha0 ht C0 iv.B1 iv.AB h1 h2 h3 eS eP eQ
  exact ⟨_, P, Q, gV, gP, gQ, r1, r2, r3, r4⟩

/-- the values of the numbers added at the end: the sum of `V` and `W` is near `C T` up to the multiple `K2` of the low part of a constant -/
def Parts (F : Fmt) (vh vl : BitVec F.w) (a C T K : ℝ) : Prop :=
  ∃ V W : ℝ, GFv F vh V ∧ GFv F vl W ∧ |V + W - (C * T + K)| ≤ 0.73 * (C * (1 / 2 ^ (F.s + 1) * a)) + 4 * (1 / 2 ^ (F.s + 1) * |K|) ∧ |W| ≤ 0.061 * (C * a) + 1.01 * |K| ∧
    |V| ≤ 1.252 * (C * a)

/-- as in `log2` -/
theorem parts2 (hF : F.Big) (hs : F.s = 23 ∨ F.s = 52) (N : FPU F) {vh p q : BitVec F.w} {a T C : ℝ} (h : Prods F vh p q a C T) (C0 : 0.43 ≤ C) (C1 : C ≤ 1.45)
    (ha0 : 0 ≤ a) (ha1 : a ≤ 0.41422) (ht : (1 : ℝ) / 2 ^ 150 ≤ 1 / 1000000 * (1 / 2 ^ (F.s + 1) * a)) : Parts F vh (N.add p q) a C T 0 := by
  have hu0 : (0 : ℝ) < 1 / 2 ^ (F.s + 1) := by positivity
  have hu := u_le hs
  obtain ⟨V, P, Q, gV, gP, gQ, h1, h2, h3, h4⟩ := h
  have hPQ : |P + Q| ≤ 0.06054 * (C * a) := by have := abs_add_le P Q; linarith
  have hCa0 : 0 ≤ C * a := mul_nonneg (by linarith) ha0
  have hCa : C * a ≤ 1 := by nlinarith
  obtain ⟨W, gW, eW⟩ := GFv.rnd hF (gP.addR N gQ) (hPQ.trans (le_trans (show _ ≤ (1 : ℝ) by linarith) (by norm_num)))
  refine ⟨V, W, gV, gW, ?_, ?_, h4⟩
  · rw [abs_zero]
    generalize (1 : ℝ) / 2 ^ (F.s + 1) = u at *
    have h5 := mul_le_mul_of_nonneg_left hPQ hu0.le
    have h6 : 0 ≤ C * (u * a) := by positivity
    have h7 : 0.43 * (u * a) ≤ C * (u * a) := mul_le_mul_of_nonneg_right C0 (by positivity)
    have h8 := abs_add_le (W - (P + Q)) (V + P + Q - C * T)
    rw [show W - (P + Q) + (V + P + Q - C * T) = V + W - (C * T + 0) by ring] at h8
    linarith
  · rw [abs_zero]
    generalize (1 : ℝ) / 2 ^ (F.s + 1) = u at *
    have h5 := mul_le_mul_of_nonneg_left hPQ hu0.le
    have h6 : u * (C * a) ≤ 1 / 1000000 * (C * a) := mul_le_mul_of_nonneg_right hu hCa0
    have h7 : 0.43 * (u * a) ≤ C * (u * a) := mul_le_mul_of_nonneg_right C0 (by positivity)
    have h8 := abs_sub_abs_le_abs_sub W (P + Q)
    linarith

/-- as in `log10` -/
theorem parts10 (hF : F.Big) (hs : F.s = 23 ∨ F.s = 52) (N : FPU F) {vh p q dk lo : BitVec F.w} {a T C k d : ℝ} (h : Prods F vh p q a C T) (C0 : 0.43 ≤ C) (C1 : C ≤ 1.45)
    (ha0 : 0 ≤ a) (ha1 : a ≤ 0.41422) (ht : (1 : ℝ) / 2 ^ 150 ≤ 1 / 1000000 * (1 / 2 ^ (F.s + 1) * a)) (hk : GFv F dk k) (hd : GFv F lo d) (hkd : |k * d| ≤ 1) :
    Parts F vh (N.add (N.add (N.mul dk lo) p) q) a C T (k * d) := by
  have hu0 : (0 : ℝ) < 1 / 2 ^ (F.s + 1) := by positivity
  have hu := u_le hs
  obtain ⟨V, P, Q, gV, gP, gQ, h1, h2, h3, h4⟩ := h
  have hCa0 : 0 ≤ C * a := mul_nonneg (by linarith) ha0
  have hCa : C * a ≤ 1 := by nlinarith
  obtain ⟨m, gm, em⟩ := GFv.rnd hF (hk.mulR N hd) (hkd.trans (by norm_num))
  generalize hK : k * d = K at *
  have hm1 : |m| ≤ 1.000001 * |K| + 1 / 2 ^ 150 := by
    have := abs_sub_abs_le_abs_sub m K
    have := mul_le_mul_of_nonneg_right hu (abs_nonneg K)
    linarith
  have hmP : |m + P| ≤ 1.000001 * |K| + 1 / 2 ^ 150 + 0.00034 * (C * a) := by have := abs_add_le m P; linarith
  have t1 : (1 : ℝ) / 2 ^ 150 ≤ 1 := by norm_num
  obtain ⟨Y, gY, eY⟩ := GFv.rnd hF (gm.addR N gP) (hmP.trans (le_trans (show _ ≤ (4 : ℝ) by linarith) (by norm_num)))
  have t2 : (1 : ℝ) / 2 ^ 150 ≤ 1 / 1000000 * (C * a) := by
    have : (1 : ℝ) / 2 ^ (F.s + 1) * a ≤ 1 / 1000000 * a := mul_le_mul_of_nonneg_right hu ha0
    have : 0.43 * a ≤ C * a := mul_le_mul_of_nonneg_right C0 ha0
    linarith
  have hu1 : ∀ v : ℝ, 1 / 2 ^ (F.s + 1) * |v| ≤ 1 / 1000000 * |v| := fun v => mul_le_mul_of_nonneg_right hu (abs_nonneg v)
  have hY : |Y| ≤ 1.00001 * |K| + 0.00035 * (C * a) := by
    have := abs_sub_abs_le_abs_sub Y (m + P)
    have := hu1 (m + P)
    have := abs_nonneg K
    linarith
  have hYQ : |Y + Q| ≤ 1.00001 * |K| + 0.06055 * (C * a) := by have := abs_add_le Y Q; linarith
  obtain ⟨W, gW, eW⟩ := GFv.rnd hF (gY.addR N gQ) (hYQ.trans (le_trans (show _ ≤ (4 : ℝ) by linarith) (by norm_num)))
  refine ⟨V, W, gV, gW, ?_, ?_, h4⟩
  · have u1 := mul_le_mul_of_nonneg_left hmP hu0.le
    have u2 := mul_le_mul_of_nonneg_left hYQ hu0.le
    have u3 := mul_le_mul_of_nonneg_left t2 hu0.le
    generalize (1 : ℝ) / 2 ^ (F.s + 1) = u at *
    have h6 : 0 ≤ C * (u * a) := by positivity
    have h7 : 0.43 * (u * a) ≤ C * (u * a) := mul_le_mul_of_nonneg_right C0 (by positivity)
    have hK0 : 0 ≤ u * |K| := by positivity
    have h8 := abs_add_le ((W - (Y + Q)) + (Y - (m + P)) + (m - K)) (V + P + Q - C * T)
    have h9 := abs_add_le ((W - (Y + Q)) + (Y - (m + P))) (m - K)
    have h10 := abs_add_le (W - (Y + Q)) (Y - (m + P))
    rw [show W - (Y + Q) + (Y - (m + P)) + (m - K) + (V + P + Q - C * T) = V + W - (C * T + K) by ring] at h8
    linarith
  · have := abs_sub_abs_le_abs_sub W (Y + Q)
    have := hu1 (Y + Q)
    have := abs_nonneg K
    linarith

/-- `y + vh + vl` as it is computed in the `f64` functions, `y` zero -/
theorem sp0 (hF : F.Big) (N : FPU F) {y vh vl : BitVec F.w} {V W : ℝ} (hy : GFv F y 0) (hv : GFv F vh V) (hw : GFv F vl W) (hV : |V| ≤ 1) (hW : |W| ≤ 1) :
    ∃ Z, GFv F (N.add (N.add vl (N.add (N.sub y (N.add y vh)) vh)) (N.add y vh)) Z ∧ |Z - (V + W)| ≤ 1 / 2 ^ (F.s + 1) * |V + W| + 1 / 2 ^ 150 := by
  have h127 := hF.bias
  have rs : ∀ {r b : BitVec F.w} {v : ℝ}, GFv F b v → |v| ≤ 1 → F.Rounds v r → GFv F r v := fun {r b v} hb h1 hr =>
    ⟨hr.fin100 hF (h1.trans (by norm_num)), hr.exactR F (by have := F.rp_val b; rwa [hb.val] at this) (h1.trans (one_le_zpow₀ (by norm_num) (by omega)))⟩
  have g1 : GFv F (N.add y vh) V := rs hv hV (by have := hy.addR N hv; rwa [zero_add] at this)
  have g2 : GFv F (N.sub y (N.add y vh)) (-V) := rs hv.neg (by rwa [abs_neg]) (by have := hy.subR N g1; rwa [zero_sub] at this)
  have g3 : GFv F (N.add (N.sub y (N.add y vh)) vh) 0 := rs hy (by simp) (by have := g2.addR N hv; rwa [neg_add_cancel] at this)
  have g4 : GFv F (N.add vl (N.add (N.sub y (N.add y vh)) vh)) W := rs hw hW (by have := hw.addR N g3; rwa [add_zero] at this)
  have := abs_add_le W V
  obtain ⟨Z, gZ, eZ⟩ := GFv.rnd hF (g4.addR N g1) (le_trans (show _ ≤ (2 : ℝ) by linarith) (by norm_num))
  exact ⟨Z, gZ, by rw [add_comm V W]; exact eZ⟩

/-- the same with `y` at least `vh` -/
theorem spK (hF : F.Big) (N : FPU F) {y vh vl : BitVec F.w} {K V W : ℝ} (hy : GFv F y K) (hv : GFv F vh V) (hw : GFv F vl W) (hK : |K| ≤ 2000) (hV : |V| ≤ |K|) (hW : |W| ≤ 1) :
    ∃ w e v Z, GFv F (N.add (N.add vl (N.add (N.sub y (N.add y vh)) vh)) (N.add y vh)) Z ∧ |w - (K + V)| ≤ 1 / 2 ^ (F.s + 1) * |K + V| + 1 / 2 ^ 150 ∧
      |e - (K + V - w)| ≤ 1 / 2 ^ (F.s + 1) * |K + V - w| + 1 / 2 ^ 150 ∧ |v - (W + e)| ≤ 1 / 2 ^ (F.s + 1) * |W + e| + 1 / 2 ^ 150 ∧
      |Z - (v + w)| ≤ 1 / 2 ^ (F.s + 1) * |v + w| + 1 / 2 ^ 150 := by
  have h127 := hF.bias
  have t1 : (1 : ℝ) / 2 ^ 150 ≤ 1 := by norm_num
  have hu : ∀ v : ℝ, 1 / 2 ^ (F.s + 1) * |v| ≤ 1 * |v| := fun v => mul_le_mul_of_nonneg_right (by rw [div_le_one (by positivity)]; exact one_le_pow₀ (by norm_num)) (abs_nonneg v)
  have s1 := abs_add_le K V
  obtain ⟨w, gw, ew⟩ := GFv.rnd hF (hy.addR N hv) (le_trans (show _ ≤ (4000 : ℝ) by linarith) (by norm_num))
  have gd : GFv F (N.sub y (N.add y vh)) (K - w) := by
    have r := ((N.add_spec y vh).1 hy.fin hv.fin).1
    obtain ⟨c, hc, hcv⟩ := F.fast2 hy.fin gw.fin (by
      have : ((|F.val vh| : ℚ) : ℝ) ≤ ((|F.val y| : ℚ) : ℝ) := by push_cast; rw [hv.valQ, hy.valQ]; exact hV
      exact_mod_cast this) r
    have r2 := ((N.sub_spec y (N.add y vh)).1 hy.fin (F.isFin_neg.mpr gw.fin)).1
    rw [F.val_neg, ← sub_eq_add_neg] at r2
    obtain ⟨f1, v1⟩ := F.rounds_repr r2 hc hcv
    refine ⟨f1, ?_⟩
    rw [← F.valK_cast, v1]; push_cast; rw [hy.valQ, gw.valQ]
  have s2 : |K + V - w| ≤ 4001 := by
    rw [abs_sub_comm]; have := hu (K + V); linarith
  have r3 := gd.addR N hv
  rw [show K - w + V = K + V - w by ring] at r3
  obtain ⟨e, ge, ee⟩ := GFv.rnd hF r3 (s2.trans (by norm_num))
  have s3 : |e| ≤ 8003 := by
    have := abs_sub_abs_le_abs_sub e (K + V - w); have := hu (K + V - w); linarith
  have s4 := abs_add_le W e
  obtain ⟨v, gv, ev⟩ := GFv.rnd hF (hw.addR N ge) (le_trans (show _ ≤ (8004 : ℝ) by linarith) (by norm_num))
  have s5 : |v| ≤ 16009 := by
    have := abs_sub_abs_le_abs_sub v (W + e); have := hu (W + e); linarith
  have s6 : |w| ≤ 8001 := by
    have := abs_sub_abs_le_abs_sub w (K + V); have := hu (K + V); linarith
  have s7 := abs_add_le v w
  obtain ⟨Z, gZ, eZ⟩ := GFv.rnd hF (gv.addR N gw) (le_trans (show _ ≤ (30000 : ℝ) by linarith) (by norm_num))
  exact ⟨w, e, v, Z, gZ, ew, ee, ev, eZ⟩

/-- the error for the exponent zero -/
theorem zero_real {u t a C T V W Z : ℝ} (hu0 : 0 < u) (ha0 : 0 ≤ a) (hu : u ≤ 1 / 1000000) (ht : t ≤ 1 / 1000000 * (u * a)) (C0 : 0.43 ≤ C) (hT : 0.828 * a ≤ |T|)
    (h : |V + W - C * T| ≤ 0.73 * (C * (u * a))) (hZ : |Z - (V + W)| ≤ u * |V + W| + t) : |Z - C * T| ≤ 2 * u * |C * T| := by
  have e1 : |C * T| = C * |T| := by rw [abs_mul, abs_of_pos (show 0 < C by linarith)]
  have h1 := abs_sub_abs_le_abs_sub (V + W) (C * T)
  have h2 := abs_add_le (Z - (V + W)) (V + W - C * T)
  rw [show Z - (V + W) + (V + W - C * T) = Z - C * T by ring] at h2
  have h3 : 0.828 * (C * (u * a)) ≤ u * (C * |T|) := by
    have := mul_le_mul_of_nonneg_left hT (show 0 ≤ u * C by positivity)
    linarith
  have h4 : u * |V + W| ≤ u * (C * |T| + 0.73 * (C * (u * a))) := mul_le_mul_of_nonneg_left (by linarith) hu0.le
  have h5 : 0.43 * (u * a) ≤ C * (u * a) := mul_le_mul_of_nonneg_right C0 (by positivity)
  have h6 : u * (C * (u * a)) ≤ 1 / 1000000 * (C * (u * a)) := mul_le_mul_of_nonneg_right hu (by positivity)
  have h7 : 0 ≤ C * (u * a) := by positivity
  rw [e1]
  linarith

theorem ln2_lo : 0.69314 ≤ Real.log 2 := by
  have h := Poly.ln2_gt
  have : (0.69314 : ℝ) ≤ ((Poly.ln2L : ℚ) : ℝ) := by unfold Poly.ln2L; push_cast; norm_num
  linarith
theorem ln2_hi : Real.log 2 ≤ 0.69315 := by
  have h := Poly.ln2_lt
  have : ((Poly.ln2H : ℚ) : ℝ) ≤ 0.69315 := by unfold Poly.ln2H; push_cast; norm_num
  linarith

/-- the size of the result for another exponent -/
theorem T_ge {C T κ k : ℝ} (C0 : 0.43 ≤ C) (hκ : κ = |k|) (h1 : 1 ≤ κ) (hT : |T| ≤ 0.34665) : 0.3464 * (C * κ) ≤ |C * (T + k * Real.log 2)| := by
  rw [abs_mul, abs_of_pos (show 0 < C by linarith)]
  have h2 := ln2_lo
  have h3 := abs_sub_abs_le_abs_sub (k * Real.log 2) (-T)
  rw [abs_neg, abs_mul, abs_of_pos (Real.log_pos (by norm_num)), ← hκ, sub_neg_eq_add, add_comm] at h3
  have h4 : 0.69314 * κ ≤ κ * Real.log 2 := by nlinarith
  have := mul_le_mul_of_nonneg_left (show 0.3464 * κ ≤ |T + k * Real.log 2| by linarith) (show 0 ≤ C by linarith)
  linarith

/-- the error for another exponent, with compensated sums -/
theorem spK_real {u t C T κ k K1 K2 V W w e v Z : ℝ} (hu0 : 0 < u) (hu : u ≤ 1 / 1000000) (ht : t ≤ 1 / 1000000 * u) (C0 : 0.43 ≤ C) (hκ : κ = |k|) (h1 : 1 ≤ κ) (hκ9 : u * κ ≤ 1 / 1000)
    (hT : |T| ≤ 0.34665) (hK2 : |K2| ≤ 0.000002 * (C * κ)) (hK2' : |K2| ≤ 0.0003 * C) (hK : |K1 + K2 - C * (k * Real.log 2)| ≤ 0.001 * (u * (C * κ))) (hV : |V| ≤ |K1|)
    (h : |V + W - (C * T + K2)| ≤ 0.73 * (C * (u * 0.41422)) + 4 * (u * |K2|)) (hW : |W| ≤ 0.061 * (C * 0.41422) + 1.01 * |K2|)
    (hw : |w - (K1 + V)| ≤ u * |K1 + V| + t) (he : |e - (K1 + V - w)| ≤ u * |K1 + V - w| + t) (hv : |v - (W + e)| ≤ u * |W + e| + t) (hZ : |Z - (v + w)| ≤ u * |v + w| + t) :
    |Z - C * (T + k * Real.log 2)| ≤ 2 * u * |C * (T + k * Real.log 2)| := by
  have hTg := T_ge C0 hκ h1 hT
  have hk2 : |C * (k * Real.log 2)| ≤ 0.7 * (C * κ) := by
    rw [abs_mul, abs_mul, abs_of_pos (show 0 < C by linarith), ← hκ, abs_of_pos (Real.log_pos (by norm_num))]
    have := ln2_hi
    have := mul_le_mul_of_nonneg_left (show Real.log 2 ≤ 0.7 by linarith) (show 0 ≤ C * κ by positivity)
    linarith
  set D := C * (T + k * Real.log 2) with hD
  have eD : D = C * T + C * (k * Real.log 2) := by rw [hD]; ring
  generalize C * (k * Real.log 2) = Y at *
  generalize hG : C * T = G at *
  have hCk : C ≤ C * κ := by nlinarith
  have hCκ : 0 < C * κ := by positivity
  have huC : u * C ≤ u * (C * κ) := mul_le_mul_of_nonneg_left hCk hu0.le
  have huC0 : 0 < u * C := by positivity
  have huCκ : u * (C * κ) ≤ 1 / 1000 * C := by nlinarith
  have hux : u * (C * κ) ≤ 1 / 1000000 * (C * κ) := mul_le_mul_of_nonneg_right hu hCκ.le
  have ht2 : t ≤ 0.000003 * (u * C) := by nlinarith
  have hK1 : |K1| ≤ 0.71 * (C * κ) := by
    have a1 := abs_add_le (K1 + K2 - Y) (Y - K2)
    have a2 := abs_sub Y K2
    rw [show K1 + K2 - Y + (Y - K2) = K1 by ring] at a1
    linarith
  have hKV : |K1 + V| ≤ 1.42 * (C * κ) := by have := abs_add_le K1 V; linarith
  have b1 := mul_le_mul_of_nonneg_left hKV hu0.le
  have hd : |K1 + V - w| ≤ 1.43 * (u * (C * κ)) := by rw [abs_sub_comm]; linarith
  have b2 := mul_le_mul_of_nonneg_left hd hu0.le
  have b3 : u * (u * (C * κ)) ≤ 1 / 1000000 * (u * (C * κ)) := mul_le_mul_of_nonneg_right hu (by positivity)
  have he1 : |e| ≤ 1.44 * (u * (C * κ)) := by have := abs_sub_abs_le_abs_sub e (K1 + V - w); linarith
  have hWe : |W + e| ≤ 0.0256 * C + 1.44 * (u * (C * κ)) := by have := abs_add_le W e; linarith
  have b4 := mul_le_mul_of_nonneg_left hWe hu0.le
  have b5 := mul_le_mul_of_nonneg_left hK2 hu0.le
  -- the sum before the last rounding
  have hs : |v + w - D| ≤ 0.3302 * (u * (C * κ)) := by
    have a1 := abs_add_le ((v - (W + e)) + (e - (K1 + V - w)) + (V + W - (G + K2))) (K1 + K2 - Y)
    have a2 := abs_add_le ((v - (W + e)) + (e - (K1 + V - w))) (V + W - (G + K2))
    have a3 := abs_add_le (v - (W + e)) (e - (K1 + V - w))
    rw [show v - (W + e) + (e - (K1 + V - w)) + (V + W - (G + K2)) + (K1 + K2 - Y) = v + w - D by rw [eD]; ring] at a1
    linarith
  have a4 := abs_sub_abs_le_abs_sub (v + w) D
  have a5 := abs_add_le (Z - (v + w)) (v + w - D)
  rw [show Z - (v + w) + (v + w - D) = Z - D by ring] at a5
  have b6 : u * |v + w| ≤ u * (|D| + 0.3302 * (u * (C * κ))) := mul_le_mul_of_nonneg_left (by linarith) hu0.le
  have b7 := mul_le_mul_of_nonneg_left hTg hu0.le
  linarith

/-- the same with plain sums -/
theorem plain_real {u t C T κ k K1 K2 V W g Z : ℝ} (hu0 : 0 < u) (hu : u ≤ 1 / 1000000) (ht : t ≤ 1 / 1000000 * u) (C0 : 0.43 ≤ C) (hκ : κ = |k|) (h1 : 1 ≤ κ)
    (hT : |T| ≤ 0.34665) (hK2 : |K2| ≤ 0.000002 * (C * κ)) (hK2' : |K2| ≤ 0.0003 * C) (hK : |K1 + K2 - C * (k * Real.log 2)| ≤ 0.001 * (u * (C * κ)))
    (h : |V + W - (C * T + K2)| ≤ 0.73 * (C * (u * 0.41422)) + 4 * (u * |K2|))
    (hg : |g - (W + V)| ≤ u * |W + V| + t) (hZ : |Z - (g + K1)| ≤ u * |g + K1| + t) :
    |Z - C * (T + k * Real.log 2)| ≤ 3 * u * |C * (T + k * Real.log 2)| := by
  have hTg := T_ge C0 hκ h1 hT
  set D := C * (T + k * Real.log 2) with hD
  have eD : D = C * T + C * (k * Real.log 2) := by rw [hD]; ring
  generalize C * (k * Real.log 2) = Y at *
  have hG9 : |C * T| ≤ 0.34665 * C := by
    rw [abs_mul, abs_of_pos (show 0 < C by linarith)]
    nlinarith
  generalize hG : C * T = G at *
  have hCk : C ≤ C * κ := by nlinarith
  have hCκ : 0 < C * κ := by positivity
  have huC : u * C ≤ u * (C * κ) := mul_le_mul_of_nonneg_left hCk hu0.le
  have huC0 : 0 < u * C := by positivity
  have hux : u * C ≤ 1 / 1000000 * C := mul_le_mul_of_nonneg_right hu (by linarith)
  have ht2 : t ≤ 0.000003 * (u * C) := by nlinarith
  have b5 := mul_le_mul_of_nonneg_left hK2 hu0.le
  have b8 := mul_le_mul_of_nonneg_left hK2' hu0.le
  have hWV : |W + V| ≤ 0.347 * C := by
    have a1 := abs_add_le (V + W - (G + K2)) (G + K2)
    have a2 := abs_add_le G K2
    rw [show V + W - (G + K2) + (G + K2) = W + V by ring] at a1
    linarith
  have b1 := mul_le_mul_of_nonneg_left hWV hu0.le
  have hs : |g + K1 - D| ≤ 0.651 * (u * (C * κ)) := by
    have a1 := abs_add_le ((g - (W + V)) + (V + W - (G + K2))) (K1 + K2 - Y)
    have a2 := abs_add_le (g - (W + V)) (V + W - (G + K2))
    rw [show g - (W + V) + (V + W - (G + K2)) + (K1 + K2 - Y) = g + K1 - D by rw [eD]; ring] at a1
    linarith
  have a4 := abs_sub_abs_le_abs_sub (g + K1) D
  have a5 := abs_add_le (Z - (g + K1)) (g + K1 - D)
  rw [show Z - (g + K1) + (g + K1 - D) = Z - D by ring] at a5
  have b6 : u * |g + K1| ≤ u * (|D| + 0.651 * (u * (C * κ))) := mul_le_mul_of_nonneg_left (by linarith) hu0.le
  have b7 := mul_le_mul_of_nonneg_left hTg hu0.le
  have b3 : u * (u * (C * κ)) ≤ 1 / 1000000 * (u * (C * κ)) := mul_le_mul_of_nonneg_right hu (by positivity)
  linarith
end Log2
end Verif
