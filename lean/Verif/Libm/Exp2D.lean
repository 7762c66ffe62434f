import Verif.Libm.Exp2F
/-! # Accuracy of `exp2` -/
namespace Verif
open Fmt
namespace Exp2

/-! ### The table and the polynomial -/

/-- the entries of the table -/
def tD (i : ℕ) : D := BitVec.ofNat f64.w (tbl.getD i 0)

def chkD (i : ℕ) : Bool := Poly.tabChk (f64.val (tD (2 * i))) (f64.val (tD (2 * i + 1))) (1 / 2 ^ 63) 256 ((i : ℤ) - 128) &&
  decide (f64.mag (tD (2 * i)) < f64.infRep) && decide (f64.mag (tD (2 * i + 1)) < f64.infRep) && decide (f64.val (tD (2 * i)) ≤ 142 / 100) &&
  decide (70 / 100 ≤ f64.val (tD (2 * i))) && decide (|f64.val (tD (2 * i + 1))| ≤ 1 / 2 ^ 39)

theorem chkD_all : ((List.range 256).all fun i => chkD i) = true := by decide +kernel

theorem tD_spec {i : ℕ} (hi : i < 256) : ∃ T e, GFv f64 (tD (2 * i)) T ∧ GFv f64 (tD (2 * i + 1)) e ∧ 0.7 ≤ T ∧ T ≤ 1.42 ∧ |e| ≤ 1 / 2 ^ 39 ∧
    |T - Real.exp (((((i : ℤ) - 128 : ℤ) : ℝ) / 256 + e) * Real.log 2)| ≤ 1 / 2 ^ 63 * T ∧ (i = 128 → T = 1 ∧ e = 0) := by
  have h := chkD_all
  rw [List.all_eq_true] at h
  have h := h i (List.mem_range.mpr hi)
  unfold chkD at h
  simp only [Bool.and_eq_true, decide_eq_true_iff] at h
  obtain ⟨⟨⟨⟨⟨h1, h2⟩, h3⟩, h4⟩, h5⟩, h6⟩ := h
  obtain ⟨a, b⟩ := Poly.tab_sound (by norm_num) h1
  refine ⟨(f64.val (tD (2 * i)) : ℚ), (f64.val (tD (2 * i + 1)) : ℚ), GFv.const h2 rfl, GFv.const h3 rfl, ?_, ?_, ?_, ?_, ?_⟩
  · have := Rat.cast_le (K := ℝ).mpr h5
    push_cast at this; norm_num at this ⊢; exact this
  · have := Rat.cast_le (K := ℝ).mpr h4
    push_cast at this; norm_num at this ⊢; exact this
  · have := Rat.cast_le (K := ℝ).mpr h6
    push_cast at this; exact this
  · refine (le_of_eq ?_).trans (b.trans (le_of_eq ?_)) <;> push_cast <;> rfl
  · rintro rfl
    rw [show f64.val (tD (2 * 128)) = 1 by decide +kernel, show f64.val (tD (2 * 128 + 1)) = 0 by decide +kernel]
    simp

def plD : List ℚ := [f64.val q1, f64.val q2, f64.val q3, f64.val q4, f64.val q5]
theorem plD_chk : Poly.chk (Poly.sub Poly.exp2L plD) (1 / 2 ^ 54) 8 (-(1 / 511)) (1 / 511) = true := by decide +kernel

section
variable (N64 : FPU f64)

def leafD (z t : D) : ℕ → D
  | 0 => z | 1 => t | 2 => q1 | 3 => q2 | 4 => q3 | 5 => q4 | _ => q5
noncomputable def valD (Z T : ℝ) : ℕ → ℝ
  | 0 => Z | 1 => T | 2 => (f64.val q1 : ℚ) | 3 => (f64.val q2 : ℚ) | 4 => (f64.val q3 : ℚ) | 5 => (f64.val q4 : ℚ) | _ => (f64.val q5 : ℚ)
def infoD : ℕ → Ex.Bd
  | 0 => ⟨1 / 511, 0, false⟩ | 1 => ⟨142 / 100, 0, false⟩ | 2 => ⟨|f64.val q1|, 0, false⟩ | 3 => ⟨|f64.val q2|, 0, false⟩
  | 4 => ⟨|f64.val q3|, 0, false⟩ | 5 => ⟨|f64.val q4|, 0, false⟩ | _ => ⟨|f64.val q5|, 0, false⟩
open Ex in
def exQ : Ex := add (leaf 2) (mul (leaf 0) (add (leaf 3) (mul (leaf 0) (add (leaf 4) (mul (leaf 0) (add (leaf 5) (mul (leaf 0) (leaf 6))))))))
open Ex in
def exW : Ex := mul (mul (leaf 1) (leaf 0)) exQ

theorem exW_err : exW.errLe f64.s (1 / 2 ^ 150) infoD false (2 / 1000) (1 / 2 ^ 60) = true := by decide +kernel
theorem exQ_err : exQ.errLe f64.s (1 / 2 ^ 150) infoD false 1 1 = true := by decide +kernel

theorem holdsD {b : D} (hb : f64.mag b < f64.infRep) : Ex.Holds f64 1 b ((f64.val b : ℚ) : ℝ) ⟨|f64.val b|, 0, false⟩ := by
  refine (GFv.const (F := f64) hb rfl).holds ?_
  unfold Ex.sv
  push_cast
  rw [mul_one]

theorem holdsAll {z t : D} {Z T : ℝ} (hz : GFv f64 z Z) (ht : GFv f64 t T) (hZ : |Z| ≤ 1 / 511) (hT : |T| ≤ 1.42) (i : ℕ) :
    Ex.Holds f64 1 (leafD z t i) (valD Z T i) (infoD i) := by
  match i with
  | 0 => exact hz.holds (by unfold Ex.sv; push_cast; rw [mul_one]; exact hZ)
  | 1 => exact ht.holds (by unfold Ex.sv; push_cast; rw [mul_one]; norm_num at hT ⊢; exact hT)
  | 2 => exact holdsD (b := q1) (by decide +kernel)
  | 3 => exact holdsD (b := q2) (by decide +kernel)
  | 4 => exact holdsD (b := q3) (by decide +kernel)
  | 5 => exact holdsD (b := q4) (by decide +kernel)
  | (n + 6) => exact holdsD (b := q5) (by decide +kernel)

/-- the polynomial: error and the case of an exact argument -/
theorem poly_spec {z t : D} {Z T : ℝ} (hz : GFv f64 z Z) (ht : GFv f64 t T) (hZ : |Z| ≤ 1 / 511) (hT0 : 0.7 ≤ T) (hT : T ≤ 1.42) :
    ∃ Y W, GFv f64 (poly N64 t z) Y ∧ |W - T * (1 + Z * Poly.ev plD Z)| ≤ 1 / 2 ^ 60 ∧ |Y - W| ≤ 1 / 2 ^ 53 * |W| ∧ (Z = 0 → Y = T) := by
  have hTa : |T| ≤ 1.42 := by rw [abs_of_nonneg (by linarith)]; exact hT
  obtain ⟨f, a, e⟩ := Ex.errLe_sound big64 N64 (σ := 1) (by norm_num) (le_refl _) (tiny := 1 / 2 ^ 150) (by push_cast; norm_num) (holdsAll hz ht hZ hTa) exW_err
  have hsv : Ex.sv 1 false = 1 := if_neg (by simp)
  rw [hsv] at e a
  have hi : exW.ideal (valD Z T) = T * (Z * Poly.ev plD Z) := by
    simp only [exW, exQ, Ex.ideal, valD, plD, Poly.ev]
    ring
  rw [hi] at e a
  push_cast at e a
  rw [mul_one] at e a
  obtain ⟨w, hw⟩ : ∃ w, w = exW.flt N64 (leafD z t) := ⟨_, rfl⟩
  rw [← hw] at f e
  have hp : poly N64 t z = N64.add t w := by rw [hw]; rfl
  have gw : GFv f64 w (f64.valK ℝ w) := ⟨f, rfl⟩
  have hr := ht.addR N64 gw
  rw [← hp] at hr
  have hab : |f64.valK ℝ w| ≤ 0.003 := by
    have t := abs_add_le (f64.valK ℝ w - T * (Z * Poly.ev plD Z)) (T * (Z * Poly.ev plD Z))
    rw [sub_add_cancel] at t
    linarith
  have hW : 0.6 ≤ T + f64.valK ℝ w ∧ T + f64.valK ℝ w ≤ 2 := by
    rw [abs_le] at hab; constructor <;> linarith [hab.1, hab.2]
  have hWa : |T + f64.valK ℝ w| = T + f64.valK ℝ w := abs_of_nonneg (by linarith [hW.1])
  have hfin := hr.fin100 big64 (by rw [hWa]; exact hW.2.trans (by norm_num))
  have hrel := hr.rel f64 (by
      rw [hWa, b64]; refine le_trans ?_ hW.1
      calc (2 : ℝ) ^ (1 - ((1023 : ℕ) : ℤ)) ≤ 2 ^ (-1 : ℤ) := zpow_le_zpow_right₀ (by norm_num) (by norm_num)
        _ ≤ _ := by norm_num) (by
      rw [hWa, b64]; refine hW.2.trans ?_
      calc (2 : ℝ) = 2 ^ (1 : ℤ) := by norm_num
        _ ≤ _ := zpow_le_zpow_right₀ (by norm_num) (by norm_num))
  rw [s64, show (2 : ℝ) ^ (-((52 : ℕ) : ℤ) - 1) = 1 / 2 ^ 53 by norm_num] at hrel
  refine ⟨_, _, ⟨hfin, rfl⟩, ?_, hrel, fun h0 => ?_⟩
  · rw [show T + f64.valK ℝ w - T * (1 + Z * Poly.ev plD Z) = f64.valK ℝ w - T * (Z * Poly.ev plD Z) by ring]
    exact e
  · obtain ⟨qf, -, -⟩ := Ex.errLe_sound big64 N64 (σ := 1) (by norm_num) (le_refl _) (tiny := 1 / 2 ^ 150) (by push_cast; norm_num) (holdsAll hz ht hZ hTa) exQ_err
    have r1 := ht.mulR N64 hz
    rw [h0, mul_zero] at r1
    have z0 : ∀ {b : D}, f64.Rounds (0 : ℝ) b → GFv f64 b 0 := fun {b} h =>
      ⟨h.fin100 big64 (by rw [abs_zero]; positivity), h.exactR f64 f64.rp_zero (by rw [abs_zero]; positivity)⟩
    have r2 := (z0 r1).mulR N64 (GFv.self qf)
    rw [zero_mul] at r2
    have r3 : f64.valK ℝ w = 0 := by rw [hw]; exact (z0 r2).val
    rw [r3, add_zero] at hr
    have := hr.exactR f64 (ht.val ▸ f64.rp_val t) (by
      rw [abs_of_nonneg (by linarith), b64]; refine (hT.trans (show (1.42 : ℝ) ≤ 2 ^ (1 : ℤ) by norm_num)).trans (zpow_le_zpow_right₀ (by norm_num) (by norm_num)))
    exact this
end

/-! ### The result -/

theorem combineD {T Y W P A Z D x : ℝ} (hT0 : 0.7 ≤ T) (hT1 : T ≤ 1.42) (hT : |T - Real.exp A| ≤ 1 / 2 ^ 63 * T) (hW : |W - T * P| ≤ 1 / 2 ^ 60)
    (hY : |Y - W| ≤ 1 / 2 ^ 53 * |W|) (hP : |Real.exp Z - P| ≤ 1 / 511 * (1 / 2 ^ 54) + 1 / 2 ^ 67) (hZ : |Z| ≤ 0.002)
    (hD : |D| ≤ 1 / 2 ^ 61) (hx : x = A + Z + D) : 0.6 ≤ Y ∧ Y ≤ 1.5 ∧ |Y - Real.exp x| ≤ 1.04 / 2 ^ 53 * Real.exp x := by
  have z2 := Real.add_one_le_exp Z
  have z1 : |Real.exp Z - 1| ≤ 0.004 := (Real.abs_exp_sub_one_le (hZ.trans (by norm_num))).trans (by linarith)
  have d1 : |Real.exp D - 1| ≤ 1 / 2 ^ 60 := (Real.abs_exp_sub_one_le (hD.trans (by norm_num))).trans (by linarith)
  have ex : Real.exp x = Real.exp A * Real.exp Z * Real.exp D := by rw [hx, Real.exp_add, Real.exp_add]
  rw [ex]
  generalize Real.exp A = a at *
  generalize Real.exp Z = e at *
  generalize Real.exp D = d at *
  have hz : 0.996 ≤ e ∧ e ≤ 1.004 := by rw [abs_le] at z1; constructor <;> linarith [z1.1, z1.2]
  have ha : 0.69 ≤ a ∧ a ≤ 1.43 := by rw [abs_le] at hT; constructor <;> linarith [hT.1, hT.2]
  have hae : 0.68 ≤ a * e ∧ a * e ≤ 1.44 := ⟨by nlinarith [hz.1, ha.1], by nlinarith [hz.2, ha.2, hz.1, ha.1]⟩
  have k1 : W - a * e * d = (W - T * P) + T * (P - e) + (T - a) * e + a * e * (1 - d) := by ring
  have k2 : |T * (P - e)| ≤ 1.42 * (1 / 511 * (1 / 2 ^ 54) + 1 / 2 ^ 67) := by
    rw [abs_mul, abs_of_pos (by linarith), abs_sub_comm]
    exact mul_le_mul hT1 hP (abs_nonneg _) (by norm_num)
  have k3 : |(T - a) * e| ≤ 1 / 2 ^ 63 * 1.42 * 1.004 := by
    rw [abs_mul, abs_of_pos (show 0 < e by linarith [hz.1])]
    exact mul_le_mul (hT.trans (by linarith)) hz.2 (by linarith [hz.1]) (by norm_num)
  have k4 : |a * e * (1 - d)| ≤ 1.44 * (1 / 2 ^ 60) := by
    rw [abs_mul, abs_of_pos (by linarith [hae.1]), abs_sub_comm]
    exact mul_le_mul hae.2 d1 (abs_nonneg _) (by norm_num)
  have t1 := abs_add_le ((W - T * P) + T * (P - e) + (T - a) * e) (a * e * (1 - d))
  have t2 := abs_add_le ((W - T * P) + T * (P - e)) ((T - a) * e)
  have t3 := abs_add_le (W - T * P) (T * (P - e))
  rw [← k1] at t1
  have hE : 0.67 ≤ a * e * d ∧ a * e * d ≤ 1.45 := by
    rw [abs_le] at d1
    constructor <;> nlinarith [hae.1, hae.2, d1.1, d1.2]
  generalize a * e * d = E at *
  have m1 : |W - E| ≤ 0.023 / 2 ^ 53 := by
    have hs : (1 / 2 ^ 60 : ℝ) + 1.42 * (1 / 511 * (1 / 2 ^ 54) + 1 / 2 ^ 67) + 1 / 2 ^ 63 * 1.42 * 1.004 + 1.44 * (1 / 2 ^ 60) ≤ 0.023 / 2 ^ 53 := by norm_num
    linarith
  have t4 := abs_add_le (Y - W) (W - E)
  rw [sub_add_sub_cancel] at t4
  rw [abs_le] at m1
  rw [abs_of_nonneg (show 0 ≤ W by linarith [m1.1, hE.1])] at hY
  have m2 : |W - E| ≤ 0.023 / 2 ^ 53 := by rw [abs_le]; exact m1
  have main : |Y - E| ≤ 1.04 / 2 ^ 53 * E := by linarith [m1.2, hE.1]
  rw [abs_le] at main
  refine ⟨by linarith [main.1, hE.1], by linarith [main.2, hE.2], by rw [abs_le]; exact main⟩

theorem redux_eq (N64 : FPU f64) : redux N64 = 0x42b8000000000000#f64.w :=
  N64.div_eq FPU.softF64 (by decide +kernel) (by decide +kernel) (by decide +kernel) (by decide +kernel)

theorem ki_eq {n K : ℤ} {i0 : ℕ} (h : -2 ^ 20 ≤ n ∧ n ≤ 2 ^ 20) (hi : (i0 : ℤ) = n % 2 ^ 32) (hK : K = n / 256) :
    (BitVec.ofNat 32 (i0 / 256 * 256)).toInt.tdiv 256 = K := by
  have e : (BitVec.ofNat 32 (i0 / 256 * 256)).toInt = K * 256 := by
    rw [BitVec.toInt_eq_toNat_cond, BitVec.toNat_ofNat]
    split <;> omega
  rw [e, Int.mul_tdiv_cancel _ (by norm_num)]

/-- the error of the result, and the exact results -/
def OkD (X : ℝ) (z : D) : Prop := f64.IsFin z ∧ f64.sign z = false ∧
  |f64.valK ℝ z - Real.exp (X * Real.log 2)| ≤ 1.04 / 2 ^ 53 * Real.exp (X * Real.log 2) + 2 ^ (-1075 : ℤ) ∧
  (∀ k : ℤ, -1074 ≤ k → X = k → f64.valK ℝ z = 2 ^ k)

theorem main_spec (N64 : FPU f64) {x : D} {X : ℝ} (hx : GFv f64 x X) (h1 : -1075 < X) (h2 : X < 1024) : Ok (main N64 x) (OkD X) := by
  have hX : |X| ≤ 1075 := by rw [abs_le]; constructor <;> linarith
  have eR := redux_eq N64
  obtain ⟨n, n1, n2, n3, n4, n5⟩ := red big64 N64 (m := 8) (p := 43) (by norm_num) (by rw [s64]) (by rw [b64]; norm_num) hx (R := 0x42b8000000000000#f64.w)
    (by linarith) (by rw [b64, s64]; rfl) (by
      have := GFv.const (F := f64) (b := 0x42b8000000000000#f64.w) (q := 3 * 2 ^ 43) (by decide +kernel) (by decide +kernel)
      push_cast at this; exact this)
  have n6 : |n| ≤ 275300 := by
    have : |(n : ℝ)| < 275300 := by linarith
    have : |n| < 275300 := by exact_mod_cast this
    omega
  rw [abs_le] at n6
  have n1' : ((N64.add x 0x42b8000000000000#f64.w).toNat : ℤ) = 0x42b8000000000000 + n := n1
  obtain ⟨u, hu⟩ : ∃ u, u = N64.add x 0x42b8000000000000#f64.w := ⟨_, rfl⟩
  obtain ⟨K, hK⟩ : ∃ K : ℤ, K = (n + 128) / 256 := ⟨_, rfl⟩
  obtain ⟨J, hJ⟩ : ∃ J : ℕ, (J : ℤ) = (n + 128) % 256 := ⟨((n + 128) % 256).toNat, by omega⟩
  rw [← hu] at n1' n3 n4
  have hJ256 : J < 256 := by omega
  have hnK : n = 256 * K + (J - 128) := by omega
  obtain ⟨i0, hi0⟩ : ∃ i0 : ℕ, i0 = (u.toNat % 2 ^ 32 + 128) % 2 ^ 32 := ⟨_, rfl⟩
  have hi0' : (i0 : ℤ) = (n + 128) % 2 ^ 32 := by omega
  have i1 := ki_eq (n := n + 128) (by omega) hi0' hK
  have i2 : i0 % 256 = J := by omega
  obtain ⟨T, e, t1, te, t2, t3, t5, t4, t6⟩ := tD_spec hJ256
  have i5 : Pio2.rd 512 (fun i => BitVec.ofNat f64.w (tbl.getD i 0)) (2 * J) = .ok (tD (2 * J)) := by unfold Pio2.rd; rw [if_pos (by omega)]; rfl
  have i6 : Pio2.rd 512 (fun i => BitVec.ofNat f64.w (tbl.getD i 0)) (2 * J + 1) = .ok (tD (2 * J + 1)) := by unfold Pio2.rd; rw [if_pos (by omega)]; rfl
  obtain ⟨Z0, hZ0⟩ : ∃ Z0, Z0 = X - (n : ℝ) / 2 ^ 8 := ⟨_, rfl⟩
  rw [← hZ0] at n4 n5
  have hd : |Z0 - e| ≤ 1 / 511 - 1 / 2 ^ 30 := by
    have := abs_sub Z0 e
    norm_num at n5 t5 ⊢
    linarith
  obtain ⟨Z, z1, z2⟩ := GFv.rnd big64 (n4.subR N64 te) (hd.trans (by norm_num))
  rw [s64] at z2
  have z3 : |Z - (Z0 - e)| ≤ 1 / 2 ^ 61 := by
    refine z2.trans ?_
    norm_num at hd ⊢
    linarith
  have hZ511 : |Z| ≤ 1 / 511 := by
    have := abs_add_le (Z - (Z0 - e)) (Z0 - e)
    rw [sub_add_cancel] at this
    refine this.trans ((add_le_add z3 hd).trans (by norm_num))
  obtain ⟨Y, W, y1, y2, y3, y4⟩ := poly_spec N64 z1 t1 hZ511 t2 t3
  have hl0 := Poly.log2_pos
  have hl7 := Poly.log2_lt
  have hP := Poly.exp2_near plD_chk (by norm_num) (Z := Z) (by push_cast; exact hZ511)
  obtain ⟨j, hj⟩ : ∃ j : ℝ, j = (((J : ℤ) - 128 : ℤ) : ℝ) / 256 := ⟨_, rfl⟩
  rw [← hj] at t4
  obtain ⟨D, hD⟩ : ∃ D, D = (Z0 - e - Z) * Real.log 2 := ⟨_, rfl⟩
  obtain ⟨Y1, Y2, Y3⟩ := combineD (x := (j + Z0) * Real.log 2) (D := D) t2 t3 t4 y2 y3 (hP.trans (by
      push_cast
      exact add_le_add (mul_le_mul_of_nonneg_right hZ511 (by positivity)) le_rfl)) (by
    rw [abs_mul, abs_of_pos hl0]
    calc |Z| * Real.log 2 ≤ 1 / 511 * 0.7 := mul_le_mul hZ511 hl7.le hl0.le (by norm_num)
      _ ≤ _ := by norm_num) (by
    rw [hD, abs_mul, abs_of_pos hl0, abs_sub_comm]
    calc |Z - (Z0 - e)| * Real.log 2 ≤ 1 / 2 ^ 61 * 1 := mul_le_mul z3 (by linarith) hl0.le (by norm_num)
      _ ≤ _ := by norm_num) (by rw [hD]; ring)
  have hsum : X = K + (j + Z0) := by
    rw [hZ0, hj, hnK]; push_cast; ring
  have eX : Real.exp (X * Real.log 2) = Real.exp ((j + Z0) * Real.log 2 + K * Real.log 2) := by
    rw [hsum]; congr 1; ring
  have hX2 : X ≤ 1024 - 1 / 2 ^ 43 := by
    rcases le_or_gt X 512 with h3 | h3
    · linarith
    · have h128 : GFv f64 0x4090000000000000#f64.w 1024 := by
        have := GFv.const (F := f64) (b := 0x4090000000000000#f64.w) (q := 1024) (by decide +kernel) (by decide +kernel); push_cast at this; exact this
      have := f64.gap_ge (b := x) (c := 0x4090000000000000#f64.w) (k := 9) (by rw [hx.val]; norm_num; linarith) (by rw [hx.val, h128.val]; exact h2)
      rw [hx.val, h128.val, s64] at this
      norm_num at this ⊢
      linarith
  have hl6 : 0.6931 ≤ Real.log 2 := by
    have := Poly.ln2_gt
    have c6 : (0.6931 : ℝ) ≤ ((Poly.ln2L : ℚ) : ℝ) := by unfold Poly.ln2L; push_cast; norm_num
    linarith
  have hE : Real.exp (X * Real.log 2) * (1 + 1.04 / 2 ^ 53) < 2 ^ (1024 : ℤ) := by
    have h3 : X * Real.log 2 ≤ -(1 / 2 ^ 43 * 0.6931) + ((1024 : ℤ) : ℝ) * Real.log 2 := by
      push_cast
      have := mul_le_mul_of_nonneg_right hX2 hl0.le
      nlinarith
    have := Real.exp_le_exp.mpr h3
    rw [Exp.exp_add_log] at this
    have h4 := Real.abs_exp_sub_one_sub_id_le (x := -(1 / 2 ^ 43 * 0.6931)) (by rw [abs_neg, abs_of_pos] <;> norm_num)
    rw [abs_le] at h4
    have h5 : Real.exp (-(1 / 2 ^ 43 * 0.6931)) ≤ 1 - 1 / 2 ^ 44 := by
      generalize Real.exp (-(1 / 2 ^ 43 * 0.6931)) = E at *
      norm_num at h4 ⊢
      linarith [h4.2]
    have hp : (0 : ℝ) < 2 ^ (1024 : ℤ) := by positivity
    calc Real.exp (X * Real.log 2) * (1 + 1.04 / 2 ^ 53) ≤ (1 - 1 / 2 ^ 44) * 2 ^ (1024 : ℤ) * (1 + 1.04 / 2 ^ 53) :=
          mul_le_mul_of_nonneg_right (this.trans (mul_le_mul_of_nonneg_right h5 hp.le)) (by norm_num)
      _ = (1 - 1 / 2 ^ 44) * (1 + 1.04 / 2 ^ 53) * 2 ^ (1024 : ℤ) := by ring
      _ < 1 * 2 ^ (1024 : ℤ) := mul_lt_mul_of_pos_right (by norm_num) hp
      _ = _ := one_mul _
  obtain ⟨z, s1, s2, s3, s4⟩ := Exp.scaled big64 (by simp [Props.Std]) N64 (k := K) y1 (by linarith) (by omega) (by omega) Y3 (by rw [← eX, b64]; exact hE)
  rw [← eX, b64, s64] at s4
  unfold main
  rw [eR, ← hu]
  simp only [← hi0, i1, i2, i5, i6, bind, Except.bind]
  refine ⟨z, s1, s2, s3.trans (y1.sign_of_pos (by linarith)), s4, fun k hk4 hk => ?_⟩
  -- integers
  have hn : n = 256 * k := by
    have h3 : |((256 * k - n : ℤ) : ℝ)| < 1 := by
      have : ((256 * k - n : ℤ) : ℝ) = 256 * Z0 := by rw [hZ0, hk]; push_cast; ring
      rw [this, abs_mul, abs_of_pos (by norm_num : (0 : ℝ) < 256)]
      norm_num at n5
      linarith
    have h4 : |256 * k - n| < 1 := by exact_mod_cast h3
    rw [abs_lt] at h4
    omega
  have hKk : K = k := by omega
  have hJk : J = 128 := by omega
  obtain ⟨t7, t8⟩ := t6 hJk
  have hz00 : Z0 - e = 0 := by rw [hZ0, hk, hn, t8]; push_cast; ring
  have hZ : Z = 0 := by
    have hr := n4.subR N64 te
    rw [hz00] at hr
    have := hr.exactR f64 f64.rp_zero (by rw [abs_zero]; positivity)
    rw [← z1.val]; exact this
  have hY1 : Y = 1 := by rw [y4 hZ, t7]
  obtain ⟨z', r1, r2, -⟩ := Props.C42_scalbn_finite (F := f64) (by simp [Props.Std]) N64 y1.fin K (by omega) (by omega)
  have hzz : z' = z := by rw [s1] at r1; exact (Except.ok.inj r1).symm
  have h4 := r2.cast f64
  push_cast at h4
  rw [f64.valK_cast, y1.val, hY1, one_mul, hzz, hKk] at h4
  exact h4.exactR f64 (f64.rp_pow (by rw [b64, s64]; omega)) (by
    rw [abs_of_pos (by positivity), b64]; exact zpow_le_zpow_right₀ (by norm_num) (by
      have : (k : ℝ) < 1024 := by rw [← hk]; exact h2
      have : k < 1024 := by exact_mod_cast this
      omega))

end Exp2
end Verif
