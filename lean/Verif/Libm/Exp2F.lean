import Verif.Libm.Exp2
import Verif.Libm.Exp2R
import Verif.Libm.Exp2Red
import Verif.Libm.ExpScale
import Verif.Libm.CbrtfMain
import Verif.Libm.NativeEq
/-! # Accuracy of `exp2f` -/
namespace Verif
open Fmt
namespace Exp2
open Cbrtf (widen_fv narrow_fv)

theorem s32 : f32.s = 23 := rfl
theorem s64 : f64.s = 52 := rfl
theorem b32 : f32.bias = 127 := by decide +kernel
theorem b64 : f64.bias = 1023 := by decide +kernel
theorem big32 : f32.Big := ⟨by rw [b32], by rw [s32]⟩
theorem big64 : f64.Big := ⟨by rw [b64]; norm_num, by rw [s64]; norm_num⟩

/-! ### The table and the polynomial -/

/-- the entries of the table -/
def tF (i : ℕ) : D := BitVec.ofNat f64.w (tblF.getD i 0)

theorem tF_chk : ((List.range 16).all fun i => Poly.tabChk (f64.val (tF i)) 0 (1 / 2 ^ 53) 16 ((i : ℤ) - 8) && decide (f64.mag (tF i) < f64.infRep) &&
    decide (f64.val (tF i) ≤ 142 / 100)) = true := by decide +kernel

theorem tF_spec {i : ℕ} (hi : i < 16) : ∃ T, GFv f64 (tF i) T ∧ 0 < T ∧ T ≤ 1.42 ∧
    |T - Real.exp ((((i : ℤ) - 8 : ℤ) : ℝ) / 16 * Real.log 2)| ≤ 1 / 2 ^ 53 * T := by
  have h := tF_chk
  rw [List.all_eq_true] at h
  have h := h i (List.mem_range.mpr hi)
  rw [Bool.and_eq_true, Bool.and_eq_true, decide_eq_true_iff, decide_eq_true_iff] at h
  obtain ⟨⟨h1, h2⟩, h3⟩ := h
  obtain ⟨a, b⟩ := Poly.tab_sound (by norm_num) h1
  refine ⟨(f64.val (tF i) : ℚ), GFv.const h2 rfl, a, ?_, ?_⟩
  · have := Rat.cast_le (K := ℝ).mpr h3
    push_cast at this; norm_num at this ⊢; exact this
  · have e : (((i : ℤ) - 8 : ℤ) : ℝ) / ((16 : ℕ) : ℝ) + ((0 : ℚ) : ℝ) = (((i : ℤ) - 8 : ℤ) : ℝ) / 16 := by push_cast; ring
    rw [e] at b
    refine b.trans (le_of_eq ?_)
    push_cast; ring

def plF : List ℚ := [f32.val p1, f32.val p2, f32.val p3, f32.val p4]
theorem plF_chk : Poly.chk (Poly.sub Poly.exp2L plF) (1 / 2 ^ 28) 8 (-(1 / 32)) (1 / 32) = true := by decide +kernel

section
variable (N64 : FPU f64) (C : FloatCast f32 f64)

def leafF (z r : D) : ℕ → D
  | 0 => z | 1 => r | 2 => C.widen p1 | 3 => C.widen p2 | 4 => C.widen p3 | _ => C.widen p4
noncomputable def valF (Z T : ℝ) : ℕ → ℝ
  | 0 => Z | 1 => T | 2 => (f32.val p1 : ℚ) | 3 => (f32.val p2 : ℚ) | 4 => (f32.val p3 : ℚ) | _ => (f32.val p4 : ℚ)
def infoF : ℕ → Ex.Bd
  | 0 => ⟨1 / 32, 0, false⟩ | 1 => ⟨142 / 100, 0, false⟩ | 2 => ⟨|f32.val p1|, 0, false⟩ | 3 => ⟨|f32.val p2|, 0, false⟩
  | 4 => ⟨|f32.val p3|, 0, false⟩ | _ => ⟨|f32.val p4|, 0, false⟩
open Ex in
def exF : Ex :=
  let t := mul (leaf 1) (leaf 0)
  add (add (leaf 1) (mul t (add (leaf 2) (mul (leaf 0) (leaf 3))))) (mul (mul t (mul (leaf 0) (leaf 0))) (add (leaf 4) (mul (leaf 0) (leaf 5))))

theorem exF_err : exF.errLe f64.s (1 / 2 ^ 150) infoF false 2 (1 / 2 ^ 50) = true := by decide +kernel

theorem holdsW {b : S} (hb : f32.mag b < f32.infRep) : Ex.Holds f64 1 (C.widen b) ((f32.val b : ℚ) : ℝ) ⟨|f32.val b|, 0, false⟩ := by
  refine (widen_fv C (GFv.const (F := f32) hb rfl)).holds ?_
  unfold Ex.sv
  push_cast
  rw [mul_one]

theorem polyF_spec {z r : D} {Z T : ℝ} (hz : GFv f64 z Z) (hr : GFv f64 r T) (hZ : |Z| ≤ 1 / 32) (hT : |T| ≤ 1.42) :
    ∃ Y, GFv f64 (polyF N64 C r z) Y ∧ |Y - T * (1 + Z * Poly.ev plF Z)| ≤ 1 / 2 ^ 50 := by
  have hl : ∀ i, Ex.Holds f64 1 (leafF C z r i) (valF Z T i) (infoF i) := by
    intro i
    match i with
    | 0 => exact hz.holds (by unfold Ex.sv; push_cast; rw [mul_one]; exact hZ)
    | 1 => exact hr.holds (by unfold Ex.sv; push_cast; rw [mul_one]; norm_num at hT ⊢; exact hT)
    | 2 => exact holdsW C (by decide +kernel)
    | 3 => exact holdsW C (by decide +kernel)
    | 4 => exact holdsW C (by decide +kernel)
    | (n + 5) => exact holdsW C (by decide +kernel)
  obtain ⟨f, -, e⟩ := Ex.errLe_sound big64 N64 (σ := 1) (by norm_num) (le_refl _) (tiny := 1 / 2 ^ 150) (by push_cast; norm_num) hl exF_err
  refine ⟨_, ⟨f, rfl⟩, ?_⟩
  have hsv : Ex.sv 1 false = 1 := if_neg (by simp)
  rw [hsv] at e
  have hi : exF.ideal (valF Z T) = T * (1 + Z * Poly.ev plF Z) := by
    simp only [exF, Ex.ideal, valF, plF, Poly.ev]
    ring
  rw [hi] at e
  push_cast at e
  rw [mul_one] at e
  exact e
end

/-! ### The result -/

theorem combineF {T Y P A Z x : ℝ} (hT0 : 0 < T) (hT1 : T ≤ 1.42) (hT : |T - Real.exp A| ≤ 1 / 2 ^ 53 * T) (hY : |Y - T * P| ≤ 1 / 2 ^ 50)
    (hP : |Real.exp Z - P| ≤ 1 / 32 * (1 / 2 ^ 28) + 1 / 2 ^ 67) (hZ : |Z| ≤ 0.03) (hA : |A| ≤ 0.3467) (hx : x = A + Z) :
    0.6 ≤ Y ∧ Y ≤ 1.5 ∧ |Y - Real.exp x| ≤ 0.6 / 2 ^ 32 * Real.exp x := by
  obtain ⟨a1, a2⟩ := Poly.exp_range (r := A) (by norm_num at hA ⊢; linarith)
  have z2 := Real.add_one_le_exp Z
  have z1 : |Real.exp Z - 1| ≤ 0.06 := (Real.abs_exp_sub_one_le (hZ.trans (by norm_num))).trans (by linarith)
  have ex : Real.exp x = Real.exp A * Real.exp Z := by rw [hx, Real.exp_add]
  rw [ex]
  generalize Real.exp A = a at *
  generalize Real.exp Z = e at *
  have k1 : Y - a * e = (Y - T * P) + T * (P - e) + (T - a) * e := by ring
  have hz : 0.97 ≤ e ∧ e ≤ 1.06 := ⟨by rw [abs_le] at hZ; linarith [hZ.1], by rw [abs_le] at z1; linarith [z1.2]⟩
  have hTa : T ≤ 1.0001 * a := by
    rw [abs_le] at hT
    linarith [hT.2]
  have k2 : |T * (P - e)| ≤ 1.0001 * a * (1 / 32 * (1 / 2 ^ 28) + 1 / 2 ^ 67) := by
    rw [abs_mul, abs_of_pos hT0, abs_sub_comm]
    exact mul_le_mul hTa hP (abs_nonneg _) (by linarith)
  have k3 : |(T - a) * e| ≤ 1 / 2 ^ 53 * 1.42 * 1.06 := by
    rw [abs_mul, abs_of_pos (show 0 < e by linarith [hz.1])]
    exact mul_le_mul (hT.trans (by linarith)) hz.2 (by linarith [hz.1]) (by norm_num)
  have t1 := abs_add_le ((Y - T * P) + T * (P - e)) ((T - a) * e)
  have t2 := abs_add_le (Y - T * P) (T * (P - e))
  rw [← k1] at t1
  have hae : 0.97 * a ≤ a * e := by nlinarith [hz.1]
  have hae2 : a * e ≤ 1.4999 := by nlinarith [hz.2]
  generalize a * e = E at *
  have main : |Y - E| ≤ 0.6 / 2 ^ 32 * E := by linarith
  rw [abs_le] at main
  refine ⟨by linarith [main.1], by linarith [main.2], by rw [abs_le]; exact main⟩

theorem reduxF_eq (N : FPU f32) : reduxF N = 0x49400000#f32.w :=
  N.div_eq FPU.softF32 (by decide +kernel) (by decide +kernel) (by decide +kernel) (by decide +kernel)

/-- the pattern of a power of two -/
theorem pow_fv {e : ℕ} (h1 : 1 ≤ e) (h2 : e ≤ 2046) : GFv f64 (BitVec.ofNat f64.w (e * 2 ^ 52)) (2 ^ ((e : ℤ) - 1023)) := by
  have hi : f64.infRep = 2047 * 2 ^ 52 := by decide +kernel
  have := (Log.of_nat (F := f64) (n := e * 2 ^ 52) (by rw [hi]; omega)).1
  refine this.cast ?_
  have h := magVal_at (F := f64) (e := e) (f := 0) h1 (by rw [s64]; norm_num)
  rw [s64, Nat.add_zero, b64] at h
  rw [h, show ((e : ℤ) - 1023) = 52 + ((e : ℤ) - ((1023 : ℕ) : ℤ) - ((52 : ℕ) : ℤ)) by push_cast; ring, zpow_add₀ (by norm_num)]
  congr 1
  norm_num

theorem exp_split (K : ℤ) (r : ℝ) : Real.exp ((K + r) * Real.log 2) = Real.exp (r * Real.log 2) * 2 ^ K := by
  rw [← Exp.exp_add_log]; congr 1; ring

/-- the result is near `2^x` before the last rounding -/
def OkF (X : ℝ) (z : S) : Prop := ∃ v, |v - Real.exp (X * Real.log 2)| ≤ 1 / 2 ^ 32 * Real.exp (X * Real.log 2) ∧ f32.Rounds v z

theorem lastF {Y v E : ℝ} {K : ℤ} (h1 : |Y - E| ≤ 0.6 / 2 ^ 32 * E) (hE : 0.5 ≤ E) (hv : |v - Y * 2 ^ K| ≤ 2 ^ (-1075 : ℤ)) (hK : -160 ≤ K) :
    |v - E * 2 ^ K| ≤ 1 / 2 ^ 32 * (E * 2 ^ K) := by
  have hp : (2 : ℝ) ^ (-160 : ℤ) ≤ 2 ^ K := zpow_le_zpow_right₀ (by norm_num) hK
  have hp0 : (0 : ℝ) < 2 ^ K := by positivity
  have h9 : (2 : ℝ) ^ (-1075 : ℤ) ≤ 0.1 / 2 ^ 32 * 2 ^ (-160 : ℤ) := by
    rw [show (-1075 : ℤ) = -40 + (-875) + (-160) by norm_num, zpow_add₀ (by norm_num), zpow_add₀ (by norm_num)]
    have : (2 : ℝ) ^ (-875 : ℤ) ≤ 1 := zpow_le_one_of_nonpos₀ (by norm_num) (by norm_num)
    have h2 : (2 : ℝ) ^ (-40 : ℤ) * 2 ^ (-875 : ℤ) ≤ 2 ^ (-40 : ℤ) * 1 := mul_le_mul_of_nonneg_left this (by positivity)
    refine mul_le_mul_of_nonneg_right (h2.trans ?_) (by positivity)
    norm_num
  have e1 : |Y * 2 ^ K - E * 2 ^ K| ≤ 0.6 / 2 ^ 32 * (E * 2 ^ K) := by
    rw [← sub_mul, abs_mul, abs_of_pos hp0, ← mul_assoc]
    exact mul_le_mul_of_nonneg_right h1 hp0.le
  have t := abs_add_le (v - Y * 2 ^ K) (Y * 2 ^ K - E * 2 ^ K)
  rw [sub_add_sub_cancel] at t
  have hEK : 0.5 * (2 : ℝ) ^ K ≤ E * 2 ^ K := mul_le_mul_of_nonneg_right hE hp0.le
  generalize (2 : ℝ) ^ (-1075 : ℤ) = a at *
  generalize (2 : ℝ) ^ (-160 : ℤ) = b at *
  generalize E * (2 : ℝ) ^ K = c at *
  generalize (2 : ℝ) ^ K = d at *
  linarith

theorem mainF_spec (N : FPU f32) (N64 : FPU f64) (C : FloatCast f32 f64) {x : S} {X : ℝ} (hx : GFv f32 x X) (h1 : -150 < X) (h2 : X < 128) :
    Ok (mainF N N64 C x) (OkF X) := by
  have hX : |X| ≤ 150 := by rw [abs_le]; constructor <;> linarith
  have eR := reduxF_eq N
  obtain ⟨n, n1, n2, n3, n4, n5⟩ := red big32 N (m := 4) (p := 18) (by norm_num) (by rw [s32]) (by rw [b32]; norm_num) hx (R := 0x49400000#f32.w)
    (by linarith) (by rw [b32, s32]; rfl) (by
      have := GFv.const (F := f32) (b := 0x49400000#f32.w) (q := 3 * 2 ^ 18) (by decide +kernel) (by decide +kernel)
      push_cast at this; exact this)
  have n6 : |n| ≤ 2400 := by
    have : |(n : ℝ)| < 2401 := by linarith
    have : |n| < 2401 := by exact_mod_cast this
    omega
  rw [abs_le] at n6
  have n1' : ((N.add x 0x49400000#f32.w).toNat : ℤ) = 0x49400000 + n := n1
  obtain ⟨u, hu⟩ : ∃ u, u = N.add x 0x49400000#f32.w := ⟨_, rfl⟩
  obtain ⟨K, hK⟩ : ∃ K : ℤ, K = (n + 8) / 16 := ⟨_, rfl⟩
  obtain ⟨J, hJ⟩ : ∃ J : ℕ, (J : ℤ) = (n + 8) % 16 := ⟨((n + 8) % 16).toNat, by omega⟩
  rw [← hu] at n1' n3 n4
  have hJ16 : J < 16 := by omega
  have hnK : n = 16 * K + (J - 8) := by omega
  unfold mainF
  rw [eR, ← hu]
  have i1 : Log.u32C (u.toNat + 8) = .ok (u.toNat + 8) := by unfold Log.u32C; rw [if_pos (by omega)]
  have i2 : Log.u32C (0x3ff + (u.toNat + 8) / 16) = .ok (0x3ff + (u.toNat + 8) / 16) := by unfold Log.u32C; rw [if_pos (by omega)]
  have i3 : (u.toNat + 8) &&& 15 = J := by
    rw [show 15 = 2 ^ 4 - 1 from rfl, Nat.and_two_pow_sub_one_eq_mod]; omega
  obtain ⟨e, he⟩ : ∃ e : ℕ, (e : ℤ) = 1023 + K := ⟨(1023 + K).toNat, by omega⟩
  have i4 : BitVec.ofNat f64.w ((0x3ff + (u.toNat + 8) / 16) <<< 52) = BitVec.ofNat f64.w (e * 2 ^ 52) := by
    apply BitVec.eq_of_toNat_eq
    rw [BitVec.toNat_ofNat, BitVec.toNat_ofNat, Nat.shiftLeft_eq, show f64.w = 64 from rfl]
    omega
  obtain ⟨T, t1, t2, t3, t4⟩ := tF_spec hJ16
  have i5 : Pio2.rd 16 (fun i => BitVec.ofNat f64.w (tblF.getD i 0)) J = .ok (tF J) := by unfold Pio2.rd; rw [if_pos hJ16]; rfl
  have gz := widen_fv C n4
  obtain ⟨Z, hZ⟩ : ∃ Z, Z = X - (n : ℝ) / 2 ^ 4 := ⟨_, rfl⟩
  rw [← hZ] at gz n5
  have hZ32 : |Z| ≤ 1 / 32 := n5.trans (by norm_num)
  obtain ⟨Y, y1, y2⟩ := polyF_spec N64 C gz t1 hZ32 (by rw [abs_of_pos t2]; exact t3)
  have hl0 := Poly.log2_pos
  have hl7 := Poly.log2_lt
  have hl6 := Poly.ln2_lt
  have c6 : ((Poly.ln2H : ℚ) : ℝ) ≤ 0.6932 := by unfold Poly.ln2H; push_cast; norm_num
  have hP := Poly.exp2_near plF_chk (by norm_num) (Z := Z) (by push_cast; exact hZ32)
  have hJr : |(((J : ℤ) - 8 : ℤ) : ℝ) / 16| ≤ 1 / 2 := by
    rw [abs_div, abs_of_pos (show (0 : ℝ) < 16 by norm_num), div_le_iff₀ (by norm_num)]
    have : |(J : ℤ) - 8| ≤ 8 := by rw [abs_le]; constructor <;> omega
    have : ((|(J : ℤ) - 8| : ℤ) : ℝ) ≤ 8 := by exact_mod_cast this
    rw [Int.cast_abs] at this
    linarith
  obtain ⟨j, hj⟩ : ∃ j : ℝ, j = (((J : ℤ) - 8 : ℤ) : ℝ) / 16 := ⟨_, rfl⟩
  rw [← hj] at t4 hJr
  obtain ⟨Y1, Y2, Y3⟩ := combineF t2 t3 t4 y2 (hP.trans (by push_cast; linarith)) (by
    rw [abs_mul, abs_of_pos hl0]
    calc |Z| * Real.log 2 ≤ 1 / 32 * 0.7 := mul_le_mul hZ32 hl7.le hl0.le (by norm_num)
      _ ≤ _ := by norm_num) (by
    rw [abs_mul, abs_of_pos hl0]
    calc |j| * Real.log 2 ≤ 1 / 2 * 0.6932 := mul_le_mul hJr (by linarith) hl0.le (by norm_num)
      _ ≤ _ := by norm_num) rfl
  have hsum : X = K + (j + Z) := by
    rw [hZ, hj, hnK]; push_cast; ring
  have eX : Real.exp (X * Real.log 2) = Real.exp (j * Real.log 2 + Z * Real.log 2) * 2 ^ K := by
    rw [hsum, exp_split]; congr 2; ring
  have gp := pow_fv (e := e) (by omega) (by omega)
  rw [show (e : ℤ) - 1023 = K by omega] at gp
  have hr := y1.mulR N64 gp
  rw [← y1.val] at hr
  have hp128 : (2 : ℝ) ^ K ≤ 2 ^ (200 : ℤ) := zpow_le_zpow_right₀ (by norm_num) (by omega)
  have hp0 : (0 : ℝ) < 2 ^ K := by positivity
  obtain ⟨f, e9⟩ := Exp.scale_round big64 hr (by
    rw [y1.val, abs_of_pos (mul_pos (by linarith) hp0), b64]
    calc Y * 2 ^ K ≤ 2 * 2 ^ (200 : ℤ) := mul_le_mul (by linarith) hp128 hp0.le (by norm_num)
      _ = 2 ^ (201 : ℤ) := by rw [← zpow_one_add₀ (by norm_num)]; norm_num
      _ < _ := zpow_lt_zpow_right₀ (by norm_num) (by norm_num))
  rw [y1.val, b64, s64] at e9
  simp only [i1, bind, Except.bind, i2, i3, i4, i5, pure, Except.pure]
  refine ⟨_, rfl, f64.valK ℝ (N64.mul (polyF N64 C (tF J) (C.widen (N.sub x (N.sub u 0x49400000#f32.w)))) (BitVec.ofNat f64.w (e * 2 ^ 52))), ?_,
    narrow_fv C (GFv.self f)⟩
  rw [eX]
  refine lastF Y3 ?_ (by exact e9) (by omega)
  rw [abs_le] at Y3
  generalize Real.exp (j * Real.log 2 + Z * Real.log 2) = E at *
  by_contra hc
  rw [not_le] at hc
  linarith [Y3.1, Y3.2]

/-! ### The special cases -/

theorem mag_le {F : Fmt} {b : BitVec F.w} {v : ℝ} (h : GFv F b v) {c : ℕ} {q : ℚ} (hc : F.magVal ℚ c = q) : F.mag b ≤ c ↔ |v| ≤ q := by
  rw [h.abs_eq, ← hc, F.magVal_cast, F.magValR_le_iff]

theorem bits32 (x : S) : x.toNat = (if f32.sign x then 0x80000000 else 0) + f32.mag x ∧ f32.mag x < 0x80000000 := by
  have h : x.toNat < 2 ^ 32 := x.isLt
  have h2 := f32.toNat_eq x
  rw [show f32.e + f32.s = 31 from rfl] at h2
  refine ⟨h2, ?_⟩
  unfold mag
  rw [show f32.e + f32.s = 31 from rfl]
  omega

section
variable (N : FPU f32) {x : S} {X : ℝ} (hx : GFv f32 x X)
include hx

theorem specialF_none (h1 : -150 < X) (h2 : X < 128) (h3 : 1 / 2 ^ 25 < |X|) : specialF N x = none := by
  obtain ⟨e1, e2⟩ := bits32 x
  have hf : f32.mag x < 0x7f800000 := hx.fin
  have m1 := mag_le hx (c := 0x33000000) (q := 1 / 2 ^ 25) (by decide +kernel)
  have m2 := hx.mag_lt (c := 0x43000000) (q := 128) (by decide +kernel)
  have m3 := hx.mag_lt (c := 0x43160000) (q := 150) (by decide +kernel)
  push_cast at m1 m2 m3
  have k1 : ¬ f32.mag x ≤ 0x33000000 := fun h => absurd (m1.mp h) (not_le.mpr h3)
  unfold specialF
  simp only [mag32]
  by_cases hs : f32.sign x = true
  · have hn := hx.nonpos hs
    have := m3.mpr (by rw [abs_of_nonpos hn]; linarith)
    rw [if_pos hs] at e1
    split
    · rw [if_neg (by omega), if_neg (by omega), if_pos (by omega), if_neg (by omega)]
    · rfl
  · have hn := hx.nonneg (by simpa using hs)
    have := m2.mpr (by rw [abs_of_nonneg hn]; exact h2)
    rw [if_neg hs] at e1
    split
    · rw [if_neg (by omega), if_neg (by omega), if_neg (by omega)]
    · rfl

theorem specialF_one (h3 : |X| ≤ 1 / 2 ^ 25) : specialF N x = some (N.add oneF x) := by
  have m1 := (mag_le hx (c := 0x33000000) (q := 1 / 2 ^ 25) (by decide +kernel)).mpr (by push_cast; exact h3)
  unfold specialF
  simp only [mag32]
  rw [if_neg (by omega), if_pos m1]

theorem specialF_low (h : X ≤ -150) : specialF N x = some 0#f32.w := by
  obtain ⟨e1, e2⟩ := bits32 x
  have hf : f32.mag x < 0x7f800000 := hx.fin
  have m3 := mt (hx.mag_lt (c := 0x43160000) (q := 150) (by decide +kernel)).mp (by
    rw [abs_of_nonpos (by linarith)]; push_cast; linarith)
  have hs : f32.sign x = true := by
    by_contra hc
    have := hx.nonneg (by simpa using hc)
    linarith
  rw [if_pos hs] at e1
  unfold specialF
  simp only [mag32]
  rw [if_pos (by omega), if_neg (by omega), if_neg (by omega), if_pos (by omega), if_pos (by omega)]

theorem specialF_high (h : 128 ≤ X) : specialF N x = some (N.mul x x1p127) := by
  obtain ⟨e1, e2⟩ := bits32 x
  have hf : f32.mag x < 0x7f800000 := hx.fin
  have m3 := mt (hx.mag_lt (c := 0x43000000) (q := 128) (by decide +kernel)).mp (by
    rw [abs_of_nonneg (by linarith)]; push_cast; linarith)
  have hs := hx.sign_of_pos (by linarith)
  rw [hs] at e1
  simp only [Bool.false_eq_true, if_false, Nat.zero_add] at e1
  unfold specialF
  simp only [mag32]
  rw [if_pos (by omega), if_neg (by omega), if_pos (by omega)]
end

/-- `1` is the number nearest to `2^x` for tiny `x` -/
theorem near_one {z : S} {X : ℝ} (hz : GFv f32 z 1) (hX : |X| ≤ 1 / 2 ^ 25) : f32.Near (Real.exp (X * Real.log 2)) z := by
  have hl0 := Poly.log2_pos
  have hl7 := Poly.log2_lt
  have hX' := hX
  have hw : |X * Real.log 2| ≤ 1 / 2 ^ 25 * 0.7 := by
    rw [abs_mul, abs_of_pos hl0]; exact mul_le_mul hX hl7.le hl0.le (by norm_num)
  have h1 := Real.abs_exp_sub_one_sub_id_le (x := X * Real.log 2) (hw.trans (by norm_num))
  have h2 : (X * Real.log 2) ^ 2 ≤ 1 / 2 ^ 50 := by
    rw [← sq_abs]
    calc |X * Real.log 2| ^ 2 ≤ (1 / 2 ^ 25) ^ 2 := pow_le_pow_left₀ (abs_nonneg _) (hw.trans (by norm_num)) 2
      _ = _ := by norm_num
  refine ⟨hz.fin, fun c hc => ?_⟩
  rw [hz.val]
  generalize Real.exp (X * Real.log 2) = E at *
  rw [abs_le] at h1 hw
  rcases lt_trichotomy (f32.valK ℝ c) 1 with h | h | h
  · have g := f32.gap_rel (b := c) (c := z) (by rw [hz.val]; norm_num) (by rw [hz.val]; exact h)
    rw [hz.val, s32] at g
    norm_num at g
    have k1 : |E - 1| ≤ 1 / 2 ^ 25 := by rw [abs_le]; constructor <;> linarith [h1.1, h1.2, hw.1, hw.2]
    refine k1.trans (le_trans ?_ (le_abs_self _))
    linarith [h1.1, hw.1]
  · rw [h]
  · have g := f32.gap_ge (b := z) (c := c) (k := 0) (by rw [hz.val]; norm_num) (by rw [hz.val]; exact h)
    rw [hz.val, s32] at g
    norm_num at g
    have k1 : |E - 1| ≤ 1 / 2 ^ 25 := by rw [abs_le]; constructor <;> linarith [h1.1, h1.2, hw.1, hw.2]
    refine k1.trans ?_
    rw [abs_sub_comm]
    refine le_trans ?_ (le_abs_self _)
    linarith [h1.2, hw.2]

theorem one_fvF : GFv f32 oneF 1 := by
  have := GFv.const (F := f32) (b := oneF) (q := 1) (by decide +kernel) (by decide +kernel); simpa using this

/-- `1 + x` is `1` for tiny `x` -/
theorem tinyF (N : FPU f32) {x : S} {X : ℝ} (hx : GFv f32 x X) (hX : |X| ≤ 1 / 2 ^ 25) : GFv f32 (N.add oneF x) 1 := by
  rcases hX.lt_or_eq with h | h
  · have hr := one_fvF.addR N hx
    have h9 : |1 + X| ≤ 2 ^ (100 : ℤ) := by
      have := abs_add_le 1 X
      have : (2 : ℝ) ≤ 2 ^ (100 : ℤ) := by norm_num
      rw [abs_one] at *
      linarith
    have hf := hr.fin100 big32 h9
    refine ⟨hf, ?_⟩
    have hn := (hr.nearF f32 hf).2 oneF one_fvF.fin
    rw [one_fvF.val, show 1 + X - 1 = X by ring] at hn
    rw [abs_le] at hn
    rw [abs_lt] at h
    have hn2 : ∀ a : ℝ, |X| = a → a < 1 / 2 ^ 25 := fun a ha => by rw [← ha, abs_lt]; exact h
    have := hn2 _ rfl
    rcases lt_trichotomy (f32.valK ℝ (N.add oneF x)) 1 with h' | h' | h'
    · have g := f32.gap_rel (b := N.add oneF x) (c := oneF) (by rw [one_fvF.val]; norm_num) (by rw [one_fvF.val]; exact h')
      rw [one_fvF.val, s32] at g
      norm_num at g
      linarith [hn.1, hn.2, h.1, h.2]
    · exact h'
    · have g := f32.gap_ge (b := oneF) (c := N.add oneF x) (k := 0) (by rw [one_fvF.val]; norm_num) (by rw [one_fvF.val]; exact h')
      rw [one_fvF.val, s32] at g
      norm_num at g
      linarith [hn.1, hn.2, h.1, h.2]
  · have hm : f32.mag x = 0x33000000 := by
      have m1 := (mag_le hx (c := 0x33000000) (q := 1 / 2 ^ 25) (by decide +kernel)).mpr (by push_cast; exact hX)
      have m2 := mt (hx.mag_lt (c := 0x33000000) (q := 1 / 2 ^ 25) (by decide +kernel)).mp (by push_cast; exact not_lt.mpr h.ge)
      omega
    obtain ⟨e1, -⟩ := bits32 x
    rw [hm] at e1
    have : x = 0xb3000000#f32.w ∨ x = 0x33000000#f32.w := by
      by_cases hs : f32.sign x = true
      · left; apply BitVec.eq_of_toNat_eq; rw [e1, if_pos hs]; rfl
      · right; apply BitVec.eq_of_toNat_eq; rw [e1, if_neg hs]; rfl
    rcases this with rfl | rfl
    · rw [show N.add oneF 0xb3000000#f32.w = oneF from N.add_eq FPU.softF32 (by decide +kernel) (by decide +kernel)]
      exact one_fvF
    · rw [show N.add oneF 0x33000000#f32.w = oneF from N.add_eq FPU.softF32 (by decide +kernel) (by decide +kernel)]
      exact one_fvF

/-- the result is a number nearest to a real near `2^x` -/
def GoodF (X : ℝ) (z : S) : Prop := ∃ v, |v - Real.exp (X * Real.log 2)| ≤ 1 / 2 ^ 32 * Real.exp (X * Real.log 2) ∧ f32.Near v z

/-- zero is nearest to what is at most half of the least number -/
theorem near_zero {E : ℝ} (h0 : 0 ≤ E) (h : E ≤ 2 ^ (-150 : ℤ)) : f32.Near E 0#f32.w := by
  have hz : GFv f32 0#f32.w 0 := by
    have := GFv.const (F := f32) (b := 0#f32.w) (q := 0) (by decide +kernel) (by decide +kernel); simpa using this
  refine ⟨hz.fin, fun c hc => ?_⟩
  rw [hz.val, sub_zero, abs_of_nonneg h0]
  rcases lt_trichotomy (f32.valK ℝ c) 0 with h' | h' | h'
  · refine le_trans ?_ (le_abs_self _); linarith
  · rw [h', sub_zero, abs_of_nonneg h0]
  · have g := f32.gap_abs (b := 0#f32.w) (c := c) (by rw [hz.val]; exact h')
    rw [hz.val, b32, s32, sub_zero] at g
    have e : (2 : ℝ) ^ (1 - ((127 : ℕ) : ℤ) - ((23 : ℕ) : ℤ)) = 2 ^ (-150 : ℤ) * 2 := by
      rw [← zpow_add_one₀ (by norm_num)]; norm_num
    rw [e] at g
    rw [abs_sub_comm]
    refine le_trans ?_ (le_abs_self _)
    linarith

theorem exp2f_fin (N : FPU f32) (N64 : FPU f64) (C : FloatCast f32 f64) {x : S} {X : ℝ} (hx : GFv f32 x X) (h : X < 128) :
    Ok (exp2f N N64 C x) (GoodF X) := by
  have hl0 := Poly.log2_pos
  have hE0 := Real.exp_pos (X * Real.log 2)
  unfold exp2f
  rcases le_or_gt X (-150) with h1 | h1
  · rw [specialF_low N hx h1]
    refine ⟨_, rfl, _, ?_, near_zero hE0.le ?_⟩
    · rw [sub_self, abs_zero]; positivity
    · have : X * Real.log 2 ≤ 0 + ((-150 : ℤ) : ℝ) * Real.log 2 := by
        push_cast
        have := mul_le_mul_of_nonneg_right h1 hl0.le
        linarith
      have := Real.exp_le_exp.mpr this
      rwa [Exp.exp_add_log, Real.exp_zero, one_mul] at this
  rcases le_or_gt |X| (1 / 2 ^ 25) with h2 | h2
  · rw [specialF_one N hx h2]
    refine ⟨_, rfl, _, ?_, near_one (tinyF N hx h2) h2⟩
    rw [sub_self, abs_zero]; positivity
  rw [specialF_none N hx h1 h h2]
  refine (mainF_spec N N64 C hx h1 h).mono ?_
  rintro z ⟨v, v1, v2⟩
  refine ⟨v, v1, v2.nearF f32 ?_⟩
  -- no overflow
  have hX : X ≤ 128 - 1 / 2 ^ 17 := by
    rcases le_or_gt X 64 with h3 | h3
    · linarith
    · have h128 : GFv f32 0x43000000#f32.w 128 := by
        have := GFv.const (F := f32) (b := 0x43000000#f32.w) (q := 128) (by decide +kernel) (by decide +kernel); push_cast at this; exact this
      have := f32.gap_ge (b := x) (c := 0x43000000#f32.w) (k := 6) (by rw [hx.val]; norm_num; linarith) (by rw [hx.val, h128.val]; exact h)
      rw [hx.val, h128.val, s32] at this
      norm_num at this ⊢
      linarith
  have hl6 : 0.6931 ≤ Real.log 2 := by
    have := Poly.ln2_gt
    have c6 : (0.6931 : ℝ) ≤ ((Poly.ln2L : ℚ) : ℝ) := by unfold Poly.ln2L; push_cast; norm_num
    linarith
  have hE : Real.exp (X * Real.log 2) ≤ (1 - 1 / 2 ^ 18) * 2 ^ (128 : ℤ) := by
    have h3 : X * Real.log 2 ≤ -(1 / 2 ^ 17 * 0.6931) + ((128 : ℤ) : ℝ) * Real.log 2 := by
      push_cast
      have := mul_le_mul_of_nonneg_right hX hl0.le
      nlinarith
    have := Real.exp_le_exp.mpr h3
    rw [Exp.exp_add_log] at this
    refine this.trans (mul_le_mul_of_nonneg_right ?_ (by positivity))
    have h4 := Real.abs_exp_sub_one_sub_id_le (x := -(1 / 2 ^ 17 * 0.6931)) (by rw [abs_neg, abs_of_pos] <;> norm_num)
    rw [abs_le] at h4
    norm_num at h4 ⊢
    linarith [h4.2]
  have hv : v ≤ ((2 ^ 24 - 1 : ℤ) : ℝ) * 2 ^ (104 : ℤ) := by
    rw [abs_le] at v1
    have : ((2 ^ 24 - 1 : ℤ) : ℝ) * 2 ^ (104 : ℤ) = (1 - 1 / 2 ^ 24) * 2 ^ (128 : ℤ) := by norm_num
    rw [this]
    generalize (2 : ℝ) ^ (128 : ℤ) = t at *
    generalize Real.exp (X * Real.log 2) = E at *
    linarith [v1.2]
  have hv0 : 0 ≤ v := by
    rw [abs_le] at v1
    generalize Real.exp (X * Real.log 2) = E at *
    linarith [v1.1]
  have hM : (((2 ^ 24 - 1 : ℤ) : ℝ) * 2 ^ (104 : ℤ)) < 2 ^ (128 : ℤ) := by norm_num
  have hrp : f32.Rp (((2 ^ 24 - 1 : ℤ) : ℝ) * 2 ^ (104 : ℤ)) := f32.rp_of (m := 2 ^ 24 - 1) (j := 104) rfl (by rw [s32]; norm_num) (by rw [b32, s32]; norm_num)
  have hle := v2.le_of f32 hrp (by rw [b32, abs_of_pos (by positivity)]; exact hM.le) hv
  have hge := v2.ge_of f32 f32.rp_zero (by rw [abs_zero]; positivity) hv0
  unfold Fmt.IsFin
  rw [← f32.magValR_lt_iff, f32.magValR_infRep, ← f32.absvR, abs_of_nonneg hge, b32]
  exact lt_of_le_of_lt hle hM

theorem exp2f_big (N : FPU f32) (N64 : FPU f64) (C : FloatCast f32 f64) {x : S} {X : ℝ} (hx : GFv f32 x X) (h : 128 ≤ X) :
    Ok (exp2f N N64 C x) fun z => f32.IsInf z ∧ f32.sign z = false := by
  unfold exp2f
  rw [specialF_high N hx h]
  refine ⟨_, rfl, ?_⟩
  have hp : GFv f32 x1p127 (2 ^ (127 : ℤ)) := by
    have := GFv.const (F := f32) (b := x1p127) (q := 2 ^ (127 : ℤ)) (by decide +kernel) (by decide +kernel)
    rw [Rat.cast_zpow, Rat.cast_ofNat] at this; exact this
  refine (hx.mulR N hp).over ?_
  rw [b32, show ((127 : ℕ) : ℤ) + 1 = 1 + 127 by norm_num, zpow_add₀ (by norm_num)]
  refine mul_le_mul_of_nonneg_right ?_ (by positivity)
  rw [zpow_one]; linarith

theorem exp2f_special (N : FPU f32) (N64 : FPU f64) (C : FloatCast f32 f64) (x : S) :
    (f32.IsNaN x → exp2f N N64 C x = .ok x) ∧ (f32.IsInf x → f32.sign x = false → Ok (exp2f N N64 C x) fun z => f32.IsInf z ∧ f32.sign z = false) ∧
    (f32.IsInf x → f32.sign x = true → exp2f N N64 C x = .ok 0#f32.w) := by
  obtain ⟨e1, e2⟩ := bits32 x
  refine ⟨fun h => ?_, fun h hs => ?_, fun h hs => ?_⟩
  · have hm : 0x7f800000 < f32.mag x := h
    unfold exp2f specialF
    simp only [mag32]
    rw [if_pos (by omega), if_pos (by omega)]
  · have hm : f32.mag x = 0x7f800000 := h
    rw [hs] at e1
    simp only [Bool.false_eq_true, if_false, Nat.zero_add] at e1
    unfold exp2f specialF
    simp only [mag32]
    rw [if_pos (by omega), if_neg (by omega), if_pos (by omega)]
    have e : x = 0x7f800000#f32.w := BitVec.eq_of_toNat_eq (by rw [e1, hm]; rfl)
    refine ⟨_, rfl, ?_⟩
    have := (N.mul_spec x x1p127).2.2 (by rw [e]; decide +kernel) (by decide +kernel) (Or.inl h)
    rw [if_neg (by rw [e]; decide +kernel)] at this
    exact ⟨this.1, this.2.trans (by rw [hs]; decide +kernel)⟩
  · have hm : f32.mag x = 0x7f800000 := h
    rw [if_pos hs] at e1
    unfold exp2f specialF
    simp only [mag32]
    rw [if_pos (by omega), if_neg (by omega), if_neg (by omega), if_pos (by omega), if_pos (by omega)]
end Exp2
end Verif
