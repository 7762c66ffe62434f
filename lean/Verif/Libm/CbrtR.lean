import Verif.Libm.GFv
import Mathlib.Tactic.Linarith
import Mathlib.Tactic.NormNum
/-! # Relative errors in `f64` arithmetic, and one step of Halley's iteration for the cube root -/
namespace Verif
open Fmt
namespace Cbrt

/-- the pattern `b` is of a finite number within `k` of `v` relatively, and `v` is neither huge nor tiny -/
structure RV (b : BitVec f64.w) (v k : ℝ) : Prop where
  ex : ∃ V, GFv f64 b V ∧ |V - v| ≤ k * |v|
  lo : 2 ^ (-300 : ℤ) ≤ |v|
  hi : |v| ≤ 2 ^ (300 : ℤ)

theorem RV.pos {b : BitVec f64.w} {v k : ℝ} (h : RV b v k) : 0 < |v| := lt_of_lt_of_le (by positivity) h.lo

theorem RV.k0 {b : BitVec f64.w} {v k : ℝ} (h : RV b v k) : 0 ≤ k := by
  obtain ⟨V, -, e⟩ := h.ex
  have := (abs_nonneg _).trans e
  by_contra hk
  nlinarith [h.pos]

/-- a rounding -/
theorem RV.rnd {b : BitVec f64.w} {V v k m : ℝ} (h : f64.Rounds V b) (e : |V - v| ≤ k * |v|) (hk0 : 0 ≤ k) (hk : k ≤ 1 / 2) (lo : 2 ^ (-300 : ℤ) ≤ |v|)
    (hi : |v| ≤ 2 ^ (300 : ℤ)) (hm : k + (1 + k) / 2 ^ 53 ≤ m) : RV b v m := by
  have hp : 0 < |v| := lt_of_lt_of_le (by positivity) lo
  have h1 : |V| ≤ (1 + k) * |v| := by
    have := abs_sub_abs_le_abs_sub V v
    linarith
  have h2 : (1 - k) * |v| ≤ |V| := by
    have := abs_sub_abs_le_abs_sub v V
    rw [abs_sub_comm] at this
    linarith
  have lo' : (2 : ℝ) ^ (1 - (f64.bias : ℤ)) ≤ |V| := by
    have e1 : (2 : ℝ) ^ (1 - (f64.bias : ℤ)) ≤ 2 ^ (-301 : ℤ) := zpow_le_zpow_right₀ (by norm_num) (by decide)
    have e2 : (2 : ℝ) ^ (-300 : ℤ) = 2 ^ (-301 : ℤ) * 2 := by rw [← zpow_add_one₀ (by norm_num)]; norm_num
    nlinarith
  have hi' : |V| ≤ (2 : ℝ) ^ (301 : ℤ) := by
    have e2 : (2 : ℝ) ^ (301 : ℤ) = 2 ^ (300 : ℤ) * 2 := by rw [← zpow_add_one₀ (by norm_num)]; norm_num
    have : (1 + k) * |v| ≤ 2 * |v| := mul_le_mul_of_nonneg_right (by linarith) hp.le
    rw [e2]
    generalize (2 : ℝ) ^ (300 : ℤ) = Q at *
    linarith
  have hi'' : |V| ≤ (2 : ℝ) ^ (f64.bias : ℤ) := hi'.trans (zpow_le_zpow_right₀ (by norm_num) (by decide))
  have hr := h.rel f64 lo' hi''
  refine ⟨⟨_, ⟨?_, rfl⟩, ?_⟩, lo, hi⟩
  · have hb : |(2 : ℝ) ^ (301 : ℤ)| ≤ 2 ^ ((f64.bias : ℤ) + 1) := by
      rw [abs_of_pos (by positivity)]; exact zpow_le_zpow_right₀ (by norm_num) (by decide)
    have hrp := f64.rp_pow (j := 301) (by decide)
    have h1 := h.le_of f64 hrp hb ((le_abs_self _).trans hi')
    have h2 := h.ge_of f64 (hrp.neg f64) (by rwa [abs_neg]) (neg_le.mp ((neg_le_abs _).trans hi'))
    have h3 : |f64.valK ℝ b| ≤ 2 ^ (301 : ℤ) := abs_le.mpr ⟨h2, h1⟩
    rw [f64.absvR] at h3
    unfold Fmt.IsFin
    rw [← f64.magValR_lt_iff, f64.magValR_infRep]
    exact lt_of_le_of_lt h3 (zpow_lt_zpow_right₀ (by norm_num) (by decide))
  · have : |f64.valK ℝ b - v| ≤ |f64.valK ℝ b - V| + |V - v| := abs_sub_le _ _ _
    have e3 : (2 : ℝ) ^ (-(f64.s : ℤ) - 1) = 1 / 2 ^ 53 := by
      rw [show -(f64.s : ℤ) - 1 = -(53 : ℤ) by decide, zpow_neg]; norm_num
    rw [e3] at hr
    nlinarith

theorem RV.mono {b : BitVec f64.w} {v k m : ℝ} (h : RV b v k) (hm : k ≤ m) : RV b v m := by
  obtain ⟨V, g, e⟩ := h.ex
  exact ⟨⟨V, g, e.trans (mul_le_mul_of_nonneg_right hm (abs_nonneg _))⟩, h.lo, h.hi⟩

theorem RV.mul (N : FPU f64) {a b : BitVec f64.w} {v w k l m : ℝ} (ha : RV a v k) (hb : RV b w l) (lo : 2 ^ (-300 : ℤ) ≤ |v * w|)
    (hi : |v * w| ≤ 2 ^ (300 : ℤ)) (hk : k + l + k * l ≤ 1 / 2) (hm : (k + l + k * l) + (1 + (k + l + k * l)) / 2 ^ 53 ≤ m) : RV (N.mul a b) (v * w) m := by
  have k0 := ha.k0
  have l0 := hb.k0
  obtain ⟨V, gV, eV⟩ := ha.ex
  obtain ⟨W, gW, eW⟩ := hb.ex
  refine RV.rnd (gV.mulR N gW) ?_ (by positivity) hk lo hi hm
  have h1 : V * W - v * w = (V - v) * (W - w) + (V - v) * w + v * (W - w) := by ring
  rw [h1, abs_mul v w]
  have h2 := abs_add_le ((V - v) * (W - w) + (V - v) * w) (v * (W - w))
  have h3 := abs_add_le ((V - v) * (W - w)) ((V - v) * w)
  rw [abs_mul] at h2 h3
  rw [abs_mul (V - v) w] at h3
  have h4 : |V - v| * |W - w| ≤ (k * |v|) * (l * |w|) := mul_le_mul eV eW (abs_nonneg _) ((abs_nonneg _).trans eV)
  have h5 : |V - v| * |w| ≤ (k * |v|) * |w| := mul_le_mul_of_nonneg_right eV (abs_nonneg _)
  have h6 : |v| * |W - w| ≤ |v| * (l * |w|) := mul_le_mul_of_nonneg_left eW (abs_nonneg _)
  have h7 : (k + l + k * l) * (|v| * |w|) = k * |v| * (l * |w|) + k * |v| * |w| + |v| * (l * |w|) := by ring
  linarith

theorem RV.add (N : FPU f64) {a b : BitVec f64.w} {v w k l m : ℝ} (ha : RV a v k) (hb : RV b w l) (hs : 0 < v * w) (hi : |v + w| ≤ 2 ^ (300 : ℤ)) (hkl : l ≤ k)
    (hk : k ≤ 1 / 2) (hm : k + (1 + k) / 2 ^ 53 ≤ m) : RV (N.add a b) (v + w) m := by
  have k0 := ha.k0
  have hp : |v + w| = |v| + |w| := by
    rcases pos_and_pos_or_neg_and_neg_of_mul_pos hs with ⟨h1, h2⟩ | ⟨h1, h2⟩
    · rw [abs_of_pos h1, abs_of_pos h2, abs_of_pos (by linarith)]
    · rw [abs_of_neg h1, abs_of_neg h2, abs_of_neg (by linarith)]; ring
  obtain ⟨V, gV, eV⟩ := ha.ex
  obtain ⟨W, gW, eW⟩ := hb.ex
  refine RV.rnd (gV.addR N gW) ?_ k0 hk ?_ hi hm
  · rw [hp]
    have h2 := abs_add_le (V - v) (W - w)
    rw [show V - v + (W - w) = V + W - (v + w) by ring] at h2
    have : l * |w| ≤ k * |w| := mul_le_mul_of_nonneg_right hkl (abs_nonneg _)
    linarith
  · rw [hp]; linarith [ha.lo, abs_nonneg w]

theorem RV.div (N : FPU f64) {a b : BitVec f64.w} {v w k l m : ℝ} (ha : RV a v k) (hb : RV b w l) (lo : 2 ^ (-300 : ℤ) ≤ |v / w|)
    (hi : |v / w| ≤ 2 ^ (300 : ℤ)) (hl : l < 1) (hk : (k + l) / (1 - l) ≤ 1 / 2) (hm : (k + l) / (1 - l) + (1 + (k + l) / (1 - l)) / 2 ^ 53 ≤ m) : RV (N.div a b) (v / w) m := by
  have k0 := ha.k0
  have l0 := hb.k0
  have pw := hb.pos
  have hw : w ≠ 0 := abs_pos.mp pw
  obtain ⟨V, gV, eV⟩ := ha.ex
  obtain ⟨W, gW, eW⟩ := hb.ex
  have hW : (1 - l) * |w| ≤ |W| := by
    have := abs_sub_abs_le_abs_sub w W
    rw [abs_sub_comm] at this
    linarith
  have pW : 0 < |W| := lt_of_lt_of_le (mul_pos (by linarith) pw) hW
  have hW0 : W ≠ 0 := abs_pos.mp pW
  refine RV.rnd (gV.divR N gW hW0) ?_ (div_nonneg (by linarith) (by linarith)) hk lo hi hm
  have h1 : V / W - v / w = ((V - v) * w - v * (W - w)) / (W * w) := by field_simp; ring
  rw [h1, abs_div, abs_div, abs_mul, div_le_iff₀ (by positivity)]
  have h2 := abs_sub ((V - v) * w) (v * (W - w))
  rw [abs_mul, abs_mul] at h2
  have h3 : |V - v| * |w| ≤ (k * |v|) * |w| := mul_le_mul_of_nonneg_right eV (abs_nonneg _)
  have h4 : |v| * |W - w| ≤ |v| * (l * |w|) := mul_le_mul_of_nonneg_left eW (abs_nonneg _)
  have h5 : (k + l) / (1 - l) * (|v| / |w|) * (|W| * |w|) = (k + l) * |v| * (|W| / (1 - l)) := by
    have : (1 - l) ≠ 0 := by linarith
    field_simp
  have h6 : |w| ≤ |W| / (1 - l) := by rw [le_div_iff₀ (by linarith)]; linarith
  have h7 : (k + l) * |v| * |w| ≤ (k + l) * |v| * (|W| / (1 - l)) := mul_le_mul_of_nonneg_left h6 (by positivity)
  rw [h5]
  nlinarith

/-- orders of magnitude -/
structure Bd (n : ℤ) (v : ℝ) : Prop where
  lo : 2 ^ (-n) ≤ |v|
  hi : |v| ≤ 2 ^ n

theorem Bd.mul {m n : ℤ} {v w : ℝ} (hv : Bd m v) (hw : Bd n w) : Bd (m + n) (v * w) := by
  constructor
  · rw [abs_mul, neg_add, zpow_add₀ (by norm_num)]
    exact mul_le_mul hv.lo hw.lo (by positivity) (abs_nonneg _)
  · rw [abs_mul, zpow_add₀ (by norm_num)]
    exact mul_le_mul hv.hi hw.hi (abs_nonneg _) (by positivity)

theorem Bd.mono {m n : ℤ} {v : ℝ} (hv : Bd m v) (h : m ≤ n) : Bd n v :=
  ⟨(zpow_le_zpow_right₀ (by norm_num) (by omega)).trans hv.lo, hv.hi.trans (zpow_le_zpow_right₀ (by norm_num) h)⟩

theorem Bd.add {n : ℤ} {v w : ℝ} (hv : Bd n v) (hw : Bd n w) (hs : 0 < v * w) : Bd (n + 1) (v + w) := by
  have hp : |v + w| = |v| + |w| := by
    rcases pos_and_pos_or_neg_and_neg_of_mul_pos hs with ⟨h1, h2⟩ | ⟨h1, h2⟩
    · rw [abs_of_pos h1, abs_of_pos h2, abs_of_pos (by linarith)]
    · rw [abs_of_neg h1, abs_of_neg h2, abs_of_neg (by linarith)]; ring
  constructor
  · rw [hp]
    have := (hv.mono (show n ≤ n + 1 by omega)).lo
    linarith [abs_nonneg w]
  · rw [hp, zpow_add_one₀ (by norm_num)]
    linarith [hv.hi, hw.hi]

theorem Bd.near {n : ℤ} {v w : ℝ} (hv : Bd n v) (h : |w - v| ≤ 1 / 2 * |v|) : Bd (n + 1) w := by
  have h1 := abs_sub_abs_le_abs_sub w v
  have h2 := abs_sub_abs_le_abs_sub v w
  rw [abs_sub_comm] at h2
  constructor
  · have e : (2 : ℝ) ^ (-n) = 2 ^ (-(n + 1)) * 2 := by rw [← zpow_add_one₀ (by norm_num)]; ring_nf
    have := hv.lo
    rw [e] at this
    linarith
  · rw [zpow_add_one₀ (by norm_num)]
    have := hv.hi
    linarith [abs_nonneg v]

theorem RV.of {b : BitVec f64.w} {v : ℝ} {n : ℤ} (h : GFv f64 b v) (hb : Bd n v) (hn : n ≤ 300) : RV b v 0 :=
  ⟨⟨v, h, by simp⟩, (hb.mono hn).lo, (hb.mono hn).hi⟩

/-- Halley's iteration for the cube root: the error of the next approximation -/
theorem halley {s : ℝ} (h0 : 0 < s) : s * (2 + s ^ 3) / (1 + 2 * s ^ 3) - 1 = (s - 1) ^ 3 * (s + 1) / (1 + 2 * s ^ 3) := by
  have : (1 + 2 * s ^ 3) ≠ 0 := by positivity
  field_simp; ring

theorem halley_bd {s κ : ℝ} (h : |s - 1| ≤ κ) (hκ : κ ≤ 1 / 30) : |s * (2 + s ^ 3) / (1 + 2 * s ^ 3) - 1| ≤ 3 / 4 * κ ^ 3 := by
  obtain ⟨h1, h2⟩ := abs_le.mp h
  have h0 : 0 < s := by linarith
  rw [halley h0, abs_div, abs_mul, abs_pow, abs_of_pos (show 0 < s + 1 by linarith), abs_of_pos (show 0 < 1 + 2 * s ^ 3 by positivity), div_le_iff₀ (by positivity)]
  have h3 : |s - 1| ^ 3 ≤ κ ^ 3 := pow_le_pow_left₀ (abs_nonneg _) h 3
  have h4 : s + 1 ≤ 3 / 4 * (1 + 2 * s ^ 3) := by
    nlinarith [mul_self_nonneg (s - 1), mul_nonneg (mul_self_nonneg (s - 1)) h0.le]
  calc |s - 1| ^ 3 * (s + 1) ≤ κ ^ 3 * (3 / 4 * (1 + 2 * s ^ 3)) := mul_le_mul h3 h4 (by linarith) (pow_nonneg ((abs_nonneg _).trans h) 3)
    _ = _ := by ring

/-- a step in floating-point arithmetic, from an approximation within `κ` of the cube root `y` of `x` -/
theorem step_spec (N : FPU f64) {x t : BitVec f64.w} {y T κ : ℝ} (gx : GFv f64 x (y ^ 3)) (gt : GFv f64 t T) (hy : Bd 60 y) (h : |T - y| ≤ κ * |y|) (hκ : κ ≤ 1 / 30) :
    ∃ T', GFv f64 (N.div (N.mul t (N.add (N.add x x) (N.mul (N.mul t t) t))) (N.add (N.add x (N.mul (N.mul t t) t)) (N.mul (N.mul t t) t))) T' ∧
      |T' - y| ≤ (3 / 4 * κ ^ 3 + 10 / 2 ^ 53) * |y| := by
  have hy0 : 0 < |y| := lt_of_lt_of_le (by positivity) hy.lo
  have hyn : y ≠ 0 := abs_pos.mp hy0
  obtain ⟨s, hs⟩ : ∃ s, T = y * s := ⟨T / y, by field_simp⟩
  subst hs
  have hs1 : |s - 1| ≤ κ := by
    rw [show y * s - y = y * (s - 1) by ring, abs_mul, mul_comm] at h
    exact le_of_mul_le_mul_right h hy0
  obtain ⟨hs2, hs3⟩ := abs_le.mp hs1
  have hs0 : 0 < s := by linarith
  have bt : Bd 61 (y * s) := hy.near (h.trans (mul_le_mul_of_nonneg_right (by linarith) hy0.le))
  have bx : Bd 180 (y ^ 3) := by rw [show y ^ 3 = y * y * y by ring]; exact (hy.mul hy).mul hy
  have br := (bt.mul bt).mul bt
  have hr : y * s * (y * s) * (y * s) = y ^ 3 * s ^ 3 := by ring
  have hxx : 0 < y ^ 3 * y ^ 3 := mul_self_pos.mpr (pow_ne_zero 3 hyn)
  have hxr : 0 < y ^ 3 * (y ^ 3 * s ^ 3) := by
    have : y ^ 3 * (y ^ 3 * s ^ 3) = y ^ 3 * y ^ 3 * s ^ 3 := by ring
    rw [this]; positivity
  have rt := RV.of gt bt (by norm_num)
  have rx := RV.of gx bx (by norm_num)
  have r1 := rt.mul N rt (m := 1.1 / 2 ^ 53) ((bt.mul bt).mono (by norm_num)).lo ((bt.mul bt).mono (by norm_num)).hi (by norm_num) (by norm_num)
  have r := r1.mul N rt (m := 2.2 / 2 ^ 53) (br.mono (by norm_num)).lo (br.mono (by norm_num)).hi (by norm_num) (by norm_num)
  rw [hr] at r br
  have br := br.mono (show _ ≤ 184 by norm_num)
  have bx := bx.mono (show _ ≤ 184 by norm_num)
  have ba := bx.add bx hxx
  have ra := rx.add N rx (m := 1.1 / 2 ^ 53) hxx (ba.mono (by norm_num)).hi (le_refl _) (by norm_num) (by norm_num)
  have hab : 0 < (y ^ 3 + y ^ 3) * (y ^ 3 * s ^ 3) := by nlinarith
  have bb := ba.add (br.mono (by norm_num)) hab
  have rb := (ra.mono (m := 2.2 / 2 ^ 53) (by norm_num)).add N r (m := 3.3 / 2 ^ 53) hab (bb.mono (by norm_num)).hi (le_refl _) (by norm_num) (by norm_num)
  have bc := bx.add br hxr
  have rc := (rx.mono (m := 2.2 / 2 ^ 53) (by norm_num)).add N r (m := 3.3 / 2 ^ 53) hxr (bc.mono (by norm_num)).hi (le_refl _) (by norm_num) (by norm_num)
  have hcd : 0 < (y ^ 3 + y ^ 3 * s ^ 3) * (y ^ 3 * s ^ 3) := by nlinarith [mul_self_pos.mpr (show y ^ 3 * s ^ 3 ≠ 0 by positivity)]
  have bd := bc.add (br.mono (by norm_num)) hcd
  have rd := rc.add N r (m := 4.4 / 2 ^ 53) hcd (bd.mono (by norm_num)).hi (by norm_num) (by norm_num) (by norm_num)
  have bp := bt.mul bb
  have rp := rt.mul N rb (m := 4.4 / 2 ^ 53) (bp.mono (by norm_num)).lo (bp.mono (by norm_num)).hi (by norm_num) (by norm_num)
  have hval : y * s * (y ^ 3 + y ^ 3 + y ^ 3 * s ^ 3) / (y ^ 3 + y ^ 3 * s ^ 3 + y ^ 3 * s ^ 3) = y * (s * (2 + s ^ 3) / (1 + 2 * s ^ 3)) := by
    have : (1 + 2 * s ^ 3) ≠ 0 := by positivity
    have : (1 + s ^ 3 + s ^ 3) ≠ 0 := by positivity
    rw [show y ^ 3 + y ^ 3 * s ^ 3 + y ^ 3 * s ^ 3 = y ^ 3 * (1 + 2 * s ^ 3) by ring]
    field_simp; ring
  have hh := halley_bd hs1 hκ
  generalize hV : s * (2 + s ^ 3) / (1 + 2 * s ^ 3) = V at hh hval
  have hκ3 : κ ^ 3 ≤ 1 / 100 := by
    have h0 : 0 ≤ κ := (abs_nonneg _).trans hs1
    calc κ ^ 3 ≤ (1 / 30) ^ 3 := pow_le_pow_left₀ h0 hκ 3
      _ ≤ _ := by norm_num
  have bq : Bd 61 (y * V) := hy.near (by
    rw [show y * V - y = y * (V - 1) by ring, abs_mul, mul_comm]
    exact mul_le_mul_of_nonneg_right (by linarith) hy0.le)
  have rq := rp.div N rd (m := 99 / 10 / 2 ^ 53) (by rw [hval]; exact (bq.mono (by norm_num)).lo) (by rw [hval]; exact (bq.mono (by norm_num)).hi) (by norm_num) (by norm_num) (by norm_num)
  rw [hval] at rq
  obtain ⟨T', g, e⟩ := rq.ex
  refine ⟨T', g, ?_⟩
  have e1 : |y * V - y| ≤ 3 / 4 * κ ^ 3 * |y| := by
    rw [show y * V - y = y * (V - 1) by ring, abs_mul, mul_comm]
    exact mul_le_mul_of_nonneg_right hh hy0.le
  have e2 : |y * V| ≤ 101 / 100 * |y| := by
    have := abs_sub_abs_le_abs_sub (y * V) y
    have : 3 / 4 * κ ^ 3 * |y| ≤ 3 / 4 * (1 / 100) * |y| := mul_le_mul_of_nonneg_right (by linarith) hy0.le
    linarith
  have e3 : 99 / 10 / 2 ^ 53 * |y * V| ≤ 99 / 10 / 2 ^ 53 * (101 / 100 * |y|) := mul_le_mul_of_nonneg_left e2 (by norm_num)
  have e4 := abs_sub_le T' (y * V) y
  have e5 : 99 / 10 / 2 ^ 53 * (101 / 100 * |y|) ≤ 10 / 2 ^ 53 * |y| := by
    rw [← mul_assoc]
    exact mul_le_mul_of_nonneg_right (by norm_num) hy0.le
  linarith

end Cbrt
end Verif
