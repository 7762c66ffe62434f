import Verif.Libm.HypotMain
/-! # `as_hypot_denorm`: both arguments subnormal -/
namespace Verif
/-- `f64` value as a real -/
local notation "V" => Fmt.valK f64 ℝ
/-- value of a magnitude pattern -/
local notation "γ" => Fmt.magVal f64 ℝ

namespace Hypot

/-- a 64-bit integer, as bits -/
local notation "bi" => BitVec.ofInt f64.w

theorem bi_toInt {z : ℤ} (h : |z| < 2 ^ 63) : (bi z).toInt = z := by
  have hw : f64.w = 64 := rfl
  obtain ⟨h1, h2⟩ := abs_lt.mp h
  rw [BitVec.toInt_ofInt, hw]
  apply Int.bmod_eq_of_le <;> omega

theorem bi_nat (n : ℕ) : BitVec.ofNat f64.w n = bi (n : ℤ) := (BitVec.ofInt_natCast _ _).symm

theorem bi_msb {z : ℤ} (h : |z| < 2 ^ 63) : (bi z).msb = decide (z < 0) := by
  rw [BitVec.msb_eq_toInt, bi_toInt h]

theorem bi_ne {y z : ℤ} (hy : |y| < 2 ^ 63) (hz : |z| < 2 ^ 63) (h : y ≠ z) : bi y ≠ bi z := by
  intro hc
  have := congrArg BitVec.toInt hc
  rw [bi_toInt hy, bi_toInt hz] at this
  exact h this

theorem xor_le (x y : BitVec f64.w) : (x ^^^ y).toInt ≤ 0 ↔ x = y ∨ x.msb ≠ y.msb := by
  have h1 : (x ^^^ y).toInt = 0 ↔ x = y := by
    rw [← BitVec.xor_eq_zero_iff]
    constructor
    · intro h
      apply BitVec.eq_of_toInt_eq
      rw [h]; decide
    · intro h; rw [h]; decide
  have h2 : (x ^^^ y).toInt < 0 ↔ x.msb ≠ y.msb := by
    have := BitVec.msb_eq_toInt (x := x ^^^ y)
    rw [BitVec.msb_xor] at this
    constructor
    · intro h
      rw [decide_eq_true h] at this
      intro hc
      rw [hc] at this
      simp at this
    · intro h
      by_contra hc
      rw [decide_eq_false hc] at this
      revert this h
      cases x.msb <;> cases y.msb <;> simp
  rw [← h1, ← h2]
  omega

theorem addI {x y : ℤ} (hx : |x| < 2 ^ 63) (hy : |y| < 2 ^ 63) (h : |x + y| < 2 ^ 63) : addI64 (bi x) (bi y) = .ok (bi (x + y)) := by
  unfold addI64
  have hov : (bi x).saddOverflow (bi y) = false := by
    unfold BitVec.saddOverflow
    rw [bi_toInt hx, bi_toInt hy]
    obtain ⟨h1, h2⟩ := abs_lt.mp h
    simp only [ge_iff_le, Bool.or_eq_false_iff, decide_eq_false_iff_not]
    have h1 : (2 : ℤ) ^ (f64.w - 1) = 2 ^ 63 := rfl
    rw [h1]
    omega
  rw [hov, BitVec.ofInt_add]
  rfl

theorem subI {x y : ℤ} (hx : |x| < 2 ^ 63) (hy : |y| < 2 ^ 63) (h : |x - y| < 2 ^ 63) : subI64C (bi x) (bi y) = .ok (bi (x - y)) := by
  unfold subI64C subI64
  have hov : (bi x).ssubOverflow (bi y) = false := by
    unfold BitVec.ssubOverflow
    rw [bi_toInt hx, bi_toInt hy]
    obtain ⟨h1, h2⟩ := abs_lt.mp h
    simp only [ge_iff_le, Bool.or_eq_false_iff, decide_eq_false_iff_not]
    have h1 : (2 : ℤ) ^ (f64.w - 1) = 2 ^ 63 := rfl
    rw [h1]
    omega
  rw [hov, ofInt_sub']
  rfl

/-- the loop from below -/
theorem denUp {S s : ℤ} (h0 : s * s ≤ S) (h1 : S < (s + 1) * (s + 1)) : ∀ (n : ℕ) (r : ℤ), 0 ≤ r → r ≤ s → s - r < n →
    (∀ q, r ≤ q → q ≤ s + 1 → |4 * (S - q * q)| < 2 ^ 63) →
    denLoop (bi 1) n (bi (r - 1)) (bi (4 * (S - r * r))) (bi (8 * r + 4)) =
      .ok (bi s, bi (4 * (S - (s + 1) * (s + 1))), bi (4 * (S - s * s)))
  | 0, r, _, hr, hn, _ => by omega
  | n + 1, r, hr0, hr, hn, hB => by
    unfold denLoop
    dsimp only
    have e1 : bi (r - 1) + bi 1 = bi r := by rw [← BitVec.ofInt_add]; congr 1; ring
    have e2 : bi (4 * (S - r * r)) - bi (8 * r + 4) = bi (4 * (S - (r + 1) * (r + 1))) := by
      rw [← ofInt_sub']; congr 1; ring
    have e3 : bi (8 * r + 4) + 8#f64.w = bi (8 * (r + 1) + 4) := by
      rw [show (8#f64.w) = bi 8 from rfl, ← BitVec.ofInt_add]; congr 1; ring
    rw [e1, e2, e3]
    have b1 := hB (r + 1) (by omega) (by omega)
    have b0 := hB r (by omega) (by omega)
    by_cases h : r = s
    · subst h
      rw [if_pos]
      · rfl
      rw [xor_le, bi_msb b0, bi_msb b1]
      right
      rw [decide_eq_true (by omega), decide_eq_false (by omega)]
      decide
    · have hlt : r + 1 ≤ s := by omega
      have hsq : (r + 1) * (r + 1) ≤ s * s := mul_self_le_mul_self (by omega) hlt
      have hsq' : r * r < (r + 1) * (r + 1) := by nlinarith
      rw [if_neg]
      · have := denUp h0 h1 n (r + 1) (by omega) hlt (by omega) (fun q hq => hB q (by omega))
        rw [show r + 1 - 1 = r by ring] at this
        exact this
      rw [xor_le, bi_msb b0, bi_msb b1, decide_eq_false (show ¬ 4 * (S - r * r) < 0 by omega),
        decide_eq_false (show ¬ 4 * (S - (r + 1) * (r + 1)) < 0 by omega)]
      rintro (hc | hc)
      · exact bi_ne b1 b0 (by omega) hc
      · exact hc rfl

/-- the loop from above -/
theorem denDown {S s : ℤ} (hs : 0 ≤ s) (h0 : s * s ≤ S) (h1 : S < (s + 1) * (s + 1)) : ∀ (n : ℕ) (r : ℤ), s < r → r - s ≤ n →
    (∀ q, s ≤ q → q ≤ r → |4 * (S - q * q)| < 2 ^ 63) →
    denLoop (bi (-1)) n (bi r) (bi (4 * (S - r * r))) (bi (-(8 * r) + 4)) =
      .ok (bi s, bi (4 * (S - s * s)), bi (4 * (S - (s + 1) * (s + 1))))
  | 0, r, hr, hn, _ => by omega
  | n + 1, r, hr, hn, hB => by
    unfold denLoop
    dsimp only
    have e1 : bi r + bi (-1) = bi (r - 1) := by rw [← BitVec.ofInt_add]; congr 1
    have e2 : bi (4 * (S - r * r)) - bi (-(8 * r) + 4) = bi (4 * (S - (r - 1) * (r - 1))) := by
      rw [← ofInt_sub']; congr 1; ring
    have e3 : bi (-(8 * r) + 4) + 8#f64.w = bi (-(8 * (r - 1)) + 4) := by
      rw [show (8#f64.w) = bi 8 from rfl, ← BitVec.ofInt_add]; congr 1; ring
    rw [e1, e2, e3]
    have b1 := hB (r - 1) (by omega) (by omega)
    have b0 := hB r (by omega) (by omega)
    have hsq : (s + 1) * (s + 1) ≤ r * r := mul_self_le_mul_self (by omega) (by omega)
    by_cases h : r - 1 = s
    · rw [if_pos]
      · rw [h, show r = s + 1 by omega]; rfl
      rw [xor_le, bi_msb b0, bi_msb b1]
      right
      rw [h, decide_eq_false (by omega), decide_eq_true (by omega)]
      decide
    · have hlt : s < r - 1 := by omega
      have hsq' : (s + 1) * (s + 1) ≤ (r - 1) * (r - 1) := mul_self_le_mul_self (by omega) (by omega)
      have hsq'' : (r - 1) * (r - 1) < r * r := by nlinarith
      rw [if_neg]
      · exact denDown hs h0 h1 n (r - 1) hlt (by omega) (fun q hq hq' => hB q hq (by omega))
      rw [xor_le, bi_msb b0, bi_msb b1, decide_eq_true (show 4 * (S - r * r) < 0 by omega),
        decide_eq_true (show 4 * (S - (r - 1) * (r - 1)) < 0 by omega)]
      rintro (hc | hc)
      · exact bi_ne b1 b0 (by omega) hc
      · exact hc rfl

/-- the nearest integer to the square root -/
def nearSqrt (S s : ℤ) : ℤ := if S - s * s ≤ s then s else s + 1

theorem denRound_spec (N : FPU f64) {S s : ℤ} (hs : 0 ≤ s) (hs' : s < 2 ^ 54) (h0 : s * s ≤ S) (h1 : S < (s + 1) * (s + 1)) :
    denRound N (bi s) (bi (4 * (S - s * s))) = .ok (bi (nearSqrt S s)) := by
  unfold denRound
  rw [opom_eq]
  dsimp only
  rw [if_pos (show f64.feq 0x3ff0000000000000#f64.w 0x3ff0000000000000#f64.w = true by decide)]
  have hb : |4 * (S - s * s)| < 2 ^ 63 := by
    rw [abs_of_nonneg (by omega)]
    have : (s + 1) * (s + 1) = s * s + 2 * s + 1 := by ring
    omega
  unfold nearSqrt
  by_cases hz : S - s * s = 0
  · rw [hz, if_neg (by decide), if_pos hs]
    rfl
  · have hne : bi (4 * (S - s * s)) ≠ 0#f64.w := by
      rw [show (0#f64.w) = bi 0 from rfl]
      exact bi_ne hb (by norm_num) (by omega)
    rw [if_pos hne]
    have hsum : bi (4 * (S - s * s)) - 4#f64.w * bi s - 1#f64.w = bi (4 * (S - s * s) - 4 * s - 1) := by
      rw [show (4#f64.w) = bi 4 from rfl, show (1#f64.w) = bi 1 from rfl, ← BitVec.ofInt_mul, ← ofInt_sub', ← ofInt_sub']
    have hb2 : |4 * (S - s * s) - 4 * s - 1| < 2 ^ 63 := by
      have : (s + 1) * (s + 1) = s * s + 2 * s + 1 := by ring
      rw [abs_lt]; constructor <;> omega
    rw [hsum]
    rw [if_pos (by
      rw [show (0#f64.w) = bi 0 from rfl]
      exact bi_ne hb2 (by norm_num) (by omega)), sar63, bi_toInt hb2]
    by_cases hc : S - s * s ≤ s
    · rw [if_pos hc, if_pos (by omega)]
      have : BitVec.allOnes f64.w + 1#f64.w = 0#f64.w := by decide
      rw [this, BitVec.add_zero]; rfl
    · rw [if_neg hc, if_neg (by omega), BitVec.zero_add, show (1#f64.w) = bi 1 from rfl, ← BitVec.ofInt_add]; rfl

theorem mids {v : ℝ} (h : 1 ≤ v) (h' : v ≤ 2 ^ 110) :
    (2 : ℝ) ^ (-1022 : ℤ) ≤ |v| ∧ |v| ≤ 2 ^ (1023 : ℤ) ∧ |v| ≤ 2 ^ (1000 : ℤ) := by
  have zb : (2 : ℝ) ^ (-1022 : ℤ) ≤ 1 := zpow_le_one_of_nonpos₀ (by norm_num) (by norm_num)
  have zt : (2 : ℝ) ^ (110 : ℕ) ≤ 2 ^ (1000 : ℤ) := by
    rw [show (1000 : ℤ) = ((1000 : ℕ) : ℤ) by norm_num, zpow_natCast]
    exact pow_le_pow_right₀ (by norm_num) (by norm_num)
  have zt' : (2 : ℝ) ^ (1000 : ℤ) ≤ 2 ^ (1023 : ℤ) := zpow_le_zpow_right₀ (by norm_num) (by norm_num)
  rw [abs_of_pos (by linarith)]
  exact ⟨zb.trans h, h'.trans (zt.trans zt'), h'.trans zt⟩

set_option maxHeartbeats 400000 in
/-- the first approximation -/
theorem den_sqrt {H : HypotOps} (hH : H.Lawful) {a b : BitVec f64.w} (ha : a.toNat < 2 ^ 52) (hb : b.toNat < 2 ^ 52) (ha0 : 0 < a.toNat)
    (hb0 : 0 < b.toNat) {q : ℝ} (hq0 : 0 < q) (hq : q * q = (a.toNat : ℝ) ^ 2 + (b.toNat : ℝ) ^ 2) :
    ∃ t r, H.sqrt (H.N.add (H.N.mul (H.C.cast a) (H.C.cast a)) (H.N.mul (H.C.cast b) (H.C.cast b))) = .ok t ∧ H.toU64 t = .ok r ∧
      1 ≤ r.toNat ∧ q - 5 < r.toNat ∧ (r.toNat : ℝ) ≤ q + 4 := by
  have hU := U_pos
  have hUs' : U ≤ 1 / 100000 := U_le.trans (by norm_num)
  have hcast : ∀ {c : BitVec f64.w}, c.toNat < 2 ^ 52 → f64.IsFin (H.C.cast c) ∧ V (H.C.cast c) = c.toNat := by
    intro c hc
    have h1 := Fmt.Rounds.cast f64 (H.C.spec c)
    have hw : (2 : ℕ) ^ f64.w = 2 ^ 64 := rfl
    have hi : c.toInt = c.toNat := BitVec.toInt_eq_toNat_of_lt (by rw [hw]; omega)
    rw [hi] at h1
    have hcr : ((c.toNat : ℕ) : ℝ) ≤ 2 ^ 52 := by exact_mod_cast hc.le
    have hab : |(((c.toNat : ℤ) : ℚ) : ℝ)| ≤ 2 ^ (52 : ℤ) := by
      push_cast
      rw [abs_of_nonneg (by positivity)]; exact_mod_cast hcr
    refine ⟨fin64 h1 (hab.trans (zpow_le_zpow_right₀ (by norm_num) (by norm_num))), ?_⟩
    have := h1.exactR f64 (f64.rp_of (m := c.toNat) (j := 0) (by simp) (by
      rw [s64, abs_of_nonneg (by positivity)]; exact_mod_cast (by omega : c.toNat ≤ 2 ^ 53)) (by rw [b64, s64]; norm_num))
      (big64 hab (by norm_num))
    rw [this]; push_cast; rfl
  obtain ⟨fa, va⟩ := hcast ha
  obtain ⟨fb, vb⟩ := hcast hb
  have hA1 : (1 : ℝ) ≤ a.toNat := by exact_mod_cast ha0
  have hB1 : (1 : ℝ) ≤ b.toNat := by exact_mod_cast hb0
  have hA2 : (a.toNat : ℝ) ≤ 2 ^ 52 := by exact_mod_cast ha.le
  have hB2 : (b.toNat : ℝ) ≤ 2 ^ 52 := by exact_mod_cast hb.le
  generalize H.C.cast a = af at *
  generalize H.C.cast b = bf at *
  generalize (a.toNat : ℝ) = A at *
  generalize (b.toNat : ℝ) = B at *
  have hAA1 : 1 ≤ A * A := by nlinarith
  have hBB1 : 1 ≤ B * B := by nlinarith
  have hAA2 : A * A ≤ 2 ^ 104 := by nlinarith
  have hBB2 : B * B ≤ 2 ^ 104 := by nlinarith
  have ra := mulR H.N fa fa
  have rb := mulR H.N fb fb
  rw [va] at ra
  rw [vb] at rb
  have ea := rel64 ra (mids hAA1 (by linarith)).1 (mids hAA1 (by linarith)).2.1
  have eb := rel64 rb (mids hBB1 (by linarith)).1 (mids hBB1 (by linarith)).2.1
  have fa2 := fin64 ra (mids hAA1 (by linarith)).2.2
  have fb2 := fin64 rb (mids hBB1 (by linarith)).2.2
  have a1 : ((1 : ℕ) : ℝ) ≤ V (H.N.mul af af) := geN (by norm_num) ra (by push_cast; exact hAA1)
  have b1 : ((1 : ℕ) : ℝ) ≤ V (H.N.mul bf bf) := geN (by norm_num) rb (by push_cast; exact hBB1)
  push_cast at a1 b1
  rw [abs_of_pos (show 0 < A * A by linarith)] at ea
  rw [abs_of_pos (show 0 < B * B by linarith)] at eb
  generalize H.N.mul af af = a2 at *
  generalize H.N.mul bf bf = b2 at *
  obtain ⟨ea1, ea2⟩ := abs_le.mp ea
  obtain ⟨eb1, eb2⟩ := abs_le.mp eb
  have hUA : U * (A * A) ≤ A * A := by nlinarith
  have hUB : U * (B * B) ≤ B * B := by nlinarith
  have rc := addR H.N fa2 fb2
  have mc := mids (v := V a2 + V b2) (by linarith) (by linarith)
  have ec := rel64 rc mc.1 mc.2.1
  have fc := fin64 rc mc.2.2
  have c1 : ((1 : ℕ) : ℝ) ≤ V (H.N.add a2 b2) := geN (by norm_num) rc (by push_cast; linarith)
  push_cast at c1
  rw [abs_of_pos (show 0 < V a2 + V b2 by linarith)] at ec
  generalize H.N.add a2 b2 = c at *
  obtain ⟨t, et, rt⟩ := sqrtR hH fc (by linarith)
  set w := Real.sqrt (V c) with hw
  have hww : w * w = V c := Real.mul_self_sqrt (by linarith)
  have w0 : 0 ≤ w := Real.sqrt_nonneg _
  have w1 : 1 ≤ w := by rw [hw, Real.one_le_sqrt]; exact c1
  have hqq : q * q = A * A + B * B := by rw [hq]; ring
  have hq1 : 1 ≤ q := by nlinarith
  have hq53 : q ≤ 2 ^ 53 := by
    by_contra hc
    have := mul_self_lt_mul_self (show (0 : ℝ) ≤ 2 ^ 53 by positivity) (not_le.mp hc)
    norm_num at this
    norm_num at hAA2 hBB2
    linarith
  obtain ⟨ec1, ec2⟩ := abs_le.mp ec
  have e3 : U * (A * A) + U * (B * B) = U * (q * q) := by rw [hqq]; ring
  have e4 : U * (q * q) ≤ 1 / 100000 * (q * q) := mul_le_mul_of_nonneg_right hUs' (by positivity)
  have hUab : U * (V a2 + V b2) ≤ U * (q * q) * 1.01 := by
    have h3 : V a2 + V b2 ≤ q * q * 1.01 := by linarith
    calc _ ≤ U * (q * q * 1.01) := mul_le_mul_of_nonneg_left h3 hU.le
      _ = _ := by ring
  have hd : |w * w - q * q| ≤ 2.01 * U * (q * q) := by
    rw [hww, abs_le]; constructor <;> linarith
  have hd2 : |w - q| * q ≤ 2.01 * U * (q * q) := by
    calc |w - q| * q ≤ |w - q| * (w + q) := mul_le_mul_of_nonneg_left (by linarith) (abs_nonneg _)
      _ = |w * w - q * q| := by rw [← abs_of_pos (show 0 < w + q by linarith), ← abs_mul]; congr 1; ring
      _ ≤ _ := hd
  have hd3 : |w - q| ≤ 2.01 * U * q := by
    have : |w - q| * q ≤ (2.01 * U * q) * q := by linarith
    exact le_of_mul_le_mul_right this hq0
  have hUq : U * q ≤ 1 := by
    calc U * q ≤ U * 2 ^ 53 := mul_le_mul_of_nonneg_left hq53 hU.le
      _ = 1 := by unfold U; norm_num
  have hd4 : |w - q| ≤ 2.01 := by linarith
  obtain ⟨d1, d2⟩ := abs_le.mp hd4
  have hw54 : w ≤ 2 ^ 54 := by linarith
  have mw := mids w1 (by linarith)
  have et2 := rel64 rt mw.1 mw.2.1
  rw [abs_of_pos (show 0 < w by linarith)] at et2
  have hUw : U * w ≤ 1.01 := by
    have h1 : U * w ≤ U * q + U * 2.01 := by rw [← mul_add]; exact mul_le_mul_of_nonneg_left (by linarith) hU.le
    linarith
  obtain ⟨e1, e2⟩ := abs_le.mp et2
  have ft := fin64 rt mw.2.2
  have t1 : ((1 : ℕ) : ℝ) ≤ V t := geN (by norm_num) rt (by push_cast; exact w1)
  push_cast at t1
  have tq1 : (1 : ℚ) ≤ f64.val t := by rw [← f64.valK_cast] at t1; exact_mod_cast t1
  have tq2 : f64.val t < 2 ^ 64 := by
    have : V t < 2 ^ 64 := by linarith
    rw [← f64.valK_cast] at this; exact_mod_cast this
  obtain ⟨r, er, hr⟩ := hH.toU64 t ft (by linarith) tq2
  have f1 : ((r.toNat : ℤ) : ℚ) ≤ f64.val t := by rw [hr]; exact Int.floor_le _
  have f2 : f64.val t < ((r.toNat : ℤ) : ℚ) + 1 := by rw [hr]; exact Int.lt_floor_add_one _
  have f1' : (r.toNat : ℝ) ≤ V t := by rw [← f64.valK_cast]; exact_mod_cast f1
  have f2' : V t < (r.toNat : ℝ) + 1 := by rw [← f64.valK_cast]; exact_mod_cast f2
  refine ⟨t, r, et, er, ?_, ?_, ?_⟩
  · have : (1 : ℤ) ≤ r.toNat := by rw [hr]; exact Int.le_floor.mpr (by exact_mod_cast tq1)
    exact_mod_cast this
  · linarith
  · linarith

theorem bi_shl (z : ℤ) (n : ℕ) (k : ℤ) (hk : BitVec.twoPow f64.w n = bi k) : bi z <<< n = bi (z * k) := by
  rw [BitVec.shiftLeft_eq_mul_twoPow, hk, ← BitVec.ofInt_mul]

theorem bi_not (z : ℤ) : bi z ^^^ BitVec.allOnes f64.w = bi (-z - 1) := by
  rw [BitVec.xor_allOnes, BitVec.not_eq_neg_add, ← BitVec.ofInt_neg, show (1#f64.w) = bi 1 from rfl, ← ofInt_sub']

/-- `as_hypot_denorm` after the first approximation: `d` is four times the remainder -/
def denTail (N : FPU f64) (rm d : BitVec f64.w) : M (BitVec f64.w) := do
  let sd := d.sshiftRight 63
  let um ← subI64C (rm ^^^ sd) sd
  let drm ← addI64 sd 1#f64.w
  let dd ← addI64 (um <<< 3) 4#f64.w
  let rm ← subC rm drm
  let drm ← addI64 drm sd
  let (rm, d, pd) ← denLoop drm 64 rm d dd
  let pd ← addI64 (sd &&& d) (~~~sd &&& pd)
  denRound N rm pd

theorem denorm_eq {H : HypotOps} {a b t rm : BitVec f64.w}
    (ht : H.sqrt (H.N.add (H.N.mul (H.C.cast a) (H.C.cast a)) (H.N.mul (H.C.cast b) (H.C.cast b))) = .ok t) (hr : H.toU64 t = .ok rm) :
    denorm H a b = denTail H.N rm ((a <<< 1) * (a <<< 1) - (rm <<< 1) * (rm <<< 1) + (b <<< 1) * (b <<< 1)) := by
  unfold denorm denTail
  dsimp only
  rw [shlC, shlC, if_pos (show 1 < f64.w by decide), if_pos (show 1 < f64.w by decide), ok_bind, ok_bind, ht, ok_bind, hr, ok_bind, shlC,
    if_pos (show 1 < f64.w by decide), ok_bind]

theorem ab62 {z : ℤ} (h1 : -2 ^ 62 < z) (h2 : z < 2 ^ 62) : |z| < 2 ^ 63 := by
  rw [abs_lt]; constructor <;> omega

theorem subCi {ρ k : ℤ} (hk : 0 ≤ k) (hk' : k ≤ ρ) (hρ : ρ < 2 ^ 62) : subC (bi ρ) (bi k) = .ok (bi (ρ - k)) := by
  obtain ⟨r, rfl⟩ := Int.eq_ofNat_of_zero_le (hk.trans hk')
  obtain ⟨j, rfl⟩ := Int.eq_ofNat_of_zero_le hk
  rw [← bi_nat, ← bi_nat, subE (by omega) (by omega), bi_nat]
  exact congrArg (fun z => Except.ok (bi z)) (by omega)

theorem tp3 : BitVec.twoPow f64.w 3 = bi 8 := by decide
theorem tp1 : BitVec.twoPow f64.w 1 = bi 2 := by decide
theorem ones : BitVec.allOnes f64.w = bi (-1) := by decide
theorem zer : (0#f64.w) = bi 0 := rfl
theorem oneb : (1#f64.w) = bi 1 := rfl
theorem fourb : (4#f64.w) = bi 4 := rfl

theorem denTail_spec (N : FPU f64) {S s ρ : ℤ} (s0 : 0 ≤ s) (s3 : s < 2 ^ 53) (s1 : s * s ≤ S) (s2 : S < (s + 1) * (s + 1))
    (hρ1 : 1 ≤ ρ) (g1 : s - 5 < ρ) (g2 : ρ < s + 5) : denTail N (bi ρ) (bi (4 * (S - ρ * ρ))) = .ok (bi (nearSqrt S s)) := by
  have hbound : ∀ q, s - 6 ≤ q → q ≤ s + 6 → |4 * (S - q * q)| < 2 ^ 63 := by
    intro q h1 h2
    obtain ⟨i, rfl⟩ : ∃ i, q = s + i := ⟨q - s, by ring⟩
    have e1 : (s + i) * (s + i) = s * s + 2 * (s * i) + i * i := by ring
    have e2 : (s + 1) * (s + 1) = s * s + 2 * s + 1 := by ring
    have l1 : s * i ≤ s * 6 := mul_le_mul_of_nonneg_left (by omega) s0
    have l2 : s * (-6) ≤ s * i := mul_le_mul_of_nonneg_left (by omega) s0
    have l3 : i * i ≤ 36 := by nlinarith
    have l4 : 0 ≤ i * i := mul_self_nonneg i
    rw [abs_lt]
    constructor <;> omega
  have b0 := hbound ρ (by omega) (by omega)
  have bs := hbound s (by omega) (by omega)
  have hρ : ρ < 2 ^ 54 := by omega
  unfold denTail
  dsimp only
  rw [sar63, bi_toInt b0]
  by_cases hneg : 4 * (S - ρ * ρ) < 0
  · have hsρ : s < ρ := by
      by_contra hc
      have := mul_self_le_mul_self (show 0 ≤ ρ by omega) (not_lt.mp hc)
      omega
    have hl := denDown s0 s1 s2 64 ρ hsρ (by omega) (fun q h1 h2 => hbound q (by omega) (by omega))
    rw [if_pos hneg, bi_not, ones, subI (ab62 (by omega) (by omega)) (by norm_num) (ab62 (by omega) (by omega)), ok_bind, oneb,
      addI (by norm_num) (by norm_num) (by norm_num), ok_bind, fourb, bi_shl _ 3 8 tp3,
      addI (ab62 (by omega) (by omega)) (by norm_num) (ab62 (by omega) (by omega)), ok_bind,
      show (-1 : ℤ) + 1 = 0 by norm_num, subCi (le_refl _) (by omega) (by omega), ok_bind, addI (by norm_num) (by norm_num) (by norm_num), ok_bind,
      show (0 : ℤ) + -1 = -1 by norm_num, show ρ - 0 = ρ by ring, show (-ρ - 1 - -1) * 8 + 4 = -(8 * ρ) + 4 by ring, hl, ok_bind]
    dsimp only
    rw [← ones, BitVec.allOnes_and, BitVec.not_allOnes, BitVec.zero_and, zer, addI bs (by norm_num) (by rw [add_zero]; exact bs), ok_bind, add_zero]
    exact denRound_spec N s0 (by omega) s1 s2
  · have hsρ : ρ ≤ s := by
      by_contra hc
      have := mul_self_le_mul_self (show 0 ≤ s + 1 by omega) (show s + 1 ≤ ρ by omega)
      omega
    have hl := denUp s1 s2 64 ρ (by omega) hsρ (by omega) (fun q h1 h2 => hbound q (by omega) (by omega))
    rw [if_neg hneg, BitVec.xor_zero, zer, subI (ab62 (by omega) (by omega)) (by norm_num) (ab62 (by omega) (by omega)), ok_bind, oneb,
      addI (by norm_num) (by norm_num) (by norm_num), ok_bind, fourb, bi_shl _ 3 8 tp3,
      addI (ab62 (by omega) (by omega)) (by norm_num) (ab62 (by omega) (by omega)), ok_bind,
      show (0 : ℤ) + 1 = 1 by norm_num, subCi (by norm_num) (by omega) (by omega), ok_bind, addI (by norm_num) (by norm_num) (by norm_num), ok_bind,
      show (1 : ℤ) + 0 = 1 by norm_num, show (ρ - 0) * 8 + 4 = 8 * ρ + 4 by ring, hl, ok_bind]
    dsimp only
    rw [← zer, BitVec.zero_and, BitVec.not_zero, BitVec.allOnes_and, zer, addI (by norm_num) bs (by rw [zero_add]; exact bs), ok_bind, zero_add]
    exact denRound_spec N s0 (by omega) s1 s2

theorem isqrt {S : ℤ} (hS : 0 < S) (hS2 : S < 2 ^ 105) : ∃ s : ℤ, 0 ≤ s ∧ s < 2 ^ 53 ∧ s * s ≤ S ∧ S < (s + 1) * (s + 1) ∧
    (s : ℝ) ≤ Real.sqrt S ∧ Real.sqrt S < s + 1 := by
  have hSr : (0 : ℝ) < S := by exact_mod_cast hS
  have q0 : 0 < Real.sqrt (S : ℝ) := Real.sqrt_pos.mpr hSr
  have f1 : ((⌊Real.sqrt (S : ℝ)⌋ : ℤ) : ℝ) ≤ Real.sqrt S := Int.floor_le _
  have f2 : Real.sqrt S < (⌊Real.sqrt (S : ℝ)⌋ : ℤ) + 1 := Int.lt_floor_add_one _
  have s0 : 0 ≤ ⌊Real.sqrt (S : ℝ)⌋ := Int.floor_nonneg.mpr q0.le
  generalize ⌊Real.sqrt (S : ℝ)⌋ = s at *
  have hqq : Real.sqrt (S : ℝ) * Real.sqrt S = S := Real.mul_self_sqrt hSr.le
  have s1 : s * s ≤ S := by
    have : (s : ℝ) * s ≤ S := by rw [← hqq]; exact mul_self_le_mul_self (by exact_mod_cast s0) f1
    exact_mod_cast this
  refine ⟨s, s0, ?_, s1, ?_, f1, f2⟩
  · by_contra hc
    have := mul_self_le_mul_self (show (0 : ℤ) ≤ 2 ^ 53 by norm_num) (not_lt.mp hc)
    norm_num at this hS2
    omega
  · have : (S : ℝ) < (s + 1) * (s + 1) := by rw [← hqq]; exact mul_self_lt_mul_self q0.le f2
    exact_mod_cast this

theorem denorm_spec {H : HypotOps} (hH : H.Lawful) {A B : ℕ} (ha : A < 2 ^ 52) (hb : B < 2 ^ 52) (ha0 : 0 < A) (hb0 : 0 < B) :
    ∃ s : ℤ, 0 ≤ s ∧ s < 2 ^ 53 ∧ s * s ≤ (A : ℤ) ^ 2 + (B : ℤ) ^ 2 ∧ (A : ℤ) ^ 2 + (B : ℤ) ^ 2 < (s + 1) * (s + 1) ∧
      denorm H (BitVec.ofNat f64.w A) (BitVec.ofNat f64.w B) = .ok (bi (nearSqrt ((A : ℤ) ^ 2 + (B : ℤ) ^ 2) s)) := by
  have hSr : (0 : ℝ) < (A : ℝ) ^ 2 + (B : ℝ) ^ 2 := by positivity
  have ta : (BitVec.ofNat f64.w A).toNat = A := toNat64 (by omega)
  have tb : (BitVec.ofNat f64.w B).toNat = B := toNat64 (by omega)
  obtain ⟨t, r, et, er, r1, r2, r3⟩ := den_sqrt hH (a := BitVec.ofNat f64.w A) (b := BitVec.ofNat f64.w B) (by rw [ta]; exact ha) (by rw [tb]; exact hb)
    (by rw [ta]; exact ha0) (by rw [tb]; exact hb0) (q := Real.sqrt ((A : ℝ) ^ 2 + (B : ℝ) ^ 2))
    (Real.sqrt_pos.mpr hSr) (by rw [ta, tb]; exact Real.mul_self_sqrt hSr.le)
  have hA2 : (A : ℤ) ^ 2 < 2 ^ 104 := by exact_mod_cast (show A ^ 2 < 2 ^ 104 by nlinarith)
  have hB2 : (B : ℤ) ^ 2 < 2 ^ 104 := by exact_mod_cast (show B ^ 2 < 2 ^ 104 by nlinarith)
  obtain ⟨s, s0, s3, s1, s2, f1, f2⟩ := isqrt (S := (A : ℤ) ^ 2 + (B : ℤ) ^ 2) (by positivity) (by
    norm_num at hA2 hB2 ⊢; omega)
  refine ⟨s, s0, s3, s1, s2, ?_⟩
  rw [denorm_eq et er]
  push_cast at f1 f2
  have hr : r = bi (r.toNat : ℤ) := by rw [← bi_nat, BitVec.ofNat_toNat, BitVec.setWidth_eq]
  obtain ⟨ρ, hρ⟩ : ∃ ρ : ℤ, ρ = r.toNat := ⟨_, rfl⟩
  have hρr : (ρ : ℝ) = r.toNat := by rw [hρ]; push_cast; rfl
  rw [← hρ] at hr
  rw [← hρr] at r2 r3
  have hρ1 : 1 ≤ ρ := by rw [hρ]; exact_mod_cast r1
  clear hρ hρr r1 er
  rw [hr, bi_nat, bi_nat, bi_shl _ 1 2 tp1, bi_shl _ 1 2 tp1, bi_shl _ 1 2 tp1]
  have hD : bi ((A : ℤ) * 2) * bi ((A : ℤ) * 2) - bi (ρ * 2) * bi (ρ * 2) + bi ((B : ℤ) * 2) * bi ((B : ℤ) * 2) =
      bi (4 * ((A : ℤ) ^ 2 + (B : ℤ) ^ 2 - ρ * ρ)) := by
    rw [← BitVec.ofInt_mul, ← BitVec.ofInt_mul, ← BitVec.ofInt_mul, ← ofInt_sub', ← BitVec.ofInt_add]
    exact congrArg bi (by ring)
  rw [hD]
  refine denTail_spec H.N s0 s3 s1 s2 hρ1 ?_ ?_
  · have : ((s - 5 : ℤ) : ℝ) < ρ := by push_cast; linarith
    exact_mod_cast this
  · have : (ρ : ℝ) < ((s + 5 : ℤ) : ℝ) := by push_cast; linarith
    exact_mod_cast this

end Hypot
end Verif
