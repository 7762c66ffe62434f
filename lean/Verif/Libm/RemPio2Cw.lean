import Verif.Libm.RemPio2Main
import Verif.Libm.RemPio2Top
/-! # Reduction of arguments of medium size: the method of Cody and Waite -/
namespace Verif
open Fmt

/-- `f64` value as a real -/
local notation "V" => Fmt.valK f64 ℝ

namespace Pio2
open Hypot

/-! ### Rounding on a grid -/

theorem rnd {v : ℝ} {r : D} (h : f64.Rounds v r) {j : ℤ} (hg : Mul2 j v) (hj : -1022 ≤ j) (hv : |v| ≤ 2 ^ (200 : ℤ)) :
    ∃ u, Fv r u ∧ |u - v| ≤ U * |v| ∧ Mul2 j u := by
  have hbig : (2 : ℝ) ^ (200 : ℤ) ≤ 2 ^ ((f64.bias : ℤ) + 1) := by rw [b64]; exact zpow_le_zpow_right₀ (by norm_num) (by norm_num)
  have hv10 : |v| ≤ 2 ^ (1000 : ℤ) := hv.trans (zpow_le_zpow_right₀ (by norm_num) (by norm_num))
  refine ⟨_, ⟨fin64 h hv10, rfl⟩, ?_, h.grid f64 hg (by rw [b64, s64]; omega) (hv.trans hbig)⟩
  by_cases h0 : v = 0
  · rw [h0] at h ⊢
    rw [h.exactR f64 f64.rp_zero (by rw [abs_zero]; positivity)]
    simp
  · refine rel64 h ?_ (hv.trans (zpow_le_zpow_right₀ (by norm_num) (by norm_num)))
    obtain ⟨m, hm⟩ := hg
    have hm0 : m ≠ 0 := fun hc => h0 (by rw [hm, hc]; simp)
    have : (1 : ℝ) ≤ |(m : ℝ)| := by
      have : (1 : ℤ) ≤ |m| := Int.one_le_abs hm0
      exact_mod_cast this
    rw [hm, abs_mul, abs_of_pos (show (0 : ℝ) < 2 ^ j by positivity)]
    calc (2 : ℝ) ^ (-1022 : ℤ) ≤ 2 ^ j := zpow_le_zpow_right₀ (by norm_num) hj
      _ ≤ |(m : ℝ)| * 2 ^ j := by nlinarith [show (0 : ℝ) < 2 ^ j by positivity]

theorem Fv.addR {N : FPU f64} {a b : D} {v w : ℝ} (ha : Fv a v) (hb : Fv b w) : f64.Rounds (v + w) (N.add a b) := by
  have := Hypot.addR N ha.fin hb.fin; rwa [ha.val, hb.val] at this
theorem Fv.subR {N : FPU f64} {a b : D} {v w : ℝ} (ha : Fv a v) (hb : Fv b w) : f64.Rounds (v - w) (N.sub a b) := by
  have := Hypot.subR N ha.fin hb.fin; rwa [ha.val, hb.val] at this
theorem Fv.mulR {N : FPU f64} {a b : D} {v w : ℝ} (ha : Fv a v) (hb : Fv b w) : f64.Rounds (v * w) (N.mul a b) := by
  have := Hypot.mulR N ha.fin hb.fin; rwa [ha.val, hb.val] at this

theorem abs_fv {b : D} {v : ℝ} (h : Fv b v) : |v| = f64.magVal ℝ (f64.mag b) := by rw [← h.val, f64.absvR]

theorem magVal_pow2 {m : ℕ} (hm : 1 ≤ m) : f64.magVal ℝ (m * 2 ^ 52) = 2 ^ ((m : ℤ) - 1023) := by
  have h := f64.magVal_at (E := m) (m := 2 ^ 52) hm (by rw [s64]; norm_num) (Or.inl (by rw [s64]))
  rw [s64] at h
  have e : (m - 1) * 2 ^ 52 + 2 ^ 52 = m * 2 ^ 52 := by
    obtain ⟨k, rfl⟩ : ∃ k, m = k + 1 := ⟨m - 1, by omega⟩
    rw [Nat.add_sub_cancel]; ring
  rw [e] at h
  rw [← f64.magVal_cast, h, b64]
  push_cast
  rw [show (4503599627370496 : ℝ) = 2 ^ (52 : ℤ) by norm_num, ← zpow_add₀ (by norm_num)]
  congr 1
  ring

theorem expo_eq (b : D) : expo b = ((f64.mag b / 2 ^ 52 : ℕ) : ℤ) := by
  unfold expo
  congr 1
  rw [Nat.shiftRight_eq_div_pow, show 0x7ff = 2 ^ 11 - 1 from rfl, Nat.and_two_pow_sub_one_eq_mod]
  show b.toNat / 2 ^ 52 % 2 ^ 11 = b.toNat % 2 ^ (11 + 52) / 2 ^ 52
  have : b.toNat < 2 ^ 64 := b.isLt
  omega

/-- the exponent field decides the comparison with a power of two -/
theorem expo_lt {b : D} {v : ℝ} (h : Fv b v) {k : ℤ} (hk : -1022 ≤ k) : expo b < k + 1023 ↔ |v| < 2 ^ k := by
  obtain ⟨m, hm⟩ : ∃ m : ℕ, (m : ℤ) = k + 1023 := ⟨(k + 1023).toNat, by omega⟩
  rw [expo_eq, abs_fv h, ← hm, show k = (m : ℤ) - 1023 by omega, ← magVal_pow2 (by omega), f64.magValR_lt_iff, Nat.cast_lt,
    Nat.div_lt_iff_lt_mul (by positivity)]

/-- a number of at least `2^k` is a multiple of `2^(k-52)` -/
theorem mul2_of_ge {b : D} {v : ℝ} (h : Fv b v) {k : ℤ} (hv : 2 ^ k ≤ |v|) : Mul2 (k - 52) v := by
  obtain ⟨m, j, h1, h2, h3, h4⟩ := f64.val_dec b
  rw [h.val] at h1
  rw [s64] at h2 h3 h4
  rw [b64] at h3 h4
  refine Mul2.mono ⟨m, h1⟩ ?_
  by_contra hc
  have hlt : |v| < 2 ^ k := by
    rw [h1, abs_mul, abs_of_pos (show (0 : ℝ) < 2 ^ j by positivity)]
    calc |(m : ℝ)| * 2 ^ j < 2 ^ (53 : ℕ) * 2 ^ j := mul_lt_mul_of_pos_right (by exact_mod_cast h2) (by positivity)
      _ = 2 ^ (j + 53) := by rw [← zpow_natCast, ← zpow_add₀ (by norm_num)]; congr 1; push_cast; ring
      _ ≤ 2 ^ k := zpow_le_zpow_right₀ (by norm_num) (by omega)
  linarith

/-- normal form -/
theorem norm_fv {b : D} {v : ℝ} (h : Fv b v) (hv : 2 ^ (-1022 : ℤ) ≤ |v|) :
    ∃ e : ℤ, expo b = e + 1023 ∧ -1022 ≤ e ∧ e ≤ 1023 ∧ 2 ^ e ≤ |v| ∧ |v| < 2 ^ (e + 1) ∧ Mul2 (e - 52) v := by
  obtain ⟨e, he⟩ : ∃ e : ℤ, expo b = e + 1023 := ⟨expo b - 1023, by omega⟩
  have h1 : ¬ expo b < -1022 + 1023 := by rw [expo_lt h (by norm_num), not_lt]; exact hv
  have h2 : expo b ≤ 2046 := by
    rw [expo_eq]
    have h3 : f64.mag b < f64.infRep := h.fin
    have e1 : f64.infRep = 2047 * 2 ^ 52 := by decide +kernel
    rw [e1] at h3
    have := (Nat.div_lt_iff_lt_mul (x := f64.mag b) (k := 2 ^ 52) (y := 2047) (by positivity)).mpr h3
    omega
  have h3 : ¬ expo b < e + 1023 := by omega
  have h4 : expo b < (e + 1) + 1023 := by omega
  rw [expo_lt h (by omega), not_lt] at h3
  rw [expo_lt h (by omega)] at h4
  exact ⟨e, he, by omega, by omega, h3, h4, mul2_of_ge h h3⟩

/-- no double is near a multiple of `π/2` -/
theorem dist_fv {b : D} {v : ℝ} (h : Fv b v) (hv : 1 / 2 ≤ |v|) (P : ℤ) : (2 : ℝ) ^ (-62 : ℤ) ≤ |v * (2 / Real.pi) - P| := by
  have key : ∀ (b : D) (v : ℝ) (P : ℤ), Fv b v → 1 / 2 ≤ v → (2 : ℝ) ^ (-62 : ℤ) ≤ |v * (2 / Real.pi) - P| := by
    intro b v P h hv
    have hv0 : 0 < v := by linarith
    obtain ⟨e, he, e1, e2, e3, e4, m, hm⟩ := norm_fv h (by
      rw [abs_of_pos hv0]
      refine le_trans ?_ hv
      calc (2 : ℝ) ^ (-1022 : ℤ) ≤ 2 ^ (-1 : ℤ) := zpow_le_zpow_right₀ (by norm_num) (by norm_num)
        _ = 1 / 2 := by norm_num)
    rw [abs_of_pos hv0] at e3 e4
    have hem : -1 ≤ e := by
      by_contra hc
      have : (2 : ℝ) ^ (e + 1) ≤ 2 ^ (-1 : ℤ) := zpow_le_zpow_right₀ (by norm_num) (by omega)
      norm_num at this
      linarith
    have hp : (0 : ℝ) < 2 ^ (e - 52) := by positivity
    have hm0 : 0 < m := by
      have : (0 : ℝ) < m * 2 ^ (e - 52) := by rw [← hm]; exact hv0
      have := (mul_pos_iff_of_pos_right hp).mp this
      exact_mod_cast this
    have hm1 : m < 2 ^ 53 := by
      have e5 : (2 : ℝ) ^ (e + 1) = 2 ^ 53 * 2 ^ (e - 52) := by
        rw [← zpow_natCast, ← zpow_add₀ (by norm_num)]; congr 1; push_cast; ring
      rw [hm, e5] at e4
      have := lt_of_mul_lt_mul_right e4 hp.le
      exact_mod_cast this
    have := dist_pio2 (m := m) (j := (e + 1).toNat) (by omega) hm0 hm1 P
    rw [show (((e + 1).toNat : ℕ) : ℤ) - 53 = e - 52 by omega, ← hm] at this
    exact this
  rcases le_or_gt 0 v with h0 | h0
  · exact key b v P h (by rwa [abs_of_nonneg h0] at hv)
  · have := key _ (-v) (-P) h.neg (by rwa [abs_of_neg h0] at hv)
    rw [show -v * (2 / Real.pi) - ((-P : ℤ) : ℝ) = -(v * (2 / Real.pi) - P) by push_cast; ring, abs_neg] at this
    exact this

/-! ### Constants -/

noncomputable def P1 : ℝ := 1686629713 / 2 ^ 30
noncomputable def P1T : ℝ := 4701928774853425 / 2 ^ 86
noncomputable def P2 : ℝ := 2242054355 / 2 ^ 65
noncomputable def P2T : ℝ := 5376105825661043 / 2 ^ 121
noncomputable def P3 : ℝ := 160220439 / 2 ^ 96
noncomputable def P3T : ℝ := 7744522442262977 / 2 ^ 156
noncomputable def IP : ℝ := 5734161139222659 / 2 ^ 53

theorem fv_P1 : Fv PIO2_1 P1 := by
  have := fv_const (b := PIO2_1) (q := 1686629713 / 2 ^ 30) (by decide +kernel) (by decide +kernel); push_cast at this; exact this
theorem fv_P1T : Fv PIO2_1T P1T := by
  have := fv_const (b := PIO2_1T) (q := 4701928774853425 / 2 ^ 86) (by decide +kernel) (by decide +kernel); push_cast at this; exact this
theorem fv_P2 : Fv PIO2_2 P2 := by
  have := fv_const (b := PIO2_2) (q := 2242054355 / 2 ^ 65) (by decide +kernel) (by decide +kernel); push_cast at this; exact this
theorem fv_P2T : Fv PIO2_2T P2T := by
  have := fv_const (b := PIO2_2T) (q := 5376105825661043 / 2 ^ 121) (by decide +kernel) (by decide +kernel); push_cast at this; exact this
theorem fv_P3 : Fv PIO2_3 P3 := by
  have := fv_const (b := PIO2_3) (q := 160220439 / 2 ^ 96) (by decide +kernel) (by decide +kernel); push_cast at this; exact this
theorem fv_P3T : Fv PIO2_3T P3T := by
  have := fv_const (b := PIO2_3T) (q := 7744522442262977 / 2 ^ 156) (by decide +kernel) (by decide +kernel); push_cast at this; exact this
theorem fv_IP : Fv INV_PIO2 IP := by
  have := fv_const (b := INV_PIO2) (q := 5734161139222659 / 2 ^ 53) (by decide +kernel) (by decide +kernel); push_cast at this; exact this
theorem fv_TO : Fv TO_INT (3 * 2 ^ 51) := by
  have := fv_const (b := TO_INT) (q := 3 * 2 ^ 51) (by decide +kernel) (by decide +kernel); push_cast at this; exact this

theorem mul2_div (m : ℤ) (k : ℕ) : Mul2 (-(k : ℤ)) ((m : ℝ) / 2 ^ k) := ⟨m, by rw [zpow_neg, zpow_natCast, div_eq_mul_inv]⟩

theorem g_P1 : Mul2 (-30) P1 := by have := mul2_div 1686629713 30; push_cast at this; exact this
theorem g_P1T : Mul2 (-86) P1T := by have := mul2_div 4701928774853425 86; push_cast at this; exact this
theorem g_P2 : Mul2 (-65) P2 := by have := mul2_div 2242054355 65; push_cast at this; exact this
theorem g_P2T : Mul2 (-121) P2T := by have := mul2_div 5376105825661043 121; push_cast at this; exact this
theorem g_P3 : Mul2 (-96) P3 := by have := mul2_div 160220439 96; push_cast at this; exact this
theorem g_P3T : Mul2 (-156) P3T := by have := mul2_div 7744522442262977 156; push_cast at this; exact this
theorem g_IP : Mul2 (-53) IP := by have := mul2_div 5734161139222659 53; push_cast at this; exact this

theorem c_P1 : |Real.pi / 2 - P1 - P1T| ≤ 1 / 2 ^ 87 := by
  have := pi_tight
  unfold P1 P1T
  norm_num at this ⊢
  rw [abs_le]
  constructor <;> linarith [this.1, this.2]
theorem c_P2 : |Real.pi / 2 - P1 - P2 - P2T| ≤ 1 / 2 ^ 122 := by
  have := pi_tight
  unfold P1 P2 P2T
  norm_num at this ⊢
  rw [abs_le]
  constructor <;> linarith [this.1, this.2]
theorem c_P3 : |Real.pi / 2 - P1 - P2 - P3 - P3T| ≤ 1 / 2 ^ 157 := by
  have := pi_tight
  unfold P1 P2 P3 P3T
  norm_num at this ⊢
  rw [abs_le]
  constructor <;> linarith [this.1, this.2]
theorem c_IP : |2 / Real.pi - IP| ≤ 1 / 2 ^ 54 := by
  have := pi_tight
  have hp := Real.pi_pos
  have e : 2 / Real.pi - IP = (2 - IP * Real.pi) / Real.pi := by field_simp
  have h3 := pi_gt3
  rw [e, abs_div, abs_of_pos hp, div_le_iff₀ hp]
  unfold IP
  norm_num at this ⊢
  rw [abs_le]
  constructor <;> linarith [this.1, this.2]

/-! ### The last step: the difference as a sum of two numbers -/

theorem cw_final {y0 d y1 : D} {ρ ω : ℝ} (hρ : Mul2 (-300) ρ) (hω : Mul2 (-300) ω) (bρ : |ρ| ≤ 8) (bω : |ω| ≤ 8)
    (h0 : f64.Rounds (ρ - ω) y0) (hd : ∀ v, Fv y0 v → f64.Rounds (ρ - v) d) (h1 : ∀ v, Fv d v → f64.Rounds (v - ω) y1) :
    ∃ υ υ1, Fv y0 υ ∧ Fv y1 υ1 ∧ |υ + υ1 - (ρ - ω)| ≤ 1.01 * U * |ω| + 4 * U ^ 2 * |ρ - ω| ∧ |υ1| ≤ 1.01 * U * (|ρ - ω| + |ω|) ∧
      |υ - (ρ - ω)| ≤ U * |ρ - ω| := by
  have hU := U_pos
  have hU1 := U_le
  have big : (16 : ℝ) ≤ 2 ^ (200 : ℤ) := by norm_num
  have h2 : |ρ - ω| ≤ 16 := (abs_sub _ _).trans (by linarith)
  obtain ⟨υ, f0, e0, g0⟩ := rnd h0 (hρ.sub hω) (by norm_num) (h2.trans big)
  have h3 : |ρ - υ| ≤ |ω| + U * |ρ - ω| := by
    rw [show ρ - υ = ω - (υ - (ρ - ω)) by ring]
    exact (abs_sub _ _).trans (by linarith)
  have h3' : |ρ - υ| ≤ 10 := by nlinarith [abs_nonneg (ρ - ω)]
  obtain ⟨δ, fd, ed, gd⟩ := rnd (hd υ f0) (hρ.sub g0) (by norm_num) (h3'.trans (by norm_num))
  have h4 : |δ - ω| ≤ U * |ρ - ω| + U * |ρ - υ| := by
    rw [show δ - ω = (δ - (ρ - υ)) - (υ - (ρ - ω)) by ring]
    exact (abs_sub _ _).trans (by linarith)
  have h4' : |δ - ω| ≤ 10 := by nlinarith [abs_nonneg (ρ - ω), abs_nonneg (ρ - υ)]
  obtain ⟨υ1, f1, e1, g1⟩ := rnd (h1 δ fd) (gd.sub hω) (by norm_num) (h4'.trans (by norm_num))
  have a1 := abs_nonneg (ρ - ω)
  have a2 := abs_nonneg ω
  have hUU : U * U ≤ 1 / 2 ^ 40 * U := mul_le_mul_of_nonneg_right hU1 hU.le
  have t1 : U * |ρ - υ| ≤ U * |ω| + U ^ 2 * |ρ - ω| := by nlinarith
  have t2 : U * |δ - ω| ≤ U ^ 2 * |ρ - ω| + U ^ 2 * |ω| + U ^ 3 * |ρ - ω| := by nlinarith
  have t3 : U ^ 3 * |ρ - ω| ≤ 1 / 2 ^ 40 * (U ^ 2 * |ρ - ω|) := by
    have : U ^ 3 = U * U ^ 2 := by ring
    rw [this, mul_assoc]
    exact mul_le_mul_of_nonneg_right hU1 (by positivity)
  have t4 : U ^ 2 * |ω| ≤ 1 / 2 ^ 40 * (U * |ω|) := by
    rw [pow_two, mul_assoc]
    exact mul_le_mul_of_nonneg_right hU1 (by positivity)
  have t5 : U ^ 2 * |ρ - ω| ≤ 1 / 2 ^ 40 * (U * |ρ - ω|) := by
    rw [pow_two, mul_assoc]
    exact mul_le_mul_of_nonneg_right hU1 (by positivity)
  have p1 : 0 ≤ U * |ω| := by positivity
  have p2 : 0 ≤ U ^ 2 * |ρ - ω| := by positivity
  have p3 : 0 ≤ U * |ρ - ω| := by positivity
  refine ⟨υ, υ1, f0, f1, ?_, ?_, e0⟩
  · rw [show υ + υ1 - (ρ - ω) = (υ1 - (δ - ω)) + (δ - (ρ - υ)) by ring]
    refine (abs_add_le _ _).trans ?_
    norm_num at *
    nlinarith
  · rw [show υ1 = (υ1 - (δ - ω)) + (δ - ω) by ring]
    refine (abs_add_le _ _).trans ?_
    norm_num at *
    nlinarith

section
variable {N : FPU f64}

/-- a further round: `t - k p - k pt` as `r - w` -/
theorem cwRound_spec {fn t p pt : D} {K : ℤ} {τ P PT : ℝ} {j : ℤ} (hfn : Fv fn K) (ht : Fv t τ) (hp : Fv p P) (hpt : Fv pt PT) (gt : Mul2 j τ)
    (gp : Mul2 j P) (gpt : Mul2 (-300) PT) (hj1 : -300 ≤ j) (hj2 : j ≤ 0) (hPT : 0 ≤ PT)
    (bK : |(K : ℝ)| * |P| ≤ 2 ^ (j + 52)) (bt : |τ - K * P| ≤ 1) (bj : U ≤ 2 ^ (j + 52)) (bPT : |(K : ℝ)| * PT ≤ 1) :
    ∃ ρ ω, Fv (cwRound N fn t p pt).1 ρ ∧ Fv (cwRound N fn t p pt).2 ω ∧ Mul2 j ρ ∧ Mul2 (-300) ω ∧
      |ρ - (τ - K * P)| ≤ U * |τ - K * P| ∧ (|τ - K * P| ≤ 2 ^ (j + 53) → ρ = τ - K * P) ∧
      |(ρ - ω) - (τ - K * P - K * PT)| ≤ 2.01 * U * (|(K : ℝ)| * PT) + 1.01 * U ^ 2 * |τ - K * P| ∧
      |ω| ≤ 1.01 * (|(K : ℝ)| * PT + U * |τ - K * P|) := by
  have hU := U_pos
  have hU1 := U_le
  have e53 : (2 : ℝ) ^ (j + 53) = 2 * 2 ^ (j + 52) := by
    rw [show j + 53 = (j + 52) + 1 by ring, zpow_add_one₀ (by norm_num)]; ring
  have gK : Mul2 0 (K : ℝ) := ⟨K, by simp⟩
  have gKP : Mul2 j ((K : ℝ) * P) := by have := gK.mul gp; rwa [zero_add] at this
  have gKPT : Mul2 (-300) ((K : ℝ) * PT) := by have := gK.mul gpt; rwa [zero_add] at this
  have p52 : (0 : ℝ) < 2 ^ (j + 52) := by positivity
  have fw : Fv (N.mul fn p) (K * P) := hfn.mul N hp (j := j) gKP (by rw [abs_mul]; linarith) (by omega) (by omega)
  have big : (2 : ℝ) ≤ 2 ^ (200 : ℤ) := by norm_num
  obtain ⟨ρ, fr, er, gr⟩ := rnd (ht.subR fw (N := N)) (gt.sub gKP) (by omega) (by linarith)
  have hτρ : |τ - ρ| ≤ 2 ^ (j + 53) := by
    rw [show τ - ρ = K * P - (ρ - (τ - K * P)) by ring]
    refine (abs_sub _ _).trans ?_
    rw [abs_mul, e53]
    nlinarith [abs_nonneg (τ - K * P)]
  have fd : Fv (N.sub t (N.sub t (N.mul fn p))) (τ - ρ) := ht.sub N fr (j := j) (gt.sub gr) hτρ (by omega) (by omega)
  have hε : |τ - ρ - K * P| ≤ U * |τ - K * P| := by
    rw [show τ - ρ - K * P = -(ρ - (τ - K * P)) by ring, abs_neg]; exact er
  have fe : Fv (N.sub (N.sub t (N.sub t (N.mul fn p))) (N.mul fn p)) (τ - ρ - K * P) :=
    fd.sub N fw (j := j) ((gt.sub gr).sub gKP) (by rw [e53]; nlinarith [abs_nonneg (τ - K * P)]) (by omega) (by omega)
  obtain ⟨μ, fm, em, gm⟩ := rnd (hfn.mulR hpt (N := N)) gKPT (by omega) (by rw [abs_mul, abs_of_nonneg hPT]; linarith)
  rw [abs_mul, abs_of_nonneg hPT] at em
  have hμ : |μ| ≤ (1 + U) * (|(K : ℝ)| * PT) := by
    rw [show μ = (μ - K * PT) + K * PT by ring]
    refine (abs_add_le _ _).trans ?_
    rw [abs_mul (K : ℝ) PT, abs_of_nonneg hPT]
    linarith
  generalize hA : |(K : ℝ)| * PT = A at *
  have hA0 : 0 ≤ A := by rw [← hA]; positivity
  generalize hG : |τ - K * P| = G at *
  have hG0 : 0 ≤ G := by rw [← hG]; positivity
  have hμε : |μ - (τ - ρ - K * P)| ≤ (1 + U) * A + U * G := (abs_sub _ _).trans (by linarith)
  have gε : Mul2 (-300) (τ - ρ - K * P) := ((gt.sub gr).sub gKP).mono (by omega)
  obtain ⟨ω, fω, eω, gω⟩ := rnd (fm.subR fe (N := N)) (gm.sub gε) (by omega) (by nlinarith)
  have q1 : U * ((1 + U) * A + U * G) ≤ U * A + 1 / 2 ^ 40 * (U * A) + U ^ 2 * G := by
    have : U * (U * A) ≤ 1 / 2 ^ 40 * (U * A) := mul_le_mul_of_nonneg_right hU1 (by positivity)
    nlinarith
  have q2 : U * |μ - (τ - ρ - K * P)| ≤ U * ((1 + U) * A + U * G) := mul_le_mul_of_nonneg_left hμε hU.le
  have q3 : 0 ≤ U * A := by positivity
  have q4 : 0 ≤ U ^ 2 * G := by positivity
  have q5 : U * A ≤ 1 / 2 ^ 40 * A := mul_le_mul_of_nonneg_right hU1 hA0
  have q6 : U ^ 2 * G ≤ 1 / 2 ^ 40 * (U * G) := by rw [pow_two, mul_assoc]; exact mul_le_mul_of_nonneg_right hU1 (by positivity)
  have q7 : 0 ≤ U * G := by positivity
  refine ⟨ρ, ω, fr, fω, gr, gω, er, ?_, ?_, ?_⟩
  · intro h
    have := (ht.sub N fw (j := j) (gt.sub gKP) (hG ▸ h) (by omega) (by omega)).val
    rw [← this, fr.val]
  · rw [show (ρ - ω) - (τ - K * P - K * PT) = -(ω - (μ - (τ - ρ - K * P))) - (μ - K * PT) by ring]
    refine (abs_sub _ _).trans ?_
    rw [abs_neg]
    norm_num at *
    nlinarith
  · rw [show ω = (ω - (μ - (τ - ρ - K * P))) + (μ - (τ - ρ - K * P)) by ring]
    refine (abs_add_le _ _).trans ?_
    norm_num at *
    nlinarith

end
end Pio2
end Verif
