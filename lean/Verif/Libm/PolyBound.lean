import Mathlib.Data.Real.Basic
import Mathlib.Data.Rat.Cast.Order
import Mathlib.Analysis.Complex.Trigonometric
import Mathlib.Analysis.Complex.Exponential
import Mathlib.Tactic.Linarith
import Mathlib.Tactic.Positivity
import Mathlib.Tactic.Ring
import Mathlib.Tactic.NormNum
/-! # Bounds of polynomials on intervals, by a checked subdivision; Taylor polynomials of `sin` and `cos` -/
namespace Verif
namespace Poly

/-- the value of the polynomial with the coefficients `p` (lowest degree first) -/
def ev : List ℚ → ℝ → ℝ
  | [], _ => 0
  | a :: p, t => a + t * ev p t

/-- the coefficients of `(t + c) q(t) + k` -/
def mulX (c : ℚ) : List ℚ → ℚ → List ℚ
  | [], k => [k]
  | a :: q, k => (c * a + k) :: mulX c q a

/-- the coefficients of `p(t + c)` -/
def shift (c : ℚ) : List ℚ → List ℚ
  | [] => []
  | a :: p => mulX c (shift c p) a

/-- a bound of `|p|` on `[-h, h]` -/
def bnd (h : ℚ) : List ℚ → ℚ
  | [] => 0
  | a :: p => |a| + h * bnd h p

/-- `|p| ≤ B` on `[lo, hi]`, by subdivision -/
def chk (p : List ℚ) (B : ℚ) : ℕ → ℚ → ℚ → Bool
  | 0, lo, hi => decide (bnd ((hi - lo) / 2) (shift ((lo + hi) / 2) p) ≤ B)
  | n + 1, lo, hi => decide (bnd ((hi - lo) / 2) (shift ((lo + hi) / 2) p) ≤ B) ||
      (chk p B n lo ((lo + hi) / 2) && chk p B n ((lo + hi) / 2) hi)

/-- the coefficients of `p - q` -/
def sub : List ℚ → List ℚ → List ℚ
  | [], q => q.map fun a => -a
  | p, [] => p
  | a :: p, b :: q => (a - b) :: sub p q

theorem ev_neg (q : List ℚ) (t : ℝ) : ev (q.map fun a => -a) t = - ev q t := by
  induction q with
  | nil => simp [ev]
  | cons a q ih => simp only [List.map_cons, ev, ih]; push_cast; ring

theorem ev_sub (p q : List ℚ) (t : ℝ) : ev (sub p q) t = ev p t - ev q t := by
  induction p generalizing q with
  | nil => rw [sub, ev_neg]; simp [ev]
  | cons a p ih =>
    cases q with
    | nil => simp [sub, ev]
    | cons b q => simp only [sub, ev, ih]; push_cast; ring

theorem ev_mulX (c : ℚ) (q : List ℚ) (k : ℚ) (t : ℝ) : ev (mulX c q k) t = (t + c) * ev q t + k := by
  induction q generalizing k with
  | nil => simp [mulX, ev]
  | cons a q ih => simp only [mulX, ev, ih]; push_cast; ring

theorem ev_shift (c : ℚ) (p : List ℚ) (t : ℝ) : ev (shift c p) t = ev p (t + c) := by
  induction p with
  | nil => simp [shift, ev]
  | cons a p ih => simp only [shift, ev, ev_mulX, ih]; ring

theorem ev_le_bnd {h : ℚ} (h0 : 0 ≤ h) (p : List ℚ) {t : ℝ} (ht : |t| ≤ h) : |ev p t| ≤ bnd h p ∧ (0 : ℝ) ≤ bnd h p := by
  have h0R : (0 : ℝ) ≤ h := by exact_mod_cast h0
  induction p with
  | nil => simp [ev, bnd]
  | cons a p ih =>
    simp only [ev, bnd]
    push_cast
    have h1 : |t * ev p t| ≤ h * bnd h p := by rw [abs_mul]; exact mul_le_mul ht ih.1 (abs_nonneg _) h0R
    exact ⟨(abs_add_le _ _).trans (by linarith), by have := mul_nonneg h0R ih.2; positivity⟩

/-- a Lipschitz constant of `p` on `[-h, h]` -/
def lip (h : ℚ) : List ℚ → ℚ
  | [] => 0
  | _ :: p => bnd h p + h * lip h p

theorem ev_lip {h : ℚ} (h0 : 0 ≤ h) (p : List ℚ) {s t : ℝ} (hs : |s| ≤ h) (ht : |t| ≤ h) : |ev p s - ev p t| ≤ lip h p * |s - t| := by
  have h0R : (0 : ℝ) ≤ h := by exact_mod_cast h0
  induction p with
  | nil => simp [ev, lip]
  | cons a p ih =>
    simp only [ev, lip]
    push_cast
    rw [show (a : ℝ) + s * ev p s - (a + t * ev p t) = (s - t) * ev p s + t * (ev p s - ev p t) by ring]
    refine (abs_add_le _ _).trans ?_
    rw [abs_mul, abs_mul]
    have h1 := mul_le_mul_of_nonneg_left (ev_le_bnd h0 p hs).1 (abs_nonneg (s - t))
    have h2 := mul_le_mul ht ih (abs_nonneg _) h0R
    calc _ ≤ _ := add_le_add h1 h2
      _ = _ := by ring

theorem leaf {p : List ℚ} {B lo hi : ℚ} (hb : bnd ((hi - lo) / 2) (shift ((lo + hi) / 2) p) ≤ B) {t : ℝ} (h1 : (lo : ℝ) ≤ t)
    (h2 : t ≤ hi) : |ev p t| ≤ B := by
  have h0 : lo ≤ hi := by exact_mod_cast h1.trans h2
  have := (ev_le_bnd (h := (hi - lo) / 2) (by linarith) (shift ((lo + hi) / 2) p) (t := t - ((lo + hi) / 2 : ℚ)) (by
    push_cast; rw [abs_le]; constructor <;> linarith)).1
  rw [ev_shift, sub_add_cancel] at this
  exact this.trans (by exact_mod_cast hb)

theorem chk_sound {p : List ℚ} {B : ℚ} {n : ℕ} {lo hi : ℚ} (h : chk p B n lo hi = true) {t : ℝ} (h1 : (lo : ℝ) ≤ t) (h2 : t ≤ hi) :
    |ev p t| ≤ B := by
  induction n generalizing lo hi with
  | zero => rw [chk, decide_eq_true_iff] at h; exact leaf h h1 h2
  | succ n ih =>
    rw [chk, Bool.or_eq_true, Bool.and_eq_true, decide_eq_true_iff] at h
    rcases h with h | ⟨ha, hb⟩
    · exact leaf h h1 h2
    · rcases le_total t ((lo + hi) / 2 : ℚ) with hc | hc
      · exact ih ha h1 hc
      · exact ih hb hc h2

/-! ### Taylor polynomials -/

/-- Taylor polynomials of `cos x` and `sin x / x` in `z = x^2` -/
noncomputable def cosT (n : ℕ) (x : ℝ) : ℝ := ∑ j ∈ Finset.range n, (-1) ^ j * x ^ (2 * j) / (2 * j).factorial
noncomputable def sinT (n : ℕ) (x : ℝ) : ℝ := ∑ j ∈ Finset.range n, (-1) ^ j * x ^ (2 * j + 1) / (2 * j + 1).factorial

theorem exp_sum (n : ℕ) (x : ℝ) : ∑ m ∈ Finset.range (2 * n), ((x : ℂ) * Complex.I) ^ m / m.factorial =
    (cosT n x : ℂ) + (sinT n x : ℂ) * Complex.I := by
  induction n with
  | zero => simp [cosT, sinT]
  | succ n ih =>
    rw [show 2 * (n + 1) = 2 * n + 1 + 1 by ring, Finset.sum_range_succ, Finset.sum_range_succ, ih]
    unfold cosT sinT
    rw [Finset.sum_range_succ, Finset.sum_range_succ]
    push_cast
    rw [mul_pow, mul_pow, pow_succ Complex.I (2 * n), pow_mul Complex.I, Complex.I_sq]
    ring

theorem taylor (n : ℕ) (hn : 0 < n) {x : ℝ} (hx : |x| ≤ 1) :
    |Real.cos x - cosT n x| ≤ |x| ^ (2 * n) * ((2 * n + 1) / ((2 * n).factorial * (2 * n))) ∧
    |Real.sin x - sinT n x| ≤ |x| ^ (2 * n) * ((2 * n + 1) / ((2 * n).factorial * (2 * n))) := by
  have hnorm : ‖(x : ℂ) * Complex.I‖ = |x| := by simp
  have h := Complex.exp_bound (x := (x : ℂ) * Complex.I) (by rw [hnorm]; exact hx) (n := 2 * n) (by omega)
  rw [hnorm, exp_sum, Complex.exp_mul_I] at h
  have e : Complex.cos x + Complex.sin x * Complex.I - ((cosT n x : ℂ) + (sinT n x : ℂ) * Complex.I) =
      ((Real.cos x - cosT n x : ℝ) : ℂ) + ((Real.sin x - sinT n x : ℝ) : ℂ) * Complex.I := by push_cast; ring
  rw [e] at h
  have hb : |x| ^ (2 * n) * (((2 * n).succ : ℕ) * (((2 * n).factorial : ℝ) * ((2 * n : ℕ) : ℝ))⁻¹) =
      |x| ^ (2 * n) * ((2 * n + 1) / ((2 * n).factorial * (2 * n))) := by push_cast; rw [div_eq_mul_inv]
  rw [hb] at h
  have hr := (Complex.abs_re_le_norm _).trans h
  have hi := (Complex.abs_im_le_norm _).trans h
  simp only [Complex.add_re, Complex.add_im, Complex.mul_re, Complex.mul_im, Complex.ofReal_re, Complex.ofReal_im, Complex.I_re,
    Complex.I_im, mul_zero, mul_one, sub_zero, add_zero, zero_add] at hr hi
  exact ⟨hr, hi⟩

/-- the coefficients of the Taylor polynomials of degree 9 in `z = x^2` of `cos x` and of `sin x / x` -/
def cosL : List ℚ := (List.range 10).map fun j => (-1) ^ j / (2 * j).factorial
def sinL : List ℚ := (List.range 10).map fun j => (-1) ^ j / (2 * j + 1).factorial

theorem ev_cosL (x : ℝ) : ev cosL (x * x) = cosT 10 x := by
  simp only [cosL, cosT, List.range, List.range.loop, List.map_cons, List.map_nil, ev, Finset.sum_range_succ, Finset.sum_range_zero, Nat.factorial]
  push_cast
  ring

theorem ev_sinL (x : ℝ) : x * ev sinL (x * x) = sinT 10 x := by
  simp only [sinL, sinT, List.range, List.range.loop, List.map_cons, List.map_nil, ev, Finset.sum_range_succ, Finset.sum_range_zero, Nat.factorial]
  push_cast
  ring

/-- `cos` and `sin` near zero -/
theorem cos_near {x : ℝ} (hx : |x| ≤ 1) : |Real.cos x - ev cosL (x * x)| ≤ |x| ^ 20 / 2 ^ 61 := by
  rw [ev_cosL]
  refine (taylor 10 (by norm_num) hx).1.trans ?_
  rw [div_eq_mul_one_div (|x| ^ 20)]
  refine mul_le_mul_of_nonneg_left ?_ (by positivity)
  norm_num [Nat.factorial]

theorem sin_near {x : ℝ} (hx : |x| ≤ 1) : |Real.sin x - x * ev sinL (x * x)| ≤ |x| ^ 20 / 2 ^ 61 := by
  rw [ev_sinL]
  refine (taylor 10 (by norm_num) hx).2.trans ?_
  rw [div_eq_mul_one_div (|x| ^ 20)]
  refine mul_le_mul_of_nonneg_left ?_ (by positivity)
  norm_num [Nat.factorial]

end Poly
end Verif
