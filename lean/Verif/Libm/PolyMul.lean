import Verif.Libm.PolyBound
/-! # Sums and products of polynomials; inequalities between polynomials -/
namespace Verif

namespace Poly
/-- sums and products of polynomials -/
def add : List ℚ → List ℚ → List ℚ
  | [], q => q
  | p, [] => p
  | a :: p, b :: q => (a + b) :: add p q
def scale (c : ℚ) (p : List ℚ) : List ℚ := p.map fun a => c * a
def mul : List ℚ → List ℚ → List ℚ
  | [], _ => []
  | a :: p, q => add (scale a q) (0 :: mul p q)

theorem ev_add (p q : List ℚ) (t : ℝ) : ev (add p q) t = ev p t + ev q t := by
  induction p generalizing q with
  | nil => rw [add]; simp [ev]
  | cons a p ih =>
    cases q with
    | nil => simp [add, ev]
    | cons b q => simp only [add, ev, ih]; push_cast; ring
theorem ev_scale (c : ℚ) (p : List ℚ) (t : ℝ) : ev (scale c p) t = c * ev p t := by
  induction p with
  | nil => simp [scale, ev]
  | cons a p ih =>
    rw [scale] at ih
    simp only [scale, List.map_cons, ev, ih]; push_cast; ring
theorem ev_mul (p q : List ℚ) (t : ℝ) : ev (mul p q) t = ev p t * ev q t := by
  induction p with
  | nil => simp [mul, ev]
  | cons a p ih => rw [mul, ev_add, ev_scale, ev, ev, ih]; push_cast; ring

/-- `|q| ≤ p` on an interval -/
def chkLe (q p : List ℚ) (C : ℚ) (n : ℕ) (lo hi : ℚ) : Bool := chk (sub [C] (sub p q)) C n lo hi && chk (sub [C] (add p q)) C n lo hi

theorem chkLe_sound {q p : List ℚ} {C : ℚ} {n : ℕ} {lo hi : ℚ} (h : chkLe q p C n lo hi = true) {t : ℝ} (h0 : (lo : ℝ) ≤ t) (h1 : t ≤ hi) :
    |ev q t| ≤ ev p t := by
  unfold chkLe at h
  rw [Bool.and_eq_true] at h
  have a1 := chk_sound h.1 h0 h1
  have a2 := chk_sound h.2 h0 h1
  have e : ev [C] t = C := by simp [ev]
  rw [ev_sub, ev_sub, e] at a1
  rw [ev_sub, ev_add, e] at a2
  rw [abs_le] at a1 a2 ⊢
  constructor <;> linarith [a1.1, a1.2, a2.1, a2.2]
end Poly

end Verif
