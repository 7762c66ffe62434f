import Verif.Libm.PiDigits
/-!
# How near a double can be to a multiple of `π/2`

`dist_pio2`: if `x = m 2^e` with `0 < m < 2^53` and `-53 ≤ e ≤ 971` then `x · 2/π` is at least `2^-62` away from every integer. For every
exponent the bound comes from the continued fraction of `2^e · 2/π`, which the kernel computes from the table of digits.
-/
namespace Verif
namespace Pio2

theorem tabN_foldl (l : List Nat) (a : Nat) : l.foldl (fun a x => a * 2 ^ 24 + x) a = a * 2 ^ (24 * l.length) + tabN l := by
  unfold tabN
  induction l generalizing a with
  | nil => simp
  | cons x l ih =>
    rw [List.foldl_cons, ih, List.foldl_cons, ih (0 * 2 ^ 24 + x), List.length_cons, mul_add, pow_add]
    ring

theorem tabN_append (l m : List Nat) : tabN (l ++ m) = tabN l * 2 ^ (24 * m.length) + tabN m := by
  rw [tabN, List.foldl_append, tabN_foldl]; rfl

theorem tabN_lt (l : List Nat) (h : ∀ x ∈ l, x < 2 ^ 24) : tabN l < 2 ^ (24 * l.length) := by
  induction l using List.reverseRecOn with
  | nil => simp [tabN]
  | append_singleton l x ih =>
    have h1 := ih fun y hy => h y (by simp [hy])
    have h2 := h x (by simp)
    have e : tabN [x] = x := by simp [tabN]
    rw [tabN_append, e, List.length_append, List.length_singleton, mul_one, mul_add, mul_one, pow_add]
    have : tabN l + 1 ≤ 2 ^ (24 * l.length) := h1
    nlinarith

/-- the first `k` entries of the table as one number -/
def tabK (k : Nat) : Nat := tabN (IPIO2.take k)

/-- The first `k` entries of the table are the first `k` digits of `2/π`. -/
theorem tabK_bounds {k : Nat} (hk : k ≤ 690) :
    (tabK k : ℝ) ≤ 2 / Real.pi * 2 ^ (24 * k) ∧ 2 / Real.pi * 2 ^ (24 * k) < tabK k + 1 := by
  have hlen : IPIO2.length = 690 := by decide +kernel
  have hall : ∀ x ∈ IPIO2, x < 2 ^ 24 := by decide +kernel
  have h := two_div_pi
  have e : tabN IPIO2 = tabK k * 2 ^ (24 * (690 - k)) + tabN (IPIO2.drop k) := by
    rw [tabK, ← hlen, ← List.length_drop, ← tabN_append, List.take_append_drop]
  have h2 : tabN (IPIO2.drop k) < 2 ^ (24 * (690 - k)) := by
    have := tabN_lt (IPIO2.drop k) fun x hx => hall x (List.mem_of_mem_drop hx)
    rwa [List.length_drop, hlen] at this
  have e3 : 16560 = 24 * k + 24 * (690 - k) := by omega
  rw [e3, pow_add, e] at h
  generalize 24 * (690 - k) = n at *
  have h2' : (tabN (IPIO2.drop k) : ℝ) + 1 ≤ 2 ^ n := by exact_mod_cast h2
  have h3 : (0 : ℝ) ≤ tabN (IPIO2.drop k) := Nat.cast_nonneg _
  generalize (tabN (IPIO2.drop k)) = b at *
  have hn : (0 : ℝ) < 2 ^ n := by positivity
  push_cast at h
  rw [← mul_assoc] at h
  constructor
  · refine le_of_mul_le_mul_right ?_ hn
    linarith [h.1]
  · refine lt_of_mul_lt_mul_right ?_ hn.le
    rw [add_mul, one_mul]
    linarith [h.2]

/-- The continued fraction of `a/B`: `r0`, `r1` are consecutive remainders, `q0`, `q1` the denominators. -/
def euc (b : Nat) : Nat → Nat → Nat → Nat → Nat → Nat
  | 0, _, _, _, _ => 0
  | f + 1, r0, r1, q0, q1 =>
    if 2 ^ b ≤ q1 then r0 else if r1 = 0 then 0 else euc b f r1 (r0 % r1) q1 (q0 + r0 / r1 * q1)

theorem euc_sound (b : Nat) (a B : ℤ) (f : Nat) : ∀ (r0 r1 q0 q1 : Nat) (p0 p1 s t : ℤ), (s = 1 ∨ s = -1) → (t = 1 ∨ t = -1) →
    (r0 : ℤ) = s * (q0 * a - p0 * B) → (r1 : ℤ) = - s * (q1 * a - p1 * B) → q0 * p1 - q1 * p0 = t →
    ∀ M P : ℤ, 0 < M → M < 2 ^ b → (euc b f r0 r1 q0 q1 : ℤ) ≤ |M * a - P * B| := by
  induction f with
  | zero => intro r0 r1 q0 q1 p0 p1 s t _ _ _ _ _ M P _ _; simp [euc]
  | succ f ih =>
    intro r0 r1 q0 q1 p0 p1 s t hs ht h0 h1 hd M P hM hM'
    rw [euc]
    split
    · rename_i hq
      have hq' : (2 : ℤ) ^ b ≤ q1 := by exact_mod_cast hq
      have htt : t * t = 1 := by rcases ht with rfl | rfl <;> norm_num
      have hss : s * s = 1 := by rcases hs with rfl | rfl <;> norm_num
      obtain ⟨α, hα⟩ : ∃ α, α = t * (M * p1 - P * q1) := ⟨_, rfl⟩
      obtain ⟨β, hβ⟩ : ∃ β, β = t * (P * q0 - M * p0) := ⟨_, rfl⟩
      have e1 : M = α * q0 + β * q1 := by rw [hα, hβ]; linear_combination (-(M * t)) * hd + (-M) * htt
      have e2 : M * a - P * B = s * (α * r0 - β * r1) := by
        have e3 : P = α * p0 + β * p1 := by rw [hα, hβ]; linear_combination (-(P * t)) * hd + (-P) * htt
        rw [h0, h1]
        linear_combination a * e1 - B * e3 + (-(α * (q0 * a - p0 * B) + β * (q1 * a - p1 * B))) * hss
      have hr0 : (0 : ℤ) ≤ r0 := by positivity
      have hr1 : (0 : ℤ) ≤ r1 := by positivity
      have hq0 : (0 : ℤ) ≤ q0 := by positivity
      have habs : |M * a - P * B| = |α * r0 - β * r1| := by
        rw [e2, abs_mul]; rcases hs with rfl | rfl <;> simp
      rw [habs]
      rcases lt_trichotomy α 0 with h | h | h
      · have hb : 1 ≤ β := by
          by_contra hc
          have : β ≤ 0 := by omega
          nlinarith
        rw [abs_of_nonpos (by nlinarith)]
        nlinarith
      · exfalso
        rw [h] at e1
        have : 1 ≤ β := by
          by_contra hc
          have : β ≤ 0 := by omega
          nlinarith
        nlinarith
      · have hb : β ≤ 0 := by
          by_contra hc
          have : 1 ≤ β := by omega
          nlinarith
        rw [abs_of_nonneg (by nlinarith)]
        nlinarith
    · split
      · simp
      · have hdm : (r0 : ℤ) = r1 * (r0 / r1 : ℕ) + (r0 % r1 : ℕ) := by exact_mod_cast (Nat.div_add_mod r0 r1).symm
        refine ih _ _ _ _ p1 (p0 + (r0 / r1 : ℕ) * p1) (-s) (-t) (by omega) (by omega) h1 ?_ ?_ M P hM hM'
        · push_cast at hdm ⊢
          linear_combination (-1) * hdm + h0 + (-((r0 : ℤ) / r1)) * h1
        · push_cast
          linear_combination (-1) * hd

/-- `2^(e+192) · 2/π`, rounded down; here `j = e + 53` -/
def alpha (j : Nat) : Nat := tabK 66 / 2 ^ (1445 - j)

theorem alpha_bounds {j : Nat} (hj : j ≤ 1024) :
    (alpha j : ℝ) ≤ 2 / Real.pi * 2 ^ (139 + j) ∧ 2 / Real.pi * 2 ^ (139 + j) ≤ alpha j + 1 := by
  have h := tabK_bounds (k := 66) (by norm_num)
  have e : (2 : ℝ) ^ (24 * 66) = 2 ^ (139 + j) * 2 ^ (1445 - j) := by rw [← pow_add]; congr 1; omega
  have h1 := Nat.div_mul_le_self (tabK 66) (2 ^ (1445 - j))
  have h2 := Nat.lt_div_mul_add (a := tabK 66) (b := 2 ^ (1445 - j)) (by positivity)
  rw [e, ← mul_assoc] at h
  have h1' : (alpha j : ℝ) * 2 ^ (1445 - j) ≤ tabK 66 := by exact_mod_cast h1
  have h2' : (tabK 66 : ℝ) + 1 ≤ (alpha j + 1) * 2 ^ (1445 - j) := by
    rw [add_mul, one_mul]; exact_mod_cast h2
  have hn : (0 : ℝ) < 2 ^ (1445 - j) := by positivity
  constructor
  · refine le_of_mul_le_mul_right ?_ hn; linarith [h.1]
  · refine le_of_mul_le_mul_right ?_ hn; linarith [h.2]

/-- the bound holds for `2^d` consecutive exponents -/
def chk (b T : Nat) : Nat → Nat → Bool
  | 0, s => decide (2 ^ T + 2 ^ b ≤ euc b 64 (2 ^ 192) (alpha s % 2 ^ 192) 0 1)
  | d + 1, s => chk b T d s && chk b T d (s + 2 ^ d)

theorem chk_iff (b T d s : Nat) (h : chk b T d s = true) : ∀ j, s ≤ j → j < s + 2 ^ d →
    2 ^ T + 2 ^ b ≤ euc b 64 (2 ^ 192) (alpha j % 2 ^ 192) 0 1 := by
  induction d generalizing s with
  | zero =>
    intro j h1 h2
    have : j = s := by omega
    subst this
    exact of_decide_eq_true h
  | succ d ih =>
    intro j h1 h2
    rw [chk, Bool.and_eq_true] at h
    by_cases hj : j < s + 2 ^ d
    · exact ih s h.1 j h1 hj
    · exact ih _ h.2 j (by omega) (by rw [pow_succ] at h2; omega)

theorem chk_all : chk 53 130 10 0 = true ∧ chk 53 130 0 1024 = true := by decide +kernel

theorem dist_core {b T : Nat} {m : ℤ} {j : Nat} (hj : j ≤ 1024) (hm : 0 < m) (hm' : m < 2 ^ b) (P : ℤ)
    (hc : 2 ^ T + 2 ^ b ≤ euc b 64 (2 ^ 192) (alpha j % 2 ^ 192) 0 1) :
    (2 : ℝ) ^ ((T : ℤ) - 192) ≤ |m * 2 ^ ((j : ℤ) - 53) * (2 / Real.pi) - P| := by
  have hab := alpha_bounds hj
  generalize alpha j = al at hc hab
  have hs := euc_sound b (al % 2 ^ 192 : ℕ) ((2 ^ 192 : ℕ) : ℤ) 64 (2 ^ 192) (al % 2 ^ 192) 0 1 1 0 (-1) (-1)
    (by norm_num) (by norm_num) (by push_cast; ring) (by push_cast; ring) (by norm_num) m (P - m * (al / 2 ^ 192 : ℕ)) hm hm'
  have hdm : ((al % 2 ^ 192 : ℕ) : ℤ) = al - (2 ^ 192 : ℕ) * (al / 2 ^ 192 : ℕ) := by
    have := Nat.div_add_mod (al) (2 ^ 192)
    have h2 : ((2 ^ 192 * (al / 2 ^ 192) + al % 2 ^ 192 : ℕ) : ℤ) = al := by rw [this]
    push_cast at h2 ⊢
    linarith
  have hs2 : ((2 ^ T + 2 ^ b : ℕ) : ℤ) ≤ |m * al - P * (2 ^ 192 : ℕ)| := by
    refine le_trans (le_trans (by exact_mod_cast hc) hs) (le_of_eq ?_)
    congr 1
    rw [hdm]; ring
  have hs3 : (2 : ℝ) ^ T + 2 ^ b ≤ |(m : ℝ) * al - P * 2 ^ 192| := by exact_mod_cast hs2
  obtain ⟨a1, a2⟩ := hab
  have e : (2 : ℝ) ^ (139 + j) = 2 ^ ((j : ℤ) - 53) * 2 ^ 192 := by
    rw [← zpow_natCast, ← zpow_natCast, ← zpow_add₀ (by norm_num)]; congr 1; push_cast; ring
  rw [e, ← mul_assoc] at a1 a2
  have hmR : (0 : ℝ) < m := by exact_mod_cast hm
  have hmR' : (m : ℝ) ≤ 2 ^ b := by exact_mod_cast hm'.le
  have e2 : (m * 2 ^ ((j : ℤ) - 53) * (2 / Real.pi) - P) * 2 ^ 192 =
      (m * al - P * 2 ^ 192) + m * (2 / Real.pi * 2 ^ ((j : ℤ) - 53) * 2 ^ 192 - al) := by ring
  have h5 : |m * (2 / Real.pi * 2 ^ ((j : ℤ) - 53) * 2 ^ 192 - al)| ≤ 2 ^ b := by
    rw [abs_mul, abs_of_pos hmR, abs_of_nonneg (by linarith)]
    nlinarith
  have h6 : (2 : ℝ) ^ T ≤ |(m * 2 ^ ((j : ℤ) - 53) * (2 / Real.pi) - P) * 2 ^ 192| := by
    rw [e2]
    generalize (m : ℝ) * al - P * 2 ^ 192 = u at hs3 ⊢
    generalize (m : ℝ) * (2 / Real.pi * 2 ^ ((j : ℤ) - 53) * 2 ^ 192 - al) = v at h5 ⊢
    have := abs_add_le (u + v) (-v)
    rw [add_neg_cancel_right, abs_neg] at this
    linarith
  rw [abs_mul, abs_of_pos (show (0 : ℝ) < 2 ^ 192 by positivity)] at h6
  refine le_of_mul_le_mul_right (h6.trans' (le_of_eq ?_)) (show (0 : ℝ) < 2 ^ 192 by positivity)
  rw [← zpow_natCast, ← zpow_natCast, ← zpow_add₀ (by norm_num)]
  congr 1
  push_cast
  ring

/-- No double is a near multiple of `π/2`. -/
theorem dist_pio2 {m : ℤ} {j : Nat} (hj : j ≤ 1024) (hm : 0 < m) (hm' : m < 2 ^ 53) (P : ℤ) :
    (2 : ℝ) ^ (-62 : ℤ) ≤ |m * 2 ^ ((j : ℤ) - 53) * (2 / Real.pi) - P| := by
  refine dist_core (T := 130) hj hm hm' P ?_
  by_cases h : j < 1024
  · exact chk_iff 53 130 10 0 chk_all.1 j (by omega) (by omega)
  · exact chk_iff 53 130 0 1024 chk_all.2 j (by omega) (by omega)

theorem chk_all32 : chk 24 156 7 53 = true := by decide +kernel

/-- No single precision number is a near multiple of `π/2`. -/
theorem dist_pio2_32 {m : ℤ} {j : Nat} (hj0 : 53 ≤ j) (hj : j < 181) (hm : 0 < m) (hm' : m < 2 ^ 24) (P : ℤ) :
    (2 : ℝ) ^ (-36 : ℤ) ≤ |m * 2 ^ ((j : ℤ) - 53) * (2 / Real.pi) - P| :=
  dist_core (T := 156) (by omega) hm hm' P (chk_iff 24 156 7 53 chk_all32 j (by omega) (by omega))

end Pio2
end Verif
