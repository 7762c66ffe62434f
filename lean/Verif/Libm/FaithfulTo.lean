import Verif.Libm.RoundErr
import Mathlib.Analysis.SpecialFunctions.Trigonometric.Bounds
/-! # Faithful rounding of signed values -/
namespace Verif
namespace Fmt
variable (F : Fmt)

/-- Specification: the finite pattern `b` is a faithful rounding of `s`: no number of the format separates it from `s` (and it is `s`, if `s`
is a number of the format). So the error is less than the distance of two neighbours. -/
def FaithfulTo (s : ℝ) (b : BitVec F.w) : Prop :=
  F.IsFin b ∧ ∀ c, F.IsFin c → ¬ (F.valK ℝ b < F.valK ℝ c ∧ F.valK ℝ c ≤ s) ∧ ¬ (s ≤ F.valK ℝ c ∧ F.valK ℝ c < F.valK ℝ b)

/-- no number of the format is nearer to `v` than `r` -/
def Near (v : ℝ) (r : BitVec F.w) : Prop := F.IsFin r ∧ ∀ c, F.IsFin c → |v - F.valK ℝ r| ≤ |v - F.valK ℝ c|

theorem valK_neg (b : BitVec F.w) : F.valK ℝ (F.neg b) = - F.valK ℝ b := by
  rw [← F.valK_cast, ← F.valK_cast, F.val_neg]; push_cast; rfl

theorem Rounds.nearF {v : ℝ} {r : BitVec F.w} (h : F.Rounds v r) (hf : F.IsFin r) : F.Near v r := by
  refine ⟨hf, fun c hc => h.near F (F.rp_val c) ?_⟩
  rw [F.absvR, ← F.magValR_infRep, F.magValR_le_iff]
  exact le_of_lt hc

theorem Near.neg {v : ℝ} {r : BitVec F.w} (h : F.Near v r) : F.Near (-v) (F.neg r) := by
  refine ⟨F.isFin_neg.mpr h.1, fun c hc => ?_⟩
  have := h.2 (F.neg c) (F.isFin_neg.mpr hc)
  rw [F.valK_neg] at this ⊢
  rw [abs_sub_comm] at this ⊢
  rw [show -F.valK ℝ r - -v = -(F.valK ℝ r - v) by ring, abs_neg]
  rwa [show v - -F.valK ℝ c = -(-v - F.valK ℝ c) by ring, abs_neg] at this

theorem FaithfulTo.neg {s : ℝ} {b : BitVec F.w} (h : F.FaithfulTo s b) : F.FaithfulTo (-s) (F.neg b) := by
  refine ⟨F.isFin_neg.mpr h.1, fun c hc => ?_⟩
  have := h.2 (F.neg c) (F.isFin_neg.mpr hc)
  rw [F.valK_neg] at this ⊢
  refine ⟨fun hn => this.2 ⟨by linarith [hn.2], by linarith [hn.1]⟩, fun hn => this.1 ⟨by linarith [hn.2], by linarith [hn.1]⟩⟩

theorem neg_neg' (b : BitVec F.w) : F.valK ℝ (F.neg (F.neg b)) = F.valK ℝ b := by rw [F.valK_neg, F.valK_neg]; ring

theorem FaithfulTo.congr {s : ℝ} {b c : BitVec F.w} (h : F.FaithfulTo s b) (hc : F.IsFin c) (e : F.valK ℝ b = F.valK ℝ c) :
    F.FaithfulTo s c := ⟨hc, fun d hd => by rw [← e]; exact h.2 d hd⟩

/-- neighbours are not too near, relatively -/
theorem gap_rel {b c : BitVec F.w} (h0 : 0 < F.valK ℝ c) (hlt : F.valK ℝ b < F.valK ℝ c) :
    F.valK ℝ c / 2 ^ (F.s + 1) ≤ F.valK ℝ c - F.valK ℝ b := by
  obtain ⟨m, j, c1, c2, c3, c4⟩ := F.val_dec c
  obtain ⟨m', j', b1, b2, b3, b4⟩ := F.val_dec b
  have hS : (1 : ℝ) ≤ 2 ^ (F.s + 1) := one_le_pow₀ (by norm_num)
  have hS0 : (0 : ℝ) < 2 ^ (F.s + 1) := by positivity
  rcases le_or_gt j j' with hj | hj
  · have hb : Mul2 j (F.valK ℝ b) := Mul2.mono ⟨m', b1⟩ hj
    obtain ⟨n, hn⟩ := hb
    have hp : (0 : ℝ) < 2 ^ j := by positivity
    have h1 : n < m := by
      have : (n : ℝ) * 2 ^ j < m * 2 ^ j := by rw [← hn, ← c1]; exact hlt
      exact_mod_cast lt_of_mul_lt_mul_right this hp.le
    have h2 : (n : ℝ) + 1 ≤ m := by exact_mod_cast h1
    have h3 : (m : ℝ) ≤ 2 ^ (F.s + 1) := by exact_mod_cast ((le_abs_self m).trans c2.le)
    rw [c1, hn, div_le_iff₀ hS0]
    have h4 : (1 : ℝ) * 2 ^ j ≤ (m - n) * 2 ^ j := mul_le_mul_of_nonneg_right (by linarith) hp.le
    calc (m : ℝ) * 2 ^ j ≤ 2 ^ (F.s + 1) * (1 * 2 ^ j) := by rw [one_mul]; exact mul_le_mul_of_nonneg_right h3 hp.le
      _ ≤ 2 ^ (F.s + 1) * ((m - n) * 2 ^ j) := mul_le_mul_of_nonneg_left h4 hS0.le
      _ = _ := by ring
  · have hm : 2 ^ F.s ≤ |m| := by rcases c4 with h | h; exacts [h, by omega]
    have hp : (0 : ℝ) < 2 ^ j := by positivity
    have hp' : (0 : ℝ) < 2 ^ j' := by positivity
    have hm0 : 0 < m := by
      rw [c1] at h0
      exact_mod_cast pos_of_mul_pos_left h0 hp.le
    rw [abs_of_pos hm0] at hm
    have hmR : (2 : ℝ) ^ F.s ≤ m := by exact_mod_cast hm
    have hP : (2 : ℝ) ^ (F.s + 1) * 2 ^ j' ≤ F.valK ℝ c := by
      rw [c1]
      calc (2 : ℝ) ^ (F.s + 1) * 2 ^ j' = 2 ^ F.s * 2 ^ (j' + 1) := by rw [zpow_add_one₀ (by norm_num)]; ring
        _ ≤ 2 ^ F.s * 2 ^ j := mul_le_mul_of_nonneg_left (zpow_le_zpow_right₀ (by norm_num) (by omega)) (by positivity)
        _ ≤ _ := mul_le_mul_of_nonneg_right hmR hp.le
    have hm' : (m' : ℝ) + 1 ≤ 2 ^ (F.s + 1) := by
      have : m' + 1 ≤ 2 ^ (F.s + 1) := by have := le_abs_self m'; omega
      exact_mod_cast this
    have hb : F.valK ℝ b + 2 ^ j' ≤ 2 ^ (F.s + 1) * 2 ^ j' := by
      rw [b1, show (m' : ℝ) * 2 ^ j' + 2 ^ j' = (m' + 1) * 2 ^ j' by ring]
      exact mul_le_mul_of_nonneg_right hm' hp'.le
    rw [div_le_iff₀ hS0]
    nlinarith [mul_le_mul_of_nonneg_left hb hS0.le, mul_nonneg (sub_nonneg.mpr hP) (sub_nonneg.mpr hS)]

/-- all numbers are multiples of the least one -/
theorem gap_abs {b c : BitVec F.w} (hlt : F.valK ℝ b < F.valK ℝ c) : (2 : ℝ) ^ (1 - (F.bias : ℤ) - F.s) ≤ F.valK ℝ c - F.valK ℝ b := by
  obtain ⟨m, j, c1, c2, c3, c4⟩ := F.val_dec c
  obtain ⟨m', j', b1, b2, b3, b4⟩ := F.val_dec b
  obtain ⟨n, hn⟩ := (Mul2.mono ⟨m, c1⟩ c3).sub (Mul2.mono ⟨m', b1⟩ b3)
  have hp : (0 : ℝ) < 2 ^ (1 - (F.bias : ℤ) - F.s) := by positivity
  have h0 : (0 : ℝ) < n := by
    have : 0 < F.valK ℝ c - F.valK ℝ b := by linarith
    rw [hn] at this
    exact pos_of_mul_pos_left this hp.le
  have h1 : (1 : ℝ) ≤ n := by exact_mod_cast h0
  rw [hn]
  nlinarith

theorem mul2_ge {b : BitVec F.w} {k : ℤ} (hv : 2 ^ k ≤ |F.valK ℝ b|) : Mul2 (k - F.s) (F.valK ℝ b) := by
  obtain ⟨m, j, h1, h2, h3, h4⟩ := F.val_dec b
  refine Mul2.mono ⟨m, h1⟩ ?_
  by_contra hc
  have hlt : |F.valK ℝ b| < 2 ^ k := by
    rw [h1, abs_mul, abs_of_pos (show (0 : ℝ) < 2 ^ j by positivity)]
    calc |(m : ℝ)| * 2 ^ j < 2 ^ (F.s + 1 : ℕ) * 2 ^ j := mul_lt_mul_of_pos_right (by exact_mod_cast h2) (by positivity)
      _ = 2 ^ (j + F.s + 1) := by rw [← zpow_natCast, ← zpow_add₀ (by norm_num)]; congr 1; push_cast; ring
      _ ≤ 2 ^ k := zpow_le_zpow_right₀ (by norm_num) (by omega)
  linarith

/-- above `2^k` neighbours are `2^(k-s)` apart -/
theorem gap_ge {b c : BitVec F.w} {k : ℤ} (hb : 2 ^ k ≤ F.valK ℝ b) (hlt : F.valK ℝ b < F.valK ℝ c) :
    (2 : ℝ) ^ (k - F.s) ≤ F.valK ℝ c - F.valK ℝ b := by
  obtain ⟨n, hn⟩ := (F.mul2_ge (b := c) (k := k) ((hb.trans hlt.le).trans (le_abs_self _))).sub (F.mul2_ge (b := b) (hb.trans (le_abs_self _)))
  have hp : (0 : ℝ) < 2 ^ (k - F.s) := by positivity
  have h0 : (0 : ℝ) < n := by
    have : 0 < F.valK ℝ c - F.valK ℝ b := by linarith
    rw [hn] at this
    exact pos_of_mul_pos_left this hp.le
  have h1 : (1 : ℝ) ≤ n := by exact_mod_cast h0
  rw [hn]
  nlinarith

theorem Near.up {v : ℝ} {r c : BitVec F.w} (h : F.Near v r) (hc : F.IsFin c) (hlt : F.valK ℝ r < F.valK ℝ c) :
    2 * v ≤ F.valK ℝ r + F.valK ℝ c := by
  have h1 := h.2 c hc
  by_contra hcon
  rw [not_le] at hcon
  rw [abs_of_pos (show 0 < v - F.valK ℝ r by linarith)] at h1
  rcases abs_cases (v - F.valK ℝ c) with ⟨e, _⟩ | ⟨e, _⟩ <;> rw [e] at h1 <;> linarith
theorem Near.dn {v : ℝ} {r c : BitVec F.w} (h : F.Near v r) (hc : F.IsFin c) (hlt : F.valK ℝ c < F.valK ℝ r) :
    F.valK ℝ r + F.valK ℝ c ≤ 2 * v := by
  have h1 := h.2 c hc
  by_contra hcon
  rw [not_le] at hcon
  rw [abs_of_neg (show v - F.valK ℝ r < 0 by linarith)] at h1
  rcases abs_cases (v - F.valK ℝ c) with ⟨e, _⟩ | ⟨e, _⟩ <;> rw [e] at h1 <;> linarith

/-- rounding a value with a small relative error -/
theorem Near.faithful_rel {v s : ℝ} {r : BitVec F.w} (h : F.Near v r) (hs : s ≠ 0) (h6 : 6 ≤ F.s) (he : |v - s| ≤ 0.49 / 2 ^ (F.s + 1) * |s|) :
    F.FaithfulTo s r := by
  have hS : (2 : ℝ) ^ 7 ≤ 2 ^ (F.s + 1) := pow_le_pow_right₀ (by norm_num) (by omega)
  have key : ∀ (v s : ℝ) (r : BitVec F.w), F.Near v r → 0 < s → |v - s| ≤ 0.49 / 2 ^ (F.s + 1) * |s| → F.FaithfulTo s r := by
    intro v s r h hs he
    refine ⟨h.1, fun c hc => ⟨fun ⟨h1, h2⟩ => ?_, fun ⟨h1, h2⟩ => ?_⟩⟩
    · have hu := h.up F hc h1
      rw [abs_of_pos hs] at he
      rw [abs_le] at he
      obtain ⟨S, hSd⟩ : ∃ S : ℝ, S = 1 / 2 ^ (F.s + 1) := ⟨_, rfl⟩
      have hS1 : S ≤ 1 / 2 ^ 7 := by rw [hSd]; exact one_div_le_one_div_of_le (by norm_num) hS
      have hS0 : 0 < S := by rw [hSd]; positivity
      have he' : s - v ≤ 0.49 * (S * s) := by
        have := he.1; rw [hSd]
        calc s - v ≤ 0.49 / 2 ^ (F.s + 1) * s := by linarith
          _ = _ := by ring
      have hSs : S * s ≤ 1 / 2 ^ 7 * s := mul_le_mul_of_nonneg_right hS1 hs.le
      have hSs0 : 0 < S * s := mul_pos hS0 hs
      have hc0 : 0 < F.valK ℝ c := by
        norm_num at hSs he' ⊢
        linarith
      have hg := F.gap_rel hc0 h1
      have hg' : S * F.valK ℝ c ≤ F.valK ℝ c - F.valK ℝ r := by rw [hSd]; calc _ = F.valK ℝ c / 2 ^ (F.s + 1) := by ring
                                                                  _ ≤ _ := hg
      have h5 : s * 0.99 ≤ F.valK ℝ c := by norm_num at hSs he' ⊢; linarith
      have h6 : S * (s * 0.99) ≤ S * F.valK ℝ c := mul_le_mul_of_nonneg_left h5 hS0.le
      norm_num at *
      linarith
    · have hu := h.dn F hc h2
      rw [abs_of_pos hs] at he
      rw [abs_le] at he
      have hg := F.gap_rel (by linarith) h2
      have h3 : s / 2 ^ (F.s + 1) ≤ F.valK ℝ r / 2 ^ (F.s + 1) := div_le_div_of_nonneg_right (by linarith) (by positivity)
      have h4 : 0 < s / 2 ^ (F.s + 1) := by positivity
      have h5 : 0.49 / 2 ^ (F.s + 1) * s = 0.49 * (s / 2 ^ (F.s + 1)) := by ring
      rw [h5] at he
      linarith [he.2]
  rcases lt_or_gt_of_ne hs with h0 | h0
  · have h1 := (key (-v) (-s) (F.neg r) (h.neg F) (by linarith) (by
      rw [show -v - -s = -(v - s) by ring, abs_neg, abs_neg]; exact he)).neg F
    rw [_root_.neg_neg] at h1
    exact h1.congr F h.1 (F.neg_neg' r)
  · exact key v s r h h0 he

/-- rounding a value with a small absolute error, above `2^k` -/
theorem Near.faithful_abs {v s : ℝ} {r p : BitVec F.w} (h : F.Near v r) {k : ℤ} (hp : F.IsFin p) (hpv : F.valK ℝ p = 2 ^ k) (hs : 2 ^ k ≤ s)
    (hv : 2 ^ k ≤ v) (he : |v - s| < 2 ^ (k - F.s) / 2) : F.FaithfulTo s r := by
  have hr : 2 ^ k ≤ F.valK ℝ r := by
    by_contra hc
    rw [not_le, ← hpv] at hc
    have := h.up F hp hc
    rw [hpv] at this hc
    linarith
  rw [abs_lt] at he
  refine ⟨h.1, fun c hc => ⟨fun ⟨h1, h2⟩ => ?_, fun ⟨h1, h2⟩ => ?_⟩⟩
  · have hu := h.up F hc h1
    have := F.gap_ge hr h1
    linarith [he.1]
  · have hu := h.dn F hc h2
    have := F.gap_ge (hs.trans h1) h2
    linarith [he.2]

theorem Near.faithful_absS {v s : ℝ} {r p : BitVec F.w} (h : F.Near v r) {k : ℤ} (hp : F.IsFin p) (hpv : F.valK ℝ p = 2 ^ k) {δ : ℝ}
    (hs : 2 ^ k + δ ≤ |s|) (he : |v - s| ≤ δ) (hδ : δ < 2 ^ (k - F.s) / 2) : F.FaithfulTo s r := by
  have hδ0 := (abs_nonneg _).trans he
  rcases le_total 0 s with h0 | h0
  · rw [abs_of_nonneg h0] at hs
    have := abs_le.mp he
    exact h.faithful_abs F hp hpv (by linarith) (by linarith [this.1]) (lt_of_le_of_lt he hδ)
  · rw [abs_of_nonpos h0] at hs
    have := abs_le.mp he
    have h1 := ((h.neg F).faithful_abs F (s := -s) hp hpv (by linarith) (by linarith [this.2]) (by
      rw [show -v - -s = -(v - s) by ring, abs_neg]; exact lt_of_le_of_lt he hδ)).neg F
    rw [_root_.neg_neg] at h1
    exact h1.congr F h.1 (F.neg_neg' r)

theorem faithful_self {x : BitVec F.w} (hx : F.IsFin x) : F.FaithfulTo (F.valK ℝ x) x :=
  ⟨hx, fun _ _ => ⟨fun h => absurd h.2 (not_le.mpr h.1), fun h => absurd h.1 (not_le.mpr h.2)⟩⟩

/-- a number just above `s` -/
theorem faithful_below {x : BitVec F.w} (hx : F.IsFin x) {s : ℝ} (h0 : 0 < F.valK ℝ x) (hs : s ≤ F.valK ℝ x)
    (hg : F.valK ℝ x - s < F.valK ℝ x / 2 ^ (F.s + 1)) : F.FaithfulTo s x := by
  refine ⟨hx, fun c hc => ⟨fun ⟨h1, h2⟩ => by linarith, fun ⟨h1, h2⟩ => ?_⟩⟩
  have := F.gap_rel h0 h2
  linarith

/-- small arguments of odd functions -/
theorem faithful_sin {x : BitVec F.w} (hx : F.IsFin x) (hs : (F.valK ℝ x) ^ 2 / 4 < 1 / 2 ^ (F.s + 1)) :
    F.FaithfulTo (Real.sin (F.valK ℝ x)) x := by
  have key : ∀ x : BitVec F.w, F.IsFin x → (F.valK ℝ x) ^ 2 / 4 < 1 / 2 ^ (F.s + 1) → 0 < F.valK ℝ x →
      F.FaithfulTo (Real.sin (F.valK ℝ x)) x := by
    intro x hx hs h0
    refine F.faithful_below hx h0 (Real.sin_lt h0).le ?_
    have := Real.sin_gt_sub_cube h0
    have h2 := mul_lt_mul_of_pos_left hs h0
    rw [mul_one_div] at h2
    refine lt_trans ?_ h2
    nlinarith
  rcases lt_trichotomy (F.valK ℝ x) 0 with h | h | h
  · have hv := F.valK_neg x
    have h1 := (key (F.neg x) (F.isFin_neg.mpr hx) (by rw [hv, neg_sq]; exact hs) (by rw [hv]; linarith)).neg F
    rw [hv, Real.sin_neg, _root_.neg_neg] at h1
    exact h1.congr F hx (F.neg_neg' x)
  · rw [h, Real.sin_zero, ← h]; exact F.faithful_self hx
  · exact key x hx hs h

/-- `1` for small arguments of `cos` -/
theorem faithful_one {o : BitVec F.w} (ho : F.IsFin o) (h1 : F.valK ℝ o = 1) {s : ℝ} (hs : s ≤ 1) (hg : 1 - s < 1 / 2 ^ (F.s + 1)) :
    F.FaithfulTo s o := F.faithful_below ho (by rw [h1]; norm_num) (by rw [h1]; exact hs) (by rw [h1]; exact hg)

end Fmt
end Verif
