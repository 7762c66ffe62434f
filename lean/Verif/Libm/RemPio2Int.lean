import Verif.Libm.RemPio2Val
/-! # The integer part of `rem_pio2_large`: products of digits and their normalisation -/
namespace Verif
open Fmt

namespace Pio2
open Hypot

/-- digits of `2/π`, zero before the binary point -/
def tz (m : ℤ) : ℕ := if m < 0 then 0 else ipio2 m.toNat

theorem tz_lt (m : ℤ) : tz m < 2 ^ 24 := by
  unfold tz; split
  · norm_num
  · exact ipio2_lt _

/-- first `c` terms of `q[i]` -/
def qdp (xd : ℕ → ℕ) (jv i c : ℕ) : ℕ := ∑ j ∈ Finset.range c, xd j * tz ((jv : ℤ) + i - j)

theorem qdp_le {xd : ℕ → ℕ} (hx : ∀ j, xd j < 2 ^ 24) (jv i c : ℕ) : qdp xd jv i c ≤ c * 2 ^ 48 := by
  unfold qdp
  refine (Finset.sum_le_card_nsmul _ _ (2 ^ 48) fun j _ => ?_).trans (by simp)
  have h1 := hx j
  have h2 := tz_lt ((jv : ℤ) + i - j)
  calc xd j * tz _ ≤ 2 ^ 24 * 2 ^ 24 := Nat.mul_le_mul h1.le h2.le
    _ = 2 ^ 48 := by norm_num

theorem fv_nat_range {n : ℕ} (h : n ≤ 2 ^ 53) : Mul2 0 (n : ℝ) ∧ |(n : ℝ)| ≤ 2 ^ ((0 : ℤ) + 53) := by
  refine ⟨⟨n, by simp⟩, ?_⟩
  rw [abs_of_nonneg (by positivity)]
  have : (n : ℝ) ≤ (2 ^ 53 : ℕ) := by exact_mod_cast h
  refine this.trans ?_
  norm_num

section
variable {N : FPU f64} {p64 : Bool}

theorem fInit_spec {jv jx m : ℕ} (hjv : jv < 2 ^ 20) (hjx : jx < 20) (hm : m < 20) (ht : jv + m < nTab p64 + jx) :
    Ok (fInit p64 jv jx m) fun f => ∀ i, i ≤ m → Fv (f i) (tz ((jv : ℤ) - jx + i)) := by
  refine Ok.mono (forUp_inv (fun k (f : ℕ → D) => ∀ i, i < k → Fv (f i) (tz ((jv : ℤ) - jx + i))) (by intro i hi; omega) ?_) ?_
  · intro k f _ hk ih
    have hk' : k ≤ m := by omega
    have h1 : i32C ((jv : Int) - jx + k) = .ok ((jv : Int) - jx + k) := i32_ok (by omega) (by omega)
    have h2 : ∃ v, (if (jv : Int) - jx + k < 0 then pure 0#f64.w else do
        let t ← rd (nTab p64) ipio2 ((jv : Int) - jx + k).toNat
        ofI32 t : M D) = .ok v ∧ Fv v (tz ((jv : ℤ) - jx + k)) := by
      by_cases h : (jv : Int) - jx + k < 0
      · rw [if_pos h, tz, if_pos h]
        exact ⟨_, rfl, by simpa using fv_zero⟩
      · rw [if_neg h, tz, if_neg h, rd_ok (by omega)]
        have := ipio2_lt ((jv : Int) - jx + k).toNat
        obtain ⟨r, h3, h4⟩ := ofI32_spec (k := (ipio2 ((jv : Int) - jx + k).toNat : ℕ)) (by omega) (by omega)
        exact ⟨r, h3, by simpa using h4⟩
    obtain ⟨v, h3, h4⟩ := h2
    rw [h1, ok_bind, h3, ok_bind, wr_ok (by omega)]
    refine ⟨_, rfl, fun i hi => ?_⟩
    by_cases hik : i = k
    · subst hik; rw [Function.update_self]; exact h4
    · rw [Function.update_of_ne hik]; exact ih i (by omega)
  · intro f hf i hi
    exact hf i (by omega)

theorem dot_spec {nx : ℕ} {x f : ℕ → D} {xd : ℕ → ℕ} {jv jx i : ℕ} (hx : ∀ j, xd j < 2 ^ 24) (hxv : ∀ j, j < nx → Fv (x j) (xd j))
    (hn : nx = jx + 1) (hjx : jx < 3) (hi : jx + i < 20)
    (hf : ∀ k, k ≤ jx + i → Fv (f k) (tz ((jv : ℤ) - jx + k))) :
    Ok (dot N nx x f jx i) fun r => Fv r (qdp xd jv i (jx + 1)) := by
  have := forUp_inv (c := jx + 1) (i := 0) (s := 0#f64.w) (f := fun j fw => do
    let a ← rd nx x j
    let k ← nsubC (jx + i) j
    let b ← rd 20 f k
    pure (N.add fw (N.mul a b))) (fun c (r : D) => Fv r (qdp xd jv i c)) (by simpa [qdp] using fv_zero) ?_
  · rw [zero_add] at this; exact this
  · intro k r _ hk ih
    have e1 : (jv : ℤ) - jx + (jx + i - k : ℕ) = (jv : ℤ) + i - k := by omega
    have h1 := hf (jx + i - k) (by omega)
    rw [e1] at h1
    have h2 := hxv k (by omega)
    rw [rd_ok (by omega), ok_bind, nsub_ok (by omega), ok_bind, rd_ok (by omega), ok_bind]
    refine ⟨_, rfl, ?_⟩
    have b1 : xd k * tz ((jv : ℤ) + i - k) ≤ 2 ^ 48 := by
      have h1 := hx k
      have h2 := tz_lt ((jv : ℤ) + i - k)
      calc xd k * tz _ ≤ 2 ^ 24 * 2 ^ 24 := Nat.mul_le_mul h1.le h2.le
        _ = 2 ^ 48 := by norm_num
    have b2 := qdp_le hx jv i k
    have e3 : qdp xd jv i (k + 1) = qdp xd jv i k + xd k * tz ((jv : ℤ) + i - k) := by
      unfold qdp; rw [Finset.sum_range_succ]
    have b3 : qdp xd jv i (k + 1) ≤ 2 ^ 53 := by
      rw [e3]
      have : k * 2 ^ 48 ≤ 2 * 2 ^ 48 := Nat.mul_le_mul_right _ (by omega)
      omega
    obtain ⟨g1, g2⟩ := fv_nat_range (show xd k * tz ((jv : ℤ) + i - k) ≤ 2 ^ 53 by omega)
    obtain ⟨g3, g4⟩ := fv_nat_range b3
    have m1 := h2.mul N h1 (j := 0) (by push_cast at g1; exact g1) (by push_cast at g2; exact g2) (by norm_num) (by norm_num)
    rw [e3] at g3 g4 ⊢
    push_cast at g3 g4 ⊢
    exact ih.add N m1 g3 g4 (by norm_num) (by norm_num)

theorem qInit_spec {nx : ℕ} {x f : ℕ → D} {xd : ℕ → ℕ} {jv jx jk : ℕ} (hx : ∀ j, xd j < 2 ^ 24) (hxv : ∀ j, j < nx → Fv (x j) (xd j))
    (hn : nx = jx + 1) (hjx : jx < 3) (hi : jx + jk < 20)
    (hf : ∀ k, k ≤ jx + jk → Fv (f k) (tz ((jv : ℤ) - jx + k))) :
    Ok (qInit N nx x f jx jk) fun q => ∀ i, i ≤ jk → Fv (q i) (qdp xd jv i (jx + 1)) := by
  refine Ok.mono (forUp_inv (fun k (q : ℕ → D) => ∀ i, i < k → Fv (q i) (qdp xd jv i (jx + 1))) (by intro i hi; omega) ?_) ?_
  · intro k q _ hk ih
    obtain ⟨r, h1, h2⟩ := dot_spec (N := N) (i := k) hx hxv hn hjx (by omega) (fun t ht => hf t (by omega))
    rw [h1, ok_bind, wr_ok (by omega)]
    refine ⟨_, rfl, fun i hi => ?_⟩
    by_cases hik : i = k
    · subst hik; rw [Function.update_self]; exact h2
    · rw [Function.update_of_ne hik]; exact ih i (by omega)
  · intro f hf i hi
    exact hf i (by omega)

theorem moreTerms_spec {nx : ℕ} {x f q : ℕ → D} {xd : ℕ → ℕ} {jv jx jz k : ℕ} (hx : ∀ j, xd j < 2 ^ 24)
    (hxv : ∀ j, j < nx → Fv (x j) (xd j)) (hn : nx = jx + 1) (hjx : jx < 3) (hi : jx + jz + k < 20) (ht : jv + jz + k < nTab p64)
    (hf : ∀ k, k ≤ jx + jz → Fv (f k) (tz ((jv : ℤ) - jx + k))) (hq : ∀ i, i ≤ jz → Fv (q i) (qdp xd jv i (jx + 1))) :
    Ok (moreTerms N p64 nx x jv jx jz k f q) fun s => (∀ t, t ≤ jx + (jz + k) → Fv (s.1 t) (tz ((jv : ℤ) - jx + t))) ∧
      ∀ i, i ≤ jz + k → Fv (s.2 i) (qdp xd jv i (jx + 1)) := by
  refine Ok.mono (forUp_inv (fun c (s : (ℕ → D) × (ℕ → D)) => (∀ t, t < jx + c → Fv (s.1 t) (tz ((jv : ℤ) - jx + t))) ∧
      ∀ i, i < c → Fv (s.2 i) (qdp xd jv i (jx + 1))) ⟨fun t ht => hf t (by omega), fun i hi => hq i (by omega)⟩ ?_) ?_
  · intro i s hi1 hi2 ih
    obtain ⟨f, q⟩ := s
    obtain ⟨ih1, ih2⟩ := ih
    have := ipio2_lt (jv + i)
    obtain ⟨v, h3, h4⟩ := ofI32_spec (k := (ipio2 (jv + i) : ℕ)) (by omega) (by omega)
    have hf' : ∀ t, t ≤ jx + i → Fv (Function.update f (jx + i) v t) (tz ((jv : ℤ) - jx + t)) := by
      intro t ht
      by_cases htt : t = jx + i
      · subst htt
        rw [Function.update_self]
        have e : (jv : ℤ) - jx + (jx + i : ℕ) = (jv + i : ℕ) := by omega
        rw [e, tz, if_neg (by omega), Int.toNat_natCast]
        simpa using h4
      · rw [Function.update_of_ne htt]; exact ih1 t (by omega)
    obtain ⟨r, h1, h2⟩ := dot_spec (N := N) (i := i) hx hxv hn hjx (by omega) hf'
    simp only
    rw [rd_ok (by omega), ok_bind, h3, ok_bind, wr_ok (by omega), ok_bind, h1, ok_bind, wr_ok (by omega), ok_bind]
    refine ⟨_, rfl, fun t ht => hf' t (by omega), fun t ht => ?_⟩
    by_cases hik : t = i
    · subst hik; simp only; rw [Function.update_self]; exact h2
    · simp only; rw [Function.update_of_ne hik]; exact ih2 t (by omega)
  · intro s hs
    exact ⟨fun t ht => hs.1 t (by omega), fun i hi => hs.2 i (by omega)⟩

end

/-! ### Normalisation -/

/-- the number with the digits `iq 0, ..., iq (n-1)` -/
def dg (iq : ℕ → ℤ) (n : ℕ) : ℤ := ∑ s ∈ Finset.range n, iq s * 2 ^ (24 * s)

theorem dg_succ (iq : ℕ → ℤ) (n : ℕ) : dg iq (n + 1) = dg iq n + iq n * 2 ^ (24 * n) := Finset.sum_range_succ _ _

theorem dg_congr {iq iq' : ℕ → ℤ} {n : ℕ} (h : ∀ s, s < n → iq s = iq' s) : dg iq n = dg iq' n :=
  Finset.sum_congr rfl fun s hs => by rw [h s (Finset.mem_range.mp hs)]

theorem dg_update {iq : ℕ → ℤ} {n i : ℕ} {v : ℤ} (h : n ≤ i) : dg (Function.update iq i v) n = dg iq n :=
  dg_congr fun s hs => Function.update_of_ne (by omega) _ _

/-- digits -/
def Dig (iq : ℕ → ℤ) (n : ℕ) : Prop := ∀ s, s < n → 0 ≤ iq s ∧ iq s < 2 ^ 24

theorem dg_bounds {iq : ℕ → ℤ} {n : ℕ} (h : Dig iq n) : 0 ≤ dg iq n ∧ dg iq n < 2 ^ (24 * n) := by
  induction n with
  | zero => simp [dg]
  | succ n ih =>
    obtain ⟨h1, h2⟩ := ih fun s hs => h s (by omega)
    obtain ⟨h3, h4⟩ := h n (by omega)
    rw [dg_succ, mul_add, mul_one, pow_add]
    have hp : (0 : ℤ) < 2 ^ (24 * n) := by positivity
    constructor
    · positivity
    · nlinarith

/-- the sum that `distill` normalises: the last `i + 1` of the products -/
def Gs (qd : ℕ → ℕ) (jz : ℕ) : ℕ → ℤ
  | 0 => qd jz
  | i + 1 => qd (jz - (i + 1)) * 2 ^ (24 * (i + 1)) + Gs qd jz i

section
variable {N : FPU f64}

theorem distill_spec {q : ℕ → D} {iq : ℕ → ℤ} {qd : ℕ → ℕ} {jz : ℕ} (hjz : jz < 20) (hq : ∀ i, i ≤ jz → Fv (q i) (qd i))
    (hb : ∀ i, qd i ≤ 3 * 2 ^ 48) :
    Ok (distill N q iq jz) fun r => Dig r.2 jz ∧ ∃ Z : ℕ, Fv r.1 Z ∧ Z ≤ 2 ^ 50 ∧ (Z : ℤ) * 2 ^ (24 * jz) + dg r.2 jz = Gs qd jz jz := by
  have key := forDn_inv (c := jz) (s := (0, q jz, iq)) (f := fun t (s : Nat × D × (Nat → Int)) => do
    let (i, z, iq) := s
    let k ← toI32 (N.mul x1m24 z)
    let fw ← ofI32 k
    let d ← toI32 (N.sub z (N.mul x1p24 fw))
    let iq ← wr 20 iq i d
    let w ← rd 20 q t
    pure (i + 1, N.add w fw, iq))
    (fun k s => s.1 = jz - k ∧ Dig s.2.2 s.1 ∧ ∃ Z : ℕ, Fv s.2.1 Z ∧ Z ≤ 2 ^ 50 ∧
      (Z : ℤ) * 2 ^ (24 * s.1) + dg s.2.2 s.1 = Gs qd jz s.1) ?_ ?_
  · obtain ⟨⟨i, z, iq'⟩, h1, h2, h3, h4⟩ := key
    simp only [Nat.sub_zero] at h2
    subst h2
    refine ⟨(z, iq'), ?_, h3, h4⟩
    unfold distill
    rw [rd_ok (by omega), ok_bind, h1, ok_bind]; rfl
  · refine ⟨by simp, fun s hs => by simp at hs, qd jz, hq jz (le_refl _), ?_, by simp [dg, Gs]⟩
    have := hb jz; omega
  · rintro t ⟨i, z, iq'⟩ ht ⟨h1, h2, Z, h3, h4, h5⟩
    simp only at h1 h2 h3 h4 h5
    have hi : i < 20 := by omega
    -- the quotient
    have hZ := fv_nat_range (show Z ≤ 2 ^ 53 by omega)
    have m1 : Fv (N.mul x1m24 z) (1 / 2 ^ 24 * Z) := by
      refine fv_x1m24.mul N h3 (j := -24) ?_ ?_ (by norm_num) (by norm_num)
      · refine ⟨Z, ?_⟩; rw [zpow_neg]; norm_num; ring
      · rw [abs_of_nonneg (by positivity)]
        have : (Z : ℝ) ≤ 2 ^ 50 := by exact_mod_cast h4
        calc 1 / 2 ^ 24 * (Z : ℝ) ≤ 1 / 2 ^ 24 * 2 ^ 50 := by gcongr
          _ ≤ _ := by norm_num
    have hfl : ⌊(1 / 2 ^ 24 * Z : ℝ)⌋ = ((Z / 2 ^ 24 : ℕ) : ℤ) := by
      have e1 : ((Z / 2 ^ 24 : ℕ) : ℝ) * 2 ^ 24 ≤ Z := by exact_mod_cast Nat.div_mul_le_self Z (2 ^ 24)
      have e2 : (Z : ℝ) < ((Z / 2 ^ 24 : ℕ) : ℝ) * 2 ^ 24 + 2 ^ 24 := by
        exact_mod_cast Nat.lt_div_mul_add (a := Z) (b := 2 ^ 24) (by norm_num)
      rw [Int.floor_eq_iff, Int.cast_natCast]
      constructor <;> linarith
    have hk : toI32 (N.mul x1m24 z) = .ok ((Z / 2 ^ 24 : ℕ) : ℤ) := by
      rw [toI32_floor m1 (by positivity), hfl]
      have : (Z : ℝ) ≤ 2 ^ 50 := by exact_mod_cast h4
      calc 1 / 2 ^ 24 * (Z : ℝ) ≤ 1 / 2 ^ 24 * 2 ^ 50 := by gcongr
        _ < _ := by norm_num
    have hd26 : Z / 2 ^ 24 ≤ 2 ^ 26 := by omega
    obtain ⟨fw, h6, h7⟩ := ofI32_spec (k := ((Z / 2 ^ 24 : ℕ) : ℤ)) (by omega) (by omega)
    rw [Int.cast_natCast] at h7
    -- the digit
    have m2 : Fv (N.mul x1p24 fw) ((2 ^ 24 * (Z / 2 ^ 24) : ℕ) : ℝ) := by
      obtain ⟨g1, g2⟩ := fv_nat_range (show 2 ^ 24 * (Z / 2 ^ 24) ≤ 2 ^ 53 by omega)
      have e : ((2 ^ 24 * (Z / 2 ^ 24) : ℕ) : ℝ) = 2 ^ 24 * ((Z / 2 ^ 24 : ℕ) : ℝ) := by rw [Nat.cast_mul]; norm_num
      rw [e] at g1 g2 ⊢
      exact fv_x1p24.mul N h7 g1 g2 (by norm_num) (by norm_num)
    have e2 : (Z : ℝ) - ((2 ^ 24 * (Z / 2 ^ 24) : ℕ) : ℝ) = ((Z % 2 ^ 24 : ℕ) : ℝ) := by
      have := Nat.div_add_mod Z (2 ^ 24)
      rw [sub_eq_iff_eq_add, ← Nat.cast_add]
      congr 1
      omega
    have hm24 : Z % 2 ^ 24 < 2 ^ 24 := Nat.mod_lt _ (by norm_num)
    have m3 : Fv (N.sub z (N.mul x1p24 fw)) ((Z % 2 ^ 24 : ℕ) : ℝ) := by
      obtain ⟨g1, g2⟩ := fv_nat_range (show Z % 2 ^ 24 ≤ 2 ^ 53 by omega)
      rw [← e2] at g1 g2 ⊢
      exact h3.sub N m2 g1 g2 (by norm_num) (by norm_num)
    have h8 : toI32 (N.sub z (N.mul x1p24 fw)) = .ok ((Z % 2 ^ 24 : ℕ) : ℤ) :=
      toI32_int (by rw [Int.cast_natCast]; exact m3) (by omega) (by omega)
    have hqt := hb t
    have m4 : Fv (N.add (q t) fw) ((qd t + Z / 2 ^ 24 : ℕ) : ℝ) := by
      obtain ⟨g1, g2⟩ := fv_nat_range (show qd t + Z / 2 ^ 24 ≤ 2 ^ 53 by omega)
      rw [Nat.cast_add] at g1 g2 ⊢
      exact (hq t (by omega)).add N h7 g1 g2 (by norm_num) (by norm_num)
    simp only
    rw [hk, ok_bind, h6, ok_bind, h8, ok_bind, wr_ok hi, ok_bind, rd_ok (by omega), ok_bind]
    refine ⟨_, rfl, by simp only; omega, ?_, qd t + Z / 2 ^ 24, m4, by omega, ?_⟩
    · intro s hs
      simp only at hs ⊢
      by_cases hsi : s = i
      · subst hsi; rw [Function.update_self]; omega
      · rw [Function.update_of_ne hsi]; exact h2 s (by omega)
    · simp only
      rw [dg_succ, dg_update (le_refl _), Function.update_self, Gs, show jz - (i + 1) = t by omega, ← h5]
      have := Nat.div_add_mod Z (2 ^ 24)
      have hz : (Z : ℤ) = 2 ^ 24 * (Z / 2 ^ 24 : ℕ) + (Z % 2 ^ 24 : ℕ) := by exact_mod_cast this.symm
      generalize Z / 2 ^ 24 = a at *
      generalize Z % 2 ^ 24 = b at *
      rw [hz, mul_add 24 i 1, mul_one, pow_add]
      push_cast
      ring

end
end Pio2
end Verif
