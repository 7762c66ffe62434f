import Verif.Libm.SqrtIter2
/-! # `sqrt`: argument reduction and final rounding -/
namespace Verif
namespace Fmt
variable (F : Fmt)

/-- `n` is the integer nearest to the square root of `Q` -/
def NearSqrt (Q n : Nat) : Prop := n * n + 1 ≤ Q + n ∧ Q ≤ n * n + n

/-- from the approximation to the integers -/
theorem sqrt_int {m Q : Nat} {X y : ℝ} (hQ : X ^ 2 = Q) (hX : 2 ≤ X) (hy : |y - X| ≤ 1 / 2) (h0 : (m : ℝ) ≤ y) (h1 : y < m + 1) :
    m * m + 1 ≤ Q + m ∧ Q ≤ m * m + 3 * m + 2 := by
  obtain ⟨a1, a2⟩ := abs_le.mp hy
  have hm : (1 : ℝ) ≤ m := by
    have : (0 : ℝ) < m := by linarith
    exact_mod_cast this
  constructor
  · have : ((2 * m - 1 : ℤ) : ℝ) ^ 2 ≤ ((4 * Q : ℤ) : ℝ) := by
      push_cast
      rw [← hQ]
      nlinarith
    have : (2 * (m : ℤ) - 1) ^ 2 ≤ 4 * (Q : ℤ) := by exact_mod_cast this
    have : 4 * ((m : ℤ) * m + 1) ≤ 4 * (Q : ℤ) + 4 * m + 3 := by nlinarith
    generalize hmm : m * m = M2 at *
    have h2 : (m : ℤ) * m = M2 := by rw [← hmm]; push_cast; ring
    rw [h2] at this
    omega
  · have : ((4 * Q : ℤ) : ℝ) < ((2 * m + 3 : ℤ) : ℝ) ^ 2 := by
      push_cast
      rw [← hQ]
      nlinarith
    have : 4 * (Q : ℤ) < (2 * (m : ℤ) + 3) ^ 2 := by exact_mod_cast this
    have : 4 * (Q : ℤ) < 4 * ((m : ℤ) * m) + 12 * m + 9 := by nlinarith
    generalize hmm : m * m = M2 at *
    have h2 : (m : ℤ) * m = M2 := by rw [← hmm]; push_cast; ring
    rw [h2] at this
    omega

theorem nearSqrt_range {P Q n : Nat} (hP : 0 < P) (h : NearSqrt Q n) (h1 : P * P ≤ Q) (h2 : Q + 2 * P ≤ 2 * P * (2 * P)) :
    P ≤ n ∧ n < 2 * P := by
  obtain ⟨a, b⟩ := h
  constructor
  · by_contra hc
    have : n + 1 ≤ P := by omega
    have : n * (n + 1) ≤ n * P := Nat.mul_le_mul_left _ this
    have : n * P < P * P := Nat.mul_lt_mul_of_pos_right (by omega) hP
    nlinarith
  · by_contra hc
    obtain ⟨k, rfl⟩ : ∃ k, n = 2 * P + k := ⟨n - 2 * P, by omega⟩
    nlinarith

theorem toNat_shiftVal (a b : Nat) (w : Nat) (x : BitVec w) (h : (x.toNat : ℤ) = ((a : ℤ) - b) % 2 ^ w) (ha : a < 2 ^ (w - 1))
    (hb : b < 2 ^ (w - 1)) (hw : 1 ≤ w) : x.toNat / 2 ^ (w - 1) = if a < b then 1 else 0 := by
  have e : 2 ^ w = 2 * 2 ^ (w - 1) := by rw [← Nat.pow_succ']; congr 1; omega
  have e' : (2 : ℤ) ^ w = ((2 ^ w : Nat) : ℤ) := by push_cast; ring
  rw [e', e] at h
  have hx := x.isLt
  rw [e] at hx
  generalize x.toNat = X at *
  generalize 2 ^ (w - 1) = H at *
  split
  · have : ((a : ℤ) - b) % ((2 * H : Nat) : ℤ) = (a : ℤ) - b + 2 * H := by
      rw [← Int.add_emod_right, Int.emod_eq_of_lt (by push_cast; omega) (by push_cast; omega)]; push_cast; ring
    rw [this] at h
    rw [Nat.div_eq_of_lt_le] <;> omega
  · have : ((a : ℤ) - b) % ((2 * H : Nat) : ℤ) = (a : ℤ) - b := Int.emod_eq_of_lt (by omega) (by push_cast; omega)
    rw [this] at h
    exact Nat.div_eq_of_lt (by omega)

theorem sqrt_d1 {w : Nat} {m t : BitVec w} {Q : Nat} (hQt : t.toNat = Q % 2 ^ w) :
    (((m - (t - m * m)).toNat : Nat) : ℤ) = ((m.toNat + m.toNat * m.toNat : Nat) - (Q : ℤ)) % 2 ^ w := by
  rw [BitVec.toNat_sub', BitVec.toNat_sub', BitVec.toNat_mul, hQt]
  push_cast
  have hm := m.isLt
  have hQm := Nat.mod_lt Q (Nat.two_pow_pos w)
  have hmm := Nat.mod_lt (m.toNat * m.toNat) (Nat.two_pow_pos w)
  have h1 : (((2 ^ w - m.toNat * m.toNat % 2 ^ w : Nat)) : ℤ) = 2 ^ w - ((m.toNat : ℤ) * m.toNat) % 2 ^ w := by
    rw [Nat.cast_sub hmm.le]; push_cast; rfl
  have h2 : (((2 ^ w - (Q % 2 ^ w + (2 ^ w - m.toNat * m.toNat % 2 ^ w)) % 2 ^ w : Nat)) : ℤ) =
      2 ^ w - ((Q : ℤ) % 2 ^ w + (2 ^ w - ((m.toNat : ℤ) * m.toNat) % 2 ^ w)) % 2 ^ w := by
    rw [Nat.cast_sub (Nat.mod_lt _ (Nat.two_pow_pos w)).le]; push_cast; rw [h1]
  rw [h2]
  rw [Int.emod_eq_emod_iff_emod_sub_eq_zero]
  apply Int.emod_eq_zero_of_dvd
  have m1 := Int.emod_add_mul_ediv (Q : ℤ) (2 ^ w)
  have m2 := Int.emod_add_mul_ediv ((m.toNat : ℤ) * m.toNat) (2 ^ w)
  have m3 := Int.emod_add_mul_ediv ((Q : ℤ) % 2 ^ w + (2 ^ w - ((m.toNat : ℤ) * m.toNat) % 2 ^ w)) (2 ^ w)
  generalize ((Q : ℤ) % 2 ^ w + (2 ^ w - ((m.toNat : ℤ) * m.toNat) % 2 ^ w)) % 2 ^ w = Z at *
  generalize ((Q : ℤ) % 2 ^ w + (2 ^ w - ((m.toNat : ℤ) * m.toNat) % 2 ^ w)) / 2 ^ w = z at *
  generalize (Q : ℤ) % 2 ^ w = A at *
  generalize (Q : ℤ) / 2 ^ w = a at *
  generalize ((m.toNat : ℤ) * m.toNat) / 2 ^ w = b at *
  generalize ((m.toNat : ℤ) * m.toNat) % 2 ^ w = B at *
  refine ⟨a - b + z, ?_⟩
  linear_combination m2 - m1 - m3

theorem nearSqrt_succ {m Q : Nat} (c : m * m + m < Q) (k : Q ≤ m * m + 3 * m + 2) : NearSqrt Q (m + 1) := by
  unfold NearSqrt
  have : (m + 1) * (m + 1) = m * m + 2 * m + 1 := by ring
  rw [this]
  generalize m * m = M2 at *
  omega

theorem sqrtFinish_spec (hes : F.e ≤ F.s + 1) {m_u2 s_u2 : BitVec F.w} {f p : Nat} {σ : ℝ} (hf : f < 2 ^ F.s) (hp : p ≤ 1)
    (hm : m_u2.toNat = (2 ^ F.s + f) * 2 ^ (F.e - p)) (hσ0 : 1 ≤ σ) (hσ : σ ^ 2 = 4 * (m_u2.toNat : ℝ) / 2 ^ F.w)
    (hs : |8 * (s_u2.toNat : ℝ) / 2 ^ F.w - σ| ≤ 1 / 2 ^ (F.s + 1)) :
    Ok (F.sqrtFinish m_u2 s_u2) (fun r => ∃ n, 2 ^ F.s ≤ n ∧ n < 2 ^ (F.s + 1) ∧
      NearSqrt ((2 ^ F.s + f) * 2 ^ (F.s + 1 - p)) n ∧ r.1.toNat = n - 2 ^ F.s) := by
  have he := F.he; have hse := F.hse; have hsb := F.bias_ge; have hs10 := F.hs
  have hw : F.w = F.e + F.s + 1 := rfl
  have hps := F.ps_ge
  unfold sqrtFinish
  refine Ok.bind (shrC_spec (by omega)) ?_
  intro m hmv
  refine Ok.bind (nsubC_spec (by omega)) ?_
  intro sh hsh
  have hsh : sh = F.s + 1 - F.e := by omega
  refine Ok.bind (shlC_spec (by omega)) ?_
  intro t ht
  obtain ⟨Q, hQ⟩ : ∃ Q, Q = (2 ^ F.s + f) * 2 ^ (F.s + 1 - p) := ⟨_, rfl⟩
  rw [← hQ]
  have hQt : t.toNat = Q % 2 ^ F.w := by
    rw [ht, hm, hQ, hsh, Nat.mul_assoc, ← Nat.pow_add]
    congr 3; omega
  -- the integer inequalities
  have key : m.toNat * m.toNat + 1 ≤ Q + m.toNat ∧ Q ≤ m.toNat * m.toNat + 3 * m.toNat + 2 := by
    have e2 : (2 : ℝ) ^ F.w = 2 ^ (F.e - 2) * 8 * 2 ^ F.s := by
      rw [hw, show F.e + F.s + 1 = (F.e - 2) + 3 + F.s by omega, pow_add, pow_add]; norm_num
    obtain ⟨b1, b2⟩ := SqrtReal.floor_bounds s_u2.toNat (2 ^ (F.e - 2)) (Nat.two_pow_pos _)
    rw [← hmv] at b1 b2
    push_cast at b1 b2
    refine sqrt_int (X := σ * 2 ^ F.s) (y := (s_u2.toNat : ℝ) / 2 ^ (F.e - 2)) ?_ ?_ ?_ b1 b2
    · rw [mul_pow, hσ, hm, hQ]
      push_cast
      rw [hw]
      have e3 : (2 : ℝ) ^ (F.e + F.s + 1) * 2 ^ (F.s + 1 - p) = 4 * 2 ^ (F.e - p) * (2 ^ F.s) ^ 2 := by
        rw [← pow_mul, show (4 : ℝ) = 2 ^ 2 by norm_num, ← pow_add, ← pow_add, ← pow_add]; congr 1; omega
      rw [div_mul_eq_mul_div, div_eq_iff (by positivity)]
      linear_combination -((2 : ℝ) ^ F.s + f) * e3
    · have : (1024 : ℝ) ≤ 2 ^ F.s := by exact_mod_cast hps
      nlinarith
    · have e4 : (s_u2.toNat : ℝ) / 2 ^ (F.e - 2) - σ * 2 ^ F.s = (8 * (s_u2.toNat : ℝ) / 2 ^ F.w - σ) * 2 ^ F.s := by
        rw [e2]; field_simp
      rw [e4, abs_mul, abs_of_pos (by positivity : (0 : ℝ) < 2 ^ F.s)]
      calc _ ≤ (1 : ℝ) / 2 ^ (F.s + 1) * 2 ^ F.s := mul_le_mul_of_nonneg_right hs (by positivity)
        _ = 1 / 2 := by rw [pow_succ]; field_simp
  obtain ⟨k1, k2⟩ := key
  -- size of Q
  have q1 : 2 ^ F.s * 2 ^ F.s ≤ Q := by
    rw [hQ]
    exact Nat.mul_le_mul (by omega) (Nat.pow_le_pow_right (by omega) (by omega))
  have q2 : Q + 2 * 2 ^ F.s ≤ 2 * 2 ^ F.s * (2 * 2 ^ F.s) := by
    have : 2 ^ (F.s + 1 - p) ≤ 2 * 2 ^ F.s := by
      rw [← F.ps_succ]; exact Nat.pow_le_pow_right (by omega) (by omega)
    calc Q + 2 * 2 ^ F.s ≤ (2 ^ F.s + f) * (2 * 2 ^ F.s) + 2 * 2 ^ F.s := by
          rw [hQ]; exact Nat.add_le_add_right (Nat.mul_le_mul_left _ this) _
      _ = (2 ^ F.s + f + 1) * (2 * 2 ^ F.s) := by ring
      _ ≤ _ := Nat.mul_le_mul_right _ (by omega)
  have hmb : m.toNat ≤ 2 * 2 ^ F.s := by
    by_contra hc
    obtain ⟨k, hk⟩ : ∃ k, m.toNat = 2 * 2 ^ F.s + 1 + k := ⟨m.toNat - (2 * 2 ^ F.s + 1), by omega⟩
    rw [hk] at k1
    nlinarith
  have hpw : 2 ^ (F.w - 1) = 2 ^ F.e * 2 ^ F.s := by rw [hw, Nat.add_sub_cancel, Nat.pow_add]
  have hpe := F.pe_ge
  have hbig : 32 * 2 ^ F.s ≤ 2 ^ (F.w - 1) := by rw [hpw]; exact Nat.mul_le_mul_right _ hpe
  -- d1
  have hd : (((m - (t - m * m)).toNat : Nat) : ℤ) = ((m.toNat + m.toNat * m.toNat : Nat) - (Q : ℤ)) % 2 ^ F.w := by
    exact sqrt_d1 hQt
  have hd1 : (m - (t - m * m)).toNat / 2 ^ (F.w - 1) = if m.toNat * m.toNat + m.toNat < Q then 1 else 0 := by
    -- reduce to small numbers
    by_cases c : m.toNat * m.toNat + m.toNat < Q
    · obtain ⟨d, hdd⟩ : ∃ d, Q = m.toNat * m.toNat + m.toNat + d := ⟨Q - (m.toNat * m.toNat + m.toNat), by omega⟩
      have := toNat_shiftVal 0 d F.w (m - (t - m * m)) (by rw [hd, hdd]; push_cast; congr 1; ring) (Nat.two_pow_pos _)
        (by rw [hdd] at k2; generalize m.toNat * m.toNat = MM at *; omega) (by omega)
      rw [this, if_pos c, if_pos (by omega)]
    · obtain ⟨d, hdd⟩ : ∃ d, m.toNat * m.toNat + m.toNat = Q + d := ⟨m.toNat * m.toNat + m.toNat - Q, by omega⟩
      have := toNat_shiftVal d 0 F.w (m - (t - m * m)) (by
          rw [hd, Nat.add_comm m.toNat, hdd]; push_cast; congr 1; ring)
        (by generalize m.toNat * m.toNat = MM at *; omega) (Nat.two_pow_pos _) (by omega)
      rw [this, if_neg c, if_neg (by omega)]
  dsimp only
  refine Ok.bind (shrC_spec (by omega)) ?_
  intro b hb
  rw [hd1] at hb
  have hb1 : b.toNat ≤ 1 := by rw [hb]; split <;> omega
  have hpw2 : 2 ^ F.w = 2 * 2 ^ (F.w - 1) := by rw [← Nat.pow_succ']; congr 1
  refine Ok.bind (addC_spec (by omega)) ?_
  intro m' hm'
  have hn : NearSqrt Q m'.toNat := by
    rw [hm', hb]
    split
    · rename_i c
      exact nearSqrt_succ c k2
    · rename_i c
      rw [Nat.add_zero]; exact ⟨by omega, by omega⟩
  obtain ⟨r1, r2⟩ := nearSqrt_range (Nat.two_pow_pos F.s) hn q1 q2
  refine Ok.pure' ⟨m'.toNat, r1, by rw [F.ps_succ]; exact r2, hn, ?_⟩
  dsimp only
  rw [F.toNat_and_sigMask, Nat.mod_eq_sub_mod r1, Nat.mod_eq_of_lt (by omega)]

end Fmt
end Verif
