import Verif.Libm.HexSig
/-! The part of `parse_finite` after the digits have been read. -/
namespace Verif
open HexSpec

theorem packHex_spec {e s : Nat} {sig uexp : BitVec 128} {status : Status} {round : Round} {n g : Nat} {ex : Bool}
    (he : 2 ≤ e) (hes : e + s ≤ 127) (hsig : sig.toNat = g) (hg : g ≤ 2 ^ (s + 1)) (hn : g + uexp.toNat = n)
    (hst : status = if ex then 0#8 else 16#8) :
    Ok (packHex e s sig uexp status round) (fun r => r.1.toNat = packed (inf e s) round.dir n ∧
      r.2 = codeFlags s (inf e s) n ex) := by
  have hps : 0 < 2 ^ s := Nat.two_pow_pos _
  have hpe : 2 ^ 2 ≤ 2 ^ e := Nat.pow_le_pow_right (by omega) he
  have hes2 : 2 ^ e * 2 ^ s ≤ 2 ^ 127 := by
    rw [← Nat.pow_add]; exact Nat.pow_le_pow_right (by omega) hes
  have he2 : 2 ^ e < 2 ^ 128 := Nat.pow_lt_pow_right (by omega) (by omega)
  have hs2 : 2 ^ (s + 1) < 2 ^ 128 := Nat.pow_lt_pow_right (by omega) (by omega)
  have hsucc : 2 ^ (s + 1) = 2 ^ s * 2 := Nat.pow_succ ..
  unfold packHex
  refine Ok.bind (shlC_spec (by omega)) ?_
  intro lim hlim
  rw [show (2#128).toNat = 2 from rfl, Nat.mul_comm, ← hsucc, Nat.mod_eq_of_lt hs2] at hlim
  refine Ok.bind (assertC_spec (decide_eq_true (by rw [BitVec.le_def, hlim, hsig]; exact hg))) ?_
  intro _ _
  refine Ok.bind (shlC_spec (by omega)) ?_
  intro t ht
  rw [show (1#128).toNat = 1 from rfl, Nat.one_mul, Nat.mod_eq_of_lt he2] at ht
  refine Ok.bind (subC_spec (by rw [ht, show (1#128).toNat = 1 from rfl]; omega)) ?_
  intro t' ht'
  rw [ht, show (1#128).toNat = 1 from rfl] at ht'
  refine Ok.bind (shlC_spec (by omega)) ?_
  intro i hi
  have hinfl : inf e s < 2 ^ 128 := by
    unfold inf
    have : (2 ^ e - 1) * 2 ^ s ≤ 2 ^ e * 2 ^ s := Nat.mul_le_mul_right _ (by omega)
    omega
  have hi' : i.toNat = inf e s := by
    rw [hi, ht']; exact Nat.mod_eq_of_lt hinfl
  have hI := inf_ge (s := s) he
  dsimp only
  by_cases hc : sig.toNat + uexp.toNat < 2 ^ 128 ∧ sig + uexp < i
  · rw [if_pos hc]
    have hsum : (sig + uexp).toNat = n := by
      rw [BitVec.toNat_add, Nat.mod_eq_of_lt hc.1, hsig, hn]
    have hlt : n < inf e s := by
      have := hc.2
      rw [BitVec.lt_def, hsum, hi'] at this
      exact this
    refine Ok.bind (shlC_spec (by omega)) ?_
    intro one hone
    rw [show (1#128).toNat = 1 from rfl, Nat.one_mul, Nat.mod_eq_of_lt (by omega)] at hone
    apply Ok.pure'
    refine ⟨?_, ?_⟩
    · show (sig + uexp).toNat = _
      rw [hsum, packed, if_pos hlt]
    · dsimp only
      unfold codeFlags
      rw [if_pos hlt, hst]
      have hlt1 : (sig + uexp < one) ↔ n < 2 ^ s := by rw [BitVec.lt_def, hsum, hone]
      cases ex
      · by_cases h2 : n < 2 ^ s
        · rw [if_pos ⟨by decide, hlt1.mpr h2⟩]; simp [h2]; decide
        · rw [if_neg (fun h => h2 (hlt1.mp h.2))]; simp [h2]
      · rw [if_neg (fun h => absurd h.1 (by decide))]; simp
  · rw [if_neg hc]
    have hge : ¬ n < inf e s := by
      intro h
      apply hc
      have h1 : sig.toNat + uexp.toNat < 2 ^ 128 := by omega
      refine ⟨h1, ?_⟩
      rw [BitVec.lt_def, BitVec.toNat_add, Nat.mod_eq_of_lt h1, hi']
      omega
    have hfl : (status ||| Status.OVERFLOW) ||| Status.INEXACT = codeFlags s (inf e s) n ex := by
      unfold codeFlags
      rw [if_neg hge, hst]
      cases ex <;> decide
    have hpk : packed (inf e s) round.dir n = topOf (inf e s) round.dir := by rw [packed, if_neg hge]
    have hsub : Ok (do
        let r ← subC i 1#128
        pure (r, (status ||| Status.OVERFLOW) ||| Status.INEXACT)) (fun r => r.1.toNat = inf e s - 1 ∧
          r.2 = codeFlags s (inf e s) n ex) := by
      refine Ok.bind (subC_spec (by rw [hi', show (1#128).toNat = 1 from rfl]; omega)) ?_
      intro r hr
      apply Ok.pure'
      refine ⟨?_, hfl⟩
      show r.toNat = _
      rw [hr, hi']; rfl
    rw [hpk]
    cases round
    · exact Ok.pure' ⟨hi', hfl⟩
    · exact hsub
    · exact Ok.pure' ⟨hi', hfl⟩
    · exact hsub

theorem packed_le {I n : Nat} {dir : Dir} : packed I dir n ≤ I := by
  unfold packed topOf
  split
  · omega
  · cases dir <;> simp

/-- The conditions under which the exponent arithmetic of `parse_finite` stays within `i32`; `L` is the position of the
top bit of the significand. -/
def ExpFits (s : Nat) (min_lsb L exp : Int) : Prop :=
  exp + max (L - s) (min_lsb - exp) < 2 ^ 31 ∧ exp + max (L - s) (min_lsb - exp) - min_lsb < 2 ^ 31

theorem finishFinite_spec {e s : Nat} {min_lsb exp : Int} {sig : BitVec 128} {v : ℚ} {round : Round}
    (he : 2 ≤ e) (he2 : e ≤ 29) (hs : 1 ≤ s) (hs2 : s ≤ 119) (hes : e + s ≤ 127)
    (hml : min_lsb = 2 - 2 ^ (e - 1) - s)
    (hv : Sticky v sig.toNat) (h0 : sig ≠ 0#128) (hexp : -2 ^ 31 ≤ exp ∧ exp < 2 ^ 31)
    (hfit : ExpFits s min_lsb (bitLen sig.toNat - 1 : Int) exp) :
    Ok (finishFinite e s min_lsb sig exp round) (fun r => r.1.toNat ≤ inf e s ∧
      ((exp + max ((bitLen sig.toNat - 1 : Int) - s) (min_lsb - exp) - min_lsb) * 2 ^ s < 2 ^ 128 →
      RoundsU s (inf e s) round.dir (v * 2 ^ (exp - min_lsb)) r.1.toNat ∧
      r.2 = flagsU s (inf e s) round.dir (v * 2 ^ (exp - min_lsb)) r.1.toNat)) := by
  have hn0 : sig.toNat ≠ 0 := fun h => h0 (BitVec.eq_of_toNat_eq h)
  have hbp := bitLen_pos hn0
  have hbw := bitLen_le_width sig
  have hpe : (2 : Int) ^ (e - 1) ≤ 2 ^ 28 := by
    exact_mod_cast (Nat.pow_le_pow_right (by omega) (by omega) : 2 ^ (e - 1) ≤ 2 ^ 28)
  have hpe1 : (2 : Int) ≤ 2 ^ (e - 1) := by
    exact_mod_cast (Nat.pow_le_pow_right (by omega) (by omega) : 2 ^ 1 ≤ 2 ^ (e - 1))
  unfold ExpFits at hfit
  have hL : ((127 - nlz sig : Nat) : Int) = (bitLen sig.toNat : Int) - 1 := by unfold nlz; omega
  unfold finishFinite
  rw [hL]
  generalize hb : (bitLen sig.toNat : Int) = B at *
  have hB : 1 ≤ B ∧ B ≤ 128 := by omega
  generalize hP : (2 : Int) ^ (e - 1) = P at *
  refine Ok.bind (i32C_spec (by omega)) ?_
  rintro _ rfl
  refine Ok.bind (i32C_spec (by omega)) ?_
  rintro _ rfl
  have hrb : Ok (if exp < min_lsb - (B - 1 - s) then i32C (min_lsb - exp) else pure (B - 1 - s))
      (· = max (B - 1 - s) (min_lsb - exp)) := by
    split
    · rename_i h
      refine (i32C_spec (by omega)).mono ?_
      rintro _ rfl
      omega
    · exact Ok.pure' (by omega)
  refine Ok.bind hrb ?_
  intro k hk
  rw [← hk] at hfit ⊢
  refine Ok.bind (i32C_spec (by omega)) ?_
  rintro _ rfl
  refine Ok.bind (roundSig_spec hv h0 hs2 (by rw [hb]; omega) (by omega)) ?_
  rintro ⟨sg, st⟩ ⟨a, up, f, hval, hf0, hf1, hsg, hup, hst, ha, ha2⟩
  dsimp only at hsg hst ⊢
  refine Ok.bind (i32C_spec (by omega)) ?_
  rintro _ rfl
  refine Ok.bind (shlC_spec (by omega)) ?_
  intro uexp hu
  obtain ⟨j, hj⟩ : ∃ j : Nat, exp + k - min_lsb = j := ⟨(exp + k - min_lsb).toNat, by omega⟩
  rw [hj] at hu hfit ⊢
  have hof : (BitVec.ofInt 128 (j : Int)).toNat = j := by
    rw [BitVec.toNat_ofInt]
    have : ((j : Int) % ((2 ^ 128 : Nat) : Int)) = j := Int.emod_eq_of_lt (by omega) (by omega)
    rw [this]; rfl
  rw [hof] at hu
  have hup1 := hup.le
  refine (packHex_spec (n := a + up + uexp.toNat) (ex := decide (f = 0)) he hes hsg (by omega) rfl
    (by rw [hst]; by_cases h : f = 0 <;> simp [h])).mono ?_
  rintro ⟨r, fl⟩ ⟨hr, hfl⟩
  refine ⟨by rw [hr]; exact packed_le, fun hwrap => ?_⟩
  have hwrap' : j * 2 ^ s < 2 ^ 128 := by exact_mod_cast hwrap
  rw [hu, Nat.mod_eq_of_lt hwrap', Nat.add_comm] at hr hfl
  dsimp only at hr hfl ⊢
  have hy : v * 2 ^ (exp - min_lsb) = ((a : ℚ) + f) * 2 ^ j := by
    rw [← hval, mul_assoc, ← zpow_natCast, ← zpow_add₀ (by norm_num : (2 : ℚ) ≠ 0)]
    congr 2
    omega
  have hj0 : 2 ^ s ≤ a ∨ j = 0 := by
    by_cases h : B - 1 - s = k
    · exact Or.inl (ha2 (by rw [hb]; exact h))
    · right; omega
  have := round_core he hs ha hj0 hy hf0 hf1 hup
  rw [hr, hfl]
  exact this

theorem finishFinite_fault {e s : Nat} {min_lsb exp : Int} {sig : BitVec 128} {v : ℚ} {round : Round}
    (he : 2 ≤ e) (he2 : e ≤ 29) (hs2 : s ≤ 119)
    (hml : min_lsb = 2 - 2 ^ (e - 1) - s)
    (hv : Sticky v sig.toNat) (h0 : sig ≠ 0#128) (hexp : -2 ^ 31 ≤ exp ∧ exp < 2 ^ 31)
    (hfit : ¬ ExpFits s min_lsb (bitLen sig.toNat - 1 : Int) exp) :
    finishFinite e s min_lsb sig exp round = .error .overflow := by
  have hn0 : sig.toNat ≠ 0 := fun h => h0 (BitVec.eq_of_toNat_eq h)
  have hbp := bitLen_pos hn0
  have hbw := bitLen_le_width sig
  have hpe : (2 : Int) ^ (e - 1) ≤ 2 ^ 28 := by
    exact_mod_cast (Nat.pow_le_pow_right (by omega) (by omega) : 2 ^ (e - 1) ≤ 2 ^ 28)
  have hpe1 : (2 : Int) ≤ 2 ^ (e - 1) := by
    exact_mod_cast (Nat.pow_le_pow_right (by omega) (by omega) : 2 ^ 1 ≤ 2 ^ (e - 1))
  unfold ExpFits at hfit
  have hL : ((127 - nlz sig : Nat) : Int) = (bitLen sig.toNat : Int) - 1 := by unfold nlz; omega
  unfold finishFinite
  rw [hL]
  generalize hb : (bitLen sig.toNat : Int) = B at *
  have hB : 1 ≤ B ∧ B ≤ 128 := by omega
  generalize hP : (2 : Int) ^ (e - 1) = P at *
  have i32 : ∀ {x : Int}, -2 ^ 31 ≤ x ∧ x < 2 ^ 31 → i32C x = .ok x := fun h => (i32C_spec h).eq
  have i32' : ∀ {x : Int}, ¬ x < 2 ^ 31 → i32C x = .error .overflow := by
    intro x h; unfold i32C; rw [if_neg (fun hh => h hh.2)]
  rw [i32 (by omega : -2 ^ 31 ≤ B - 1 - (s : Int) ∧ B - 1 - (s : Int) < 2 ^ 31)]
  simp only [ok_bind]
  rw [i32 (by omega : -2 ^ 31 ≤ min_lsb - (B - 1 - (s : Int)) ∧ min_lsb - (B - 1 - (s : Int)) < 2 ^ 31)]
  simp only [ok_bind]
  have hrb : (if exp < min_lsb - (B - 1 - s) then i32C (min_lsb - exp) else pure (B - 1 - s))
      = .ok (max (B - 1 - s) (min_lsb - exp)) := by
    apply Ok.eq
    split
    · rename_i h
      refine (i32C_spec (by omega)).mono ?_
      rintro _ rfl
      omega
    · exact Ok.pure' (by omega)
  rw [hrb]
  simp only [ok_bind]
  generalize hk : max (B - 1 - (s : Int)) (min_lsb - exp) = k at *
  by_cases h1 : exp + k < 2 ^ 31
  · rw [i32 (by omega)]
    simp only [ok_bind]
    obtain ⟨r, hr, _⟩ := roundSig_spec (round := round) (k := k) hv h0 hs2 (by rw [hb]; omega) (by omega)
    rw [hr]
    simp only [ok_bind]
    rw [i32' (by omega)]
    rfl
  · rw [i32' h1]; rfl

end Verif
