import Verif.Libm.FmaProofs
/-! # Correctness of `fma_round`: alignment, addition, normalisation -/
namespace Verif
namespace Fmt
variable (F : Fmt)

/-- The double word `T` stands for the number `y`: exactly, or up to stickiness once shifted into one word. -/
def StkAt (T : Nat) (y : ℚ) : Prop :=
  (T : ℚ) = y ∨ (2 ^ F.w ≤ T ∧ Stk (stickyShr T (bitLen (T / 2 ^ F.w) + 1)) (y / 2 ^ (bitLen (T / 2 ^ F.w) + 1)))

theorem fmaShift_spec {rhi rlo : BitVec F.w} {nz : Bool} {e : Int} {y : ℚ}
    (hnz : nz = true ↔ rhi ≠ 0#F.w) (hlt : rhi.toNat < 2 ^ (F.w - 2)) (he0 : -2 ^ 30 ≤ e) (he1 : e < 2 ^ 30)
    (h : F.StkAt (rhi.toNat * 2 ^ F.w + rlo.toNat) y) :
    Ok (F.fmaShift rhi rlo nz e) (fun o => match o with
      | none => y = 0
      | some (G, e') => 2 ^ (F.w - 2) ≤ G.toNat ∧ G.toNat < 2 ^ (F.w - 1) ∧ -2 ^ 31 ≤ e' ∧ e' < 2 ^ 31 ∧ y ≠ 0 ∧
          ∃ y', Stk G.toNat y' ∧ y' * 2 ^ e' = y * 2 ^ e) := by
  have he := F.he; have he' := F.he'; have hs' := F.hs'; have hs10 := F.hs
  have hw : F.w = F.e + F.s + 1 := rfl
  have hwp : 0 < F.w := by omega
  have hll := rlo.isLt
  have hTd : (rhi.toNat * 2 ^ F.w + rlo.toNat) / 2 ^ F.w = rhi.toNat := by
    rw [Nat.add_comm, Nat.add_mul_div_right _ _ (Nat.two_pow_pos _), Nat.div_eq_of_lt hll, Nat.zero_add]
  unfold StkAt at h
  rw [hTd] at h
  unfold fmaShift
  dsimp only
  by_cases c : nz = true
  · rw [if_pos c]
    have hr0 := ne_zero_toNat (hnz.mp c)
    obtain ⟨L, hL⟩ : ∃ L, L = bitLen rhi.toNat := ⟨_, rfl⟩
    have hL0 := bitLen_pos hr0
    have hL1 : bitLen rhi.toNat ≤ F.w - 2 := bitLen_le_iff.mpr hlt
    have hb1 := lt_two_pow_bitLen rhi.toNat
    have hb0 := two_pow_le_of_bitLen hr0
    have hnl : (nlz rhi : Int) - 1 = (F.w - L - 1 : Nat) := by unfold nlz; omega
    rw [← hL] at h hL0 hL1 hb1 hb0
    refine Ok.bind (i32C_spec (by omega)) ?_
    rintro _ rfl
    refine Ok.bind (i32C_spec (by rw [hnl]; omega)) ?_
    rintro _ rfl
    rw [hnl]
    obtain ⟨d, hd⟩ : ∃ d, d = F.w - L - 1 := ⟨_, rfl⟩
    rw [← hd]
    refine Ok.bind (shlI_spec (by omega)) ?_
    intro a ha
    refine Ok.bind (i32C_spec (by omega)) ?_
    rintro _ rfl
    refine Ok.bind (shrI_spec (by omega)) ?_
    intro b hb
    refine Ok.bind (shlI_spec (by omega)) ?_
    intro s hs
    refine Ok.bind (i32C_spec (by omega)) ?_
    rintro _ rfl
    rw [show ((F.w : Int) - d).toNat = L + 1 by omega] at hb
    rw [show ((d : Nat) : Int).toNat = d by omega] at ha hs
    rw [show d = F.w - (L + 1) by omega] at hs
    have hpw : 2 ^ F.w = 2 ^ d * 2 ^ (L + 1) := by rw [← Nat.pow_add]; congr 1; omega
    have hpw1 : 2 ^ (F.w - 1) = 2 ^ L * 2 ^ d := by rw [← Nat.pow_add]; congr 1; omega
    have hpw2 : 2 ^ (F.w - 2) = 2 ^ (L - 1) * 2 ^ d := by rw [← Nat.pow_add]; congr 1; omega
    have hpww : 2 ^ F.w = 2 * 2 ^ (F.w - 1) := by rw [← Nat.pow_succ']; congr 1
    have m1 : rhi.toNat * 2 ^ d < 2 ^ (F.w - 1) := by
      rw [hpw1]; exact Nat.mul_lt_mul_of_pos_right hb1 (Nat.two_pow_pos _)
    have m0 : 2 ^ (F.w - 2) ≤ rhi.toNat * 2 ^ d := by
      rw [hpw2]; exact Nat.mul_le_mul_right _ hb0
    rw [Nat.mod_eq_of_lt (by omega)] at ha
    have hbl : b.toNat < 2 ^ d := by
      rw [hb, Nat.div_lt_iff_lt_mul (Nat.two_pow_pos _), ← hpw]; exact hll
    have hTq : (rhi.toNat * 2 ^ F.w + rlo.toNat) / 2 ^ (L + 1) = rhi.toNat * 2 ^ d + rlo.toNat / 2 ^ (L + 1) := by
      rw [hpw, ← Nat.mul_assoc, Nat.add_comm, Nat.add_mul_div_right _ _ (Nat.two_pow_pos _), Nat.add_comm]
    have hTm : (rhi.toNat * 2 ^ F.w + rlo.toNat) % 2 ^ (L + 1) = rlo.toNat % 2 ^ (L + 1) := by
      rw [hpw, ← Nat.mul_assoc, Nat.add_comm, Nat.add_mul_mod_self_right]
    have hab : (a ||| b).toNat = (rhi.toNat * 2 ^ F.w + rlo.toNat) / 2 ^ (L + 1) := by
      rw [BitVec.toNat_or, or_eq_add' hbl (by rw [ha]; exact Dvd.intro_left _ rfl), hTq, ha, hb, Nat.add_comm]
    have hG := toNat_sticky hwp hab (s := s) (by rw [hs, hTm]; exact shl_ne_iff (by omega))
    refine Ok.pure' ?_
    dsimp only
    rw [hG]
    have hTlt : rhi.toNat * 2 ^ F.w + rlo.toNat < 2 ^ (F.w - 1 + (L + 1)) := by
      rw [Nat.pow_add 2 (F.w - 1) (L + 1), hpw1, hpw]
      have : rhi.toNat + 1 ≤ 2 ^ L := hb1
      calc _ < (rhi.toNat + 1) * (2 ^ d * 2 ^ (L + 1)) := by rw [Nat.succ_mul, ← hpw]; omega
        _ ≤ 2 ^ L * (2 ^ d * 2 ^ (L + 1)) := Nat.mul_le_mul_right _ this
        _ = _ := by ring
    have hTge : 2 ^ (F.w - 2 + (L + 1)) ≤ rhi.toNat * 2 ^ F.w + rlo.toNat := by
      rw [Nat.pow_add 2 (F.w - 2) (L + 1), hpw2, hpw]
      calc _ = 2 ^ (L - 1) * (2 ^ d * 2 ^ (L + 1)) := by ring
        _ ≤ rhi.toNat * (2 ^ d * 2 ^ (L + 1)) := Nat.mul_le_mul_right _ hb0
        _ ≤ _ := by omega
    have hy : y ≠ 0 := by
      intro hy0
      rcases h with h | ⟨_, h⟩
      · rw [hy0] at h
        have h' : rhi.toNat * 2 ^ F.w + rlo.toNat = 0 := by exact_mod_cast h
        have := Nat.two_pow_pos (F.w - 2 + (L + 1)); omega
      · have := h.ge_even (A := 2 ^ (F.w - 2)) (by rw [show F.w - 2 = F.w - 3 + 1 by omega, Nat.pow_succ]; omega)
          (stickyShr_ge hTge)
        rw [hy0, zero_div] at this
        have h2 := Nat.two_pow_pos (F.w - 2)
        have : (2 ^ (F.w - 2) : Nat) ≤ 0 := by exact_mod_cast this
        omega
    refine ⟨stickyShr_ge hTge, stickyShr_lt (by omega) hTlt, by omega, by omega, hy, y / 2 ^ (L + 1), ?_, ?_⟩
    · rcases h with h | ⟨_, h⟩
      · rw [← h]; exact (Stk.exact _).shr _
      · exact h
    · rw [show e + (F.w : Int) - d = e + (L + 1 : Nat) by omega, zpow_add₀ (by norm_num), zpow_natCast]
      field_simp
  rw [if_neg c]
  have hr0 : rhi = 0#F.w := by
    by_contra hc; exact c (hnz.mpr hc)
  rw [hr0] at h
  simp only [BitVec.toNat_ofNat, Nat.zero_mod, Nat.zero_mul, Nat.zero_add] at h
  replace h : (rlo.toNat : ℚ) = y := by
    rcases h with h | h
    · exact h
    · omega
  by_cases c1 : rlo ≠ 0#F.w
  case neg =>
    rw [if_neg c1, not_not] at *
    refine Ok.pure' ?_
    dsimp only
    rw [← h, c1]; simp
  rw [if_pos c1]
  have hl0 := ne_zero_toNat c1
  have hy : y ≠ 0 := by rw [← h]; exact_mod_cast hl0
  obtain ⟨L, hL⟩ : ∃ L, L = bitLen rlo.toNat := ⟨_, rfl⟩
  have hL0 := bitLen_pos hl0
  have hL1 := bitLen_le_width rlo
  have hb1 := lt_two_pow_bitLen rlo.toNat
  have hb0 := two_pow_le_of_bitLen hl0
  have hnl : (nlz rlo : Int) - 1 = F.w - L - 1 := by unfold nlz; omega
  rw [← hL] at hL0 hL1 hb1 hb0
  rw [hnl]
  refine Ok.bind (i32C_spec (by omega)) ?_
  rintro _ rfl
  refine Ok.bind (i32C_spec (by omega)) ?_
  rintro _ rfl
  have hpww : 2 ^ F.w = 2 * 2 ^ (F.w - 1) := by rw [← Nat.pow_succ']; congr 1
  have hpw1 : 2 ^ (F.w - 1) = 2 * 2 ^ (F.w - 2) := by rw [← Nat.pow_succ']; congr 1; omega
  by_cases c2 : (F.w : Int) - L - 1 < 0
  · rw [if_pos c2]
    have hLw : L = F.w := by omega
    refine Ok.bind (shrC_spec (by omega)) ?_
    intro t ht
    have hS : (t ||| (rlo &&& 1#F.w)).toNat = stickyShr rlo.toNat 1 := by
      rw [BitVec.toNat_or, BitVec.toNat_and, F.toNat_one', ht, Nat.and_one_is_mod]
      unfold stickyShr
      congr 1
      rw [Nat.pow_one]
      split <;> omega
    refine Ok.pure' ?_
    dsimp only
    rw [hS]
    refine ⟨stickyShr_ge ?_, stickyShr_lt (by omega) ?_, by omega, by omega, hy, y / 2 ^ 1, ?_, ?_⟩
    · rw [show F.w - 2 + 1 = L - 1 by omega]; exact hb0
    · rw [show F.w - 1 + 1 = F.w by omega]; exact hll
    · rw [← h]; exact (Stk.exact _).shr _
    · rw [show e - ((F.w : Int) - L - 1) = e + 1 by omega, zpow_add₀ (by norm_num), zpow_one]
      ring
  · rw [if_neg c2]
    obtain ⟨d, hd⟩ : ∃ d : Nat, (d : Int) = F.w - L - 1 := ⟨F.w - L - 1, by omega⟩
    rw [← hd]
    refine Ok.bind (shlI_spec (by omega)) ?_
    intro t ht
    rw [show ((d : Nat) : Int).toNat = d by omega] at ht
    have hpw1' : 2 ^ (F.w - 1) = 2 ^ L * 2 ^ d := by rw [← Nat.pow_add]; congr 1; omega
    have hpw2 : 2 ^ (F.w - 2) = 2 ^ (L - 1) * 2 ^ d := by rw [← Nat.pow_add]; congr 1; omega
    have m1 : rlo.toNat * 2 ^ d < 2 ^ (F.w - 1) := by
      rw [hpw1']; exact Nat.mul_lt_mul_of_pos_right hb1 (Nat.two_pow_pos _)
    have m0 : 2 ^ (F.w - 2) ≤ rlo.toNat * 2 ^ d := by
      rw [hpw2]; exact Nat.mul_le_mul_right _ hb0
    rw [Nat.mod_eq_of_lt (by omega)] at ht
    refine Ok.pure' ?_
    dsimp only
    rw [ht]
    refine ⟨m0, m1, by omega, by omega, hy, _, Stk.exact _, ?_⟩
    rw [← h, zpow_sub₀ (by norm_num), zpow_natCast]
    push_cast
    field_simp

end Fmt
end Verif
