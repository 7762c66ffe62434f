import Verif.Libm.FmaAlign
/-! # Correctness of `fma_round`: the double-width addition -/
namespace Verif
namespace Fmt
variable (F : Fmt)

theorem bne_zero_iff {w : Nat} (x : BitVec w) : (x != 0#w) = decide (x.toNat ≠ 0) := by
  by_cases h : x = 0#w
  · rw [h]; simp
  · have : x.toNat ≠ 0 := ne_zero_toNat h
    simp [h, this]

theorem fmaAdd_same {neg zneg : Bool} {a : FmaAligned F.w} (hs : neg = zneg) {R Z : Nat}
    (hR : R = a.rhi.toNat * 2 ^ F.w + a.rlo.toNat) (hZ : Z = a.zhi.toNat * 2 ^ F.w + a.zlo.toNat)
    (hlt : R + Z < 2 ^ (F.w - 2) * 2 ^ F.w) :
    Ok (F.fmaAdd neg zneg a) (fun o => o.1 = neg ∧ o.2.1.toNat * 2 ^ F.w + o.2.2.1.toNat = R + Z ∧
      o.2.1.toNat < 2 ^ (F.w - 2) ∧ o.2.2.2 = true) := by
  have he := F.he; have hs10 := F.hs
  have hw : F.w = F.e + F.s + 1 := rfl
  have hwp : 0 < F.w := by omega
  have hpww : 2 ^ F.w = 4 * 2 ^ (F.w - 2) := by
    rw [show (4 : Nat) = 2 ^ 2 from rfl, ← Nat.pow_add]; congr 1; omega
  have hq := Nat.two_pow_pos (F.w - 2)
  unfold fmaAdd
  have : ((!neg) ^^ zneg) = true := by rw [hs]; cases zneg <;> rfl
  dsimp only
  rw [if_pos this]
  have l1 := a.rlo.isLt
  have l2 := a.zlo.isLt
  have h1 : (a.rhi.toNat + a.zhi.toNat) < 2 ^ (F.w - 2) := by
    by_contra hc
    have : 2 ^ (F.w - 2) * 2 ^ F.w ≤ (a.rhi.toNat + a.zhi.toNat) * 2 ^ F.w := Nat.mul_le_mul_right _ (by omega)
    rw [Nat.add_mul] at this; omega
  have hadd : (a.rlo + a.zlo).toNat = (a.rlo.toNat + a.zlo.toNat) % 2 ^ F.w := BitVec.toNat_add _ _
  have hb : (ofBoolW F.w (decide ((a.rlo + a.zlo).toNat < a.zlo.toNat))).toNat =
      (a.rlo.toNat + a.zlo.toNat) / 2 ^ F.w := by
    rw [toNat_ofBoolW hwp, hadd]
    by_cases hc : a.rlo.toNat + a.zlo.toNat < 2 ^ F.w
    · rw [Nat.mod_eq_of_lt hc, Nat.div_eq_of_lt hc, decide_eq_false (by omega)]; rfl
    · rw [Nat.mod_eq_sub_mod (by omega), Nat.mod_eq_of_lt (by omega), decide_eq_true (by omega)]
      show 1 = _
      symm
      exact Nat.div_eq_of_lt_le (by omega) (by omega)
  have hdm := Nat.div_add_mod (a.rlo.toNat + a.zlo.toNat) (2 ^ F.w)
  have hc1 : (a.rlo.toNat + a.zlo.toNat) / 2 ^ F.w ≤ 1 := by
    apply Nat.le_of_lt_succ
    rw [Nat.div_lt_iff_lt_mul (Nat.two_pow_pos _)]; omega
  generalize hcq : (a.rlo.toNat + a.zlo.toNat) / 2 ^ F.w = cq at *
  refine Ok.bind (addC_spec (by rw [hb]; omega)) ?_
  intro t ht
  rw [hb] at ht
  refine Ok.bind (addC_spec (by rw [ht]; omega)) ?_
  intro r hr
  rw [ht] at hr
  have hsum : r.toNat * 2 ^ F.w + (a.rlo + a.zlo).toNat = R + Z := by
    rw [hr, hadd, hR, hZ, Nat.add_mul, Nat.add_mul]
    have : cq * 2 ^ F.w = 2 ^ F.w * cq := Nat.mul_comm _ _
    omega
  refine Ok.pure' ⟨rfl, hsum, ?_, rfl⟩
  dsimp only
  by_contra hc
  have : 2 ^ (F.w - 2) * 2 ^ F.w ≤ r.toNat * 2 ^ F.w := Nat.mul_le_mul_right _ (by omega)
  omega

theorem fmaAdd_diff {neg zneg : Bool} {a : FmaAligned F.w} (hs : neg ≠ zneg) {R Z : Nat}
    (hR : R = a.rhi.toNat * 2 ^ F.w + a.rlo.toNat) (hZ : Z = a.zhi.toNat * 2 ^ F.w + a.zlo.toNat)
    (hlt : R + Z < 2 ^ (F.w - 2) * 2 ^ F.w) :
    Ok (F.fmaAdd neg zneg a) (fun o => o.1 = (if R < Z then !neg else neg) ∧
      o.2.1.toNat * 2 ^ F.w + o.2.2.1.toNat = (if R < Z then Z - R else R - Z) ∧
      o.2.1.toNat < 2 ^ (F.w - 2) ∧ (o.2.2.2 = true ↔ o.2.1 ≠ 0#F.w)) := by
  have he := F.he; have hs10 := F.hs
  have hw : F.w = F.e + F.s + 1 := rfl
  have hwp : 0 < F.w := by omega
  have hpww : 2 ^ F.w = 4 * 2 ^ (F.w - 2) := by
    rw [show (4 : Nat) = 2 ^ 2 from rfl, ← Nat.pow_add]; congr 1; omega
  have hp1 : 2 ^ (F.w - 1) = 2 * 2 ^ (F.w - 2) := by rw [← Nat.pow_succ']; congr 1; omega
  have hq := Nat.two_pow_pos (F.w - 2)
  unfold fmaAdd
  have : ((!neg) ^^ zneg) = false := by cases neg <;> cases zneg <;> simp_all
  dsimp only
  rw [if_neg (by rw [this]; decide)]
  have l1 := a.rlo.isLt
  have l2 := a.zlo.isLt
  have h1 : (a.rhi.toNat + a.zhi.toNat) < 2 ^ (F.w - 2) := by
    by_contra hc
    have : 2 ^ (F.w - 2) * 2 ^ F.w ≤ (a.rhi.toNat + a.zhi.toNat) * 2 ^ F.w := Nat.mul_le_mul_right _ (by omega)
    rw [Nat.add_mul] at this; omega
  obtain ⟨bw, hbw, hbw1⟩ : ∃ bw : Nat, bw = (if a.rlo.toNat < a.zlo.toNat then 1 else 0) ∧ bw ≤ 1 := ⟨_, rfl, by split <;> omega⟩
  have hb : (ofBoolW F.w (decide (a.rlo.toNat < a.zlo.toNat))).toNat = bw := by
    rw [toNat_ofBoolW hwp, hbw]
    split
    · rename_i h; rw [decide_eq_true h]; rfl
    · rename_i h; rw [decide_eq_false h]; rfl
  have hlo : (a.rlo - a.zlo).toNat = bw * 2 ^ F.w + a.rlo.toNat - a.zlo.toNat := by
    rw [BitVec.toNat_sub, hbw]
    split
    · rw [Nat.one_mul, Nat.mod_eq_of_lt (by omega)]; omega
    · rw [show 2 ^ F.w - a.zlo.toNat + a.rlo.toNat = a.rlo.toNat - a.zlo.toNat + 2 ^ F.w by omega, Nat.add_mod_right,
        Nat.mod_eq_of_lt (by omega)]; omega
  have hlolt := (a.rlo - a.zlo).isLt
  have hzb : (a.zhi + ofBoolW F.w (decide (a.rlo.toNat < a.zlo.toNat))).toNat = a.zhi.toNat + bw := by
    rw [BitVec.toNat_add, hb, Nat.mod_eq_of_lt (by omega)]
  have hhi : (a.rhi - (a.zhi + ofBoolW F.w (decide (a.rlo.toNat < a.zlo.toNat)))).toNat =
      if a.rhi.toNat < a.zhi.toNat + bw then 2 ^ F.w + a.rhi.toNat - (a.zhi.toNat + bw) else a.rhi.toNat - (a.zhi.toNat + bw) := by
    rw [BitVec.toNat_sub, hzb]
    split
    · rw [Nat.mod_eq_of_lt (by omega)]; omega
    · rw [show 2 ^ F.w - (a.zhi.toNat + bw) + a.rhi.toNat = a.rhi.toNat - (a.zhi.toNat + bw) + 2 ^ F.w by omega,
        Nat.add_mod_right, Nat.mod_eq_of_lt (by omega)]
  have hborrow : a.rlo.toNat + bw * 2 ^ F.w = a.zlo.toNat + (a.rlo - a.zlo).toNat := by
    rw [hlo, hbw]; split <;> omega
  generalize (a.rlo - a.zlo) = lo at *
  generalize (a.rhi - (a.zhi + ofBoolW F.w (decide (a.rlo.toNat < a.zlo.toNat)))) = hi at *
  refine Ok.bind (shrC_spec (by omega)) ?_
  intro t ht
  have hcmp : R < Z ↔ a.rhi.toNat < a.zhi.toNat + bw := by
    constructor
    · intro h
      by_contra hc
      have : (a.zhi.toNat + bw) * 2 ^ F.w ≤ a.rhi.toNat * 2 ^ F.w := Nat.mul_le_mul_right _ (by omega)
      rw [Nat.add_mul] at this
      omega
    · intro h
      have : (a.rhi.toNat + 1) * 2 ^ F.w ≤ (a.zhi.toNat + bw) * 2 ^ F.w := Nat.mul_le_mul_right _ (by omega)
      rw [Nat.add_mul, Nat.add_mul] at this
      omega
  have htz : t ≠ 0#F.w ↔ R < Z := by
    rw [hcmp]
    constructor
    · intro h
      have := ne_zero_toNat h
      rw [ht] at this
      by_contra hc
      rw [if_neg hc] at hhi
      exact this (Nat.div_eq_of_lt (by omega))
    · intro h hc
      rw [if_pos h] at hhi
      rw [hc] at ht
      have := Nat.div_pos (show 2 ^ (F.w - 1) ≤ hi.toNat by omega) (Nat.two_pow_pos _)
      rw [← ht] at this
      simp at this
  have hbm : bw * 2 ^ F.w ≤ 2 ^ F.w := by
    calc bw * 2 ^ F.w ≤ 1 * 2 ^ F.w := Nat.mul_le_mul_right _ hbw1
      _ = _ := Nat.one_mul _
  by_cases c : R < Z
  · rw [if_pos (htz.mpr c), if_pos c, if_pos c]
    rw [if_pos (hcmp.mp c)] at hhi
    have hlt' := hcmp.mp c
    have hnlo : (-lo).toNat = if lo.toNat = 0 then 0 else 2 ^ F.w - lo.toNat := by
      rw [BitVec.toNat_neg]
      split
      · rename_i h; rw [h, Nat.sub_zero, Nat.mod_self]
      · rw [Nat.mod_eq_of_lt (by omega)]
    have hnhi : (-hi).toNat = a.zhi.toNat + bw - a.rhi.toNat := by
      rw [BitVec.toNat_neg, Nat.mod_eq_of_lt (by omega)]; omega
    obtain ⟨nb, hnb⟩ : ∃ nb : Nat, nb = if lo.toNat = 0 then 0 else 1 := ⟨_, rfl⟩
    have hob : (ofBoolW F.w ((-lo) != 0#F.w)).toNat = nb := by
      rw [toNat_ofBoolW hwp, bne_zero_iff, hnlo, hnb]
      split
      · simp
      · rw [decide_eq_true (by omega)]; rfl
    have hnb1 : nb ≤ 1 := by rw [hnb]; split <;> omega
    refine Ok.bind (subC_spec (by rw [hob, hnhi]; omega)) ?_
    intro r hr
    rw [hob, hnhi] at hr
    have hT : r.toNat * 2 ^ F.w + (-lo).toNat = Z - R := by
      rw [hr, hnlo]
      obtain ⟨g, hg⟩ : ∃ g, a.zhi.toNat + bw = a.rhi.toNat + nb + g := ⟨a.zhi.toNat + bw - a.rhi.toNat - nb, by omega⟩
      have e1 := congrArg (· * 2 ^ F.w) hg
      simp only [Nat.add_mul] at e1
      rw [show a.zhi.toNat + bw - a.rhi.toNat - nb = g by omega]
      by_cases hz : lo.toNat = 0
      · rw [if_pos hz] at hnb ⊢
        rw [hnb] at e1
        omega
      · rw [if_neg hz] at hnb ⊢
        rw [hnb] at e1
        omega
    refine Ok.pure' ⟨rfl, hT, ?_, ?_⟩
    · dsimp only
      by_contra hc
      have : 2 ^ (F.w - 2) * 2 ^ F.w ≤ r.toNat * 2 ^ F.w := Nat.mul_le_mul_right _ (by omega)
      omega
    · dsimp only; simp
  · rw [if_neg (fun h => c (htz.mp h)), if_neg c, if_neg c]
    have hlt' : ¬ a.rhi.toNat < a.zhi.toNat + bw := fun h => c (hcmp.mpr h)
    rw [if_neg hlt'] at hhi
    refine Ok.pure' ⟨rfl, ?_, ?_, ?_⟩
    · dsimp only
      rw [hhi]
      obtain ⟨g, hg⟩ : ∃ g, a.rhi.toNat = a.zhi.toNat + bw + g := ⟨a.rhi.toNat - (a.zhi.toNat + bw), by omega⟩
      have e1 := congrArg (· * 2 ^ F.w) hg
      simp only [Nat.add_mul] at e1
      rw [show a.rhi.toNat - (a.zhi.toNat + bw) = g by omega]
      omega
    · dsimp only; omega
    · dsimp only; simp

end Fmt
end Verif
