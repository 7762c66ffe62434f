import Verif.Libm.SqrtIter
/-! # `sqrtIter`: the error of the fixed-point square root, per format -/
namespace Verif
open SqrtReal

namespace Fmt
variable (F : Fmt)

theorem sqrtIter_of (C : SqrtCfg F) {ix m : BitVec F.w} {P1 P2 P3 : Nat → Prop}
    (h1 : 16 ≤ C.w1) (h12 : C.w1 ≤ C.w2) (h2 : C.w2 ≤ F.w) (hs : F.e ≤ 24)
    (g1 : ∀ r s : BitVec C.w1, r.toNat = rsqrtTab.getD (ix.toNat / 2 ^ (F.s - 6) % 128) 0 * 2 ^ (C.w1 - 16) →
      s.toNat = m.toNat / 2 ^ (F.w - C.w1) → Ok (goldschmidt C.O1 r s C.n1 false) (fun p => P1 p.1.toNat))
    (g2 : ∀ (r s : BitVec C.w2) (R : Nat), P1 R → R < 2 ^ C.w1 → r.toNat = R * 2 ^ (C.w2 - C.w1) →
      s.toNat = m.toNat / 2 ^ (F.w - C.w2) → Ok (goldschmidt C.O2 r s C.n2 false) (fun p => P2 p.1.toNat))
    (g3 : ∀ (r : BitVec F.w) (R : Nat), P2 R → R < 2 ^ C.w2 → r.toNat = R * 2 ^ (F.w - C.w2) →
      Ok (goldschmidt C.O r m C.n3 true) (fun p => P3 p.2.toNat)) :
    Ok (F.sqrtIter C ix m) (fun s => P3 s.toNat) := by
  have hw : F.w = F.e + F.s + 1 := rfl
  have hs' := F.hs
  have h16 : 16 ≤ F.w := by omega
  have hix := ix.isLt
  have hm := m.isLt
  unfold sqrtIter
  refine Ok.bind (shrC_spec (by omega)) ?_
  intro t ht
  have htl : t.toNat < 2 ^ 32 := by
    rw [ht, Nat.div_lt_iff_lt_mul (Nat.two_pow_pos _), ← Nat.pow_add]
    refine Nat.lt_of_lt_of_le hix (Nat.pow_le_pow_right (by norm_num) (by omega))
  refine Ok.bind (castC_spec htl) ?_
  intro t' ht'
  have hi : t'.toNat &&& 0b1111111 = ix.toNat / 2 ^ (F.s - 6) % 128 := by
    rw [ht', ht, show (0b1111111 : Nat) = 2 ^ 7 - 1 from rfl, Nat.and_two_pow_sub_one_eq_mod]
  dsimp only
  rw [hi]
  have hi2 : ix.toNat / 2 ^ (F.s - 6) % 128 < 128 := Nat.mod_lt _ (by norm_num)
  generalize ix.toNat / 2 ^ (F.s - 6) % 128 = i at *
  obtain ⟨hT, -⟩ := tab_check i hi2
  generalize rsqrtTab.getD i 0 = T at *
  refine Ok.bind (castU_spec (Nat.lt_of_lt_of_le hT (Nat.pow_le_pow_right (by norm_num) h1))) ?_
  intro r0 hr0
  refine Ok.bind (shlC_spec (by omega)) ?_
  intro r1 hr1
  rw [hr0, Nat.mod_eq_of_lt (by
    rw [show C.w1 = 16 + (C.w1 - 16) by omega, Nat.pow_add, Nat.add_sub_cancel_left]
    exact Nat.mul_lt_mul_of_pos_right hT (Nat.two_pow_pos _))] at hr1
  refine Ok.bind (shrC_spec (by omega)) ?_
  intro s0 hs0
  have shl : ∀ v ≤ F.w, m.toNat / 2 ^ (F.w - v) < 2 ^ v := by
    intro v hv
    rw [Nat.div_lt_iff_lt_mul (Nat.two_pow_pos _), ← Nat.pow_add, Nat.add_sub_cancel' hv]
    exact hm
  refine Ok.bind (castC_spec (by rw [hs0]; exact shl _ (by omega))) ?_
  intro s1 hs1
  refine Ok.bind (g1 r1 s1 hr1 (by rw [hs1, hs0])) ?_
  rintro ⟨r1', s1'⟩ hp1
  dsimp only at hp1 ⊢
  have hr1l := r1'.isLt
  have wid : ∀ {a b : Nat} (x : BitVec a), a ≤ b → (x.setWidth b).toNat = x.toNat := by
    intro a b x hab
    rw [BitVec.toNat_setWidth, Nat.mod_eq_of_lt (Nat.lt_of_lt_of_le x.isLt (Nat.pow_le_pow_right (by norm_num) hab))]
  have wsh : ∀ {a b R : Nat}, a ≤ b → R < 2 ^ a → R * 2 ^ (b - a) % 2 ^ b = R * 2 ^ (b - a) := by
    intro a b R hab hR
    apply Nat.mod_eq_of_lt
    obtain ⟨k, rfl⟩ := Nat.exists_eq_add_of_le hab
    rw [Nat.add_sub_cancel_left, Nat.pow_add]
    exact Nat.mul_lt_mul_of_pos_right hR (Nat.two_pow_pos _)
  refine Ok.bind (shlC_spec (by omega)) ?_
  intro r2 hr2
  rw [wid _ h12, wsh h12 hr1l] at hr2
  refine Ok.bind (shrC_spec (by omega)) ?_
  intro s2 hs2
  refine Ok.bind (castC_spec (by rw [hs2]; exact shl _ h2)) ?_
  intro s3 hs3
  refine Ok.bind (g2 r2 s3 _ hp1 hr1l hr2 (by rw [hs3, hs2])) ?_
  rintro ⟨r2', s2'⟩ hp2
  dsimp only at hp2 ⊢
  have hr2l := r2'.isLt
  refine Ok.bind (shlC_spec (by omega)) ?_
  intro r3 hr3
  rw [wid _ h2, wsh h2 hr2l] at hr3
  refine Ok.bind (g3 r3 _ hp2 hr2l hr3) ?_
  rintro ⟨r, s⟩ hp3
  exact Ok.pure' hp3

end Fmt

/-- what the iterations deliver -/
def IterSpec (F : Fmt) (C : SqrtCfg F) : Prop := ∀ (ix m : BitVec F.w) (σ : ℝ), InTab (ix.toNat / 2 ^ (F.s - 6) % 128) σ →
    σ ^ 2 = 4 * (m.toNat : ℝ) / 2 ^ F.w →
    Ok (F.sqrtIter C ix m) (fun s => |8 * (s.toNat : ℝ) / 2 ^ F.w - σ| ≤ 1 / 2 ^ (F.s + 1))

theorem iterSpec_f16 : IterSpec f16 SqrtCfg.f16 := by
  intro ix m σ h hm
  refine f16.sqrtIter_of SqrtCfg.f16 (le_refl _) (le_refl _) (le_refl _) (by decide)
    (P1 := fun R => R = rsqrtTab.getD (ix.toNat / 2 ^ (f16.s - 6) % 128) 0)
    (P2 := fun R => R = rsqrtTab.getD (ix.toNat / 2 ^ (f16.s - 6) % 128) 0)
    (P3 := fun s => |8 * (s : ℝ) / 2 ^ f16.w - σ| ≤ 1 / 2 ^ (f16.s + 1)) ?_ ?_ ?_
  · intro r s hr hs
    refine (gold0 (le_refl 16) r s false).mono ?_
    intro p hp
    rw [hp, hr]; exact Nat.mul_one _
  · intro r s R hP hR hr hs
    refine (gold0 (le_refl 16) r s false).mono ?_
    intro p hp
    rw [hp, hr, hP]; exact Nat.mul_one _
  · intro r R hP hR hr
    refine (gold2f (w := f16.w) (O := SqrtCfg.f16.O) (DOps.prim_lawful 16) (le_refl 16) r m).mono ?_
    rintro p ⟨S1, hS, h2⟩
    have hr : r.toNat = rsqrtTab.getD (ix.toNat / 2 ^ (f16.s - 6) % 128) 0 := by rw [hr, hP]; exact Nat.mul_one _
    rw [h2, hS, hr]
    exact iter16 h hm

theorem iterSpec_f32 : IterSpec f32 SqrtCfg.f32 := by
  intro ix m σ h hm
  refine f32.sqrtIter_of SqrtCfg.f32 (by decide) (le_refl _) (le_refl _) (by decide)
    (P1 := fun R => R = rsqrtTab.getD (ix.toNat / 2 ^ (f32.s - 6) % 128) 0 * 2 ^ (32 - 16))
    (P2 := fun R => R = rsqrtTab.getD (ix.toNat / 2 ^ (f32.s - 6) % 128) 0 * 2 ^ (32 - 16))
    (P3 := fun s => |8 * (s : ℝ) / 2 ^ f32.w - σ| ≤ 1 / 2 ^ (f32.s + 1)) ?_ ?_ ?_
  · intro r s hr hs
    refine (gold0 (w := 32) (by decide) r s false).mono ?_
    intro p hp
    rw [hp, hr]; rfl
  · intro r s R hP hR hr hs
    refine (gold0 (w := 32) (by decide) r s false).mono ?_
    intro p hp
    rw [hp, hr, hP]; exact Nat.mul_one _
  · intro r R hP hR hr
    refine (gold3f (w := f32.w) (O := SqrtCfg.f32.O) (DOps.prim_lawful 32) (by decide) r m).mono ?_
    rintro p ⟨S1, U1, R1, S2, hS, hU, hR1, hS2, h2⟩
    have hr : r.toNat = rsqrtTab.getD (ix.toNat / 2 ^ (f32.s - 6) % 128) 0 * 2 ^ (32 - 16) := by rw [hr, hP]; exact Nat.mul_one _
    rw [h2, hS2, hR1, hU]
    exact iter32 h hm hr hS

theorem iterSpec_f64 : IterSpec f64 SqrtCfg.f64 := by
  intro ix m σ h hm
  obtain ⟨b1, b2⟩ := h.σ_bounds
  refine f64.sqrtIter_of SqrtCfg.f64 (by decide) (le_refl _) (by decide) (by decide)
    (P1 := fun R => R = rsqrtTab.getD (ix.toNat / 2 ^ (f64.s - 6) % 128) 0 * 2 ^ (32 - 16))
    (P2 := fun R => R < 2 ^ 32 ∧ |1 - (R : ℝ) / 2 ^ 32 * σ| ≤ 14 / 2 ^ 32)
    (P3 := fun s => |8 * (s : ℝ) / 2 ^ f64.w - σ| ≤ 1 / 2 ^ (f64.s + 1)) ?_ ?_ ?_
  · intro r s hr hs
    refine (gold0 (w := 32) (by decide) r s false).mono ?_
    intro p hp
    rw [hp, hr]; rfl
  · intro r s R hP hR hr hs
    refine (gold2 (w := SqrtCfg.f64.w2) (O := SqrtCfg.f64.O2) (DOps.prim_lawful 32) (by decide) r s).mono ?_
    rintro p ⟨S1, U1, R1, S2, hS, hU, hR1, hS2, h2⟩
    have hr : r.toNat = rsqrtTab.getD (ix.toNat / 2 ^ (f64.s - 6) % 128) 0 * 2 ^ (32 - 16) := by rw [hr, hP]; exact Nat.mul_one _
    have hS : S1 = m.toNat / 2 ^ (64 - 32) * r.toNat / 2 ^ 32 := by rw [hS, hs]; rfl
    obtain ⟨R2, e, k1, k2⟩ := iter64a h hm hr hS
    have e' : p.1.toNat = R2 := by rw [h2, hS2, hR1, hU, e]; rfl
    rw [e']
    exact ⟨k1, k2⟩
  · intro r R hP hR hr
    refine (gold2f (w := f64.w) (O := SqrtCfg.f64.O) (DOps.prim_lawful 64) (by decide) r m).mono ?_
    rintro p ⟨S1, hS, h2⟩
    rw [h2, hS, hr]
    refine le_trans (iterLast (k := 32) (W := 64) b1 b2 rfl (le_refl _) hm hP.1 hP.2 (by norm_num)) ?_
    show _ ≤ (1 : ℝ) / 2 ^ (52 + 1)
    norm_num

theorem iterSpec_f128 : IterSpec f128 SqrtCfg.f128 := by
  intro ix m σ h hm
  obtain ⟨b1, b2⟩ := h.σ_bounds
  refine f128.sqrtIter_of SqrtCfg.f128 (by decide) (by decide) (by decide) (by decide)
    (P1 := fun R1 => R1 < 2 ^ 32 ∧ |1 - (R1 : ℝ) / 2 ^ 32 * σ| ≤ 152 / 100 / 65536 ∧
      (σ ≤ 1 + (13 / 5) * (4 / 2 ^ 64) → 225 / 10000000 ≤ 1 - (R1 : ℝ) / 2 ^ 32 * σ))
    (P2 := fun R => R < 2 ^ 64 ∧ |1 - (R : ℝ) / 2 ^ 64 * σ| ≤ 29 / 2 ^ 64)
    (P3 := fun s => |8 * (s : ℝ) / 2 ^ f128.w - σ| ≤ 1 / 2 ^ (f128.s + 1)) ?_ ?_ ?_
  · intro r s hr hs
    refine (gold1 (w := SqrtCfg.f128.w1) (O := SqrtCfg.f128.O1) (DOps.prim_lawful 32) (by decide) r s).mono ?_
    intro p hp
    obtain ⟨R1, e, k1⟩ := iter128a h hm (R := r.toNat) hr (S1 := s.toNat * r.toNat / 2 ^ 32) (by rw [hs]; rfl)
    have e' : p.1.toNat = R1 := by rw [hp, e]; rfl
    rw [e']
    exact k1
  · intro r s R hP hR hr hs
    refine (gold2 (w := SqrtCfg.f128.w2) (O := SqrtCfg.f128.O2) (DOps.prim_lawful 64) (by decide) r s).mono ?_
    rintro p ⟨S1, U1, R1, S2, hS, hU, hR1, hS2, h2⟩
    have hS : S1 = m.toNat / 2 ^ (128 - 64) * r.toNat / 2 ^ 64 := by rw [hS, hs]; rfl
    obtain ⟨R2, e, k1, k2⟩ := iter128b b1 b2 hm hP.1 hP.2.1 hP.2.2 hr hS
    have e' : p.1.toNat = R2 := by rw [h2, hS2, hR1, hU, e]; rfl
    rw [e']
    exact ⟨k1, k2⟩
  · intro r R hP hR hr
    refine (gold2f (w := f128.w) (O := SqrtCfg.f128.O) (DOps.wide_lawful (g := 64) (k := 6) rfl) (by decide) r m).mono ?_
    rintro p ⟨S1, hS, h2⟩
    rw [h2, hS, hr]
    refine le_trans (iterLast (k := 64) (W := 128) b1 b2 rfl (by norm_num) hm hP.1 hP.2 (by norm_num)) ?_
    show _ ≤ (1 : ℝ) / 2 ^ (112 + 1)
    norm_num

end Verif
