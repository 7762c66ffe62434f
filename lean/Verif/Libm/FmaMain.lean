import Verif.Libm.FmaAdd
/-! # Correctness of `fma_round`: alignment of the operands -/
namespace Verif

/-- `n` and `y` lie in the same open cell of width `2^j` -/
structure Cell (j n : Nat) (y : ℚ) : Prop where
  md : n % 2 ^ j ≠ 0
  lo : ((n / 2 ^ j : Nat) : ℚ) * 2 ^ j < y
  hi : y < ((n / 2 ^ j : Nat) + 1 : ℚ) * 2 ^ j

theorem Cell.stk {j n : Nat} {y : ℚ} (h : Cell j n y) : Stk (stickyShr n j) (y / 2 ^ j) := by
  obtain ⟨h0, h1, h2⟩ := h
  have hp : (0 : ℚ) < 2 ^ j := by positivity
  rw [← lt_div_iff₀ hp] at h1
  rw [← div_lt_iff₀ hp] at h2
  rw [stickyShr_eq]
  generalize n / 2 ^ j = q at *
  by_cases hq : q % 2 = 0
  · rw [if_pos ⟨h0, hq⟩]
    refine Or.inr ⟨by omega, ?_, ?_⟩ <;> push_cast <;> linarith
  · rw [if_neg (fun h => hq h.2)]
    refine Or.inr ⟨by omega, ?_, ?_⟩ <;> linarith

theorem Cell.add {j R A : Nat} {ρ : ℚ} (h : Cell j R ρ) : Cell j (A * 2 ^ j + R) ((A * 2 ^ j : Nat) + ρ) := by
  obtain ⟨h0, h1, h2⟩ := h
  have hd : (A * 2 ^ j + R) / 2 ^ j = A + R / 2 ^ j := by
    rw [Nat.add_comm, Nat.add_mul_div_right _ _ (Nat.two_pow_pos _), Nat.add_comm]
  refine ⟨?_, ?_, ?_⟩
  · rw [Nat.add_comm, Nat.add_mul_mod_self_right]; exact h0
  · rw [hd]; push_cast; linarith
  · rw [hd]; push_cast; linarith

theorem Cell.sub {j R A : Nat} {ρ : ℚ} (h : Cell j R ρ) (hle : R ≤ A * 2 ^ j) :
    Cell j (A * 2 ^ j - R) ((A * 2 ^ j : Nat) - ρ) := by
  obtain ⟨h0, h1, h2⟩ := h
  have hdm := Nat.div_add_mod R (2 ^ j)
  have hlt := Nat.mod_lt R (Nat.two_pow_pos j)
  have hlt2 : R / 2 ^ j < A := by
    by_contra hc
    have : A * 2 ^ j ≤ R / 2 ^ j * 2 ^ j := Nat.mul_le_mul_right _ (by omega)
    rw [Nat.mul_comm (R / 2 ^ j)] at this
    omega
  obtain ⟨g, rfl⟩ : ∃ g, A = R / 2 ^ j + 1 + g := ⟨A - R / 2 ^ j - 1, by omega⟩
  have e : (R / 2 ^ j + 1 + g) * 2 ^ j - R = g * 2 ^ j + (2 ^ j - R % 2 ^ j) := by
    rw [Nat.add_mul, Nat.add_mul, Nat.mul_comm (R / 2 ^ j)]; omega
  have hd : (g * 2 ^ j + (2 ^ j - R % 2 ^ j)) / 2 ^ j = g := by
    rw [Nat.add_comm, Nat.add_mul_div_right _ _ (Nat.two_pow_pos _), Nat.div_eq_of_lt (by omega), Nat.zero_add]
  rw [e]
  refine ⟨?_, ?_, ?_⟩
  · rw [Nat.add_comm, Nat.add_mul_mod_self_right, Nat.mod_eq_of_lt (by omega)]; omega
  · rw [hd]; push_cast; linarith
  · rw [hd]; push_cast; linarith

namespace Fmt
variable (F : Fmt)

/-- What the alignment stage guarantees: the two double words stand for the two exact operands `vp = |x y|`, `vz = |z|`. -/
def AlignOk (a : FmaAligned F.w) (vp vz : ℚ) : Prop :=
  ∃ (R Z : Nat) (ρ ζ : ℚ), R = a.rhi.toNat * 2 ^ F.w + a.rlo.toNat ∧ Z = a.zhi.toNat * 2 ^ F.w + a.zlo.toNat ∧
    ρ * 2 ^ a.e = vp ∧ ζ * 2 ^ a.e = vz ∧ R + Z < 2 ^ (F.w - 2) * 2 ^ F.w ∧ 2 ^ F.w ≤ R + Z ∧
    F.StkAt (R + Z) (ρ + ζ) ∧ (Z ≤ R → F.StkAt (R - Z) (ρ - ζ)) ∧ (R < Z → F.StkAt (Z - R) (ζ - ρ)) ∧
    -2 ^ 30 ≤ a.e ∧ a.e < 2 ^ 30

/-- exact operands -/
theorem alignOk_exact {a : FmaAligned F.w} {R Z : Nat} {vp vz : ℚ} (hR : R = a.rhi.toNat * 2 ^ F.w + a.rlo.toNat)
    (hZ : Z = a.zhi.toNat * 2 ^ F.w + a.zlo.toNat) (hp : (R : ℚ) * 2 ^ a.e = vp) (hz : (Z : ℚ) * 2 ^ a.e = vz)
    (hlt : R + Z < 2 ^ (F.w - 2) * 2 ^ F.w) (hge : 2 ^ F.w ≤ R + Z) (he : -2 ^ 30 ≤ a.e ∧ a.e < 2 ^ 30) :
    F.AlignOk a vp vz := by
  refine ⟨R, Z, R, Z, hR, hZ, hp, hz, hlt, hge, Or.inl (by push_cast; ring), fun h => Or.inl (by rw [Nat.cast_sub h]),
    fun h => Or.inl (by rw [Nat.cast_sub h.le]), he.1, he.2⟩

/-- `z` shifted out below the product -/
theorem alignOk_z {a : FmaAligned F.w} {R Z : Nat} {ζ vp vz : ℚ} (hR : R = a.rhi.toNat * 2 ^ F.w + a.rlo.toNat)
    (hZ : Z = a.zhi.toNat * 2 ^ F.w + a.zlo.toNat) (hp : (R : ℚ) * 2 ^ a.e = vp) (hz : ζ * 2 ^ a.e = vz)
    (hlt : R + Z < 2 ^ (F.w - 2) * 2 ^ F.w) (hge : 2 ^ F.w + Z ≤ R) (he : -2 ^ 30 ≤ a.e ∧ a.e < 2 ^ 30)
    (hev : R % 2 = 0) (hs : Stk Z ζ) : F.AlignOk a vp vz := by
  refine ⟨R, Z, R, ζ, hR, hZ, hp, hz, hlt, by omega, Or.inr ⟨by omega, (hs.even_add hev).shr _⟩, fun h =>
    Or.inr ⟨by omega, (hs.even_sub hev h).shr _⟩, fun h => by omega, he.1, he.2⟩

/-- the product shifted out below `z` -/
theorem alignOk_p {a : FmaAligned F.w} {R m : Nat} {ρ vp vz : ℚ} (hR : R = a.rhi.toNat * 2 ^ F.w + a.rlo.toNat)
    (hzh : a.zhi.toNat = m) (hzl : a.zlo.toNat = 0) (hp : ρ * 2 ^ a.e = vp) (hz : ((m * 2 ^ F.w : Nat) : ℚ) * 2 ^ a.e = vz)
    (hlt : R + m * 2 ^ F.w < 2 ^ (F.w - 2) * 2 ^ F.w) (hm : 2 ^ (F.s + 1) ≤ m) (hRl : R < 2 ^ F.w * 2 ^ F.s)
    (he : -2 ^ 30 ≤ a.e ∧ a.e < 2 ^ 30)
    (hs : ∀ j, F.s + 2 ≤ j → j < F.w → Cell j R ρ) : F.AlignOk a vp vz := by
  have hw : F.w = F.e + F.s + 1 := rfl
  have h5 := F.he
  have hps := F.ps_succ
  have hpp := Nat.two_pow_pos F.s
  have hmp : 2 ^ (F.s + 1) * 2 ^ F.w ≤ m * 2 ^ F.w := Nat.mul_le_mul_right _ hm
  have hle : 2 ^ F.s * 2 ^ F.w + 2 ^ F.s * 2 ^ F.w ≤ m * 2 ^ F.w := by
    rw [← Nat.add_mul, ← Nat.two_mul, ← hps]; exact hmp
  have hRl' : R < 2 ^ F.s * 2 ^ F.w := by rw [Nat.mul_comm]; exact hRl
  have hone : 2 ^ F.w ≤ 2 ^ F.s * 2 ^ F.w := Nat.le_mul_of_pos_left _ hpp
  -- the shift of a sum `T`
  have key : ∀ T : Nat, 2 ^ F.s * 2 ^ F.w ≤ T → T < 2 ^ (F.w - 2) * 2 ^ F.w →
      F.s + 2 ≤ bitLen (T / 2 ^ F.w) + 1 ∧ bitLen (T / 2 ^ F.w) + 1 < F.w := by
    intro T h1 h2
    have a1 : 2 ^ F.s ≤ T / 2 ^ F.w := by rwa [Nat.le_div_iff_mul_le (Nat.two_pow_pos _)]
    have a2 : T / 2 ^ F.w < 2 ^ (F.w - 2) := by rwa [Nat.div_lt_iff_lt_mul (Nat.two_pow_pos _)]
    have b2 := bitLen_le_iff.mpr a2
    have b1 : ¬ bitLen (T / 2 ^ F.w) ≤ F.s := by rw [bitLen_le_iff]; omega
    omega
  have hsplit : ∀ j, j < F.w → m * 2 ^ F.w = m * 2 ^ (F.w - j) * 2 ^ j := by
    intro j hj
    rw [Nat.mul_assoc, ← Nat.pow_add]; congr 2; omega
  refine ⟨R, m * 2 ^ F.w, ρ, ((m * 2 ^ F.w : Nat) : ℚ), hR, by rw [hzh, hzl, Nat.add_zero], hp, hz, hlt, by omega, ?_, fun h => by omega,
    ?_, he.1, he.2⟩
  · rw [Nat.add_comm] at hlt ⊢
    obtain ⟨k1, k2⟩ := key _ (by omega) hlt
    refine Or.inr ⟨by omega, ?_⟩
    have := (hs _ k1 k2).add (A := m * 2 ^ (F.w - (bitLen ((m * 2 ^ F.w + R) / 2 ^ F.w) + 1)))
    rw [← hsplit _ k2] at this
    rw [add_comm ρ]
    exact this.stk
  · intro hlt2
    obtain ⟨k1, k2⟩ := key (m * 2 ^ F.w - R) (by omega) (by omega)
    refine Or.inr ⟨by omega, ?_⟩
    have := (hs _ k1 k2).sub (A := m * 2 ^ (F.w - (bitLen ((m * 2 ^ F.w - R) / 2 ^ F.w) + 1)))
      (by rw [← hsplit _ k2]; omega)
    rw [← hsplit _ k2] at this
    exact this.stk

/-- a normalised non-zero finite operand -/
structure NormOk (n : FmaNorm F.w) : Prop where
  lo : 2 ^ (F.s + 1) ≤ n.m.toNat
  hi : n.m.toNat < 2 ^ (F.s + 2)
  ev : n.m.toNat % 2 = 0
  e0 : -2 ^ 20 ≤ n.e
  e1 : n.e ≤ 2 ^ 20

/-- fma.rs 74-76 loses the sticky bit: the product `P` is shifted right by `k`, bits are shifted out, but the sticky bit is
computed from the already shifted low word. -/
def StickyLost (P : Nat) (D : Int) : Prop :=
  (F.w : Int) < D ∧ D < 2 * F.w ∧ P % 2 ^ (D - F.w).toNat ≠ 0 ∧ P / 2 ^ (D - F.w).toNat % 2 ^ (D - F.w).toNat = 0

set_option maxHeartbeats 1000000 in
theorem fmaAlign_spec {O : DOps F.w} (hO : O.Lawful) (hF : FmaCfg F) {nx ny nz : FmaNorm F.w} (hx : F.NormOk nx)
    (hy : F.NormOk ny) (hz : F.NormOk nz) (hb : ¬ F.StickyLost (nx.m.toNat * ny.m.toNat) (nz.e - (nx.e + ny.e))) :
    Ok (F.fmaAlign O nx ny nz) (fun a => F.AlignOk a ((nx.m.toNat * ny.m.toNat : Nat) * 2 ^ (nx.e + ny.e))
      (nz.m.toNat * 2 ^ nz.e)) := by
  have h5 := F.he; have he' := F.he'; have hs' := F.hs'; have hs10 := F.hs
  have hw : F.w = F.e + F.s + 1 := rfl
  have hwp : 0 < F.w := by omega
  have hes := hF.hes
  obtain ⟨x1, x2, x3, x4, x5⟩ := hx
  obtain ⟨y1, y2, y3, y4, y5⟩ := hy
  obtain ⟨z1, z2, z3, z4, z5⟩ := hz
  have hP0 : 2 ^ (2 * F.s + 2) ≤ nx.m.toNat * ny.m.toNat := by
    calc 2 ^ (2 * F.s + 2) = 2 ^ (F.s + 1) * 2 ^ (F.s + 1) := by rw [← Nat.pow_add]; congr 1; omega
      _ ≤ _ := Nat.mul_le_mul x1 y1
  have hP1 : nx.m.toNat * ny.m.toNat < 2 ^ (2 * F.s + 4) := by
    calc _ < 2 ^ (F.s + 2) * 2 ^ (F.s + 2) := Nat.mul_lt_mul'' x2 y2
      _ = _ := by rw [← Nat.pow_add]; congr 1; omega
  have hPe : nx.m.toNat * ny.m.toNat % 2 = 0 := by rw [Nat.mul_mod, x3]; simp
  unfold fmaAlign
  refine Ok.bind (hO.widenMul _ _) ?_
  intro p hp
  rw [DOps.val] at hp
  generalize hPd : nx.m.toNat * ny.m.toNat = P at *
  obtain ⟨m, hm⟩ : ∃ m, m = nz.m.toNat := ⟨_, rfl⟩
  rw [← hm] at z1 z2 z3 ⊢
  have hlo := (O.lo p).isLt
  have hww : 2 ^ F.w * 2 ^ F.w = 2 ^ (F.w + F.w) := (Nat.pow_add _ _ _).symm
  -- size facts
  have hw2 : 2 ^ (F.s + 3) * 2 ^ F.w ≤ 2 ^ (F.w - 2) * 2 ^ F.w :=
    Nat.mul_le_mul_right _ (Nat.pow_le_pow_right (by omega) (by omega))
  have hs3 : 2 ^ (F.s + 3) * 2 ^ F.w = 2 ^ (F.s + 2) * 2 ^ F.w + 2 ^ (F.s + 2) * 2 ^ F.w := by
    rw [← Nat.add_mul, ← Nat.two_mul, ← Nat.pow_succ']
  have hPw : 2 ^ (2 * F.s + 4) ≤ 2 ^ (F.s + 2) * 2 ^ F.w := by
    rw [← Nat.pow_add]; exact Nat.pow_le_pow_right (by omega) (by omega)
  have hzw : m * 2 ^ F.w < 2 ^ (F.s + 2) * 2 ^ F.w := Nat.mul_lt_mul_of_pos_right z2 (Nat.two_pow_pos _)
  have hPw0 : 2 ^ F.w + 2 ^ (F.s + 3) ≤ 2 ^ (2 * F.s + 2) := by
    have : 2 ^ (2 * F.s + 2) = 2 ^ (2 * F.s + 1) + 2 ^ (2 * F.s + 1) := by rw [← Nat.two_mul, ← Nat.pow_succ']
    have a1 : 2 ^ F.w ≤ 2 ^ (2 * F.s + 1) := Nat.pow_le_pow_right (by omega) (by omega)
    have a2 : 2 ^ (F.s + 3) ≤ 2 ^ (2 * F.s + 1) := Nat.pow_le_pow_right (by omega) (by omega)
    omega
  have hs23 : 2 ^ (F.s + 3) = 2 * 2 ^ (F.s + 2) := Nat.pow_succ'
  refine Ok.bind (i32C_spec (by omega)) ?_
  rintro _ rfl
  refine Ok.bind (i32C_spec (by omega)) ?_
  rintro _ rfl
  obtain ⟨E, hE⟩ : ∃ E, E = nx.e + ny.e := ⟨_, rfl⟩
  rw [← hE] at hb ⊢
  dsimp only
  by_cases c1 : nz.e - E > 0
  · rw [if_pos c1]
    by_cases c2 : nz.e - E < F.w
    · rw [if_pos c2]
      obtain ⟨D, hD⟩ : ∃ D : Nat, (D : Int) = nz.e - E := ⟨(nz.e - E).toNat, by omega⟩
      rw [← hD] at c1 c2 ⊢
      refine Ok.bind (shlI_spec (by omega)) ?_
      intro zlo hzlo
      refine Ok.bind (i32C_spec (by omega)) ?_
      rintro _ rfl
      refine Ok.bind (shrI_spec (by omega)) ?_
      intro zhi hzhi
      rw [← hm, show ((D : Nat) : Int).toNat = D by omega] at hzlo
      rw [← hm, show ((F.w : Int) - D).toNat = F.w - D by omega] at hzhi
      have hpw : 2 ^ F.w = 2 ^ (F.w - D) * 2 ^ D := by rw [← Nat.pow_add]; congr 1; omega
      have hZ : m * 2 ^ D = zhi.toNat * 2 ^ F.w + zlo.toNat := by
        rw [hzlo, hzhi, hpw, Nat.mul_mod_mul_right, ← Nat.mul_assoc, ← Nat.add_mul, Nat.mul_comm (m / _), Nat.div_add_mod]
      have hZl : m * 2 ^ D ≤ m * 2 ^ F.w := Nat.mul_le_mul_left _ (Nat.pow_le_pow_right (by omega) (by omega))
      refine Ok.pure' (F.alignOk_exact (R := P) (Z := m * 2 ^ D) hp.symm hZ rfl ?_ (by omega) (by omega) (by dsimp only; omega))
      dsimp only
      rw [show nz.e = D + E by omega, zpow_add₀ (by norm_num), zpow_natCast]
      push_cast; ring
    · rw [if_neg c2]
      refine Ok.bind (i32C_spec (by omega)) ?_
      rintro _ rfl
      refine Ok.bind (i32C_spec (by omega)) ?_
      rintro _ rfl
      have hvz : ((m * 2 ^ F.w : Nat) : ℚ) * 2 ^ (nz.e - (F.w : Int)) = m * 2 ^ nz.e := by
        rw [zpow_sub₀ (by norm_num), zpow_natCast]; push_cast; field_simp
      by_cases c3 : nz.e - E - (F.w : Int) = 0
      · rw [if_pos c3]
        refine Ok.pure' (F.alignOk_exact (R := P) (Z := m * 2 ^ F.w) hp.symm (by dsimp only; rw [hm]; simp) ?_ hvz (by omega)
          (by omega) (by dsimp only; omega))
        dsimp only
        rw [show nz.e - (F.w : Int) = E by omega]
      rw [if_neg c3]
      obtain ⟨k, hk⟩ : ∃ k : Nat, (k : Int) = nz.e - E - F.w := ⟨(nz.e - E - F.w).toNat, by omega⟩
      rw [← hk] at c3 ⊢
      have hvp : (P : ℚ) / 2 ^ k * 2 ^ (nz.e - (F.w : Int)) = P * 2 ^ E := by
        rw [show nz.e - (F.w : Int) = k + E by omega, zpow_add₀ (by norm_num), zpow_natCast]
        field_simp
      have hzm : (nz.m).toNat = m := hm.symm
      have hone' : 2 ^ F.w ≤ 2 ^ F.w * 2 ^ F.s := Nat.le_mul_of_pos_right _ (Nat.two_pow_pos _)
      by_cases c4 : (k : Int) < F.w
      · rw [if_pos c4]
        have hkw : k < F.w := by omega
        refine Ok.bind (i32C_spec (by omega)) ?_
        rintro _ rfl
        refine Ok.bind (shlI_spec (by omega)) ?_
        intro a ha
        refine Ok.bind (shrI_spec (by omega)) ?_
        intro b hbb
        refine Ok.bind (shlI_spec (by omega)) ?_
        intro s hs
        refine Ok.bind (shrI_spec (by omega)) ?_
        intro rhi hrhi
        rw [show ((k : Nat) : Int).toNat = k by omega] at hbb hrhi
        rw [show ((F.w : Int) - k).toNat = F.w - k by omega] at ha hs
        have hpw : 2 ^ F.w = 2 ^ k * 2 ^ (F.w - k) := by rw [← Nat.pow_add]; congr 1; omega
        -- the shifted low word
        have hbl : b.toNat < 2 ^ (F.w - k) := by
          rw [hbb, Nat.div_lt_iff_lt_mul (Nat.two_pow_pos _), Nat.mul_comm, ← hpw]; exact hlo
        have hab : (a ||| b).toNat = (O.hi p).toNat % 2 ^ k * 2 ^ (F.w - k) + b.toNat := by
          rw [BitVec.toNat_or, ha, hpw, Nat.mul_mod_mul_right, or_eq_add' hbl (Dvd.intro_left _ rfl), Nat.add_comm]
        have hq : P / 2 ^ k = rhi.toNat * 2 ^ F.w + (a ||| b).toNat := by
          rw [hab, hrhi, hbb, ← hp, hpw]
          have e1 : (O.hi p).toNat * (2 ^ k * 2 ^ (F.w - k)) = (O.hi p).toNat * 2 ^ (F.w - k) * 2 ^ k := by ring
          rw [e1, Nat.add_comm, Nat.add_mul_div_right _ _ (Nat.two_pow_pos _)]
          have e2 := Nat.div_add_mod (O.hi p).toNat (2 ^ k)
          have e3 : (O.hi p).toNat / 2 ^ k * (2 ^ k * 2 ^ (F.w - k)) + (O.hi p).toNat % 2 ^ k * 2 ^ (F.w - k) =
              (2 ^ k * ((O.hi p).toNat / 2 ^ k) + (O.hi p).toNat % 2 ^ k) * 2 ^ (F.w - k) := by ring
          rw [e2] at e3
          omega
        have hsm : s.toNat ≠ 0 ↔ P / 2 ^ k % 2 ^ k ≠ 0 := by
          rw [hs, shl_ne_iff (by omega), hq]
          rw [show rhi.toNat * 2 ^ F.w = rhi.toNat * 2 ^ (F.w - k) * 2 ^ k by rw [hpw]; ring, Nat.add_comm,
            Nat.add_mul_mod_self_right]
        have hdm := Nat.div_add_mod P (2 ^ k)
        have hmlt := Nat.mod_lt P (Nat.two_pow_pos k)
        have hq0 : P / 2 ^ k * 2 ^ k ≤ P := Nat.div_mul_le_self _ _
        have hk1 : 2 ≤ 2 ^ k := by
          calc 2 = 2 ^ 1 := rfl
            _ ≤ 2 ^ k := Nat.pow_le_pow_right (by omega) (by omega)
        have hqlt : 2 * (P / 2 ^ k) ≤ P := by
          calc 2 * (P / 2 ^ k) ≤ 2 ^ k * (P / 2 ^ k) := Nat.mul_le_mul_right _ hk1
            _ ≤ P := by omega
        have hPws : 2 ^ (2 * F.s + 4) ≤ 2 ^ F.w * 2 ^ F.s := by
          rw [← Nat.pow_add]; exact Nat.pow_le_pow_right (by omega) (by omega)
        have hPp : 0 < 2 ^ (2 * F.s + 2) := Nat.two_pow_pos _
        have hp4 : 2 ^ (2 * F.s + 4) = 4 * 2 ^ (2 * F.s + 2) := by
          rw [show 2 * F.s + 4 = 2 + (2 * F.s + 2) by omega, Nat.pow_add]
        by_cases hst : P / 2 ^ k % 2 ^ k = 0
        · -- exact
          have hP : P % 2 ^ k = 0 := by
            by_contra hc
            apply hb
            refine ⟨by omega, by omega, ?_⟩
            rw [show (nz.e - E - (F.w : Int)).toNat = k by omega]
            exact ⟨hc, hst⟩
          have hs0 : s = 0#F.w := by
            apply BitVec.eq_of_toNat_eq
            have : ¬ s.toNat ≠ 0 := fun h => (hsm.mp h) hst
            simpa using this
          have hor : ((a ||| b) ||| ofBoolW F.w (s != 0#F.w)) = (a ||| b) := by
            rw [hs0]; simp [ofBoolW]
          rw [hor]
          refine Ok.pure' (F.alignOk_exact (R := P / 2 ^ k) (Z := m * 2 ^ F.w) hq (by dsimp only; rw [hm]; simp) ?_ hvz (by omega)
            ?_ (by dsimp only; omega))
          · have hPq : (P : ℚ) = (P / 2 ^ k : Nat) * 2 ^ k := by
              rw [hP, Nat.add_zero, Nat.mul_comm] at hdm
              exact_mod_cast hdm.symm
            rw [← hvp]
            congr 1
            conv_rhs => rw [hPq]
            field_simp
          · have : 1 * 2 ^ F.w ≤ m * 2 ^ F.w := Nat.mul_le_mul_right _ (by have := Nat.two_pow_pos (F.s + 1); omega)
            omega
        · have hor : ((a ||| b) ||| ofBoolW F.w (s != 0#F.w)).toNat = (a ||| b).toNat ||| 1 := by
            rw [BitVec.toNat_or, toNat_ofBoolW hwp, bne_zero_iff, decide_eq_true (hsm.mpr hst)]; rfl
          have hW2 : 2 ^ F.w % 2 = 0 := by rw [show F.w = (F.w - 1) + 1 by omega, Nat.pow_succ]; omega
          have hqor : rhi.toNat * 2 ^ F.w + ((a ||| b).toNat ||| 1) = P / 2 ^ k ||| 1 := by
            rw [hq, or_one, or_one]
            have : (rhi.toNat * 2 ^ F.w + (a ||| b).toNat) % 2 = (a ||| b).toNat % 2 := by
              rw [Nat.add_mod, Nat.mul_mod, hW2]; simp
            rw [this]
            split <;> omega
          have hor1 : P / 2 ^ k ||| 1 ≤ P / 2 ^ k + 1 := by rw [or_one]; split <;> omega
          refine Ok.pure' (F.alignOk_p (R := P / 2 ^ k ||| 1) (m := m) (ρ := (P : ℚ) / 2 ^ k) ?_ hzm (by simp) hvp hvz (by omega) z1
            (by omega) (by dsimp only; omega) ?_)
          · dsimp only; rw [hor, hqor]
          · intro j hj hjw
            have hj1 : 2 ^ j % 2 = 0 := by rw [show j = (j - 1) + 1 by omega, Nat.pow_succ]; omega
            have hqm : P / 2 ^ k % 2 ^ j ≠ 0 := by
              by_cases hkj : k ≤ j
              · intro hc
                apply hst
                rw [← Nat.mod_mod_of_dvd _ (Nat.pow_dvd_pow 2 hkj), hc, Nat.zero_mod]
              · have : P / 2 ^ k < 2 ^ j := by
                  rw [Nat.div_lt_iff_lt_mul (Nat.two_pow_pos _), ← Nat.pow_add]
                  exact lt_of_lt_of_le hP1 (Nat.pow_le_pow_right (by omega) (by omega))
                rw [Nat.mod_eq_of_lt this]
                intro hc
                rw [hc] at hst; simp at hst
            have d1 := Nat.div_add_mod (P / 2 ^ k) (2 ^ j)
            have d2 := Nat.mod_lt (P / 2 ^ k) (Nat.two_pow_pos j)
            have hdiv : (P / 2 ^ k ||| 1) / 2 ^ j = P / 2 ^ k / 2 ^ j := by
              rw [or_one]
              split
              · rename_i hev
                have hr : P / 2 ^ k % 2 ^ j % 2 = 0 := by
                  rw [Nat.mod_mod_of_dvd _ (Nat.dvd_of_mod_eq_zero hj1)]; exact hev
                apply Nat.div_eq_of_lt_le
                · rw [Nat.mul_comm]; omega
                · rw [Nat.add_mul, Nat.mul_comm]; omega
              · rfl
            have hP' : ((P / 2 ^ k : Nat) : ℚ) ≤ P / 2 ^ k ∧ (P : ℚ) / 2 ^ k < (P / 2 ^ k : Nat) + 1 := by
              have hp : (0 : ℚ) < 2 ^ k := by positivity
              constructor
              · rw [le_div_iff₀ hp]; exact_mod_cast hq0
              · rw [div_lt_iff₀ hp]
                have : P < (P / 2 ^ k + 1) * 2 ^ k := by rw [Nat.add_mul, Nat.mul_comm]; omega
                exact_mod_cast this
            obtain ⟨f1, f2⟩ := hP'
            refine ⟨?_, ?_, ?_⟩
            · intro hc
              have : (P / 2 ^ k ||| 1) % 2 = 1 := by rw [or_one]; split <;> omega
              rw [← Nat.mod_mod_of_dvd _ (Nat.dvd_of_mod_eq_zero hj1), hc] at this
              omega
            · rw [hdiv]
              refine lt_of_lt_of_le ?_ f1
              have : P / 2 ^ k / 2 ^ j * 2 ^ j < P / 2 ^ k := by rw [Nat.mul_comm]; omega
              exact_mod_cast this
            · rw [hdiv]
              refine lt_of_lt_of_le f2 ?_
              have : P / 2 ^ k + 1 ≤ (P / 2 ^ k / 2 ^ j + 1) * 2 ^ j := by rw [Nat.add_mul, Nat.mul_comm]; omega
              exact_mod_cast this
      · rw [if_neg c4]
        have hws : 1 < 2 ^ F.w * 2 ^ F.s := lt_of_lt_of_le (Nat.one_lt_two_pow (by omega)) hone'
        refine Ok.pure' (F.alignOk_p (R := 1) (m := m) (ρ := (P : ℚ) / 2 ^ k) ?_ hzm (by simp) hvp hvz ?_ z1
            hws (by dsimp only; omega) ?_)
        · dsimp only
          rw [F.toNat_one']; simp
        · have := Nat.two_pow_pos (2 * F.s + 4)
          omega
        · intro j hj hjw
          have hj1 : 1 < 2 ^ j := Nat.one_lt_two_pow (by omega)
          have hp : (0 : ℚ) < 2 ^ k := by positivity
          have hPpos : (0 : ℚ) < P := by
            have := Nat.two_pow_pos (2 * F.s + 2)
            have : 0 < P := by omega
            exact_mod_cast this
          refine ⟨by rw [Nat.mod_eq_of_lt hj1]; omega, ?_, ?_⟩
          · rw [Nat.div_eq_of_lt hj1]
            simp only [Nat.cast_zero, zero_mul]; positivity
          · rw [Nat.div_eq_of_lt hj1, div_lt_iff₀ hp]
            simp only [Nat.cast_zero, zero_add, one_mul]
            have : P < 2 ^ j * 2 ^ k := by
              rw [← Nat.pow_add]
              exact lt_of_lt_of_le hP1 (Nat.pow_le_pow_right (by omega) (by omega))
            exact_mod_cast this
  · rw [if_neg c1]
    refine Ok.bind (i32C_spec (by omega)) ?_
    rintro _ rfl
    obtain ⟨d, hd⟩ : ∃ d : Nat, (d : Int) = -(nz.e - E) := ⟨(-(nz.e - E)).toNat, by omega⟩
    rw [← hd]
    have hvz : (m : ℚ) / 2 ^ d * 2 ^ E = m * 2 ^ nz.e := by
      rw [show E = d + nz.e by omega, zpow_add₀ (by norm_num), zpow_natCast]
      field_simp
    by_cases c2 : (d : Int) = 0
    · rw [if_pos c2]
      refine Ok.pure' (F.alignOk_exact (R := P) (Z := m) hp.symm (by dsimp only; rw [hm]; simp) rfl ?_ ?_ (by omega)
        (by dsimp only; omega))
      · dsimp only
        rw [← hvz, show d = 0 by omega]; simp
      · omega
    rw [if_neg c2]
    -- the sticky shift of `z`
    have hfin : ∀ zlo : BitVec F.w, zlo.toNat = stickyShr m d →
        F.AlignOk ⟨O.hi p, O.lo p, 0#F.w, zlo, E⟩ ((P : ℚ) * 2 ^ E) (m * 2 ^ nz.e) := by
      intro zlo hzl
      have hst : stickyShr m d ≤ m + 1 := by
        have : m / 2 ^ d ≤ m := Nat.div_le_self _ _
        rw [stickyShr_eq]; split <;> omega
      exact F.alignOk_z (R := P) (Z := stickyShr m d) (ζ := (m : ℚ) / 2 ^ d) hp.symm (by dsimp only; rw [hzl]; simp) rfl hvz
        (by omega) (by omega) (by dsimp only; omega) hPe ((Stk.exact m).shr d)
    by_cases c3 : (d : Int) < F.w
    · rw [if_pos c3]
      refine Ok.bind (i32C_spec (by omega)) ?_
      rintro _ rfl
      refine Ok.bind (shlI_spec (by omega)) ?_
      intro s hs
      refine Ok.bind (shrI_spec (by omega)) ?_
      intro z hzv
      rw [← hm, show ((d : Nat) : Int).toNat = d by omega] at hzv
      rw [← hm, show ((F.w : Int) - d).toNat = F.w - d by omega] at hs
      exact Ok.pure' (hfin _ (toNat_sticky hwp hzv (by rw [hs]; exact shl_ne_iff (by omega))))
    · rw [if_neg c3]
      refine Ok.pure' (hfin _ ?_)
      have hmd : m < 2 ^ d := lt_of_lt_of_le z2 (Nat.pow_le_pow_right (by omega) (by omega))
      rw [F.toNat_one', stickyShr_eq, Nat.div_eq_of_lt hmd, Nat.mod_eq_of_lt hmd, if_pos]
      have := Nat.two_pow_pos (F.s + 1)
      exact ⟨by omega, rfl⟩

end Fmt
end Verif
