import Verif.Libm.Scalbn
import Verif.Int.ModularProofs
/-! # Model of fmod and its correctness -/
namespace Verif

/-- `a.checked_sub(b).unwrap_or(a)` -/
def subOr {w : Nat} (a b : BitVec w) : BitVec w := if b.toNat ≤ a.toNat then a - b else a

/-- fmod.rs 102-105, the loop of the short reduction. -/
def fmodLoop {w : Nat} (y : BitVec w) : Nat → BitVec w → M (BitVec w)
  | 0, x => pure x
  | e + 1, x => do
    let x ← shlC (subOr x y) 1
    fmodLoop y e x

namespace Fmt
variable (F : Fmt)

/-- `reduction`, fmod.rs 69-119. The division `x %= y` is the native operator (`C01`-`C03` for the wide types). -/
def fmodReduction (O : DOps F.w) (x : BitVec F.w) (e : Nat) (y : BitVec F.w) : M (BitVec F.w) := do
  if F.w = 16 then do
    assertC (decide ((F.bias : Int) - (1 - F.bias) = 29))
    assertC (decide (e ≤ 29))
    let u ← shlC ((x.setWidth 16).setWidth 64) e
    let v := (y.setWidth 16).setWidth 64
    let r ← remC u v
    pure ((r.setWidth 16).setWidth F.w)
  else do
    let y2 ← shlC y 1
    let x ← (if x.toNat ≥ y2.toNat then remC x y else pure x)
    if F.w = 64 ∧ e < 32 then do
      let x ← fmodLoop y e x
      pure (subOr x y)
    else if e < F.w then do
      let w ← O.shl (O.fromLoHi x 0#F.w) e
      match ← ndChecked (O.hi w) y (O.nd w y) with
      | some (_, r) => pure r
      | none => linearMulReduction O x e y
    else linearMulReduction O x e y

/-- `into_sig_exp`, fmod.rs 56-64. -/
def intoSigExp (bits : BitVec F.w) : M (BitVec F.w × Nat) := do
  let bits := bits &&& ~~~F.signMask
  let sat := if F.implicitBit.toNat ≤ bits.toNat then bits - F.implicitBit else 0#F.w
  let sig ← subC bits (sat &&& F.expMask)
  let t ← shrC sat F.s
  let e ← castToU32 t
  pure (sig, e)

/-- `fmod`, generic/fmod.rs 5-51. -/
def fmod (N : FPU F) (O : DOps F.w) (x y : BitVec F.w) : M (BitVec F.w) := do
  let sx := x &&& F.signMask
  let ux := x &&& ~~~F.signMask
  let uy := y &&& ~~~F.signMask
  let xNanOrInf := ux &&& F.expMask == F.expMask
  let yNanOrZero := (uy - 1#F.w) &&& F.expMask == F.expMask
  if xNanOrInf || yNanOrZero then pure (N.div (N.mul x y) (N.mul x y))
  else if ux.toNat < uy.toNat then pure x
  else do
    let (num, ex) ← F.intoSigExp ux
    let (div, ey) ← F.intoSigExp uy
    let d ← nsubC ex ey
    let rem ← F.fmodReduction O num d div
    if rem = 0#F.w then pure sx
    else do
      let t ← nsubC F.s (bitLen rem.toNat - 1)
      let shift := min ey t
      let lo ← shlC rem shift
      let k ← nsubC ey shift
      let k ← castU F.w k
      let hi ← shlC k F.s
      let bits ← addC lo hi
      addC sx bits

end Fmt

/-! ## Proofs -/

theorem mod_mul_right' (a b n : Nat) : a % n * b % n = a * b % n := by
  rw [Nat.mul_mod, Nat.mod_mod, ← Nat.mul_mod]

theorem subOr_spec {w : Nat} {a b : BitVec w} (h : a.toNat < 2 * b.toNat) :
    (subOr a b).toNat = a.toNat % b.toNat := by
  unfold subOr
  split
  · rename_i h1
    rw [BitVec.toNat_sub_of_le h1, Nat.mod_eq_sub_mod h1, Nat.mod_eq_of_lt (by omega)]
  · rw [Nat.mod_eq_of_lt (by omega)]

theorem fmodLoop_spec {w : Nat} (hw : 1 < w) {y : BitVec w} (hy : 4 * y.toNat < 2 ^ w) (hy0 : 0 < y.toNat) :
    ∀ (e : Nat) (x : BitVec w), x.toNat < 2 * y.toNat →
    Ok (fmodLoop y e x) (fun r => r.toNat < 2 * y.toNat ∧ r.toNat % y.toNat = x.toNat * 2 ^ e % y.toNat) := by
  intro e
  induction e with
  | zero => intro x hx; exact Ok.pure' ⟨hx, by simp⟩
  | succ e ih =>
    intro x hx
    unfold fmodLoop
    refine Ok.bind (shlC_spec hw) ?_
    intro r hr
    have hm := Nat.mod_lt x.toNat hy0
    rw [subOr_spec hx, Nat.mod_eq_of_lt (by omega)] at hr
    refine Ok.mono (ih r (by omega)) ?_
    rintro z ⟨h1, h2⟩
    refine ⟨h1, ?_⟩
    rw [h2, hr, Nat.pow_succ' (n := e), Nat.mul_assoc, Nat.pow_one]
    exact mod_mul_right' _ _ _

namespace Fmt
variable (F : Fmt)

theorem fmodReduction_spec {O : DOps F.w} (hO : O.Lawful) {x y : BitVec F.w} {e : Nat} (hx : x.toNat < 2 ^ (F.s + 1))
    (hy : y.toNat < 2 ^ (F.s + 1)) (hy0 : 0 < y.toNat) (he : e < 2 ^ F.e - 2) :
    Ok (F.fmodReduction O x e y) (fun r => r.toNat = x.toNat * 2 ^ e % y.toNat) := by
  have hpb := F.pe_bias
  have hpl := F.pe_le
  have hs := F.hs
  have he5 := F.he
  have hs' := F.hs'
  have he' := F.he'
  have h4 : 2 ^ (F.s + 1) * 4 ≤ 2 ^ F.w := by
    have : 2 ^ (F.s + 1) * 4 = 2 ^ (F.s + 1 + 2) := by rw [Nat.pow_add 2 (F.s + 1)]
    rw [this]; apply two_pow_le; show _ ≤ F.e + F.s + 1; omega
  unfold fmodReduction
  split
  · rename_i hw
    have hw' : F.e + F.s + 1 = 16 := hw
    have hs10 : F.s = 10 := by omega
    have he5 : F.e = 5 := by omega
    rw [he5] at hpb he
    rw [hs10] at hx hy
    refine Ok.bind (assertC_spec (by rw [decide_eq_true_eq]; omega)) ?_
    intro _ _
    refine Ok.bind (assertC_spec (by rw [decide_eq_true_eq]; omega)) ?_
    intro _ _
    refine Ok.bind (shlC_spec (by omega)) ?_
    intro u hu
    have e1 : ((x.setWidth 16).setWidth 64).toNat = x.toNat := by
      rw [BitVec.toNat_setWidth, BitVec.toNat_setWidth]; omega
    have e2 : ((y.setWidth 16).setWidth 64).toNat = y.toNat := by
      rw [BitVec.toNat_setWidth, BitVec.toNat_setWidth]; omega
    rw [e1] at hu
    have h29 : 2 ^ e ≤ 2 ^ 29 := two_pow_le (by omega)
    have hlt : x.toNat * 2 ^ e < 2 ^ 64 := by
      calc x.toNat * 2 ^ e ≤ 2 ^ (10 + 1) * 2 ^ 29 := Nat.mul_le_mul hx.le h29
        _ < 2 ^ 64 := by norm_num
    rw [Nat.mod_eq_of_lt hlt] at hu
    have hml := Nat.mod_lt (x.toNat * 2 ^ e) hy0
    have hr : (u % (y.setWidth 16).setWidth 64).toNat = x.toNat * 2 ^ e % y.toNat := by
      rw [BitVec.toNat_umod, hu, e2]
    refine Ok.bind (P := fun r => r.toNat = x.toNat * 2 ^ e % y.toNat) ⟨u % (y.setWidth 16).setWidth 64, ?_, hr⟩ ?_
    · unfold remC
      rw [if_neg (by rw [e2]; omega)]
    · intro r hr
      refine Ok.pure' ?_
      have h16 : 2 ^ F.w = 2 ^ 16 := congrArg _ hw
      rw [BitVec.toNat_setWidth, BitVec.toNat_setWidth, hr, h16, Nat.mod_mod, Nat.mod_eq_of_lt (by omega)]
  · refine Ok.bind (shlC_spec (by show 1 < F.e + F.s + 1; omega)) ?_
    intro y2 hy2
    rw [Nat.mod_eq_of_lt (by omega)] at hy2
    refine Ok.bind (P := fun x' : BitVec F.w => x'.toNat < 2 * y.toNat ∧
      x'.toNat * 2 ^ e % y.toNat = x.toNat * 2 ^ e % y.toNat) ?_ ?_
    · split
      · unfold remC
        rw [if_neg (by omega)]
        have hml := Nat.mod_lt x.toNat hy0
        refine Ok.pure ⟨by rw [BitVec.toNat_umod]; omega, ?_⟩
        rw [BitVec.toNat_umod]
        exact mod_mul_right' _ _ _
      · exact Ok.pure' ⟨by omega, rfl⟩
    · rintro x' ⟨h1, h2⟩
      have hlin : Ok (linearMulReduction O x' e y) (fun r => r.toNat = x.toNat * 2 ^ e % y.toNat) := by
        refine Ok.mono (linearMulReduction_spec hO (by show 3 ≤ F.e + F.s + 1; omega) x' y e (by omega) h1 ?_) ?_
        · show e + (F.e + F.s + 1) < 2 ^ 32; omega
        · intro r hr; rw [hr, h2]
      split
      · refine Ok.bind (fmodLoop_spec (by show 1 < F.e + F.s + 1; omega) (by omega) hy0 e x' h1) ?_
        rintro r ⟨h3, h4⟩
        refine Ok.pure' ?_
        rw [subOr_spec h3, h4, h2]
      · split
        · rename_i hew
          refine Ok.bind (hO.shl _ e (by omega)) ?_
          intro w hw
          rw [hO.fromLoHi] at hw
          have hlt : x'.toNat * 2 ^ e < 2 ^ (2 * F.w) := by
            rw [Nat.two_mul, Nat.pow_add]
            exact Nat.mul_lt_mul_of_lt_of_le x'.isLt (two_pow_le hew.le) (Nat.two_pow_pos _)
          simp only [BitVec.toNat_ofNat, Nat.zero_mod, Nat.zero_mul, Nat.zero_add] at hw
          rw [Nat.mod_eq_of_lt hlt] at hw
          unfold ndChecked
          split
          · rename_i hlt'
            obtain ⟨⟨q, r⟩, hq1, hq2, hq3⟩ := hO.nd w y hlt'
            rw [hq1]
            simp only [ok_bind]
            refine Ok.pure' ?_
            dsimp only at hq2 hq3 ⊢
            rw [hw] at hq2
            rw [← h2, ← hq2, Nat.add_comm, Nat.add_mul_mod_self_right, Nat.mod_eq_of_lt hq3]
          · simpa using hlin
        · exact hlin

theorem intoSigExp_spec {n : BitVec F.w} : Ok (F.intoSigExp n) (fun r => r.2 = F.mag n / 2 ^ F.s - 1 ∧
    F.mag n = r.2 * 2 ^ F.s + r.1.toNat ∧ r.1.toNat < 2 ^ (F.s + 1) ∧ (2 ^ F.s ≤ r.1.toNat ∨ r.2 = 0)) := by
  have hsu := F.ps_succ
  have hpp := Nat.two_pow_pos F.s
  have hu := F.toNat_and_not_signMask n
  have hib := F.toNat_implicitBit
  have hdm := Nat.div_add_mod (F.mag n) (2 ^ F.s)
  have hml := Nat.mod_lt (F.mag n) hpp
  have hdl := F.mag_div_lt n
  have hpl := F.pe_le
  unfold intoSigExp
  dsimp only
  rw [hu, hib]
  by_cases h : 2 ^ F.s ≤ F.mag n
  · rw [if_pos h]
    have hq : 1 ≤ F.mag n / 2 ^ F.s := (Nat.one_le_div_iff hpp).mpr h
    have hsat : ((n &&& ~~~F.signMask) - F.implicitBit).toNat = F.mag n - 2 ^ F.s := by
      rw [BitVec.toNat_sub_of_le (by rw [BitVec.le_def, hu, hib]; exact h), hu, hib]
    generalize (n &&& ~~~F.signMask) - F.implicitBit = sat at *
    have hmag : F.mag sat = sat.toNat := by
      unfold mag; exact Nat.mod_eq_of_lt (by have := F.mag_lt n; omega)
    have hdiv : sat.toNat / 2 ^ F.s = F.mag n / 2 ^ F.s - 1 := by
      rw [hsat]
      have : F.mag n - 2 ^ F.s = F.mag n - 2 ^ F.s * 1 := by rw [Nat.mul_one]
      rw [this, Nat.sub_mul_div]
    have hmask : (sat &&& F.expMask).toNat = (F.mag n / 2 ^ F.s - 1) * 2 ^ F.s := by
      rw [F.toNat_and_expMask, hmag, hdiv]
    have hm2 : (F.mag n / 2 ^ F.s - 1) * 2 ^ F.s + 2 ^ F.s = 2 ^ F.s * (F.mag n / 2 ^ F.s) := by
      rw [← Nat.succ_mul, Nat.mul_comm]; congr 1; omega
    refine Ok.bind (subC_spec (by rw [hmask, hu]; omega)) ?_
    intro sig hsig
    rw [hmask, hu] at hsig
    refine Ok.bind (shrC_spec (by show F.s < F.e + F.s + 1; omega)) ?_
    intro t ht
    rw [hdiv] at ht
    have hc : castToU32 t = .ok t.toNat := by
      unfold castToU32
      rw [if_pos (by generalize F.mag n / 2 ^ F.s = q at *; omega)]
    rw [hc]
    simp only [ok_bind]
    refine Ok.pure' ⟨ht, ?_, ?_, ?_⟩ <;> dsimp only <;> rw [hsig] <;> try rw [ht]
    · omega
    · omega
    · omega
  · rw [if_neg h]
    have hz : (0#F.w &&& F.expMask).toNat = 0 := by simp
    refine Ok.bind (subC_spec (by rw [hz]; omega)) ?_
    intro sig hsig
    rw [hz, hu] at hsig
    refine Ok.bind (shrC_spec (by show F.s < F.e + F.s + 1; omega)) ?_
    intro t ht
    have ht0 : t.toNat = 0 := by rw [ht]; simp
    have hc : castToU32 t = .ok t.toNat := by
      unfold castToU32
      rw [if_pos (by omega)]
    rw [hc]
    simp only [ok_bind]
    have hq : F.mag n / 2 ^ F.s = 0 := Nat.div_eq_of_lt (by omega)
    refine Ok.pure' ⟨?_, ?_, ?_, ?_⟩ <;> dsimp only <;> (try rw [ht0]) <;> omega

theorem finite_iff (x : BitVec F.w) : ((x &&& ~~~F.signMask) &&& F.expMask == F.expMask) = true ↔ ¬ F.IsFin x := by
  have hil := F.infRep_lt
  rw [beq_iff_eq, ← F.ex_sat_iff, ← BitVec.toNat_inj, F.toNat_and_expMask, F.toNat_expMask, F.ex_eq, F.expSat_eq]
  have : F.mag (x &&& ~~~F.signMask) = F.mag x := by
    unfold mag; rw [F.toNat_and_not_signMask]; exact Nat.mod_eq_of_lt (F.mag_lt x)
  rw [this]
  unfold infRep
  exact Nat.mul_left_inj (Nat.two_pow_pos _).ne'

theorem nan_or_zero_iff (y : BitVec F.w) : (((y &&& ~~~F.signMask) - 1#F.w) &&& F.expMask == F.expMask) = true ↔
    F.IsNaN y ∨ F.IsZero y := by
  have hil := F.infRep_lt
  have hip := F.ps_le_infRep
  have hps := F.ps_ge
  have hu := F.toNat_and_not_signMask y
  have hml := F.mag_lt y
  have h1w : (1#F.w).toNat = 1 := by
    rw [BitVec.toNat_ofNat, Nat.mod_eq_of_lt]
    exact Nat.one_lt_two_pow (by show F.e + F.s + 1 ≠ 0; omega)
  rw [beq_iff_eq]
  unfold IsNaN IsZero
  by_cases hz : F.mag y = 0
  · have e : y &&& ~~~F.signMask = 0#F.w := by rw [← BitVec.toNat_inj, hu, hz]; simp
    rw [e]
    have : (0#F.w - 1#F.w) = BitVec.allOnes F.w := by
      rw [BitVec.zero_sub, BitVec.neg_one_eq_allOnes]
    rw [this, BitVec.allOnes_and]
    exact iff_of_true rfl (Or.inr hz)
  · have e : ((y &&& ~~~F.signMask) - 1#F.w).toNat = F.mag y - 1 := by
      rw [BitVec.toNat_sub_of_le (by rw [BitVec.le_def, hu, h1w]; omega), hu, h1w]
    have hm : F.mag ((y &&& ~~~F.signMask) - 1#F.w) = F.mag y - 1 := by
      unfold mag at *; rw [e]; exact Nat.mod_eq_of_lt (by omega)
    have hd := F.mag_div_lt ((y &&& ~~~F.signMask) - 1#F.w)
    rw [← BitVec.toNat_inj, F.toNat_and_expMask, F.toNat_expMask, hm]
    rw [hm] at hd
    have : (F.mag y - 1) / 2 ^ F.s * 2 ^ F.s = F.infRep ↔ F.infRep ≤ F.mag y - 1 := by
      unfold infRep
      rw [Nat.mul_left_inj (Nat.two_pow_pos _).ne', ← Nat.le_div_iff_mul_le (Nat.two_pow_pos _)]
      omega
    rw [this]; omega

/-- `fmod` in units of the smallest subnormal -/
theorem fmod_fin (N : FPU F) {O : DOps F.w} (hO : O.Lawful) {x y : BitVec F.w} (hx : F.IsFin x) (hy : F.IsFin y)
    (hz : ¬ F.IsZero y) :
    Ok (F.fmod N O x y) (fun r => F.sign r = F.sign x ∧ F.IsFin r ∧ F.valU (F.mag r) = F.valU (F.mag x) % F.valU (F.mag y)) := by
  have hsu := F.ps_succ
  have hpp := Nat.two_pow_pos F.s
  have hux := F.toNat_and_not_signMask x
  have huy := F.toNat_and_not_signMask y
  have hil := F.infRep_lt
  have hpw := F.pw
  have hpes := F.pes
  unfold fmod
  dsimp only
  rw [if_neg (by
    rw [Bool.or_eq_true, F.finite_iff, F.nan_or_zero_iff]
    rintro (h | h | h)
    · exact h hx
    · exact IsFin.not_nan F hy h
    · exact hz h)]
  rw [hux, huy]
  split
  · rename_i h
    refine Ok.pure' ⟨rfl, hx, ?_⟩
    rw [Nat.mod_eq_of_lt (F.valU_lt_iff.mpr h)]
  · rename_i h
    have hmx : F.mag (x &&& ~~~F.signMask) = F.mag x := by
      unfold mag; rw [F.toNat_and_not_signMask]; exact Nat.mod_eq_of_lt (F.mag_lt x)
    have hmy : F.mag (y &&& ~~~F.signMask) = F.mag y := by
      unfold mag; rw [F.toNat_and_not_signMask]; exact Nat.mod_eq_of_lt (F.mag_lt y)
    refine Ok.bind F.intoSigExp_spec ?_
    rintro ⟨num, ex⟩ ⟨a1, a2, a3, a4⟩
    refine Ok.bind F.intoSigExp_spec ?_
    rintro ⟨div, ey⟩ ⟨b1, b2, b3, b4⟩
    dsimp only at a1 a2 a3 a4 b1 b2 b3 b4 ⊢
    rw [hmx] at a1 a2
    rw [hmy] at b1 b2
    have hle : ey ≤ ex := by
      rw [a1, b1]
      have := Nat.div_le_div_right (c := 2 ^ F.s) (not_lt.mp h)
      omega
    have hXv : F.valU (F.mag x) = num.toNat * 2 ^ ex := by
      rw [a2]
      have := F.valU_eq (E := ex + 1) (m := num.toNat) (by omega) a3.le (by omega)
      rwa [Nat.add_sub_cancel] at this
    have hYv : F.valU (F.mag y) = div.toNat * 2 ^ ey := by
      rw [b2]
      have := F.valU_eq (E := ey + 1) (m := div.toNat) (by omega) b3.le (by omega)
      rwa [Nat.add_sub_cancel] at this
    have hd0 : 0 < div.toNat := by
      unfold IsZero at hz
      rcases Nat.eq_zero_or_pos div.toNat with h0 | h0
      · exfalso
        rcases b4 with b4 | b4
        · omega
        · rw [h0, b4] at b2; omega
      · exact h0
    refine Ok.bind (nsubC_spec hle) ?_
    rintro _ rfl
    have hdx := F.mag_isFin_div hx
    refine Ok.bind (F.fmodReduction_spec hO a3 b3 hd0 (by
      rw [a1]
      have := F.pe_ge
      generalize F.mag x / 2 ^ F.s = q at *
      omega)) ?_
    intro rem hrem
    have hrl := Nat.mod_lt (num.toNat * 2 ^ (ex - ey)) hd0
    rw [← hrem] at hrl
    have hXY : F.valU (F.mag x) % F.valU (F.mag y) = rem.toNat * 2 ^ ey := by
      have e : 2 ^ ex = 2 ^ (ex - ey) * 2 ^ ey := by rw [← Nat.pow_add]; congr 1; omega
      rw [hXv, hYv, e, ← Nat.mul_assoc, Nat.mul_mod_mul_right, hrem]
    rw [hXY]
    have hsx := F.and_signMask_facts x
    split
    · rename_i h0
      refine Ok.pure' ⟨hsx.1, ?_, ?_⟩
      · unfold IsFin; rw [hsx.2]; have := F.ps_le_infRep; omega
      · rw [hsx.2, F.valU_zero, h0]; simp
    · rename_i h0
      have hr0 : rem.toNat ≠ 0 := fun h => h0 (eq_zero_iff.mpr h)
      have hL1 := lt_two_pow_bitLen rem.toNat
      have hL2 := two_pow_le_of_bitLen hr0
      have hL3 := bitLen_pos hr0
      have hL4 : bitLen rem.toNat ≤ F.s + 1 := bitLen_le_iff.mpr (by omega)
      generalize bitLen rem.toNat = L at *
      refine Ok.bind (nsubC_spec (by omega)) ?_
      rintro _ rfl
      have hshe : min ey (F.s - (L - 1)) ≤ ey := min_le_left _ _
      have hshs : min ey (F.s - (L - 1)) ≤ F.s - (L - 1) := min_le_right _ _
      have hsh : min ey (F.s - (L - 1)) = ey ∨ min ey (F.s - (L - 1)) = F.s - (L - 1) := by omega
      generalize min ey (F.s - (L - 1)) = sh at *
      refine Ok.bind (shlC_spec (by show sh < F.e + F.s + 1; omega)) ?_
      intro lo hlo
      have hm1 : rem.toNat * 2 ^ sh < 2 ^ (F.s + 1) := by
        calc rem.toNat * 2 ^ sh < 2 ^ L * 2 ^ sh := Nat.mul_lt_mul_of_pos_right hL1 (Nat.two_pow_pos _)
          _ = 2 ^ (L + sh) := (Nat.pow_add _ _ _).symm
          _ ≤ _ := two_pow_le (by omega)
      have hm2 : 2 ^ F.s ≤ rem.toNat * 2 ^ sh ∨ ey - sh + 1 = 1 := by
        rcases hsh with hsh | hsh
        · right; omega
        · left
          calc 2 ^ F.s = 2 ^ (L - 1) * 2 ^ sh := by rw [← Nat.pow_add]; congr 1; omega
            _ ≤ _ := Nat.mul_le_mul_right _ hL2
      have hvb := F.valU_eq (E := ey - sh + 1) (m := rem.toNat * 2 ^ sh) (by omega) hm1.le hm2
      rw [Nat.add_sub_cancel, Nat.mul_assoc, ← Nat.pow_add, Nat.add_sub_cancel' hshe] at hvb
      have hlt : (ey - sh) * 2 ^ F.s + rem.toNat * 2 ^ sh < F.mag y := by
        rw [← F.valU_lt_iff, hvb, hYv]
        exact Nat.mul_lt_mul_of_pos_right hrl (Nat.two_pow_pos _)
      have hmyl := F.mag_lt y
      have hk : ey - sh < 2 ^ F.w := by
        have := Nat.le_mul_of_pos_right (ey - sh) hpp; omega
      rw [Nat.mod_eq_of_lt (by omega)] at hlo
      refine Ok.bind (nsubC_spec hshe) ?_
      rintro _ rfl
      refine Ok.bind (castU_spec hk) ?_
      intro k hkk
      refine Ok.bind (shlC_spec (by show F.s < F.e + F.s + 1; omega)) ?_
      intro hi hhi
      rw [hkk, Nat.mod_eq_of_lt (by omega)] at hhi
      refine Ok.bind (addC_spec (by omega)) ?_
      intro bits hbits
      rw [hlo, hhi] at hbits
      have hs2 := F.toNat_and_signMask x
      refine Ok.mono (addC_spec (by rw [hs2, hbits]; split <;> omega)) ?_
      intro r hr
      rw [hs2] at hr
      obtain ⟨c1, c2⟩ := F.sign_mag_of (b := r) (t := F.sign x) (by omega) hr
      refine ⟨c1, ?_, ?_⟩
      · unfold IsFin at hy ⊢; rw [c2]; omega
      · rw [c2, hbits, Nat.add_comm, hvb]

/-- `(x * y) / (x * y)` is how the functions produce a NaN for invalid operands -/
theorem mul_div_nan (N : FPU F) {x y : BitVec F.w} (h : ¬ F.IsFin x ∨ F.IsNaN y ∨ F.IsZero y) :
    F.IsNaN (N.div (N.mul x y) (N.mul x y)) := by
  have hil := F.infRep_lt
  have hip := F.ps_le_infRep
  have hps := F.ps_ge
  have hm := N.mul_spec x y
  have hd := N.div_spec (N.mul x y) (N.mul x y)
  by_cases hp : F.IsNaN (N.mul x y)
  · exact hd.2.1 (Or.inl hp)
  · have hxn : ¬ F.IsNaN x := fun hc => hp (hm.2.1 (Or.inl hc))
    have hyn : ¬ F.IsNaN y := fun hc => hp (hm.2.1 (Or.inr hc))
    have key : F.IsInf (N.mul x y) ∨ F.IsZero (N.mul x y) := by
      by_cases hi : F.IsInf x ∨ F.IsInf y
      · have h3 := hm.2.2 hxn hyn hi
        split at h3
        · exact absurd h3 hp
        · exact Or.inl h3.1
      · have hxf := F.isFin_or x
        have hyf := F.isFin_or y
        right
        have h1 := (hm.1 (by tauto) (by tauto)).1.1
        have hz : F.mag y = 0 := by
          have : F.IsZero y := by tauto
          exact this
        rw [F.val_of_mag_zero hz, mul_zero, abs_zero] at h1
        have h2 := F.isRNE_self (n := 0) (by omega)
        rw [F.magVal_zero] at h2
        exact IsRNE.unique F h1 h2
    have h3 := hd.2.2 hp hp (by tauto)
    rwa [if_pos (by tauto)] at h3

theorem fmod_special (N : FPU F) {O : DOps F.w} (x y : BitVec F.w) :
    (¬ F.IsFin x ∨ F.IsNaN y ∨ F.IsZero y → ∃ r, F.fmod N O x y = .ok r ∧ F.IsNaN r) ∧
    (F.IsFin x → F.IsInf y → F.fmod N O x y = .ok x) := by
  have hil := F.infRep_lt
  have hip := F.ps_le_infRep
  have hps := F.ps_ge
  constructor
  · intro h
    unfold fmod
    dsimp only
    rw [if_pos (by rw [Bool.or_eq_true, F.finite_iff, F.nan_or_zero_iff]; exact h)]
    refine ⟨_, rfl, ?_⟩
    exact F.mul_div_nan N h
  · intro hx hy
    unfold fmod
    dsimp only
    rw [if_neg (by
      rw [Bool.or_eq_true, F.finite_iff, F.nan_or_zero_iff]
      unfold IsInf at hy
      unfold IsNaN IsZero
      rintro (h | h | h)
      · exact h hx
      · omega
      · omega), F.toNat_and_not_signMask, F.toNat_and_not_signMask, if_pos]
    · rfl
    · unfold IsInf at hy; unfold IsFin at hx; omega

end Fmt
end Verif
