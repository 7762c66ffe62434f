import Verif.Libm.Fma
import Verif.Libm.Remquo
/-! # Correctness of `fma_round`: the final rounding -/
namespace Verif

theorem shrI_spec {w} {a : BitVec w} {n : Int} (h : 0 ≤ n ∧ n < w) :
    Ok (shrI a n) (fun r => r.toNat = a.toNat / 2 ^ n.toNat) :=
  ⟨a >>> n.toNat, by rw [shrI, if_pos h], by
    show _ = _; rw [BitVec.toNat_ushiftRight, Nat.shiftRight_eq_div_pow]⟩

theorem toNat_ofBoolW {w : Nat} (hw : 0 < w) (b : Bool) : (ofBoolW w b).toNat = b.toNat := by
  cases b
  · simp [ofBoolW]
  · simp only [ofBoolW, if_true, Bool.toNat_true, BitVec.toNat_ofNat]
    exact Nat.mod_eq_of_lt (Nat.one_lt_two_pow (by omega))

/-- Round `G / 2^k` to the nearest integer, ties to even. -/
def rnd (G k : Nat) : Nat :=
  G / 2 ^ k + (if G % 2 ^ k < 2 ^ (k - 1) then 0 else if G % 2 ^ k = 2 ^ (k - 1) then (G / 2 ^ k) % 2 else 1)

theorem rnd_ge (G k : Nat) : G / 2 ^ k ≤ rnd G k := by unfold rnd; omega
theorem rnd_le (G k : Nat) : rnd G k ≤ G / 2 ^ k + 1 := by unfold rnd; split <;> [omega; split <;> omega]

theorem rnd_top {G k P : Nat} (hk : 1 ≤ k) (hq : G / 2 ^ k < 2 * P) (h : rnd G k = 2 * P) : rnd G (k + 1) = P := by
  unfold rnd at *
  have e2 : 2 ^ k = 2 * 2 ^ (k - 1) := by rw [← Nat.pow_succ']; congr 1; omega
  have hd : G / 2 ^ (k + 1) = G / 2 ^ k / 2 := by rw [Nat.pow_succ, Nat.div_div_eq_div_mul]
  have hm : G % 2 ^ (k + 1) = G % 2 ^ k + 2 ^ k * (G / 2 ^ k % 2) := by rw [Nat.pow_succ, Nat.mod_mul]
  have hp := Nat.two_pow_pos (k - 1)
  have hlt := Nat.mod_lt G (Nat.two_pow_pos k)
  rw [hd, hm, Nat.add_sub_cancel]
  generalize G / 2 ^ k = q at *
  generalize G % 2 ^ k = m at *
  generalize 2 ^ (k - 1) = H at *
  rw [e2] at hlt ⊢
  have hq1 : q = 2 * P - 1 := by
    split at h
    · omega
    · split at h <;> omega
  have hm1 : H ≤ m := by
    split at h <;> omega
  rw [show q % 2 = 1 by omega, Nat.mul_one, if_neg (by omega), if_neg (by omega)]
  omega

theorem rnd_exact {G k : Nat} (h : G % 2 ^ k = 0) : rnd G k = G / 2 ^ k := by
  unfold rnd; rw [h, if_pos (Nat.two_pow_pos _), Nat.add_zero]

theorem rnd_add {G k A : Nat} (hA : A % 2 = 0) : rnd (A * 2 ^ k + G) k = A + rnd G k := by
  unfold rnd
  have h1 : (A * 2 ^ k + G) / 2 ^ k = A + G / 2 ^ k := by
    rw [Nat.add_comm, Nat.add_mul_div_right _ _ (Nat.two_pow_pos _), Nat.add_comm]
  have h2 : (A * 2 ^ k + G) % 2 ^ k = G % 2 ^ k := by
    rw [Nat.add_comm, Nat.add_mul_mod_self_right]
  rw [h1, h2, show (A + G / 2 ^ k) % 2 = G / 2 ^ k % 2 by omega]
  omega

theorem shl_ne_iff {G k w : Nat} (hk : k ≤ w) : G * 2 ^ (w - k) % 2 ^ w ≠ 0 ↔ G % 2 ^ k ≠ 0 := by
  have e : 2 ^ w = 2 ^ k * 2 ^ (w - k) := by rw [← Nat.pow_add]; congr 1; omega
  rw [e, Nat.mul_mod_mul_right]
  have := Nat.two_pow_pos (w - k)
  rw [Ne, Nat.mul_eq_zero]; omega

theorem toNat_sticky {w : Nat} (hw : 0 < w) {a s : BitVec w} {G k : Nat} (ha : a.toNat = G / 2 ^ k)
    (hs : s.toNat ≠ 0 ↔ G % 2 ^ k ≠ 0) : (a ||| ofBoolW w (s != 0#w)).toNat = stickyShr G k := by
  rw [BitVec.toNat_or, toNat_ofBoolW hw, ha]
  unfold stickyShr
  congr 1
  have : (s != 0#w) = decide (s.toNat ≠ 0) := by
    by_cases h : s = 0#w
    · rw [h]; simp
    · have : s.toNat ≠ 0 := fun hh => h (BitVec.eq_of_toNat_eq (by simpa using hh))
      simp [h, this]
  rw [this]
  by_cases h : G % 2 ^ k = 0
  · rw [if_neg (by simpa using h)]
    have : ¬ s.toNat ≠ 0 := fun hh => (hs.mp hh) h
    simp only [this, decide_false, Bool.toNat_false]
  · rw [if_pos h]
    rw [decide_eq_true (hs.mpr h)]; rfl

theorem stickyShr_lt {G k n : Nat} (hn : 1 ≤ n) (h : G < 2 ^ (n + k)) : stickyShr G k < 2 ^ n := by
  have h1 : G / 2 ^ k < 2 ^ n := by
    rw [Nat.div_lt_iff_lt_mul (Nat.two_pow_pos _), ← Nat.pow_add]; exact h
  rw [stickyShr_eq]
  have : 2 ^ n = 2 * 2 ^ (n - 1) := by rw [← Nat.pow_succ']; congr 1; omega
  split <;> omega

theorem stickyShr_ge {G k n : Nat} (h : 2 ^ (n + k) ≤ G) : 2 ^ n ≤ stickyShr G k := by
  have h1 : 2 ^ n ≤ G / 2 ^ k := by
    rw [Nat.le_div_iff_mul_le (Nat.two_pow_pos _), ← Nat.pow_add]; exact h
  rw [stickyShr_eq]
  split <;> omega

/-- Side conditions of `fma_round` on the format; they hold for binary32, binary64 and binary128. -/
structure FmaCfg (F : Fmt) : Prop where
  hw : F.w ≤ F.bias
  hs : 3 * F.s + 6 ≤ F.bias
  hes : F.e ≤ F.s

theorem fmaCfg_f32 : FmaCfg f32 := ⟨by decide, by decide, by decide⟩
theorem fmaCfg_f64 : FmaCfg f64 := ⟨by decide, by decide, by decide⟩
theorem fmaCfg_f128 : FmaCfg f128 := ⟨by decide, by decide, by decide⟩

theorem Stk.ge_even {G A : Nat} {y : ℚ} (h : Stk G y) (hA : A % 2 = 0) (hle : A ≤ G) : (A : ℚ) ≤ y := by
  rcases h with ⟨_, rfl⟩ | ⟨ho, h1, _⟩
  · exact_mod_cast hle
  · have : A + 1 ≤ G := by omega
    have : (A : ℚ) + 1 ≤ G := by exact_mod_cast this
    linarith

namespace Fmt
variable (F : Fmt)

theorem even_ps (n : Nat) (q : Nat) : (n * 2 ^ F.s + q) % 2 = q % 2 := by
  have h := F.hs
  obtain ⟨j, hj⟩ : ∃ j, F.s = j + 1 := ⟨F.s - 1, by omega⟩
  rw [hj, Nat.pow_succ, ← Nat.mul_assoc]; omega

/-- rounding of a sticky number at the binade `E` -/
theorem isRNE_at {G k E : Nat} {y : ℚ} {a : ℤ} (h : Stk G y) (hk : 2 ≤ k) (hE : 1 ≤ E)
    (hm1 : G / 2 ^ k < 2 ^ (F.s + 1)) (hm0 : 2 ^ F.s ≤ G / 2 ^ k ∨ E = 1)
    (hn : (E - 1) * 2 ^ F.s + G / 2 ^ k < F.infRep) (ha : a = (E : ℤ) - F.bias - F.s - k) :
    F.IsRNE (y * 2 ^ a) ((E - 1) * 2 ^ F.s + rnd G k) := by
  rw [F.isRNE_unit]
  refine F.isRNEu_of_stk h hk hE hm1 hm0 hn ?_ ?_
  · unfold ulp0
    rw [mul_div_assoc, ← zpow_sub₀ (by norm_num), ha, div_mul_eq_mul_div, mul_div_assoc, ← zpow_natCast,
      ← zpow_natCast, ← zpow_sub₀ (by norm_num)]
    congr 2
    omega
  · rw [even_ps]; unfold rnd; omega

theorem rnd_magVal {G k E : Nat} (hE : 1 ≤ E)
    (hm1 : G / 2 ^ k < 2 ^ (F.s + 1)) (hm0 : 2 ^ F.s ≤ G / 2 ^ k ∨ E = 1) :
    F.magVal ℚ ((E - 1) * 2 ^ F.s + rnd G k) = rnd G k * 2 ^ ((E : ℤ) - F.bias - F.s) := by
  have h1 := rnd_ge G k
  have h2 := rnd_le G k
  exact F.magVal_at hE (by omega) (by omega)

theorem fmaCast_spec (C : IntCast F) (neg : Bool) {i : BitVec F.w} (h0 : 0 < i.toNat) (h1 : i.toNat < 2 ^ (F.w - 1)) :
    Ok (F.fmaCast C neg i) (fun r => F.IsRNE (i.toNat : ℚ) (F.mag r) ∧ F.sign r = neg) := by
  have hpw : 2 ^ F.w = 2 * 2 ^ (F.w - 1) := by
    rw [← Nat.pow_succ']; rfl
  have hi : i.toInt = i.toNat := by
    rw [BitVec.toInt_eq_toNat_cond, if_pos (by omega)]
  have hq : (0 : ℚ) < i.toNat := by exact_mod_cast h0
  unfold fmaCast
  cases neg
  · refine Ok.bind (P := fun j => j = i) (Ok.pure' rfl) ?_
    intro j hj
    rw [hj]
    refine Ok.pure' ?_
    obtain ⟨a, b⟩ := C.spec i
    rw [hi] at a b
    push_cast at a b
    rw [abs_of_pos hq] at a
    refine ⟨a, ?_⟩
    have := b hq.ne'
    cases hs : F.sign (C.cast i)
    · rfl
    · have := this.mp hs; linarith
  · have hne : i ≠ BitVec.intMin F.w := by
      intro h
      have := congrArg BitVec.toNat h
      rw [BitVec.toNat_intMin, Nat.mod_eq_of_lt (Nat.pow_lt_pow_right (by omega) (by show F.w - 1 < F.w; have : 0 < F.w := Nat.succ_pos _; omega))] at this
      omega
    refine Ok.bind (P := fun j => j = -i) ?_ ?_
    · show Ok (negC i) _
      unfold negC
      rw [if_neg hne]; exact Ok.pure rfl
    rintro _ rfl
    refine Ok.pure' ?_
    obtain ⟨a, b⟩ := C.spec (-i)
    have hi' : (-i).toInt = -(i.toNat : Int) := by
      rw [BitVec.toInt_neg_of_ne_intMin hne, hi]
    rw [hi'] at a b
    push_cast at a b
    rw [abs_neg, abs_of_pos hq] at a
    refine ⟨a, ?_⟩
    exact (b (by linarith)).mpr (by linarith)

theorem scalbn_val (N : FPU F) (hF : FmaCfg F) {r : BitVec F.w} {e : Int} {v : ℚ} (h1 : -2 ^ 31 ≤ e) (h2 : e < 2 ^ 31)
    (hr : F.IsFin r) (hv : F.magVal ℚ (F.mag r) = v) :
    Ok (F.scalbn N r e) (fun o => F.IsRNE (v * 2 ^ e) (F.mag o) ∧ F.sign o = F.sign r) := by
  refine Ok.mono (F.scalbn_fin N (fun _ => hF.hs) h1 h2 hr) ?_
  rintro o ⟨a, b⟩
  rw [hv] at b
  exact ⟨b, a⟩

/-- `2^s ≤ y / 2^k` and a large exponent: overflow -/
theorem isRNE_big {y : ℚ} {k E : Nat} {a : ℤ} (hy : 2 ^ (F.s + k) ≤ y) (hE : 2 ^ F.e - 1 ≤ E)
    (ha : a = (E : ℤ) - F.bias - F.s - k) : F.IsRNE (y * 2 ^ a) F.infRep := by
  have hpb := F.pe_bias
  apply F.isRNE_overflow
  have hp : (0 : ℚ) < 2 ^ a := by positivity
  calc (2 : ℚ) ^ ((F.bias : ℤ) + 1) ≤ 2 ^ (((F.s + k : Nat) : ℤ) + a) := by
        apply zpow_le_zpow_right₀ (by norm_num)
        push_cast; omega
    _ = 2 ^ (F.s + k) * 2 ^ a := by rw [zpow_add₀ (by norm_num), zpow_natCast]
    _ ≤ _ := mul_le_mul_of_nonneg_right hy hp.le

/-- The exponent of the binade of `2^(w-2)`. -/
theorem fma_E1 (hF : FmaCfg F) : 1 ≤ F.w - 2 + F.bias ∧ (F.w - 2 + F.bias + 1) * 2 ^ F.s < F.infRep := by
  have h1 := hF.hw
  have he := F.he
  have hpb := F.pe_bias
  have hw : F.w = F.e + F.s + 1 := rfl
  refine ⟨by omega, ?_⟩
  unfold infRep
  apply Nat.mul_lt_mul_of_pos_right _ (Nat.two_pow_pos _)
  omega

/-- the native conversion rounds to `s+1` bits -/
theorem cast_at (hF : FmaCfg F) {G : Nat} {n : Nat} (h0 : 2 ^ (F.w - 2) ≤ G) (h1 : G < 2 ^ (F.w - 1))
    (h : F.IsRNE (G : ℚ) n) : n = (F.w - 2 + F.bias - 1) * 2 ^ F.s + rnd G (F.e - 1) ∧ n < F.infRep ∧
      F.magVal ℚ n = rnd G (F.e - 1) * 2 ^ (F.e - 1) ∧ 2 ^ F.s ≤ G / 2 ^ (F.e - 1) ∧ G / 2 ^ (F.e - 1) < 2 ^ (F.s + 1) := by
  have he := F.he
  obtain ⟨hE, hlt⟩ := F.fma_E1 hF
  have hw : F.w = F.e + F.s + 1 := rfl
  have q1 : G / 2 ^ (F.e - 1) < 2 ^ (F.s + 1) := by
    rw [Nat.div_lt_iff_lt_mul (Nat.two_pow_pos _), ← Nat.pow_add]
    rwa [show F.s + 1 + (F.e - 1) = F.w - 1 by omega]
  have q0 : 2 ^ F.s ≤ G / 2 ^ (F.e - 1) := by
    rw [Nat.le_div_iff_mul_le (Nat.two_pow_pos _), ← Nat.pow_add]
    rwa [show F.s + (F.e - 1) = F.w - 2 by omega]
  have hps := F.ps_succ
  have hge := rnd_ge G (F.e - 1)
  have hle := rnd_le G (F.e - 1)
  have hb : (F.w - 2 + F.bias - 1) * 2 ^ F.s + 2 ^ (F.s + 1) = (F.w - 2 + F.bias + 1) * 2 ^ F.s := by
    rw [hps, ← Nat.add_mul]; congr 1; omega
  have key := F.isRNE_at (a := 0) (k := F.e - 1) (E := F.w - 2 + F.bias) (Stk.exact G) (by omega) hE q1 (Or.inl q0) (by omega)
    (by omega)
  rw [zpow_zero, mul_one] at key
  have := IsRNE.unique F h key
  refine ⟨this, by omega, ?_, q0, q1⟩
  rw [this, F.rnd_magVal hE q1 (Or.inl q0)]
  congr 1
  rw [← zpow_natCast]
  congr 1
  omega

theorem fmaFinish_normal (N : FPU F) (hF : FmaCfg F) {G : Nat} {y : ℚ} {e : Int} {r : BitVec F.w}
    (hG0 : 2 ^ (F.w - 2) ≤ G) (hG1 : G < 2 ^ (F.w - 1)) (hs : Stk G y) (he0 : -((F.w - 1 + F.bias : Nat) - 2 : Int) ≤ e)
    (he1 : e < 2 ^ 31) (hr : F.IsRNE (G : ℚ) (F.mag r)) :
    Ok (F.scalbn N r e) (fun o => F.IsRNE (y * 2 ^ e) (F.mag o) ∧ F.sign o = F.sign r) := by
  have he := F.he; have he' := F.he'; have hs' := F.hs'
  have hpb := F.pe_bias
  have hpl := F.pe_le
  have hw : F.w = F.e + F.s + 1 := rfl
  obtain ⟨hE, hlt⟩ := F.fma_E1 hF
  obtain ⟨_, hfin, hval, q0, q1⟩ := F.cast_at hF hG0 hG1 hr
  refine Ok.mono (F.scalbn_val N hF (by omega) he1 hfin hval) ?_
  rintro o ⟨h1, h2⟩
  refine ⟨?_, h2⟩
  have hge := rnd_ge G (F.e - 1)
  have hle := rnd_le G (F.e - 1)
  have hy : (2 : ℚ) ^ (F.s + (F.e - 1)) ≤ y := by
    have := hs.ge_even (A := 2 ^ (F.w - 2)) ?_ hG0
    · rw [show F.w - 2 = F.s + (F.e - 1) by omega] at this
      push_cast at this; exact this
    · rw [show F.w - 2 = (F.w - 3) + 1 by omega, Nat.pow_succ]; omega
  obtain ⟨E, hEe⟩ : ∃ E : Nat, (E : Int) = e + (F.w - 2 + F.bias : Nat) := ⟨(e + (F.w - 2 + F.bias : Nat)).toNat, by omega⟩
  have hE1 : 1 ≤ E := by omega
  have hexp : (rnd G (F.e - 1) : ℚ) * 2 ^ (F.e - 1) * 2 ^ e = rnd G (F.e - 1) * 2 ^ ((E : ℤ) - F.bias - F.s) := by
    rw [mul_assoc, ← zpow_natCast, ← zpow_add₀ (by norm_num)]
    congr 2; omega
  by_cases hlt2 : (E - 1) * 2 ^ F.s + G / 2 ^ (F.e - 1) < F.infRep
  · have key := F.isRNE_at (a := e) hs (k := F.e - 1) (by omega) hE1 q1 (Or.inl q0) hlt2 (by omega)
    rw [hexp, ← F.rnd_magVal hE1 q1 (Or.inl q0)] at h1
    have := IsRNE.unique F h1 (F.isRNE_self (key.1))
    rw [this]; exact key
  · have hbig : 2 ^ F.e - 1 ≤ E := by
      by_contra hc
      have : (E + 1) * 2 ^ F.s ≤ (2 ^ F.e - 1) * 2 ^ F.s := Nat.mul_le_mul_right _ (by omega)
      have e1 : (E - 1) * 2 ^ F.s + 2 ^ (F.s + 1) = (E + 1) * 2 ^ F.s := by
        rw [F.ps_succ, ← Nat.add_mul]; congr 1; omega
      unfold infRep at hlt2
      omega
    have key := F.isRNE_big hy hbig (a := e) (by omega)
    have key2 := F.isRNE_big (y := (rnd G (F.e - 1) : ℚ) * 2 ^ (F.e - 1)) (k := F.e - 1) (E := E) (a := e) ?_ hbig (by omega)
    · rw [IsRNE.unique F h1 key2]; exact key
    · rw [pow_add]
      apply mul_le_mul_of_nonneg_right _ (by positivity)
      have : 2 ^ F.s ≤ rnd G (F.e - 1) := by omega
      exact_mod_cast this

theorem fmaFinish_tiny (N : FPU F) (C : IntCast F) (hF : FmaCfg F) (neg : Bool) {rhi : BitVec F.w} {y : ℚ} {e : Int}
    (hG0 : 2 ^ (F.w - 2) ≤ rhi.toNat) (hG1 : rhi.toNat < 2 ^ (F.w - 1)) (hs : Stk rhi.toNat y)
    (he0 : e < -((F.w - 1 + F.bias : Nat) - 1 : Int)) (he1 : -2 ^ 31 ≤ e) {i : BitVec F.w}
    (hi : i.toNat = stickyShr rhi.toNat (F.e - 1) * 2 ^ (F.e - 1)) :
    Ok (F.fmaCast C neg i >>= fun r => F.scalbn N r e) (fun o => F.IsRNE (y * 2 ^ e) (F.mag o) ∧ F.sign o = neg) := by
  have he := F.he; have he' := F.he'; have hs' := F.hs'
  have hpb := F.pe_bias
  have hpl := F.pe_le
  have hw : F.w = F.e + F.s + 1 := rfl
  generalize rhi.toNat = G at *
  have hsk := hs.shr (F.e - 1)
  have s1 : stickyShr G (F.e - 1) < 2 ^ (F.s + 1) := stickyShr_lt (by omega) (by
    rwa [show F.s + 1 + (F.e - 1) = F.w - 1 by omega])
  have s0 : 2 ^ F.s ≤ stickyShr G (F.e - 1) := stickyShr_ge (by
    rwa [show F.s + (F.e - 1) = F.w - 2 by omega])
  generalize stickyShr G (F.e - 1) = S at *
  have i0 : 2 ^ (F.w - 2) ≤ i.toNat := by
    rw [hi, show F.w - 2 = F.s + (F.e - 1) by omega, Nat.pow_add]; exact Nat.mul_le_mul_right _ s0
  have i1 : i.toNat < 2 ^ (F.w - 1) := by
    rw [hi, show F.w - 1 = F.s + 1 + (F.e - 1) by omega, Nat.pow_add]
    exact Nat.mul_lt_mul_of_pos_right s1 (Nat.two_pow_pos _)
  refine Ok.bind (F.fmaCast_spec C neg (lt_of_lt_of_le (Nat.two_pow_pos _) i0) i1) ?_
  rintro r ⟨h1, h2⟩
  obtain ⟨_, hfin, hval, _, _⟩ := F.cast_at hF i0 i1 h1
  have hrnd : rnd i.toNat (F.e - 1) = S := by
    rw [rnd_exact (by rw [hi, Nat.mul_mod_left]), hi, Nat.mul_div_cancel _ (Nat.two_pow_pos _)]
  rw [hrnd] at hval
  refine Ok.mono (F.scalbn_val N hF he1 (by omega) hfin hval) ?_
  rintro o ⟨h3, h4⟩
  refine ⟨?_, by rw [h4, h2]⟩
  obtain ⟨k2, hk2⟩ : ∃ k2 : Nat, (k2 : Int) = 1 - (e + (F.w - 2 + F.bias : Nat)) := ⟨(1 - (e + (F.w - 2 + F.bias : Nat))).toNat, by omega⟩
  have hps := F.ps_succ
  have hinf := F.ps_le_infRep
  have hd : S / 2 ^ k2 < 2 ^ F.s := by
    rw [Nat.div_lt_iff_lt_mul (Nat.two_pow_pos _)]
    have : 2 * 2 ^ F.s ≤ 2 ^ k2 * 2 ^ F.s := Nat.mul_le_mul_right _ (by
      calc 2 = 2 ^ 1 := rfl
        _ ≤ 2 ^ k2 := Nat.pow_le_pow_right (by omega) (by omega))
    rw [Nat.mul_comm]; omega
  have k1 := F.isRNE_at (a := e + (F.e - 1 : Nat)) hsk (k := k2) (E := 1) (by omega) (by omega) (by omega) (Or.inr rfl) (by omega)
    (by omega)
  have k3 := F.isRNE_at (a := e + (F.e - 1 : Nat)) (Stk.exact S) (k := k2) (E := 1) (by omega) (by omega) (by omega) (Or.inr rfl)
    (by omega) (by omega)
  have e1 : y / 2 ^ (F.e - 1) * 2 ^ (e + (F.e - 1 : Nat)) = y * 2 ^ e := by
    rw [zpow_add₀ (by norm_num), zpow_natCast]; field_simp
  have e2 : (S : ℚ) * 2 ^ (e + (F.e - 1 : Nat)) = S * 2 ^ (F.e - 1) * 2 ^ e := by
    rw [zpow_add₀ (by norm_num), zpow_natCast]; ring
  rw [e1] at k1
  rw [e2] at k3
  rw [IsRNE.unique F h3 k3]; exact k1

theorem fma_c (hF : FmaCfg F) (neg : Bool) : F.IsFin (if neg then F.neg (F.fromParts false (F.w - 1 + F.bias) 0#F.w)
      else F.fromParts false (F.w - 1 + F.bias) 0#F.w) ∧
    F.sign (if neg then F.neg (F.fromParts false (F.w - 1 + F.bias) 0#F.w)
      else F.fromParts false (F.w - 1 + F.bias) 0#F.w) = neg ∧
    F.mag (if neg then F.neg (F.fromParts false (F.w - 1 + F.bias) 0#F.w)
      else F.fromParts false (F.w - 1 + F.bias) 0#F.w) = (F.w - 1 + F.bias) * 2 ^ F.s := by
  have h1 := hF.hw
  have hpb := F.pe_bias
  have he := F.he
  have hw : F.w = F.e + F.s + 1 := rfl
  obtain ⟨a, b⟩ := F.fromParts_facts (t := false) (n := F.w - 1 + F.bias) (sig := 0#F.w) (by omega) (by simp)
  simp only [BitVec.toNat_ofNat, Nat.zero_mod, Nat.add_zero] at b
  have hlt : (F.w - 1 + F.bias) * 2 ^ F.s < F.infRep := by
    unfold infRep
    exact Nat.mul_lt_mul_of_pos_right (by omega) (Nat.two_pow_pos _)
  generalize F.fromParts false (F.w - 1 + F.bias) 0#F.w = c at *
  cases neg
  · exact ⟨by unfold IsFin; simpa [b] using hlt, a, b⟩
  · refine ⟨?_, ?_, ?_⟩
    · unfold IsFin; simp only [if_true]; rw [F.mag_neg, b]; exact hlt
    · simp only [if_true]; rw [F.sign_neg, a]; rfl
    · simp only [if_true]; rw [F.mag_neg, b]

/-- `2 r - c`: removing the extra top bit is exact -/
theorem fma_untop (N : FPU F) (hF : FmaCfg F) {neg : Bool} {r c : BitVec F.w} {ρ : Nat} (hρ0 : 0 < ρ) (hρ : ρ ≤ 2 ^ F.s)
    (hr : F.IsFin r) (hrs : F.sign r = neg) (hrv : F.magVal ℚ (F.mag r) = (2 ^ F.s + ρ : Nat) * 2 ^ (F.e - 1))
    (hc : F.IsFin c) (hcs : F.sign c = neg) (hcv : F.mag c = (F.w - 1 + F.bias) * 2 ^ F.s) :
    F.IsFin (N.sub (N.mul (F.fromParts false (F.bias + 1) 0#F.w) r) c) ∧
    F.sign (N.sub (N.mul (F.fromParts false (F.bias + 1) 0#F.w) r) c) = neg ∧
    F.magVal ℚ (F.mag (N.sub (N.mul (F.fromParts false (F.bias + 1) 0#F.w) r) c)) = ρ * 2 ^ F.e := by
  have he := F.he
  have h1 := hF.hw
  have hw : F.w = F.e + F.s + 1 := rfl
  have hpb := F.pe_bias
  have hps := F.ps_succ
  have hpw := F.fromParts_pow (E := F.bias + 1) (by omega) (by omega)
  generalize F.fromParts false (F.bias + 1) 0#F.w = two at *
  have e2 : (2 : ℚ) ^ F.e = 2 * 2 ^ (F.e - 1) := by
    rw [← pow_succ']; congr 1; omega
  have hinf : (F.w - 1 + F.bias) * 2 ^ F.s + 2 ^ F.s ≤ F.infRep := by
    unfold infRep
    rw [← Nat.succ_mul]
    exact Nat.mul_le_mul_right _ (by omega)
  have vc : F.magVal ℚ (F.mag c) = 2 ^ F.s * 2 ^ F.e := by
    rw [hcv, show (F.w - 1 + F.bias) * 2 ^ F.s = (F.w - 1 + F.bias - 1) * 2 ^ F.s + 2 ^ F.s by
      rw [← Nat.succ_mul]; congr 1; omega, F.magVal_at (by omega) (by omega) (Or.inl (le_refl _))]
    push_cast
    congr 1
    rw [← zpow_natCast]; congr 1; omega
  -- the doubled number
  have hn2 := F.magVal_at (E := F.w - 2 + F.bias + 1) (m := 2 ^ F.s + ρ) (by omega) (by omega) (Or.inl (by omega))
  rw [show F.w - 2 + F.bias + 1 - 1 = F.w - 2 + F.bias by omega] at hn2
  have hn2le : (F.w - 2 + F.bias) * 2 ^ F.s + (2 ^ F.s + ρ) < F.infRep := by
    have : (F.w - 1 + F.bias) * 2 ^ F.s = (F.w - 2 + F.bias) * 2 ^ F.s + 2 ^ F.s := by
      rw [← Nat.succ_mul]; congr 1; omega
    have hlt : (F.w - 1 + F.bias + 1) * 2 ^ F.s < F.infRep := by
      unfold infRep
      exact Nat.mul_lt_mul_of_pos_right (by omega) (Nat.two_pow_pos _)
    rw [Nat.succ_mul] at hlt
    omega
  obtain ⟨d, hd1, hd2⟩ := F.exists_sign_mag neg (lt_trans hn2le F.infRep_lt)
  have vd : F.magVal ℚ (F.mag d) = (2 ^ F.s + ρ : Nat) * 2 ^ F.e := by
    rw [hd2, hn2]; congr 1
    rw [← zpow_natCast]; congr 1; push_cast; omega
  have hm := (N.mul_spec two r).1 hpw.fin hr
  have hm1 := Rounds.exact F hm.1 (c := d) (by omega) (by
    show F.val two * F.val r = F.val d
    rw [F.val_sign, F.val_sign, F.val_sign, hpw.sgn, hpw.value, hrs, hrv, hd1, vd, e2,
      show ((F.bias + 1 : Nat) : ℤ) - F.bias = 1 by push_cast; ring]
    simp only [Bool.false_eq_true, if_false, zpow_one]
    ring)
  have hq : N.mul two r = d := F.ext_sign_mag (by rw [hm.2, hpw.sgn, hrs, hd1]; simp) hm1.1
  rw [hq]
  -- the difference
  have hdf : F.IsFin d := by unfold IsFin; omega
  obtain ⟨n, hn, hnle⟩ := F.exists_repr (F.w - 2 + F.bias + 1) (by omega) ρ (by omega)
  have hnlt : n < F.infRep := by
    rw [show F.w - 2 + F.bias + 1 - 1 = F.w - 2 + F.bias by omega] at hnle
    omega
  obtain ⟨g, hg1, hg2⟩ := F.exists_sign_mag neg (lt_trans hnlt F.infRep_lt)
  have vg : F.magVal ℚ (F.mag g) = ρ * 2 ^ F.e := by
    rw [hg2, hn]; congr 1
    rw [← zpow_natCast]; congr 1; push_cast; omega
  have ha := ((N.sub_spec d c).1 hdf (F.isFin_neg.mpr hc)).1
  have hval : F.val d + F.val (F.neg c) = F.val g := by
    rw [F.val_neg, F.val_sign, F.val_sign, F.val_sign, hd1, hcs, hg1, vd, vc, vg]
    push_cast
    ring
  have hg := Rounds.exact F ha (c := g) (by omega) hval
  have hne : F.val d + F.val (F.neg c) ≠ 0 := by
    rw [hval, F.val_sign, vg]
    have : (0 : ℚ) < ρ * 2 ^ F.e := by
      have : (0 : ℚ) < ρ := by exact_mod_cast hρ0
      positivity
    split <;> linarith
  refine ⟨by unfold IsFin; omega, by rw [hg.2 hne, hg1], by rw [hg.1, vg]⟩

theorem fmaFinish_spec (N : FPU F) (C : IntCast F) (hF : FmaCfg F) (neg : Bool) {rhi : BitVec F.w} {y : ℚ} {e : Int}
    (hG0 : 2 ^ (F.w - 2) ≤ rhi.toNat) (hG1 : rhi.toNat < 2 ^ (F.w - 1)) (hs : Stk rhi.toNat y)
    (he0 : -2 ^ 31 ≤ e) (he1 : e < 2 ^ 31) :
    Ok (F.fmaFinish N C neg rhi e) (fun o => F.IsRNE (y * 2 ^ e) (F.mag o) ∧ F.sign o = neg) := by
  have he := F.he; have he' := F.he'; have hs' := F.hs'; have hs10 := F.hs
  have hpb := F.pe_bias
  have hpl := F.pe_le
  have hw : F.w = F.e + F.s + 1 := rfl
  have hps := F.ps_succ
  have hinf := F.ps_le_infRep
  have hwp : 0 < F.w := by omega
  unfold fmaFinish
  refine Ok.bind (F.fmaCast_spec C neg (lt_of_lt_of_le (Nat.two_pow_pos _) hG0) hG1) ?_
  rintro r ⟨hr, hrs⟩
  dsimp only
  by_cases c1 : e < -(((F.w - 1 + F.bias : Nat) : Int) - 2)
  case neg =>
    rw [if_neg c1]
    refine Ok.mono (F.fmaFinish_normal N hF hG0 hG1 hs (by omega) he1 hr) ?_
    rintro o ⟨a, b⟩
    exact ⟨a, by rw [b, hrs]⟩
  rw [if_pos c1]
  by_cases c2 : e = -(((F.w - 1 + F.bias : Nat) : Int) - 1)
  case neg =>
    rw [if_neg c2]
    refine Ok.bind (i32C_spec (by omega)) ?_
    rintro _ rfl
    refine Ok.bind (shlI_spec (by omega)) ?_
    intro s hsv
    refine Ok.bind (shrI_spec (by omega)) ?_
    intro a ha
    rw [show ((F.e : Int) - 1).toNat = F.e - 1 by omega] at ha
    rw [show ((F.w : Int) - ((F.e : Int) - 1)).toNat = F.w - (F.e - 1) by omega] at hsv
    have hst := toNat_sticky hwp ha (s := s) (by rw [hsv]; exact shl_ne_iff (by omega))
    refine Ok.bind (shlI_spec (by omega)) ?_
    intro i hi
    rw [hst, show ((F.e : Int) - 1).toNat = F.e - 1 by omega] at hi
    have s1 : stickyShr rhi.toNat (F.e - 1) < 2 ^ (F.s + 1) := stickyShr_lt (by omega) (by
      rwa [show F.s + 1 + (F.e - 1) = F.w - 1 by omega])
    rw [Nat.mod_eq_of_lt (by
      calc _ < 2 ^ (F.s + 1) * 2 ^ (F.e - 1) := Nat.mul_lt_mul_of_pos_right s1 (Nat.two_pow_pos _)
        _ = 2 ^ (F.s + 1 + (F.e - 1)) := (Nat.pow_add _ _ _).symm
        _ ≤ 2 ^ F.w := Nat.pow_le_pow_right (by omega) (by omega))] at hi
    exact F.fmaFinish_tiny N C hF neg hG0 hG1 hs (by omega) he0 hi
  rw [if_pos c2]
  obtain ⟨hm, hfin, hval, q0, q1⟩ := F.cast_at hF hG0 hG1 hr
  obtain ⟨cf, cs, cm⟩ := F.fma_c hF neg
  generalize (if neg = true then F.neg (F.fromParts false (F.w - 1 + F.bias) 0#F.w)
      else F.fromParts false (F.w - 1 + F.bias) 0#F.w) = c at *
  by_cases c3 : F.feq r c = true
  · rw [if_pos c3]
    have hmm : F.mag r = F.mag c := by
      have := ((F.feq_iff r c).mp c3).2.2
      unfold smag at this
      split at this <;> split at this <;> omega
    have hrnd : rnd rhi.toNat (F.e - 1) = 2 * 2 ^ F.s := by
      rw [hm, cm] at hmm
      have : (F.w - 1 + F.bias) * 2 ^ F.s = (F.w - 2 + F.bias - 1) * 2 ^ F.s + 2 * 2 ^ F.s := by
        rw [← Nat.add_mul]; congr 1; omega
      omega
    have hrt := rnd_top (by omega) (by omega) hrnd
    rw [show F.e - 1 + 1 = F.e by omega] at hrt
    have hd : rhi.toNat / 2 ^ F.e < 2 ^ F.s := by
      rw [Nat.div_lt_iff_lt_mul (Nat.two_pow_pos _), ← Nat.pow_add]
      rwa [show F.s + F.e = F.w - 1 by omega]
    have key := F.isRNE_at (a := e) hs (k := F.e) (E := 1) (by omega) (by omega) (by omega) (Or.inr rfl) (by omega) (by omega)
    rw [hrt, Nat.sub_self, Nat.zero_mul, Nat.zero_add] at key
    obtain ⟨p1, p2⟩ := F.copysign_facts (F.fromParts false 1 0#F.w) r
    obtain ⟨a, b⟩ := F.fromParts_facts (t := false) (n := 1) (sig := 0#F.w) (by omega) (by simp)
    simp only [BitVec.toNat_ofNat, Nat.zero_mod, Nat.add_zero, Nat.one_mul] at b
    exact Ok.pure' ⟨by rw [p2, b]; exact key, by rw [p1, hrs]⟩
  rw [if_neg c3]
  refine Ok.bind (shlC_spec (by omega)) ?_
  intro t ht
  have htz : t ≠ 0#F.w ↔ rhi.toNat % 2 ^ F.e ≠ 0 := by
    rw [← shl_ne_iff (w := F.w) (by omega), show F.w - F.e = F.s + 1 by omega, ← ht, not_iff_not]
    constructor
    · intro h; rw [h]; simp
    · intro h; exact BitVec.eq_of_toNat_eq (by simpa using h)
  by_cases c4 : t ≠ 0#F.w
  case neg =>
    rw [if_neg c4]
    rw [htz, not_not] at c4
    have hz : rhi.toNat % 2 ^ (F.e - 1) = 0 := by
      rw [← Nat.mod_mod_of_dvd _ (Nat.pow_dvd_pow 2 (show F.e - 1 ≤ F.e by omega)), c4, Nat.zero_mod]
    have hy : y = rhi.toNat := by
      rcases hs with ⟨_, h⟩ | ⟨h, _⟩
      · exact h
      · rw [← Nat.mod_mod_of_dvd _ (show 2 ∣ 2 ^ F.e from dvd_pow_self 2 (by omega)), c4] at h; omega
    have hv2 : F.magVal ℚ (F.mag r) = y := by
      rw [hval, rnd_exact hz, hy]
      have := Nat.div_add_mod rhi.toNat (2 ^ (F.e - 1))
      rw [hz, Nat.add_zero, Nat.mul_comm] at this
      exact_mod_cast this
    refine Ok.mono (F.scalbn_val N hF he0 he1 hfin hv2) ?_
    rintro o ⟨a, b⟩
    exact ⟨a, by rw [b, hrs]⟩
  rw [if_pos c4]
  refine Ok.bind (shrC_spec (by omega)) ?_
  intro a ha
  refine Ok.bind (shlC_spec (by omega)) ?_
  intro b hb
  have h1p := F.toNat_one'
  rw [h1p, Nat.one_mul, Nat.mod_eq_of_lt (Nat.pow_lt_pow_right (by omega) (by omega))] at hb
  have hsk := hs.shr 1
  have hS : (a ||| (rhi &&& 1#F.w)).toNat = stickyShr rhi.toNat 1 := by
    rw [BitVec.toNat_or, BitVec.toNat_and, h1p, ha, Nat.and_one_is_mod]
    unfold stickyShr
    congr 1
    rw [Nat.pow_one]
    split <;> omega
  have s1 : stickyShr rhi.toNat 1 < 2 ^ (F.w - 2) := stickyShr_lt (by omega) (by
      rwa [show F.w - 2 + 1 = F.w - 1 by omega])
  have s0 : 2 ^ (F.w - 3) ≤ stickyShr rhi.toNat 1 := stickyShr_ge (by
      rwa [show F.w - 3 + 1 = F.w - 2 by omega])
  generalize stickyShr rhi.toNat 1 = S at *
  have hiu : (a ||| (rhi &&& 1#F.w) ||| b).toNat = 2 ^ (F.w - 2) + S := by
    rw [BitVec.toNat_or, hS, hb, Nat.or_comm, or_eq_add' s1 (dvd_refl _), Nat.add_comm]
  have hpw1 : 2 ^ (F.w - 1) = 2 * 2 ^ (F.w - 2) := by rw [← Nat.pow_succ']; congr 1; omega
  generalize (a ||| (rhi &&& 1#F.w) ||| b) = iu at *
  refine Ok.bind (F.fmaCast_spec C neg (i := iu) (by omega) (by omega)) ?_
  rintro r1 ⟨hr1, hrs1⟩
  obtain ⟨hm', hfin', hval', q0', q1'⟩ := F.cast_at hF (by omega) (by omega) hr1
  have hpA : 2 ^ (F.w - 2) = 2 ^ F.s * 2 ^ (F.e - 1) := by rw [← Nat.pow_add]; congr 1; omega
  have hev : 2 ^ F.s % 2 = 0 := by
    rw [show F.s = (F.s - 1) + 1 by omega, Nat.pow_succ]; omega
  rw [hiu, hpA, rnd_add hev] at hval'
  have d1 : S / 2 ^ (F.e - 1) < 2 ^ F.s := by
    rw [Nat.div_lt_iff_lt_mul (Nat.two_pow_pos _), ← hpA]; exact s1
  have d0 : 0 < S / 2 ^ (F.e - 1) := by
    apply Nat.div_pos _ (Nat.two_pow_pos _)
    calc 2 ^ (F.e - 1) ≤ 2 ^ (F.w - 3) := Nat.pow_le_pow_right (by omega) (by omega)
      _ ≤ S := s0
  have hge := rnd_ge S (F.e - 1)
  have hle := rnd_le S (F.e - 1)
  obtain ⟨u1, u2, u3⟩ := F.fma_untop N hF (ρ := rnd S (F.e - 1)) (by omega) (by omega) hfin' hrs1 hval' cf cs cm
  refine Ok.mono (F.scalbn_val N hF he0 he1 u1 u3) ?_
  rintro o ⟨h3, h4⟩
  refine ⟨?_, by rw [h4, u2]⟩
  have key := F.isRNE_at (a := e + 1) hsk (k := F.e - 1) (E := 1) (by omega) (by omega) (by omega) (Or.inr rfl) (by omega)
    (by omega)
  have hv := F.rnd_magVal (G := S) (k := F.e - 1) (E := 1) (by omega) (by omega) (Or.inr rfl)
  have hself := F.isRNE_self key.1
  rw [hv] at hself
  have e1 : y / 2 ^ 1 * 2 ^ (e + 1) = y * 2 ^ e := by
    rw [zpow_add₀ (by norm_num), zpow_one]; ring
  have e2 : (rnd S (F.e - 1) : ℚ) * 2 ^ F.e * 2 ^ e = rnd S (F.e - 1) * 2 ^ (((1 : Nat) : ℤ) - F.bias - F.s) := by
    rw [mul_assoc, ← zpow_natCast, ← zpow_add₀ (by norm_num)]
    congr 2; omega
  rw [e2] at h3
  rw [e1] at key
  rw [IsRNE.unique F h3 hself]; exact key

end Fmt
end Verif
