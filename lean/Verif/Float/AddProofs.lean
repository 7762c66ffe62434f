import Verif.Float.Add
import Verif.Float.Round
import Mathlib.Tactic.FieldSimp
import Mathlib.Tactic.LinearCombination
/-!
# Correctness of soft-float addition
-/
namespace Verif

/-- `G` represents `y` up to stickiness: exactly when even, within the open unit neighbourhood when odd. -/
def Stk (G : Nat) (y : ℚ) : Prop :=
  (G % 2 = 0 ∧ y = G) ∨ (G % 2 = 1 ∧ (G : ℚ) - 1 < y ∧ y < G + 1)

theorem Stk.exact (G : Nat) : Stk G G := by
  rcases Nat.mod_two_eq_zero_or_one G with h | h
  · exact Or.inl ⟨h, rfl⟩
  · exact Or.inr ⟨h, by linarith, by linarith⟩

/-- the value of `G >> k | sticky` -/
def stickyShr (G k : Nat) : Nat := (G / 2 ^ k) ||| (if G % 2 ^ k ≠ 0 then 1 else 0)

theorem or_one (n : Nat) : n ||| 1 = if n % 2 = 0 then n + 1 else n := by
  have h := Nat.div_add_mod n 2
  rcases Nat.mod_two_eq_zero_or_one n with h1 | h1
  · rw [if_pos h1]
    have : n = n / 2 * 2 ^ 1 := by omega
    rw [this, Nat.or_comm, or_eq_add (k := 1) (by norm_num) (Dvd.intro_left _ rfl)]
    omega
  · rw [if_neg (by omega)]
    apply Nat.eq_of_testBit_eq
    intro i
    rw [Nat.testBit_or]
    cases i with
    | zero => simp [Nat.testBit_zero, h1]
    | succ i => simp [Nat.testBit_succ]

theorem stickyShr_eq (G k : Nat) : stickyShr G k =
    if G % 2 ^ k ≠ 0 ∧ (G / 2 ^ k) % 2 = 0 then G / 2 ^ k + 1 else G / 2 ^ k := by
  unfold stickyShr
  by_cases h : G % 2 ^ k = 0
  · simp [h]
  · rw [if_pos h, or_one]
    by_cases h2 : (G / 2 ^ k) % 2 = 0
    · rw [if_pos h2, if_pos ⟨h, h2⟩]
    · rw [if_neg h2, if_neg (fun hh => h2 hh.2)]

theorem Stk.shr {G : Nat} {y : ℚ} (h : Stk G y) (k : Nat) : Stk (stickyShr G k) (y / 2 ^ k) := by
  rcases Nat.eq_zero_or_pos k with rfl | hk
  · have : stickyShr G 0 = G := by simp [stickyShr, Nat.mod_one]
    rw [this]; simpa using h
  have hp : (0 : ℚ) < 2 ^ k := by positivity
  have hpn : 2 ≤ 2 ^ k := by
    calc 2 = 2 ^ 1 := rfl
      _ ≤ 2 ^ k := Nat.pow_le_pow_right (by omega) hk
  have hpe : 2 ^ k % 2 = 0 := by
    obtain ⟨j, rfl⟩ : ∃ j, k = j + 1 := ⟨k - 1, by omega⟩
    rw [Nat.pow_succ]; omega
  rw [stickyShr_eq]
  have hdm := Nat.div_add_mod G (2 ^ k)
  have hlt := Nat.mod_lt G (show 0 < 2 ^ k by omega)
  have hpc : ((2 ^ k : Nat) : ℚ) = 2 ^ k := by push_cast; rfl
  generalize hq : G / 2 ^ k = q at *
  generalize hr : G % 2 ^ k = r at *
  rw [← hpc] at hp ⊢
  generalize hP : 2 ^ k = P at *
  have hG : (G : ℚ) = P * q + r := by exact_mod_cast hdm.symm
  have hPQ : (2 : ℚ) ≤ P := by exact_mod_cast hpn
  have hrl : (r : ℚ) + 1 ≤ P := by exact_mod_cast hlt
  have hr0 : (0 : ℚ) ≤ r := Nat.cast_nonneg _
  by_cases h0 : r = 0
  · subst h0
    rw [if_neg (by simp)]
    rcases h with ⟨he, hy⟩ | ⟨ho, hy1, hy2⟩
    · have : y / (P : ℚ) = q := by
        rw [hy, hG]; field_simp; simp
      rw [this]; exact Stk.exact q
    · exfalso
      rw [← hdm, Nat.add_zero, Nat.mul_mod, hpe] at ho
      simp at ho
  · have hr1 : (1 : ℚ) ≤ r := by exact_mod_cast Nat.one_le_iff_ne_zero.mpr h0
    have hb : (G : ℚ) - 1 < y ∧ y < G + 1 := by
      rcases h with ⟨_, hy⟩ | ⟨_, hy⟩
      · constructor <;> linarith
      · exact hy
    by_cases hqe : q % 2 = 0
    · rw [if_pos ⟨h0, hqe⟩]
      refine Or.inr ⟨by omega, ?_, ?_⟩
      · rw [lt_div_iff₀ hp]; push_cast; nlinarith
      · rw [div_lt_iff₀ hp]; push_cast; nlinarith
    · rw [if_neg (fun hh => hqe hh.2)]
      refine Or.inr ⟨by omega, ?_, ?_⟩
      · rw [lt_div_iff₀ hp]; nlinarith
      · rw [div_lt_iff₀ hp]; nlinarith

theorem Stk.even_add {G A : Nat} {y : ℚ} (h : Stk G y) (hA : A % 2 = 0) : Stk (A + G) (A + y) := by
  rcases h with ⟨he, rfl⟩ | ⟨ho, h1, h2⟩
  · exact Or.inl ⟨by omega, by push_cast; ring⟩
  · exact Or.inr ⟨by omega, by push_cast; linarith, by push_cast; linarith⟩

theorem Stk.even_sub {G A : Nat} {y : ℚ} (h : Stk G y) (hA : A % 2 = 0) (hle : G ≤ A) :
    Stk (A - G) (A - y) := by
  rcases h with ⟨he, rfl⟩ | ⟨ho, h1, h2⟩
  · exact Or.inl ⟨by omega, by rw [Nat.cast_sub hle]⟩
  · refine Or.inr ⟨by omega, ?_, ?_⟩ <;> rw [Nat.cast_sub hle] <;> linarith

/-- if the represented number is an even integer, the representation is exact -/
theorem Stk.eq_of_even {G N : Nat} (h : Stk G (2 * N : ℚ)) : (G : ℚ) = 2 * N := by
  rcases h with ⟨_, h⟩ | ⟨ho, h1, h2⟩
  · exact h.symm
  · exfalso
    have h1' : (G : ℚ) < 2 * N + 1 := by linarith
    have h2' : (2 * N : ℚ) < G + 1 := h2
    have a : G < 2 * N + 1 := by exact_mod_cast h1'
    have b : 2 * N < G + 1 := by exact_mod_cast h2'
    omega

/-- the three low bits of `G` decide rounding of `y/8` -/
def Rnd3 (G : Nat) (y : ℚ) : Prop :=
  8 * ((G / 8 : Nat) : ℚ) ≤ y ∧ y < 8 * ((G / 8 : Nat) : ℚ) + 8 ∧
  (G % 8 < 4 → y < 8 * ((G / 8 : Nat) : ℚ) + 4) ∧
  (4 < G % 8 → 8 * ((G / 8 : Nat) : ℚ) + 4 < y) ∧
  (G % 8 = 4 → y = 8 * ((G / 8 : Nat) : ℚ) + 4)

theorem Stk.rnd3 {G : Nat} {y : ℚ} (h : Stk G y) : Rnd3 G y := by
  have hdm := Nat.div_add_mod G 8
  have hlt := Nat.mod_lt G (show 0 < 8 by omega)
  unfold Rnd3
  generalize G / 8 = q at *
  generalize hr : G % 8 = r at *
  subst hdm
  rcases h with ⟨he, rfl⟩ | ⟨ho, h1, h2⟩
  · push_cast
    have : (r : ℚ) < 8 := by exact_mod_cast hlt
    have h0 : (0 : ℚ) ≤ r := Nat.cast_nonneg _
    refine ⟨by linarith, by linarith, fun h => ?_, fun h => ?_, fun h => ?_⟩
    · have : (r : ℚ) < 4 := by exact_mod_cast h
      linarith
    · have : (4 : ℚ) < r := by exact_mod_cast h
      linarith
    · subst h; push_cast; ring
  · push_cast at h1 h2
    have h1' : (1 : ℚ) ≤ r := by exact_mod_cast (show 1 ≤ r by omega)
    have h7 : (r : ℚ) ≤ 7 := by exact_mod_cast (show r ≤ 7 by omega)
    refine ⟨by linarith, by linarith, fun h => ?_, fun h => ?_, fun h => ?_⟩
    · have : (r : ℚ) ≤ 3 := by exact_mod_cast (show r ≤ 3 by omega)
      linarith
    · have : (5 : ℚ) ≤ r := by exact_mod_cast (show 5 ≤ r by omega)
      linarith
    · omega

/-- doubling loses the sticky invariant but keeps what is needed for rounding -/
theorem Stk.rnd3_double {G : Nat} {y : ℚ} (h : Stk G y) : Rnd3 (2 * G) (2 * y) := by
  rcases h with ⟨he, rfl⟩ | ⟨ho, h1, h2⟩
  · have := (Stk.exact (2 * G)).rnd3
    push_cast at this; exact this
  · have hdm := Nat.div_add_mod (2 * G) 8
    have hlt := Nat.mod_lt (2 * G) (show 0 < 8 by omega)
    have hmod : 2 * G % 8 = 2 ∨ 2 * G % 8 = 6 := by omega
    unfold Rnd3
    generalize 2 * G / 8 = q at *
    generalize hr : 2 * G % 8 = r at *
    have hG : 2 * (G : ℚ) = 8 * q + r := by exact_mod_cast hdm.symm
    rcases hmod with rfl | rfl
    · push_cast at hG
      refine ⟨by linarith, by linarith, fun h => by linarith, fun h => by omega, fun h => by omega⟩
    · push_cast at hG
      refine ⟨by linarith, by linarith, fun h => by omega, fun h => by linarith, fun h => by omega⟩

theorem two_pow_le {a b : Nat} (h : a ≤ b) : 2 ^ a ≤ 2 ^ b := Nat.pow_le_pow_right (by omega) h

namespace Fmt
variable (F : Fmt)

theorem ps_add (k : Nat) : 2 ^ (F.s + k) = 2 ^ F.s * 2 ^ k := Nat.pow_add _ _ _

theorem ps_le_infRep : 2 ^ F.s ≤ F.infRep := by
  have := F.pe_ge
  unfold infRep
  exact Nat.le_mul_of_pos_left _ (by omega)

theorem w_lt_two_pow : F.w < 2 ^ F.w := Nat.lt_two_pow_self

theorem addStickyShr_spec {sig shift : BitVec F.w} (h0 : 1 ≤ shift.toNat) (h1 : shift.toNat < F.w) :
    Ok (F.addStickyShr sig shift) (fun r => r.toNat = stickyShr sig.toNat shift.toNat) := by
  have hw := F.w_lt_two_pow
  have hbits : (BitVec.ofNat F.w F.w).toNat = F.w := by
    rw [BitVec.toNat_ofNat, Nat.mod_eq_of_lt hw]
  have hsub : (BitVec.ofNat F.w F.w - shift).toNat = F.w - shift.toNat := by
    rw [BitVec.toNat_sub_of_le (by rw [BitVec.le_def, hbits]; omega), hbits]
  have hwb : F.w ≤ 128 := by
    have := F.he'; have := F.hs'; show F.e + F.s + 1 ≤ _; omega
  unfold addStickyShr
  refine Ok.bind (castToU32_spec (by rw [hsub]; omega)) ?_
  rintro k rfl
  rw [hsub]
  refine Ok.bind (shlC_spec (by omega)) ?_
  intro l hl
  refine Ok.bind (castToU32_spec (by omega)) ?_
  rintro k rfl
  refine Ok.bind (shrC_spec (by omega)) ?_
  intro h hh
  refine Ok.pure' ?_
  show (h ||| _).toNat = _
  rw [BitVec.toNat_or, hh]
  unfold stickyShr
  congr 1
  have key : l.toNat = 2 ^ (F.w - shift.toNat) * (sig.toNat % 2 ^ shift.toNat) := by
    rw [hl, Nat.mul_comm]
    have : 2 ^ F.w = 2 ^ (F.w - shift.toNat) * 2 ^ shift.toNat := by
      rw [← Nat.pow_add]; congr 1; omega
    rw [this, Nat.mul_mod_mul_left]
  have hp := Nat.two_pow_pos (F.w - shift.toNat)
  by_cases hz : sig.toNat % 2 ^ shift.toNat = 0
  · have : l = 0#F.w := by
      apply BitVec.eq_of_toNat_eq; rw [key, hz]; simp
    simp [this, hz]
  · have : l ≠ 0#F.w := by
      apply toNat_ne_zero
      rw [key]
      exact Nat.ne_of_gt (Nat.mul_pos hp (Nat.pos_of_ne_zero hz))
    rw [if_pos this, if_pos hz, F.toNat_one']

/-- What a decoded nonzero finite magnitude `n` looks like. -/
def Dec (n : Nat) (x : Int) (m : Nat) : Prop :=
  2 ^ F.s ≤ m ∧ m < 2 ^ (F.s + 1) ∧ 1 - (F.s : Int) ≤ x ∧ x < 2 ^ F.e - 1 ∧
  (F.valU n : ℚ) = m * 2 ^ (x - 1)

theorem dec_normal {n : Nat} (hn : n < F.infRep) (h : n / 2 ^ F.s ≠ 0) :
    F.Dec n (n / 2 ^ F.s : Nat) (2 ^ F.s + n % 2 ^ F.s) := by
  have hlt := Nat.mod_lt n (Nat.two_pow_pos F.s)
  have := F.mag_isFin_div hn
  have hs := F.hs
  have hE : (1 : Int) ≤ ((n / 2 ^ F.s : Nat) : Int) := by
    exact_mod_cast Nat.one_le_iff_ne_zero.mpr h
  have hE2 : ((n / 2 ^ F.s : Nat) : Int) < 2 ^ F.e - 1 := by
    have h2 := F.pe_ge
    have : ((n / 2 ^ F.s : Nat) : Int) < ((2 ^ F.e - 1 : Nat) : Int) := by exact_mod_cast this
    rw [Nat.cast_sub (by omega)] at this
    push_cast at this ⊢; exact this
  refine ⟨Nat.le_add_right _ _, ?_, ?_, hE2, ?_⟩
  · rw [F.ps_succ]; omega
  · omega
  · unfold valU
    rw [if_neg h]
    push_cast
    congr 1
    rw [← zpow_natCast, Nat.cast_sub (Nat.one_le_iff_ne_zero.mpr h)]
    push_cast; rfl

theorem dec_subnormal {n k m : Nat} (hz : n / 2 ^ F.s = 0) (hk1 : 1 ≤ k) (hk : k ≤ F.s)
    (hm : m = (n % 2 ^ F.s) * 2 ^ k) (h1 : 2 ^ F.s ≤ m) (h2 : m < 2 ^ (F.s + 1)) :
    F.Dec n (1 - (k : Int)) m := by
  have hp := F.pe_ge
  have hp' : (32 : Int) ≤ 2 ^ F.e := by exact_mod_cast hp
  refine ⟨h1, h2, by omega, by omega, ?_⟩
  unfold valU
  rw [if_pos hz, hm]
  push_cast
  rw [mul_assoc, ← zpow_natCast, ← zpow_add₀ (by norm_num : (2 : ℚ) ≠ 0)]
  have : (k : ℤ) + (1 - k - 1) = 0 := by ring
  rw [this]; simp

theorem or_implicit {x : BitVec F.w} (h : x.toNat < 2 ^ F.s) :
    (x ||| F.implicitBit).toNat = 2 ^ F.s + x.toNat := by
  rw [BitVec.toNat_or, F.toNat_implicitBit, or_eq_add h (dvd_refl _), Nat.add_comm]

theorem or_implicit' {x : BitVec F.w} (h0 : 2 ^ F.s ≤ x.toNat) (h : x.toNat < 2 ^ (F.s + 1)) :
    (x ||| F.implicitBit).toNat = x.toNat := by
  rw [BitVec.toNat_or, F.toNat_implicitBit]
  have : x.toNat = 2 ^ F.s + (x.toNat - 2 ^ F.s) := by omega
  have hlt : x.toNat - 2 ^ F.s < 2 ^ F.s := by rw [F.ps_succ] at h; omega
  have e := or_eq_add' (k := F.s) hlt (dvd_refl (2 ^ F.s))
  rw [this, Nat.add_comm, ← e, Nat.or_assoc, Nat.or_comm _ (2 ^ F.s), ← Nat.or_assoc, Nat.or_self]

theorem addDecode_spec {b : BitVec F.w} (h0 : F.mag b ≠ 0) (hf : F.mag b < F.infRep) :
    Ok (F.addDecode b) (fun p => ∃ m, p.2.toNat = 8 * m ∧ F.Dec (F.mag b) p.1 m) := by
  have he := F.he; have he' := F.he'; have hs' := F.hs'
  have hE := F.mag_isFin_div hf
  have hpe := F.pe_le
  have hps := Nat.two_pow_pos F.s
  have hexp : ((b &&& F.expMask) >>> F.s).toNat = F.mag b / 2 ^ F.s := by
    rw [BitVec.toNat_ushiftRight, F.toNat_and_expMask, Nat.shiftRight_eq_div_pow,
      Nat.mul_div_cancel _ hps]
  have hsig : (b &&& F.sigMask).toNat = F.mag b % 2 ^ F.s := by
    rw [F.toNat_and_sigMask, F.mag_mod]
  have hmod := Nat.mod_lt (F.mag b) hps
  have hshl : ∀ y : BitVec F.w, 2 ^ F.s ≤ y.toNat → y.toNat < 2 ^ (F.s + 1) →
      Ok (shlC y 3) (fun r => r.toNat = 8 * y.toNat) := by
    intro y _ h2
    refine (shlC_spec (by show 3 < F.e + F.s + 1; omega)).mono ?_
    intro r hr
    have e3 : 2 ^ (F.s + 4) ≤ 2 ^ F.w := two_pow_le (by show _ ≤ F.e + F.s + 1; omega)
    rw [F.ps_add] at e3 h2
    rw [hr, Nat.mod_eq_of_lt (by omega)]; omega
  unfold addDecode
  refine Ok.bind (castToI32_spec (by rw [hexp]; omega)) ?_
  rintro x rfl
  rw [hexp]
  by_cases hz : F.mag b / 2 ^ F.s = 0
  · have hz' : ((F.mag b / 2 ^ F.s : Nat) : Int) = 0 := by exact_mod_cast hz
    simp only [hz', if_true]
    have hdm := Nat.div_add_mod (F.mag b) (2 ^ F.s)
    rw [hz, Nat.mul_zero, Nat.zero_add] at hdm
    refine Ok.bind (F.normalize_spec (by rw [hsig]; omega) (by rw [hsig]; exact hmod)) ?_
    rintro ⟨x, sg⟩ ⟨k, hk1, hk2, hx, hm, hm1, hm2⟩
    dsimp only at hx hm hm1 hm2 ⊢
    rw [hsig] at hm
    refine Ok.bind (hshl _ ?_ ?_) ?_
    · rw [F.or_implicit' hm1 hm2]; exact hm1
    · rw [F.or_implicit' hm1 hm2]; exact hm2
    intro r hr
    rw [F.or_implicit' hm1 hm2] at hr
    refine Ok.pure' ⟨_, hr, ?_⟩
    rw [hx]
    exact F.dec_subnormal hz hk1 hk2 hm hm1 hm2
  · have hz' : ¬ ((F.mag b / 2 ^ F.s : Nat) : Int) = 0 := by exact_mod_cast hz
    simp only [hz', if_false]
    refine Ok.bind (Ok.pure' (P := (· = (((F.mag b / 2 ^ F.s : Nat) : Int), b &&& F.sigMask))) rfl) ?_
    rintro ⟨x, sg⟩ hp
    obtain ⟨rfl, rfl⟩ := Prod.mk.inj hp
    have hor := F.or_implicit (x := b &&& F.sigMask) (by rw [hsig]; exact hmod)
    refine Ok.bind (hshl _ ?_ ?_) ?_
    · rw [hor]; omega
    · rw [hor, hsig, F.ps_succ]; omega
    intro r hr
    rw [hor, hsig] at hr
    exact Ok.pure' ⟨_, hr, F.dec_normal hf hz⟩

theorem addAlign_spec {xa xb : Int} {B : BitVec F.w} {m : Nat} (hx : xb ≤ xa)
    (hxa : xa < 2 ^ F.e - 1) (hxb : 1 - (F.s : Int) ≤ xb) (hB : B.toNat = 8 * m)
    (hm : m < 2 ^ (F.s + 1)) (hm0 : 0 < m) :
    Ok (F.addAlign xa xb B) (fun r => Stk r.toNat ((8 * m : ℚ) / 2 ^ (xa - xb).toNat) ∧
      (2 ^ (F.s + 2) < r.toNat → (r.toNat : ℚ) = (8 * m : ℚ) / 2 ^ (xa - xb).toNat)) := by
  have he := F.he; have he' := F.he'; have hs' := F.hs'; have hs := F.hs
  have hpe : (2 : Int) ^ F.e ≤ 32768 := by exact_mod_cast F.pe_le
  have hpe0 : (32 : Int) ≤ 2 ^ F.e := by exact_mod_cast F.pe_ge
  have hw := F.w_lt_two_pow
  have hwd : F.w = F.e + F.s + 1 := rfl
  have hbits : (BitVec.ofNat F.w F.w).toNat = F.w := by
    rw [BitVec.toNat_ofNat, Nat.mod_eq_of_lt hw]
  have hbig : xa - xb < 2 ^ F.w := by
    have : 2 ^ F.e * 2 ^ F.s ≤ 2 ^ F.w := by rw [F.pw]; omega
    have h3 : (F.s : Int) < 2 ^ F.s := by exact_mod_cast Nat.lt_two_pow_self
    have h4 : ((2 ^ F.e * 2 ^ F.s : Nat) : Int) ≤ ((2 ^ F.w : Nat) : Int) := by exact_mod_cast this
    push_cast at h4
    nlinarith
  unfold addAlign
  refine Ok.bind (castI_spec (w := F.w) (x := i32W (xa - xb)) ?_) ?_
  · rw [i32W_eq (by omega)]; omega
  intro al hal
  rw [i32W_eq (by omega)] at hal
  have hd : (xa - xb).toNat = al.toNat := by omega
  rw [hd]
  have hy4 : 2 ≤ al.toNat → (8 * m : ℚ) / 2 ^ al.toNat < 2 ^ (F.s + 2) := by
    intro h2
    rw [div_lt_iff₀ (by positivity), ← pow_add]
    have : 8 * m < 2 ^ (F.s + 2 + al.toNat) := by
      have : 2 ^ (F.s + 4) ≤ 2 ^ (F.s + 2 + al.toNat) := two_pow_le (by omega)
      rw [F.ps_add] at hm this
      omega
    exact_mod_cast this
  by_cases h0 : al = 0#F.w
  · rw [if_neg (by simpa using h0)]
    subst h0
    have e : ((8 * m : ℚ) / 2 ^ (0#F.w).toNat) = (B.toNat : ℚ) := by
      rw [hB]; simp
    rw [e]
    exact Ok.pure' ⟨Stk.exact _, fun _ => rfl⟩
  · rw [if_pos h0]
    have h1 : 1 ≤ al.toNat := Nat.one_le_iff_ne_zero.mpr (ne_zero_toNat h0)
    have big : ∀ r : Nat, Stk r ((8 * m : ℚ) / 2 ^ al.toNat) → 2 ≤ al.toNat → ¬ 2 ^ (F.s + 2) < r := by
      intro r hr h2 h3
      have h5 := hy4 h2
      have h6 : (r : ℚ) < (8 * m : ℚ) / 2 ^ al.toNat + 1 := by
        rcases hr with ⟨_, h⟩ | ⟨_, h, _⟩ <;> linarith
      have h7 : (2 : ℚ) ^ (F.s + 2) + 1 ≤ r := by exact_mod_cast h3
      linarith
    by_cases hlt : al < BitVec.ofNat F.w F.w
    · rw [if_pos hlt]
      have hlt' : al.toNat < F.w := by rw [BitVec.lt_def, hbits] at hlt; exact hlt
      refine (F.addStickyShr_spec h1 hlt').mono ?_
      intro r hr
      have hst : Stk r.toNat ((8 * m : ℚ) / 2 ^ al.toNat) := by
        rw [hr, hB]
        have := (Stk.exact (8 * m)).shr al.toNat
        push_cast at this; exact this
      refine ⟨hst, fun h3 => ?_⟩
      have h2 : al.toNat = 1 := by
        by_contra hne
        exact big _ hst (by omega) h3
      rw [hr, hB, h2, stickyShr_eq]
      have : 8 * m % 2 ^ 1 = 0 := by omega
      rw [if_neg (fun hh => hh.1 this)]
      have h4 : 8 * m / 2 ^ 1 = 4 * m := by omega
      rw [h4]; push_cast; ring
    · rw [if_neg hlt]
      have hlt' : F.w ≤ al.toNat := by rw [BitVec.lt_def, hbits] at hlt; omega
      refine Ok.pure' ?_
      rw [F.toNat_one']
      have hst : Stk 1 ((8 * m : ℚ) / 2 ^ al.toNat) := by
        refine Or.inr ⟨rfl, ?_, ?_⟩
        · have : (0 : ℚ) < m := by exact_mod_cast hm0
          push_cast
          rw [sub_self]; positivity
        · push_cast
          rw [div_lt_iff₀ (by positivity)]
          have : 2 ^ (F.s + 4) ≤ 2 ^ al.toNat := two_pow_le (by omega)
          rw [F.ps_add] at hm this
          have : 8 * m < (1 + 1) * 2 ^ al.toNat := by omega
          exact_mod_cast this
      refine ⟨hst, fun h3 => ?_⟩
      exfalso
      exact big 1 hst (by omega) h3

/-- What the branches hand to `addFinish`: `g` has its top bit at position `s+3` and represents
`y = 8·X/2^(x-1)` well enough for rounding. -/
def Pre (x : Int) (g : Nat) (y : ℚ) : Prop :=
  2 ^ (F.s + 3) ≤ g ∧ g < 2 ^ (F.s + 4) ∧ Rnd3 g y ∧ (x ≤ 0 → y = g)

theorem addSubBranch_spec {x : Int} {A B : BitVec F.w} {m : Nat} {yb : ℚ}
    (hx0 : 1 - (F.s : Int) ≤ x) (hx1 : x < 2 ^ F.e - 1)
    (hA : A.toNat = 8 * m) (hm0 : 2 ^ F.s ≤ m) (hm : m < 2 ^ (F.s + 1)) (hB : Stk B.toNat yb)
    (hB2 : 2 ^ (F.s + 2) < B.toNat → (B.toNat : ℚ) = yb) (hyb : 0 < yb) (hle : yb ≤ 8 * m)
    (hex : x ≤ 1 → ∃ N : Nat, (8 * m : ℚ) - yb = 2 * N) :
    Ok (F.addSubBranch x A B) (fun r =>
      (r = none ∧ (8 * m : ℚ) - yb = 0) ∨
      (∃ x' g, ∃ k : Nat, r = some (x', g) ∧ x' = x - k ∧ k ≤ F.s + 4 ∧ (8 * m : ℚ) - yb ≠ 0 ∧
        F.Pre x' g.toNat (((8 * m : ℚ) - yb) * 2 ^ k))) := by
  have he := F.he; have he' := F.he'; have hs' := F.hs'; have hs := F.hs
  have hpe : (2 : Int) ^ F.e ≤ 32768 := by exact_mod_cast F.pe_le
  have hwd : F.w = F.e + F.s + 1 := rfl
  have hps := F.ps_ge
  have hBA : B.toNat ≤ A.toNat := by
    rw [hA]
    rcases hB with ⟨_, h⟩ | ⟨ho, h, _⟩
    · rw [h] at hle; exact_mod_cast hle
    · have : (B.toNat : ℚ) < 8 * m + 1 := by linarith
      have : B.toNat < 8 * m + 1 := by exact_mod_cast this
      omega
  have hB1 : 1 ≤ B.toNat := by
    rcases hB with ⟨_, h⟩ | ⟨ho, _, _⟩
    · rw [h] at hyb; exact_mod_cast hyb
    · omega
  have hG : (A - B).toNat = 8 * m - B.toNat := by rw [BitVec.toNat_sub_of_le hBA, hA]
  have hst : Stk (A - B).toNat (8 * m - yb) := by
    rw [hG]
    have := hB.even_sub (A := 8 * m) (by omega) (by omega)
    push_cast at this; exact this
  have hp3 : 2 ^ (F.s + 3) = 8 * 2 ^ F.s := by rw [F.ps_add]; omega
  have hp4 : 2 ^ (F.s + 4) = 16 * 2 ^ F.s := by rw [F.ps_add]; omega
  have hp2 : 2 ^ (F.s + 2) = 4 * 2 ^ F.s := by rw [F.ps_add]; omega
  rw [F.ps_succ] at hm
  have hpw : 2 ^ (F.s + 4) ≤ 2 ^ F.w := two_pow_le (by omega)
  unfold addSubBranch
  dsimp only
  by_cases h0 : A - B = 0#F.w
  · rw [if_pos h0]
    refine Ok.pure' (Or.inl ⟨rfl, ?_⟩)
    have hz : (A - B).toNat = 0 := by rw [h0]; simp
    rw [hz] at hst
    rcases hst with ⟨_, h⟩ | ⟨h, _⟩
    · simpa using h
    · omega
  rw [if_neg h0]
  have hG0 := ne_zero_toNat h0
  refine Ok.bind (shlC_spec (by omega)) ?_
  intro t ht
  rw [F.toNat_implicitBit, Nat.mod_eq_of_lt (by omega)] at ht
  have hY0 : (8 * m : ℚ) - yb ≠ 0 := by
    intro hz
    rw [hz] at hst
    have := Stk.eq_of_even (N := 0) (by simpa using hst)
    apply hG0
    exact_mod_cast (by simpa using this : ((A - B).toNat : ℚ) = 0)
  have hex' : x ≤ 1 → (8 * m : ℚ) - yb = (A - B).toNat := by
    intro h
    obtain ⟨N, hN⟩ := hex h
    rw [hN] at hst ⊢
    exact hst.eq_of_even.symm
  by_cases hlt : A - B < t
  · rw [if_pos hlt]
    rw [BitVec.lt_def] at hlt
    have hbl := lt_two_pow_bitLen (A - B).toNat
    have hbg := two_pow_le_of_bitLen hG0
    have hbp := bitLen_pos hG0
    have hble : bitLen (A - B).toNat ≤ F.s + 3 := by
      rw [bitLen_le_iff]; omega
    have htl : bitLen t.toNat = F.s + 4 := by
      apply bitLen_unique (k := F.s + 3)
      · rw [ht]; show _ < 2 ^ (F.s + 4); omega
      · rw [ht]; omega
    obtain ⟨k, hk⟩ : ∃ k, k = F.s + 4 - bitLen (A - B).toNat := ⟨_, rfl⟩
    have hnl : (nlz (A - B) : Int) - (nlz t : Int) = k := by
      unfold nlz
      rw [htl]; omega
    refine Ok.bind (i32C_spec (by rw [hnl]; omega)) ?_
    rintro sh rfl
    rw [hnl]
    refine Ok.bind (shlI_spec (by omega)) ?_
    intro g hg
    have hk' : ((k : Int)).toNat = k := by omega
    rw [hk'] at hg
    have g1 : 2 ^ (F.s + 3) ≤ (A - B).toNat * 2 ^ k := by
      calc 2 ^ (F.s + 3) = 2 ^ (bitLen (A - B).toNat - 1) * 2 ^ k := by
            rw [← Nat.pow_add]; congr 1; omega
        _ ≤ _ := Nat.mul_le_mul_right _ hbg
    have g2 : (A - B).toNat * 2 ^ k < 2 ^ (F.s + 4) := by
      calc _ < 2 ^ bitLen (A - B).toNat * 2 ^ k :=
            Nat.mul_lt_mul_of_pos_right hbl (Nat.two_pow_pos _)
        _ = _ := by rw [← Nat.pow_add]; congr 1; omega
    rw [Nat.mod_eq_of_lt (by omega)] at hg
    refine Ok.bind (i32C_spec (by omega)) ?_
    rintro x' rfl
    refine Ok.pure' (Or.inr ⟨_, _, k, rfl, rfl, by omega, hY0, ?_⟩)
    rw [← hg] at g1 g2
    by_cases hk1 : k = 1
    · subst hk1
      refine ⟨g1, g2, ?_, ?_⟩
      · rw [hg]
        have := hst.rnd3_double
        rw [Nat.mul_comm, mul_comm 2 ((8 * m : ℚ) - yb)] at this
        simpa using this
      · intro h
        rw [hex' (by push_cast at h; omega), hg]; push_cast; ring
    · have hexact : (8 * m : ℚ) - yb = (A - B).toNat := by
        have hB3 : 2 ^ (F.s + 2) < B.toNat := by
          have : (A - B).toNat < 2 ^ (F.s + 2) := by
            have : 2 ^ bitLen (A - B).toNat ≤ 2 ^ (F.s + 2) := two_pow_le (by omega)
            omega
          omega
        rw [hG, Nat.cast_sub (by omega), ← hB2 hB3]; push_cast; ring
      have he2 : ((8 * m : ℚ) - yb) * 2 ^ k = g.toNat := by
        rw [hexact, hg]; push_cast; rfl
      refine ⟨g1, g2, ?_, fun _ => he2⟩
      rw [he2]; exact (Stk.exact _).rnd3
  · rw [if_neg hlt]
    rw [BitVec.lt_def] at hlt
    refine Ok.pure' (Or.inr ⟨_, _, 0, rfl, by simp, by omega, hY0, ?_⟩)
    rw [pow_zero, mul_one]
    exact ⟨by omega, by omega, hst.rnd3, fun h => hex' (by omega)⟩

theorem addAddBranch_spec {x : Int} {A B : BitVec F.w} {m : Nat} {yb : ℚ}
    (hx0 : 1 - (F.s : Int) ≤ x) (hx1 : x < 2 ^ F.e - 1)
    (hA : A.toNat = 8 * m) (hm0 : 2 ^ F.s ≤ m) (hm : m < 2 ^ (F.s + 1)) (hB : Stk B.toNat yb)
    (hle : yb ≤ 8 * m)
    (hex : x ≤ 1 → ∃ N : Nat, (8 * m : ℚ) + yb = 4 * N) :
    Ok (F.addAddBranch x A B) (fun r => ∃ k : Nat, k ≤ 1 ∧ r.1 = x + k ∧
        F.Pre r.1 r.2.toNat (((8 * m : ℚ) + yb) / 2 ^ k)) := by
  have he := F.he; have he' := F.he'; have hs' := F.hs'; have hs := F.hs
  have hpe : (2 : Int) ^ F.e ≤ 32768 := by exact_mod_cast F.pe_le
  have hwd : F.w = F.e + F.s + 1 := rfl
  have hps := F.ps_ge
  have hBA : B.toNat ≤ 8 * m := by
    rcases hB with ⟨_, h⟩ | ⟨ho, h, _⟩
    · rw [h] at hle; exact_mod_cast hle
    · have : (B.toNat : ℚ) < 8 * m + 1 := by linarith
      have : B.toNat < 8 * m + 1 := by exact_mod_cast this
      omega
  have hp3 : 2 ^ (F.s + 3) = 8 * 2 ^ F.s := by rw [F.ps_add]; omega
  have hp4 : 2 ^ (F.s + 4) = 16 * 2 ^ F.s := by rw [F.ps_add]; omega
  have hp5 : 2 ^ (F.s + 5) = 32 * 2 ^ F.s := by rw [F.ps_add]; omega
  rw [F.ps_succ] at hm
  have hpw : 2 ^ (F.s + 5) ≤ 2 ^ F.w := two_pow_le (by omega)
  have hst : Stk (8 * m + B.toNat) (8 * m + yb) := by
    have := hB.even_add (A := 8 * m) (by omega)
    push_cast at this; exact this
  unfold addAddBranch
  refine Ok.bind (addC_spec (by omega)) ?_
  intro G hG
  rw [hA] at hG
  rw [← hG] at hst
  refine Ok.bind (shlC_spec (by omega)) ?_
  intro t ht
  rw [F.toNat_implicitBit, Nat.mod_eq_of_lt (by omega)] at ht
  have ht' : t.toNat = 2 ^ (F.s + 4) := by rw [ht, F.ps_add]
  have hbit : G &&& t ≠ 0#F.w ↔ 2 ^ (F.s + 4) ≤ G.toNat := by
    have hlt : G.toNat < 2 ^ (F.s + 5) := by omega
    constructor
    · intro h
      by_contra hc
      apply h
      apply BitVec.eq_of_toNat_eq
      rw [BitVec.toNat_and, ht']
      have hc' : G.toNat < 2 ^ (F.s + 4) := by omega
      apply Nat.eq_of_testBit_eq
      intro i
      rw [Nat.testBit_and, Nat.testBit_two_pow]
      by_cases hi : F.s + 4 = i
      · subst hi
        simp [Nat.testBit_lt_two_pow hc']
      · simp [hi]
    · intro h hz
      have hz' : (G &&& t).toNat = 0 := by rw [hz]; simp
      rw [BitVec.toNat_and, ht'] at hz'
      have h1 : (G.toNat &&& 2 ^ (F.s + 4)).testBit (F.s + 4) = false := by rw [hz']; simp
      rw [Nat.testBit_and, Nat.testBit_two_pow_self, Bool.and_true] at h1
      have h2 := Nat.testBit_of_two_pow_le_and_two_pow_add_one_gt h (by exact hlt)
      rw [h2] at h1; exact absurd h1 (by simp)
  have hex' : x ≤ 1 → (8 * m : ℚ) + yb = G.toNat := by
    intro h
    obtain ⟨N, hN⟩ := hex h
    have e : (4 * N : ℚ) = 2 * ((2 * N : Nat) : ℚ) := by push_cast; ring
    rw [hN, e] at hst ⊢
    exact hst.eq_of_even.symm
  by_cases hc : G &&& t ≠ 0#F.w
  · rw [if_pos hc]
    have hc' := hbit.mp hc
    refine Ok.bind (shrC_spec (by omega)) ?_
    intro h hh
    refine Ok.bind (i32C_spec (by omega)) ?_
    rintro x' rfl
    refine Ok.pure' ⟨1, le_refl _, by simp, ?_⟩
    have hr : (h ||| (if G &&& 1#F.w ≠ 0#F.w then 1#F.w else 0#F.w)).toNat = stickyShr G.toNat 1 := by
      rw [BitVec.toNat_or, hh]
      unfold stickyShr
      congr 1
      have h1 : (G &&& 1#F.w).toNat = G.toNat % 2 ^ 1 := by
        rw [BitVec.toNat_and, F.toNat_one']
        exact Nat.and_two_pow_sub_one_eq_mod G.toNat 1
      by_cases hz : G &&& 1#F.w = 0#F.w
      · have : G.toNat % 2 ^ 1 = 0 := by rw [← h1, hz]; simp
        rw [if_neg (by simpa using hz), if_neg (by simpa using this)]; simp
      · have : G.toNat % 2 ^ 1 ≠ 0 := by rw [← h1]; exact ne_zero_toNat hz
        rw [if_pos hz, if_pos this, F.toNat_one']
    dsimp only
    rw [hr]
    have hs2 := hst.shr 1
    have hb : G.toNat / 2 ^ 1 ≤ stickyShr G.toNat 1 ∧ stickyShr G.toNat 1 ≤ G.toNat / 2 ^ 1 + 1 ∧
        (stickyShr G.toNat 1 = G.toNat / 2 ^ 1 + 1 → (G.toNat / 2 ^ 1) % 2 = 0) := by
      rw [stickyShr_eq]
      split
      · rename_i hh; exact ⟨by omega, by omega, fun _ => hh.2⟩
      · exact ⟨by omega, by omega, by omega⟩
    refine ⟨by omega, by omega, hs2.rnd3, fun hx => ?_⟩
    obtain ⟨N, hN⟩ := hex (by omega)
    have e : ((8 * m : ℚ) + yb) / 2 ^ 1 = 2 * (N : ℚ) := by rw [hN]; ring
    rw [e] at hs2 ⊢
    exact hs2.eq_of_even.symm
  · rw [if_neg hc]
    have hc' : ¬ 2 ^ (F.s + 4) ≤ G.toNat := fun h => hc (hbit.mpr h)
    refine Ok.pure' ⟨0, by omega, by simp, ?_⟩
    dsimp only
    rw [pow_zero, div_one]
    exact ⟨by omega, by omega, hst.rnd3, fun h => hex' (by omega)⟩

theorem toNat_rgs (g : BitVec F.w) : (g.setWidth 32 &&& 7#32).toNat = g.toNat % 8 := by
  rw [BitVec.toNat_and, BitVec.toNat_setWidth]
  have : (7#32).toNat = 2 ^ 3 - 1 := rfl
  rw [this, Nat.and_two_pow_sub_one_eq_mod]
  exact Nat.mod_mod_of_dvd _ (by decide : 2 ^ 3 ∣ 2 ^ 32)

/-- the rounding increments at the end of `add` -/
theorem addRound_spec {r : BitVec F.w} {g : Nat} (h : r.toNat + 1 < 2 ^ F.w) :
    Ok (do
      let r ← (if g % 8 > 4 then addC r 1#F.w else pure r)
      if g % 8 = 4 then addC r (r &&& 1#F.w) else pure r)
    (fun q => q.toNat = r.toNat +
      (if g % 8 < 4 then 0 else if g % 8 = 4 then r.toNat % 2 else 1)) := by
  have h1 : (r &&& 1#F.w).toNat = r.toNat % 2 := by
    rw [BitVec.toNat_and, F.toNat_one']
    exact Nat.and_two_pow_sub_one_eq_mod r.toNat 1
  rcases Nat.lt_trichotomy (g % 8) 4 with hg | hg | hg
  · rw [if_neg (by omega), if_pos hg]
    refine Ok.bind (Ok.pure' (P := (· = r)) rfl) ?_
    rintro _ rfl
    rw [if_neg (by omega)]
    exact Ok.pure' rfl
  · rw [if_neg (by omega), if_neg (by omega), if_pos hg]
    refine Ok.bind (Ok.pure' (P := (· = r)) rfl) ?_
    rintro _ rfl
    rw [if_pos hg]
    refine (addC_spec (by rw [h1]; omega)).mono ?_
    intro q hq
    rw [hq, h1]
  · rw [if_pos hg, if_neg (by omega), if_neg (by omega)]
    refine Ok.bind (addC_spec (by rw [F.toNat_one']; omega)) ?_
    intro q hq
    rw [if_neg (by omega)]
    refine Ok.pure' ?_
    rw [hq, F.toNat_one']

set_option maxHeartbeats 800000 in
theorem addFinish_spec {b rs g : BitVec F.w} {x : Int} {y X : ℚ}
    (hrs : rs.toNat = if F.sign b then 2 ^ (F.e + F.s) else 0)
    (hx1 : x ≤ 2 ^ F.e - 1) (hpre : F.Pre x g.toNat y) (hX : X = y / 8 * 2 ^ (x - 1))
    (hN : x ≤ 0 → ∃ N : Nat, X = N) :
    Ok (F.addFinish rs x g) (fun r => F.sign r = F.sign b ∧ F.IsRNEu X (F.mag r)) := by
  have he := F.he; have he' := F.he'; have hs' := F.hs'; have hs := F.hs
  have hpe : (2 : Int) ^ F.e ≤ 32768 := by exact_mod_cast F.pe_le
  have hpe' := F.pe_ge
  have hwd : F.w = F.e + F.s + 1 := rfl
  have hps := F.ps_ge
  obtain ⟨hg0, hg1, hrnd, hex⟩ := hpre
  have hp3 : 2 ^ (F.s + 3) = 8 * 2 ^ F.s := by rw [F.ps_add]; omega
  have hp4 : 2 ^ (F.s + 4) = 16 * 2 ^ F.s := by rw [F.ps_add]; omega
  have hp1 := F.ps_succ
  have hsat : (F.expSat : Int) = 2 ^ F.e - 1 := by
    rw [F.expSat_eq, Nat.cast_sub (by omega)]; push_cast; rfl
  have hinf := F.infRep_add
  have hpes := F.pes
  have hpw := F.pw
  have hinfl := F.infRep_lt
  have hdm := Nat.div_add_mod g.toNat 8
  have hlt8 := Nat.mod_lt g.toNat (show 0 < 8 by omega)
  unfold addFinish
  by_cases hov : x ≥ (F.expSat : Int)
  · rw [if_pos hov]
    refine Ok.pure' ?_
    have hsm := F.sign_mag_of (b := F.expMask ||| rs) (t := F.sign b) F.infRep_lt (by
      rw [F.toNat_or_sign (by rw [F.toNat_expMask]; exact F.infRep_lt) hrs, F.toNat_expMask])
    refine ⟨hsm.1, ?_⟩
    rw [hsm.2]
    apply F.isRNEu_overflow
    have hxe : x = 2 ^ F.e - 1 := by omega
    have h1 : (8 : ℚ) * 2 ^ F.s ≤ y := by
      have : 2 ^ F.s ≤ g.toNat / 8 := by omega
      have : ((2 ^ F.s : Nat) : ℚ) ≤ ((g.toNat / 8 : Nat) : ℚ) := by exact_mod_cast this
      push_cast at this
      have := hrnd.1
      linarith
    have hzp : (2 : ℚ) ^ (x - 1) = 2 ^ (2 ^ F.e - 2) := by
      rw [← zpow_natCast]
      congr 1
      rw [Nat.cast_sub (by omega), hxe]; push_cast; ring
    rw [F.valU_infRep, hX, hzp]
    push_cast
    apply mul_le_mul_of_nonneg_right _ (by positivity)
    linarith
  rw [if_neg hov]
  by_cases hx : x ≤ 0
  · simp only [hx, if_true]
    obtain ⟨N, hXN⟩ := hN hx
    have hy := hex hx
    obtain ⟨k, hk⟩ : ∃ k : Nat, x = 1 - (k : Int) := ⟨(1 - x).toNat, by omega⟩
    have hk1 : 1 ≤ k := by omega
    have hgN : g.toNat = 8 * N * 2 ^ k := by
      have : (g.toNat : ℚ) = 8 * N * 2 ^ k := by
        rw [← hy, ← hXN, hX, mul_assoc, mul_assoc, ← zpow_natCast, ← zpow_add₀ (by norm_num)]
        have : x - 1 + k = 0 := by omega
        rw [this]; simp; ring
      exact_mod_cast this
    have hkw : k < F.w := by
      by_contra hc
      have h1 : 2 ^ F.w ≤ 2 ^ k := two_pow_le (by omega)
      have h2 : 2 ^ (F.s + 4) ≤ 2 ^ F.w := two_pow_le (by omega)
      have h3 : 0 < N := by
        rcases Nat.eq_zero_or_pos N with h | h
        · subst h; simp at hgN; omega
        · exact h
      have : 1 * 2 ^ k ≤ 8 * N * 2 ^ k := Nat.mul_le_mul_right _ (by omega)
      omega
    have hN1 : N < 2 ^ F.s := by
      have h2 : 2 ≤ 2 ^ k := by
        calc 2 = 2 ^ 1 := rfl
          _ ≤ 2 ^ k := two_pow_le hk1
      have : 8 * N * 2 ≤ 8 * N * 2 ^ k := Nat.mul_le_mul_left _ h2
      omega
    refine Ok.bind (P := fun p => p.1 = 0 ∧ p.2.toNat = 8 * N) ?_ ?_
    · refine Ok.bind (i32C_spec (by omega)) ?_
      rintro d rfl
      have hkw2 : k < 2 ^ F.w := lt_trans hkw F.w_lt_two_pow
      refine Ok.bind (castI_spec (w := F.w) ⟨by omega, ?_⟩) ?_
      · have : (k : Int) < 2 ^ F.w := by exact_mod_cast hkw2
        omega
      intro sh hsh
      have hshk : sh.toNat = k := by omega
      refine Ok.bind (F.addStickyShr_spec (by omega) (by omega)) ?_
      intro r hr
      refine Ok.pure' ⟨rfl, ?_⟩
      show r.toNat = _
      rw [hr, hshk, hgN, stickyShr_eq, Nat.mul_mod_left, if_neg (by simp),
        Nat.mul_div_cancel _ (Nat.two_pow_pos _)]
    rintro ⟨x', a⟩ ⟨hx', ha⟩
    dsimp only at hx' ha ⊢
    subst hx'
    rw [F.toNat_rgs, ha]
    refine Ok.bind (shrC_spec (by omega)) ?_
    intro h hh
    rw [ha] at hh
    have hh' : h.toNat = N := by rw [hh]; omega
    refine Ok.bind (castI_spec (w := F.w) ⟨le_refl _, by positivity⟩) ?_
    intro ex hex0
    have hex0' : ex.toNat = 0 := by omega
    refine Ok.bind (shlC_spec (by omega)) ?_
    intro ex' hex1
    rw [hex0', Nat.zero_mul, Nat.zero_mod] at hex1
    have hlt : N < 2 ^ (F.e + F.s) := lt_of_lt_of_le hN1 (two_pow_le (by omega))
    have hres : (((h &&& F.sigMask) ||| ex') ||| rs).toNat =
        (if F.sign b then 2 ^ (F.e + F.s) else 0) + N := by
      have e1 : (h &&& F.sigMask ||| ex').toNat = N := by
        rw [BitVec.toNat_or, hex1, Nat.or_zero, F.toNat_and_sigMask, hh', Nat.mod_eq_of_lt hN1]
      rw [F.toNat_or_sign (by rw [e1]; exact hlt) hrs, e1]
    refine (F.addRound_spec (g := 8 * N) ?_).mono ?_
    · rw [hres, hpw, ← hpes]; split <;> omega
    intro q hq
    rw [if_pos (by omega), Nat.add_zero, hres] at hq
    have hsm := F.sign_mag_of hlt hq
    refine ⟨hsm.1, ?_⟩
    have hv := F.valU_small (m := N) (by omega)
    have hex2 := F.isRNEu_exact (K := ℚ) (n := N) (by have := F.ps_le_infRep; omega)
    rw [hv] at hex2
    rw [hsm.2, hXN]
    exact hex2
  · simp only [hx, if_false]
    refine Ok.bind (Ok.pure' (P := (· = (x, g))) rfl) ?_
    rintro _ rfl
    dsimp only
    rw [F.toNat_rgs]
    refine Ok.bind (shrC_spec (by omega)) ?_
    intro h hh
    have hh' : h.toNat = g.toNat / 8 := by rw [hh]
    obtain ⟨E, hE⟩ : ∃ E : Nat, x = E := ⟨x.toNat, by omega⟩
    have hE1 : 1 ≤ E := by omega
    have hE2 : E < 2 ^ F.e - 1 := by
      have : (E : Int) < F.expSat := by omega
      rw [F.expSat_eq] at this
      exact_mod_cast this
    have hEw : E < 2 ^ F.w := by
      have : 2 ^ F.e ≤ 2 ^ F.w := two_pow_le (by omega)
      omega
    refine Ok.bind (castI_spec (w := F.w) ⟨by omega, by rw [hE]; exact_mod_cast hEw⟩) ?_
    intro ex hex0
    have hex0' : ex.toNat = E := by omega
    refine Ok.bind (shlC_spec (by omega)) ?_
    intro ex' hex1
    have hEs : E * 2 ^ F.s + 2 ^ F.s ≤ F.infRep := by
      unfold infRep
      calc E * 2 ^ F.s + 2 ^ F.s = (E + 1) * 2 ^ F.s := by ring
        _ ≤ _ := Nat.mul_le_mul_right _ (by omega)
    rw [hex0', Nat.mod_eq_of_lt (by omega)] at hex1
    obtain ⟨m, hm⟩ : ∃ m, m = g.toNat / 8 := ⟨_, rfl⟩
    have hm0 : 2 ^ F.s ≤ m := by omega
    have hm1 : m < 2 ^ (F.s + 1) := by omega
    have hEm : (E - 1) * 2 ^ F.s + m = E * 2 ^ F.s + (m - 2 ^ F.s) := by
      obtain ⟨j, rfl⟩ : ∃ j, E = j + 1 := ⟨E - 1, by omega⟩
      rw [Nat.add_sub_cancel, Nat.succ_mul]; omega
    have hres : (((h &&& F.sigMask) ||| ex') ||| rs).toNat =
        (if F.sign b then 2 ^ (F.e + F.s) else 0) + ((E - 1) * 2 ^ F.s + m) := by
      have e1 : (h &&& F.sigMask ||| ex').toNat = (E - 1) * 2 ^ F.s + m := by
        rw [BitVec.toNat_or, hex1, F.toNat_and_sigMask, hh', ← hm,
          or_eq_add (k := F.s) (Nat.mod_lt _ (by omega)) (Dvd.intro_left _ rfl), hEm,
          Nat.mod_eq_sub_mod hm0, Nat.mod_eq_of_lt (by omega), Nat.add_comm]
      rw [F.toNat_or_sign (by rw [e1, hEm]; omega) hrs, e1]
    refine (F.addRound_spec (g := g.toNat) ?_).mono ?_
    · rw [hres, hpw, ← hpes, hEm]; split <;> omega
    intro q hq
    rw [hres] at hq
    have hpar : ((if F.sign b then 2 ^ (F.e + F.s) else 0) + ((E - 1) * 2 ^ F.s + m)) % 2 =
        ((E - 1) * 2 ^ F.s + m) % 2 := by
      have : 2 ^ (F.e + F.s) = 2 * 2 ^ (F.e + F.s - 1) := by
        rw [← Nat.pow_succ']; congr 1; omega
      split <;> omega
    rw [hpar, Nat.add_assoc] at hq
    have hsm := F.sign_mag_of (by rw [hEm]; split <;> (try split) <;> omega) hq
    refine ⟨hsm.1, ?_⟩
    rw [hsm.2]
    obtain ⟨r0, r1, r2, r3, r4⟩ := hrnd
    rw [← hm] at r0 r1 r2 r3 r4
    refine F.isRNEu_of_frac (f := y / 8 - m) hE1 hm1 (Or.inl hm0) (by omega) ?_ (by linarith)
      (by linarith) ?_
    · rw [hX]
      congr 1
      · ring
      · rw [hE, ← zpow_natCast, Nat.cast_sub hE1]; push_cast; rfl
    · rcases Nat.lt_trichotomy (g.toNat % 8) 4 with hg | hg | hg
      · refine Or.inl ⟨?_, ?_⟩
        · linarith [r2 hg]
        · rw [if_pos hg, Nat.add_zero]
      · refine Or.inr (Or.inr ⟨?_, ?_⟩)
        · linarith [r4 hg]
        · rw [if_neg (by omega), if_pos hg]
      · refine Or.inr (Or.inl ⟨?_, ?_⟩)
        · linarith [r3 hg]
        · rw [if_neg (by omega), if_neg (by omega)]

theorem xor_signMask_ne_zero (a b : BitVec F.w) :
    (a ^^^ b) &&& F.signMask ≠ 0#F.w ↔ F.sign a ≠ F.sign b := by
  have h : F.sign (a ^^^ b) = (F.sign a ^^ F.sign b) := by
    unfold sign; rw [BitVec.msb_xor]
  have h2 := F.toNat_and_signMask (a ^^^ b)
  rw [h] at h2
  have hp := Nat.two_pow_pos (F.e + F.s)
  constructor
  · intro hne heq
    apply hne
    apply BitVec.eq_of_toNat_eq
    rw [h2, heq]; simp
  · intro hne hz
    have : ((a ^^^ b) &&& F.signMask).toNat = 0 := by rw [hz]; simp
    rw [h2] at this
    cases ha : F.sign a <;> cases hb : F.sign b <;> simp_all

theorem addCore_spec {p q : BitVec F.w} (hp0 : F.mag p ≠ 0) (hp : F.mag p < F.infRep)
    (hq0 : F.mag q ≠ 0) (hq : F.mag q < F.infRep) (hle : F.mag q ≤ F.mag p) :
    Ok (F.addCore p q) (fun r =>
      (F.sign p = F.sign q → F.sign r = F.sign p ∧
        F.IsRNEu (K := ℚ) (F.valU (F.mag p) + F.valU (F.mag q)) (F.mag r)) ∧
      (F.sign p ≠ F.sign q → F.IsRNEu (K := ℚ) (F.valU (F.mag p) - F.valU (F.mag q)) (F.mag r) ∧
        (F.mag p = F.mag q → F.sign r = false) ∧ (F.mag p ≠ F.mag q → F.sign r = F.sign p))) := by
  have hs := F.hs
  unfold addCore
  refine Ok.bind (F.addDecode_spec hp0 hp) ?_
  rintro ⟨xa, A⟩ ⟨ma, hA, ha1, ha2, ha3, ha4, hva⟩
  dsimp only at hA ha1 ha2 ha3 ha4 hva ⊢
  refine Ok.bind (F.addDecode_spec hq0 hq) ?_
  rintro ⟨xb, B⟩ ⟨mb, hB, hb1, hb2, hb3, hb4, hvb⟩
  dsimp only at hB hb1 hb2 hb3 hb4 hvb ⊢
  have hps := F.ps_ge
  have hple := F.valU_le_iff.mpr hle
  have hpleQ : (F.valU (F.mag q) : ℚ) ≤ F.valU (F.mag p) := by exact_mod_cast hple
  have two0 : (2 : ℚ) ≠ 0 := by norm_num
  have hxx : xb ≤ xa := by
    by_contra hc
    have h1 : (F.valU (F.mag p) : ℚ) < 2 ^ (F.s : ℤ) * 2 ^ (xb - 1) := by
      rw [hva]
      have : (ma : ℚ) < 2 ^ ((F.s : ℤ) + 1) := by
        have : (ma : ℚ) < ((2 ^ (F.s + 1) : Nat) : ℚ) := by exact_mod_cast ha2
        push_cast at this
        exact_mod_cast this
      calc (ma : ℚ) * 2 ^ (xa - 1) < 2 ^ ((F.s : ℤ) + 1) * 2 ^ (xa - 1) :=
            mul_lt_mul_of_pos_right this (by positivity)
        _ = 2 ^ ((F.s : ℤ) + xa) := by rw [← zpow_add₀ two0]; congr 1; ring
        _ ≤ 2 ^ ((F.s : ℤ) + (xb - 1)) := zpow_le_zpow_right₀ (by norm_num) (by omega)
        _ = _ := by rw [zpow_add₀ two0]
    have h2 : (2 : ℚ) ^ (F.s : ℤ) * 2 ^ (xb - 1) ≤ F.valU (F.mag q) := by
      rw [hvb]
      apply mul_le_mul_of_nonneg_right _ (by positivity)
      have : ((2 ^ F.s : Nat) : ℚ) ≤ mb := by exact_mod_cast hb1
      push_cast at this
      exact_mod_cast this
    linarith
  obtain ⟨d, hd⟩ : ∃ d : Nat, xa - xb = d := ⟨(xa - xb).toNat, by omega⟩
  have hd' : (xa - xb).toNat = d := by omega
  refine Ok.bind (F.addAlign_spec hxx ha4 hb3 hB hb2 (by omega)) ?_
  rintro B' ⟨hst, hbig⟩
  rw [hd'] at hst hbig
  have hmbpos : (0 : ℚ) < mb := by exact_mod_cast (show 0 < mb by omega)
  have hyb0 : (0 : ℚ) < 8 * mb / 2 ^ d := by positivity
  have hscale : (8 * mb / 2 ^ d : ℚ) / 8 * 2 ^ (xa - 1) = F.valU (F.mag q) := by
    rw [hvb]
    have : (2 : ℚ) ^ (xa - 1) = 2 ^ d * 2 ^ (xb - 1) := by
      rw [← zpow_natCast, ← zpow_add₀ two0]; congr 1; omega
    rw [this]; field_simp
  have hscaleA : (8 * ma : ℚ) / 8 * 2 ^ (xa - 1) = F.valU (F.mag p) := by
    rw [hva]; ring
  have hyle : (8 * mb / 2 ^ d : ℚ) ≤ 8 * ma := by
    have hz : (0 : ℚ) < 2 ^ (xa - 1) := by positivity
    rw [← hscale, ← hscaleA] at hpleQ
    have := le_of_mul_le_mul_right hpleQ hz
    linarith
  have hrs := F.toNat_and_signMask p
  -- exactness at small exponents
  have hinv : ∀ Y : ℚ, xa ≤ 1 → Y = Y / 8 * 2 ^ (xa - 1) * 8 * 2 ^ ((1 - xa).toNat) := by
    intro Y h
    have : (2 : ℚ) ^ (xa - 1) * 2 ^ (1 - xa).toNat = 1 := by
      rw [← zpow_natCast, ← zpow_add₀ two0]
      have : xa - 1 + ((1 - xa).toNat : ℤ) = 0 := by omega
      rw [this, zpow_zero]
    linear_combination (-Y) * this
  by_cases hsg : F.sign p = F.sign q
  · rw [if_neg (fun h => (F.xor_signMask_ne_zero p q).mp h hsg)]
    have hexa : xa ≤ 1 → ∃ N : Nat, (8 * ma : ℚ) + 8 * mb / 2 ^ d = 4 * N := by
      intro h
      refine ⟨(F.valU (F.mag p) + F.valU (F.mag q)) * 2 * 2 ^ (1 - xa).toNat, ?_⟩
      refine (hinv _ h).trans ?_
      rw [add_div, add_mul, hscale, hscaleA]; push_cast; ring
    refine Ok.bind (F.addAddBranch_spec ha3 ha4 hA ha1 ha2 hst hyle hexa) ?_
    rintro ⟨x', g⟩ ⟨k, hk1, hx', hpre⟩
    dsimp only at hx' hpre ⊢
    refine (F.addFinish_spec (b := p) (X := F.valU (F.mag p) + F.valU (F.mag q)) hrs (by omega) hpre
      ?_ ?_).mono ?_
    · rw [hx', ← hscale, ← hscaleA]
      have : (2 : ℚ) ^ (xa + k - 1) = 2 ^ k * 2 ^ (xa - 1) := by
        rw [← zpow_natCast, ← zpow_add₀ two0]; congr 1; omega
      rw [this]; field_simp
    · intro _
      exact ⟨F.valU (F.mag p) + F.valU (F.mag q), by push_cast; rfl⟩
    · intro r hr
      exact ⟨fun _ => hr, fun h => absurd hsg h⟩
  · rw [if_pos ((F.xor_signMask_ne_zero p q).mpr hsg)]
    have hexa : xa ≤ 1 → ∃ N : Nat, (8 * ma : ℚ) - 8 * mb / 2 ^ d = 2 * N := by
      intro h
      refine ⟨(F.valU (F.mag p) - F.valU (F.mag q)) * 4 * 2 ^ (1 - xa).toNat, ?_⟩
      refine (hinv _ h).trans ?_
      rw [sub_div, sub_mul, hscale, hscaleA]; push_cast [Nat.cast_sub hple]; ring
    have hX : ((8 * ma : ℚ) - 8 * mb / 2 ^ d) / 8 * 2 ^ (xa - 1) =
        F.valU (F.mag p) - F.valU (F.mag q) := by
      rw [sub_div, sub_mul, hscale, hscaleA]
    have hX0 : (8 * ma : ℚ) - 8 * mb / 2 ^ d = 0 ↔ F.mag p = F.mag q := by
      constructor
      · intro h
        rw [h] at hX
        have : (F.valU (F.mag p) : ℚ) = F.valU (F.mag q) := by linarith
        rw [Nat.cast_inj, F.valU_inj] at this
        exact this
      · intro h
        rw [h, sub_self] at hX
        have hz : (0 : ℚ) < 2 ^ (xa - 1) := by positivity
        rcases mul_eq_zero.mp hX with h1 | h1
        · linarith
        · exact absurd h1 (ne_of_gt hz)
    refine Ok.bind (F.addSubBranch_spec ha3 ha4 hA ha1 ha2 hst hbig hyb0 hyle hexa) ?_
    rintro r (⟨rfl, hz⟩ | ⟨x', g, k, rfl, hx', hk, hnz, hpre⟩)
    · have heq := hX0.mp hz
      refine Ok.pure' ⟨fun h => absurd h hsg, fun _ => ⟨?_, fun _ => ?_, fun h => absurd heq h⟩⟩
      · have hm : F.mag 0#F.w = 0 := by simp [mag]
        rw [hm, heq, sub_self]
        have := F.isRNEu_exact (K := ℚ) (n := 0) (by omega)
        rw [F.valU_zero] at this
        exact_mod_cast this
      · simp [sign]
    · dsimp only
      refine (F.addFinish_spec (b := p) (X := F.valU (F.mag p) - F.valU (F.mag q)) hrs (by omega)
        hpre ?_ ?_).mono ?_
      · rw [hx', ← hX]
        have : (2 : ℚ) ^ (xa - 1) = 2 ^ k * 2 ^ (xa - k - 1) := by
          rw [← zpow_natCast, ← zpow_add₀ two0]; congr 1; omega
        rw [this]; ring
      · intro _
        exact ⟨F.valU (F.mag p) - F.valU (F.mag q), by rw [Nat.cast_sub hple]⟩
      · intro r hr
        exact ⟨fun h => absurd h hsg, fun _ => ⟨hr.2, fun h => absurd (hX0.mpr h) hnz, fun _ => hr.1⟩⟩

/-! ### Special operands -/

theorem wrap_ge_iff (x : BitVec F.w) :
    x - 1#F.w ≥ F.expMask - 1#F.w ↔ x.toNat = 0 ∨ F.infRep ≤ x.toNat := by
  have h1 := F.toNat_one'
  have hinf := F.ps_le_infRep
  have hps := F.ps_ge
  have hx := x.isLt
  have hw : 2 ^ (F.e + F.s) < 2 ^ F.w := Nat.pow_lt_pow_right (by omega) (by show _ < F.e + F.s + 1; omega)
  have hil := F.infRep_lt
  rw [ge_iff_le, BitVec.le_def, BitVec.toNat_sub_of_le (x := F.expMask) (by
    rw [BitVec.le_def, h1, F.toNat_expMask]; omega), h1, F.toNat_expMask]
  by_cases h0 : x.toNat = 0
  · have : (x - 1#F.w).toNat = 2 ^ F.w - 1 := by
      rw [BitVec.toNat_sub, h1, h0, Nat.add_zero, Nat.mod_eq_of_lt (by omega)]
    rw [this]; omega
  · rw [BitVec.toNat_sub_of_le (by rw [BitVec.le_def, h1]; omega), h1]; omega

theorem isQNaN_or_quiet {b : BitVec F.w} (h : F.infRep < b.toNat % 2 ^ (F.e + F.s)) :
    F.IsQNaN (b ||| F.quietBit) := by
  have hs := F.hs
  have hq : F.quietBit.toNat = 2 ^ (F.s - 1) := F.toNat_quietBit
  constructor
  · show F.infRep < (b ||| F.quietBit).toNat % 2 ^ (F.e + F.s)
    rw [BitVec.toNat_or, Nat.or_mod_two_pow]
    exact lt_of_lt_of_le h Nat.left_le_or
  · rw [BitVec.getLsbD_or]
    have : F.quietBit.getLsbD (F.s - 1) = true := by
      rw [← BitVec.testBit_toNat, hq, Nat.testBit_two_pow_self]
    rw [this, Bool.or_true]

theorem isQNaN_qnanRep : F.IsQNaN F.qnanRep := by
  have hs := F.hs
  have hq : F.quietBit.toNat = 2 ^ (F.s - 1) := F.toNat_quietBit
  have hlt : 2 ^ (F.s - 1) < 2 ^ F.s := Nat.pow_lt_pow_right (by omega) (by omega)
  have hp := Nat.two_pow_pos (F.s - 1)
  have hqq : F.qnanRep.toNat = F.infRep + 2 ^ (F.s - 1) := by
    unfold qnanRep
    rw [BitVec.toNat_or, F.toNat_expMask, hq,
      or_eq_add' (b := F.infRep) hlt (Dvd.intro_left (2 ^ F.e - 1) rfl), Nat.add_comm]
  constructor
  · show F.infRep < F.qnanRep.toNat % 2 ^ (F.e + F.s)
    have := F.infRep_add
    rw [hqq, F.pes, Nat.mod_eq_of_lt (by omega)]; omega
  · unfold qnanRep
    rw [BitVec.getLsbD_or]
    have : F.quietBit.getLsbD (F.s - 1) = true := by
      rw [← BitVec.testBit_toNat, hq, Nat.testBit_two_pow_self]
    rw [this, Bool.or_true]

theorem abs_lt_iff (a b : BitVec F.w) : a &&& F.absMask < b &&& F.absMask ↔ F.mag a < F.mag b := by
  rw [BitVec.lt_def, F.toNat_and_absMask, F.toNat_and_absMask]

theorem abs_gt_inf_iff (a : BitVec F.w) : a &&& F.absMask > F.expMask ↔ F.IsNaN a := by
  rw [gt_iff_lt, BitVec.lt_def, F.toNat_and_absMask, F.toNat_expMask]; rfl

theorem abs_eq_inf_iff (a : BitVec F.w) : a &&& F.absMask = F.expMask ↔ F.IsInf a := by
  rw [← BitVec.toNat_inj, F.toNat_and_absMask, F.toNat_expMask]; rfl

theorem abs_eq_zero_iff (a : BitVec F.w) : a &&& F.absMask = 0#F.w ↔ F.mag a = 0 := by
  rw [← BitVec.toNat_inj, F.toNat_and_absMask]; simp

theorem addSpecial_eq (a b : BitVec F.w) : F.addSpecial a b =
    if F.IsNaN a then some ((a &&& F.absMask) ||| F.quietBit)
    else if F.IsNaN b then some ((b &&& F.absMask) ||| F.quietBit)
    else if F.IsInf a then if a ^^^ b = F.signMask then some F.qnanRep else some a
    else if F.IsInf b then some b
    else if F.mag a = 0 then if F.mag b = 0 then some (a &&& b) else some b
    else if F.mag b = 0 then some a
    else none := by
  unfold addSpecial
  dsimp only
  simp only [F.wrap_ge_iff, F.toNat_and_absMask, F.abs_gt_inf_iff, F.abs_eq_inf_iff,
    F.abs_eq_zero_iff]
  by_cases h : (F.mag a = 0 ∨ F.infRep ≤ F.mag a) ∨ F.mag b = 0 ∨ F.infRep ≤ F.mag b
  · rw [if_pos h]
  · rw [if_neg h]
    have h1 : ¬ F.IsNaN a := by unfold IsNaN; omega
    have h2 : ¬ F.IsNaN b := by unfold IsNaN; omega
    have h3 : ¬ F.IsInf a := by unfold IsInf; omega
    have h4 : ¬ F.IsInf b := by unfold IsInf; omega
    have h5 : ¬ F.mag a = 0 := by omega
    have h6 : ¬ F.mag b = 0 := by omega
    simp only [h1, h2, h3, h4, h5, h6, if_false]

theorem xor_eq_signMask_iff {a b : BitVec F.w} (h : F.mag a = F.infRep) :
    a ^^^ b = F.signMask ↔ (F.IsInf b ∧ F.sign a ≠ F.sign b) := by
  have e : a ^^^ b = F.signMask ↔ b = a ^^^ F.signMask := by
    constructor
    · intro h; rw [← h, ← BitVec.xor_assoc, BitVec.xor_self, BitVec.zero_xor]
    · intro h; rw [h, ← BitVec.xor_assoc, BitVec.xor_self, BitVec.zero_xor]
  have hx := F.toNat_xor_signMask a
  rw [e]
  constructor
  · intro hb
    rw [hb]
    refine ⟨by unfold IsInf; rw [hx.2, h], ?_⟩
    rw [hx.1]; cases F.sign a <;> simp
  · rintro ⟨h1, h2⟩
    apply F.ext_sign_mag
    · rw [hx.1]; cases ha : F.sign a <;> cases hb : F.sign b <;> simp_all
    · rw [hx.2, h]; exact h1

/-! ### Statement in terms of values -/

theorem valK_eq (K : Type*) [Field K] [LinearOrder K] [IsStrictOrderedRing K] (b : BitVec F.w) :
    F.valK K b = (if F.sign b then -1 else 1) * F.valU (F.mag b) * F.ulp0 K := by
  unfold valK; rw [F.magVal_eq, mul_assoc]

/-- introduction rule for `Rounds` in units of the least positive number -/
theorem rounds_of {K : Type*} [Field K] [LinearOrder K] [IsStrictOrderedRing K] {x X : K} {t : Bool}
    {r : BitVec F.w} (hX : 0 ≤ X) (hx : x = (if t then -1 else 1) * X * F.ulp0 K)
    (hs : X ≠ 0 → F.sign r = t) (hr : F.IsRNEu X (F.mag r)) : F.Rounds x r := by
  have hu := F.ulp0_pos K
  have habs : |x| = X * F.ulp0 K := by
    rw [hx]
    cases t
    · simp only [Bool.false_eq_true, if_false, one_mul]
      exact abs_of_nonneg (mul_nonneg hX hu.le)
    · simp only [if_true, neg_mul, one_mul, abs_neg]
      exact abs_of_nonneg (mul_nonneg hX hu.le)
  refine ⟨by rw [habs, F.isRNE_iff]; exact hr, fun hne => ?_⟩
  have hX0 : X ≠ 0 := by
    intro h; rw [h] at hx; simp at hx; exact hne hx
  have hXp : 0 < X := lt_of_le_of_ne hX (Ne.symm hX0)
  rw [hs hX0, hx]
  have hm : 0 < X * F.ulp0 K := mul_pos hXp hu
  cases t
  · simp only [Bool.false_eq_true, if_false, one_mul, false_iff, not_lt]; exact hm.le
  · simp only [if_true, neg_mul, one_mul, true_iff]; linarith

theorem rounds_self {K : Type*} [Field K] [LinearOrder K] [IsStrictOrderedRing K]
    {b : BitVec F.w} (h : F.mag b ≤ F.infRep) : F.Rounds (F.valK K b) b :=
  F.rounds_of (Nat.cast_nonneg _) (F.valK_eq K b) (fun _ => rfl) (F.isRNEu_exact h)

theorem add_fin {a b : BitVec F.w} (ha : F.IsFin a) (hb : F.IsFin b) :
    Ok (F.add a b) (fun r => F.Rounds (F.val a + F.val b) r ∧
      (F.val a + F.val b = 0 → F.sign r = (F.sign a && F.sign b))) := by
  have hu := F.ulp0_pos ℚ
  have ha' : F.mag a < F.infRep := ha
  have hb' : F.mag b < F.infRep := hb
  unfold add
  rw [F.addSpecial_eq]
  have h1 : ¬ F.IsNaN a := by unfold IsNaN; omega
  have h2 : ¬ F.IsNaN b := by unfold IsNaN; omega
  have h3 : ¬ F.IsInf a := by unfold IsInf; omega
  have h4 : ¬ F.IsInf b := by unfold IsInf; omega
  simp only [h1, h2, h3, h4, if_false]
  have hv0 : ∀ c : BitVec F.w, F.val c = 0 ↔ F.mag c = 0 := by
    intro c
    show F.valK ℚ c = 0 ↔ _
    rw [F.valK_eq]
    constructor
    · intro h
      have : (F.valU (F.mag c) : ℚ) = 0 := by
        rcases mul_eq_zero.mp h with h | h
        · rcases mul_eq_zero.mp h with h | h
          · split at h <;> simp at h
          · exact h
        · exact absurd h (ne_of_gt hu)
      have : F.valU (F.mag c) = F.valU 0 := by rw [F.valU_zero]; exact_mod_cast this
      exact F.valU_inj.mp this
    · intro h; rw [h, F.valU_zero]; simp
  by_cases ha0 : F.mag a = 0
  · simp only [ha0, if_true]
    by_cases hb0 : F.mag b = 0
    · simp only [hb0, if_true]
      have hm : F.mag (a &&& b) = 0 := by
        unfold mag
        rw [BitVec.toNat_and, Nat.and_mod_two_pow]
        have : a.toNat % 2 ^ (F.e + F.s) = 0 := ha0
        rw [this, Nat.zero_and]
      have hsg : F.sign (a &&& b) = (F.sign a && F.sign b) := by
        unfold sign; rw [BitVec.msb_and]
      refine Ok.pure' ⟨?_, fun _ => hsg⟩
      rw [(hv0 a).mpr ha0, (hv0 b).mpr hb0]
      refine F.rounds_of (X := 0) (t := false) le_rfl (by simp) (fun h => absurd rfl h) ?_
      rw [hm]
      have := F.isRNEu_exact (K := ℚ) (n := 0) (by omega)
      rw [F.valU_zero] at this
      exact_mod_cast this
    · simp only [hb0, if_false]
      refine Ok.pure' ⟨?_, fun h => ?_⟩
      · rw [(hv0 a).mpr ha0, zero_add]; exact F.rounds_self hb'.le
      · rw [(hv0 a).mpr ha0, zero_add] at h
        exact absurd ((hv0 b).mp h) hb0
  · simp only [ha0, if_false]
    by_cases hb0 : F.mag b = 0
    · simp only [hb0, if_true]
      refine Ok.pure' ⟨?_, fun h => ?_⟩
      · rw [(hv0 b).mpr hb0, add_zero]; exact F.rounds_self ha'.le
      · rw [(hv0 b).mpr hb0, add_zero] at h
        exact absurd ((hv0 a).mp h) ha0
    · simp only [hb0, if_false, gt_iff_lt, F.abs_lt_iff]
      have core : ∀ p q : BitVec F.w, F.mag p ≠ 0 → F.mag p < F.infRep → F.mag q ≠ 0 →
          F.mag q < F.infRep → F.mag q ≤ F.mag p →
          Ok (F.addCore p q) (fun r => F.Rounds (F.val p + F.val q) r ∧
            (F.val p + F.val q = 0 → F.sign r = (F.sign p && F.sign q))) := by
        intro p q hp0 hp hq0 hq hle
        refine (F.addCore_spec hp0 hp hq0 hq hle).mono ?_
        intro r hr
        have hpq : (F.valU (F.mag q) : ℚ) ≤ F.valU (F.mag p) := by
          exact_mod_cast F.valU_le_iff.mpr hle
        have hp1 : (0 : ℚ) < F.valU (F.mag p) := by
          have : F.valU 0 < F.valU (F.mag p) := F.valU_lt_iff.mpr (Nat.pos_of_ne_zero hp0)
          exact_mod_cast (lt_of_le_of_lt (Nat.zero_le _) this)
        have hq1 : (0 : ℚ) ≤ F.valU (F.mag q) := Nat.cast_nonneg _
        have hval : F.val p + F.val q = (if F.sign p then -1 else 1) *
            (F.valU (F.mag p) + (if F.sign p = F.sign q then 1 else -1) * F.valU (F.mag q)) *
            F.ulp0 ℚ := by
          show F.valK ℚ p + F.valK ℚ q = _
          rw [F.valK_eq, F.valK_eq]
          cases F.sign p <;> cases F.sign q <;> simp <;> ring
        by_cases hsg : F.sign p = F.sign q
        · rw [if_pos hsg, one_mul] at hval
          obtain ⟨r1, r2⟩ := hr.1 hsg
          refine ⟨F.rounds_of (by linarith) hval (fun _ => r1) r2, fun h0 => ?_⟩
          rw [hval] at h0
          exfalso
          rcases mul_eq_zero.mp h0 with h | h
          · rcases mul_eq_zero.mp h with h | h
            · split at h <;> simp at h
            · linarith
          · exact absurd h (ne_of_gt hu)
        · rw [if_neg hsg, neg_one_mul, ← sub_eq_add_neg] at hval
          obtain ⟨r1, r2, r3⟩ := hr.2 hsg
          refine ⟨F.rounds_of (by linarith) hval (fun h => r3 ?_) r1, fun h0 => ?_⟩
          · intro he; rw [he, sub_self] at h; exact h rfl
          · rw [r2 ?_]
            · cases hsp : F.sign p <;> cases hsq : F.sign q <;> simp_all
            · rw [hval] at h0
              rcases mul_eq_zero.mp h0 with h | h
              · rcases mul_eq_zero.mp h with h | h
                · split at h <;> simp at h
                · have : (F.valU (F.mag p) : ℚ) = F.valU (F.mag q) := by linarith
                  exact F.valU_inj.mp (by exact_mod_cast this)
              · exact absurd h (ne_of_gt hu)
      by_cases hlt : F.mag a < F.mag b
      · rw [if_pos hlt, add_comm, Bool.and_comm]
        exact core b a hb0 hb' ha0 ha' hlt.le
      · rw [if_neg hlt]
        exact core a b ha0 ha' hb0 hb' (by omega)

theorem add_nan {a b : BitVec F.w} (h : F.IsNaN a ∨ F.IsNaN b) :
    Ok (F.add a b) (fun r => F.IsQNaN r) := by
  have hq : ∀ c : BitVec F.w, F.IsNaN c → F.IsQNaN ((c &&& F.absMask) ||| F.quietBit) := by
    intro c hc
    apply F.isQNaN_or_quiet
    rw [F.toNat_and_absMask, Nat.mod_eq_of_lt (F.mag_lt c)]; exact hc
  unfold add
  rw [F.addSpecial_eq]
  by_cases ha : F.IsNaN a
  · rw [if_pos ha]; exact Ok.pure' (hq a ha)
  · rw [if_neg ha, if_pos (h.resolve_left ha)]; exact Ok.pure' (hq b (h.resolve_left ha))

theorem add_inf_left {a b : BitVec F.w} (ha : F.IsInf a) (hb : ¬ F.IsNaN b) :
    Ok (F.add a b) (fun r => if F.IsInf b ∧ F.sign a ≠ F.sign b then F.IsQNaN r else r = a) := by
  have h1 : ¬ F.IsNaN a := by have : F.mag a = F.infRep := ha; unfold IsNaN; omega
  unfold add
  rw [F.addSpecial_eq, if_neg h1, if_neg hb, if_pos ha]
  simp only [F.xor_eq_signMask_iff ha]
  by_cases h : F.IsInf b ∧ F.sign a ≠ F.sign b
  · simp only [if_pos h]; exact Ok.pure' F.isQNaN_qnanRep
  · simp only [if_neg h]; exact Ok.pure' rfl

theorem add_inf_right {a b : BitVec F.w} (ha : F.IsFin a) (hb : F.IsInf b) :
    F.add a b = .ok b := by
  have ha' : F.mag a < F.infRep := ha
  have hb' : F.mag b = F.infRep := hb
  have h1 : ¬ F.IsNaN a := by unfold IsNaN; omega
  have h2 : ¬ F.IsNaN b := by unfold IsNaN; omega
  have h3 : ¬ F.IsInf a := by unfold IsInf; omega
  unfold add
  rw [F.addSpecial_eq, if_neg h1, if_neg h2, if_neg h3, if_pos hb]; rfl

end Fmt
end Verif
