import Verif.Libm.HexParse
/-! `parse_finite` and `parse_any`. -/
namespace Verif
open HexSpec

/-! ### clamped exponents -/

theorem roundsU_huge {s I n : Nat} {dir : Dir} {y : ℚ} (hI : 1 ≤ I) (h : (U s I : ℚ) ≤ y)
    (hr : RoundsU s I dir y n) : n = topOf I dir := by
  have lt : ∀ m, m < I → (U s m : ℚ) < U s I := by
    intro m hm; exact_mod_cast U_lt_iff.mpr hm
  cases dir
  · obtain ⟨h1, h2⟩ := hr
    show n = I
    by_contra hne
    have h3 := lt n (by omega)
    have := (h2 I (le_refl _)).1
    rw [abs_of_nonneg (by linarith), abs_of_nonneg (by linarith)] at this
    linarith
  · obtain ⟨h1, h2, h3⟩ := hr
    show n = I - 1
    have := h3 (I - 1) (by omega) (by have := lt (I - 1) (by omega); linarith)
    omega
  · obtain ⟨h1, h2, h3⟩ := hr
    show n = I
    by_contra hne
    have := h2 (by omega)
    have := lt n (by omega)
    linarith

theorem flagsU_huge {s I : Nat} {dir : Dir} {y : ℚ} (hI : 2 ^ s < I) (h : (U s I : ℚ) ≤ y) :
    flagsU s I dir y (topOf I dir) = 20#8 := by
  have hps : 0 < 2 ^ s := Nat.two_pow_pos s
  symm
  have lt1 : (U s (I - 1) : ℚ) < U s I := by exact_mod_cast U_lt_iff.mpr (by omega : I - 1 < I)
  cases dir
  · exact top_flags1 (by show 2 ^ s ≤ I; omega) rfl (Or.inl rfl)
  · exact top_flags1 (by show 2 ^ s ≤ I - 1; omega) h (Or.inr (ne_of_lt (lt_of_lt_of_le lt1 h)))
  · exact top_flags1 (by show 2 ^ s ≤ I; omega) rfl (Or.inl rfl)

theorem flagsU_tiny {s I n : Nat} {dir : Dir} {y : ℚ} (hs : 1 ≤ s) (hI : 1 < I) (h0 : 0 < y) (h1 : y < 1 / 2)
    (hn : n ≤ 1) : flagsU s I dir y n = 24#8 := by
  have hps : 2 ≤ 2 ^ s := by
    calc 2 = 2 ^ 1 := rfl
      _ ≤ 2 ^ s := Nat.pow_le_pow_right (by omega) hs
  have hU : (U s n : ℚ) ≠ y := by
    obtain rfl | rfl : n = 0 ∨ n = 1 := by omega
    · rw [U_zero]; push_cast; exact ne_of_lt h0
    · rw [U_one]; push_cast; intro h; linarith
  have hUI : ¬ OverU s I dir y n := by
    have hI1 : (1 : ℚ) ≤ U s I := by
      have : U s 1 ≤ U s I := U_le_iff.mpr (by omega)
      rw [U_one] at this
      exact_mod_cast this
    cases dir
    · show ¬ (n = I); omega
    · show ¬ ((U s I : ℚ) ≤ y); linarith
    · show ¬ (n = I); omega
  unfold flagsU
  rw [if_neg (fun h => hU h.2), if_neg hUI, if_pos (by omega)]
  rfl

/-- `min_lsb` of line 118 -/
def minLsb (e s : Nat) : Int := 2 - 2 ^ (e - 1) - s

theorem unit_eq (e s : Nat) : unit e s = 2 ^ minLsb e s := rfl

/-- The value does not overflow the 128-bit intermediate of line 158 of the code. -/
def FitsU128 (e s : Nat) (x : ℚ) : Prop := s ≤ 96 ∨ x < 2 ^ (s + 2 ^ (128 - s)) * unit e s

/-- the target formats accepted by `parse_any`; `sig_bits = 0` passes its check but faults -/
structure HexCfg (e s : Nat) : Prop where
  he : 2 ≤ e
  he2 : e ≤ 29
  hs : 1 ≤ s
  hs2 : s ≤ 119
  hes : e + s ≤ 127

theorem HexCfg.pe {e s : Nat} (c : HexCfg e s) : (2 : Int) ≤ 2 ^ (e - 1) ∧ (2 : Int) ^ (e - 1) ≤ 2 ^ 28 := by
  have := c.he; have := c.he2
  constructor
  · exact_mod_cast (Nat.pow_le_pow_right (by omega) (by omega) : 2 ^ 1 ≤ 2 ^ (e - 1))
  · exact_mod_cast (Nat.pow_le_pow_right (by omega) (by omega) : 2 ^ (e - 1) ≤ 2 ^ 28)

theorem HexCfg.pe2 {e s : Nat} (c : HexCfg e s) : 2 ^ e = 2 * 2 ^ (e - 1) := by
  have := c.he
  rw [← Nat.pow_succ']; congr 1; omega

/-- the finite number with clamped exponent rounds like the literal -/
theorem clamp_rounds {e s : Nat} (c : HexCfg e s) {v : ℚ} {dir : Dir} {exp e0 : Int} {N r : Nat}
    (hv : Sticky v N) (hN : N ≠ 0) (hN2 : N < 2 ^ 128) (hexp : exp = max (min e0 (2 ^ 31 - 1)) (-2 ^ 31))
    (hr : RoundsU s (inf e s) dir (v * 2 ^ (exp - minLsb e s)) r) :
    Rounds e s dir (v * 2 ^ e0) r ∧
    flagsU s (inf e s) dir (v * 2 ^ (exp - minLsb e s)) r = flags e s dir (v * 2 ^ e0) r := by
  obtain ⟨hb1, hb2⟩ := hv.bounds hN
  obtain ⟨hp1, hp2⟩ := c.pe
  have hs := c.hs; have hs2 := c.hs2; have hes := c.hes; have he := c.he
  have hI := inf_ge (s := s) c.he
  have hps : 0 < 2 ^ s := Nat.two_pow_pos s
  have hbl : bitLen N ≤ 128 := bitLen_le_iff.mpr hN2
  have hvpos : 0 < v := lt_of_lt_of_le (by positivity) hb1
  have hv1 : 1 ≤ v := le_trans (one_le_pow₀ (by norm_num)) hb1
  have hv128 : v < 2 ^ 128 := lt_of_lt_of_le hb2 (pow_le_pow_right₀ (by norm_num) hbl)
  have hx : v * 2 ^ e0 = v * 2 ^ (e0 - minLsb e s) * unit e s := by
    rw [unit_eq, mul_assoc, ← zpow_add₀ (by norm_num : (2 : ℚ) ≠ 0)]
    congr 2; ring
  rw [hx, rounds_iff, flags_eq]
  have hml : minLsb e s = 2 - 2 ^ (e - 1) - s := rfl
  by_cases h1 : exp = e0
  · subst h1; exact ⟨hr, rfl⟩
  · by_cases h2 : e0 < -2 ^ 31
    · -- both far below the least positive number
      have tiny : ∀ {d : Int}, d ≤ -2 ^ 31 → 0 < v * 2 ^ (d - minLsb e s) ∧ v * 2 ^ (d - minLsb e s) < 1 / 2 := by
        intro d hd
        refine ⟨by positivity, ?_⟩
        have ha : (2 : ℚ) ^ (d - minLsb e s) ≤ 2 ^ (-129 : Int) := zpow_le_zpow_right₀ (by norm_num) (by omega)
        calc v * 2 ^ (d - minLsb e s) ≤ v * 2 ^ (-129 : Int) := by
              apply mul_le_mul_of_nonneg_left ha (le_of_lt hvpos)
          _ < 2 ^ 128 * 2 ^ (-129 : Int) := by
              apply mul_lt_mul_of_pos_right hv128; positivity
          _ = 1 / 2 := by norm_num
      have he1 : exp = -2 ^ 31 := by omega
      obtain ⟨t1, t2⟩ := tiny (d := exp) (by omega)
      obtain ⟨t3, t4⟩ := tiny (d := e0) (by omega)
      have hn := (roundsU_tiny (by omega) t1 t2).mp hr
      have hn1 : r ≤ 1 := by rw [hn]; cases dir <;> simp
      refine ⟨(roundsU_tiny (by omega) t3 t4).mpr hn, ?_⟩
      rw [flagsU_tiny hs (by omega) t1 t2 hn1, flagsU_tiny hs (by omega) t3 t4 hn1]
    · have hhi : (2 ^ 31 - 1 : Int) < e0 := by omega
      have he1 : exp = 2 ^ 31 - 1 := by omega
      have huge : ∀ {d : Int}, 2 ^ 31 - 1 ≤ d → (U s (inf e s) : ℚ) ≤ v * 2 ^ (d - minLsb e s) := by
        intro d hd
        rw [U_inf c.he]
        push_cast
        rw [← pow_add, ← zpow_natCast]
        have : (2 : ℚ) ^ ((s + (2 ^ e - 2) : Nat) : Int) ≤ 2 ^ (d - minLsb e s) := by
          apply zpow_le_zpow_right₀ (by norm_num)
          have hpe := c.pe2
          have hpi : ((2 ^ (e - 1) : Nat) : Int) = 2 ^ (e - 1) := by push_cast; rfl
          omega
        calc (2 : ℚ) ^ ((s + (2 ^ e - 2) : Nat) : Int) ≤ 2 ^ (d - minLsb e s) := this
          _ = 1 * 2 ^ (d - minLsb e s) := by ring
          _ ≤ v * 2 ^ (d - minLsb e s) := by apply mul_le_mul_of_nonneg_right hv1; positivity
      have u1 := huge (d := exp) (by omega)
      have u2 := huge (d := e0) (by omega)
      have hn := roundsU_huge (by omega) u1 hr
      subst hn
      refine ⟨roundsU_overflow (by omega) u2, ?_⟩
      rw [flagsU_huge (by omega) u1, flagsU_huge (by omega) u2]

/-- no bits are lost in line 158 -/
theorem nowrap {e s : Nat} (c : HexCfg e s) {v : ℚ} {exp e0 : Int} {N : Nat}
    (hv : Sticky v N) (hN : N ≠ 0) (hN2 : N < 2 ^ 128) (hexp : exp = max (min e0 (2 ^ 31 - 1)) (-2 ^ 31))
    (hfits : FitsU128 e s (v * 2 ^ e0))
    (hfit : ExpFits s (minLsb e s) (bitLen N - 1 : Int) exp) :
    (exp + max ((bitLen N - 1 : Int) - s) (minLsb e s - exp) - minLsb e s) * 2 ^ s < 2 ^ 128 := by
  obtain ⟨hb1, hb2⟩ := hv.bounds hN
  obtain ⟨hp1, hp2⟩ := c.pe
  have hs := c.hs; have hs2 := c.hs2; have hes := c.hes; have he := c.he
  have hml : minLsb e s = 2 - 2 ^ (e - 1) - s := rfl
  have hbl : bitLen N ≤ 128 := bitLen_le_iff.mpr hN2
  have hbp := bitLen_pos hN
  unfold ExpFits at hfit
  generalize hj : exp + max ((bitLen N - 1 : Int) - s) (minLsb e s - exp) - minLsb e s = j at *
  have hj0 : 0 ≤ j := by omega
  have hps : (0 : Int) < 2 ^ s := by positivity
  have main : j < 2 ^ (128 - s) := by
    rcases hfits with h96 | hlt
    · have : (2 : Int) ^ 32 ≤ 2 ^ (128 - s) := pow_le_pow_right₀ (by norm_num) (by omega)
      omega
    · by_cases hjz : j = 0
      · rw [hjz]; positivity
      · -- `j` comes from the normal case
        have hje : j = exp + (bitLen N - 1) - s - minLsb e s := by omega
        have hee : exp ≤ e0 := by omega
        have h1 : (2 : ℚ) ^ (bitLen N - 1) * 2 ^ exp ≤ v * 2 ^ e0 := by
          apply mul_le_mul hb1 (zpow_le_zpow_right₀ (by norm_num) hee) (by positivity)
          exact le_of_lt (lt_of_lt_of_le (by positivity) hb1)
        have h2 := lt_of_le_of_lt h1 hlt
        rw [unit_eq, ← zpow_natCast, ← zpow_natCast, ← zpow_add₀ (by norm_num : (2 : ℚ) ≠ 0),
          ← zpow_add₀ (by norm_num : (2 : ℚ) ≠ 0), zpow_lt_zpow_iff_right₀ (by norm_num)] at h2
        have hpi : ((2 ^ (128 - s) : Nat) : Int) = 2 ^ (128 - s) := by push_cast; rfl
        rw [← hpi]
        omega
  calc j * 2 ^ s < 2 ^ (128 - s) * 2 ^ s := by
        apply mul_lt_mul_of_pos_right main hps
    _ = 2 ^ 128 := by rw [← pow_add]; congr 1; omega

/-! ### `parse_finite` -/

theorem parseFinite_pre {e s : Nat} (c : HexCfg e s) (b : List HByte) (round : Round) :
    parseFinite b (e + s + 1) s round = (do
      match ← parseHex b with
      | .error er => pure (.error er)
      | .ok (sig, exp) =>
        if sig = 0#128 then pure (.ok (0#128, Status.OK))
        else do
          let r ← finishFinite e s (minLsb e s) sig exp round
          pure (.ok r)) := by
  obtain ⟨hp1, hp2⟩ := c.pe
  have hs := c.hs; have hs2 := c.hs2; have he := c.he; have he2 := c.he2
  unfold parseFinite
  rw [(nsubC_spec (a := e + s + 1) (b := s) (by omega)).eq]
  simp only [ok_bind]
  rw [(nsubC_spec (by omega)).eq]
  simp only [ok_bind]
  rw [(nsubC_spec (by omega)).eq]
  simp only [ok_bind]
  have e1 : e + s + 1 - s - 1 = e := by omega
  rw [e1, if_pos (by omega), i32W_eq (by omega)]
  simp only [pure_bind]
  rw [(i32C_spec (by omega)).eq]
  simp only [ok_bind]
  rw [(i32C_spec (by omega)).eq]
  simp only [ok_bind]
  rw [(i32C_spec (by omega)).eq]
  simp only [ok_bind]
  have e2 : 1 - ((2 : Int) ^ (e - 1) - 1) - s = minLsb e s := by unfold minLsb; ring
  rw [e2]
  rfl

theorem rounds_zero {e s : Nat} (c : HexCfg e s) (dir : Dir) :
    Rounds e s dir 0 0 ∧ flags e s dir 0 0 = 0#8 := by
  have hI := inf_ge (s := s) c.he
  have hps : 0 < 2 ^ s := Nat.two_pow_pos s
  have hup : UpSpec dir 0 0 0 := by
    cases dir
    · exact Or.inl ⟨by norm_num, rfl⟩
    · rfl
    · exact Or.inl ⟨rfl, rfl⟩
  have := round_core (s := s) (e := e) (j := 0) (a := 0) (up := 0) (dir := dir) (y := 0) (f := 0) c.he c.hs
    (by positivity) (Or.inr rfl) (by norm_num) (le_refl _) (by norm_num) hup
  have hpk : packed (inf e s) dir (0 * 2 ^ s + (0 + 0)) = 0 := by
    unfold packed; rw [if_pos (by omega)]; simp
  rw [hpk] at this
  have h0 : (0 : ℚ) = 0 * unit e s := by ring
  rw [h0, rounds_iff, flags_eq]
  refine ⟨this.1, ?_⟩
  rw [← this.2]
  unfold codeFlags
  rw [if_pos (by omega)]
  simp

theorem parseFinite_part {e s : Nat} (c : HexCfg e s) (b : List HByte) (round : Round) :
    Part (parseFinite b (e + s + 1) s round) (fun r => ∀ x st, r = .ok (x, st) → x.toNat ≤ inf e s ∧
      ∃ l, IsBody b l ∧ (FitsU128 e s l.value → Rounds e s round.dir l.value x.toNat ∧
        st = flags e s round.dir l.value x.toNat)) := by
  rw [parseFinite_pre c]
  refine Part.bind (parseHex_part b) ?_
  intro r hr
  cases r with
  | error e => exact Part.pure (by intro _ _ h; exact absurd h (by simp))
  | ok r =>
  obtain ⟨sig, exp⟩ := r
  obtain ⟨l, hbody, v, e0, hval, hst, hexp⟩ := hr sig exp rfl
  dsimp only
  split
  · rename_i h0
    apply Part.pure
    intro x st he
    injection he with he
    injection he with he1 he2
    subst he1 he2 h0
    have hv0 : v = 0 := by
      rcases hst with h | ⟨T, _, _, _, h⟩
      · rw [h]; rfl
      · exfalso
        have : (0#128).toNat = 0 := rfl
        omega
    have hval0 : l.value = 0 := by rw [hval, hv0, zero_mul]
    refine ⟨Nat.zero_le _, l, hbody, fun _ => ?_⟩
    rw [hval0]
    obtain ⟨r1, r2⟩ := rounds_zero c round.dir
    exact ⟨r1, r2.symm⟩
  · rename_i h0
    have hN : sig.toNat ≠ 0 := fun h => h0 (BitVec.eq_of_toNat_eq h)
    have hexp' : -2 ^ 31 ≤ exp ∧ exp < 2 ^ 31 := by omega
    by_cases hfit : ExpFits s (minLsb e s) (bitLen sig.toNat - 1 : Int) exp
    · refine Part.bind (finishFinite_spec c.he c.he2 c.hs c.hs2 c.hes rfl hst h0 hexp' hfit).part ?_
      rintro ⟨r, fl⟩ ⟨hle, hres⟩
      apply Part.pure
      intro x st he
      injection he with he
      injection he with he1 he2
      subst he1 he2
      refine ⟨hle, l, hbody, fun hf => ?_⟩
      rw [hval] at hf ⊢
      obtain ⟨r1, r2⟩ := hres (nowrap c hst hN sig.isLt hexp hf hfit)
      obtain ⟨q1, q2⟩ := clamp_rounds c hst hN sig.isLt hexp r1
      exact ⟨q1, r2.trans q2⟩
    · rw [finishFinite_fault (min_lsb := minLsb e s) c.he c.he2 c.hs2 rfl hst h0 hexp' hfit]
      intro a ha
      exact absurd ha (by simp)

/-! ### `parse_any` -/

/-- The rounding direction of the magnitude of a number with sign `neg`. -/
def dirOf (neg : Bool) : Round → Dir
  | .nearest => .nearest
  | .zero => .down
  | .positive => if neg then .down else .up
  | .negative => if neg then .up else .down

theorem roundMag_dir (neg : Bool) (round : Round) : (roundMag neg round).dir = dirOf neg round := by
  cases neg <;> cases round <;> rfl

theorem isCh_iff {c : HByte} {l u : Char} : isCh c l u = true ↔ c = hch l ∨ c = hch u := by
  unfold isCh; simp

theorem isLit_iff {t : List HByte} {l : Lit} : IsLit t l ↔ ∃ x b, t = hch '0' :: x :: b ∧ isCh x 'x' 'X' = true ∧
    IsBody b l := by
  constructor
  · rintro ⟨x, I, P, F, p, g, D, rfl, hx, hrest⟩
    have key : ∀ y, x = [y] → isCh y 'x' 'X' = true → ∃ x' b,
        bytes "0" ++ x ++ I ++ P ++ F ++ p ++ g ++ D = hch '0' :: x' :: b ∧ isCh x' 'x' 'X' = true ∧ IsBody b l := by
      rintro y rfl hy
      refine ⟨y, I ++ P ++ F ++ p ++ g ++ D, ?_, hy, I, P, F, p, g, D, rfl, hrest⟩
      simp [bytes, hch]
    rcases hx with hx | hx
    · exact key _ hx (by rw [isCh_iff]; left; rfl)
    · exact key _ hx (by rw [isCh_iff]; right; rfl)
  · rintro ⟨x, b, rfl, hx, I, P, F, p, g, D, rfl, hrest⟩
    refine ⟨[x], I, P, F, p, g, D, ?_, ?_, hrest⟩
    · simp [bytes, hch]
    · rw [isCh_iff] at hx
      rcases hx with rfl | rfl
      · left; rfl
      · right; rfl

/-- What `parse_any` has to return for text `t` after the sign. -/
def BodyResult (e s : Nat) (t : List HByte) (dir : Dir) (n : Nat) (st : Status) : Prop :=
  (IsInfText t ∧ n = inf e s ∧ st = 0#8) ∨
  (IsNanText t ∧ n = inf e s + 2 ^ (s - 1) ∧ st = 0#8) ∨
  (∃ l, IsLit t l ∧ (FitsU128 e s l.value → Rounds e s dir l.value n ∧ st = flags e s dir l.value n))

theorem mem2 {c : HByte} {l u : Char} {t : String} (ht : bytes t = [hch l, hch u]) : isCh c l u = true ↔ c ∈ bytes t := by
  rw [isCh_iff, ht]; simp

theorem parseBody_part {e s : Nat} (c : HexCfg e s) (b : List HByte) (neg : Bool) (i nan : BitVec 128) (round : Round)
    (hi : i.toNat = inf e s) (hn : nan.toNat = inf e s + 2 ^ (s - 1)) :
    Part (parseBody b neg i nan (e + s + 1) s round) (fun r => ∀ x st, r = .ok (x, st) →
      x.toNat < 2 ^ (e + s) ∧ BodyResult e s b (dirOf neg round) x.toNat st) := by
  have hps : 0 < 2 ^ s := Nat.two_pow_pos s
  have hs := c.hs
  have hsp : 2 ^ s = 2 * 2 ^ (s - 1) := by rw [← Nat.pow_succ']; congr 1; omega
  have hlt : inf e s + 2 ^ s ≤ 2 ^ (e + s) := by
    unfold inf
    have : 0 < 2 ^ e := Nat.two_pow_pos e
    rw [Nat.pow_add, Nat.sub_mul, Nat.one_mul]
    have : 2 ^ s ≤ 2 ^ e * 2 ^ s := Nat.le_mul_of_pos_left _ this
    omega
  have hp1 : 0 < 2 ^ (s - 1) := Nat.two_pow_pos _
  have fin : ∀ {b' : List HByte} {t : List HByte}, (∀ l, IsBody b' l → IsLit t l) →
      Part (parseFinite b' (e + s + 1) s (roundMag neg round)) (fun r => ∀ x st, r = .ok (x, st) →
      x.toNat < 2 ^ (e + s) ∧ BodyResult e s t (dirOf neg round) x.toNat st) := by
    intro b' t ht
    refine (parseFinite_part c b' _).mono ?_
    intro r hr x st he
    obtain ⟨h1, l, h2, h3⟩ := hr x st he
    rw [roundMag_dir] at h3
    exact ⟨by omega, Or.inr (Or.inr ⟨l, ht l h2, h3⟩)⟩
  have err : Part (pure (.error HexErr.noHex) : M (Except HexErr (BitVec 128 × Status)))
      (fun r => ∀ x st, r = .ok (x, st) →
      x.toNat < 2 ^ (e + s) ∧ BodyResult e s b (dirOf neg round) x.toNat st) :=
    Part.pure (by intro _ _ h; exact absurd h (by simp))
  unfold parseBody
  split
  · rename_i a b' c'
    split
    · rename_i h
      simp only [Bool.and_eq_true] at h
      apply Part.pure
      intro x st he
      injection he with he
      injection he with he1 he2
      subst he1 he2
      refine ⟨by omega, Or.inl ⟨⟨a, b', c', rfl, (mem2 rfl).mp h.1.1, (mem2 rfl).mp h.1.2, (mem2 rfl).mp h.2⟩, hi, rfl⟩⟩
    · split
      · rename_i h
        simp only [Bool.and_eq_true] at h
        apply Part.pure
        intro x st he
        injection he with he
        injection he with he1 he2
        subst he1 he2
        refine ⟨by omega, Or.inr (Or.inl ⟨⟨a, b', c', rfl, (mem2 rfl).mp h.1.1, (mem2 rfl).mp h.1.2,
          (mem2 rfl).mp h.2⟩, hn, rfl⟩)⟩
      · split
        · rename_i h
          exact fin (fun l hl => isLit_iff.mpr ⟨b', _, by rw [h.1], h.2, hl⟩)
        · exact err
  · split
    · rename_i h
      exact fin (fun l hl => isLit_iff.mpr ⟨_, _, by rw [h.1], h.2, hl⟩)
    · exact err
  · exact err

/-- the constants of lines 78-81 -/
theorem consts_spec {e s : Nat} (c : HexCfg e s) : ∃ sb q nan i : BitVec 128,
    nsubC (e + s + 1) 1 = .ok (e + s) ∧ shlC 1#128 (e + s) = .ok sb ∧ nsubC s 1 = .ok (s - 1) ∧
    shlC 1#128 (s - 1) = .ok q ∧ subC sb q = .ok nan ∧ subC nan q = .ok i ∧
    sb.toNat = 2 ^ (e + s) ∧ i.toNat = inf e s ∧ nan.toNat = inf e s + 2 ^ (s - 1) := by
  have hs := c.hs; have hes := c.hes; have he := c.he
  have hsp : 2 ^ s = 2 * 2 ^ (s - 1) := by rw [← Nat.pow_succ']; congr 1; omega
  have hpe : 2 ^ (e + s) = inf e s + 2 ^ s := by
    unfold inf
    have : 0 < 2 ^ e := Nat.two_pow_pos e
    rw [Nat.pow_add, Nat.sub_mul, Nat.one_mul]
    have : 2 ^ s ≤ 2 ^ e * 2 ^ s := Nat.le_mul_of_pos_left _ this
    omega
  have hlt : 2 ^ (e + s) < 2 ^ 128 := Nat.pow_lt_pow_right (by omega) (by omega)
  obtain ⟨sb, h1, h1'⟩ := shlC_spec (w := 128) (a := 1#128) (n := e + s) (by omega)
  obtain ⟨q, h2, h2'⟩ := shlC_spec (w := 128) (a := 1#128) (n := s - 1) (by omega)
  rw [show (1#128).toNat = 1 from rfl, Nat.one_mul, Nat.mod_eq_of_lt (by omega)] at h1' h2'
  obtain ⟨nan, h3, h3'⟩ := subC_spec (a := sb) (b := q) (by omega)
  obtain ⟨i, h4, h4'⟩ := subC_spec (a := nan) (b := q) (by omega)
  refine ⟨sb, q, nan, i, (nsubC_spec (by omega)).eq, h1, (nsubC_spec (by omega)).eq, h2, h3, h4, h1', by omega, by omega⟩

theorem parseAny_pre {e s : Nat} (c : HexCfg e s) (t : List HByte) (round : Round) :
    ∃ sb nan i : BitVec 128, sb.toNat = 2 ^ (e + s) ∧ i.toNat = inf e s ∧ nan.toNat = inf e s + 2 ^ (s - 1) ∧
    parseAny t (e + s + 1) s round = (do
      match ← parseBody (dropSign t) (isNeg t) i nan (e + s + 1) s round with
      | .error er => pure (.error er)
      | .ok (x, status) => pure (.ok (if isNeg t then x ^^^ sb else x, status))) := by
  obtain ⟨sb, q, nan, i, h1, h2, h3, h4, h5, h6, h7, h8, h9⟩ := consts_spec c
  refine ⟨sb, nan, i, h7, h8, h9, ?_⟩
  have hs := c.hs; have hes := c.hes; have he := c.he; have hs2 := c.hs2; have he2 := c.he2
  unfold parseAny
  rw [if_neg (by omega)]
  simp only [h1, h2, h3, h4, h5, h6, ok_bind]
  rfl

theorem xor_sign {x sb : BitVec 128} {k : Nat} (hx : x.toNat < 2 ^ k) (hsb : sb.toNat = 2 ^ k) :
    (x ^^^ sb).toNat = x.toNat + 2 ^ k := by
  rw [BitVec.toNat_xor, hsb]
  apply Nat.eq_of_testBit_eq
  intro i
  rw [Nat.testBit_xor, Nat.testBit_two_pow, Nat.add_comm]
  by_cases hik : i = k
  · subst hik
    rw [Nat.testBit_two_pow_add_eq, Nat.testBit_lt_two_pow hx]; simp
  · rcases Nat.lt_or_gt_of_ne hik with h | h
    · rw [Nat.testBit_two_pow_add_gt h]
      simp [Ne.symm hik]
    · have h1 : x.toNat.testBit i = false := Nat.testBit_lt_two_pow (lt_trans hx (Nat.pow_lt_pow_right (by omega) h))
      have h2 : (2 ^ k + x.toNat).testBit i = false := by
        apply Nat.testBit_lt_two_pow
        have : 2 ^ (k + 1) ≤ 2 ^ i := Nat.pow_le_pow_right (by omega) h
        rw [Nat.pow_succ] at this
        omega
      rw [h1, h2]; simp [Ne.symm hik]

theorem parseAny_part {e s : Nat} (c : HexCfg e s) (t : List HByte) (round : Round) :
    Part (parseAny t (e + s + 1) s round) (fun r => ∀ x st, r = .ok (x, st) →
      ∃ n, x.toNat = n + (if isNeg t then 2 ^ (e + s) else 0) ∧ n < 2 ^ (e + s) ∧
        BodyResult e s (dropSign t) (dirOf (isNeg t) round) n st) := by
  obtain ⟨sb, nan, i, h1, h2, h3, h4⟩ := parseAny_pre c t round
  rw [h4]
  refine Part.bind (parseBody_part c _ _ i nan round h2 h3) ?_
  intro r hr
  cases r with
  | error e => exact Part.pure (by intro _ _ h; exact absurd h (by simp))
  | ok r =>
  obtain ⟨x, st⟩ := r
  obtain ⟨hlt, hb⟩ := hr x st rfl
  apply Part.pure
  intro x' st' he
  injection he with he
  injection he with he1 he2
  subst he1 he2
  refine ⟨x.toNat, ?_, hlt, hb⟩
  cases isNeg t
  · simp
  · exact xor_sign hlt h1

end Verif
