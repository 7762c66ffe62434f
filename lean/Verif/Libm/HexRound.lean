import Verif.Libm.HexSpec
import Mathlib.Tactic.FieldSimp
import Mathlib.Order.Monotone.Basic
/-! Rounding lemmas for `HexSpec`. -/
namespace Verif.HexSpec

/-- value of a pattern in units of the least positive number -/
def U (s n : Nat) : Nat :=
  if n / 2 ^ s = 0 then n % 2 ^ s else (2 ^ s + n % 2 ^ s) * 2 ^ (n / 2 ^ s - 1)

theorem unit_pos (e s : Nat) : 0 < unit e s := by unfold unit; positivity

theorem mag_eq (e s n : Nat) : mag e s n = (U s n : ℚ) * unit e s := by
  unfold mag U; split <;> rfl

theorem U_eq {s j m : Nat} (hm : m ≤ 2 ^ (s + 1)) (h : 2 ^ s ≤ m ∨ j = 0) :
    U s (j * 2 ^ s + m) = m * 2 ^ j := by
  have hp : 0 < 2 ^ s := Nat.two_pow_pos _
  rw [Nat.pow_succ] at hm
  unfold U
  generalize hP : 2 ^ s = P at *
  have hd : (j * P + m) / P = j + m / P := by
    rw [Nat.add_comm, Nat.add_mul_div_right _ _ hp, Nat.add_comm]
  have hmod : (j * P + m) % P = m % P := by
    rw [Nat.add_comm, Nat.add_mul_mod_self_right]
  rw [hd, hmod]
  by_cases h1 : m < P
  · have hE1 : j = 0 := by omega
    subst hE1
    simp [Nat.div_eq_of_lt h1, Nat.mod_eq_of_lt h1]
  · by_cases h2 : m = P * 2
    · subst h2
      have : P * 2 / P = 2 := Nat.mul_div_cancel_left _ hp
      rw [this]
      have h3 : j + 2 ≠ 0 := by omega
      have h4 : j + 2 - 1 = j + 1 := by omega
      rw [if_neg h3, h4, Nat.pow_succ]
      simp; ring
    · have h3 : m / P = 1 := by
        apply Nat.div_eq_of_lt_le <;> omega
      have h4 : m % P = m - P := by
        rw [Nat.mod_eq_sub_mod (by omega), Nat.mod_eq_of_lt (by omega)]
      rw [h3, h4, if_neg (by omega)]
      congr 1
      omega

theorem U_decomp (s n : Nat) : ∃ j m, m < 2 ^ (s + 1) ∧ (2 ^ s ≤ m ∨ j = 0) ∧ n = j * 2 ^ s + m := by
  have hp : 0 < 2 ^ s := Nat.two_pow_pos _
  have hdm := Nat.div_add_mod n (2 ^ s)
  have hlt := Nat.mod_lt n hp
  rw [Nat.pow_succ]
  by_cases h : n / 2 ^ s = 0
  · refine ⟨0, n % 2 ^ s, by omega, Or.inr rfl, ?_⟩
    rw [h] at hdm; omega
  · obtain ⟨k, hk⟩ : ∃ k, n / 2 ^ s = k + 1 := Nat.exists_eq_succ_of_ne_zero h
    refine ⟨k, 2 ^ s + n % 2 ^ s, by omega, Or.inl (Nat.le_add_right _ _), ?_⟩
    rw [hk, Nat.mul_succ, Nat.mul_comm] at hdm
    omega

theorem U_succ_lt (s n : Nat) : U s n < U s (n + 1) := by
  obtain ⟨j, m, hm, h, rfl⟩ := U_decomp s n
  rw [Nat.add_assoc, U_eq (le_of_lt hm) h, U_eq hm (by omega)]
  exact Nat.mul_lt_mul_of_pos_right (Nat.lt_succ_self m) (Nat.two_pow_pos _)

theorem U_strictMono (s : Nat) : StrictMono (U s) := strictMono_nat_of_lt_succ (U_succ_lt s)
theorem U_lt_iff {s m n : Nat} : U s m < U s n ↔ m < n := (U_strictMono s).lt_iff_lt
theorem U_le_iff {s m n : Nat} : U s m ≤ U s n ↔ m ≤ n := (U_strictMono s).le_iff_le
theorem U_inj {s m n : Nat} : U s m = U s n ↔ m = n := (U_strictMono s).injective.eq_iff
theorem U_zero (s : Nat) : U s 0 = 0 := by simp [U]
theorem U_small {s m : Nat} (hm : m ≤ 2 ^ (s + 1)) : U s m = m := by
  have := U_eq (s := s) (j := 0) (m := m) hm (Or.inr rfl)
  simpa using this
theorem U_one (s : Nat) : U s 1 = 1 := U_small (Nat.one_le_two_pow)

theorem inf_eq {e s : Nat} (he : 2 ≤ e) : inf e s = (2 ^ e - 2) * 2 ^ s + 2 ^ s := by
  have : 2 ^ 2 ≤ 2 ^ e := Nat.pow_le_pow_right (by omega) he
  unfold inf
  obtain ⟨k, hk⟩ : ∃ k, 2 ^ e = k + 2 := ⟨2 ^ e - 2, by omega⟩
  rw [hk, show k + 2 - 1 = k + 1 by omega, show k + 2 - 2 = k by omega, Nat.succ_mul]

theorem U_inf {e s : Nat} (he : 2 ≤ e) : U s (inf e s) = 2 ^ s * 2 ^ (2 ^ e - 2) := by
  rw [inf_eq he, U_eq (by rw [Nat.pow_succ]; omega) (Or.inl (le_refl _))]

theorem inf_ge {e s : Nat} (he : 2 ≤ e) : 3 * 2 ^ s ≤ inf e s := by
  have : 2 ^ 2 ≤ 2 ^ e := Nat.pow_le_pow_right (by omega) he
  unfold inf
  exact Nat.mul_le_mul_right _ (by omega)

/-! ### in units -/

/-- `Rounds` in units -/
def RoundsU (s I : Nat) (dir : Dir) (y : ℚ) (n : Nat) : Prop :=
  match dir with
  | .nearest => n ≤ I ∧ ∀ m, m ≤ I →
      |y - U s n| ≤ |y - U s m| ∧ (|y - U s n| = |y - U s m| → m ≠ n → n % 2 = 0)
  | .down => n < I ∧ (U s n : ℚ) ≤ y ∧ ∀ m, m < I → (U s m : ℚ) ≤ y → m ≤ n
  | .up => n ≤ I ∧ (n < I → y ≤ U s n) ∧ ∀ m, m < n → (U s m : ℚ) < y

theorem rounds_iff {e s : Nat} {dir : Dir} {y : ℚ} {n : Nat} :
    Rounds e s dir (y * unit e s) n ↔ RoundsU s (inf e s) dir y n := by
  have hu := unit_pos e s
  have key : ∀ m, |y * unit e s - mag e s m| = |y - U s m| * unit e s := by
    intro m
    rw [mag_eq, ← sub_mul, abs_mul, abs_of_pos hu]
  unfold Rounds RoundsU
  cases dir
  · simp only [key, mul_le_mul_iff_left₀ hu, mul_left_inj' (ne_of_gt hu)]
  · simp only [mag_eq, mul_le_mul_iff_left₀ hu]
  · simp only [mag_eq, mul_le_mul_iff_left₀ hu, mul_lt_mul_iff_left₀ hu]

/-- how much to add to the truncated significand -/
def UpSpec (dir : Dir) (a : Nat) (f : ℚ) (up : Nat) : Prop :=
  match dir with
  | .nearest => (f < 1 / 2 ∧ up = 0) ∨ (1 / 2 < f ∧ up = 1) ∨ (f = 1 / 2 ∧ up = a % 2)
  | .down => up = 0
  | .up => (f = 0 ∧ up = 0) ∨ (f ≠ 0 ∧ up = 1)

theorem UpSpec.le {dir a f up} (h : UpSpec dir a f up) : up ≤ 1 := by
  cases dir <;> simp only [UpSpec] at h <;> omega

theorem UpSpec.zero {dir a up} (h : UpSpec dir a 0 up) : up = 0 := by
  cases dir
  · simp only [UpSpec] at h
    rcases h with h | h | h
    · exact h.2
    · exact absurd h.1 (by norm_num)
    · exact absurd h.1 (by norm_num)
  · exact h
  · simp only [UpSpec] at h
    rcases h with h | h
    · exact h.2
    · exact absurd rfl h.1

/-- between two neighbours -/
theorem roundsU_between {s I n up a : Nat} {dir : Dir} {y f d : ℚ} (hd : 0 < d) (hn : n + up < I ∨ n + 1 = I)
    (hn1 : n < I)
    (hy : y = U s n + f * d) (hnx : (U s (n + 1) : ℚ) = U s n + d) (hf0 : 0 ≤ f) (hf1 : f < 1)
    (hpar : a % 2 = n % 2) (hup : UpSpec dir a f up) : RoundsU s I dir y (n + up) := by
  have lo : ∀ m, m ≤ n → (U s m : ℚ) ≤ U s n := by
    intro m hm; exact_mod_cast U_le_iff.mpr hm
  have lo' : ∀ m, m ≤ n → m ≠ n → (U s m : ℚ) < U s n := by
    intro m hm hne; exact_mod_cast U_lt_iff.mpr (lt_of_le_of_ne hm hne)
  have hi : ∀ m, n + 1 ≤ m → (U s (n + 1) : ℚ) ≤ U s m := by
    intro m hm; exact_mod_cast U_le_iff.mpr hm
  have hi' : ∀ m, n + 1 ≤ m → m ≠ n + 1 → (U s (n + 1) : ℚ) < U s m := by
    intro m hm hne; exact_mod_cast U_lt_iff.mpr (lt_of_le_of_ne hm (Ne.symm hne))
  have hfd : 0 ≤ f * d := by positivity
  have hfd1 : f * d < d := by nlinarith
  have an : |y - U s n| = f * d := by rw [hy, add_sub_cancel_left]; exact abs_of_nonneg hfd
  have an1 : |y - U s (n + 1)| = d - f * d := by
    rw [abs_sub_comm, abs_of_nonneg (by linarith)]; linarith
  have am : ∀ m, m ≤ n → |y - U s m| = y - U s m := by
    intro m hm; exact abs_of_nonneg (by linarith [lo m hm])
  have am1 : ∀ m, n + 1 ≤ m → |y - U s m| = U s m - y := by
    intro m hm; rw [abs_sub_comm]; exact abs_of_nonneg (by linarith [hi m hm])
  have caseA : f ≤ 1 / 2 → (f = 1 / 2 → n % 2 = 0) → RoundsU s I .nearest y n := by
    intro hx he
    refine ⟨by omega, fun m _ => ?_⟩
    rw [an]
    have hfh : f * d ≤ 1 / 2 * d := by nlinarith
    rcases Nat.lt_or_ge n m with hm | hm
    · rw [am1 m hm]
      have := hi m hm
      refine ⟨by linarith, fun hq _ => he ?_⟩
      have : f * d = 1 / 2 * d := by linarith
      exact mul_right_cancel₀ (ne_of_gt hd) this
    · rw [am m hm]
      have := lo m hm
      refine ⟨by linarith, fun hq hne => ?_⟩
      have := lo' m hm hne
      linarith
  have caseB : 1 / 2 ≤ f → (f = 1 / 2 → (n + 1) % 2 = 0) → RoundsU s I .nearest y (n + 1) := by
    intro hx he
    refine ⟨by omega, fun m _ => ?_⟩
    rw [an1]
    have hfh : 1 / 2 * d ≤ f * d := by nlinarith
    rcases Nat.lt_or_ge n m with hm | hm
    · rw [am1 m hm]
      have := hi m hm
      refine ⟨by linarith, fun hq hne => ?_⟩
      have := hi' m hm hne
      linarith
    · rw [am m hm]
      have := lo m hm
      refine ⟨by linarith, fun hq hne => he ?_⟩
      have : f * d = 1 / 2 * d := by linarith
      exact mul_right_cancel₀ (ne_of_gt hd) this
  cases dir
  · rcases hup with ⟨hf, rfl⟩ | ⟨hf, rfl⟩ | ⟨hf, rfl⟩
    · exact caseA (le_of_lt hf) (fun h => absurd h (ne_of_lt hf))
    · exact caseB (le_of_lt hf) (fun h => absurd h.symm (ne_of_lt hf))
    · rw [hpar]
      rcases Nat.mod_two_eq_zero_or_one n with h | h
      · rw [h]; exact caseA (le_of_eq hf) (fun _ => h)
      · rw [h]; exact caseB (le_of_eq hf.symm) (fun _ => by omega)
  · simp only [UpSpec] at hup
    subst hup
    refine ⟨hn1, by show (U s n : ℚ) ≤ y; linarith, fun m hm hle => ?_⟩
    by_contra hlt
    have := hi m (by omega)
    linarith
  · simp only [UpSpec] at hup
    rcases hup with ⟨hf, rfl⟩ | ⟨hf, rfl⟩
    · refine ⟨by omega, fun _ => ?_, fun m hm => ?_⟩
      · show y ≤ (U s n : ℚ); rw [hy, hf]; linarith
      · have := lo' m (by omega) (by omega)
        linarith
    · refine ⟨by omega, fun _ => by show y ≤ (U s (n + 1) : ℚ); linarith, fun m hm => ?_⟩
      have hf' : 0 < f := lt_of_le_of_ne hf0 (Ne.symm hf)
      have : 0 < f * d := by positivity
      have := lo m (by omega)
      linarith

/-- the result beyond the range -/
def topOf (I : Nat) (dir : Dir) : Nat := match dir with | .down => I - 1 | _ => I

/-- beyond the range -/
theorem roundsU_overflow {s I : Nat} {dir : Dir} {y : ℚ} (hI : 1 ≤ I) (h : (U s I : ℚ) ≤ y) :
    RoundsU s I dir y (topOf I dir) := by
  have le : ∀ m, m ≤ I → (U s m : ℚ) ≤ U s I := by
    intro m hm; exact_mod_cast U_le_iff.mpr hm
  have lt : ∀ m, m < I → (U s m : ℚ) < U s I := by
    intro m hm; exact_mod_cast U_lt_iff.mpr hm
  cases dir
  · refine ⟨le_refl _, fun m hm => ?_⟩
    have := le m hm
    have et : topOf I .nearest = I := rfl
    rw [et]
    rw [abs_of_nonneg (by linarith), abs_of_nonneg (by linarith)]
    refine ⟨by linarith, fun he hne => ?_⟩
    have hne : m ≠ I := hne
    have hm : m ≤ I := hm
    have := lt m (by omega)
    linarith
  · refine ⟨by show I - 1 < I; omega, ?_, fun m hm _ => by show m ≤ I - 1; omega⟩
    have := lt (I - 1) (by omega)
    show (U s (I - 1) : ℚ) ≤ y
    linarith
  · refine ⟨le_refl _, fun h => absurd h (lt_irrefl _), fun m hm => ?_⟩
    have := lt m hm
    linarith

/-- numbers below half the least positive one all round alike -/
theorem roundsU_tiny {s I n : Nat} {dir : Dir} {y : ℚ} (hI : 1 < I) (h0 : 0 < y) (h1 : y < 1 / 2) :
    RoundsU s I dir y n ↔ n = (match dir with | .up => 1 | _ => 0) := by
  have u0 : (U s 0 : ℚ) = 0 := by rw [U_zero]; rfl
  have u1 : (U s 1 : ℚ) = 1 := by rw [U_one]; rfl
  have ge : ∀ m, 1 ≤ m → (1 : ℚ) ≤ U s m := by
    intro m hm
    have : U s 1 ≤ U s m := U_le_iff.mpr hm
    rw [U_one] at this
    exact_mod_cast this
  have a0 : |y - U s 0| = y := by rw [u0, sub_zero, abs_of_pos h0]
  cases dir
  · constructor
    · intro ⟨_, h⟩
      by_contra hne
      have hn : 1 ≤ n := Nat.one_le_iff_ne_zero.mpr hne
      have := (h 0 (by omega)).1
      rw [a0, abs_sub_comm, abs_of_nonneg (by linarith [ge n hn])] at this
      linarith [ge n hn]
    · rintro rfl
      refine ⟨by show 0 ≤ I; omega, fun m hm => ?_⟩
      show |y - U s 0| ≤ _ ∧ (|y - U s 0| = _ → _)
      rw [a0]
      rcases Nat.eq_zero_or_pos m with rfl | hm'
      · exact ⟨by rw [a0], fun _ h => absurd rfl h⟩
      · have := ge m hm'
        rw [abs_sub_comm, abs_of_nonneg (by linarith)]
        exact ⟨by linarith, fun h => by linarith⟩
  · constructor
    · intro ⟨_, h, _⟩
      by_contra hne
      have := ge n (Nat.one_le_iff_ne_zero.mpr hne)
      linarith
    · rintro rfl
      refine ⟨by show 0 < I; omega, by show (U s 0 : ℚ) ≤ y; rw [u0]; exact le_of_lt h0, fun m _ hm => ?_⟩
      by_contra hne
      have := ge m (by omega)
      linarith
  · constructor
    · intro ⟨_, ha, hb⟩
      show n = 1
      rcases Nat.lt_trichotomy n 1 with h | h | h
      · exfalso
        obtain rfl : n = 0 := by omega
        have := ha (by omega)
        rw [u0] at this
        linarith
      · exact h
      · have := hb 1 h
        linarith
    · rintro rfl
      refine ⟨by show 1 ≤ I; omega, fun _ => by show y ≤ (U s 1 : ℚ); rw [u1]; linarith, fun m hm => ?_⟩
      obtain rfl : m = 0 := by have : m < 1 := hm; omega
      rw [u0]; exact h0

/-- The rounded pattern produced by packing exponent and rounded significand. -/
def packed (I : Nat) (dir : Dir) (n : Nat) : Nat :=
  if n < I then n else topOf I dir

/-- `Overflows` in units -/
def OverU (s I : Nat) (dir : Dir) (y : ℚ) (n : Nat) : Prop :=
  match dir with
  | .nearest | .up => n = I
  | .down => (U s I : ℚ) ≤ y

open Classical in
/-- `flags` in units -/
noncomputable def flagsU (s I : Nat) (dir : Dir) (y : ℚ) (n : Nat) : BitVec 8 :=
  if n < I ∧ (U s n : ℚ) = y then 0#8
  else 16#8 ||| (if OverU s I dir y n then 4#8 else 0#8) |||
    (if n < 2 ^ s then 8#8 else 0#8)

theorem flags_eq {e s : Nat} {dir : Dir} {y : ℚ} {n : Nat} :
    flags e s dir (y * unit e s) n = flagsU s (inf e s) dir y n := by
  have hu := unit_pos e s
  have ho : Overflows e s dir (y * unit e s) n = OverU s (inf e s) dir y n := by
    cases dir
    · rfl
    · simp only [Overflows, OverU, mag_eq, mul_le_mul_iff_left₀ hu]
    · rfl
  unfold flags flagsU
  simp only [mag_eq, mul_left_inj' (ne_of_gt hu)]
  by_cases h : OverU s (inf e s) dir y n
  · have h' : Overflows e s dir (y * unit e s) n := by rw [ho]; exact h
    rw [if_pos h, if_pos h']
  · have h' : ¬ Overflows e s dir (y * unit e s) n := by rw [ho]; exact h
    rw [if_neg h, if_neg h']

/-- The flags as the code computes them from the fractional part. -/
def codeFlags (s I : Nat) (n : Nat) (exact : Bool) : BitVec 8 :=
  if n < I then (if exact then 0#8 else if n < 2 ^ s then 24#8 else 16#8) else 20#8

theorem top_flags1 {s I : Nat} {dir : Dir} {y : ℚ} (h2 : 2 ^ s ≤ topOf I dir) (ho : OverU s I dir y (topOf I dir))
    (h : topOf I dir = I ∨ (U s (topOf I dir) : ℚ) ≠ y) : 20#8 = flagsU s I dir y (topOf I dir) := by
  unfold flagsU
  rw [if_neg ?_, if_pos ho, if_neg (by omega)]
  · rfl
  · rintro ⟨h3, h4⟩
    rcases h with h | h
    · omega
    · exact h h4

theorem round_core {s e j a up : Nat} {dir : Dir} {y f : ℚ} (he : 2 ≤ e) (hs : 1 ≤ s)
    (ha : a < 2 ^ (s + 1)) (hj : 2 ^ s ≤ a ∨ j = 0) (hy : y = ((a : ℚ) + f) * 2 ^ j)
    (hf0 : 0 ≤ f) (hf1 : f < 1) (hup : UpSpec dir a f up) :
    RoundsU s (inf e s) dir y (packed (inf e s) dir (j * 2 ^ s + (a + up))) ∧
    codeFlags s (inf e s) (j * 2 ^ s + (a + up)) (decide (f = 0)) =
      flagsU s (inf e s) dir y (packed (inf e s) dir (j * 2 ^ s + (a + up))) := by
  have hI := inf_ge (s := s) he
  have hps : 2 ≤ 2 ^ s := by
    calc 2 = 2 ^ 1 := rfl
      _ ≤ 2 ^ s := Nat.pow_le_pow_right (by omega) hs
  generalize hIe : inf e s = I at *
  have hd : (0 : ℚ) < 2 ^ j := by positivity
  have hUn : (U s (j * 2 ^ s + a) : ℚ) = a * 2 ^ j := by
    rw [U_eq (le_of_lt ha) hj]; push_cast; ring
  have hUn1 : (U s (j * 2 ^ s + a + 1) : ℚ) = U s (j * 2 ^ s + a) + 2 ^ j := by
    rw [hUn, Nat.add_assoc, U_eq ha (by omega)]; push_cast; ring
  have hy' : y = U s (j * 2 ^ s + a) + f * 2 ^ j := by rw [hy, hUn]; ring
  have hpar : a % 2 = (j * 2 ^ s + a) % 2 := by
    have : j * 2 ^ s % 2 = 0 := by
      obtain ⟨k, rfl⟩ : ∃ k, s = k + 1 := ⟨s - 1, by omega⟩
      rw [Nat.pow_succ, ← Nat.mul_assoc, Nat.mul_mod_left]
    omega
  have hupl := hup.le
  rw [show j * 2 ^ s + (a + up) = j * 2 ^ s + a + up by omega]
  generalize hn0 : j * 2 ^ s + a = n0 at *
  have hfd : 0 ≤ f * 2 ^ j := by positivity
  have hfd1 : f * 2 ^ j < 2 ^ j := by nlinarith
  have mono : ∀ m m', m ≤ m' → (U s m : ℚ) ≤ U s m' := by
    intro m m' hm; exact_mod_cast U_le_iff.mpr hm
  have hinj : ∀ m m', (U s m : ℚ) = U s m' → m = m' := by
    intro m m' hm; exact U_inj.mp (by exact_mod_cast hm)
  have e24 : (16#8 ||| 0#8 ||| 8#8 : BitVec 8) = 24#8 := by decide
  have e16 : (16#8 ||| 0#8 ||| 0#8 : BitVec 8) = 16#8 := by decide
  have e20 : (16#8 ||| 4#8 ||| 0#8 : BitVec 8) = 20#8 := by decide
  by_cases hlt : n0 + up < I
  · have hp : packed I dir (n0 + up) = n0 + up := by simp [packed, hlt]
    rw [hp]
    refine ⟨roundsU_between hd (Or.inl hlt) (by omega) hy' hUn1 hf0 hf1 hpar hup, ?_⟩
    unfold codeFlags flagsU
    rw [if_pos hlt]
    by_cases hf : f = 0
    · subst hf
      have := hup.zero
      subst this
      rw [if_pos (show decide ((0 : ℚ) = 0) = true by simp), if_pos ⟨hlt, by rw [hy']; simp⟩]
    · have hf' : 0 < f := lt_of_le_of_ne hf0 (Ne.symm hf)
      have : 0 < f * 2 ^ j := by positivity
      have hne : ¬ (n0 + up < I ∧ (U s (n0 + up) : ℚ) = y) := by
        rintro ⟨_, h⟩
        obtain rfl | rfl : up = 0 ∨ up = 1 := by omega
        · rw [Nat.add_zero] at h; linarith
        · linarith
      rw [if_neg (by simpa using hf), if_neg hne]
      have hov : ¬ OverU s I dir y (n0 + up) := by
        cases dir
        · show ¬ (n0 + up = I); omega
        · show ¬ ((U s I : ℚ) ≤ y)
          have := mono (n0 + 1) I (by
            simp only [UpSpec] at hup; omega)
          linarith
        · show ¬ (n0 + up = I); omega
      rw [if_neg hov]
      by_cases h2 : n0 + up < 2 ^ s
      · rw [if_pos h2, if_pos h2]; rfl
      · rw [if_neg h2, if_neg h2]; rfl
  · have hp : packed I dir (n0 + up) = topOf I dir := by simp [packed, hlt]
    rw [hp]
    have hcf : codeFlags s I (n0 + up) (decide (f = 0)) = 20#8 := by unfold codeFlags; rw [if_neg hlt]
    rw [hcf]
    by_cases hn : I ≤ n0
    · have hle : (U s I : ℚ) ≤ y := by
        have := mono I n0 hn
        linarith
      refine ⟨roundsU_overflow (by omega) hle, ?_⟩
      have lt1 : (U s (I - 1) : ℚ) < U s I := by exact_mod_cast U_lt_iff.mpr (by omega : I - 1 < I)
      cases dir
      · exact top_flags1 (by show 2 ^ s ≤ I; omega) rfl (Or.inl rfl)
      · exact top_flags1 (by show 2 ^ s ≤ I - 1; omega) hle (Or.inr (ne_of_lt (lt_of_lt_of_le lt1 hle)))
      · exact top_flags1 (by show 2 ^ s ≤ I; omega) rfl (Or.inl rfl)
    · have h1 : up = 1 := by omega
      subst h1
      have hn0I : n0 + 1 = I := by omega
      have hR := roundsU_between (dir := dir) hd (Or.inr hn0I) (by omega) hy' hUn1 hf0 hf1 hpar hup
      rw [hn0I] at hR
      cases dir
      · refine ⟨hR, ?_⟩
        exact top_flags1 (by show 2 ^ s ≤ I; omega) rfl (Or.inl rfl)
      · simp only [UpSpec] at hup; omega
      · refine ⟨hR, ?_⟩
        exact top_flags1 (by show 2 ^ s ≤ I; omega) rfl (Or.inl rfl)

end Verif.HexSpec
