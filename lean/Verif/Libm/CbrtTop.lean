import Verif.Libm.CbrtFinish
import Mathlib.Analysis.SpecialFunctions.Pow.Real

/-!
`cbrt` (`f64`): decoding the argument and putting the steps together.
-/
namespace Verif
open Fmt
namespace CbrtD

theorem cube_root (X : ℝ) (h : 0 ≤ X) : ∃ y : ℝ, 0 ≤ y ∧ y ^ 3 = X :=
  ⟨X ^ ((3 : ℕ) : ℝ)⁻¹, Real.rpow_nonneg h _, Real.rpow_inv_natCast_pow h (by norm_num)⟩

theorem cube_le {a b : ℝ} (ha : 0 ≤ a) (hb : 0 ≤ b) : a ^ 3 ≤ b ^ 3 ↔ a ≤ b := pow_le_pow_iff_left₀ ha hb (by norm_num)

theorem okb {α β : Type} (a : α) (f : α → M β) : ((.ok a : M α) >>= f) = f a := rfl

theorem p52R' : (2 : ℝ) ^ (-52 : ℤ) = 1 / 2 ^ 52 := by rw [zpow_neg]; norm_num

/-- the decoded argument -/
theorem decode_spec {x : D} (hf : f64.IsFin x) (h0 : f64.mag x ≠ 0) :
    ∃ (mant e E : ℕ), decode x.toNat = .ok (some (mant, e)) ∧ mant < 2 ^ 52 ∧ (e + 3072) % 2 ^ 32 = E ∧ 3021 ≤ E ∧ E ≤ 5118 ∧
      f64.magVal ℝ (f64.mag x) = (2 ^ 52 + mant) * 2 ^ ((E : ℤ) - 4147) := by
  have hbit := bits_of x
  have hi : f64.infRep = 0x7ff0000000000000 := by decide +kernel
  have hf : f64.mag x < f64.infRep := hf
  rw [hi] at hf
  obtain ⟨m, hm⟩ : ∃ m, f64.mag x = m := ⟨_, rfl⟩
  rw [hm] at hbit hf h0 ⊢
  have hsb : sb (f64.sign x) = 0 ∨ sb (f64.sign x) = 2 ^ 63 := by cases f64.sign x <;> simp [sb]
  have d1 : x.toNat &&& (2 ^ 52 - 1) = m % 2 ^ 52 := by rw [Nat.and_two_pow_sub_one_eq_mod, hbit]; omega
  have d2 : (x.toNat >>> 52) % 2 ^ 32 &&& 0x7ff = m / 2 ^ 52 := by
    rw [show (0x7ff : ℕ) = 2 ^ 11 - 1 by norm_num, Nat.and_two_pow_sub_one_eq_mod, hbit, Nat.shiftRight_eq_div_pow]; omega
  have d3 : x.toNat &&& (2 ^ 63 - 1) = m := by rw [Nat.and_two_pow_sub_one_eq_mod, hbit]; omega
  have d4 : (m / 2 ^ 52 + 1) &&& 0x7ff = m / 2 ^ 52 + 1 := by
    rw [show (0x7ff : ℕ) = 2 ^ 11 - 1 by norm_num, Nat.and_two_pow_sub_one_eq_mod]; omega
  unfold decode
  dsimp only
  rw [d1, d2, d3, d4]
  by_cases hs : m < 2 ^ 52
  · rw [if_pos (by omega), if_neg (by omega)]
    obtain ⟨L, hL⟩ : ∃ L, Nat.log2 m = L := ⟨_, rfl⟩
    have l1 : 2 ^ L ≤ m := by rw [← hL]; exact Nat.log2_self_le h0
    have l2 : m < 2 ^ (L + 1) := by rw [← hL]; exact Nat.lt_log2_self
    have l3 : L ≤ 51 := by
      by_contra hc
      have : 2 ^ 52 ≤ 2 ^ L := Nat.pow_le_pow_right (by norm_num) (by omega)
      omega
    have n1 : nsubC (63 - L) 11 = .ok (52 - L) := by unfold nsubC; rw [if_pos (by omega), show 63 - L - 11 = 52 - L by omega]
    have n2 : nsubC (52 - L) 1 = .ok (51 - L) := by unfold nsubC; rw [if_pos (by omega), show 52 - L - 1 = 51 - L by omega]
    have m1 : 2 ^ 52 ≤ m * 2 ^ (52 - L) := by
      calc 2 ^ 52 = 2 ^ L * 2 ^ (52 - L) := by rw [← pow_add]; congr 1; omega
        _ ≤ _ := Nat.mul_le_mul_right _ l1
    have m2 : m * 2 ^ (52 - L) < 2 ^ 53 := by
      calc m * 2 ^ (52 - L) < 2 ^ (L + 1) * 2 ^ (52 - L) := Nat.mul_lt_mul_of_pos_right l2 (by positivity)
        _ = _ := by rw [← pow_add]; congr 1; omega
    have hmm : m % 2 ^ 52 = m := Nat.mod_eq_of_lt hs
    obtain ⟨q, hq⟩ := Nat.exists_eq_add_of_le m1
    have d5 : (m <<< (52 - L)) % 2 ^ 64 &&& (2 ^ 52 - 1) = q := by
      rw [Nat.and_two_pow_sub_one_eq_mod, Nat.shiftLeft_eq]; omega
    rw [hL, n1]
    refine ⟨q, (m / 2 ^ 52 + 2 ^ 32 - (51 - L)) % 2 ^ 32, L + 3021, ?_, by omega, by omega, by omega, by omega, ?_⟩
    · show (nsubC (52 - L) 1 >>= fun n1 => if 52 - L < 64 then _ else _) = _
      rw [n2]
      show (if 52 - L < 64 then _ else _) = _
      rw [if_pos (by omega), hmm, d5]
    · have : ((2 : ℝ) ^ 52 + q) = m * 2 ^ (52 - L) := by exact_mod_cast hq.symm
      rw [this]
      unfold magVal
      rw [s64, b64, if_pos (by omega), hmm, mul_assoc, ← zpow_natCast (2 : ℝ) (52 - L), ← zpow_add₀ (by norm_num)]
      rw [show 1 - ((1023 : ℕ) : ℤ) - ((52 : ℕ) : ℤ) = ((52 - L : ℕ) : ℤ) + (((L + 3021 : ℕ) : ℤ) - 4147) by omega]
  · rw [if_neg (by omega)]
    refine ⟨m % 2 ^ 52, m / 2 ^ 52, m / 2 ^ 52 + 3072, rfl, by omega, by omega, by omega, by omega, ?_⟩
    unfold magVal
    rw [s64, b64, if_neg (by omega)]
    rw [show ((m / 2 ^ 52 : ℕ) : ℤ) - ((1023 : ℕ) : ℤ) - ((52 : ℕ) : ℤ) = ((m / 2 ^ 52 + 3072 : ℕ) : ℤ) - 4147 by omega, Nat.cast_add, Nat.cast_pow, Nat.cast_ofNat]

/-- 0, infinities and NaN -/
theorem decode_none {x : D} (h : f64.infRep ≤ f64.mag x ∨ f64.mag x = 0) : decode x.toNat = .ok none := by
  have hbit := bits_of x
  have hi : f64.infRep = 0x7ff0000000000000 := by decide +kernel
  have hl : f64.mag x < 2 ^ 63 := f64.mag_lt x
  rw [hi] at h
  obtain ⟨m, hm⟩ : ∃ m, f64.mag x = m := ⟨_, rfl⟩
  rw [hm] at hbit h hl
  have hsb : sb (f64.sign x) = 0 ∨ sb (f64.sign x) = 2 ^ 63 := by cases f64.sign x <;> simp [sb]
  have d2 : (x.toNat >>> 52) % 2 ^ 32 &&& 0x7ff = m / 2 ^ 52 := by
    rw [show (0x7ff : ℕ) = 2 ^ 11 - 1 by norm_num, Nat.and_two_pow_sub_one_eq_mod, hbit, Nat.shiftRight_eq_div_pow]; omega
  have d3 : x.toNat &&& (2 ^ 63 - 1) = m := by rw [Nat.and_two_pow_sub_one_eq_mod, hbit]; omega
  have d4 : (m / 2 ^ 52 + 1) &&& 0x7ff < 2 := by
    rw [show (0x7ff : ℕ) = 2 ^ 11 - 1 by norm_num, Nat.and_two_pow_sub_one_eq_mod]; omega
  unfold decode
  dsimp only
  rw [d2, d3, if_pos d4, if_pos (by omega)]

/-- setting the sign bit -/
theorem or_sign (x : D) {m : ℕ} (h : m < 2 ^ 63) : m ||| (x.toNat >>> 63) <<< 63 = sb (f64.sign x) + m := by
  have hb := bits_of x
  have hm : f64.mag x < 2 ^ 63 := f64.mag_lt x
  rw [Nat.or_comm, ← Nat.shiftLeft_add_eq_or_of_lt h, Nat.shiftLeft_eq, Nat.shiftRight_eq_div_pow]
  unfold sb at *
  split at hb <;> rename_i hs <;> simp only [hs] <;> simp <;> omega

theorem sign_bit (x : D) : x.toNat >>> 63 = if f64.sign x then 1 else 0 := by
  have hb := bits_of x
  have hm : f64.mag x < 2 ^ 63 := f64.mag_lt x
  rw [Nat.shiftRight_eq_div_pow]
  unfold sb at *
  split at hb <;> rename_i hs <;> simp only [hs] <;> simp <;> omega

/-- the three scales are near the roots of 1, 2 and 4 -/
theorem escale (it : ℕ) (h : it < 3) (t : Bool) {κ : ℝ} (k0 : 0 ≤ κ) (hκ : κ ^ 3 = 2 ^ it) :
    ∃ d : D, Pio2.rd 3 (fun i => ESCALE.getD i 0) it = .ok d ∧ d.toNat < 2 ^ 63 ∧
      ∃ S : ℝ, GFv f64 (BitVec.ofNat f64.w (sb t + d.toNat)) (sg t * S) ∧ 1 ≤ S ∧ S ≤ 2 ∧ |S - κ| ≤ 1 / 2 ^ 52 := by
  have key : ∀ (d : D) (q : ℚ), d.toNat < f64.infRep → f64.magVal ℚ d.toNat = q → 1 ≤ q → q ≤ 2 → (q - 1 / 2 ^ 52) ^ 3 ≤ 2 ^ it → 2 ^ it ≤ (q + 1 / 2 ^ 52) ^ 3 →
      ∃ S : ℝ, GFv f64 (BitVec.ofNat f64.w (sb t + d.toNat)) (sg t * S) ∧ 1 ≤ S ∧ S ≤ 2 ∧ |S - κ| ≤ 1 / 2 ^ 52 := by
    intro d q hd hq q1 q2 l1 l2
    have g := (of_bits t hd).1
    rw [← f64.magVal_cast, hq] at g
    have q1' : (1 : ℝ) ≤ q := by exact_mod_cast q1
    refine ⟨q, g, q1', by exact_mod_cast q2, ?_⟩
    have l1' := (Rat.cast_le (K := ℝ)).mpr l1
    have l2' := (Rat.cast_le (K := ℝ)).mpr l2
    push_cast at l1' l2'
    rw [← hκ] at l1' l2'
    rw [cube_le (by norm_num; linarith) k0] at l1'
    rw [cube_le k0 (by positivity)] at l2'
    rw [abs_le]
    constructor <;> linarith
  unfold Pio2.rd
  rw [if_pos h]
  refine ⟨_, rfl, ?_⟩
  interval_cases it
  · exact ⟨by decide, key (0x3ff0000000000000#f64.w) 1 (by decide +kernel) (by decide +kernel) (by norm_num) (by norm_num) (by norm_num) (by norm_num)⟩
  · exact ⟨by decide, key (0x3ff428a2f98d728b#f64.w) (5674179970822795 / 2 ^ 52) (by decide +kernel) (by decide +kernel) (by norm_num) (by norm_num) (by norm_num) (by norm_num)⟩
  · exact ⟨by decide, key (0x3ff965fea53d6e3d#f64.w) (7149018786131517 / 2 ^ 52) (by decide +kernel) (by decide +kernel) (by norm_num) (by norm_num) (by norm_num) (by norm_num)⟩

/-- the scales of the reciprocal -/
theorem rscale (it : ℕ) (h : it < 3) (x : D) :
    ∃ d : D, Pio2.rd 6 (fun i => rsc.getD i 0) (it <<< 1 ||| x.toNat >>> 63) = .ok d ∧ GFv f64 d (sg (f64.sign x) * (1 / 2 ^ it)) := by
  rw [sign_bit]
  generalize f64.sign x = t
  have key : ∀ (d : D) (q : ℚ), f64.mag d < f64.infRep → f64.val d = q → GFv f64 d q := fun d q h1 h2 => GFv.const h1 h2
  unfold Pio2.rd
  interval_cases it <;> cases t
  · exact ⟨_, rfl, (key _ 1 (by decide +kernel) (by decide +kernel)).cast (by simp [sg])⟩
  · exact ⟨_, rfl, (key _ (-1) (by decide +kernel) (by decide +kernel)).cast (by simp [sg])⟩
  · exact ⟨_, rfl, (key _ (1 / 2) (by decide +kernel) (by decide +kernel)).cast (by simp [sg])⟩
  · exact ⟨_, rfl, (key _ (-1 / 2) (by decide +kernel) (by decide +kernel)).cast (by simp [sg]; norm_num)⟩
  · exact ⟨_, rfl, (key _ (1 / 4) (by decide +kernel) (by decide +kernel)).cast (by simp [sg]; norm_num)⟩
  · exact ⟨_, rfl, (key _ (-1 / 4) (by decide +kernel) (by decide +kernel)).cast (by simp [sg]; norm_num)⟩

variable (N : FPU f64) {fma : D → D → D → M D}

/-- multiplying by `2^-it` is exact -/
theorem scale_exact {r s : D} {R : ℝ} (t : Bool) {it : ℕ} (h : it < 3) (gr : GFv f64 r R) (gs : GFv f64 s (sg t * (1 / 2 ^ it))) (h1 : 1 / 4 ≤ R) (h2 : R ≤ 2) :
    GFv f64 (N.mul r s) (R * (sg t * (1 / 2 ^ it))) := by
  have hm := f64.mag_lt r
  have hR := gr.abs_eq
  rw [abs_of_pos (by linarith)] at hR
  have m1 : 1021 * 2 ^ 52 ≤ f64.mag r := by
    have e := Exp2.magVal_at (F := f64) (e := 1021) (f := 0) (by norm_num) (by decide)
    rw [s64, b64] at e
    refine f64.magValR_le_iff.mp ?_
    rw [← hR]
    rw [Nat.add_zero] at e
    rw [e]
    norm_num at h1 ⊢
    linarith
  have hi : f64.infRep = 0x7ff0000000000000 := by decide +kernel
  have m2 : f64.mag r < f64.infRep := gr.fin
  have g := (of_bits t (m := f64.mag r - it * 2 ^ 52) (by omega)).1
  have e : f64.magVal ℝ (f64.mag r - it * 2 ^ 52) = f64.magVal ℝ (f64.mag r) * 2 ^ (-(it : ℤ)) :=
    Log.magVal_shift (F := f64) (by rw [s64]; omega) (by rw [s64]; omega) (by rw [s64]; omega)
  rw [e, ← hR] at g
  have g := g.cast (w := R * (sg t * (1 / 2 ^ it))) (by rw [zpow_neg, zpow_natCast]; ring)
  have hr := gr.mulR N gs
  have hb : |R * (sg t * (1 / 2 ^ it))| ≤ 2 := by
    rw [abs_mul, abs_mul, abs_sg, abs_of_pos (by linarith : 0 < R), one_mul, abs_of_pos (by positivity)]
    have : (1 : ℝ) / 2 ^ it ≤ 1 := by rw [div_le_one (by positivity)]; exact one_le_pow₀ (by norm_num)
    nlinarith
  refine ⟨hr.fin100 big64 (hb.trans (by norm_num)), ?_⟩
  have := hr.exactR f64 (by rw [← g.val]; exact f64.rp_val _) (hb.trans (by
    rw [b64]
    calc (2 : ℝ) = 2 ^ (1 : ℤ) := by norm_num
      _ ≤ _ := zpow_le_zpow_right₀ (by norm_num) (by norm_num)))
  exact this

set_option maxHeartbeats 1000000 in
/-- `cbrt` of a finite number that is not zero -/
theorem cbrt_spec (hH : FmaOk fma) {x : D} (hf : f64.IsFin x) (h0 : f64.mag x ≠ 0) :
    ∃ r, cbrt N fma x = .ok r ∧ f64.IsFin r ∧ f64.sign r = f64.sign x ∧
      ∀ y : ℝ, y ^ 3 = f64.valK ℝ x → ∃ v, |v - y| ≤ 1 / 2 ^ 100 * |y| ∧ f64.Near v r := by
  obtain ⟨mant, e, E, hdec, hmant, hE, E1, E2, hval⟩ := decode_spec hf h0
  obtain ⟨t, ht⟩ : ∃ t, f64.sign x = t := ⟨_, rfl⟩
  have hXs := fv_bits (GFv.self hf)
  rw [ht] at hXs
  obtain ⟨it, hit⟩ : ∃ it, E % 3 = it := ⟨_, rfl⟩
  obtain ⟨et, het⟩ : ∃ et, E / 3 = et := ⟨_, rfl⟩
  have hEE : E = 3 * et + it := by omega
  have hit3 : it < 3 := by omega
  have hi : f64.infRep = 0x7ff0000000000000 := by decide +kernel
  -- the significand
  obtain ⟨Z, hZ⟩ : ∃ Z : ℝ, Z = (2 ^ 52 + mant) / 2 ^ 52 := ⟨_, rfl⟩
  have hmR : (mant : ℝ) ≤ 4503599627370495 := by
    exact_mod_cast (show mant ≤ 4503599627370495 by omega)
  have hmR0 : (0 : ℝ) ≤ mant := Nat.cast_nonneg _
  have Z1 : 1 ≤ Z := by rw [hZ, le_div_iff₀ (by norm_num)]; linarith
  have Z2 : Z ≤ 2 - 1 / 2 ^ 52 := by rw [hZ, div_le_iff₀ (by norm_num)]; norm_num; linarith
  obtain ⟨c0, c00, hc0⟩ := cube_root Z (by linarith)
  have c01 : 1 ≤ c0 := by rw [← cube_le (by norm_num) c00, hc0]; norm_num; exact Z1
  obtain ⟨κ, κ0, hκ⟩ := cube_root (2 ^ it) (by positivity)
  have κ1 : 1 ≤ κ := by rw [← cube_le (by norm_num) κ0, hκ]; rw [one_pow]; exact one_le_pow₀ (by norm_num)
  -- the root
  obtain ⟨c, hc⟩ : ∃ c, c = sg t * (c0 * κ) := ⟨_, rfl⟩
  have hs3 : sg t ^ 3 = sg t := by rw [pow_succ, pow_two, sg_sq, one_mul]
  have hc3 : c ^ 3 = sg t * (Z * 2 ^ it) := by rw [hc, mul_pow, mul_pow, hc0, hκ, hs3]
  have hca : |c| = c0 * κ := by rw [hc, abs_mul, abs_sg, one_mul, abs_of_nonneg (by positivity)]
  have hca3 : |c| ^ 3 = Z * 2 ^ it := by rw [hca, mul_pow, hc0, hκ]
  have hp4 : (2 : ℝ) ^ it ≤ 4 := by
    calc (2 : ℝ) ^ it ≤ 2 ^ 2 := pow_le_pow_right₀ (by norm_num) (by omega)
      _ = 4 := by norm_num
  have hp1 : (1 : ℝ) ≤ 2 ^ it := one_le_pow₀ (by norm_num)
  have c1 : 1 ≤ |c| := by rw [hca]; nlinarith
  have c2 : |c| ≤ 2 - 1 / 2 ^ 54 := by
    rw [← cube_le (abs_nonneg _) (by norm_num), hca3]
    calc Z * 2 ^ it ≤ (2 - 1 / 2 ^ 52) * 4 := mul_le_mul Z2 hp4 (by positivity) (by norm_num)
      _ ≤ _ := by norm_num
  -- the parts
  have hcv1 : mant ||| 0x3ff <<< 52 = 1023 * 2 ^ 52 + mant := by
    rw [Nat.or_comm, ← Nat.shiftLeft_add_eq_or_of_lt hmant, Nat.shiftLeft_eq]
  have hu5 : u64C (1023 * 2 ^ 52 + mant + it <<< 52) = .ok ((1023 + it) * 2 ^ 52 + mant) := by
    unfold u64C
    rw [Nat.shiftLeft_eq, show 1023 * 2 ^ 52 + mant + it * 2 ^ 52 = (1023 + it) * 2 ^ 52 + mant by omega, if_pos (by omega)]
  have hzz := or_sign x (m := (1023 + it) * 2 ^ 52 + mant) (by omega)
  rw [ht] at hzz
  have gzz := (of_bits t (m := (1023 + it) * 2 ^ 52 + mant) (by omega)).1
  have gzz : GFv f64 (BitVec.ofNat f64.w (sb t + ((1023 + it) * 2 ^ 52 + mant))) (c ^ 3) := by
    refine gzz.cast ?_
    have := Exp2.magVal_at (F := f64) (e := 1023 + it) (f := mant) (by omega) (by rw [s64]; exact hmant)
    rw [s64, b64] at this
    rw [this, hc3, hZ, show ((1023 + it : ℕ) : ℤ) - (1023 : ℕ) - (52 : ℕ) = (it : ℤ) + (-52 : ℤ) by push_cast; ring, zpow_add₀ (by norm_num), zpow_natCast, p52R']
    ring
  have gz : GFv f64 (BitVec.ofNat f64.w (1023 * 2 ^ 52 + mant)) (c0 ^ 3) := by
    have := (of_bits false (m := 1023 * 2 ^ 52 + mant) (by omega)).1
    rw [show sb false = 0 from rfl, Nat.zero_add] at this
    refine this.cast ?_
    have := Exp2.magVal_at (F := f64) (e := 1023) (f := mant) (by omega) (by rw [s64]; exact hmant)
    rw [s64, b64] at this
    rw [this, hc0, hZ]
    norm_num [sg]
    ring
  obtain ⟨d, hd, hd63, S, gS, S1, S2, eS⟩ := escale it hit3 t κ0 hκ
  have hisc := or_sign x hd63
  rw [ht] at hisc
  obtain ⟨s, hs, gs⟩ := rscale it hit3 x
  rw [ht] at gs
  have hc3' : c0 ^ 3 ≤ 2 := by rw [hc0]; norm_num at Z2 ⊢; linarith
  have hc31 : 1 ≤ c0 ^ 3 := by rw [hc0]; exact Z1
  have aS : |sg t * S| = S := by rw [abs_mul, abs_sg, one_mul, abs_of_pos (by linarith)]
  obtain ⟨T, gT, eT⟩ := start_spec N c01 gz hc31 hc3' gS (by rw [aS]; exact S2) (by rw [aS]; exact S1)
  obtain ⟨R, gR, eR⟩ := r_spec N gz hc31
  -- the start is near
  have hT : |T - c| ≤ 2.2e-12 * |c| := by
    rw [aS] at eT
    have h1 : |c0 * (sg t * S) - c| ≤ c0 * (1 / 2 ^ 52) := by
      rw [hc, show c0 * (sg t * S) - sg t * (c0 * κ) = sg t * (c0 * (S - κ)) by ring, abs_mul, abs_sg, one_mul, abs_mul, abs_of_nonneg c00]
      exact mul_le_mul_of_nonneg_left eS c00
    have h2 := abs_sub_le T (c0 * (sg t * S)) c
    have h3 : c0 * S ≤ c0 * κ + c0 * (1 / 2 ^ 52) := by
      rw [← mul_add]; exact mul_le_mul_of_nonneg_left (by linarith [(abs_le.mp eS).2]) c00
    have h4 : c0 ≤ c0 * κ := le_mul_of_one_le_right c00 κ1
    rw [hca]
    norm_num at eT h1 h3 ⊢
    linarith
  -- the reciprocal
  have hR : 1 / 4 ≤ R ∧ R ≤ 2 ∧ |R * c0 ^ 3 - 1| ≤ 1 / 2 ^ 52 := by
    rw [hc0] at eR ⊢
    have hz : 0 < Z := by linarith
    have h1 : 1 / Z ≤ 1 := by rw [div_le_one hz]; exact Z1
    have h2 : 1 / 2 ≤ 1 / Z := one_div_le_one_div_of_le hz (by norm_num at Z2 ⊢; linarith)
    have h3 := abs_le.mp eR
    refine ⟨by norm_num at h3 h1 h2 ⊢; linarith [h3.1], by norm_num at h3 h1 h2 ⊢; linarith [h3.2], ?_⟩
    have h4 : R * Z - 1 = (R - 1 / Z) * Z := by field_simp
    rw [h4, abs_mul, abs_of_pos hz]
    calc |R - 1 / Z| * Z ≤ (1 / 2 ^ 53 * (1 / Z) + 1 / 2 ^ 150) * Z := mul_le_mul_of_nonneg_right eR hz.le
      _ = 1 / 2 ^ 53 + 1 / 2 ^ 150 * Z := by field_simp
      _ ≤ _ := by norm_num at Z2 ⊢; linarith
  obtain ⟨R1, R2, hR⟩ := hR
  have grr := scale_exact N t hit3 gR gs R1 R2
  obtain ⟨y1, dy, Y1, δ, href, g1, gd, hδ, a1, a2, a3, v, b1, b2, b3, b4⟩ := refine_spec N hH gzz grr gT c1 c2 (by
    have : R * (sg t * (1 / 2 ^ it)) * c ^ 3 - 1 = R * c0 ^ 3 - 1 := by
      rw [hc3, hc0]
      have : R * (sg t * (1 / 2 ^ it)) * (sg t * (Z * 2 ^ it)) = (sg t * sg t) * (R * Z) * (1 / 2 ^ it * 2 ^ it) := by ring
      rw [this, sg_sq, one_div_mul_cancel (by positivity)]
      ring
    rw [this]; exact hR) hT
  have hone : |c| = 1 → |Y1| = 1 := by
    intro h
    have hg : Mul2 (-52) c := by
      have hcc : c = sg t := by rw [hc, ← hca, h, mul_one]
      rw [hcc]
      have := one_fv
      have h1 : Mul2 (-52) (1 : ℝ) := mul2_one one_fv (by simp)
      rcases sg_unit t with h | h <;> rw [h]
      · exact h1
      · exact h1.neg
    have h1 := b4 c hg (by rw [h]; norm_num)
    have h2 := abs_sub_le Y1 v c
    rw [abs_sub_comm Y1 v] at h2
    rw [h] at b1
    have h3 : Y1 - c = 0 := mul2_zero ((mul2_one g1 a1).sub hg) (by norm_num at b1 ⊢; linarith)
    rw [sub_eq_zero.mp h3, h]
  obtain ⟨r, hfin, gr, hsr⟩ := finish_spec N (et := et) (by omega) (by omega) gzz g1 gd hδ a1 a2 hone
  have hsign : f64.sign y1 = t := by
    have h1 := fv_bits g1
    have hmp := f64.magVal_nonneg ℝ (f64.mag y1)
    generalize f64.magVal ℝ (f64.mag y1) = w at h1 hmp
    have hcp : 0 < c0 * κ := by rw [← hca]; linarith
    rw [h1, hc] at a3
    cases hq : f64.sign y1 <;> cases t <;> rw [hq] at a3 <;> first | rfl | (simp [sg] at a3; nlinarith)
  refine ⟨r, ?_, gr.fin, by rw [hsr, hsign, ht], ?_⟩
  · unfold cbrt
    dsimp only
    rw [hdec, okb]
    dsimp only
    rw [hE, hit, hcv1, hu5, okb, hd, okb, hs, okb, hzz, hisc, href, okb, het]
    exact hfin
  · intro y hy
    obtain ⟨k, hk⟩ : ∃ k : ℤ, (et : ℤ) - 1365 = k := ⟨_, rfl⟩
    rw [hk] at gr
    have kp : (0 : ℝ) < 2 ^ k := by positivity
    have hyc : y = c * 2 ^ k := by
      refine (Odd.strictMono_pow (by decide : Odd 3)).injective ?_
      show y ^ 3 = (c * 2 ^ k) ^ 3
      have hk3 : ((2 : ℝ) ^ k) ^ 3 = 2 ^ (k * (3 : ℕ)) := by rw [← zpow_natCast, ← zpow_mul]
      rw [hy, hXs, hval, mul_pow, hc3, hZ, hk3, show (E : ℤ) - 4147 = (it : ℤ) + (k * (3 : ℕ)) + (-52) by push_cast; omega,
        zpow_add₀ (by norm_num), zpow_add₀ (by norm_num), zpow_natCast, p52R']
      ring
    refine ⟨v * 2 ^ k, ?_, gr.fin, ?_⟩
    · rw [hyc, ← sub_mul, abs_mul, abs_mul, abs_of_pos kp, ← mul_assoc]
      exact mul_le_mul_of_nonneg_right b1 kp.le
    · intro b hb
      obtain ⟨g, hg⟩ : ∃ g, g = f64.valK ℝ b / 2 ^ k := ⟨_, rfl⟩
      have hbg : f64.valK ℝ b = g * 2 ^ k := by rw [hg, div_mul_cancel₀ _ kp.ne']
      rw [gr.val, hbg, ← sub_mul, ← sub_mul, abs_mul, abs_mul]
      refine mul_le_mul_of_nonneg_right ?_ (abs_nonneg _)
      -- a unit with the sign of `v`
      have hv0 : v ≠ 0 := by intro h; rw [h, abs_zero] at b2; linarith
      obtain ⟨σ, hσ, ev⟩ := unit_sign hv0
      have h1σ : Mul2 (-52) σ := by
        have h1 : Mul2 (-52) (1 : ℝ) := mul2_one one_fv (by simp)
        rcases hσ with h | h <;> rw [h]
        · exact h1
        · exact h1.neg
      have habs : ∀ w : ℝ, |v - σ * w| = |(|v|) - w| := by
        intro w
        nth_rw 1 [ev]
        rw [← mul_sub, abs_mul, abs_unit hσ, one_mul]
      have hrev : |(|v|) - (|g|)| ≤ |v - g| := abs_abs_sub_abs_le v g
      by_cases g1' : |g| < 1
      · have h1 := b4 σ h1σ (by rw [abs_unit hσ]; norm_num)
        have h2 := habs 1
        rw [mul_one] at h2
        rw [h2, abs_of_nonneg (show 0 ≤ |v| - 1 by linarith)] at h1
        have h3 := (abs_le.mp hrev).2
        have h4 := le_abs_self ((|v|) - |g|)
        linarith
      · rw [not_lt] at g1'
        by_cases g2' : 2 < |g|
        · have h1 := b4 (σ * 2) (by have := h1σ.add h1σ; rwa [← mul_two] at this) (by rw [abs_mul, abs_unit hσ]; norm_num)
          rw [habs 2, abs_of_nonpos (show |v| - 2 ≤ 0 by linarith)] at h1
          have h4 := neg_abs_le ((|v|) - |g|)
          linarith
        · rw [not_lt] at g2'
          refine b4 g ?_ g2'
          have hgb : 2 ^ k ≤ |f64.valK ℝ b| := by
            rw [hbg, abs_mul, abs_of_pos kp]; exact le_mul_of_one_le_left kp.le g1'
          obtain ⟨q, hq⟩ := f64.mul2_ge hgb
          refine ⟨q, ?_⟩
          rw [hg, hq, s64, div_eq_iff kp.ne', mul_assoc, ← zpow_add₀ (by norm_num : (2 : ℝ) ≠ 0), show k - ((52 : ℕ) : ℤ) = -52 + k by push_cast; ring]
end CbrtD
end Verif
