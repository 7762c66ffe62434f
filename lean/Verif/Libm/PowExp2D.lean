import Verif.Libm.PowExpD
import Verif.Libm.PowWord
import Verif.Libm.ExpScale
/-! The exponential of `pow`, on the words. -/
namespace Verif
open Fmt
namespace Power
namespace Dbl
open Pio2
local notation "W" => BitVec f64.w

theorem setHi_eq (x : W) (w : ℕ) : setHi x w = BitVec.ofNat f64.w (w * 2 ^ 32 + x.toNat % 2 ^ 32) := by
  unfold setHi
  rw [show (0xffffffff : ℕ) = 2 ^ 32 - 1 from rfl, Nat.and_two_pow_sub_one_eq_mod, ← Nat.shiftLeft_add_eq_or_of_lt (Nat.mod_lt _ (by norm_num)), Nat.shiftLeft_eq]

theorem eps64 : ((eps : ℚ) : ℝ) = 1 / 2 ^ 53 := epsR

/-- the integer `n` and the rest -/
theorem split (N : FPU f64) {p_l p_h z : W} {PL PH Q : ℝ} (gl : GFv f64 p_l PL) (gh : GFv f64 p_h PH) (hQ : Q = PL + PH) (hz : z = N.add p_l p_h) (hPL : |PL| ≤ 0.8) (h9 : |Q| ≤ 1200)
    {j : ℤ} (hj : j = i32of (z.toNat >>> 32)) :
    ∃ (n : ℤ) (p : W) (P : ℝ), (if andI j 0x7fffffff > 0x3fe00000 then do
      let sh ← sarI 0x00100000 (andI j 0x7fffffff / 2 ^ 20 - 0x3ff + 1)
      let n ← i32C (j + sh)
      let k := andI n 0x7fffffff / 2 ^ 20 - 0x3ff
      let m ← sarI 0x000fffff k
      let t := setHi 0 (u32of (andI n (-m - 1)))
      let n ← sarI (andI n 0x000fffff + 0x00100000) (20 - k)
      pure (if j < 0 then -n else n, N.sub p_h t)
    else pure (0, p_h) : M (ℤ × W)) = .ok (n, p) ∧ |n| ≤ 1300 ∧ GFv f64 p P ∧ |P - (PH - n)| ≤ 1.4 * (eps : ℚ) ∧ |Q - n| ≤ 0.501 := by
  have eps0 : (0 : ℝ) < (eps : ℚ) := by rw [eps64]; positivity
  obtain ⟨Z, gz, eZ⟩ := GFv.rnd big (gl.addR N gh) (by rw [← hQ]; refine h9.trans ?_; norm_num)
  rw [← hQ] at eZ
  rw [← hz] at gz
  have eZ : |Z - Q| ≤ 0.000001 := by
    refine eZ.trans ?_
    have : (1 : ℝ) / 2 ^ (f64.s + 1) * |Q| ≤ 1 / 2 ^ (f64.s + 1) * 1200 := mul_le_mul_of_nonneg_left h9 (by positivity)
    refine (add_le_add_left this _).trans ?_
    rw [show f64.s + 1 = 53 from rfl]; norm_num
  have hZ : |Z| ≤ 1201 := by have := abs_sub_abs_le_abs_sub Z Q; linarith
  have hfin : f64.mag z < 2 ^ 63 := by have := gz.fin; unfold Fmt.IsFin at this; rw [show f64.infRep = 0x7ff0000000000000 by decide +kernel] at this; omega
  obtain ⟨m, hm⟩ : ∃ m, m = f64.mag z / 2 ^ 32 := ⟨_, rfl⟩
  have hm31 : m < 2 ^ 31 := by omega
  have hj' : j = (m : ℤ) - wb (f64.sign z) := by
    rw [hj, hi64, ← hm]; exact i32of_word _ hm31
  have a1 : andI j 0x7fffffff = m := by
    rw [show (0x7fffffff : ℤ) = 2 ^ 31 - 1 by norm_num, andI_low _ (by norm_num), hj', mod31 _ hm31]
  by_cases hc : andI j 0x7fffffff > 0x3fe00000
  · rw [if_pos hc]
    rw [a1] at hc
    obtain ⟨E, hE⟩ : ∃ E, E = f64.mag z / 2 ^ 52 := ⟨_, rfl⟩
    obtain ⟨g, hg⟩ : ∃ g, g = f64.mag z % 2 ^ 52 := ⟨_, rfl⟩
    have hEg : f64.mag z = E * 2 ^ f64.s + g := by rw [show f64.s = 52 from rfl, hE, hg]; omega
    have hup : f64.mag z < 1033 * 2 ^ f64.s + 2 ^ 50 := by
      rw [← f64.magValR_lt_iff, Exp2.magVal_at (by norm_num) (by rw [show f64.s = 52 from rfl]; norm_num), ← gz.abs_eq, show f64.s = 52 from rfl, show f64.bias = 1023 from rfl]
      refine lt_of_le_of_lt hZ ?_
      norm_num
    rw [show f64.s = 52 from rfl] at hup
    have hE1 : 1022 ≤ E := by omega
    have hE2 : E ≤ 1033 := by omega
    obtain ⟨n, w, E', F, sh, n1, m1, q1, q2, q3, q4, q5, q6, q7, q8, q9, q10, q11, q12, q13⟩ :=
      words (m := m) (g := g) (E := E) (f64.sign z) hE1 hE2 (by omega) (by omega) (by omega) hj'
    rw [q1, ok_bind, q2, ok_bind]
    try dsimp only
    rw [q3, ok_bind]
    try dsimp only
    rw [q4, q5, ok_bind]
    have hzv := gz.eq_sign
    have hav := gz.abs_eq
    rw [hEg, Exp2.magVal_at (by omega) (by rw [show f64.s = 52 from rfl]; omega), show f64.s = 52 from rfl, show f64.bias = 1023 from rfl] at hav hzv
    have ez : (2 : ℝ) ^ ((E : ℤ) - (1023 : ℕ) - (52 : ℕ)) = 1 / 2 ^ (1075 - E) := by
      rw [one_div, ← zpow_natCast, ← zpow_neg]; congr 1; push_cast [show E ≤ 1075 by omega]; omega
    rw [ez] at hav hzv
    have et : GFv f64 (setHi 0 ((if f64.sign z = true then 2 ^ 31 else 0) + w)) ((if f64.sign z = true then -1 else 1) * (n : ℝ)) := by
      have hw : E' * 2 ^ f64.s + F * 2 ^ 32 < f64.infRep := by rw [show f64.infRep = 0x7ff0000000000000 by decide +kernel, show f64.s = 52 from rfl]; omega
      obtain ⟨g1, -⟩ := CbrtD.of_bits (f64.sign z) hw
      rw [Exp2.magVal_at (by omega) (by rw [show f64.s = 52 from rfl]; omega), show f64.s = 52 from rfl, show f64.bias = 1023 from rfl] at g1
      have e1 : CbrtD.sb (f64.sign z) + (E' * 2 ^ 52 + F * 2 ^ 32) = ((if f64.sign z = true then 2 ^ 31 else 0) + w) * 2 ^ 32 := by
        unfold CbrtD.sb; rw [q6]; split <;> omega
      rw [setHi_eq]
      rw [show (0 : W).toNat % 2 ^ 32 = 0 from rfl, add_zero, ← e1]
      have e2 : (2 ^ 52 + ((F * 2 ^ 32 : ℕ) : ℝ)) * 2 ^ ((E' : ℤ) - (1023 : ℕ) - (52 : ℕ)) = n := by
        have h : (2 : ℝ) ^ 20 + F = n * 2 ^ (1043 - E') := by exact_mod_cast q10
        push_cast
        rw [show (2 : ℝ) ^ 52 + F * 4294967296 = (2 ^ 20 + F) * 2 ^ 32 by ring, h]
        have : (2 : ℝ) ^ ((E' : ℤ) - 1023 - 52) = 1 / (2 ^ (1043 - E') * 2 ^ 32) := by
          rw [one_div, ← pow_add, ← zpow_natCast, ← zpow_neg]; congr 1; push_cast [show E' ≤ 1043 by omega]; omega
        rw [this]
        field_simp
      rw [e2] at g1
      unfold CbrtD.sg at g1
      exact g1
    have hn : ((if j < 0 then -(n : ℤ) else n : ℤ) : ℝ) = (if f64.sign z = true then -1 else 1) * (n : ℝ) := by
      have : j < 0 ↔ f64.sign z = true := by
        rw [hj']; unfold wb; cases f64.sign z
        · simp
        · simp; omega
      by_cases hs : f64.sign z = true
      · rw [if_pos (this.mpr hs), if_pos hs]; push_cast; ring
      · rw [if_neg (fun h => hs (this.mp h)), if_neg hs]; push_cast; ring
    have hZn : |Z - (if f64.sign z = true then -1 else 1) * (n : ℝ)| ≤ 0.50098 := by
      rw [hzv, ← mul_sub, abs_mul, show |(if f64.sign z = true then (-1 : ℝ) else 1)| = 1 by split <;> simp, one_mul]
      have r1 : (n : ℝ) * 2 ^ (1075 - E) ≤ 2 ^ 52 + g + 2 ^ (1074 - E) := by exact_mod_cast q12
      have r2 : (2 : ℝ) ^ 52 + g ≤ n * 2 ^ (1075 - E) + 2 ^ (1074 - E) + 2 ^ 32 := by exact_mod_cast q13
      have hp : (0 : ℝ) < 2 ^ (1074 - E) := by positivity
      have e3 : (2 : ℝ) ^ (1075 - E) = 2 * 2 ^ (1074 - E) := by rw [← pow_succ']; congr 1; omega
      have e4 : (2 : ℝ) ^ 32 ≤ 0.00196 * 2 ^ (1074 - E) := by
        have : (2 : ℝ) ^ 41 ≤ 2 ^ (1074 - E) := pow_le_pow_right₀ (by norm_num) (by omega)
        norm_num at this ⊢; linarith
      have e5 : (2 ^ 52 + (g : ℝ)) * (1 / 2 ^ (1075 - E)) - n = (2 ^ 52 + g - n * 2 ^ (1075 - E)) / (2 * 2 ^ (1074 - E)) := by
        rw [e3]; field_simp
      rw [e5, abs_div, abs_of_pos (show (0 : ℝ) < 2 * 2 ^ (1074 - E) by positivity), div_le_iff₀ (by positivity)]
      rw [abs_le]
      constructor <;> linarith
    have hQn : |Q - ((if j < 0 then -(n : ℤ) else n : ℤ) : ℝ)| ≤ 0.501 := by
      rw [hn]
      have := abs_sub_le Q Z ((if f64.sign z = true then -1 else 1) * (n : ℝ))
      rw [abs_sub_comm Q Z] at this
      linarith
    have hP : |PH - ((if j < 0 then -(n : ℤ) else n : ℤ) : ℝ)| ≤ 1.301 := by
      have := abs_sub (Q - ((if j < 0 then -(n : ℤ) else n : ℤ) : ℝ)) PL
      rw [show Q - ((if j < 0 then -(n : ℤ) else n : ℤ) : ℝ) - PL = PH - ((if j < 0 then -(n : ℤ) else n : ℤ) : ℝ) by rw [hQ]; ring] at this
      linarith
    rw [← hn] at et
    obtain ⟨P, gP, eP⟩ := GFv.rnd big (gh.subR N et) (by refine hP.trans ?_; norm_num)
    refine ⟨_, _, P, rfl, ?_, gP, ?_, hQn⟩
    · split <;> simp <;> omega
    · refine eP.trans ?_
      rw [show f64.s + 1 = 53 from rfl, eps64]
      have : (1 : ℝ) / 2 ^ 53 * |PH - ((if j < 0 then -(n : ℤ) else n : ℤ) : ℝ)| ≤ 1 / 2 ^ 53 * 1.301 := mul_le_mul_of_nonneg_left hP (by positivity)
      refine (add_le_add_left this _).trans ?_
      norm_num
  · rw [if_neg hc]
    rw [a1] at hc
    refine ⟨0, p_h, PH, rfl, by norm_num, gh, by rw [Int.cast_zero, sub_zero, sub_self, abs_zero]; positivity, ?_⟩
    have hup : f64.mag z < 1022 * 2 ^ f64.s + 2 ^ 32 := by rw [show f64.s = 52 from rfl]; omega
    rw [← f64.magValR_lt_iff, Exp2.magVal_at (by norm_num) (by rw [show f64.s = 52 from rfl]; norm_num), ← gz.abs_eq, show f64.s = 52 from rfl, show f64.bias = 1023 from rfl] at hup
    norm_num at hup eZ ⊢
    have := abs_sub_abs_le_abs_sub Q Z
    rw [abs_sub_comm] at this
    linarith

theorem sal_ok {n : ℤ} (h : |n| ≤ 1300) : salI n 20 = .ok (n * 2 ^ 20) := by
  unfold salI
  rw [abs_le] at h
  rw [if_pos (by norm_num), i32W_eq (by rw [show ((20 : ℤ).toNat) = 20 from rfl]; omega)]; rfl

/-- the last step: `2^n` times a number next to 1 -/
theorem last (N : FPU f64) {z : W} {Y r : ℝ} {n : ℤ} (hn : |n| ≤ 1300) (gz : GFv f64 z Y) (hY0 : 0.6 ≤ Y) (hY1 : Y ≤ 1.9) (hrel : |Y - Real.exp r| ≤ 8 * (eps : ℚ) * Real.exp r)
    (hmax : Real.exp (r + n * Real.log 2) * (1 + 8 * (eps : ℚ)) < 2 ^ (1024 : ℤ)) :
    ∃ R, (do
      let n' ← salI n 20
      let j ← i32C (i32of (z.toNat >>> 32) + n')
      if j / 2 ^ 20 ≤ 0 then f64.scalbn N z n else pure (setHi z (u32of j)) : M W) = .ok R ∧ f64.IsFin R ∧ f64.sign R = false ∧
      |f64.valK ℝ R - Real.exp (r + n * Real.log 2)| ≤ 8 * (eps : ℚ) * Real.exp (r + n * Real.log 2) + 2 ^ (-1075 : ℤ) := by
  have hs := gz.sign_of_pos (by linarith)
  have hav := gz.abs_eq
  rw [abs_of_pos (by linarith)] at hav
  have h1 : 1022 * 2 ^ f64.s + 0 ≤ f64.mag z := by
    rw [← f64.magValR_le_iff, Exp2.magVal_at (by norm_num) (by rw [show f64.s = 52 from rfl]; norm_num), ← hav, show f64.s = 52 from rfl, show f64.bias = 1023 from rfl]
    norm_num at *; linarith
  have h2 : f64.mag z < 1024 * 2 ^ f64.s + 0 := by
    rw [← f64.magValR_lt_iff, Exp2.magVal_at (by norm_num) (by rw [show f64.s = 52 from rfl]; norm_num), ← hav, show f64.s = 52 from rfl, show f64.bias = 1023 from rfl]
    norm_num at *; linarith
  rw [show f64.s = 52 from rfl] at h1 h2
  have hn' := hn
  rw [abs_le] at hn'
  obtain ⟨M, hM⟩ : ∃ M, M = f64.mag z / 2 ^ 32 := ⟨_, rfl⟩
  have hw : i32of (z.toNat >>> 32) = M := by
    rw [hi64, ← hM, i32of_word _ (by omega), hs]; simp [wb]
  rw [sal_ok hn, ok_bind, hw]
  have hn4 : n ≤ 1024 := by
    have hp : (0 : ℝ) < 2 ^ n := by positivity
    rw [Exp.exp_add_log] at hmax
    rw [abs_le] at hrel
    have h3 : Y * 2 ^ n ≤ Real.exp r * (1 + 8 * (eps : ℚ)) * 2 ^ n := mul_le_mul_of_nonneg_right (by linarith [hrel.2]) hp.le
    have h4 : 1 / 2 * 2 ^ n ≤ Y * 2 ^ n := mul_le_mul_of_nonneg_right (by linarith) hp.le
    have h5 : (2 : ℝ) ^ (n - 1) < 2 ^ (1024 : ℤ) := by
      rw [zpow_sub₀ (by norm_num), zpow_one]; linarith
    have := (zpow_lt_zpow_iff_right₀ (by norm_num : (1 : ℝ) < 2)).mp h5
    omega
  have hi : i32C ((M : ℤ) + n * 2 ^ 20) = .ok ((M : ℤ) + n * 2 ^ 20) := by unfold i32C; rw [if_pos (by omega)]
  rw [hi, ok_bind]
  split
  · obtain ⟨R, e1, e2, e3, e4⟩ := Exp.scaled big (by simp [Props.Std]) N (k := n) gz (by linarith) (by omega) (by omega) hrel (by
      rw [show ((f64.bias : ℕ) : ℤ) + 1 = 1024 from rfl]; exact hmax)
    refine ⟨R, e1, e2, e3.trans hs, ?_⟩
    rw [show -((f64.bias : ℕ) : ℤ) - (f64.s : ℕ) = -1075 from rfl] at e4
    exact e4
  · rename_i hc
    rw [not_le] at hc
    obtain ⟨M', hM'⟩ : ∃ M' : ℕ, (M' : ℤ) = (f64.mag z : ℤ) + n * 2 ^ 52 := ⟨((f64.mag z : ℤ) + n * 2 ^ 52).toNat, by omega⟩
    have e1 : u32of ((M : ℤ) + n * 2 ^ 20) * 2 ^ 32 + z.toNat % 2 ^ 32 = M' := by
      have hz : z.toNat = f64.mag z := by rw [CbrtD.bits_of, hs]; simp [CbrtD.sb]
      unfold u32of
      rw [hz]; omega
    have hv : f64.magVal ℝ M' = Y * 2 ^ n := by
      rw [hav]
      exact Log.magVal_shift (F := f64) (by rw [show f64.s = 52 from rfl]; omega) (by rw [show f64.s = 52 from rfl]; omega) (by rw [show f64.s = 52 from rfl]; exact hM')
    have hp : (0 : ℝ) < 2 ^ n := by positivity
    rw [Exp.exp_add_log] at hmax ⊢
    have hd : |Y * 2 ^ n - Real.exp r * 2 ^ n| ≤ 8 * (eps : ℚ) * (Real.exp r * 2 ^ n) := by
      rw [← sub_mul, abs_mul, abs_of_pos hp, ← mul_assoc]
      exact mul_le_mul_of_nonneg_right hrel hp.le
    have hfin : M' < f64.infRep := by
      rw [← f64.magValR_lt_iff, f64.magValR_infRep, hv, show ((f64.bias : ℕ) : ℤ) + 1 = 1024 from rfl]
      rw [abs_le] at hd
      refine lt_of_le_of_lt ?_ hmax
      linarith [hd.2]
    obtain ⟨g1, g2⟩ := CbrtD.of_bits false hfin
    rw [show CbrtD.sb false + M' = M' by simp [CbrtD.sb]] at g1 g2
    refine ⟨_, rfl, ?_⟩
    rw [setHi_eq, e1]
    refine ⟨g1.fin, g2, ?_⟩
    rw [g1.val, hv, show CbrtD.sg false = 1 by simp [CbrtD.sg], one_mul]
    exact hd.trans (le_add_of_nonneg_right (by positivity))

/-- the last step gives a result -/
theorem last_ok (N : FPU f64) {z : W} {Y : ℝ} {n : ℤ} (hn : |n| ≤ 1300) (hn4 : n ≤ 1024) (gz : GFv f64 z Y) (hY0 : 0.6 ≤ Y) (hY1 : Y ≤ 1.9) :
    ∃ R, (do
      let n' ← salI n 20
      let j ← i32C (i32of (z.toNat >>> 32) + n')
      if j / 2 ^ 20 ≤ 0 then f64.scalbn N z n else pure (setHi z (u32of j)) : M W) = .ok R := by
  have hs := gz.sign_of_pos (by linarith)
  have hav := gz.abs_eq
  rw [abs_of_pos (by linarith)] at hav
  have h2 : f64.mag z < 1024 * 2 ^ f64.s + 0 := by
    rw [← f64.magValR_lt_iff, Exp2.magVal_at (by norm_num) (by rw [show f64.s = 52 from rfl]; norm_num), ← hav, show f64.s = 52 from rfl, show f64.bias = 1023 from rfl]
    norm_num at *; linarith
  rw [show f64.s = 52 from rfl] at h2
  have hn' := hn
  rw [abs_le] at hn'
  obtain ⟨M, hM⟩ : ∃ M, M = f64.mag z / 2 ^ 32 := ⟨_, rfl⟩
  have hw : i32of (z.toNat >>> 32) = M := by
    rw [hi64, ← hM, i32of_word _ (by omega), hs]; simp [wb]
  rw [sal_ok hn, ok_bind, hw]
  have hi : i32C ((M : ℤ) + n * 2 ^ 20) = .ok ((M : ℤ) + n * 2 ^ 20) := by unfold i32C; rw [if_pos (by omega)]
  rw [hi, ok_bind]
  split
  · obtain ⟨R, e1, -⟩ := Props.C42_scalbn_finite (F := f64) (by simp [Props.Std]) N gz.fin n (by omega) (by omega)
    exact ⟨R, e1⟩
  · exact ⟨_, rfl⟩

/-- the exponential -/
theorem exp2D_spec (N : FPU f64) {p_l p_h : W} {PL PH Q : ℝ} (gl : GFv f64 p_l PL) (gh : GFv f64 p_h PH) (hQ : Q = PL + PH) (hPL : |PL| ≤ 0.8) (h9 : |Q| ≤ 1200)
    (h10 : Q ≤ 1024.2) :
    ∃ R, exp2D N p_l p_h (i32of ((N.add p_l p_h).toNat >>> 32)) = .ok R ∧ (Real.exp (Q * Real.log 2) * (1 + 8 * (eps : ℚ)) < 2 ^ (1024 : ℤ) → f64.IsFin R ∧ f64.sign R = false ∧
      |f64.valK ℝ R - Real.exp (Q * Real.log 2)| ≤ 8 * (eps : ℚ) * Real.exp (Q * Real.log 2) + 2 ^ (-1075 : ℤ)) := by
  have eps0 : (0 : ℝ) < (eps : ℚ) := by rw [eps64]; positivity
  have eps1 : ((eps : ℚ) : ℝ) ≤ 1 / 10000000 := by rw [eps64]; norm_num
  obtain ⟨n, p, P, e1, hn, gp, hp, hq⟩ := split N gl gh hQ rfl hPL h9 rfl
  have e0 : exp2D N p_l p_h (i32of ((N.add p_l p_h).toNat >>> 32)) = (if andI (i32of ((N.add p_l p_h).toNat >>> 32)) 0x7fffffff > 0x3fe00000 then do
      let sh ← sarI 0x00100000 (andI (i32of ((N.add p_l p_h).toNat >>> 32)) 0x7fffffff / 2 ^ 20 - 0x3ff + 1)
      let n ← i32C ((i32of ((N.add p_l p_h).toNat >>> 32)) + sh)
      let k := andI n 0x7fffffff / 2 ^ 20 - 0x3ff
      let m ← sarI 0x000fffff k
      let t := setHi 0 (u32of (andI n (-m - 1)))
      let n ← sarI (andI n 0x000fffff + 0x00100000) (20 - k)
      pure (if (i32of ((N.add p_l p_h).toNat >>> 32)) < 0 then -n else n, N.sub p_h t)
    else pure (0, p_h) : M (ℤ × W)) >>= fun x => (do
      let n' ← salI x.1 20
      let j ← i32C (i32of ((expMain N KD (Asin.clearLow (N.add p_l x.2)) p_l x.2).toNat >>> 32) + n')
      if j / 2 ^ 20 ≤ 0 then f64.scalbn N (expMain N KD (Asin.clearLow (N.add p_l x.2)) p_l x.2) x.1
      else pure (setHi (expMain N KD (Asin.clearLow (N.add p_l x.2)) p_l x.2) (u32of j)) : M W) := by
    unfold exp2D
    dsimp only
    by_cases hc : andI (i32of ((N.add p_l p_h).toNat >>> 32)) 0x7fffffff > 0x3fe00000
    · simp only [if_pos hc, bind_assoc]
    · simp only [if_neg hc]
  rw [e0, e1, ok_bind]
  dsimp only
  have d1 : |PL + P - (Q - n)| ≤ 1.4 * ((eps : ℚ) : ℝ) := by
    rw [show PL + P - (Q - n) = P - (PH - n) by rw [hQ]; ring]; exact hp
  have d2 : |PL + P| ≤ 0.5011 := by
    have := abs_sub_abs_le_abs_sub (PL + P) (Q - n)
    linarith
  obtain ⟨S, gS, eS⟩ := GFv.rnd big (gl.addR N gp) (by refine d2.trans ?_; norm_num)
  obtain ⟨T, gT, eT, -⟩ := clr gS
  have d3 : |S - (PL + P)| ≤ 0.00001 := by
    refine eS.trans ?_
    have : (1 : ℝ) / 2 ^ (f64.s + 1) * |PL + P| ≤ 1 / 2 ^ (f64.s + 1) * 0.5011 := mul_le_mul_of_nonneg_left d2 (by positivity)
    refine (add_le_add_left this _).trans ?_
    rw [show f64.s + 1 = 53 from rfl]; norm_num
  have d4 : |T - (PL + P)| ≤ 0.001 := by
    have a1 := abs_sub_le T S (PL + P)
    have a2 := abs_sub_abs_le_abs_sub S (PL + P)
    rw [abs_sub_comm T S] at a1
    have : (1 : ℝ) / 2 ^ 120 ≤ 0.00001 := by norm_num
    linarith
  obtain ⟨hf, hv⟩ := expMain_spec N gT gl gp rfl d2 d4 (by linarith)
  have hl : |Real.log 2| ≤ 0.69315 := by
    have h := Log2.ln2_near
    rw [abs_le] at *; norm_num at h ⊢; constructor <;> linarith only [h.1, h.2]
  have d5 : |(PL + P) * Real.log 2 - (Q - n) * Real.log 2| ≤ 0.98 * ((eps : ℚ) : ℝ) := by
    rw [← sub_mul]
    have := mulB d1 hl
    linarith
  have d6 := exp_move d5 (by linarith)
  have d7 : |(Q - n) * Real.log 2| ≤ 0.348 := by
    have := mulB hq hl
    norm_num at this ⊢; linarith
  have x0 := Real.add_one_le_exp ((Q - n) * Real.log 2)
  have x1 := Real.abs_exp_sub_one_sub_id_le (x := (Q - n) * Real.log 2) (by linarith)
  have x3 : ((Q - n) * Real.log 2) ^ 2 ≤ 0.122 := by
    rw [← sq_abs]; have := pow_le_pow_left₀ (abs_nonneg _) d7 2; norm_num at this ⊢; linarith only [this]
  obtain ⟨r, hr⟩ : ∃ r, r = (Q - n) * Real.log 2 := ⟨_, rfl⟩
  rw [← hr] at d5 d6 d7 x0 x1 x3
  have er : Q * Real.log 2 = r + n * Real.log 2 := by rw [hr]; ring
  rw [er]
  rw [abs_le] at d7 x1
  have b1 : 0.65 ≤ Real.exp r := by linarith
  have b2 : Real.exp r ≤ 1.5 := by linarith [x1.2, d7.2]
  have hrel : |f64.valK ℝ (expMain N KD (Asin.clearLow (N.add p_l p)) p_l p) - Real.exp r| ≤ 8 * ((eps : ℚ) : ℝ) * Real.exp r := by
    have a1 := abs_sub_le (f64.valK ℝ (expMain N KD (Asin.clearLow (N.add p_l p)) p_l p)) (Real.exp ((PL + P) * Real.log 2)) (Real.exp r)
    have a2 := abs_sub_abs_le_abs_sub (Real.exp ((PL + P) * Real.log 2)) (Real.exp r)
    rw [abs_of_pos (Real.exp_pos _), abs_of_pos (Real.exp_pos _)] at a2
    have p1 := mul_pos eps0 (Real.exp_pos r)
    have p2 := mul_le_mul_of_nonneg_right eps1 p1.le
    have p3 := mul_le_mul_of_nonneg_left (a2.trans d6) eps0.le
    linarith only [a1, hv, d6, p1, p2, p3]
  have hrel' := hrel
  rw [abs_le] at hrel'
  have hpe := mul_le_mul_of_nonneg_right eps1 (Real.exp_pos r).le
  have c1 : 0.6 ≤ f64.valK ℝ (expMain N KD (Asin.clearLow (N.add p_l p)) p_l p) := by linarith [hrel'.1]
  have c2 : f64.valK ℝ (expMain N KD (Asin.clearLow (N.add p_l p)) p_l p) ≤ 1.9 := by linarith [hrel'.2]
  by_cases hmax : Real.exp (r + n * Real.log 2) * (1 + 8 * (eps : ℚ)) < 2 ^ (1024 : ℤ)
  · obtain ⟨R, k1, k2⟩ := last N hn (GFv.self hf) c1 c2 hrel hmax
    exact ⟨R, k1, fun _ => k2⟩
  · have hn4 : n ≤ 1024 := by
      rw [abs_le] at hq
      have : (n : ℝ) < 1025 := by norm_num at hq h10 ⊢; linarith [hq.1]
      have : n < 1025 := by exact_mod_cast this
      omega
    obtain ⟨R, k1⟩ := last_ok N hn hn4 (GFv.self hf) c1 c2
    exact ⟨R, k1, fun h => absurd h hmax⟩
end Dbl
end Power
end Verif
