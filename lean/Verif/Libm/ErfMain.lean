import Verif.Libm.ErfD
/-! # The branches of `erf` and `erfc` -/
namespace Verif
open Fmt
namespace Erf

variable (N : FPU f64)

/-! ## operations on constants -/

theorem subC {a b : D} (h : ¬ f64.IsNaN (FPU.softF64.sub a b)) : N.sub a b = FPU.softF64.sub a b := by
  rcases AddSpec.unique f64 (N.sub_spec a b) (FPU.softF64.sub_spec a b) with e | e
  · exact e
  · exact absurd e.2 h
theorem addC {a b : D} (h : ¬ f64.IsNaN (FPU.softF64.add a b)) : N.add a b = FPU.softF64.add a b := by
  rcases AddSpec.unique f64 (N.add_spec a b) (FPU.softF64.add_spec a b) with e | e
  · exact e
  · exact absurd e.2 h
theorem mulC {a b : D} (h : ¬ f64.IsNaN (FPU.softF64.mul a b)) : N.mul a b = FPU.softF64.mul a b := by
  rcases MulSpec.unique f64 (N.mul_spec a b) (FPU.softF64.mul_spec a b) with e | e
  · exact e
  · exact absurd e.2 h

theorem one_tiny : N.sub one tiny = one := (subC N (by unfold IsNaN; decide +kernel)).trans (by decide +kernel)
theorem two_tiny : N.sub two tiny = two := (subC N (by unfold IsNaN; decide +kernel)).trans (by decide +kernel)
theorem tiny_tiny : N.mul tiny tiny = 0#f64.w := (mulC N (by unfold IsNaN; decide +kernel)).trans (by decide +kernel)
theorem two_sgn (s : Bool) : N.mul two (sgn (if s then 1 else 0)) = if s then two else 0#f64.w := by
  cases s
  · exact (mulC N (by unfold IsNaN; decide +kernel)).trans (by decide +kernel)
  · exact (mulC N (by unfold IsNaN; decide +kernel)).trans (by decide +kernel)
theorem one_sgn (s : Bool) : N.sub one (if s then two else 0#f64.w) = if s then f64.neg one else one := by
  cases s
  · exact (subC N (by unfold IsNaN; decide +kernel)).trans (by decide +kernel)
  · exact (subC N (by unfold IsNaN; decide +kernel)).trans (by decide +kernel)

/-- `1 / ±∞` -/
theorem div_inf {x : D} (h : f64.IsInf x) : N.div one x = if f64.sign x then f64.neg 0#f64.w else 0#f64.w := by
  have hn : ¬ f64.IsNaN x := by unfold IsNaN IsInf at *; omega
  have := (N.div_spec one x).2.2 (by unfold IsNaN; decide +kernel) hn (Or.inr (Or.inl h))
  rw [if_neg (by
    rintro (⟨a, -⟩ | ⟨a, -⟩)
    · revert a; unfold IsInf; decide +kernel
    · revert a; unfold IsZero; decide +kernel), if_pos h] at this
  obtain ⟨a, b⟩ := this
  unfold IsZero at b
  rw [show f64.sign one = false by decide +kernel, Bool.false_xor] at a
  refine f64.ext_sign_mag ?_ ?_
  · rw [a]; cases f64.sign x <;> decide +kernel
  · rw [b]; cases f64.sign x <;> decide +kernel

theorem add_sgn (s : Bool) : N.add (if s then f64.neg one else one) (if s then f64.neg 0#f64.w else 0#f64.w) = if s then f64.neg one else one := by
  cases s
  · exact (addC N (by unfold IsNaN; decide +kernel)).trans (by decide +kernel)
  · exact (addC N (by unfold IsNaN; decide +kernel)).trans (by decide +kernel)
theorem add_two (s : Bool) : N.add (if s then two else 0#f64.w) (if s then f64.neg 0#f64.w else 0#f64.w) = if s then two else 0#f64.w := by
  cases s
  · exact (addC N (by unfold IsNaN; decide +kernel)).trans (by decide +kernel)
  · exact (addC N (by unfold IsNaN; decide +kernel)).trans (by decide +kernel)

/-! ## signs -/

theorem mul_neg_r {a b : D} (ha : f64.IsFin a) (hb : f64.IsFin b) : N.mul a (f64.neg b) = f64.neg (N.mul a b) := by
  obtain ⟨⟨h1, -⟩, h2⟩ := (N.mul_spec a b).1 ha hb
  obtain ⟨⟨h3, -⟩, h4⟩ := (N.mul_spec a (f64.neg b)).1 ha (f64.isFin_neg.mpr hb)
  rw [f64.val_neg, mul_neg, abs_neg] at h3
  refine f64.ext_sign_mag ?_ ?_
  · rw [h4, f64.sign_neg, f64.sign_neg, h2]
    cases f64.sign a <;> cases f64.sign b <;> rfl
  · rw [f64.mag_neg, IsRNE.unique f64 h1 h3]

theorem add_neg {a b : D} (ha : f64.IsFin a) (hb : f64.IsFin b) (h : f64.val a + f64.val b ≠ 0 ∨ f64.sign a = f64.sign b) :
    N.add (f64.neg a) (f64.neg b) = f64.neg (N.add a b) := by
  obtain ⟨⟨h1, h1'⟩, h2⟩ := (N.add_spec a b).1 ha hb
  obtain ⟨⟨h3, h3'⟩, h4⟩ := (N.add_spec (f64.neg a) (f64.neg b)).1 (f64.isFin_neg.mpr ha) (f64.isFin_neg.mpr hb)
  rw [f64.val_neg, f64.val_neg, ← neg_add] at h3 h3' h4
  rw [abs_neg] at h3
  refine f64.ext_sign_mag ?_ (by rw [f64.mag_neg, IsRNE.unique f64 h1 h3])
  rw [f64.sign_neg]
  by_cases h0 : f64.val a + f64.val b = 0
  · rcases h with h | h
    · exact absurd h0 h
    · rw [h4 (by rw [h0]; simp), h2 h0, f64.sign_neg, f64.sign_neg, h]
      cases f64.sign b <;> rfl
  · have p := h1' h0
    have q := h3' (neg_ne_zero.mpr h0)
    rw [neg_lt_zero] at q
    have : (f64.sign (N.add (f64.neg a) (f64.neg b)) = true) ↔ ¬ (f64.sign (N.add a b) = true) := by
      rw [p, q, not_lt]
      exact ⟨le_of_lt, fun h => lt_of_le_of_ne h (Ne.symm h0)⟩
    cases e1 : f64.sign (N.add a b) <;> cases e2 : f64.sign (N.add (f64.neg a) (f64.neg b)) <;> simp_all

theorem hi_neg (x : D) : Pio2.hi (f64.neg x) = Pio2.hi x := by rw [Pio2.hi_eq, Pio2.hi_eq, f64.mag_neg]
theorem fabs_neg (x : D) : f64.fabs (f64.neg x) = f64.fabs x := by
  obtain ⟨a, b⟩ := f64.fabs_facts x
  obtain ⟨c, d⟩ := f64.fabs_facts (f64.neg x)
  exact f64.ext_sign_mag (c.trans a.symm) (by rw [d, b, f64.mag_neg])
theorem erfc2_neg (ix : ℕ) (x : D) : erfc2 N ix (f64.neg x) = erfc2 N ix x := by
  unfold erfc2 erfc1
  rw [fabs_neg]
theorem sq_neg {x : D} (hx : f64.IsFin x) : N.mul (f64.neg x) (f64.neg x) = N.mul x x := by
  rw [mul_neg_r N (f64.isFin_neg.mpr hx) hx, (Power.mul_neg_left N hx hx).1, f64.neg_neg]

theorem infRep64 : f64.infRep = 0x7ff00000 * 2 ^ 32 := by decide +kernel
theorem hi_fin {x : D} : Pio2.hi x < 0x7ff00000 ↔ f64.IsFin x := by rw [lt_w]; unfold IsFin; rw [infRep64]

/-! ## the middle -/

theorem sm_spec {x : D} {X : ℝ} (hx : GFv f64 x X) (h0 : 1 / 2 ^ 56 ≤ |X|) (h1 : |X| ≤ 27 / 32) :
    ∃ T S, GFv f64 (N.mul x (rat N PP QQ (N.mul x x))) T ∧ |T| ≤ |X| / 2 ∧ f64.IsFin (rat N PP QQ (N.mul x x)) ∧
      GFv f64 (N.add x (N.mul x (rat N PP QQ (N.mul x x)))) S ∧ |S| ≤ 19 / 20 ∧ (0 ≤ X → 0 ≤ S) ∧ (X ≤ 0 → S ≤ 0) := by
  have hb := abs_le.mp h1
  obtain ⟨Y, gy, y0, y1⟩ := rg_sound N csS_fin ratS_chk hx (by norm_num; linarith [hb.1]) (by norm_num; exact hb.2)
  obtain ⟨S, gs, s0, s1⟩ := rg_sound N csS_fin smE_chk hx (by norm_num; linarith [hb.1]) (by norm_num; exact hb.2)
  rw [ratS_flt] at gy
  rw [smE_flt] at gs
  norm_num at y0 y1 s0 s1
  have hY : |Y| ≤ 1 / 5 := abs_le.mpr ⟨by linarith, by linarith⟩
  have hXY : |X * Y| ≤ |X| / 5 := by
    rw [abs_mul]
    have := mul_le_mul_of_nonneg_left hY (abs_nonneg X)
    linarith
  obtain ⟨T, gt, et⟩ := GFv.rnd big (hx.mulR N gy) (by refine (hXY.trans (by linarith : _ ≤ (1 : ℝ))).trans (by norm_num))
  rw [show f64.s + 1 = 53 from rfl] at et
  have hT : |T| ≤ |X| / 2 := by
    have a1 : |T| ≤ |T - X * Y| + |X * Y| := by have := abs_add_le (T - X * Y) (X * Y); rwa [sub_add_cancel] at this
    have a2 : (1 : ℝ) / 2 ^ 53 * |X * Y| ≤ 1 / 2 ^ 53 * (|X| / 5) := mul_le_mul_of_nonneg_left hXY (by norm_num)
    norm_num at a2 et h0
    linarith
  have hr := hx.addR N gt
  have ht := abs_le.mp hT
  refine ⟨T, S, gt, hT, gy.fin, gs, abs_le.mpr ⟨by linarith, by linarith⟩, fun h => ?_, fun h => ?_⟩
  · rw [abs_of_nonneg h] at ht
    exact nonneg_of hr gs (by linarith [ht.1])
  · rw [abs_of_nonpos h] at ht
    have := hr.le_of f64 f64.rp_zero (by rw [abs_zero]; positivity) (by linarith [ht.2])
    rwa [gs.val] at this

theorem eight_v : GFv f64 eight 8 := (GFv.const (q := 8) (by decide +kernel) (by decide +kernel)).cast (by norm_num)
theorem eighth_v : GFv f64 eighth (1 / 8) := (GFv.const (q := 1 / 8) (by decide +kernel) (by decide +kernel)).cast (by norm_num)
theorem efx_v : ∃ E : ℝ, GFv f64 EFX8 E ∧ 0 ≤ E ∧ E ≤ 2 :=
  ⟨_, GFv.const (by decide +kernel) rfl, by exact_mod_cast (by decide +kernel : (0 : ℚ) ≤ f64.val EFX8), by exact_mod_cast (by decide +kernel : f64.val EFX8 ≤ 2)⟩

theorem tiny_spec {x : D} {X : ℝ} (hx : GFv f64 x X) (h1 : |X| ≤ 1 / 100) :
    ∃ A B C R, GFv f64 (N.mul eight x) A ∧ GFv f64 (N.mul EFX8 x) B ∧ GFv f64 (N.add (N.mul eight x) (N.mul EFX8 x)) C ∧
      GFv f64 (N.mul eighth (N.add (N.mul eight x) (N.mul EFX8 x))) R ∧ |R| ≤ 1 ∧ (0 ≤ X → 0 ≤ R) ∧ (X ≤ 0 → R ≤ 0) := by
  obtain ⟨E, gE, e0, e1⟩ := efx_v
  have hb := abs_le.mp h1
  have ra := eight_v.mulR N hx
  have rb := gE.mulR N hx
  obtain ⟨A, ga, ea⟩ := rd ra (by rw [abs_le]; constructor <;> linarith [hb.1, hb.2])
  have hE : |E * X| ≤ 1 / 50 := by
    rw [abs_mul, abs_of_nonneg e0]
    calc E * |X| ≤ 2 * (1 / 100) := mul_le_mul e1 h1 (abs_nonneg _) (by norm_num)
      _ = 1 / 50 := by norm_num
  obtain ⟨B, gb, eb⟩ := rd rb (by linarith)
  rw [abs_le] at ea eb hE
  have rc := ga.addR N gb
  obtain ⟨C, gc, ec⟩ := rd rc (by rw [abs_le]; constructor <;> linarith [hb.1, hb.2, ea.1, ea.2, eb.1, eb.2, hE.1, hE.2])
  rw [abs_le] at ec
  have rr := eighth_v.mulR N gc
  obtain ⟨R, gr, er⟩ := rd rr (by rw [abs_le]; constructor <;> linarith [hb.1, hb.2, ea.1, ea.2, eb.1, eb.2, hE.1, hE.2, ec.1, ec.2])
  rw [abs_le] at er
  have np : ∀ {v u : ℝ} {r : D}, f64.Rounds v r → GFv f64 r u → v ≤ 0 → u ≤ 0 := fun h g hv => by
    have := h.le_of f64 f64.rp_zero (by rw [abs_zero]; positivity) hv
    rwa [g.val] at this
  refine ⟨A, B, C, R, ga, gb, gc, gr, ?_, fun h => ?_, fun h => ?_⟩
  · rw [abs_le]; constructor <;> linarith [hb.1, hb.2, ea.1, ea.2, eb.1, eb.2, hE.1, hE.2, ec.1, ec.2, er.1, er.2]
  · have a := nonneg_of ra ga (by linarith)
    have b := nonneg_of rb gb (mul_nonneg e0 h)
    have c := nonneg_of rc gc (by linarith)
    exact nonneg_of rr gr (by linarith)
  · have a := np ra ga (by linarith)
    have b := np rb gb (mul_nonpos_of_nonneg_of_nonpos e0 h)
    have c := np rc gc (by linarith)
    exact np rr gr (by linarith)

/-! ## `erf` -/

theorem erf_eq (x : D) : erf N x =
    if Pio2.hi x ≥ 0x7ff00000 then .ok (N.add (N.sub one (N.mul two (sgn (if f64.sign x then 1 else 0)))) (N.div one x))
    else if Pio2.hi x < 0x3feb0000 then
      if Pio2.hi x < 0x3e300000 then .ok (N.mul eighth (N.add (N.mul eight x) (N.mul EFX8 x)))
      else .ok (N.add x (N.mul x (rat N PP QQ (N.mul x x))))
    else (do
      let y ← if Pio2.hi x < 0x40180000 then do pure (N.sub one (← erfc2 N (Pio2.hi x) x)) else pure (N.sub one tiny)
      pure (if f64.sign x then f64.neg y else y)) := by
  unfold erf
  dsimp only
  rw [sign64, show (x.toNat >>> 32) &&& 0x7fffffff = Pio2.hi x from rfl]
  cases f64.sign x <;> rfl

/-- `erf` of a finite number, and of its negation -/
theorem erf_spec {x : D} {X : ℝ} (hx : GFv f64 x X) :
    ∃ r R, erf N x = .ok r ∧ erf N (f64.neg x) = .ok (f64.neg r) ∧ GFv f64 r R ∧ |R| ≤ 1 ∧ (0 ≤ X → 0 ≤ R) ∧ (X ≤ 0 → R ≤ 0) ∧
      (6 ≤ |X| → r = if f64.sign x then f64.neg one else one) := by
  have hf := hi_fin.mpr hx.fin
  have six : Pio2.hi x < 0x40180000 ↔ |X| < (6 : ℚ) := hi_lt hx 0x40180000 (by decide +kernel)
  have c27 : Pio2.hi x < 0x3feb0000 ↔ |X| < (27 / 32 : ℚ) := hi_lt hx 0x3feb0000 (by decide +kernel)
  have c28 : Pio2.hi x < 0x3e300000 ↔ |X| < (1 / 2 ^ 28 : ℚ) := hi_lt hx 0x3e300000 (by decide +kernel)
  push_cast at six c27 c28
  rw [erf_eq, erf_eq, hi_neg, if_neg (not_le.mpr hf), if_neg (not_le.mpr hf), sq_neg N hx.fin, erfc2_neg]
  by_cases h1 : Pio2.hi x < 0x3feb0000
  · rw [if_pos h1, if_pos h1]
    rw [c27] at h1
    by_cases h2 : Pio2.hi x < 0x3e300000
    · rw [if_pos h2, if_pos h2]
      rw [c28] at h2
      obtain ⟨A, B, C, R, ga, gb, gc, gr, b1, b2, b3⟩ := tiny_spec N hx (h2.le.trans (by norm_num))
      refine ⟨_, R, rfl, ?_, gr, b1, b2, b3, fun h => by norm_num at h1; linarith⟩
      obtain ⟨E, gE, -, -⟩ := efx_v
      rw [mul_neg_r N eight_v.fin hx.fin, mul_neg_r N gE.fin hx.fin, add_neg N ga.fin gb.fin (Or.inr ?_), mul_neg_r N eighth_v.fin gc.fin]
      rw [((N.mul_spec eight x).1 eight_v.fin hx.fin).2, ((N.mul_spec EFX8 x).1 gE.fin hx.fin).2,
        show f64.sign eight = false by decide +kernel, show f64.sign EFX8 = false by decide +kernel]
    · rw [if_neg h2, if_neg h2]
      rw [c28, not_lt] at h2
      have hX : 0 < |X| := lt_of_lt_of_le (by norm_num) h2
      obtain ⟨T, S, gt, ht, fy, gs, b1, b2, b3⟩ := sm_spec N hx (le_trans (by norm_num) h2) h1.le
      refine ⟨_, S, rfl, ?_, gs, b1.trans (by norm_num), b2, b3, fun h => by norm_num at h1; linarith⟩
      rw [(Power.mul_neg_left N hx.fin fy).1, add_neg N hx.fin gt.fin (Or.inl ?_)]
      intro h
      have h' : X + T = 0 := by rw [← hx.valQ, ← gt.valQ]; exact_mod_cast h
      rw [show T = -X by linarith, abs_neg] at ht
      linarith
  · rw [if_neg h1, if_neg h1, f64.sign_neg]
    dsimp only
    rw [c27, not_lt] at h1
    have key : ∀ {y : D} {Y : ℝ}, GFv f64 y Y → 0 ≤ Y → Y ≤ 1 → ∃ R, GFv f64 (if f64.sign x then f64.neg y else y) R ∧ |R| ≤ 1 ∧ (0 ≤ X → 0 ≤ R) ∧ (X ≤ 0 → R ≤ 0) ∧
        (if (!f64.sign x) then f64.neg y else y) = f64.neg (if f64.sign x then f64.neg y else y) := by
      intro y Y gy y0 y1
      cases hs : f64.sign x
      · have := hx.nonneg hs
        refine ⟨Y, by simpa using gy, by rw [abs_of_nonneg y0]; exact y1, fun _ => y0, fun h => ?_, by simp⟩
        rw [abs_of_nonneg this] at h1
        norm_num at h1
        linarith
      · have := hx.nonpos hs
        refine ⟨-Y, by simpa using gy.neg, by rw [abs_neg, abs_of_nonneg y0]; exact y1, fun h => ?_, fun _ => by linarith, by simp [f64.neg_neg]⟩
        rw [abs_of_nonpos this] at h1
        norm_num at h1
        linarith
    by_cases h3 : Pio2.hi x < 0x40180000
    · rw [if_pos h3, if_pos h3]
      rw [six] at h3
      obtain ⟨r, R, e, gr, r0, r1⟩ := erfc2_spec N hx h1 (by linarith)
      rw [e]
      have hr := one_v.subR N gr
      obtain ⟨Y, gy, -⟩ := rd hr (by rw [abs_le]; constructor <;> linarith)
      obtain ⟨R', g', b1, b2, b3, b4⟩ := key gy (nonneg_of hr gy (by linarith)) (le_one_of hr gy (by linarith))
      exact ⟨_, R', rfl, congrArg Except.ok b4, g', b1, b2, b3, fun h => by linarith⟩
    · rw [if_neg h3, if_neg h3, one_tiny]
      obtain ⟨R', g', b1, b2, b3, b4⟩ := key one_v (by norm_num) le_rfl
      exact ⟨_, R', rfl, congrArg Except.ok b4, g', b1, b2, b3, fun _ => rfl⟩

theorem erf_inf {x : D} (h : f64.IsInf x) : erf N x = .ok (if f64.sign x then f64.neg one else one) := by
  have hf : ¬ Pio2.hi x < 0x7ff00000 := by rw [hi_fin]; unfold IsFin IsInf at *; omega
  rw [erf_eq, if_pos (not_lt.mp hf), two_sgn, one_sgn, div_inf N h, add_sgn]

theorem erf_nan {x : D} (h : f64.IsNaN x) : ∃ r, erf N x = .ok r ∧ f64.IsNaN r := by
  have hf : ¬ Pio2.hi x < 0x7ff00000 := by rw [hi_fin]; unfold IsFin IsNaN at *; omega
  rw [erf_eq, if_pos (not_lt.mp hf)]
  exact ⟨_, rfl, (N.add_spec _ _).2.1 (Or.inr ((N.div_spec _ _).2.1 (Or.inr h)))⟩

/-! ## `erfc` -/

theorem erfc_eq (x : D) : erfc N x =
    if Pio2.hi x ≥ 0x7ff00000 then .ok (N.add (N.mul two (sgn (if f64.sign x then 1 else 0))) (N.div one x))
    else if Pio2.hi x < 0x3feb0000 then
      if Pio2.hi x < 0x3c700000 then .ok (N.sub one x)
      else if f64.sign x = true ∨ Pio2.hi x < 0x3fd00000 then .ok (N.sub one (N.add x (N.mul x (rat N PP QQ (N.mul x x)))))
      else .ok (N.sub half (N.add (N.sub x half) (N.mul x (rat N PP QQ (N.mul x x)))))
    else if Pio2.hi x < 0x403c0000 then
      if f64.sign x then do pure (N.sub two (← erfc2 N (Pio2.hi x) x)) else erfc2 N (Pio2.hi x) x
    else if f64.sign x then .ok (N.sub two tiny) else .ok (N.mul tiny tiny) := by
  unfold erfc
  dsimp only
  rw [sign64, show (x.toNat >>> 32) &&& 0x7fffffff = Pio2.hi x from rfl]
  cases f64.sign x <;> simp <;> rfl

theorem ge_one_of {v u : ℝ} {r : D} (h : f64.Rounds v r) (g : GFv f64 r u) (hv : 1 ≤ v) : 1 ≤ u := by
  have := h.ge_of f64 (g := 2 ^ (0 : ℤ)) (f64.rp_pow (by decide +kernel)) (by rw [abs_of_pos (by positivity), bias64]; exact zpow_le_zpow_right₀ (by norm_num) (by norm_num)) (by simpa using hv)
  rw [g.val] at this
  simpa using this

/-- `erfc` of a finite number -/
theorem erfc_spec {x : D} {X : ℝ} (hx : GFv f64 x X) :
    ∃ r R, erfc N x = .ok r ∧ GFv f64 r R ∧ 0 ≤ R ∧ R ≤ 2 ∧ (0 ≤ X → R ≤ 1) ∧ (X ≤ 0 → 1 ≤ R) ∧
      (28 ≤ |X| → r = if f64.sign x then two else 0#f64.w) := by
  have hf := hi_fin.mpr hx.fin
  have c27 : Pio2.hi x < 0x3feb0000 ↔ |X| < (27 / 32 : ℚ) := hi_lt hx 0x3feb0000 (by decide +kernel)
  have c56 : Pio2.hi x < 0x3c700000 ↔ |X| < (1 / 2 ^ 56 : ℚ) := hi_lt hx 0x3c700000 (by decide +kernel)
  have c4 : Pio2.hi x < 0x3fd00000 ↔ |X| < (1 / 4 : ℚ) := hi_lt hx 0x3fd00000 (by decide +kernel)
  have c28 : Pio2.hi x < 0x403c0000 ↔ |X| < (28 : ℚ) := hi_lt hx 0x403c0000 (by decide +kernel)
  push_cast at c27 c56 c4 c28
  rw [erfc_eq, if_neg (by omega)]
  -- one minus a number of the sign of `x`
  have key : ∀ {s : D} {S : ℝ}, GFv f64 s S → |S| ≤ 19 / 20 → (0 ≤ X → 0 ≤ S) → (X ≤ 0 → S ≤ 0) →
      ∃ R, GFv f64 (N.sub one s) R ∧ 0 ≤ R ∧ R ≤ 2 ∧ (0 ≤ X → R ≤ 1) ∧ (X ≤ 0 → 1 ≤ R) := by
    intro s S gs s1 s2 s3
    have hr := one_v.subR N gs
    rw [abs_le] at s1
    obtain ⟨R, gr, -⟩ := rd hr (by rw [abs_le]; constructor <;> linarith [s1.1, s1.2])
    exact ⟨R, gr, nonneg_of hr gr (by linarith [s1.2]), le_two_of hr gr (by linarith [s1.1]),
      fun h => le_one_of hr gr (by linarith [s2 h]), fun h => ge_one_of hr gr (by linarith [s3 h])⟩
  by_cases h1 : Pio2.hi x < 0x3feb0000
  · rw [if_pos h1]
    rw [c27] at h1
    have no : ¬ 28 ≤ |X| := by norm_num at h1; linarith
    by_cases h2 : Pio2.hi x < 0x3c700000
    · rw [if_pos h2]
      rw [c56] at h2
      obtain ⟨R, gr, b⟩ := key hx (h2.le.trans (by norm_num)) id id
      exact ⟨_, R, rfl, gr, b.1, b.2.1, b.2.2.1, b.2.2.2, fun h => absurd h no⟩
    · rw [if_neg h2]
      rw [c56, not_lt] at h2
      obtain ⟨T, S, gt, ht, fy, gs, b1, b2, b3⟩ := sm_spec N hx h2 h1.le
      by_cases h3 : f64.sign x = true ∨ Pio2.hi x < 0x3fd00000
      · rw [if_pos h3]
        obtain ⟨R, gr, b⟩ := key gs b1 b2 b3
        exact ⟨_, R, rfl, gr, b.1, b.2.1, b.2.2.1, b.2.2.2, fun h => absurd h no⟩
      · rw [if_neg h3]
        rw [not_or, c4, not_lt] at h3
        have hX := hx.nonneg (by simpa using h3.1)
        have h4 := h3.2
        rw [abs_of_nonneg hX] at h4 h1
        obtain ⟨v, g, a, b⟩ := rg_sound N csH_fin hfE_chk hx (by push_cast; exact h4) (by push_cast; exact h1.le)
        rw [hfE_flt] at g
        norm_num at a b h4
        exact ⟨_, v, rfl, g, by linarith, by linarith, fun _ => by linarith, fun h => by linarith, fun h => absurd h no⟩
  · rw [if_neg h1]
    rw [c27, not_lt] at h1
    norm_num at h1
    have hp : f64.sign x = false → ¬ X ≤ 0 := fun hs h => by
      rw [abs_of_nonneg (hx.nonneg hs)] at h1; linarith
    have hn : f64.sign x = true → ¬ 0 ≤ X := fun hs h => by
      rw [abs_of_nonpos (hx.nonpos hs)] at h1; linarith
    by_cases h2 : Pio2.hi x < 0x403c0000
    · rw [if_pos h2]
      rw [c28] at h2
      obtain ⟨r, R, e, gr, r0, r1⟩ := erfc2_spec N hx h1 (by linarith)
      rw [e]
      cases hs : f64.sign x
      · exact ⟨r, R, rfl, gr, r0, by linarith, fun _ => by linarith, fun h => absurd h (hp hs), fun h => by linarith⟩
      · have hr := two_v.subR N gr
        obtain ⟨Y, gy, -⟩ := rd hr (by rw [abs_le]; constructor <;> linarith)
        exact ⟨_, Y, rfl, gy, nonneg_of hr gy (by linarith), le_two_of hr gy (by linarith), fun h => absurd h (hn hs),
          fun _ => ge_one_of hr gy (by linarith), fun h => by linarith⟩
    · rw [if_neg h2, two_tiny, tiny_tiny]
      cases hs : f64.sign x
      · exact ⟨_, 0, rfl, (GFv.const (q := 0) (by decide +kernel) (by decide +kernel)).cast (by norm_num), le_rfl, by norm_num, fun _ => by norm_num,
          fun h => absurd h (hp hs), fun _ => rfl⟩
      · exact ⟨_, 2, rfl, two_v, by norm_num, le_rfl, fun h => absurd h (hn hs), fun _ => by norm_num, fun _ => rfl⟩

theorem erfc_inf {x : D} (h : f64.IsInf x) : erfc N x = .ok (if f64.sign x then two else 0#f64.w) := by
  have hf : ¬ Pio2.hi x < 0x7ff00000 := by rw [hi_fin]; unfold IsFin IsInf at *; omega
  rw [erfc_eq, if_pos (not_lt.mp hf), two_sgn, div_inf N h, add_two]

theorem erfc_nan {x : D} (h : f64.IsNaN x) : ∃ r, erfc N x = .ok r ∧ f64.IsNaN r := by
  have hf : ¬ Pio2.hi x < 0x7ff00000 := by rw [hi_fin]; unfold IsFin IsNaN at *; omega
  rw [erfc_eq, if_pos (not_lt.mp hf)]
  exact ⟨_, rfl, (N.add_spec _ _).2.1 (Or.inr ((N.div_spec _ _).2.1 (Or.inr h)))⟩

end Erf
end Verif
