import Verif.Libm.PowSpecial

/-! `pow`, `powf` at a negative base and an integer exponent: up to the sign the result for the absolute value. -/
namespace Verif
open Fmt
namespace Power

/-- `a` succeeds with the negated result of `b` (a NaN for a NaN) -/
def NegOf (F : Fmt) (a b : M (BitVec F.w)) : Prop :=
  ∀ r', b = .ok r' → ∃ r, a = .ok r ∧ (F.IsNaN r' → F.IsNaN r) ∧ (¬ F.IsNaN r' → r = F.neg r')
/-- `a` succeeds with the result of `b` (a NaN for a NaN) -/
def SameAs (F : Fmt) (a b : M (BitVec F.w)) : Prop :=
  ∀ r', b = .ok r' → ∃ r, a = .ok r ∧ (F.IsNaN r' → F.IsNaN r) ∧ (¬ F.IsNaN r' → r = r')

section
variable {F : Fmt} (N : FPU F)

theorem mul_neg_left {a b : BitVec F.w} (ha : F.IsFin a) (hb : F.IsFin b) : N.mul (F.neg a) b = F.neg (N.mul a b) ∧ ¬ F.IsNaN (N.mul a b) := by
  obtain ⟨⟨h1, -⟩, h2⟩ := (N.mul_spec a b).1 ha hb
  obtain ⟨⟨h3, -⟩, h4⟩ := (N.mul_spec (F.neg a) b).1 (by unfold IsFin; rw [F.mag_neg]; exact ha) hb
  rw [F.val_neg, neg_mul, abs_neg] at h3
  refine ⟨F.ext_sign_mag ?_ ?_, not_lt.mpr h1.1⟩
  · rw [h4, F.sign_neg, F.sign_neg, h2]
    cases F.sign a <;> cases F.sign b <;> rfl
  · rw [F.mag_neg, IsRNE.unique F h1 h3]

theorem scaled_neg {c : K F} (hc : KOk c) {h : BitVec F.w} (hh : F.IsFin h) :
    N.mul (N.mul c.mone h) h = F.neg (N.mul (N.mul c.one h) h) ∧ ¬ F.IsNaN (N.mul (N.mul c.one h) h) := by
  have hn : ¬ F.IsNaN h := by unfold IsNaN IsFin at *; omega
  have h1 : N.mul c.one h = h := by rw [(mul_unit N hc.o2).2 hn, hc.o1]; rfl
  have h2 : N.mul c.mone h = F.neg h := by rw [(mul_unit N hc.m2).2 hn, hc.m1]; rfl
  rw [h1, h2]
  exact mul_neg_left N hh hh

theorem NegOf.ok {a b : BitVec F.w} (h : a = F.neg b) (hn : ¬ F.IsNaN b) : NegOf F (.ok a) (.ok b) := by
  intro r' hr
  injection hr with hr
  subst hr
  exact ⟨_, rfl, fun h => absurd h hn, fun _ => h⟩

theorem times_neg {c : K F} (hc : KOk c) (z : M (BitVec F.w)) : NegOf F (times N c.mone z) (times N c.one z) := by
  intro r' hr
  unfold times at *
  cases z with
  | error e => exact absurd hr (by intro h; cases h)
  | ok z =>
    rw [okb] at *
    injection hr with hr
    subst hr
    refine ⟨_, rfl, ?_⟩
    have h1 := mul_unit N (s := c.one) (z := z) hc.o2
    have h2 := mul_unit N (s := c.mone) (z := z) hc.m2
    rw [hc.o1] at h1
    rw [hc.m1] at h2
    by_cases hz : F.IsNaN z
    · exact ⟨fun _ => h2.1 hz, fun h => absurd (h1.1 hz) h⟩
    · rw [h1.2 hz, h2.2 hz]
      exact ⟨fun h => absurd h hz, fun _ => rfl⟩

variable {c : K F} (hc : KOk c) {yi : M Nat} {sq sq' : M (BitVec F.w)} {core : BitVec F.w → M (BitVec F.w)} {x y : BitVec F.w}

include hc in
theorem gen_neg (hyi : ∃ k, yi = .ok k ∧ IntKind F y k) (hyf : F.IsFin y) (h0 : F.mag y ≠ 0) (hs : F.sign x = true) (hxf : F.IsFin x) (hx0 : F.mag x ≠ 0)
    (hI : IsInteger F y) (hcore : OddInt F y → NegOf F (core c.mone) (core c.one)) :
    (OddInt F y → NegOf F (gen N c yi sq core x y) (gen N c yi sq' core (F.fabs x) y)) ∧
    (¬ OddInt F y → SameAs F (gen N c yi sq core x y) (gen N c yi sq' core (F.fabs x) y)) := by
  have hi := one_lt_inf (F := F)
  have ho := one_pos' (F := F)
  obtain ⟨f1, f2⟩ := F.fabs_facts x
  have hx : ¬ F.IsNaN x := by unfold IsNaN IsFin at *; omega
  have hy : ¬ F.IsNaN y := by unfold IsNaN IsFin at *; omega
  have hfx : ¬ F.IsNaN (F.fabs x) := by unfold IsNaN; rw [f2]; exact hx
  have hxn : x = F.neg (F.fabs x) := F.ext_sign_mag (by rw [F.sign_neg, f1, hs]; rfl) (by rw [F.mag_neg, f2])
  by_cases h1 : F.mag x = F.bias * 2 ^ F.s
  · obtain ⟨r, r1, -, r2⟩ := gen_xm1 N hc (sq := sq) (core := core) hyi hx hy h0 hyf hs h1
    have r2 := r2 hI
    have hon : ¬ F.IsNaN c.one := by unfold IsNaN; rw [hc.o2]; omega
    rw [r1, gen_x1 N hc f1 (by rw [f2, h1])]
    refine ⟨fun h => ?_, fun h => ?_⟩
    · rw [r2.2 h]
      exact NegOf.ok (F.ext_sign_mag (by rw [F.sign_neg, hc.m1, hc.o1]; rfl) (by rw [F.mag_neg, hc.m2, hc.o2])) hon
    · rw [r2.1 h]
      exact fun r' hr => ⟨r', hr, fun h => h, fun _ => rfl⟩
  obtain ⟨k, hk1, -, e⟩ := gen_rest N hc (sq := sq) (core := core) hyi hx hy h0 (fun h => h1 h.2)
  obtain ⟨k', -, hk2, e'⟩ := gen_rest N hc (sq := sq') (core := core) hyi hfx hy h0 (fun h => h1 (by rw [← f2]; exact h.2))
  have hk := hk1 hs
  have hk2 := hk2 f1
  rw [e, e']
  unfold rest
  rw [f1, f2, hs, hk2]
  rw [if_neg (ne_of_lt hyf), if_neg (ne_of_lt hyf)]
  by_cases c1 : F.mag y = F.bias * 2 ^ F.s
  · rw [if_pos c1, if_pos c1]
    refine ⟨fun _ => ?_, fun h => absurd (odd_of_one c1) h⟩
    cases F.sign y
    · exact NegOf.ok hxn hfx
    · simp only [if_true]
      have hof : F.IsFin c.one := by unfold IsFin; rw [hc.o2]; exact hi
      obtain ⟨⟨d1, -⟩, d2⟩ := (N.div_spec c.one x).1 hof hxf hx0
      obtain ⟨⟨d3, -⟩, d4⟩ := (N.div_spec c.one (F.fabs x)).1 hof (by unfold IsFin; rw [f2]; exact hxf) (by unfold IsZero; rw [f2]; exact hx0)
      rw [abs_div, F.absv, F.absv] at d1 d3
      rw [f2] at d3
      refine NegOf.ok (F.ext_sign_mag ?_ ?_) (not_lt.mpr d3.1)
      · rw [F.sign_neg, d2, d4, hs, f1]; cases F.sign c.one <;> rfl
      · rw [F.mag_neg, IsRNE.unique F d1 d3]
  rw [if_neg c1, if_neg c1]
  by_cases c2 : F.sign y = false ∧ F.mag y = (F.bias + 1) * 2 ^ F.s
  · rw [if_pos c2, if_pos c2]
    refine ⟨fun h => absurd h (not_odd_of_two c2.2 c2.1), fun _ r' hr => ?_⟩
    have : N.mul x x = N.mul (F.fabs x) (F.fabs x) := by
      obtain ⟨⟨d1, -⟩, d2⟩ := (N.mul_spec x x).1 hxf hxf
      have hff : F.IsFin (F.fabs x) := by unfold IsFin; rw [f2]; exact hxf
      obtain ⟨⟨d3, -⟩, d4⟩ := (N.mul_spec (F.fabs x) (F.fabs x)).1 hff hff
      rw [abs_mul, F.absv] at d1 d3
      rw [f2] at d3
      exact F.ext_sign_mag (by rw [d2, d4]; simp) (IsRNE.unique F d1 d3)
    rw [this]
    exact ⟨r', hr, fun h => h, fun _ => rfl⟩
  have n1 : ¬ (F.sign y = false ∧ F.mag y = (F.bias - 1) * 2 ^ F.s ∧ true = false) := fun h => absurd h.2.2 (by simp)
  have n2 : ¬ (F.sign y = false ∧ F.mag y = (F.bias - 1) * 2 ^ F.s ∧ false = false) := fun h => not_odd_of_half h.2.1 h.1 hI
  rw [if_neg c2, if_neg c2, if_neg n1, if_neg n2]
  have hsp : ¬ (F.mag x = F.infRep ∨ F.mag x = 0 ∨ F.mag x = F.bias * 2 ^ F.s) := by rintro (h | h | h); exacts [(ne_of_lt hxf) h, hx0 h, h1 h]
  have hk0 : ¬ (true = true ∧ k = 0) := fun h => (hk.zero_iff.mp h.2) hI
  have n3 : ¬ (false = true ∧ (0 : ℕ) = 0) := fun h => absurd h.1 (by simp)
  have n4 : ¬ (false = true ∧ (0 : ℕ) = 1) := fun h => absurd h.1 (by simp)
  rw [if_neg hsp, if_neg hsp, if_neg hk0, if_neg n3, if_neg n4]
  refine ⟨fun h => ?_, fun h => ?_⟩
  · rw [if_pos ⟨rfl, hk.odd_iff.mpr h⟩]
    exact hcore h
  · rw [if_neg (fun hk' => h (hk.odd_iff.mp hk'.2))]
    exact fun r' hr => ⟨r', hr, fun h => h, fun _ => rfl⟩

end

theorem finishD_neg (N : FPU f64) (y t1 t2 : BitVec f64.w) : NegOf f64 (finishD N KD.mone y t1 t2) (finishD N KD.one y t1 t2) := by
  have hH : NegOf f64 (.ok (huge N KD KD.mone)) (.ok (huge N KD KD.one)) :=
    NegOf.ok (scaled_neg N kd_ok (by unfold IsFin; decide +kernel)).1 (scaled_neg N kd_ok (by unfold IsFin; decide +kernel)).2
  have hT : NegOf f64 (.ok (tiny N KD KD.mone)) (.ok (tiny N KD KD.one)) :=
    NegOf.ok (scaled_neg N kd_ok (by unfold IsFin; decide +kernel)).1 (scaled_neg N kd_ok (by unfold IsFin; decide +kernel)).2
  have hE := fun z => times_neg N kd_ok z
  unfold finishD
  dsimp only
  generalize f64.gt _ _ = g1
  generalize f64.le _ _ = g2
  generalize i32of _ = j
  generalize exp2D N _ _ j = E
  generalize BitVec.toNat _ &&& _ = i
  cases nsubC (u32of j) 0xc090cc00 with
  | error e => split_ifs <;> first | exact hH | exact hT | exact hE _ | exact fun r' hr => absurd hr (by intro h; cases h)
  | ok d =>
    rw [okb, okb]
    split_ifs <;> first | exact hH | exact hT | exact hE _

theorem finishS_neg (N : FPU f32) (y t1 t2 : BitVec f32.w) : NegOf f32 (finishS N KS.mone y t1 t2) (finishS N KS.one y t1 t2) := by
  have hH : NegOf f32 (.ok (huge N KS KS.mone)) (.ok (huge N KS KS.one)) :=
    NegOf.ok (scaled_neg N ks_ok (by unfold IsFin; decide +kernel)).1 (scaled_neg N ks_ok (by unfold IsFin; decide +kernel)).2
  have hT : NegOf f32 (.ok (tiny N KS KS.mone)) (.ok (tiny N KS KS.one)) :=
    NegOf.ok (scaled_neg N ks_ok (by unfold IsFin; decide +kernel)).1 (scaled_neg N ks_ok (by unfold IsFin; decide +kernel)).2
  have hE := fun z => times_neg N ks_ok z
  unfold finishS
  dsimp only
  split_ifs
  · exact hH
  · exact hH
  · exact hE _
  · exact hT
  · exact hT
  · exact hE _

theorem coreD_neg (N : FPU f64) (ax y : BitVec f64.w) {ix hy iy : ℕ} (hiy : iy ≤ 0x43f00000) :
    NegOf f64 (coreD N KD.mone ax y ix hy iy) (coreD N KD.one ax y ix hy iy) := by
  have hH : NegOf f64 (.ok (huge N KD KD.mone)) (.ok (huge N KD KD.one)) :=
    NegOf.ok (scaled_neg N kd_ok (by unfold IsFin; decide +kernel)).1 (scaled_neg N kd_ok (by unfold IsFin; decide +kernel)).2
  have hT : NegOf f64 (.ok (tiny N KD KD.mone)) (.ok (tiny N KD KD.one)) :=
    NegOf.ok (scaled_neg N kd_ok (by unfold IsFin; decide +kernel)).1 (scaled_neg N kd_ok (by unfold IsFin; decide +kernel)).2
  unfold coreD
  by_cases h1 : iy > 0x41e00000
  · have g1 : ¬ (iy > 0x43f00000 ∧ ix ≤ 0x3fefffff) := fun h => absurd h.1 (by omega)
    have g2 : ¬ (iy > 0x43f00000 ∧ ix ≥ 0x3ff00000) := fun h => absurd h.1 (by omega)
    rw [if_pos h1, if_pos h1, if_neg g1, if_neg g1, if_neg g2, if_neg g2]
    split_ifs
    · exact hH
    · exact hT
    · exact hH
    · exact hT
    · exact finishD_neg N _ _ _
  · rw [if_neg h1, if_neg h1]
    by_cases h2 : ix < 0x00100000
    · rw [if_pos h2, if_pos h2]
      dsimp only
      cases logD N (N.mul ax KD.TWOP) ((N.mul ax KD.TWOP).toNat >>> 32) (-53) with
      | error e => exact fun r' hr => absurd hr (by intro h; cases h)
      | ok t =>
        rw [okb, okb]
        exact finishD_neg N _ _ _
    · rw [if_neg h2, if_neg h2]
      dsimp only
      cases logD N ax ix 0 with
      | error e => exact fun r' hr => absurd hr (by intro h; cases h)
      | ok t =>
        rw [okb, okb]
        exact finishD_neg N _ _ _

theorem coreS_neg (N : FPU f32) (ax y : BitVec f32.w) {ix hy iy : ℕ} :
    NegOf f32 (coreS N KS.mone ax y ix hy iy) (coreS N KS.one ax y ix hy iy) := by
  have hH : NegOf f32 (.ok (huge N KS KS.mone)) (.ok (huge N KS KS.one)) :=
    NegOf.ok (scaled_neg N ks_ok (by unfold IsFin; decide +kernel)).1 (scaled_neg N ks_ok (by unfold IsFin; decide +kernel)).2
  have hT : NegOf f32 (.ok (tiny N KS KS.mone)) (.ok (tiny N KS KS.one)) :=
    NegOf.ok (scaled_neg N ks_ok (by unfold IsFin; decide +kernel)).1 (scaled_neg N ks_ok (by unfold IsFin; decide +kernel)).2
  unfold coreS
  by_cases h1 : iy > 0x4d000000
  · rw [if_pos h1, if_pos h1]
    split_ifs
    · exact hH
    · exact hT
    · exact hH
    · exact hT
    · exact finishS_neg N _ _ _
  · rw [if_neg h1, if_neg h1]
    by_cases h2 : ix < 0x00800000
    · rw [if_pos h2, if_pos h2]
      dsimp only
      cases logS N (N.mul ax KS.TWOP).toNat (-24) with
      | error e => exact fun r' hr => absurd hr (by intro h; cases h)
      | ok t =>
        rw [okb, okb]
        exact finishS_neg N _ _ _
    · rw [if_neg h2, if_neg h2]
      dsimp only
      cases logS N ix 0 with
      | error e => exact fun r' hr => absurd hr (by intro h; cases h)
      | ok t =>
        rw [okb, okb]
        exact finishS_neg N _ _ _

end Power
end Verif
