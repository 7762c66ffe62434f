import Verif.Int.SDiv
import Verif.Int.DivProofs
/-! Correctness of the public division entry points and of the AVR assembly routines. -/
namespace Verif

set_option linter.unusedSimpArgs false

theorem IsDivRem.eq {w} {f : DivRem w} (hf : IsDivRem f) (a b : BitVec w) (hb : b ≠ 0#w) :
    f a b = .ok (a / b, a % b) := by
  obtain ⟨r, e, h1, h2⟩ := hf a b (ne_zero_toNat hb)
  rw [e]
  have e1 : r.1 = a / b := BitVec.eq_of_toNat_eq (by rw [h1, BitVec.toNat_udiv])
  have e2 : r.2 = a % b := BitVec.eq_of_toNat_eq (by rw [h2, BitVec.toNat_umod])
  rw [← e1, ← e2]

theorem slt_zero {w} (a : BitVec w) : a.slt 0#w = a.msb := by
  rw [BitVec.slt_zero_eq_msb]

theorem neg_ne_zero {w} {b : BitVec w} (hb : b ≠ 0#w) : -b ≠ 0#w := by
  intro h; apply hb
  have := congrArg (fun x => -x) h
  simpa using this

theorem abs_ne_zero {w} {b : BitVec w} (hb : b ≠ 0#w) : (if b.slt 0#w then -b else b) ≠ 0#w := by
  split
  · exact neg_ne_zero hb
  · exact hb

theorem sdiv_eq {w} {f : DivRem w} (hf : IsDivRem f) (a b : BitVec w) (hb : b ≠ 0#w) :
    sdiv f a b = .ok (a.sdiv b) := by
  unfold sdiv udiv
  simp only [hf.eq _ _ (abs_ne_zero hb)]
  simp only [ok_bind, pure, Except.pure, BitVec.sdiv, slt_zero]
  cases a.msb <;> cases b.msb <;> simp [BitVec.udiv_eq, BitVec.neg_eq]

theorem smod_eq {w} {f : DivRem w} (hf : IsDivRem f) (a b : BitVec w) (hb : b ≠ 0#w) :
    smod f a b = .ok (a.srem b) := by
  unfold smod umod
  simp only [hf.eq _ _ (abs_ne_zero hb)]
  simp only [ok_bind, pure, Except.pure, BitVec.srem, slt_zero]
  cases a.msb <;> cases b.msb <;> simp [BitVec.umod_eq, BitVec.neg_eq]

theorem sdivmod_eq {w} {f : DivRem w} (hf : IsDivRem f) (a b r : BitVec w) (hb : b ≠ 0#w) :
    sdivmod f a b r = .ok (a.sdiv b, a.srem b) := by
  unfold sdivmod udivmod
  simp only [hf.eq _ _ (abs_ne_zero hb)]
  simp only [ok_bind, pure, Except.pure, BitVec.srem, BitVec.sdiv, slt_zero]
  cases a.msb <;> cases b.msb <;> simp [BitVec.umod_eq, BitVec.udiv_eq, BitVec.neg_eq]

theorem pack_lo {w} (r d : BitVec w) : ((r.setWidth (2 * w) <<< w) ||| d.setWidth (2 * w)).setWidth w = d := by
  apply BitVec.eq_of_getLsbD_eq
  intro i hi
  have h1 : i < 2 * w := by omega
  simp [hi, h1]

theorem pack_hi {w} (r d : BitVec w) :
    (((r.setWidth (2 * w) <<< w) ||| d.setWidth (2 * w)) >>> w).setWidth w = r := by
  apply BitVec.eq_of_getLsbD_eq
  intro i hi
  have h1 : w + i < 2 * w := by omega
  simp [hi, h1]

theorem udivmodPacked_eq {w} {f : DivRem w} (hf : IsDivRem f) (a b : BitVec w) (hb : b ≠ 0#w) :
    Ok (udivmodPacked f a b) (fun p => p.setWidth w = a / b ∧ (p >>> w).setWidth w = a % b) := by
  unfold udivmodPacked
  simp only [hf.eq _ _ hb, ok_bind]
  exact Ok.pure' ⟨pack_lo _ _, pack_hi _ _⟩

theorem sdivmodPacked_eq {w} {f : DivRem w} (hf : IsDivRem f) (a b : BitVec w) (hb : b ≠ 0#w) :
    Ok (sdivmodPacked f a b) (fun p => p.setWidth w = a.sdiv b ∧ (p >>> w).setWidth w = a.srem b) := by
  unfold sdivmodPacked
  refine Ok.bind (udivmodPacked_eq hf _ _ (abs_ne_zero hb)) ?_
  intro p ⟨h1, h2⟩
  simp only [h1, h2]
  refine Ok.pure' ?_
  simp only [pack_lo, pack_hi, BitVec.sdiv, BitVec.srem, slt_zero]
  cases a.msb <;> cases b.msb <;> simp [BitVec.umod_eq, BitVec.udiv_eq, BitVec.neg_eq]

/-! ### AVR long division -/

/-- State of bitwise long division with `j` bits to go. -/
def LongInv (N d w j q r : Nat) : Prop :=
  ∃ Q, q = (N % 2 ^ j) * 2 ^ (w - j) + Q ∧ Q < 2 ^ (w - j) ∧ N / 2 ^ j = Q * d + r ∧ r < d

theorem LongInv.init {N d w : Nat} (hN : N < 2 ^ w) (hd : 0 < d) : LongInv N d w w N 0 :=
  ⟨0, by simp [Nat.mod_eq_of_lt hN], by simp, by simp [Nat.div_eq_of_lt hN], hd⟩

theorem LongInv.final {N d w q r : Nat} (h : LongInv N d w 0 q r) : q = N / d ∧ r = N % d := by
  obtain ⟨Q, h1, -, h3, h4⟩ := h
  simp [Nat.mod_one] at h1 h3
  subst h1
  exact divRem_of h3.symm h4

theorem LongInv.step {N d w j q r : Nat} (hj : j < w) (hN : N < 2 ^ w) (h : LongInv N d w (j + 1) q r) :
    q < 2 ^ w ∧ 2 * r + q / 2 ^ (w - 1) < 2 ^ w ∧ q / 2 ^ (w - 1) < 2 ∧
    (2 * r + q / 2 ^ (w - 1) < d → LongInv N d w j (2 * q % 2 ^ w) (2 * r + q / 2 ^ (w - 1))) ∧
    (d ≤ 2 * r + q / 2 ^ (w - 1) → LongInv N d w j (2 * q % 2 ^ w + 1) (2 * r + q / 2 ^ (w - 1) - d)) := by
  obtain ⟨Q, h1, h2, h3, h4⟩ := h
  obtain ⟨i, rfl⟩ : ∃ i, w = i + j + 1 := ⟨w - j - 1, by omega⟩
  have e1 : i + j + 1 - (j + 1) = i := by omega
  have e2 : i + j + 1 - j = i + 1 := by omega
  have e3 : i + j + 1 - 1 = i + j := by omega
  rw [e1] at h1 h2
  unfold LongInv
  rw [e2, e3]
  have hbit := Nat.mod_lt (N / 2 ^ j) (show 0 < 2 by omega)
  obtain ⟨b, hb⟩ : ∃ b, N / 2 ^ j % 2 = b := ⟨_, rfl⟩
  rw [hb] at hbit
  have hmod : N % 2 ^ (j + 1) = b * 2 ^ j + N % 2 ^ j := by
    rw [Nat.pow_succ, Nat.mod_mul, hb, Nat.mul_comm b]; omega
  have hdiv : N / 2 ^ j = 2 * (N / 2 ^ (j + 1)) + b := by
    rw [Nat.pow_succ, ← Nat.div_div_eq_div_mul, ← hb]; omega
  have hm := Nat.mod_lt N (Nat.two_pow_pos j)
  obtain ⟨m, hm'⟩ : ∃ m, N % 2 ^ j = m := ⟨_, rfl⟩
  rw [hm'] at hm hmod ⊢
  have hlt : m * 2 ^ i + Q < 2 ^ (i + j) := by
    calc m * 2 ^ i + Q < m * 2 ^ i + 2 ^ i := by omega
      _ = (m + 1) * 2 ^ i := by ring
      _ ≤ 2 ^ j * 2 ^ i := Nat.mul_le_mul_right _ hm
      _ = _ := by rw [← Nat.pow_add]; congr 1; omega
  have hq : q = b * 2 ^ (i + j) + (m * 2 ^ i + Q) := by
    rw [h1, hmod, Nat.pow_add]; ring
  have hc : q / 2 ^ (i + j) = b := by
    rw [hq, Nat.mul_comm b, Nat.mul_add_div (Nat.two_pow_pos _), Nat.div_eq_of_lt hlt]; rfl
  have hq2 : 2 * q % 2 ^ (i + j + 1) = 2 * (m * 2 ^ i + Q) := by
    have : 2 * q = 2 ^ (i + j + 1) * b + 2 * (m * 2 ^ i + Q) := by rw [hq, Nat.pow_succ]; ring
    rw [this, Nat.mul_add_mod, Nat.mod_eq_of_lt]
    rw [Nat.pow_succ]; omega
  rw [hc, hq2, hdiv]
  have hr : r < 2 ^ i := by
    have : N / 2 ^ (j + 1) < 2 ^ i := by
      rw [Nat.div_lt_iff_lt_mul (Nat.two_pow_pos _), ← Nat.pow_add]; exact hN
    have := Nat.zero_le (Q * d)
    omega
  have hp : 2 ^ i ≤ 2 ^ (i + j) := Nat.pow_le_pow_right (by omega) (by omega)
  have hp2 : 2 ^ (i + j + 1) = 2 * 2 ^ (i + j) := by rw [Nat.pow_succ]; ring
  have hp3 : 2 ^ (i + 1) = 2 * 2 ^ i := by rw [Nat.pow_succ]; ring
  have hbq : b * 2 ^ (i + j) ≤ 1 * 2 ^ (i + j) := Nat.mul_le_mul_right _ (by omega)
  refine ⟨by omega, by omega, by omega, ?_, ?_⟩
  · intro hlt2
    refine ⟨2 * Q, ?_, by omega, ?_, hlt2⟩
    · rw [hp3]; ring
    · rw [h3]; ring
  · intro hge
    refine ⟨2 * Q + 1, ?_, by omega, ?_, by omega⟩
    · rw [hp3]; ring
    · rw [h3]
      have : (2 * Q + 1) * d = 2 * (Q * d) + d := by ring
      omega

theorem msb_val {w} (x : BitVec w) (hw : 0 < w) : (if x.msb then 1 else 0) = x.toNat / 2 ^ (w - 1) := by
  have hx := x.isLt
  have e : 2 ^ w = 2 ^ (w - 1) + 2 ^ (w - 1) := by
    obtain ⟨m, rfl⟩ : ∃ m, w = m + 1 := ⟨w - 1, by omega⟩
    simp [Nat.pow_succ]; omega
  have hp := Nat.two_pow_pos (w - 1)
  rw [BitVec.msb_eq_decide]
  by_cases h : 2 ^ (w - 1) ≤ x.toNat
  · simp only [h, decide_true, if_true]
    symm
    rw [Nat.div_eq_iff hp]; omega
  · simp only [h, decide_false]
    rw [Nat.div_eq_of_lt (by omega)]; simp

theorem avrLsl_val (r : BitVec 8) : (avrLsl r).1.toNat = 2 * r.toNat % 256 ∧
    (if (avrLsl r).2 then 1 else 0) = r.toNat / 128 := by
  refine ⟨?_, msb_val r (by omega)⟩
  simp [avrLsl, BitVec.toNat_shiftLeft, Nat.shiftLeft_eq, Nat.mul_comm]

theorem avrRol_val (r : BitVec 8) (c : Bool) :
    (avrRol r c).1.toNat = (2 * r.toNat + if c then 1 else 0) % 256 ∧
    (if (avrRol r c).2 then 1 else 0) = r.toNat / 128 := by
  refine ⟨?_, msb_val r (by omega)⟩
  have hr := r.isLt
  have e : (r <<< 1).toNat = 2 * r.toNat % 256 := by
    simp [BitVec.toNat_shiftLeft, Nat.shiftLeft_eq, Nat.mul_comm]
  cases c
  · simp [avrRol, e, Nat.shiftLeft_eq, Nat.mul_comm]
  · simp only [avrRol, BitVec.toNat_or, e, if_true]
    rw [or_eq_add' (k := 1) (by decide) (by simp; omega)]
    simp; omega

theorem avr_or_one (r : BitVec 8) (h : r.toNat % 2 = 0) : (r ||| 1#8).toNat = r.toNat + 1 := by
  rw [BitVec.toNat_or, or_eq_add' (k := 1) (by decide) (by simpa using Nat.dvd_of_mod_eq_zero h)]
  simp; omega

theorem avrSub_val (a b : BitVec 8) : (avrSub a b).1.toNat = (256 + a.toNat - b.toNat) % 256 ∧
    ((avrSub a b).2 = true ↔ a.toNat < b.toNat) := by
  constructor
  · have := b.isLt
    simp only [avrSub, BitVec.toNat_sub]; congr 1; omega
  · simp [avrSub]

theorem avrSbc_val (a b : BitVec 8) (c : Bool) :
    (avrSbc a b c).1.toNat = (512 + a.toNat - b.toNat - if c then 1 else 0) % 256 ∧
    ((avrSbc a b c).2 = true ↔ a.toNat < b.toNat + if c then 1 else 0) := by
  constructor
  · have := b.isLt
    cases c <;> simp [avrSbc, BitVec.toNat_sub] <;> omega
  · simp [avrSbc]

theorem udivmodqi4Loop_spec (N : Nat) (hN : N < 256) (d : BitVec 8) :
    ∀ (j : Nat), j ≤ 8 → ∀ q r : BitVec 8, LongInv N d.toNat 8 j q.toNat r.toNat →
      (udivmodqi4Loop d j q r).1.toNat = N / d.toNat ∧ (udivmodqi4Loop d j q r).2.toNat = N % d.toNat := by
  intro j
  induction j with
  | zero => intro _ q r h; exact h.final
  | succ j ih =>
    intro hj q r h
    obtain ⟨h1, h2, h3, h4, h5⟩ := h.step (by omega) hN
    have a1 := avrLsl_val q
    have a2 := avrRol_val r (avrLsl q).2
    rw [a1.2] at a2
    simp only [show 8 - 1 = 7 by rfl, show 2 ^ 7 = 128 by rfl, show 2 ^ 8 = 256 by rfl] at h2 h3 h4 h5
    have e2 : (avrRol r (avrLsl q).2).1.toNat = 2 * r.toNat + q.toNat / 128 := by rw [a2.1]; omega
    have a3 := avrSub_val (avrRol r (avrLsl q).2).1 d
    simp only [udivmodqi4Loop]
    split
    · rename_i hc
      have := a3.2.1 hc
      apply ih (by omega)
      rw [a1.1, e2]; exact h4 (by omega)
    · rename_i hc
      have hge : d.toNat ≤ 2 * r.toNat + q.toNat / 128 := by
        have := Nat.not_lt.1 (fun h => hc (a3.2.2 h)); omega
      apply ih (by omega)
      have hev : (avrLsl q).1.toNat % 2 = 0 := by rw [a1.1]; omega
      rw [avr_or_one _ hev, a1.1, a3.1, e2]
      have := h5 hge
      rwa [show (256 + (2 * r.toNat + q.toNat / 128) - d.toNat) % 256 = 2 * r.toNat + q.toNat / 128 - d.toNat by omega]

theorem udivmodhi4Loop_spec (N : Nat) (hN : N < 65536) (d0 d1 : BitVec 8) :
    ∀ (j : Nat), j ≤ 16 → ∀ q0 q1 r0 r1 : BitVec 8,
      LongInv N (d0.toNat + 256 * d1.toNat) 16 j (q0.toNat + 256 * q1.toNat) (r0.toNat + 256 * r1.toNat) →
      (udivmodhi4Loop d0 d1 j q0 q1 r0 r1).1.toNat + 256 * (udivmodhi4Loop d0 d1 j q0 q1 r0 r1).2.1.toNat
        = N / (d0.toNat + 256 * d1.toNat) ∧
      (udivmodhi4Loop d0 d1 j q0 q1 r0 r1).2.2.1.toNat + 256 * (udivmodhi4Loop d0 d1 j q0 q1 r0 r1).2.2.2.toNat
        = N % (d0.toNat + 256 * d1.toNat) := by
  intro j
  induction j with
  | zero => intro _ q0 q1 r0 r1 h; exact h.final
  | succ j ih =>
    intro hj q0 q1 r0 r1 h
    obtain ⟨h1, h2, h3, h4, h5⟩ := h.step (by omega) hN
    have a1 := avrLsl_val q0
    have a2 := avrRol_val q1 (avrLsl q0).2
    have a3 := avrRol_val r0 (avrRol q1 (avrLsl q0).2).2
    have a4 := avrRol_val r1 (avrRol r0 (avrRol q1 (avrLsl q0).2).2).2
    rw [a1.2] at a2
    rw [a2.2] at a3
    rw [a3.2] at a4
    simp only [udivmodhi4Loop]
    generalize avrLsl q0 = x1 at *
    generalize avrRol q1 x1.2 = x2 at *
    generalize avrRol r0 x2.2 = x3 at *
    generalize avrRol r1 x3.2 = x4 at *
    obtain ⟨x1, c1⟩ := x1
    obtain ⟨x2, c2⟩ := x2
    obtain ⟨x3, c3⟩ := x3
    obtain ⟨x4, c4⟩ := x4
    simp only [] at a1 a2 a3 a4 ⊢
    have a1 := a1.1
    have a2 := a2.1
    have a3 := a3.1
    have a4 := a4.1
    have b0 := q0.isLt
    have b1 := q1.isLt
    have b2 := r0.isLt
    have b3 := r1.isLt
    simp only [show 16 - 1 = 15 by rfl, show 2 ^ 15 = 32768 by rfl, show 2 ^ 16 = 65536 by rfl] at h2 h3 h4 h5
    have hc : (q0.toNat + 256 * q1.toNat) / 32768 = q1.toNat / 128 := by omega
    rw [hc] at h2 h3 h4 h5
    have e1 : x1.toNat + 256 * x2.toNat = 2 * (q0.toNat + 256 * q1.toNat) % 65536 := by omega
    have e2 : x3.toNat + 256 * x4.toNat = 2 * (r0.toNat + 256 * r1.toNat) + q1.toNat / 128 := by omega
    rw [← e1, ← e2] at h4 h5
    have s1 := avrSub_val x3 d0
    have s2 := avrSbc_val x4 d1 (avrSub x3 d0).2
    generalize avrSub x3 d0 = y1 at *
    generalize avrSbc x4 d1 y1.2 = y2 at *
    obtain ⟨y1, c1⟩ := y1
    obtain ⟨y2, c2⟩ := y2
    simp only [] at s1 s2 ⊢
    have b4 := d0.isLt
    have b5 := d1.isLt
    have b6 := x3.isLt
    have b7 := x4.isLt
    have hlt : c2 = true ↔ x3.toNat + 256 * x4.toNat < d0.toNat + 256 * d1.toNat := by
      rw [s2.2]
      cases c1 <;> simp at s1 ⊢ <;> omega
    split
    · rename_i hcc
      exact ih (by omega) _ _ _ _ (h4 (hlt.1 hcc))
    · rename_i hcc
      have hge : d0.toNat + 256 * d1.toNat ≤ x3.toNat + 256 * x4.toNat := by
        exact Nat.not_lt.1 (fun h => hcc (hlt.2 h))
      apply ih (by omega)
      have hev : x1.toNat % 2 = 0 := by omega
      rw [avr_or_one _ hev]
      have e3 : y1.toNat + 256 * y2.toNat = x3.toNat + 256 * x4.toNat - (d0.toNat + 256 * d1.toNat) := by
        have t1 := s1.1
        have t2 := s2.1
        cases c1 <;> simp at s1 t2 <;> omega
      rw [e3, show x1.toNat + 1 + 256 * x2.toNat = x1.toNat + 256 * x2.toNat + 1 by omega]
      exact h5 hge

theorem udivmodqi4_spec (n d : BitVec 8) (hd : d.toNat ≠ 0) :
    (udivmodqi4 n d).1.toNat = n.toNat / d.toNat ∧ (udivmodqi4 n d).2.toNat = n.toNat % d.toNat :=
  udivmodqi4Loop_spec n.toNat n.isLt d 8 (by omega) n 0#8 (LongInv.init n.isLt (Nat.pos_of_ne_zero hd))

theorem udivmodhi4_spec (n0 n1 d0 d1 : BitVec 8) (hd : d0.toNat + 256 * d1.toNat ≠ 0) :
    (udivmodhi4 n0 n1 d0 d1).1.toNat + 256 * (udivmodhi4 n0 n1 d0 d1).2.1.toNat
      = (n0.toNat + 256 * n1.toNat) / (d0.toNat + 256 * d1.toNat) ∧
    (udivmodhi4 n0 n1 d0 d1).2.2.1.toNat + 256 * (udivmodhi4 n0 n1 d0 d1).2.2.2.toNat
      = (n0.toNat + 256 * n1.toNat) % (d0.toNat + 256 * d1.toNat) := by
  have b0 := n0.isLt
  have b1 := n1.isLt
  exact udivmodhi4Loop_spec _ (by omega) d0 d1 16 (by omega) n0 n1 0#8 0#8
    (LongInv.init (by omega) (Nat.pos_of_ne_zero hd))

end Verif
