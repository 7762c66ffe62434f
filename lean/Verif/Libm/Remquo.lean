import Verif.Libm.Fmod
/-!
# Model of remquo, remquof and remainder

`remquo` (f64) and `remquof` (f32) are separate functions which differ in the constants of the format, the exponent they
use for a zero remainder (`-60`, `-30`: parameter `sent`) and in how the quotient is incremented at the end
(`wrapping_add(1)`, checked `+= 1`: parameter `incr`).
-/
namespace Verif
namespace Fmt
variable (F : Fmt)

/-- remquo.rs 21-32 and 33-44; remquof.rs 21-32 and 33-44. -/
def rqNormalize (u : BitVec F.w) (ex : Int) : M (BitVec F.w × Int) := do
  if ex = 0 then do
    let i ← shlC u (F.e + 1)
    -- the loop is the one of `ilogb`
    let ex ← F.ilogbLoop F.w ex i
    let t ← i32C (-ex)
    let t ← i32C (t + 1)
    let u ← shlI u t
    pure (u, ex)
  else do
    let m ← shrC (BitVec.allOnes F.w) (F.e + 1)
    let one ← shlC 1#F.w F.s
    pure ((u &&& m) ||| one, ex)

/-- remquo.rs 54-58 and 63-67: one conditional subtraction. -/
def rqStep (uy u : BitVec F.w) (q : BitVec 32) : M (BitVec F.w × BitVec 32) := do
  let i := u - uy
  let t ← shrC i (F.w - 1)
  if t = 0#F.w then do
    let q ← addC q 1#32
    pure (i, q)
  else pure (u, q)

/-- remquo.rs 53-62, the long-division loop. -/
def rqLoop (uy : BitVec F.w) (ey : Int) : Nat → BitVec F.w → BitVec 32 → Int → M (BitVec F.w × BitVec 32 × Int)
  | 0, _, _, _ => .error .fuel
  | fuel + 1, u, q, ex =>
    if ex > ey then do
      let (u, q) ← F.rqStep uy u q
      let u ← shlC u 1
      let q ← shlC q 1
      let ex ← i32C (ex - 1)
      rqLoop uy ey fuel u q ex
    else pure (u, q, ex)

/-- remquo.rs 71-74: normalise the remainder. -/
def rqRenorm : Nat → BitVec F.w → Int → M (BitVec F.w × Int)
  | 0, _, _ => .error .fuel
  | fuel + 1, u, ex => do
    let t ← shrC u F.s
    if t = 0#F.w then do
      let u ← shlC u 1
      let ex ← i32C (ex - 1)
      rqRenorm fuel u ex
    else pure (u, ex)

/-- remquo.rs 46-76; remquof.rs 46-75. `none` is the early return `(x, 0)`. -/
def rqReduce (sent : Int) (u uy : BitVec F.w) (ex ey : Int) : M (Option (BitVec F.w × BitVec 32 × Int)) := do
  let e1 ← i32C (ex + 1)
  if e1 ≠ ey then
    if ex < ey then pure none
    else do
      let (u, q, ex) ← F.rqLoop uy ey (2 ^ F.e + F.w) u 0#32 ex
      let (u, q) ← F.rqStep uy u q
      if u = 0#F.w then pure (some (u, q, sent))
      else do
        let (u, ex) ← F.rqRenorm F.w u ex
        pure (some (u, q, ex))
  else pure (some (u, 0#32, ex))

/-- remquo.rs 79-84; remquof.rs 78-83. -/
def rqScale (u : BitVec F.w) (ex : Int) : M (BitVec F.w) := do
  if ex > 0 then do
    let one ← shlC 1#F.w F.s
    let u ← subC u one
    let t ← shlC (BitVec.ofInt F.w ex) F.s
    pure (u ||| t)
  else do
    let t ← i32C (-ex)
    let t ← i32C (t + 1)
    shrC u t.toNat

/-- remquo.rs 85-96; remquof.rs 84-94. `sx`, `sy` are the signs of the operands. -/
def rqFinish (N : FPU F) (incr : BitVec 32 → M (BitVec 32)) (sx sy : Bool) (x y : BitVec F.w) (q : BitVec 32)
    (ex ey : Int) : M (BitVec F.w × Int) := do
  let y := if sy then F.neg y else y
  let e1 ← i32C (ex + 1)
  let t := N.mul (F.fromParts false (F.bias + 1) 0#F.w) x
  let (x, q) ← (if ex = ey ∨ (e1 = ey ∧ (F.gt t y = true ∨ (F.feq t y = true ∧ q % 2#32 ≠ 0#32))) then do
      let q ← incr q
      pure (N.sub x y, q)
    else pure (x, q))
  let q := q &&& 0x7fffffff#32
  let quo ← (if sx ^^ sy then i32C (-q.toInt) else pure q.toInt)
  pure (if sx then F.neg x else x, quo)

/-- `remquo`, remquo.rs 2-97; `remquof`, remquof.rs 2-95. -/
def remquoG (N : FPU F) (incr : BitVec 32 → M (BitVec 32)) (sent : Int) (x y : BitVec F.w) : M (BitVec F.w × Int) := do
  let sx := x >>> (F.w - 1) != 0#F.w
  let sy := y >>> (F.w - 1) != 0#F.w
  if y <<< 1 = 0#F.w ∨ F.isNan y = true ∨ F.ex x = F.expSat then
    pure (N.div (N.mul x y) (N.mul x y), 0)
  else if x <<< 1 = 0#F.w then pure (x, 0)
  else do
    let (u, ex) ← F.rqNormalize x (F.ex x)
    let (uy, ey) ← F.rqNormalize y (F.ex y)
    match ← F.rqReduce sent u uy ex ey with
    | none => pure (x, 0)
    | some (u, q, ex) => do
      let r ← F.rqScale u ex
      F.rqFinish N incr sx sy r y q ex ey

end Fmt

/-- `remquo`, remquo.rs 2-97. -/
def remquo (N : FPU f64) (x y : BitVec f64.w) : M (BitVec f64.w × Int) :=
  f64.remquoG N (fun q => pure (q + 1#32)) (-60) x y

/-- `remquof`, remquof.rs 2-95. -/
def remquof (N : FPU f32) (x y : BitVec f32.w) : M (BitVec f32.w × Int) :=
  f32.remquoG N (fun q => addC q 1#32) (-30) x y

/-- `remainder`, remainder.rs 2-5. -/
def remainder (N : FPU f64) (x y : BitVec f64.w) : M (BitVec f64.w) := do
  let (r, _) ← remquo N x y
  pure r

/-- `remainderf`, remainderf.rs 2-5. -/
def remainderf (N : FPU f32) (x y : BitVec f32.w) : M (BitVec f32.w) := do
  let (r, _) ← remquof N x y
  pure r

/-! ## Proofs -/
namespace Fmt
variable (F : Fmt)

/-- `X = u * 2^(e-1)`, with `u` normalised; scaled to avoid negative exponents -/
def Nm (u : Nat) (e : Int) (X : Nat) : Prop :=
  ∃ p : Nat, e = (p : Int) + 1 - (2 * F.s + 2 : Nat) ∧ 2 ^ F.s ≤ u ∧ u < 2 ^ (F.s + 1) ∧
    X * 2 ^ (2 * F.s + 2) = u * 2 ^ p

theorem rqNormalize_spec {x : BitVec F.w} (h0 : F.mag x ≠ 0) :
    Ok (F.rqNormalize x (F.ex x)) (fun r => F.Nm r.1.toNat r.2 (F.valU (F.mag x)) ∧ 1 - (F.s : Int) ≤ r.2 ∧
      (r.2 = F.ex x ∨ (r.2 ≤ 0 ∧ F.ex x = 0))) := by
  have hsu := F.ps_succ
  have hpp := Nat.two_pow_pos F.s
  have hpl := F.pe_le
  have hs' := F.hs'
  have hs := F.hs
  have he5 := F.he
  have hex := F.ex_eq x
  have hw : F.w = F.e + F.s + 1 := rfl
  have hdm := Nat.div_add_mod (F.mag x) (2 ^ F.s)
  have hml := Nat.mod_lt (F.mag x) (Nat.two_pow_pos F.s)
  have hmm := F.mag_mod x
  unfold rqNormalize
  by_cases he : F.ex x = 0
  · rw [if_pos (by omega)]
    rw [hex] at he
    rw [he, Nat.mul_zero, Nat.zero_add] at hdm
    refine Ok.bind (F.shl_sig x) ?_
    intro i hi
    rw [hdm] at hi
    have hL1 := lt_two_pow_bitLen (F.mag x)
    have hL2 := two_pow_le_of_bitLen h0
    have hL3 := bitLen_pos h0
    have hL4 : bitLen (F.mag x) ≤ F.s := bitLen_le_iff.mpr (by omega)
    generalize bitLen (F.mag x) = L at *
    refine Ok.bind (F.ilogbLoop_spec (F.s - L) _ _ i (by omega) (by omega) ?_ ?_ (by omega) (by omega)) ?_
    · rw [hi, show F.w - 1 - (F.s - L) = (L - 1) + (F.e + 1) by omega, Nat.pow_add]
      exact Nat.mul_le_mul_right _ hL2
    · rw [hi, show F.w - (F.s - L) = L + (F.e + 1) by omega, Nat.pow_add 2 L]
      exact Nat.mul_lt_mul_of_pos_right hL1 (Nat.two_pow_pos _)
    · rintro _ rfl
      have hx0 : F.ex x = 0 := by omega
      rw [hx0]
      refine Ok.bind (i32C_spec (by omega)) ?_
      rintro _ rfl
      refine Ok.bind (i32C_spec (by omega)) ?_
      rintro _ rfl
      refine Ok.bind (shlI_spec (by omega)) ?_
      intro u hu
      have e1 : (-(((0 : Nat) : Int) - ((F.s - L : Nat) : Int)) + 1).toNat = F.s + 1 - L := by omega
      rw [e1] at hu
      have hval : u.toNat = F.mag x * 2 ^ (F.s + 1 - L) := by
        have hlt : F.mag x * 2 ^ (F.s + 1 - L) < 2 ^ (F.s + 1) := by
          calc _ < 2 ^ L * 2 ^ (F.s + 1 - L) := Nat.mul_lt_mul_of_pos_right hL1 (Nat.two_pow_pos _)
            _ = _ := by rw [← Nat.pow_add]; congr 1; omega
        have hle : 2 ^ (F.s + 1) ≤ 2 ^ F.w := two_pow_le (by omega)
        rw [hu, F.toNat_eq x]
        split
        · have e2 : 2 ^ (F.e + F.s) * 2 ^ (F.s + 1 - L) = 2 ^ F.w * 2 ^ (F.s - L) := by
            rw [← Nat.pow_add, ← Nat.pow_add]; congr 1; omega
          rw [Nat.add_mul, e2, Nat.mul_add_mod, Nat.mod_eq_of_lt (by omega)]
        · rw [Nat.zero_add, Nat.mod_eq_of_lt (by omega)]
      refine Ok.pure' ⟨⟨F.s + 1 + L, by dsimp only; omega, ?_, ?_, ?_⟩, by dsimp only; omega, Or.inr ⟨by dsimp only; omega, rfl⟩⟩
      · dsimp only
        rw [hval]
        calc 2 ^ F.s = 2 ^ (L - 1) * 2 ^ (F.s + 1 - L) := by rw [← Nat.pow_add]; congr 1; omega
          _ ≤ _ := Nat.mul_le_mul_right _ hL2
      · dsimp only
        rw [hval]
        calc _ < 2 ^ L * 2 ^ (F.s + 1 - L) := Nat.mul_lt_mul_of_pos_right hL1 (Nat.two_pow_pos _)
          _ = _ := by rw [← Nat.pow_add]; congr 1; omega
      · dsimp only
        rw [hval, F.valU_small (by omega), Nat.mul_assoc, ← Nat.pow_add]
        congr 2; omega
  · rw [if_neg (by omega)]
    refine Ok.bind (shrC_spec (by omega)) ?_
    intro m hm
    refine Ok.bind (shlC_spec (by omega)) ?_
    intro one hone
    have hm' : m.toNat = 2 ^ F.s - 1 := by
      have e : 2 ^ F.w = 2 ^ (F.e + 1) * 2 ^ F.s := by rw [← Nat.pow_add]; congr 1; omega
      rw [hm, BitVec.toNat_allOnes, e]
      have := Nat.two_pow_pos (F.e + 1)
      rw [Nat.mul_sub_div _ _ _ (by positivity)]
      rw [Nat.div_eq_of_lt (by omega)]
    have hone' : one.toNat = 2 ^ F.s := by
      rw [hone, F.toNat_one', Nat.one_mul, Nat.mod_eq_of_lt]
      exact Nat.pow_lt_pow_right (by omega) (by omega)
    have hu : ((x &&& m) ||| one).toNat = F.mag x % 2 ^ F.s + 2 ^ F.s := by
      rw [BitVec.toNat_or, BitVec.toNat_and, hm', hone', Nat.and_two_pow_sub_one_eq_mod, hmm]
      have := Nat.two_pow_add_eq_or_of_lt hml 1
      rw [Nat.mul_one] at this
      rw [Nat.or_comm, ← this, Nat.add_comm]
    refine Ok.pure' ⟨⟨F.ex x - 1 + (2 * F.s + 2), by dsimp only; omega, ?_, ?_, ?_⟩, by dsimp only; omega, Or.inl rfl⟩
    · dsimp only; rw [hu]; omega
    · dsimp only; rw [hu]; omega
    · dsimp only
      have := F.valU_eq (E := F.ex x) (m := F.mag x % 2 ^ F.s + 2 ^ F.s) (by omega) (by omega) (by omega)
      have e : (F.ex x - 1) * 2 ^ F.s + (F.mag x % 2 ^ F.s + 2 ^ F.s) = F.mag x := by
        rw [Nat.add_comm (F.mag x % _), ← Nat.add_assoc, ← Nat.succ_mul, show (F.ex x - 1).succ = F.ex x by omega, hex,
          Nat.mul_comm]
        exact hdm
      rw [e] at this
      rw [hu, this, Nat.mul_assoc, ← Nat.pow_add]

theorem rqStep_spec {uy u : BitVec F.w} {q : BitVec 32} {Q : Nat} (h1 : uy.toNat < 2 ^ (F.s + 1))
    (h2 : u.toNat < 2 * uy.toNat) (hq : q.toNat = Q % 2 ^ 32) (hQ : Q % 2 = 0) :
    Ok (F.rqStep uy u q) (fun r => ∃ Q', r.2.toNat = Q' % 2 ^ 32 ∧ Q' * uy.toNat + r.1.toNat = Q * uy.toNat + u.toNat ∧
      r.1.toNat < uy.toNat) := by
  have hsu := F.ps_succ
  have he5 := F.he
  have hw : F.w = F.e + F.s + 1 := rfl
  have hbig : 2 ^ (F.s + 1) * 4 ≤ 2 ^ (F.w - 1) := by
    have : 2 ^ (F.s + 1) * 4 = 2 ^ (F.s + 1 + 2) := by rw [Nat.pow_add 2 (F.s + 1)]
    rw [this]; apply two_pow_le; omega
  have hww : 2 ^ F.w = 2 * 2 ^ (F.w - 1) := by rw [← Nat.pow_succ']; congr 1
  unfold rqStep
  refine Ok.bind (shrC_spec (by omega)) ?_
  intro t ht
  by_cases h : uy.toNat ≤ u.toNat
  · have hi : (u - uy).toNat = u.toNat - uy.toNat := BitVec.toNat_sub_of_le h
    rw [if_pos (by rw [eq_zero_iff, ht, hi]; exact Nat.div_eq_of_lt (by omega))]
    refine Ok.bind (addC_spec (by rw [hq]; simp only [BitVec.toNat_ofNat]; omega)) ?_
    intro q' hq'
    refine Ok.pure' ⟨Q + 1, ?_, ?_, ?_⟩
    · dsimp only; rw [hq', hq]; simp only [BitVec.toNat_ofNat]; omega
    · dsimp only; rw [hi, Nat.succ_mul]; omega
    · dsimp only; rw [hi]; omega
  · have hi : (u - uy).toNat = 2 ^ F.w - uy.toNat + u.toNat := by
      rw [BitVec.toNat_sub, Nat.mod_eq_of_lt]; omega
    rw [if_neg (by
      rw [eq_zero_iff, ht, hi]
      have : 1 ≤ (2 ^ F.w - uy.toNat + u.toNat) / 2 ^ (F.w - 1) := by
        rw [Nat.one_le_div_iff (Nat.two_pow_pos _)]; omega
      omega)]
    exact Ok.pure' ⟨Q, hq, rfl, by dsimp only; omega⟩

theorem rqLoop_spec {uy : BitVec F.w} (h1 : uy.toNat < 2 ^ (F.s + 1)) :
    ∀ (d fuel : Nat) (ey : Int) (u : BitVec F.w) (q : BitVec 32) (Q : Nat), d < fuel → -2 ^ 20 ≤ ey → ey + d < 2 ^ 20 →
    u.toNat < 2 * uy.toNat → q.toNat = Q % 2 ^ 32 → Q % 2 = 0 →
    Ok (F.rqLoop uy ey fuel u q (ey + d)) (fun r => r.2.2 = ey ∧ ∃ Q', r.2.1.toNat = Q' % 2 ^ 32 ∧ Q' % 2 = 0 ∧
      (Q * uy.toNat + u.toNat) * 2 ^ d = Q' * uy.toNat + r.1.toNat ∧ r.1.toNat < 2 * uy.toNat) := by
  have hsu := F.ps_succ
  have he5 := F.he
  have hw : F.w = F.e + F.s + 1 := rfl
  have hbig : 2 ^ (F.s + 1) * 4 ≤ 2 ^ F.w := by
    have : 2 ^ (F.s + 1) * 4 = 2 ^ (F.s + 1 + 2) := by rw [Nat.pow_add 2 (F.s + 1)]
    rw [this]; apply two_pow_le; omega
  intro d
  induction d with
  | zero =>
    intro fuel ey u q Q hf _ _ hu hq hQ
    obtain ⟨f, rfl⟩ : ∃ f, fuel = f + 1 := ⟨fuel - 1, by omega⟩
    unfold rqLoop
    rw [if_neg (by omega)]
    exact Ok.pure' ⟨by simp, Q, hq, hQ, by simp, hu⟩
  | succ d ih =>
    intro fuel ey u q Q hf hey hey' hu hq hQ
    obtain ⟨f, rfl⟩ : ∃ f, fuel = f + 1 := ⟨fuel - 1, by omega⟩
    unfold rqLoop
    rw [if_pos (by omega)]
    refine Ok.bind (F.rqStep_spec h1 hu hq hQ) ?_
    rintro ⟨u1, q1⟩ ⟨Q1, a1, a2, a3⟩
    dsimp only at a1 a2 a3 ⊢
    refine Ok.bind (shlC_spec (by omega)) ?_
    intro u2 hu2
    rw [Nat.pow_one, Nat.mod_eq_of_lt (by omega)] at hu2
    refine Ok.bind (shlC_spec (by omega)) ?_
    intro q2 hq2
    refine Ok.bind (i32C_spec (by omega)) ?_
    rintro _ rfl
    have e : ey + ((d + 1 : Nat) : Int) - 1 = ey + d := by omega
    rw [e]
    refine Ok.mono (ih f ey u2 q2 (2 * Q1) (by omega) hey (by omega) (by omega) (by omega) (by omega)) ?_
    rintro ⟨u3, q3, e3⟩ ⟨b1, Q', b2, b3, b4, b5⟩
    refine ⟨b1, Q', b2, b3, ?_, b5⟩
    rw [← b4, ← a2, hu2, Nat.pow_succ', ← Nat.mul_assoc, Nat.mul_comm _ 2, Nat.mul_add, ← Nat.mul_assoc 2 Q1, Nat.mul_comm 2 u1.toNat]

theorem rqRenorm_spec : ∀ (k fuel : Nat) (u : BitVec F.w) (e : Int), k < fuel → -2 ^ 20 ≤ e - k → e < 2 ^ 20 →
    2 ^ F.s ≤ u.toNat * 2 ^ k → u.toNat * 2 ^ k < 2 ^ (F.s + 1) →
    Ok (F.rqRenorm fuel u e) (fun r => r.1.toNat = u.toNat * 2 ^ k ∧ r.2 = e - k) := by
  have hsu := F.ps_succ
  have hpp := Nat.two_pow_pos F.s
  have he5 := F.he
  have hw : F.w = F.e + F.s + 1 := rfl
  have hbig : 2 ^ (F.s + 1) ≤ 2 ^ F.w := by apply two_pow_le; omega
  intro k
  induction k with
  | zero =>
    intro fuel u e hf _ _ h1 h2
    obtain ⟨f, rfl⟩ : ∃ f, fuel = f + 1 := ⟨fuel - 1, by omega⟩
    rw [Nat.pow_zero, Nat.mul_one] at h1 h2
    unfold rqRenorm
    refine Ok.bind (shrC_spec (by omega)) ?_
    intro t ht
    have : 1 ≤ u.toNat / 2 ^ F.s := (Nat.one_le_div_iff hpp).mpr h1
    rw [if_neg (by rw [eq_zero_iff, ht]; omega)]
    exact Ok.pure' ⟨by simp, by simp⟩
  | succ k ih =>
    intro fuel u e hf he he' h1 h2
    obtain ⟨f, rfl⟩ : ∃ f, fuel = f + 1 := ⟨fuel - 1, by omega⟩
    have h3 : u.toNat * 2 * 2 ^ k = u.toNat * 2 ^ (k + 1) := by rw [Nat.pow_succ', Nat.mul_assoc]
    have h4 : u.toNat * 2 ≤ u.toNat * 2 * 2 ^ k := Nat.le_mul_of_pos_right _ (Nat.two_pow_pos _)
    unfold rqRenorm
    refine Ok.bind (shrC_spec (by omega)) ?_
    intro t ht
    rw [if_pos (by rw [eq_zero_iff, ht]; exact Nat.div_eq_of_lt (by omega))]
    refine Ok.bind (shlC_spec (by omega)) ?_
    intro u2 hu2
    rw [Nat.pow_one, Nat.mod_eq_of_lt (by omega)] at hu2
    refine Ok.bind (i32C_spec (by omega)) ?_
    rintro _ rfl
    refine Ok.mono (ih f u2 (e - 1) (by omega) (by omega) (by omega) (by rw [hu2]; omega) (by rw [hu2]; omega)) ?_
    rintro ⟨u3, e3⟩ ⟨b1, b2⟩
    dsimp only at b1 b2 ⊢
    refine ⟨by rw [b1, hu2, h3], by rw [b2]; push_cast; ring⟩

theorem rqReduce_spec (sent : Int) {ux uy : BitVec F.w} {ex ey : Int} {X Y : Nat} (hx : F.Nm ux.toNat ex X)
    (hy : F.Nm uy.toNat ey Y) (hx1 : 1 - (F.s : Int) ≤ ex) (hy1 : 1 - (F.s : Int) ≤ ey) (hx2 : ex < (2 ^ F.e : Nat))
    (hy2 : ey < (2 ^ F.e : Nat)) :
    Ok (F.rqReduce sent ux uy ex ey) (fun r => match r with
      | none => 2 * X < Y
      | some (u, q, e) => q.toNat = X / Y % 2 ^ 32 ∧ (F.s + 1 ≤ 31 → q.toNat ≠ 2 ^ 32 - 1) ∧
        ((X % Y = 0 ∧ u.toNat = 0 ∧ e = sent) ∨ (X % Y ≠ 0 ∧ F.Nm u.toNat e (X % Y)))) := by
  have hsu := F.ps_succ
  have hpp := Nat.two_pow_pos F.s
  have hpl := F.pe_le
  have hs' := F.hs'
  have hw : F.w = F.e + F.s + 1 := rfl
  obtain ⟨px, a1, a2, a3, a4⟩ := hx
  obtain ⟨py, b1, b2, b3, b4⟩ := hy
  generalize hK : 2 * F.s + 2 = K at *
  have hKp := Nat.two_pow_pos K
  unfold rqReduce
  refine Ok.bind (i32C_spec (by omega)) ?_
  rintro _ rfl
  by_cases h1 : ex + 1 = ey
  · rw [if_neg (by omega)]
    have hlt : X < Y := by
      have : X * 2 ^ K < Y * 2 ^ K := by
        rw [a4, b4]
        calc _ < 2 ^ (F.s + 1) * 2 ^ px := Nat.mul_lt_mul_of_pos_right a3 (Nat.two_pow_pos _)
          _ = 2 ^ F.s * 2 ^ py := by rw [← Nat.pow_add, ← Nat.pow_add]; congr 1; omega
          _ ≤ _ := Nat.mul_le_mul_right _ b2
      exact lt_of_mul_lt_mul_right this (Nat.zero_le _)
    refine Ok.pure' ?_
    dsimp only
    rw [Nat.div_eq_of_lt hlt, Nat.mod_eq_of_lt hlt]
    refine ⟨by simp, by simp, Or.inr ⟨?_, px, by omega, a2, a3, by rw [hK]; exact a4⟩⟩
    rintro rfl
    have := Nat.mul_pos (lt_of_lt_of_le hpp a2) (Nat.two_pow_pos px)
    omega
  · rw [if_pos h1]
    by_cases h2 : ex < ey
    · rw [if_pos h2]
      refine Ok.pure' ?_
      have : 2 * X * 2 ^ K < Y * 2 ^ K := by
        rw [Nat.mul_assoc, a4, b4]
        calc 2 * (ux.toNat * 2 ^ px) = ux.toNat * 2 ^ (px + 1) := by rw [Nat.pow_succ]; ring
          _ < 2 ^ (F.s + 1) * 2 ^ (px + 1) := Nat.mul_lt_mul_of_pos_right a3 (Nat.two_pow_pos _)
          _ = 2 ^ (F.s + px + 2) := by rw [← Nat.pow_add]; congr 1; omega
          _ ≤ 2 ^ (F.s + py) := two_pow_le (by omega)
          _ = 2 ^ F.s * 2 ^ py := Nat.pow_add _ _ _
          _ ≤ _ := Nat.mul_le_mul_right _ b2
      exact lt_of_mul_lt_mul_right this (Nat.zero_le _)
    · rw [if_neg h2]
      obtain ⟨D, hD⟩ : ∃ D : Nat, ex = ey + D := ⟨(ex - ey).toNat, by omega⟩
      have hpx : px = py + D := by omega
      rw [hD]
      refine Ok.bind (F.rqLoop_spec b3 D _ ey ux 0#32 0 (by omega) (by omega) (by omega) (by omega) (by simp) (by simp)) ?_
      rintro ⟨u1, q1, e1⟩ ⟨c1, Q1, c2, c3, c4, c5⟩
      dsimp only at c1 c2 c3 c4 c5 ⊢
      refine Ok.bind (F.rqStep_spec b3 c5 c2 c3) ?_
      rintro ⟨u2, q2⟩ ⟨Q, d1, d2, d3⟩
      dsimp only at d1 d2 d3 ⊢
      rw [Nat.zero_mul, Nat.zero_add, ← d2] at c4
      have hXY : X * 2 ^ K = ux.toNat * 2 ^ D * 2 ^ py := by rw [a4, hpx, Nat.pow_add]; ring
      have hpyp := Nat.two_pow_pos py
      have hYp : 0 < Y := by
        rcases Nat.eq_zero_or_pos Y with h | h
        · have := Nat.mul_pos (lt_of_lt_of_le hpp b2) hpyp
          rw [h, Nat.zero_mul] at b4; omega
        · exact h
      have hQ : X / Y = Q := by
        rw [← Nat.mul_div_mul_right X Y hKp, hXY, b4, Nat.mul_div_mul_right _ _ hpyp, c4, Nat.add_comm, Nat.add_mul_div_right _ _ (by omega),
          Nat.div_eq_of_lt d3, Nat.zero_add]
      have hR : X % Y * 2 ^ K = u2.toNat * 2 ^ py := by
        rw [← Nat.mul_mod_mul_right, hXY, b4, Nat.mul_mod_mul_right, c4, Nat.add_comm, Nat.add_mul_mod_self_right, Nat.mod_eq_of_lt d3]
      have hq31 : F.s + 1 ≤ 31 → q2.toNat ≠ 2 ^ 32 - 1 := by
        intro h31 hc
        have hQm : Q % 2 ^ 32 = 2 ^ 32 - 1 := by rw [← d1, hc]
        have hDge : 31 ≤ D := by
          by_contra hlt
          have h3 : ux.toNat * 2 ^ D < 2 ^ (D + 1) * uy.toNat := by
            calc _ < 2 ^ (F.s + 1) * 2 ^ D := Nat.mul_lt_mul_of_pos_right a3 (Nat.two_pow_pos _)
              _ = 2 ^ (D + 1) * 2 ^ F.s := by rw [← Nat.pow_add, ← Nat.pow_add]; congr 1; omega
              _ ≤ _ := Nat.mul_le_mul_left _ b2
          have h4 : Q * uy.toNat < 2 ^ (D + 1) * uy.toNat := by omega
          have h5 : Q < 2 ^ (D + 1) := lt_of_mul_lt_mul_right h4 (Nat.zero_le _)
          have h6 : 2 ^ (D + 1) ≤ 2 ^ 31 := two_pow_le (by omega)
          omega
        obtain ⟨k, hk⟩ : ∃ k, Q + 1 = 2 ^ 31 * k := ⟨(Q + 1) / 2 ^ 31, by omega⟩
        have h3 : ux.toNat * 2 ^ D + (uy.toNat - u2.toNat) = 2 ^ 31 * (k * uy.toNat) := by
          rw [c4, ← Nat.mul_assoc, ← hk, Nat.succ_mul]; omega
        obtain ⟨j, hj⟩ : 2 ^ 31 ∣ ux.toNat * 2 ^ D := Dvd.dvd.mul_left (pow_dvd_pow 2 hDge) _
        have h4 : 2 ^ 31 ∣ uy.toNat - u2.toNat := by
          rw [hj] at h3
          exact (Nat.dvd_add_right (Dvd.intro j rfl)).mp (h3 ▸ Dvd.intro _ rfl)
        have h5 := Nat.le_of_dvd (by omega) h4
        have h6 : 2 ^ (F.s + 1) ≤ 2 ^ 31 := two_pow_le h31
        omega
      split
      · rename_i hz
        refine Ok.pure' ?_
        dsimp only
        rw [hQ]
        have hu0 := eq_zero_iff.mp hz
        refine ⟨d1, hq31, Or.inl ⟨?_, hu0, rfl⟩⟩
        rw [hu0, Nat.zero_mul] at hR
        exact (Nat.mul_eq_zero.mp hR).resolve_right hKp.ne'
      · rename_i hz
        have hu0 : u2.toNat ≠ 0 := fun h => hz (eq_zero_iff.mpr h)
        have hL1 := lt_two_pow_bitLen u2.toNat
        have hL2 := two_pow_le_of_bitLen hu0
        have hL3 := bitLen_pos hu0
        have hL4 : bitLen u2.toNat ≤ F.s + 1 := bitLen_le_iff.mpr (by omega)
        generalize bitLen u2.toNat = L at *
        have hm1 : u2.toNat * 2 ^ (F.s + 1 - L) < 2 ^ (F.s + 1) := by
          calc _ < 2 ^ L * 2 ^ (F.s + 1 - L) := Nat.mul_lt_mul_of_pos_right hL1 (Nat.two_pow_pos _)
            _ = _ := by rw [← Nat.pow_add]; congr 1; omega
        have hm2 : 2 ^ F.s ≤ u2.toNat * 2 ^ (F.s + 1 - L) := by
          calc 2 ^ F.s = 2 ^ (L - 1) * 2 ^ (F.s + 1 - L) := by rw [← Nat.pow_add]; congr 1; omega
            _ ≤ _ := Nat.mul_le_mul_right _ hL2
        refine Ok.bind (F.rqRenorm_spec (F.s + 1 - L) _ u2 e1 (by omega) (by omega) (by omega) hm2 hm1) ?_
        rintro ⟨u3, e3⟩ ⟨f1, f2⟩
        refine Ok.pure' ?_
        dsimp only at f1 f2 ⊢
        rw [hQ]
        refine ⟨d1, hq31, Or.inr ⟨?_, py - (F.s + 1 - L), by omega, by rw [f1]; exact hm2, by rw [f1]; exact hm1, ?_⟩⟩
        · intro h0
          rw [h0, Nat.zero_mul] at hR
          have := Nat.mul_pos (Nat.pos_of_ne_zero hu0) hpyp
          omega
        · rw [hK, hR, f1, Nat.mul_assoc, ← Nat.pow_add]
          congr 2; omega

/-- the remainder as a pattern -/
theorem rqScale_spec {u : BitVec F.w} {e : Int} {R : Nat} (h : (R = 0 ∧ u.toNat = 0 ∧ -(F.w : Int) + 2 ≤ e ∧ e ≤ 0) ∨ (R ≠ 0 ∧ F.Nm u.toNat e R))
    (hR : R < F.valU F.infRep) : Ok (F.rqScale u e) (fun r => F.sign r = false ∧ F.valU (F.mag r) = R) := by
  have hsu := F.ps_succ
  have hpp := Nat.two_pow_pos F.s
  have hpl := F.pe_le
  have hs' := F.hs'
  have he' := F.he'
  have hil := F.infRep_lt
  have hpes := F.pes
  have hw : F.w = F.e + F.s + 1 := rfl
  have fin : ∀ (r : BitVec F.w) (n : Nat), r.toNat = n → F.valU n = R → F.sign r = false ∧ F.valU (F.mag r) = R := by
    intro r n h1 h2
    have hn : n < F.infRep := by rw [← F.valU_lt_iff, h2]; exact hR
    obtain ⟨c1, c2⟩ := F.sign_mag_of (b := r) (t := false) (n := n) (by omega) (by simpa using h1)
    exact ⟨c1, by rw [c2, h2]⟩
  unfold rqScale
  rcases h with ⟨h0, hu, h1, h2⟩ | ⟨h0, p, h1, h2, h3, h4⟩
  · rw [if_neg (by omega)]
    refine Ok.bind (i32C_spec (by omega)) ?_
    rintro _ rfl
    refine Ok.bind (i32C_spec (by omega)) ?_
    rintro _ rfl
    refine Ok.mono (shrC_spec (by omega)) ?_
    intro r hr
    refine fin r 0 (by rw [hr, hu]; simp) (by rw [F.valU_zero, h0])
  · generalize hK : 2 * F.s + 2 = K at *
    have hKp := Nat.two_pow_pos K
    by_cases he : e > 0
    · rw [if_pos he]
      have hRe : R = u.toNat * 2 ^ (p - K) := by
        have : 2 ^ p = 2 ^ (p - K) * 2 ^ K := by rw [← Nat.pow_add]; congr 1; omega
        rw [this, ← Nat.mul_assoc] at h4
        exact Nat.eq_of_mul_eq_mul_right hKp h4
      have hv := F.valU_eq (E := p - K + 1) (m := u.toNat) (by omega) h3.le (Or.inl h2)
      rw [Nat.add_sub_cancel, ← hRe] at hv
      have hn : (p - K) * 2 ^ F.s + u.toNat < F.infRep := by rw [← F.valU_lt_iff, hv]; exact hR
      have hpk : p - K < 2 ^ F.e := by
        have h5 : (p - K) * 2 ^ F.s < 2 ^ F.e * 2 ^ F.s := by omega
        exact lt_of_mul_lt_mul_right h5 (Nat.zero_le _)
      have hsum : (p - K + 1) * 2 ^ F.s + (u.toNat - 2 ^ F.s) = (p - K) * 2 ^ F.s + u.toNat := by
        rw [Nat.succ_mul]; omega
      have hww : 2 ^ F.w = 2 * 2 ^ (F.e + F.s) := by rw [← Nat.pow_succ']
      have hle1 : p - K + 1 ≤ (p - K + 1) * 2 ^ F.s := Nat.le_mul_of_pos_right _ hpp
      refine Ok.bind (shlC_spec (by omega)) ?_
      intro one hone
      rw [F.toNat_one', Nat.one_mul, Nat.mod_eq_of_lt (by omega)] at hone
      refine Ok.bind (subC_spec (by omega)) ?_
      intro v hv'
      refine Ok.bind (shlC_spec (by omega)) ?_
      intro t ht
      have he2 : (BitVec.ofInt F.w e).toNat = p - K + 1 := by
        have : e = ((p - K + 1 : Nat) : Int) := by omega
        rw [this, BitVec.ofInt_natCast, BitVec.toNat_ofNat, Nat.mod_eq_of_lt (by omega)]
      rw [he2, Nat.mod_eq_of_lt (by omega)] at ht
      refine Ok.pure' (fin _ _ ?_ hv)
      rw [BitVec.toNat_or, ht, hv', hone, ← hsum, Nat.or_comm, Nat.mul_comm]
      exact (Nat.two_pow_add_eq_or_of_lt (by omega) _).symm
    · rw [if_neg he]
      have hue : u.toNat = R * 2 ^ (K - p) := by
        have : 2 ^ K = 2 ^ (K - p) * 2 ^ p := by rw [← Nat.pow_add]; congr 1; omega
        rw [this, ← Nat.mul_assoc] at h4
        exact (Nat.eq_of_mul_eq_mul_right (Nat.two_pow_pos _) h4).symm
      have hkp : K - p ≤ F.s := by
        by_contra hc
        have h5 : 2 ^ (F.s + 1) ≤ 2 ^ (K - p) := two_pow_le (by omega)
        have h6 : 2 ^ (K - p) ≤ R * 2 ^ (K - p) := Nat.le_mul_of_pos_left _ (Nat.pos_of_ne_zero h0)
        omega
      refine Ok.bind (i32C_spec (by omega)) ?_
      rintro _ rfl
      refine Ok.bind (i32C_spec (by omega)) ?_
      rintro _ rfl
      refine Ok.mono (shrC_spec (by omega)) ?_
      intro r hr
      have e1 : (-e + 1).toNat = K - p := by omega
      rw [e1, hue, Nat.mul_div_cancel _ (Nat.two_pow_pos _)] at hr
      refine fin r R hr (F.valU_small ?_)
      have := Nat.le_mul_of_pos_right R (Nat.two_pow_pos (K - p))
      omega

/-- Sterbenz: the difference of two numbers within a factor of two of each other is a number -/
theorem sterbenz {a b : Nat} (h1 : a ≤ b) (h2 : F.valU b ≤ 2 * F.valU a) :
    ∃ c, c ≤ a ∧ F.valU c = F.valU b - F.valU a := by
  have hsu := F.ps_succ
  have hpp := Nat.two_pow_pos F.s
  obtain ⟨E, m, e1, e2, e3, e4⟩ := F.decomp a
  obtain ⟨E', m', g1, g2, g3, g4⟩ := F.decomp b
  have hva := F.valU_eq e1 e2.le e3
  have hvb := F.valU_eq g1 g2.le g3
  rw [← e4] at hva
  rw [← g4] at hvb
  have hEE : E ≤ E' := by
    by_contra hc
    have h3 : (E' - 1) * 2 ^ F.s + 2 ^ F.s ≤ (E - 1) * 2 ^ F.s := by
      rw [← Nat.succ_mul]; exact Nat.mul_le_mul_right _ (by omega)
    omega
  have hb : F.valU b = m' * 2 ^ (E' - E) * 2 ^ (E - 1) := by
    rw [hvb, Nat.mul_assoc, ← Nat.pow_add]; congr 2; omega
  have hpE := Nat.two_pow_pos (E - 1)
  have hd : F.valU b - F.valU a = (m' * 2 ^ (E' - E) - m) * 2 ^ (E - 1) := by rw [hb, hva, Nat.sub_mul]
  have hle : m' * 2 ^ (E' - E) - m ≤ m := by
    have : (m' * 2 ^ (E' - E) - m) * 2 ^ (E - 1) ≤ m * 2 ^ (E - 1) := by rw [← hd, ← hva]; omega
    exact le_of_mul_le_mul_right this hpE
  generalize m' * 2 ^ (E' - E) - m = j at *
  have hu := F.ulp0_pos ℚ
  obtain ⟨c, c1, c2⟩ := F.exists_repr E e1 j (by omega)
  have hc : F.valU c = j * 2 ^ (E - 1) := by
    have e5 : (2 : ℚ) ^ ((E : ℤ) - F.bias - F.s) = 2 ^ (E - 1) * F.ulp0 ℚ := by
      unfold ulp0
      rw [← zpow_natCast, ← zpow_add₀ (by norm_num)]; congr 1; push_cast [e1]; ring
    rw [F.magVal_eq, e5, ← mul_assoc] at c1
    have := mul_right_cancel₀ hu.ne' c1
    exact_mod_cast this
  refine ⟨c, ?_, by rw [hc, hd]⟩
  rw [← F.valU_le_iff, hc, hva]
  exact Nat.mul_le_mul_right _ hle

/-- whether the quotient is rounded up -/
def RqUp (X Y : Nat) : Prop := 2 * (X % Y) > Y ∨ (2 * (X % Y) = Y ∧ X / Y % 2 = 1)
instance (X Y : Nat) : Decidable (RqUp X Y) := by unfold RqUp; infer_instance

/-- the result of `remquo` in units of the smallest number -/
def RqRes (sx sy : Bool) (X Y : Nat) (r : BitVec F.w × Int) : Prop :=
  F.IsFin r.1 ∧
  F.sign r.1 = (sx ^^ decide (RqUp X Y)) ∧
  F.valU (F.mag r.1) = (if RqUp X Y then Y - X % Y else X % Y) ∧
  r.2 = (if sx ^^ sy then -1 else 1) * (((X / Y + if RqUp X Y then 1 else 0) % 2 ^ 31 : Nat) : Int)

theorem abs_pattern (y : BitVec F.w) : F.sign (if F.sign y then F.neg y else y) = false ∧
    F.mag (if F.sign y then F.neg y else y) = F.mag y := by
  cases h : F.sign y
  · simp [h]
  · simp [F.sign_neg, F.mag_neg, h]

theorem neg_pattern (c : Bool) (y : BitVec F.w) : F.sign (if c then F.neg y else y) = (c ^^ F.sign y) ∧
    F.mag (if c then F.neg y else y) = F.mag y := by
  cases c
  · simp
  · simp [F.sign_neg, F.mag_neg]

theorem val_pos {b : BitVec F.w} (h : F.sign b = false) : F.val b = F.valU (F.mag b) * F.ulp0 ℚ := by
  rw [F.val_sign, h, F.magVal_eq]; simp
theorem val_negv {b : BitVec F.w} (h : F.sign b = true) : F.val b = -(F.valU (F.mag b) * F.ulp0 ℚ) := by
  rw [F.val_sign, h, F.magVal_eq]; simp

set_option maxHeartbeats 1000000 in
theorem rqFinish_spec (N : FPU F) {incr : BitVec 32 → M (BitVec 32)} {sx sy : Bool} {x y : BitVec F.w} {q : BitVec 32}
    {e ey : Int} {X Y : Nat} (hy : F.IsFin y) (hY : F.valU (F.mag y) = Y) (hsy : F.sign y = sy) (hsx : F.sign x = false)
    (hR : F.valU (F.mag x) = X % Y) (hY0 : 0 < Y) (hq : q.toNat = X / Y % 2 ^ 32)
    (hincr : Ok (incr q) (fun r => r.toNat = (q.toNat + 1) % 2 ^ 32)) {uy : Nat} (hNy : F.Nm uy ey Y)
    (hey : ey < (2 ^ F.e - 1 : Nat)) (hey0 : 1 - (F.s : Int) ≤ ey)
    (h : (X % Y = 0 ∧ e < -F.s ∧ -2 ^ 20 ≤ e) ∨ ∃ u, X % Y ≠ 0 ∧ F.Nm u e (X % Y)) :
    Ok (F.rqFinish N incr sx sy x y q e ey) (F.RqRes sx sy X Y) := by
  have hsu := F.ps_succ
  have hpp := Nat.two_pow_pos F.s
  have hpl := F.pe_le
  have hpe := F.pe_ge
  have hs' := F.hs'
  have hu := F.ulp0_pos ℚ
  have hil := F.infRep_lt
  have hbg := F.bias_ge
  have hpb := F.pe_bias
  have hrY := Nat.mod_lt X hY0
  unfold rqFinish
  rw [← hsy]
  obtain ⟨y1, y2⟩ := F.abs_pattern y
  generalize (if F.sign y then F.neg y else y) = y' at *
  have hfy : F.IsFin y' := by unfold IsFin; rw [y2]; exact hy
  have hfx : F.IsFin x := by
    unfold IsFin at hy ⊢
    have : F.mag x < F.mag y := by rw [← F.valU_lt_iff, hR, hY]; exact hrY
    omega
  obtain ⟨py, b1, b2, b3, b4⟩ := hNy
  have hcmp : (-2 ^ 20 ≤ e ∧ e < 2 ^ 20) ∧ (e = ey → 2 * (X % Y) > Y) ∧
      (e ≠ ey → e + 1 ≠ ey → 2 * (X % Y) < Y) ∧ (e + 1 = ey → 2 * (X % Y) < F.valU F.infRep) := by
    rcases h with h | ⟨u, h0, p, h1, h2, h3, h4⟩
    · rw [h.1]; refine ⟨by omega, by omega, by omega, by omega⟩
    · generalize hK : 2 * F.s + 2 = K at *
      generalize X % Y = R at *
      have hKp := Nat.two_pow_pos K
      have canc : ∀ a b : Nat, a * 2 ^ K < b * 2 ^ K → a < b := fun a b h => lt_of_mul_lt_mul_right h (Nat.zero_le _)
      have hple : p ≤ py := by
        by_contra hc
        have : Y < R := by
          apply canc
          rw [h4, b4]
          calc uy * 2 ^ py < 2 ^ (F.s + 1) * 2 ^ py := Nat.mul_lt_mul_of_pos_right b3 (Nat.two_pow_pos _)
            _ = 2 ^ (F.s + py + 1) := by rw [← Nat.pow_add]; congr 1; omega
            _ ≤ 2 ^ (F.s + p) := two_pow_le (by omega)
            _ = 2 ^ F.s * 2 ^ p := Nat.pow_add _ _ _
            _ ≤ u * 2 ^ p := Nat.mul_le_mul_right _ h2
        omega
      refine ⟨by omega, fun hee => ?_, fun he1 he2 => ?_, fun he1 => ?_⟩
      · apply canc
        have hpp' : p = py := by omega
        rw [Nat.mul_assoc, h4, b4, ← Nat.mul_assoc, hpp']
        exact Nat.mul_lt_mul_of_pos_right (by omega) (Nat.two_pow_pos _)
      · apply canc
        rw [Nat.mul_assoc, h4, b4]
        calc 2 * (u * 2 ^ p) = u * 2 ^ (p + 1) := by rw [Nat.pow_succ]; ring
          _ < 2 ^ (F.s + 1) * 2 ^ (p + 1) := Nat.mul_lt_mul_of_pos_right h3 (Nat.two_pow_pos _)
          _ = 2 ^ (F.s + p + 2) := by rw [← Nat.pow_add]; congr 1; omega
          _ ≤ 2 ^ (F.s + py) := two_pow_le (by omega)
          _ = 2 ^ F.s * 2 ^ py := Nat.pow_add _ _ _
          _ ≤ _ := Nat.mul_le_mul_right _ b2
      · rw [F.valU_infRep]
        apply canc
        rw [Nat.mul_assoc, h4]
        calc 2 * (u * 2 ^ p) = u * 2 ^ (p + 1) := by rw [Nat.pow_succ]; ring
          _ < 2 ^ (F.s + 1) * 2 ^ (p + 1) := Nat.mul_lt_mul_of_pos_right h3 (Nat.two_pow_pos _)
          _ = 2 ^ (F.s + p + 2) := by rw [← Nat.pow_add]; congr 1; omega
          _ ≤ 2 ^ (F.s + (2 ^ F.e - 2) + K) := two_pow_le (by omega)
          _ = _ := by rw [Nat.pow_add, Nat.pow_add]
  obtain ⟨hem, hc1, hc2, hc3⟩ := hcmp
  have hq2 : q % 2#32 ≠ 0#32 ↔ X / Y % 2 = 1 := by
    have e2 : (2#32).toNat = 2 := rfl
    rw [Ne, eq_zero_iff, BitVec.toNat_umod, hq, e2]
    omega
  refine Ok.bind (i32C_spec (by omega)) ?_
  rintro _ rfl
  have hpow := F.fromParts_pow (E := F.bias + 1) (by omega) (by omega)
  generalize F.fromParts false (F.bias + 1) 0#F.w = two at *
  have hmul := (N.mul_spec two x).1 hpow.fin hfx
  generalize N.mul two x = t at *
  have hts : F.sign t = false := by rw [hmul.2, hpow.sgn, hsx]; rfl
  have hcond : (e = ey ∨ (e + 1 = ey ∧ (F.gt t y' = true ∨ (F.feq t y' = true ∧ q % 2#32 ≠ 0#32)))) ↔ RqUp X Y := by
    unfold RqUp
    rw [hq2]
    by_cases h1 : e = ey
    · have := hc1 h1
      exact iff_of_true (Or.inl h1) (Or.inl this)
    · by_cases h2 : e + 1 = ey
      · rw [or_iff_right h1, and_iff_right h2]
        have hlt := hc3 h2
        obtain ⟨n', hn'⟩ := F.scale_up (F.mag x) (a := 1) (by omega)
        have hv' : F.valU n' = 2 * (X % Y) := by
          rw [F.magVal_eq, F.magVal_eq, hR, zpow_one, mul_right_comm] at hn'
          have := mul_right_cancel₀ hu.ne' hn'
          have h3 : F.valU n' = X % Y * 2 := by exact_mod_cast this
          omega
        have hn : n' < F.infRep := by rw [← F.valU_lt_iff, hv']; exact hlt
        obtain ⟨c, c1, c2⟩ := F.exists_sign_mag false (n := n') (by omega)
        have hmt : F.mag t = n' := by
          rw [← c2]
          refine (Rounds.exact F hmul.1 (c := c) (by omega) ?_).1
          show _ = F.val c
          rw [F.val_pos c1, c2, ← F.magVal_eq, hn', F.val_sign two, F.val_sign x, hpow.sgn, hsx, hpow.value]
          push_cast
          rw [add_sub_cancel_left]
          simp [mul_comm]
        have hsm : ∀ b : BitVec F.w, F.sign b = false → F.smag b = (F.mag b : Int) := by
          intro b hb; unfold smag; rw [hb]; simp
        rw [F.gt_iff, F.feq_iff, hsm _ hts, hsm _ y1, hmt, y2]
        have ht1 : ¬ F.IsNaN t := by unfold IsNaN; omega
        have ht2 : ¬ F.IsNaN y' := IsFin.not_nan F hfy
        have g1 : ((F.mag y : Int) < (n' : Int)) ↔ 2 * (X % Y) > Y := by
          rw [← hv', ← hY, gt_iff_lt, F.valU_lt_iff]; omega
        have g2 : ((n' : Int) = (F.mag y : Int)) ↔ 2 * (X % Y) = Y := by
          rw [← hv']
          conv_rhs => rw [← hY]
          rw [F.valU_inj]; omega
        rw [g1, g2]
        simp only [ht1, ht2, not_false_eq_true, true_and]
      · have := hc2 h1 h2
        refine iff_of_false (by tauto) (by omega)
  have key : Ok (if e = ey ∨ (e + 1 = ey ∧ (F.gt t y' = true ∨ (F.feq t y' = true ∧ q % 2#32 ≠ 0#32))) then (do
      let q ← incr q
      pure (N.sub x y', q))
    else pure (x, q)) (fun r => F.IsFin r.1 ∧ F.sign r.1 = decide (RqUp X Y) ∧
      F.valU (F.mag r.1) = (if RqUp X Y then Y - X % Y else X % Y) ∧
      r.2.toNat = (X / Y + if RqUp X Y then 1 else 0) % 2 ^ 32) := by
    by_cases hup : RqUp X Y
    · rw [if_pos (hcond.mpr hup)]
      refine Ok.bind hincr ?_
      intro q' hq'
      refine Ok.pure' ?_
      dsimp only
      have hxy : F.mag x ≤ F.mag y := by rw [← F.valU_le_iff, hR, hY]; omega
      obtain ⟨n, n1, n2⟩ := F.sterbenz hxy (by rw [hR, hY]; unfold RqUp at hup; omega)
      rw [hR, hY] at n2
      have hfx' := hfx
      unfold IsFin at hfx'
      obtain ⟨c, c1, c2⟩ := F.exists_sign_mag true (n := n) (by omega)
      have hsub := ((N.sub_spec x y').1 hfx (F.isFin_neg.mpr hfy)).1
      have hval : F.val x + F.val (F.neg y') = F.val c := by
        rw [F.val_neg, F.val_pos hsx, F.val_pos y1, F.val_negv c1, c2, n2, hR, y2, hY, Nat.cast_sub hrY.le]; ring
      have hex := Rounds.exact F hsub (c := c) (by omega) hval
      have hne : F.val x + F.val (F.neg y') ≠ 0 := by
        rw [hval, F.val_negv c1, c2, n2]
        have : (0 : ℚ) < ((Y - X % Y : Nat) : ℚ) := by exact_mod_cast (by omega : 0 < Y - X % Y)
        have := mul_pos this hu
        linarith
      rw [if_pos hup, if_pos hup]
      refine ⟨by unfold IsFin; rw [hex.1]; omega, by rw [hex.2 hne, c1]; simp [hup], by rw [hex.1, c2, n2], ?_⟩
      rw [hq', hq]; omega
    · rw [if_neg (fun h => hup (hcond.mp h))]
      refine Ok.pure' ?_
      dsimp only
      rw [if_neg hup, if_neg hup]
      exact ⟨hfx, by rw [hsx]; simp [hup], hR, by rw [hq, Nat.add_zero]⟩
  refine Ok.bind key ?_
  rintro ⟨x', q'⟩ ⟨k1, k2, k3, k4⟩
  dsimp only at k1 k2 k3 k4 ⊢
  have hand : (q' &&& 0x7fffffff#32).toNat = (X / Y + if RqUp X Y then 1 else 0) % 2 ^ 31 := by
    rw [BitVec.toNat_and, k4]
    have : (0x7fffffff#32).toNat = 2 ^ 31 - 1 := rfl
    rw [this, Nat.and_two_pow_sub_one_eq_mod]
    generalize (X / Y + if RqUp X Y then 1 else 0) = z
    omega
  have hti : (q' &&& 0x7fffffff#32).toInt = ((((X / Y + if RqUp X Y then 1 else 0) % 2 ^ 31 : Nat)) : Int) := by
    rw [BitVec.toInt_eq_toNat_of_lt (by rw [hand]; omega), hand]
  rw [hti]
  refine Ok.bind (P := fun r => r = (if sx ^^ F.sign y then -1 else 1) * (((X / Y + if RqUp X Y then 1 else 0) % 2 ^ 31 : Nat) : Int)) ?_ ?_
  · split
    · refine Ok.mono (i32C_spec (by omega)) ?_
      rintro _ rfl; ring
    · exact Ok.pure' (by ring)
  · rintro quo hquo
    refine Ok.pure' ?_
    obtain ⟨p1, p2⟩ := F.neg_pattern sx x'
    refine ⟨?_, ?_, ?_, hquo⟩
    · dsimp only; unfold IsFin; rw [p2]; exact k1
    · dsimp only; rw [p1, k2]
    · dsimp only; rw [p2, k3]

theorem shl_one_zero_iff (y : BitVec F.w) : y <<< 1 = 0#F.w ↔ F.mag y = 0 := by
  have hww : 2 ^ F.w = 2 * 2 ^ (F.e + F.s) := by rw [← Nat.pow_succ']
  rw [eq_zero_iff, BitVec.toNat_shiftLeft, Nat.shiftLeft_eq, Nat.pow_one, hww, Nat.mul_comm, Nat.mul_mod_mul_left]
  unfold mag
  omega

theorem shr_sign (y : BitVec F.w) : (y >>> (F.w - 1) != 0#F.w) = F.sign y := by
  have hml := F.mag_lt y
  rw [Bool.eq_iff_iff, bne_iff_ne, Ne, eq_zero_iff, BitVec.toNat_ushiftRight, Nat.shiftRight_eq_div_pow, show F.w - 1 = F.e + F.s from rfl,
    F.toNat_eq y]
  have hp := Nat.two_pow_pos (F.e + F.s)
  cases F.sign y
  · simp [Nat.div_eq_of_lt hml]
  · simp [Nat.add_div_left _ hp]

theorem remquoG_fin (N : FPU F) {incr : BitVec 32 → M (BitVec 32)} {sent : Int} (h1 : -(F.w : Int) + 2 ≤ sent)
    (h2 : sent < -(F.s : Int))
    (hi : ∀ q : BitVec 32, (F.s + 1 ≤ 31 → q.toNat ≠ 2 ^ 32 - 1) → Ok (incr q) (fun r => r.toNat = (q.toNat + 1) % 2 ^ 32))
    {x y : BitVec F.w} (hx : F.IsFin x) (hy : F.IsFin y) (hz : ¬ F.IsZero y) :
    Ok (F.remquoG N incr sent x y) (F.RqRes (F.sign x) (F.sign y) (F.valU (F.mag x)) (F.valU (F.mag y))) := by
  have hpp := Nat.two_pow_pos F.s
  have hpe := F.pe_ge
  have hpl := F.pe_le
  have hs' := F.hs'
  have he' := F.he'
  have hw : F.w = F.e + F.s + 1 := rfl
  unfold IsZero at hz
  have hY0 : 0 < F.valU (F.mag y) := by
    have := F.valU_lt_iff.mpr (Nat.pos_of_ne_zero hz); rwa [F.valU_zero] at this
  unfold remquoG
  rw [F.shr_sign, F.shr_sign]
  dsimp only
  rw [if_neg (by
    rw [F.shl_one_zero_iff, F.isNan_iff, F.ex_sat_iff]
    have := IsFin.not_nan F hy
    tauto)]
  have early : 2 * F.valU (F.mag x) < F.valU (F.mag y) →
      F.RqRes (F.sign x) (F.sign y) (F.valU (F.mag x)) (F.valU (F.mag y)) (x, 0) := by
    intro hlt
    have hd : F.valU (F.mag x) / F.valU (F.mag y) = 0 := Nat.div_eq_of_lt (by omega)
    have hm : F.valU (F.mag x) % F.valU (F.mag y) = F.valU (F.mag x) := Nat.mod_eq_of_lt (by omega)
    have hup : ¬ RqUp (F.valU (F.mag x)) (F.valU (F.mag y)) := by unfold RqUp; rw [hm, hd]; omega
    refine ⟨hx, by simp [hup], by simp only [hup, if_false, hm], by simp [hup, hd]⟩
  by_cases hx0 : F.mag x = 0
  · rw [if_pos ((F.shl_one_zero_iff x).mpr hx0)]
    refine Ok.pure' (early ?_)
    rw [hx0, F.valU_zero]; omega
  · rw [if_neg (fun h => hx0 ((F.shl_one_zero_iff x).mp h))]
    refine Ok.bind (F.rqNormalize_spec hx0) ?_
    rintro ⟨u, ex⟩ ⟨a1, a2, a3⟩
    refine Ok.bind (F.rqNormalize_spec hz) ?_
    rintro ⟨uy, ey⟩ ⟨b1, b2, b3⟩
    dsimp only at a1 a2 a3 b1 b2 b3 ⊢
    have hex := F.mag_isFin_div hx
    have hey := F.mag_isFin_div hy
    rw [← F.ex_eq] at hex hey
    refine Ok.bind (F.rqReduce_spec sent a1 b1 a2 b2 (by omega) (by omega)) ?_
    intro r hr
    rcases r with _ | ⟨u', q, e⟩
    · exact Ok.pure' (early hr)
    · obtain ⟨r1, r2, r3⟩ := hr
      have hRY := Nat.mod_lt (F.valU (F.mag x)) hY0
      dsimp only
      refine Ok.bind (F.rqScale_spec (R := F.valU (F.mag x) % F.valU (F.mag y)) ?_ ?_) ?_
      · rcases r3 with ⟨c1, c2, c3⟩ | ⟨c1, c2⟩
        · exact Or.inl ⟨c1, c2, by omega, by omega⟩
        · exact Or.inr ⟨c1, c2⟩
      · exact lt_trans hRY (F.valU_lt_iff.mpr hy)
      · rintro r ⟨s1, s2⟩
        refine F.rqFinish_spec N hy rfl rfl s1 s2 hY0 r1 (hi q r2) b1 (by omega) b2 ?_
        rcases r3 with ⟨c1, c2, c3⟩ | ⟨c1, c2⟩
        · exact Or.inl ⟨c1, by omega, by omega⟩
        · exact Or.inr ⟨_, c1, c2⟩

theorem remquoG_invalid (N : FPU F) (incr : BitVec 32 → M (BitVec 32)) (sent : Int) {x y : BitVec F.w}
    (h : ¬ F.IsFin x ∨ F.IsNaN y ∨ F.IsZero y) : ∃ r, F.remquoG N incr sent x y = .ok (r, 0) ∧ F.IsNaN r := by
  unfold remquoG
  dsimp only
  rw [if_pos (by
    rw [F.shl_one_zero_iff, F.isNan_iff, F.ex_sat_iff]
    unfold IsZero at h; tauto)]
  refine ⟨_, rfl, ?_⟩
  exact F.mul_div_nan N h

theorem remquoG_inf (N : FPU F) (incr : BitVec 32 → M (BitVec 32)) (sent : Int) {x y : BitVec F.w}
    (hx : F.IsFin x) (hy : F.IsInf y) : F.remquoG N incr sent x y = .ok (x, 0) := by
  have hpp := Nat.two_pow_pos F.s
  have hpe := F.pe_ge
  have hpl := F.pe_le
  have hs' := F.hs'
  have he' := F.he'
  have hil := F.infRep_lt
  have hw : F.w = F.e + F.s + 1 := rfl
  have hip := F.ps_le_infRep
  have hps := F.ps_ge
  have hy' := hy
  unfold IsInf at hy'
  apply Ok.eq
  unfold remquoG
  rw [F.shr_sign, F.shr_sign]
  dsimp only
  rw [if_neg (by
    rw [F.shl_one_zero_iff, F.isNan_iff, F.ex_sat_iff]
    have := IsInf.not_nan F hy
    have : F.mag y ≠ 0 := by omega
    tauto)]
  by_cases hx0 : F.mag x = 0
  · rw [if_pos ((F.shl_one_zero_iff x).mpr hx0)]
    exact Ok.pure' rfl
  · rw [if_neg (fun h => hx0 ((F.shl_one_zero_iff x).mp h))]
    refine Ok.bind (F.rqNormalize_spec hx0) ?_
    rintro ⟨u, ex⟩ ⟨a1, a2, a3⟩
    refine Ok.bind (F.rqNormalize_spec (x := y) (by omega)) ?_
    rintro ⟨uy, ey⟩ ⟨b1, b2, b3⟩
    dsimp only at a1 a2 a3 b1 b2 b3 ⊢
    have hex := F.mag_isFin_div hx
    rw [← F.ex_eq] at hex
    have hey := F.mag_div_lt y
    rw [← F.ex_eq] at hey
    have hey1 := (F.ex_sat_iff y).mpr (IsInf.not_fin F hy)
    rw [F.expSat_eq] at hey1
    unfold rqReduce
    refine Ok.bind (P := fun r => r = none ∨ r = some (u, 0#32, ex) ∧ ex + 1 = ey) ?_ ?_
    · refine Ok.bind (i32C_spec (by omega)) ?_
      rintro _ rfl
      by_cases h1 : ex + 1 = ey
      · rw [if_neg (by omega)]; exact Ok.pure' (Or.inr ⟨rfl, h1⟩)
      · rw [if_pos h1, if_pos (by omega)]; exact Ok.pure' (Or.inl rfl)
    · rintro r (rfl | ⟨rfl, h1⟩)
      · exact Ok.pure' rfl
      · dsimp only
        have hX0 : F.valU (F.mag x) ≠ 0 := by
          have := F.valU_lt_iff.mpr (Nat.pos_of_ne_zero hx0); rw [F.valU_zero] at this; omega
        refine Ok.bind (F.rqScale_spec (Or.inr ⟨hX0, a1⟩) (F.valU_lt_iff.mpr hx)) ?_
        rintro r ⟨s1, s2⟩
        rw [F.valU_inj] at s2
        unfold rqFinish
        obtain ⟨y1, y2⟩ := F.abs_pattern y
        generalize (if F.sign y then F.neg y else y) = y' at *
        dsimp only
        refine Ok.bind (i32C_spec (by omega)) ?_
        rintro _ rfl
        rw [if_neg (by
          rintro (h | ⟨_, h | ⟨_, h⟩⟩)
          · omega
          · rw [F.gt_iff] at h
            obtain ⟨t1, _, t3⟩ := h
            unfold IsNaN at t1
            unfold smag at t3
            rw [y1, y2] at t3
            simp only [Bool.false_eq_true, if_false] at t3
            split at t3 <;> omega
          · exact h (by decide))]
        refine Ok.bind (Ok.pure' rfl) ?_
        rintro _ rfl
        dsimp only
        have e0 : (0#32 &&& 0x7fffffff#32).toInt = 0 := rfl
        rw [e0]
        refine Ok.bind (P := (· = 0)) ?_ ?_
        · split
          · exact Ok.mono (i32C_spec (by omega)) (by rintro _ rfl; rfl)
          · exact Ok.pure' rfl
        · rintro _ rfl
          refine Ok.pure' ?_
          obtain ⟨p1, p2⟩ := F.neg_pattern (F.sign x) r
          congr 1
          apply F.ext_sign_mag
          · rw [p1, s1]; simp
          · rw [p2, s2]

end Fmt
end Verif
