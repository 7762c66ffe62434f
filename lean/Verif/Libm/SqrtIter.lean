import Verif.Libm.Sqrt
import Verif.Libm.SqrtReal
/-! # The iterations of `sqrt`: specification in natural numbers, and error bounds per format -/
namespace Verif
open SqrtReal

theorem wmulh_spec {w} {O : DOps w} (hO : O.Lawful) (a b : BitVec w) :
    Ok (wmulh O a b) (fun c => c.toNat = a.toNat * b.toNat / 2 ^ w) := by
  unfold wmulh
  refine Ok.bind (hO.widenMul a b) ?_
  intro d hd
  refine Ok.pure' ?_
  have hl := (O.lo d).isLt
  have : O.val d = (O.hi d).toNat * 2 ^ w + (O.lo d).toNat := rfl
  rw [← hd, this, Nat.add_comm, Nat.add_mul_div_right _ _ (Nat.two_pow_pos w), Nat.div_eq_of_lt hl, Nat.zero_add]

/-- `s` after the multiplication, with or without doubling -/
def natS (w : Nat) (sh : Bool) (S U : Nat) : Nat := if sh then stepR w S U else S * U / 2 ^ w

theorem goldStep_spec {w} {O : DOps w} (hO : O.Lawful) (hw : 16 ≤ w) {count : Nat} {final : Bool} {three : BitVec w} {i : Nat}
    {g : Gold w} (h3 : three.toNat = 3 * 2 ^ (w - 2)) :
    Ok (goldStep O count final three i g) (fun g' =>
      g'.s.toNat = natS w (decide (i > 0) && (!final || decide (i + 1 < count))) g.s.toNat g.u.toNat ∧
      g'.u.toNat = stepU w g.r.toNat g'.s.toNat ∧ g'.r.toNat = stepR w g.r.toNat g'.u.toNat) := by
  unfold goldStep natS
  refine Ok.bind (wmulh_spec hO _ _) ?_
  intro s0 hs0
  refine Ok.bind (P := fun s => s.toNat = natS w (decide (i > 0) && (!final || decide (i + 1 < count))) g.s.toNat g.u.toNat) ?_ ?_
  · unfold natS
    split
    · refine (shlC_spec (by omega)).mono ?_
      intro r hr; rw [hr, hs0]; rfl
    · exact Ok.pure' hs0
  intro s hs
  refine Ok.bind (wmulh_spec hO _ _) ?_
  intro d hd
  dsimp only
  have hu : (three - d).toNat = stepU w g.r.toNat s.toNat := by
    rw [BitVec.toNat_sub, hd, h3]; rfl
  refine Ok.bind (wmulh_spec hO _ _) ?_
  intro r hr
  refine Ok.bind (shlC_spec (by omega)) ?_
  intro r' hr'
  refine Ok.pure' ⟨hs, hu, ?_⟩
  dsimp only
  rw [hr', hr]; rfl

theorem three_spec {w} (hw : 16 ≤ w) : Ok (shlC 3#w (w - 2)) (fun t => t.toNat = 3 * 2 ^ (w - 2)) := by
  refine (shlC_spec (by omega)).mono ?_
  intro r hr
  have h4 : 2 ^ w = 4 * 2 ^ (w - 2) := by
    rw [show (4 : Nat) = 2 ^ 2 from rfl, ← Nat.pow_add]; congr 1; omega
  have hp := Nat.two_pow_pos (w - 2)
  have hp' : 2 ^ 4 ≤ 2 ^ w := Nat.pow_le_pow_right (by norm_num) (by omega)
  rw [hr, BitVec.toNat_ofNat, Nat.mod_eq_of_lt (a := 3) (by omega), Nat.mod_eq_of_lt (by omega)]

theorem gold0 {w} {O : DOps w} (hw : 16 ≤ w) (r s : BitVec w) (final : Bool) :
    Ok (goldschmidt O r s 0 final) (fun p => p.1 = r) := by
  unfold goldschmidt
  refine Ok.bind (three_spec hw) ?_
  intro t _
  refine Ok.bind (P := fun g => g.r = r) (Ok.pure' rfl) ?_
  intro g hg
  exact Ok.pure' hg

theorem goldLoop_zero {w} (O : DOps w) (c : Nat) (f : Bool) (t : BitVec w) (i : Nat) (g : Gold w) :
    goldLoop O c f t i 0 g = pure g := rfl
theorem goldLoop_succ {w} (O : DOps w) (c : Nat) (f : Bool) (t : BitVec w) (i n : Nat) (g : Gold w) :
    goldLoop O c f t i (n + 1) g = (do let g ← goldStep O c f t i g; goldLoop O c f t (i + 1) n g) := rfl

theorem gold1 {w} {O : DOps w} (hO : O.Lawful) (hw : 16 ≤ w) (r s : BitVec w) :
    Ok (goldschmidt O r s 1 false) (fun p =>
      p.1.toNat = stepR w r.toNat (stepU w r.toNat (s.toNat * r.toNat / 2 ^ w))) := by
  unfold goldschmidt
  refine Ok.bind (three_spec hw) ?_
  intro t ht
  rw [goldLoop_succ]
  refine Ok.bind (P := fun g => g.r.toNat = stepR w r.toNat (stepU w r.toNat (s.toNat * r.toNat / 2 ^ w)))
    (Ok.bind (goldStep_spec hO hw ht) ?_) ?_
  · rintro g ⟨h1, h2, h3⟩
    dsimp only at h1 h2 h3
    rw [goldLoop_zero]
    refine Ok.pure' ?_
    rw [h3, h2, h1]; rfl
  · intro g hg; exact Ok.pure' hg

theorem gold2 {w} {O : DOps w} (hO : O.Lawful) (hw : 16 ≤ w) (r s : BitVec w) :
    Ok (goldschmidt O r s 2 false) (fun p => ∃ S1 U1 R1 S2,
      S1 = s.toNat * r.toNat / 2 ^ w ∧ U1 = stepU w r.toNat S1 ∧ R1 = stepR w r.toNat U1 ∧ S2 = stepR w S1 U1 ∧
      p.1.toNat = stepR w R1 (stepU w R1 S2)) := by
  unfold goldschmidt
  refine Ok.bind (three_spec hw) ?_
  intro t ht
  refine Ok.bind (P := fun g => ∃ S1 U1 R1 S2,
      S1 = s.toNat * r.toNat / 2 ^ w ∧ U1 = stepU w r.toNat S1 ∧ R1 = stepR w r.toNat U1 ∧ S2 = stepR w S1 U1 ∧
      g.r.toNat = stepR w R1 (stepU w R1 S2)) ?_ ?_
  · rw [goldLoop_succ]
    refine Ok.bind (goldStep_spec hO hw ht) ?_
    rintro g ⟨h1, h2, h3⟩
    rw [goldLoop_succ]
    refine Ok.bind (goldStep_spec hO hw ht) ?_
    rintro g' ⟨k1, k2, k3⟩
    rw [goldLoop_zero]
    refine Ok.pure' ⟨g.s.toNat, g.u.toNat, g.r.toNat, g'.s.toNat, h1, h2, h3, k1, ?_⟩
    rw [k3, k2]
  · intro g hg; exact Ok.pure' hg

theorem gold2f {w} {O : DOps w} (hO : O.Lawful) (hw : 16 ≤ w) (r s : BitVec w) :
    Ok (goldschmidt O r s 2 true) (fun p => ∃ S1, S1 = s.toNat * r.toNat / 2 ^ w ∧
      p.2.toNat = S1 * stepU w r.toNat S1 / 2 ^ w) := by
  unfold goldschmidt
  refine Ok.bind (three_spec hw) ?_
  intro t ht
  refine Ok.bind (P := fun g => ∃ S1, S1 = s.toNat * r.toNat / 2 ^ w ∧
      g.s.toNat = S1 * stepU w r.toNat S1 / 2 ^ w) ?_ ?_
  · rw [goldLoop_succ]
    refine Ok.bind (goldStep_spec hO hw ht) ?_
    rintro g ⟨h1, h2, h3⟩
    rw [goldLoop_succ]
    refine Ok.bind (goldStep_spec hO hw ht) ?_
    rintro g' ⟨k1, k2, k3⟩
    rw [goldLoop_zero]
    refine Ok.pure' ⟨g.s.toNat, h1, ?_⟩
    rw [k1, h2]; rfl
  · intro g hg; exact Ok.pure' hg

theorem gold3f {w} {O : DOps w} (hO : O.Lawful) (hw : 16 ≤ w) (r s : BitVec w) :
    Ok (goldschmidt O r s 3 true) (fun p => ∃ S1 U1 R1 S2,
      S1 = s.toNat * r.toNat / 2 ^ w ∧ U1 = stepU w r.toNat S1 ∧ R1 = stepR w r.toNat U1 ∧ S2 = stepR w S1 U1 ∧
      p.2.toNat = S2 * stepU w R1 S2 / 2 ^ w) := by
  unfold goldschmidt
  refine Ok.bind (three_spec hw) ?_
  intro t ht
  refine Ok.bind (P := fun g => ∃ S1 U1 R1 S2,
      S1 = s.toNat * r.toNat / 2 ^ w ∧ U1 = stepU w r.toNat S1 ∧ R1 = stepR w r.toNat U1 ∧ S2 = stepR w S1 U1 ∧
      g.s.toNat = S2 * stepU w R1 S2 / 2 ^ w) ?_ ?_
  · rw [goldLoop_succ]
    refine Ok.bind (goldStep_spec hO hw ht) ?_
    rintro g ⟨h1, h2, h3⟩
    rw [goldLoop_succ]
    refine Ok.bind (goldStep_spec hO hw ht) ?_
    rintro g' ⟨k1, k2, k3⟩
    rw [goldLoop_succ]
    refine Ok.bind (goldStep_spec hO hw ht) ?_
    rintro g'' ⟨l1, l2, l3⟩
    rw [goldLoop_zero]
    refine Ok.pure' ⟨g.s.toNat, g.u.toNat, g.r.toNat, g'.s.toNat, h1, h2, h3, k1, ?_⟩
    rw [l1, k2]; rfl
  · intro g hg; exact Ok.pure' hg

/-- the argument lies in the interval of table entry `i` -/
structure InTab (i : Nat) (σ : ℝ) : Prop where
  lt : i < 128
  pos : 0 ≤ σ
  low : i < 64 → 2 * (64 + (i : ℝ)) / 64 ≤ σ ^ 2 ∧ σ ^ 2 ≤ 2 * (65 + (i : ℝ)) / 64
  high : 64 ≤ i → (i : ℝ) / 64 ≤ σ ^ 2 ∧ σ ^ 2 ≤ ((i : ℝ) + 1) / 64

theorem tab_check : ∀ i < 128, rsqrtTab.getD i 0 < 2 ^ 16 ∧
    (if i < 64 then 255 ^ 2 * 2 ^ 32 * 64 ≤ 256 ^ 2 * (rsqrtTab.getD i 0) ^ 2 * (2 * (64 + i)) ∧
        256 ^ 2 * (rsqrtTab.getD i 0) ^ 2 * (2 * (65 + i)) ≤ 257 ^ 2 * 2 ^ 32 * 64
      else 255 ^ 2 * 2 ^ 32 * 64 ≤ 256 ^ 2 * (rsqrtTab.getD i 0) ^ 2 * i ∧
        256 ^ 2 * (rsqrtTab.getD i 0) ^ 2 * (i + 1) ≤ 257 ^ 2 * 2 ^ 32 * 64) := by decide +kernel

theorem InTab.eps {i : Nat} {σ : ℝ} (h : InTab i σ) :
    |1 - (rsqrtTab.getD i 0 : ℝ) / 2 ^ 16 * σ| ≤ 1 / 256 := by
  obtain ⟨_, hc⟩ := tab_check i h.lt
  generalize rsqrtTab.getD i 0 = T at *
  have hT : (0 : ℝ) ≤ T := by positivity
  have key : (255 / 256 : ℝ) ^ 2 ≤ ((T : ℝ) / 2 ^ 16 * σ) ^ 2 ∧ ((T : ℝ) / 2 ^ 16 * σ) ^ 2 ≤ (257 / 256 : ℝ) ^ 2 := by
    have e : ((T : ℝ) / 2 ^ 16 * σ) ^ 2 = (T : ℝ) ^ 2 * σ ^ 2 / 2 ^ 32 := by ring
    rw [e]
    have hT2 : (0 : ℝ) ≤ (T : ℝ) ^ 2 := by positivity
    by_cases c : i < 64
    · rw [if_pos c] at hc
      obtain ⟨c1, c2⟩ := hc
      have c1 : ((255 ^ 2 * 2 ^ 32 * 64 : Nat) : ℝ) ≤ (256 ^ 2 * T ^ 2 * (2 * (64 + i)) : Nat) := by exact_mod_cast c1
      have c2 : ((256 ^ 2 * T ^ 2 * (2 * (65 + i)) : Nat) : ℝ) ≤ (257 ^ 2 * 2 ^ 32 * 64 : Nat) := by exact_mod_cast c2
      push_cast at c1 c2
      obtain ⟨l1, l2⟩ := h.low c
      have m1 := mul_le_mul_of_nonneg_left l1 hT2
      have m2 := mul_le_mul_of_nonneg_left l2 hT2
      generalize (T : ℝ) ^ 2 * σ ^ 2 = X at *
      constructor
      · rw [le_div_iff₀ (by norm_num)]; linarith
      · rw [div_le_iff₀ (by norm_num)]; linarith
    · rw [if_neg c] at hc
      obtain ⟨c1, c2⟩ := hc
      have c1 : ((255 ^ 2 * 2 ^ 32 * 64 : Nat) : ℝ) ≤ (256 ^ 2 * T ^ 2 * i : Nat) := by exact_mod_cast c1
      have c2 : ((256 ^ 2 * T ^ 2 * (i + 1) : Nat) : ℝ) ≤ (257 ^ 2 * 2 ^ 32 * 64 : Nat) := by exact_mod_cast c2
      push_cast at c1 c2
      obtain ⟨l1, l2⟩ := h.high (by omega)
      have m1 := mul_le_mul_of_nonneg_left l1 hT2
      have m2 := mul_le_mul_of_nonneg_left l2 hT2
      generalize (T : ℝ) ^ 2 * σ ^ 2 = X at *
      constructor
      · rw [le_div_iff₀ (by norm_num)]; linarith
      · rw [div_le_iff₀ (by norm_num)]; linarith
  have hpos : 0 ≤ (T : ℝ) / 2 ^ 16 * σ := mul_nonneg (by positivity) h.pos
  have k1 := (pow_le_pow_iff_left₀ (by norm_num) hpos (by norm_num)).mp key.1
  have k2 := (pow_le_pow_iff_left₀ hpos (by norm_num) (by norm_num)).mp key.2
  rw [abs_le]; constructor <;> linarith

theorem InTab.σ_bounds {i : Nat} {σ : ℝ} (h : InTab i σ) : 1 ≤ σ ∧ σ ≤ 2 := by
  have h0 := h.pos
  have key : 1 ≤ σ ^ 2 ∧ σ ^ 2 ≤ 4 := by
    by_cases c : i < 64
    · obtain ⟨l1, l2⟩ := h.low c
      have : (i : ℝ) ≤ 63 := by exact_mod_cast (by omega : i ≤ 63)
      have : (0 : ℝ) ≤ i := by positivity
      constructor <;> linarith
    · obtain ⟨l1, l2⟩ := h.high (by omega)
      have := h.lt
      have : (i : ℝ) ≤ 127 := by exact_mod_cast (by omega : i ≤ 127)
      have : (64 : ℝ) ≤ i := by exact_mod_cast (by omega : 64 ≤ i)
      constructor <;> linarith
  constructor <;> nlinarith [key.1, key.2]

/-- near one only entry 64 is used -/
theorem InTab.near {i : Nat} {σ : ℝ} (h : InTab i σ) (hs : σ ≤ 1 + 1 / 1000) : i = 64 := by
  have h0 := h.pos
  have hs2 : σ ^ 2 < 65 / 64 := by nlinarith
  by_contra hc
  rcases Nat.lt_or_gt_of_ne hc with c | c
  · obtain ⟨l1, _⟩ := h.low c
    have : (0 : ℝ) ≤ i := by positivity
    linarith
  · obtain ⟨l1, _⟩ := h.high (by omega)
    have : (65 : ℝ) ≤ i := by exact_mod_cast c
    linarith

/-- first multiplication at a width: `s = m r` with `m` truncated to that width -/
theorem first_step {W w M R : Nat} {σ : ℝ} (hWw : W ≤ w) (hm : σ ^ 2 = 4 * (M : ℝ) / 2 ^ w) (hR : R < 2 ^ W) :
    0 ≤ σ ^ 2 * ((R : ℝ) / 2 ^ W) - 4 * ((M / 2 ^ (w - W) * R / 2 ^ W : Nat) : ℝ) / 2 ^ W ∧
    σ ^ 2 * ((R : ℝ) / 2 ^ W) - 4 * ((M / 2 ^ (w - W) * R / 2 ^ W : Nat) : ℝ) / 2 ^ W ≤ 2 * (4 / 2 ^ W) := by
  obtain ⟨a1, a2⟩ := floor_bounds M (2 ^ (w - W)) (Nat.two_pow_pos _)
  obtain ⟨b1, b2⟩ := floor_bounds (M / 2 ^ (w - W) * R) (2 ^ W) (Nat.two_pow_pos _)
  have hr0 : (0 : ℝ) ≤ (R : ℝ) / 2 ^ W := by positivity
  have hr1 : (R : ℝ) / 2 ^ W ≤ 1 := by
    rw [div_le_one (by positivity)]; exact_mod_cast hR.le
  rw [hm]
  have e : (2 : ℝ) ^ w = 2 ^ W * 2 ^ (w - W) := by rw [← pow_add]; congr 1; omega
  have e2 : 4 * (M : ℝ) / 2 ^ w = 4 / 2 ^ W * ((M : ℝ) / ((2 ^ (w - W) : Nat) : ℝ)) := by
    rw [e]; push_cast; field_simp
  rw [e2]
  generalize (M : ℝ) / ((2 ^ (w - W) : Nat) : ℝ) = μ at *
  have e3 : ((M / 2 ^ (w - W) * R : Nat) : ℝ) / ((2 ^ W : Nat) : ℝ) = ((M / 2 ^ (w - W) : Nat) : ℝ) * ((R : ℝ) / 2 ^ W) := by
    push_cast; ring
  rw [e3] at b1 b2
  generalize ((M / 2 ^ (w - W) * R / 2 ^ W : Nat) : ℝ) = X at *
  generalize ((M / 2 ^ (w - W) : Nat) : ℝ) = Y at *
  generalize (R : ℝ) / 2 ^ W = r at *
  have hh : (0 : ℝ) < 4 / 2 ^ W := by positivity
  have e4 : 4 / 2 ^ W * μ * r - 4 * X / 2 ^ W = 4 / 2 ^ W * (μ * r - X) := by ring
  rw [e4]
  have c1 : Y * r ≤ μ * r := mul_le_mul_of_nonneg_right a1 hr0
  have c2 : μ * r ≤ (Y + 1) * r := mul_le_mul_of_nonneg_right a2.le hr0
  constructor
  · apply mul_nonneg hh.le; linarith
  · have : μ * r - X ≤ 2 := by nlinarith
    nlinarith

/-- start of a set of iterations -/
theorem mkApprox {W w M R : Nat} {σ : ℝ} (h1 : 1 ≤ σ) (h2 : σ ≤ 2) (hR : R < 2 ^ W) :
    Approx W σ R (M / 2 ^ (w - W) * R / 2 ^ W) (1 - (R : ℝ) / 2 ^ W * σ)
      (σ ^ 2 * ((R : ℝ) / 2 ^ W) - 4 * ((M / 2 ^ (w - W) * R / 2 ^ W : Nat) : ℝ) / 2 ^ W) where
  R_lt := hR
  σ1 := h1
  σ2 := h2
  eps := by ring
  eta := by ring

theorem tab_scaled {W i : Nat} (hi : i < 128) (hW : 16 ≤ W) :
    rsqrtTab.getD i 0 * 2 ^ (W - 16) < 2 ^ W ∧
    ((rsqrtTab.getD i 0 * 2 ^ (W - 16) : Nat) : ℝ) / 2 ^ W = (rsqrtTab.getD i 0 : ℝ) / 2 ^ 16 := by
  obtain ⟨h, _⟩ := tab_check i hi
  obtain ⟨k, rfl⟩ : ∃ k, W = 16 + k := ⟨W - 16, by omega⟩
  rw [Nat.add_sub_cancel_left, Nat.pow_add]
  refine ⟨Nat.mul_lt_mul_of_pos_right h (Nat.two_pow_pos _), ?_⟩
  push_cast
  rw [pow_add]
  field_simp

theorem P_lower {ε a : ℝ} (ha : 0 ≤ a) (h : a ≤ ε) (h' : ε ≤ 1 / 128) : 149 / 100 * a ^ 2 ≤ 3 / 2 * ε ^ 2 - ε ^ 3 / 2 := by
  have h2 : a ^ 2 ≤ ε ^ 2 := pow_le_pow_left₀ ha h 2
  have e : 3 / 2 * ε ^ 2 - ε ^ 3 / 2 = ε ^ 2 * (3 / 2 - ε / 2) := by ring
  rw [e]
  nlinarith [sq_nonneg ε]

/-- no overflow when starting from the table -/
theorem hov_tab {W i R : Nat} {σ : ℝ} (h : InTab i σ) (hW : 32 ≤ W) (hR : (R : ℝ) / 2 ^ W = (rsqrtTab.getD i 0 : ℝ) / 2 ^ 16) :
    1 + (13 / 5) * (4 / 2 ^ W) < σ + (3 / 2 * (1 - (R : ℝ) / 2 ^ W * σ) ^ 2 - (1 - (R : ℝ) / 2 ^ W * σ) ^ 3 / 2) := by
  rw [hR]
  have he := h.eps
  have hh : (4 : ℝ) / 2 ^ W ≤ 4 / 2 ^ 32 := by
    apply div_le_div_of_nonneg_left (by norm_num) (by positivity)
    exact pow_le_pow_right₀ (by norm_num) hW
  have hh0 : (0 : ℝ) < 4 / 2 ^ W := by positivity
  generalize (4 : ℝ) / 2 ^ W = hW at *
  norm_num at hh
  by_cases c : 1 + (13 / 5) * hW < σ
  · have := (quad_bounds he (by norm_num)).1
    linarith
  · have c := not_lt.mp c
    have hi := h.near (by linarith)
    subst hi
    obtain ⟨s1, _⟩ := h.σ_bounds
    have hT : rsqrtTab.getD 64 0 = 65282 := by decide
    rw [hT] at he ⊢
    push_cast at he ⊢
    have e1 : (38 / 10000 : ℝ) ≤ 1 - 65282 / 2 ^ 16 * σ := by norm_num; linarith
    have e2 := P_lower (by norm_num) e1 (le_trans (abs_le.mp he).2 (by norm_num))
    norm_num at e2 ⊢
    linarith

theorem iter16 {i M : Nat} {σ : ℝ} (h : InTab i σ) (hm : σ ^ 2 = 4 * (M : ℝ) / 2 ^ 16) :
    |8 * ((M * rsqrtTab.getD i 0 / 2 ^ 16 * stepU 16 (rsqrtTab.getD i 0) (M * rsqrtTab.getD i 0 / 2 ^ 16) / 2 ^ 16 : Nat) : ℝ) / 2 ^ 16 - σ|
      ≤ 1 / 2 ^ 11 := by
  obtain ⟨b1, b2⟩ := h.σ_bounds
  obtain ⟨hR, _⟩ := tab_check i h.lt
  have A := mkApprox (W := 16) (w := 16) (M := M) b1 b2 hR
  obtain ⟨f1, f2⟩ := first_step (le_refl 16) hm hR
  rw [Nat.sub_self, Nat.pow_zero, Nat.div_one] at *
  have := A.final (le_refl _) h.eps (by norm_num) (by linarith) (by linarith)
  refine le_trans this ?_
  norm_num

theorem iter32 {i M R S1 : Nat} {σ : ℝ} (h : InTab i σ) (hm : σ ^ 2 = 4 * (M : ℝ) / 2 ^ 32)
    (hR : R = rsqrtTab.getD i 0 * 2 ^ (32 - 16)) (hS : S1 = M * R / 2 ^ 32) :
    |8 * ((stepR 32 S1 (stepU 32 R S1) * stepU 32 (stepR 32 R (stepU 32 R S1)) (stepR 32 S1 (stepU 32 R S1)) / 2 ^ 32 : Nat) : ℝ)
        / 2 ^ 32 - σ| ≤ 1 / 2 ^ 24 := by
  obtain ⟨b1, b2⟩ := h.σ_bounds
  obtain ⟨hRl, hRr⟩ := tab_scaled (W := 32) h.lt (by norm_num)
  rw [← hR] at hRl hRr
  have A := mkApprox (W := 32) (w := 32) (M := M) b1 b2 hRl
  obtain ⟨f1, f2⟩ := first_step (le_refl 32) hm hRl
  have ho := hov_tab h (le_refl 32) hRr
  have he := h.eps
  rw [← hRr] at he
  rw [Nat.sub_self, Nat.pow_zero, Nat.div_one, ← hS] at *
  obtain ⟨ε, η, A2, c1, c2, -, c4, c5⟩ := A.step_s (by norm_num) he (by norm_num) f1 f2 ho
  have hE : |ε| ≤ 152 / 100 / 65536 := by
    rw [abs_le]; norm_num at c1 c2 ⊢
    constructor <;> linarith
  refine le_trans (A2.final (by norm_num) hE (by norm_num) c4 c5) ?_
  norm_num

theorem near_one {i M k w : Nat} {σ c : ℝ} (h : InTab i σ) (hm : σ ^ 2 = 4 * (M : ℝ) / 2 ^ (k + w)) (hs : σ ≤ 1 + c) (hc : c ≤ 1 / 1000) :
    (2 ^ (k + w) : ℝ) ≤ 4 * M ∧ 4 * (M : ℝ) ≤ 2 ^ (k + w) * (1 + 201 / 100 * c) := by
  obtain ⟨b1, b2⟩ := h.σ_bounds
  have e : 4 * (M : ℝ) = 2 ^ (k + w) * σ ^ 2 := by rw [hm]; field_simp
  rw [e]
  have hp : (0 : ℝ) < 2 ^ (k + w) := by positivity
  generalize (2 : ℝ) ^ (k + w) = B at *
  constructor
  · have : (1 : ℝ) ≤ σ ^ 2 := by nlinarith
    nlinarith
  · apply mul_le_mul_of_nonneg_left _ hp.le
    nlinarith

theorem near64 : ∀ j < 6, let M := 2 ^ 30 + j; let R := 65282 * 2 ^ 16; let S1 := M * R / 2 ^ 32; let U1 := stepU 32 R S1
    let R1 := stepR 32 R U1; let R2 := stepR 32 R1 (stepU 32 R1 (stepR 32 S1 U1)); 2 ^ 32 - 12 ≤ R2 ∧ R2 < 2 ^ 32 := by decide +kernel

/-- the second set of iterations for `f64` -/
theorem iter64a {i M R S1 : Nat} {σ : ℝ} (h : InTab i σ) (hm : σ ^ 2 = 4 * (M : ℝ) / 2 ^ 64)
    (hR : R = rsqrtTab.getD i 0 * 2 ^ (32 - 16)) (hS : S1 = M / 2 ^ (64 - 32) * R / 2 ^ 32) :
    ∃ R2, R2 = stepR 32 (stepR 32 R (stepU 32 R S1)) (stepU 32 (stepR 32 R (stepU 32 R S1)) (stepR 32 S1 (stepU 32 R S1))) ∧
      R2 < 2 ^ 32 ∧ |1 - (R2 : ℝ) / 2 ^ 32 * σ| ≤ 14 / 2 ^ 32 := by
  refine ⟨_, rfl, ?_⟩
  obtain ⟨b1, b2⟩ := h.σ_bounds
  obtain ⟨hRl, hRr⟩ := tab_scaled (W := 32) h.lt (by norm_num)
  rw [← hR] at hRl hRr
  have A := mkApprox (W := 32) (w := 64) (M := M) b1 b2 hRl
  obtain ⟨f1, f2⟩ := first_step (by norm_num : 32 ≤ 64) hm hRl
  have ho := hov_tab h (le_refl 32) hRr
  have he := h.eps
  rw [← hRr] at he
  rw [← hS] at A f1 f2
  obtain ⟨ε, η, A2, c1, c2, -, c4, c5⟩ := A.step_s (by norm_num) he (by norm_num) f1 f2 ho
  have hE : |ε| ≤ 152 / 100 / 65536 := by
    rw [abs_le]; norm_num at c1 c2 ⊢
    constructor <;> linarith
  by_cases c : 1 + (13 / 5) * (4 / 2 ^ 32) < σ
  · have q := (quad_bounds hE (by norm_num)).1
    obtain ⟨_, _, _, _, d1, d2, d3, _⟩ := A2.step_r (by norm_num) hE (by norm_num) c4 c5 (by linarith)
    refine ⟨d1, ?_⟩
    generalize 1 - ((stepR 32 (stepR 32 R (stepU 32 R S1)) (stepU 32 (stepR 32 R (stepU 32 R S1)) (stepR 32 S1 (stepU 32 R S1))) : Nat) : ℝ)
      / 2 ^ 32 * σ = x at *
    rw [abs_le]; norm_num at d2 d3 ⊢
    constructor <;> linarith
  · have c := not_lt.mp c
    have hi := h.near (by norm_num at c ⊢; linarith)
    obtain ⟨n1, n2⟩ := near_one (k := 32) (w := 32) h hm c (by norm_num)
    have n1 : 2 ^ 62 ≤ M := by
      have : ((2 ^ 62 : Nat) : ℝ) ≤ (M : ℝ) := by
        rw [show ((2 ^ 62 : Nat) : ℝ) = 4611686018427387904 by norm_num]; norm_num at n1; linarith
      exact_mod_cast this
    have n2 : M < 2 ^ 62 + 6 * 2 ^ 32 := by
      have : (M : ℝ) < ((2 ^ 62 + 6 * 2 ^ 32 : Nat) : ℝ) := by
        rw [show ((2 ^ 62 + 6 * 2 ^ 32 : Nat) : ℝ) = 4611686044197191680 by norm_num]; norm_num at n2; linarith
      exact_mod_cast this
    obtain ⟨j, hj⟩ : ∃ j, M / 2 ^ (64 - 32) = 2 ^ 30 + j := ⟨M / 2 ^ 32 - 2 ^ 30, by norm_num; omega⟩
    have hj6 : j < 6 := by norm_num at hj; omega
    have N := near64 j hj6
    subst hi
    have hT : rsqrtTab.getD 64 0 = 65282 := by decide
    rw [hT] at hR
    rw [hj] at hS
    dsimp only at N
    rw [show (32 - 16 : Nat) = 16 from rfl] at hR
    rw [← hR, ← hS] at N
    obtain ⟨N1, N2⟩ := N
    refine ⟨N2, ?_⟩
    generalize stepR 32 (stepR 32 R (stepU 32 R S1)) (stepU 32 (stepR 32 R (stepU 32 R S1)) (stepR 32 S1 (stepU 32 R S1))) = R2 at *
    have N1 : (4294967284 : ℝ) ≤ R2 := by exact_mod_cast N1
    have N2 : (R2 : ℝ) ≤ 4294967296 := by exact_mod_cast N2.le
    norm_num at c ⊢
    rw [abs_le]; constructor <;> nlinarith

/-- the last set for a type twice as wide as the previous one -/
theorem iterLast {k W M R2 : Nat} {σ E : ℝ} (hσ1 : 1 ≤ σ) (hσ2 : σ ≤ 2) (hW : W = k + k) (hk : 32 ≤ k) (hm : σ ^ 2 = 4 * (M : ℝ) / 2 ^ W)
    (hR2 : R2 < 2 ^ k) (hE : |1 - (R2 : ℝ) / 2 ^ k * σ| ≤ E) (hE1 : E ≤ 1 / 128) :
    |8 * ((M * (R2 * 2 ^ (W - k)) / 2 ^ W * stepU W (R2 * 2 ^ (W - k)) (M * (R2 * 2 ^ (W - k)) / 2 ^ W) / 2 ^ W : Nat) : ℝ) / 2 ^ W - σ|
      ≤ (31 / 10) * E ^ 2 + (9 / 2) * (4 / 2 ^ W) := by
  have hk' : W - k = k := by omega
  have hR : R2 * 2 ^ (W - k) < 2 ^ W := by
    rw [hk', hW, Nat.pow_add]; exact Nat.mul_lt_mul_of_pos_right hR2 (Nat.two_pow_pos _)
  have hr : ((R2 * 2 ^ (W - k) : Nat) : ℝ) / 2 ^ W = (R2 : ℝ) / 2 ^ k := by
    rw [hk', hW, pow_add]; push_cast; field_simp
  have A := mkApprox (W := W) (w := W) (M := M) hσ1 hσ2 hR
  obtain ⟨f1, f2⟩ := first_step (le_refl W) hm hR
  rw [Nat.sub_self, Nat.pow_zero, Nat.div_one] at *
  rw [hr] at A f1 f2
  have hp : (0 : ℝ) < 4 / 2 ^ W := by positivity
  exact A.final (by omega) hE hE1 (by linarith) (by linarith)

theorem near128 : let M := 2 ^ 30; let R := 65282 * 2 ^ 16; let S1 := M * R / 2 ^ 32; stepR 32 R (stepU 32 R S1) = 0xfffe8676 := by
  decide +kernel

/-- the first set for `f128` -/
theorem iter128a {i M R S1 : Nat} {σ : ℝ} (h : InTab i σ) (hm : σ ^ 2 = 4 * (M : ℝ) / 2 ^ 128)
    (hR : R = rsqrtTab.getD i 0 * 2 ^ (32 - 16)) (hS : S1 = M / 2 ^ (128 - 32) * R / 2 ^ 32) :
    ∃ R1, R1 = stepR 32 R (stepU 32 R S1) ∧ R1 < 2 ^ 32 ∧ |1 - (R1 : ℝ) / 2 ^ 32 * σ| ≤ 152 / 100 / 65536 ∧
      (σ ≤ 1 + (13 / 5) * (4 / 2 ^ 64) → 225 / 10000000 ≤ 1 - (R1 : ℝ) / 2 ^ 32 * σ) := by
  refine ⟨_, rfl, ?_⟩
  obtain ⟨b1, b2⟩ := h.σ_bounds
  obtain ⟨hRl, hRr⟩ := tab_scaled (W := 32) h.lt (by norm_num)
  rw [← hR] at hRl hRr
  have A := mkApprox (W := 32) (w := 128) (M := M) b1 b2 hRl
  obtain ⟨f1, f2⟩ := first_step (by norm_num : 32 ≤ 128) hm hRl
  have ho := hov_tab h (le_refl 32) hRr
  have he := h.eps
  rw [← hRr] at he
  rw [← hS] at A f1 f2
  have hp : (0 : ℝ) < 4 / 2 ^ 32 := by positivity
  obtain ⟨_, _, _, _, d1, d2, d3, _⟩ := A.step_r (by norm_num) he (by norm_num) (by linarith) (by linarith) ho
  refine ⟨d1, ?_, ?_⟩
  · generalize 1 - ((stepR 32 R (stepU 32 R S1) : Nat) : ℝ) / 2 ^ 32 * σ = x at *
    rw [abs_le]; norm_num at d2 d3 ⊢
    constructor <;> linarith
  · intro c
    have hi := h.near (by norm_num at c ⊢; linarith)
    obtain ⟨n1, n2⟩ := near_one (k := 96) (w := 32) h hm c (by norm_num)
    have n1 : 2 ^ 126 ≤ M := by
      have : ((2 ^ 126 : Nat) : ℝ) ≤ (M : ℝ) := by
        rw [show ((2 ^ 126 : Nat) : ℝ) = 85070591730234615865843651857942052864 by norm_num]; norm_num at n1; linarith
      exact_mod_cast this
    have n2 : M < 2 ^ 126 + 2 ^ 96 := by
      have : (M : ℝ) < ((2 ^ 126 + 2 ^ 96 : Nat) : ℝ) := by
        rw [show ((2 ^ 126 + 2 ^ 96 : Nat) : ℝ) = 85070591809462778380107989451486003200 by norm_num]; norm_num at n2; linarith
      exact_mod_cast this
    have hj : M / 2 ^ (128 - 32) = 2 ^ 30 := by norm_num at n1 n2 ⊢; omega
    have N := near128
    subst hi
    have hT : rsqrtTab.getD 64 0 = 65282 := by decide
    rw [hT] at hR
    rw [hj] at hS
    dsimp only at N
    rw [show (32 - 16 : Nat) = 16 from rfl] at hR
    rw [← hR, ← hS] at N
    rw [N]
    norm_num at c ⊢
    linarith

/-- the second set for `f128` -/
theorem iter128b {M R1 R S1 : Nat} {σ : ℝ} (b1 : 1 ≤ σ) (b2 : σ ≤ 2) (hm : σ ^ 2 = 4 * (M : ℝ) / 2 ^ 128)
    (hR1 : R1 < 2 ^ 32) (he : |1 - (R1 : ℝ) / 2 ^ 32 * σ| ≤ 152 / 100 / 65536)
    (hn : σ ≤ 1 + (13 / 5) * (4 / 2 ^ 64) → 225 / 10000000 ≤ 1 - (R1 : ℝ) / 2 ^ 32 * σ)
    (hR : R = R1 * 2 ^ (64 - 32)) (hS : S1 = M / 2 ^ (128 - 64) * R / 2 ^ 64) :
    ∃ R2, R2 = stepR 64 (stepR 64 R (stepU 64 R S1)) (stepU 64 (stepR 64 R (stepU 64 R S1)) (stepR 64 S1 (stepU 64 R S1))) ∧
      R2 < 2 ^ 64 ∧ |1 - (R2 : ℝ) / 2 ^ 64 * σ| ≤ 29 / 2 ^ 64 := by
  refine ⟨_, rfl, ?_⟩
  have hRl : R < 2 ^ 64 := by omega
  have hRr : (R : ℝ) / 2 ^ 64 = (R1 : ℝ) / 2 ^ 32 := by rw [hR]; push_cast; ring
  have A := mkApprox (W := 64) (w := 128) (M := M) b1 b2 hRl
  obtain ⟨f1, f2⟩ := first_step (by norm_num : 64 ≤ 128) hm hRl
  rw [← hRr] at he hn
  rw [← hS] at A f1 f2
  generalize hε0 : 1 - (R : ℝ) / 2 ^ 64 * σ = ε0 at *
  have q0 := (quad_bounds he (by norm_num)).1
  have ho : 1 + (13 / 5) * (4 / 2 ^ 64) < σ + (3 / 2 * ε0 ^ 2 - ε0 ^ 3 / 2) := by
    by_cases c : 1 + (13 / 5) * (4 / 2 ^ 64) < σ
    · linarith
    · have e := P_lower (by norm_num) (hn (not_lt.mp c)) (le_trans (abs_le.mp he).2 (by norm_num))
      norm_num at e ⊢
      linarith
  obtain ⟨ε, η, A2, c1, c2, c3, c4, c5⟩ := A.step_s (by norm_num) he (by norm_num) f1 f2 ho
  have hE : |ε| ≤ 35 / 10 / 2 ^ 32 := by
    rw [abs_le]; norm_num at c1 c2 ⊢
    constructor <;> linarith
  have q1 := (quad_bounds hE (by norm_num)).1
  have ho1 : 1 + (13 / 5) * (4 / 2 ^ 64) < σ + (3 / 2 * ε ^ 2 - ε ^ 3 / 2) := by
    by_cases c : 1 + (13 / 5) * (4 / 2 ^ 64) < σ
    · linarith
    · have e := P_lower (by norm_num) (hn (not_lt.mp c)) (le_trans (abs_le.mp he).2 (by norm_num))
      have c3' : 7 / 10000000000 ≤ ε := by
        norm_num at e c3 ⊢; linarith
      have e' := P_lower (by norm_num) c3' (le_trans (abs_le.mp hE).2 (by norm_num))
      norm_num at e' ⊢
      linarith
  obtain ⟨_, _, _, _, d1, d2, d3, _⟩ := A2.step_r (by norm_num) hE (by norm_num) c4 c5 ho1
  refine ⟨d1, ?_⟩
  generalize 1 - ((stepR 64 (stepR 64 R (stepU 64 R S1)) (stepU 64 (stepR 64 R (stepU 64 R S1)) (stepR 64 S1 (stepU 64 R S1))) : Nat) : ℝ)
      / 2 ^ 64 * σ = x at *
  rw [abs_le]; norm_num at d2 d3 ⊢
  constructor <;> linarith

end Verif
