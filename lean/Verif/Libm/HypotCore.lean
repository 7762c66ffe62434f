import Verif.Libm.HypotSum
/-! # The double-double part of `hypot`: the square root and its correction -/
namespace Verif
/-- `f64` value as a real -/
local notation "V" => Fmt.valK f64 ℝ

namespace Hypot

theorem zU (n : ℕ) : (2 : ℝ) ^ ((n : ℤ) - 53) = 2 ^ n * U := by
  rw [zpow_sub₀ (by norm_num), zpow_natCast]; unfold U; norm_num; ring
theorem zU2 (n : ℕ) : (2 : ℝ) ^ ((n : ℤ) - 53 - 54) = 2 ^ n / 2 * U ^ 2 := by
  rw [show (n : ℤ) - 53 - 54 = n + (-107) by ring, zpow_add₀ (by norm_num), zpow_natCast]; unfold U; norm_num; ring

theorem errU {v : ℝ} {r : BitVec f64.w} (h : f64.Rounds v r) {n : ℕ} (hn : n ≤ 100) (hv : |v| ≤ 2 ^ n * U) :
    |V r - v| ≤ 2 ^ n / 2 * U ^ 2 := by
  rw [← zU2]
  exact err64 h (by rwa [zU]) (by omega) (by omega)

theorem smallU {v : ℝ} {n : ℕ} (hn : n ≤ 100) (hv : |v| ≤ 2 ^ n * U) : |v| ≤ 2 ^ (1000 : ℤ) := by
  rw [← zU] at hv
  exact hv.trans (zpow_le_zpow_right₀ (by norm_num) (by omega))

theorem finU {v : ℝ} {r : BitVec f64.w} (h : f64.Rounds v r) {n : ℕ} (hn : n ≤ 100) (hv : |v| ≤ 2 ^ n * U) : f64.IsFin r :=
  fin64 h (smallU hn hv)

theorem half_val : V 0x3fe0000000000000#f64.w = 1 / 2 := by
  rw [← f64.valK_cast, show f64.val 0x3fe0000000000000#f64.w = 1 / 2 by decide +kernel]; norm_num

/-- numbers of size at least `2^k` are multiples of `2^(k-52)` -/
theorem grid_ge {r : BitVec f64.w} {k : ℤ} (h : 2 ^ k ≤ |V r|) : Fmt.Mul2 (k - 52) (V r) := by
  obtain ⟨m, j, h1, h2, h3, h4⟩ := f64.val_dec r
  refine Fmt.Mul2.mono ⟨m, h1⟩ ?_
  rw [h1, abs_mul, abs_of_pos (show (0 : ℝ) < 2 ^ j by positivity)] at h
  have h2' : ((|m| : ℤ) : ℝ) < ((2 ^ (f64.s + 1) : ℤ) : ℝ) := by exact_mod_cast h2
  have h5 : (2 : ℝ) ^ k < 2 ^ (53 : ℤ) * 2 ^ j := by
    refine lt_of_le_of_lt h (mul_lt_mul_of_pos_right ?_ (by positivity))
    rw [← Int.cast_abs]
    refine lt_of_lt_of_eq h2' ?_
    rw [s64]; norm_num
  rw [← zpow_add₀ (by norm_num), zpow_lt_zpow_iff_right₀ (by norm_num)] at h5
  omega

/-- the square of a number of the binade of `2^k` minus something of its grid is a number if it is small -/
theorem sq_exact {H : HypotOps} (hH : H.Lawful) {c th : BitVec f64.w} (hc : f64.IsFin c) (c1 : 1 ≤ V c) (c8 : V c ≤ 8)
    (hth : f64.Rounds (Real.sqrt (V c)) th) :
    f64.IsFin th ∧ ∃ w, H.fma th th (f64.neg c) = .ok w ∧ f64.IsFin w ∧ V w = V th * V th - V c := by
  have hU := U_pos
  have hUs : U ≤ 1 / 2 ^ 40 := U_le
  have hUs' : U ≤ 1 / 100000 := hUs.trans (by norm_num)
  set q := Real.sqrt (V c) with hq
  have hqq : q * q = V c := Real.mul_self_sqrt (by linarith)
  have q0 : 0 ≤ q := Real.sqrt_nonneg _
  have q1 : 1 ≤ q := by rw [hq, Real.one_le_sqrt]; exact c1
  have q3 : q ≤ 3 := by nlinarith
  have ft : f64.IsFin th := fin64 hth (by
    rw [abs_of_nonneg q0]
    exact (show q ≤ 2 ^ (2 : ℤ) by norm_num; linarith).trans (zpow_le_zpow_right₀ (by norm_num) (by norm_num)))
  refine ⟨ft, ?_⟩
  have t1 : ((1 : ℕ) : ℝ) ≤ V th := geN (by norm_num) hth (by push_cast; exact q1)
  have t3 : V th ≤ ((3 : ℕ) : ℝ) := leN (by norm_num) hth (by push_cast; exact q3)
  push_cast at t1 t3
  have e : V th * V th + V (f64.neg c) = V th * V th - V c := by rw [negR]; ring
  have herr2 : |V th - q| ≤ 2 * U := by
    have := err64 hth (k := 2) (by rw [abs_of_nonneg q0]; norm_num; linarith) (by norm_num) (by norm_num)
    rwa [show (2 : ℤ) - 54 = -52 by norm_num, zm52] at this
  have hw2 : |V th * V th - V c| ≤ 12 * U := by
    rw [← hqq, show V th * V th - q * q = (V th - q) * (V th + q) by ring, abs_mul, abs_of_pos (show 0 < V th + q by linarith)]
    calc |V th - q| * (V th + q) ≤ 2 * U * 6 := mul_le_mul herr2 (by linarith) (by linarith) (by linarith)
      _ = _ := by ring
  obtain ⟨r, h1, h2, h3⟩ := fma_exact hH ft ft (f64.isFin_neg.mpr hc) (by
      rw [negR, abs_neg, abs_of_pos (by linarith), abs_of_pos (by positivity)]
      have := (abs_le.mp hw2).1
      nlinarith) (by
      rw [e]
      rcases lt_or_ge (V th) 2 with ht | ht
      · -- `sqrt c` is below 2
        have hq2 : q ≤ 2 := by
          by_contra hcon
          rw [not_le] at hcon
          have : ((2 : ℕ) : ℝ) ≤ V th := geN (by norm_num) hth (by push_cast; exact hcon.le)
          push_cast at this
          linarith
        have g1 := grid_ge (r := th) (k := 0) (by rw [abs_of_pos (by linarith)]; simpa using t1)
        have g2 := grid_ge (r := c) (k := 0) (by rw [abs_of_pos (by linarith)]; simpa using c1)
        have herr : |V th - q| ≤ U := by
          have := err64 hth (k := 1) (by rw [abs_of_nonneg q0]; norm_num; linarith) (by norm_num) (by norm_num)
          rwa [show (1 : ℤ) - 54 = -53 by norm_num, zm53] at this
        refine (((g1.mul g1).sub (g2.mono (by norm_num)))).rp f64 ?_ (by rw [b64, s64]; norm_num)
        rw [← hqq, show V th * V th - q * q = (V th - q) * (V th + q) by ring, abs_mul, abs_of_pos (show 0 < V th + q by linarith)]
        calc |V th - q| * (V th + q) ≤ U * 4 := mul_le_mul herr (by linarith) (by linarith) (by linarith)
          _ = 2 ^ (-51 : ℤ) := by rw [zm51]; ring
          _ ≤ _ := by rw [s64]; exact zpow_le_zpow_right₀ (by norm_num) (by norm_num)
      · have g1 := grid_ge (r := th) (k := 1) (by rw [abs_of_pos (by linarith)]; simpa using ht)
        have g2 := grid_ge (r := c) (k := 0) (by rw [abs_of_pos (by linarith)]; simpa using c1)
        refine (((g1.mul g1).sub (g2.mono (by norm_num)))).rp f64 ?_ (by rw [b64, s64]; norm_num)
        refine hw2.trans ((show 12 * U ≤ 2 ^ (-49 : ℤ) by rw [zm49]; linarith).trans ?_)
        rw [s64]; exact zpow_le_zpow_right₀ (by norm_num) (by norm_num)) (by
      rw [e]
      exact hw2.trans ((show 12 * U ≤ 2 ^ (0 : ℤ) by norm_num; linarith).trans (zpow_le_zpow_right₀ (by norm_num) (by norm_num))))
  exact ⟨r, h1, h2, by rw [h3, e]⟩

/-- two roundings -/
theorem two_rel {a b ir th rs : ℝ} (hb : 0 < b) (ht : 0 < th) (h1 : |ir - b| ≤ U * |b|) (h2 : |rs - th * ir| ≤ U * |th * ir|) (ha : a = th * b) :
    |rs - a| ≤ 2.001 * U * a := by
  have hU := U_pos
  have hUs : U ≤ 1 / 100000 := U_le.trans (by norm_num)
  rw [abs_of_pos hb] at h1
  obtain ⟨l1, l2⟩ := abs_le.mp h1
  have hir : 0 < ir := by
    have : U * b ≤ 1 / 100000 * b := mul_le_mul_of_nonneg_right hUs hb.le
    linarith
  rw [abs_of_pos (mul_pos ht hir)] at h2
  have e : rs - a = (rs - th * ir) + th * (ir - b) := by rw [ha]; ring
  rw [e]
  have h3 : |th * (ir - b)| ≤ U * a := by
    rw [abs_mul, abs_of_pos ht, ha]
    calc th * |ir - b| ≤ th * (U * b) := mul_le_mul_of_nonneg_left h1 ht.le
      _ = _ := by ring
  have h4 : th * ir ≤ 1.001 * a := by
    have : ir ≤ 1.001 * b := by
      have : U * b ≤ 1 / 100000 * b := mul_le_mul_of_nonneg_right hUs hb.le
      linarith
    rw [ha]
    calc th * ir ≤ th * (1.001 * b) := mul_le_mul_of_nonneg_left this ht.le
      _ = _ := by ring
  have h5 := mul_le_mul_of_nonneg_left h4 hU.le
  refine (abs_add_le _ _).trans ?_
  linarith

set_option maxHeartbeats 1000000 in
theorem core {H : HypotOps} {c p dx dy th w : BitVec f64.w} {σ κ d q0 qm B : ℝ} {ne nd nz nt : ℕ}
    (fc : f64.IsFin c) (fp : f64.IsFin p) (fdx : f64.IsFin dx) (fdy : f64.IsFin dy)
    (fw : f64.IsFin w) (ft : f64.IsFin th) (hw : V w = V th * V th - V c)
    (c8 : V c ≤ 8) (hq0 : 1 ≤ q0) (hqc : q0 ≤ Real.sqrt (V c)) (hqm : Real.sqrt (V c) ≤ qm)
    (hκ0 : 0 ≤ κ) (hκ : κ ≤ 2) (hd0 : 0 ≤ d) (hd : d ≤ 8)
    (hσ0 : 0 < σ) (hσ : σ ^ 2 = V c + V p + (V dx + V dy)) (htq : |V th - Real.sqrt (V c)| ≤ κ * U)
    (he : |V dx + V dy| ≤ 2 ^ ne * U) (hDd : |V p| + |V dx + V dy| ≤ d * U)
    (hnd : d * U + 2 ^ ne / 2 * U ^ 2 ≤ 2 ^ nd * U)
    (hnz : d * U + (2 ^ ne / 2 + 2 ^ nd / 2) * U ^ 2 + 2.0001 * qm * (κ * U) ≤ 2 ^ nz * U)
    (hnt : 1.001 * (d * U / (2 * q0) + κ * U) + (2 ^ ne / 2 + 2 ^ nd / 2 + 2 ^ nz / 2) * U ^ 2 ≤ 2 ^ nt * U)
    (bne : ne ≤ 10) (bnd : nd ≤ 10) (bnz : nz ≤ 10) (bnt : nt ≤ 10)
    (hB1 : 2.01 * κ ^ 2 * U ^ 2 ≤ B * q0) (hB2 : 0.17 * d ^ 2 * U ^ 2 ≤ B * q0 ^ 3) (hB : U ^ 2 / 8 ≤ B) :
    let tl := H.N.mul (H.N.mul th (H.N.div 0x3fe0000000000000#f64.w c)) (H.N.sub (H.N.add p (H.N.add dx dy)) w)
    f64.IsFin tl ∧ |V tl| ≤ 2 ^ nt * U + 2 ^ nt / 2 * U ^ 2 ∧ |V th + V tl - σ| ≤ 2 ^ nt / 2 * U ^ 2 + 0.501 * ((2 ^ ne / 2 + 2 ^ nd / 2 + 2 ^ nz / 2) * U ^ 2 / q0) +
      2.002 * U * (d * U / (2 * q0) + κ * U) + 1.001 * B := by
  intro tl
  have hU := U_pos
  have hUs : U ≤ 1 / 2 ^ 40 := U_le
  have hUs' : U ≤ 1 / 100000 := hUs.trans (by norm_num)
  set q := Real.sqrt (V c) with hq
  have q1 : 1 ≤ q := hq0.trans hqc
  have c1 : 1 ≤ V c := by rwa [hq, Real.one_le_sqrt] at q1
  have hqq : q * q = V c := Real.mul_self_sqrt (by linarith)
  have hq2 : q ^ 2 = V c := by rw [pow_two, hqq]
  have q3 : q ≤ 3 := by nlinarith
  have hκU : κ * U ≤ 2 * U := mul_le_mul_of_nonneg_right hκ hU.le
  obtain ⟨t1, t2⟩ := abs_le.mp htq
  have ht0 : 0 < V th := by linarith
  -- the reciprocal
  have rir := divR H.N (a := 0x3fe0000000000000#f64.w) (b := c) (by decide) fc (by linarith)
  rw [half_val] at rir
  have hirv : 0 < (1 / 2 : ℝ) / V c := by positivity
  have hirle : (1 / 2 : ℝ) / V c ≤ 1 := by rw [div_le_one (by linarith)]; linarith
  have hirge : (1 / 16 : ℝ) ≤ (1 / 2 : ℝ) / V c := by rw [le_div_iff₀ (by linarith)]; linarith
  have eir := rel64 rir (by
    rw [abs_of_pos hirv]
    exact ((zpow_le_zpow_right₀ (by norm_num) (by norm_num)).trans (show (2 : ℝ) ^ (-4 : ℤ) ≤ 1 / 16 by norm_num)).trans hirge) (by
    rw [abs_of_pos hirv]; exact hirle.trans (one_le_zpow₀ (by norm_num) (by norm_num)))
  have fir := fin64 rir (by rw [abs_of_pos hirv]; exact hirle.trans (one_le_zpow₀ (by norm_num) (by norm_num)))
  generalize hir : H.N.div 0x3fe0000000000000#f64.w c = ir at rir eir fir
  have irb : 1 / 20 ≤ V ir ∧ V ir ≤ 2 := by
    rw [abs_of_pos hirv] at eir
    obtain ⟨a1, a2⟩ := abs_le.mp eir
    have : U * ((1 / 2 : ℝ) / V c) ≤ 1 / 100000 * 1 := mul_le_mul hUs' hirle hirv.le (by norm_num)
    constructor <;> linarith
  have rrs := mulR H.N ft fir
  have hprod : 1 / 40 ≤ V th * V ir ∧ V th * V ir ≤ 16 := by
    constructor
    · have := mul_le_mul (show (1 / 2 : ℝ) ≤ V th by linarith) irb.1 (by norm_num) ht0.le; linarith
    · have := mul_le_mul (show V th ≤ 4 by linarith) irb.2 (by linarith [irb.1]) (by norm_num); linarith
  have hprod0 : 0 < V th * V ir := by linarith [hprod.1]
  have ers := rel64 rrs (by
    rw [abs_of_pos hprod0]
    exact ((zpow_le_zpow_right₀ (by norm_num) (by norm_num)).trans (show (2 : ℝ) ^ (-6 : ℤ) ≤ 1 / 40 by norm_num)).trans hprod.1) (by
    rw [abs_of_pos hprod0]
    exact hprod.2.trans ((show (16 : ℝ) ≤ 2 ^ (4 : ℤ) by norm_num).trans (zpow_le_zpow_right₀ (by norm_num) (by norm_num))))
  have frs := fin64 rrs (by
    rw [abs_of_pos hprod0]
    exact hprod.2.trans ((show (16 : ℝ) ≤ 2 ^ (4 : ℤ) by norm_num).trans (zpow_le_zpow_right₀ (by norm_num) (by norm_num))))
  generalize hrs : H.N.mul th ir = rs at rrs ers frs
  have hrs2 : |V rs - V th / (2 * q ^ 2)| ≤ 2.001 * U * (V th / (2 * q ^ 2)) :=
    two_rel hirv ht0 eir ers (by rw [hq2]; field_simp)
  -- dr2
  have re := addR H.N fdx fdy
  have ee := errU re (by omega) he
  have fe := finU re (by omega) he
  generalize hee : H.N.add dx dy = e at re ee fe
  have rdr := addR H.N fp fe
  have hdrb : |V p + V e| ≤ d * U + 2 ^ ne / 2 * U ^ 2 := by
    have h1 := abs_add_le (V p) (V e)
    have h2 : |V e| ≤ |V e - (V dx + V dy)| + |V dx + V dy| := by
      have := abs_add_le (V e - (V dx + V dy)) (V dx + V dy); rwa [sub_add_cancel] at this
    linarith
  have edr := errU rdr (by omega) (hdrb.trans hnd)
  have fdr := finU rdr (by omega) (hdrb.trans hnd)
  generalize hdr : H.N.add p e = dr at rdr edr fdr
  -- dz
  have rdz := subR H.N fdr fw
  have hwb : |V w| ≤ 2.0001 * qm * (κ * U) := by
    rw [hw, ← hqq, show V th * V th - q * q = (V th - q) * (V th + q) by ring, abs_mul, abs_of_pos (show 0 < V th + q by linarith)]
    calc |V th - q| * (V th + q) ≤ κ * U * (2.0001 * qm) := by
          refine mul_le_mul htq ?_ (by linarith) (by positivity)
          linarith
      _ = _ := by ring
  have hdzb : |V dr - V w| ≤ 2 ^ nz * U := by
    have h1 := abs_sub (V dr) (V w)
    have h2 : |V dr| ≤ |V dr - (V p + V e)| + |V p + V e| := by
      have := abs_add_le (V dr - (V p + V e)) (V p + V e); rwa [sub_add_cancel] at this
    linarith
  have edz := errU rdz (by omega) hdzb
  have fdz := finU rdz (by omega) hdzb
  have htl : tl = H.N.mul rs (H.N.sub dr w) := by rw [← hrs, ← hdr, ← hee, ← hir]
  generalize hdz : H.N.sub dr w = dz at rdz edz fdz htl
  have hdz1 : |V dz - (σ ^ 2 - V th ^ 2)| ≤ (2 ^ ne / 2 + 2 ^ nd / 2 + 2 ^ nz / 2) * U ^ 2 := by
    have e1 : V dz - (σ ^ 2 - V th ^ 2) = (V dz - (V dr - V w)) + (V dr - (V p + V e)) + (V e - (V dx + V dy)) := by
      rw [hσ, hw]; ring
    rw [e1]
    have h1 := abs_add_le ((V dz - (V dr - V w)) + (V dr - (V p + V e))) (V e - (V dx + V dy))
    have h2 := abs_add_le (V dz - (V dr - V w)) (V dr - (V p + V e))
    linarith
  have hD : |V p + (V dx + V dy)| ≤ d * U := (abs_add_le _ _).trans hDd
  have hS : σ ^ 2 = q ^ 2 + (V p + (V dx + V dy)) := by rw [hσ, hq2]; ring
  have htb := tl_bound hU hUs hq0 hqc q3 hκ0 hκ hd0 hd htq hD hσ0 hS hrs2 hdz1
  have rtl := mulR H.N frs fdz
  have etl := errU rtl (by omega) (htb.trans hnt)
  have ftl := finU rtl (by omega) (htb.trans hnt)
  rw [← htl] at rtl etl ftl
  refine ⟨ftl, ?_, newton hU hUs hq0 hqc q3 hκ0 hκ hd0 hd htq hD hσ0 hS hrs2 hdz1 etl hB1 hB2 hB⟩
  have := abs_add_le (V tl - V rs * V dz) (V rs * V dz)
  rw [sub_add_cancel] at this
  linarith

theorem twosum (N : FPU f64) {a b : BitVec f64.w} (fa : f64.IsFin a) (fb : f64.IsFin b) (hab : |V b| ≤ |V a|) (ha : |V a| ≤ 8) :
    f64.IsFin (fasttwosum N a b).1 ∧ f64.IsFin (fasttwosum N a b).2 ∧ f64.Rounds (V a + V b) (fasttwosum N a b).1 ∧
      V (fasttwosum N a b).1 + V (fasttwosum N a b).2 = V a + V b := by
  unfold fasttwosum
  dsimp only
  have rs := addR N fa fb
  have hS : |V a + V b| ≤ 2 ^ (4 : ℤ) := by
    have := abs_add_le (V a) (V b); norm_num; linarith
  have fs := fin64 rs (hS.trans (zpow_le_zpow_right₀ (by norm_num) (by norm_num)))
  have es := err64 rs hS (by norm_num) (by norm_num)
  have hes : |V (N.add a b) - (V a + V b)| ≤ 1 := es.trans (by norm_num)
  have rcq := ((N.add_spec a b).1 fa fb).1
  generalize N.add a b = s at rs fs es hes rcq
  have hrp1 : f64.Rp (V s - V a) := by
    have hq : |f64.val b| ≤ |f64.val a| := by
      rw [← f64.valK_cast, ← f64.valK_cast, ← Rat.cast_abs, ← Rat.cast_abs, Rat.cast_le] at hab; exact hab
    obtain ⟨n, _, hn⟩ := f64.fast2 fa fs hq rcq
    refine ⟨n, ?_⟩
    rw [abs_sub_comm, ← f64.valK_cast, ← f64.valK_cast, ← Rat.cast_sub, ← Rat.cast_abs, hn, f64.magVal_cast]
  have rz := subR N fs fa
  have hzb : |V s - V a| ≤ 2 ^ (5 : ℤ) := by
    have h1 : V s - V a = (V s - (V a + V b)) + V b := by ring
    rw [h1]
    have := abs_add_le (V s - (V a + V b)) (V b)
    norm_num; linarith
  have hz := rz.exactR f64 hrp1 (big64 hzb (by norm_num))
  have fz := fin64 rz (hzb.trans (zpow_le_zpow_right₀ (by norm_num) (by norm_num)))
  generalize N.sub s a = z at rz hz fz
  have rl := subR N fb fz
  rw [hz, show V b - (V s - V a) = V a + V b - V s by ring] at rl
  have hrp2 := f64.rp_sum_err hab rs (by rw [b64]; exact ha.trans ((by norm_num : (8:ℝ) ≤ 2 ^ (3:ℤ)).trans (zpow_le_zpow_right₀ (by norm_num) (by norm_num))))
  have hlb : |V a + V b - V s| ≤ 2 ^ (0 : ℤ) := by rw [abs_sub_comm]; norm_num; exact hes
  have hl := rl.exactR f64 hrp2 (big64 hlb (by norm_num))
  exact ⟨fs, fin64 rl (hlb.trans (zpow_le_zpow_right₀ (by norm_num) (by norm_num))), rs, by rw [hl]; ring⟩

set_option maxHeartbeats 2000000 in
/-- the double-double approximation of `sqrt (x^2 + y^2)` -/
theorem fast_spec {H : HypotOps} (hH : H.Lawful) {x y : BitVec f64.w} {j : ℤ} (hs : Scaled x y j) {σ : ℝ} (hσ0 : 0 < σ)
    (hσ : σ ^ 2 = V x ^ 2 + V y ^ 2) :
    ∃ th tl, fast H x y = .ok (th, tl) ∧ f64.IsFin th ∧ f64.IsFin tl ∧ f64.Rounds (V th + V tl) th ∧
      |V th + V tl - σ| ≤ 31 * U ^ 2 ∧ (σ < 2 → |V th + V tl - σ| ≤ 15 * U ^ 2) := by
  obtain ⟨dx, dy, e1, e2, fdx, fdy, fc, fp, hsum, hcase⟩ := sums hH hs
  have hU := U_pos
  have hUs : U ≤ 1 / 2 ^ 40 := U_le
  have hUs' : U ≤ 1 / 100000 := hUs.trans (by norm_num)
  have hU2 : 0 < U ^ 2 := by positivity
  have hUU : U ^ 2 ≤ 1 / 100000 * U := by rw [pow_two]; exact mul_le_mul_of_nonneg_right hUs' hU.le
  unfold fast
  simp only [e1, e2, ok_bind]
  generalize hc : H.N.add (H.N.mul x x) (H.N.mul y y) = c at *
  generalize hp : H.N.add (H.N.sub (H.N.mul x x) c) (H.N.mul y y) = p at *
  have hσ' : σ ^ 2 = V c + V p + (V dx + V dy) := by rw [hσ, ← hsum]; ring
  have c1 : 1 ≤ V c := by rcases hcase with ⟨h1, _⟩ | ⟨h1, _⟩ | ⟨h1, _⟩ | ⟨h1, _⟩ <;> linarith
  have c8 : V c ≤ 8 := by rcases hcase with ⟨_, h1, _⟩ | ⟨_, h1, _⟩ | ⟨h1, _⟩ | ⟨_, h1, _⟩ <;> linarith
  obtain ⟨th, es, hth⟩ := sqrtR hH fc (by linarith)
  obtain ⟨ft, w, ew, fw, hw⟩ := sq_exact hH fc c1 c8 hth
  simp only [es, ew, ok_bind]
  set q := Real.sqrt (V c) with hq
  have hqq : q * q = V c := Real.mul_self_sqrt (by linarith)
  have q0 : 0 ≤ q := Real.sqrt_nonneg _
  have q1 : 1 ≤ q := by rw [hq, Real.one_le_sqrt]; exact c1
  have q3 : q ≤ 2.829 := by nlinarith
  have herr2 : |V th - q| ≤ 2 * U := by
    have := err64 hth (k := 2) (by rw [abs_of_nonneg q0]; norm_num; linarith) (by norm_num) (by norm_num)
    rwa [show (2 : ℤ) - 54 = -52 by norm_num, zm52] at this
  have herr1 : q ≤ 2 → |V th - q| ≤ 1 * U := by
    intro hq2
    have := err64 hth (k := 1) (by rw [abs_of_nonneg q0]; norm_num; linarith) (by norm_num) (by norm_num)
    rw [one_mul]
    rwa [show (1 : ℤ) - 54 = -53 by norm_num, zm53] at this
  -- it is enough to bound the correction
  suffices hmain : ∀ tl, tl = H.N.mul (H.N.mul th (H.N.div 0x3fe0000000000000#f64.w c)) (H.N.sub (H.N.add p (H.N.add dx dy)) w) →
      f64.IsFin tl ∧ |V tl| ≤ 1 / 2 ∧ |V th + V tl - σ| ≤ 31 * U ^ 2 ∧ (σ < 2 → |V th + V tl - σ| ≤ 15 * U ^ 2) by
    obtain ⟨ftl, btl, h31, h15⟩ := hmain _ rfl
    generalize H.N.mul (H.N.mul th (H.N.div 0x3fe0000000000000#f64.w c)) (H.N.sub (H.N.add p (H.N.add dx dy)) w) = tl at *
    obtain ⟨t1, t2⟩ := abs_le.mp herr2
    have hta : |V th| = V th := abs_of_pos (by linarith)
    obtain ⟨g1, g2, g3, g4⟩ := twosum H.N ft ftl (by rw [hta]; linarith) (by rw [hta]; linarith)
    refine ⟨(fasttwosum H.N th tl).1, (fasttwosum H.N th tl).2, rfl, g1, g2, ?_, ?_, ?_⟩ <;> rw [g4] <;> assumption
  intro tl htl
  rw [htl]
  rcases hcase with ⟨h1, h2, he, hP⟩ | ⟨h1, h2, he, hP⟩ | ⟨h1, he, hP⟩ | ⟨h1, h2, he, hP⟩
  · have hq2 : q ≤ 1.4143 := by nlinarith
    obtain ⟨a1, a2, a3⟩ := core (H := H) (σ := σ) (κ := 1) (d := 2.5) (q0 := 1) (qm := 1.4143) (B := 2.01 * U ^ 2) (ne := 1) (nd := 2) (nz := 3) (nt := 2)
      fc fp fdx fdy fw ft hw c8 (by norm_num) q1 hq2 (by norm_num) (by norm_num) (by norm_num) (by norm_num) hσ0 hσ' (herr1 (by linarith))
      (by linarith) hP (by norm_num; linarith) (by norm_num; linarith) (by norm_num; linarith) (by norm_num) (by norm_num) (by norm_num) (by norm_num)
      (by linarith) (by linarith) (by linarith)
    have a4 : |V th + V (H.N.mul (H.N.mul th (H.N.div 0x3fe0000000000000#f64.w c)) (H.N.sub (H.N.add p (H.N.add dx dy)) w)) - σ| ≤ 15 * U ^ 2 := by
      refine a3.trans (le_of_eq_of_le (b := (2 + 0.501 * 7 + 2.002 * 2.25 + 1.001 * 2.01) * U ^ 2) (by ring) (mul_le_mul_of_nonneg_right (by norm_num) hU2.le))
    exact ⟨a1, a2.trans (by norm_num; linarith), by linarith, fun _ => a4⟩
  · have hq2 : q ≤ 2 := by nlinarith
    have hqg : 1.414 ≤ q := by nlinarith
    obtain ⟨a1, a2, a3⟩ := core (H := H) (σ := σ) (κ := 1) (d := 5) (q0 := 1.414) (qm := 2) (B := 1.51 * U ^ 2) (ne := 2) (nd := 3) (nz := 4) (nt := 2)
      fc fp fdx fdy fw ft hw c8 (by norm_num) hqg hq2 (by norm_num) (by norm_num) (by norm_num) (by norm_num) hσ0 hσ' (herr1 (by linarith))
      (by linarith) hP (by norm_num; linarith) (by norm_num; linarith) (by norm_num; linarith) (by norm_num) (by norm_num) (by norm_num) (by norm_num)
      (by linarith) (by linarith) (by linarith)
    have a4 : |V th + V (H.N.mul (H.N.mul th (H.N.div 0x3fe0000000000000#f64.w c)) (H.N.sub (H.N.add p (H.N.add dx dy)) w)) - σ| ≤ 15 * U ^ 2 := by
      refine a3.trans (le_of_eq_of_le (b := (2 + 0.501 * (14 / 1.414) + 2.002 * (5 / (2 * 1.414) + 1) + 1.001 * 1.51) * U ^ 2) (by ring) (mul_le_mul_of_nonneg_right (by norm_num) hU2.le))
    exact ⟨a1, a2.trans (by norm_num; linarith), by linarith, fun _ => a4⟩
  · have hq2 : q = 2 := by rw [hq, h1, show (4 : ℝ) = 2 ^ 2 by norm_num]; exact Real.sqrt_sq (by norm_num)
    have hth2 : V th = 2 := by
      rw [hq2] at hth
      have := hth.exactR f64 (by exact_mod_cast rpNat (n := 2) (by norm_num)) (big64 (k := 1) (by norm_num) (by norm_num))
      exact this
    obtain ⟨a1, a2, a3⟩ := core (H := H) (σ := σ) (κ := 0) (d := 8) (q0 := 2) (qm := 2) (B := 1.37 * U ^ 2) (ne := 2) (nd := 4) (nz := 4) (nt := 2)
      fc fp fdx fdy fw ft hw c8 (by norm_num) hq2.ge hq2.le (by norm_num) (by norm_num) (by norm_num) (by norm_num) hσ0 hσ' (by rw [hth2, ← hq, hq2]; norm_num)
      (by linarith) hP (by norm_num; linarith) (by norm_num; linarith) (by norm_num; linarith) (by norm_num) (by norm_num) (by norm_num) (by norm_num)
      (by linarith) (by linarith) (by linarith)
    have a4 : |V th + V (H.N.mul (H.N.mul th (H.N.div 0x3fe0000000000000#f64.w c)) (H.N.sub (H.N.add p (H.N.add dx dy)) w)) - σ| ≤ 15 * U ^ 2 := by
      refine a3.trans (le_of_eq_of_le (b := (2 + 0.501 * 9 + 2.002 * 2 + 1.001 * 1.37) * U ^ 2) (by ring) (mul_le_mul_of_nonneg_right (by norm_num) hU2.le))
    exact ⟨a1, a2.trans (by norm_num; linarith), by linarith, fun _ => a4⟩
  · have hqg : 2 ≤ q := by nlinarith
    obtain ⟨a1, a2, a3⟩ := core (H := H) (σ := σ) (κ := 2) (d := 8) (q0 := 2) (qm := 2.829) (B := 4.02 * U ^ 2) (ne := 2) (nd := 4) (nz := 5) (nt := 3)
      fc fp fdx fdy fw ft hw c8 (by norm_num) hqg q3 (by norm_num) (by norm_num) (by norm_num) (by norm_num) hσ0 hσ' herr2
      (by linarith) hP (by norm_num; linarith) (by norm_num; linarith) (by norm_num; linarith) (by norm_num) (by norm_num) (by norm_num) (by norm_num)
      (by linarith) (by linarith) (by linarith)
    refine ⟨a1, a2.trans (by norm_num; linarith), ?_, ?_⟩
    · refine a3.trans (le_of_eq_of_le (b := (4 + 0.501 * 13 + 2.002 * 4 + 1.001 * 4.02) * U ^ 2) (by ring) (mul_le_mul_of_nonneg_right (by norm_num) hU2.le))
    · intro hlt
      exfalso
      have g1 := grid_ge (r := c) (k := 2) (by rw [abs_of_pos (by linarith)]; norm_num; linarith)
      have g2 : Fmt.Mul2 (2 - 52) (4 : ℝ) := ⟨2 ^ 52, by norm_num⟩
      have g3 := mul2_ge (g1.sub g2) (by linarith)
      rw [show (2 : ℤ) - 52 = -50 by norm_num, zm50] at g3
      have a4 := (abs_le.mp (abs_add_le (V p) (V dx + V dy) |>.trans hP)).1
      nlinarith

end Hypot
end Verif
