import Verif.Lemmas.CacheHashes
import Verif.Lemmas.FalsePos
import Mathlib.Analysis.Convex.Deriv
import Mathlib.Analysis.SpecialFunctions.Log.NegMulLog

/-! # The estimated false positive probability -/

namespace Poppy

open Spec

/-- Correctly rounded functions are accurate. -/
theorem Libm.exact_accuratePow : Libm.exact.AccuratePow := by
  intro x _ h1 h2 k hk
  have hu := halfUlp_pos
  have h0 : 0 ≤ x := le_trans (by norm_num) h1
  rw [Libm.exact_powf h0]
  have e : (x : ℝ) ^ (((k : ℕ) : ℚ) : ℝ) = (x : ℝ) ^ k := by
    push_cast
    exact Real.rpow_natCast _ _
  rw [e]
  have g1 : (1 : ℝ) / 4 ≤ x := by
    have : (((1 / 4 : ℚ)) : ℝ) ≤ x := by exact_mod_cast h1
    push_cast at this
    exact this
  have g2 : (x : ℝ) ≤ 1 := by exact_mod_cast h2
  have p1 : (x : ℝ) ^ k ≤ 1 := pow_le_one₀ (by linarith) g2
  have p0 : (2 : ℝ) ^ (-1022 : ℤ) ≤ (x : ℝ) ^ k := by
    have a1 : ((1 : ℝ) / 4) ^ 400 ≤ (1 / 4) ^ k := pow_le_pow_of_le_one (by norm_num) (by norm_num) hk
    have a2 : ((1 : ℝ) / 4) ^ k ≤ (x : ℝ) ^ k := pow_le_pow_left₀ (by norm_num) g1 k
    refine le_trans ?_ (a1.trans a2)
    rw [show ((1 : ℝ) / 4) = 2 ^ (-2 : ℤ) by norm_num, ← zpow_natCast, ← zpow_mul]
    exact zpow_le_zpow_right₀ (by norm_num) (by norm_num)
  have h0' : 0 < (x : ℝ) ^ k := lt_of_lt_of_le (by positivity) p0
  obtain ⟨er, _⟩ := rnd_fin (x := (x : ℝ) ^ k) isF_one (by
    have := two_pow_lt_f64Huge (n := 0) (by norm_num); simpa using this) (by
    push_cast; rw [abs_of_pos h0']; exact p1)
  refine ⟨_, er, ?_⟩
  have := rndQ_rel ((x : ℝ) ^ k) (by rw [abs_of_pos h0']; exact p0)
  rw [abs_of_pos h0'] at this
  exact this.trans (mul_le_mul_of_nonneg_right (by unfold halfUlp; norm_num) h0'.le)

theorem Near.pow {e t z : ℝ} (hz : 0 ≤ z) (he : 0 ≤ e) {k : ℕ} (hk : k * e ≤ 1 / 2)
    (he1 : e ≤ 1) (h : Near e t z) : Near (2 * (k * e)) (t ^ k) (z ^ k) := by
  have ht : 0 ≤ t := h.nonneg hz he1
  constructor
  · have a := pow_le_pow_left₀ (mul_nonneg hz (by linarith)) h.1 k
    rw [mul_pow] at a
    refine le_trans (mul_le_mul_of_nonneg_left ?_ (pow_nonneg hz k)) a
    have b := one_add_mul_le_pow (a := -e) (by linarith) k
    rw [← sub_eq_add_neg] at b
    have : 0 ≤ (k : ℝ) * e := by positivity
    linarith
  · have a := pow_le_pow_left₀ ht h.2 k
    rw [mul_pow] at a
    refine a.trans (mul_le_mul_of_nonneg_left ?_ (pow_nonneg hz k))
    have b : (1 + e) ^ k ≤ Real.exp (k * e) := by
      rw [Real.exp_nat_mul]
      exact pow_le_pow_left₀ (by linarith) (by linarith [Real.add_one_le_exp e]) k
    have c : Real.exp (k * e) ≤ 1 + 2 * (k * e) := by
      have h0 : 0 ≤ (k : ℝ) * e := by positivity
      have := Real.add_one_le_exp (-((k : ℝ) * e))
      rw [Real.exp_neg] at this
      have hp := Real.exp_pos ((k : ℝ) * e)
      have h3 := mul_le_mul_of_nonneg_left this hp.le
      rw [mul_inv_cancel₀ hp.ne'] at h3
      nlinarith
    exact b.trans c

/-- The number of hash functions that are best for `n` entries in `c` bits. -/
theorem kHash_bounds {lm : Libm} (ac : lm.Accurate) {cap c : U64} (h0 : cap ≠ 0)
    (h1 : cap.toNat ≤ c.toNat) (h2 : c.toNat ≤ 500 * cap.toNat) :
    ∃ k : ℕ, (kHash lm c cap).toNat = k ∧ 0 < k ∧ k ≤ 400 ∧
      bestHashes c.toNat cap.toNat * (1 - 2 ^ (-44 : ℤ)) ≤ k ∧
      k < bestHashes c.toNat cap.toNat * (1 + 2 ^ (-44 : ℤ)) + 1 := by
  have hu := halfUlp_pos
  have hl := log_two_bounds
  have hn0 := toNat_pos_of_ne h0
  have hc0 : 0 < c.toNat := lt_of_lt_of_le hn0 h1
  have hnr : (0 : ℝ) < cap.toNat := by exact_mod_cast hn0
  have hcr : (0 : ℝ) < c.toNat := by exact_mod_cast hc0
  have h1' : (cap.toNat : ℝ) ≤ c.toNat := by exact_mod_cast h1
  have h2' : (c.toNat : ℝ) ≤ 500 * cap.toNat := by exact_mod_cast h2
  obtain ⟨v, v0, v1, hv, nv⟩ := kHash_near ac (bits := c) h0
  have e : Real.log 2 * (c.toNat : ℝ) / cap.toNat = bestHashes c.toNat cap.toNat := by
    unfold bestHashes; ring
  rw [e] at nv
  have r1 : Real.log 2 ≤ bestHashes c.toNat cap.toNat := by
    unfold bestHashes
    have : 1 ≤ (c.toNat : ℝ) / cap.toNat := by rw [le_div_iff₀ hnr]; linarith
    nlinarith
  have r2 : bestHashes c.toNat cap.toNat ≤ 500 * Real.log 2 := by
    unfold bestHashes
    have : (c.toNat : ℝ) / cap.toNat ≤ 500 := by rw [div_le_iff₀ hnr]; linarith
    nlinarith
  have e44 : 35 * halfUlp ≤ 2 ^ (-44 : ℤ) := by unfold halfUlp; norm_num
  have nv := nv.mono (by linarith) e44
  have s44 : (2 : ℝ) ^ (-44 : ℤ) ≤ 1 / 1000 := by norm_num
  have p44 : (0 : ℝ) < 2 ^ (-44 : ℤ) := by positivity
  generalize bestHashes (c.toNat : ℝ) (cap.toNat : ℝ) = x at *
  generalize (2 : ℝ) ^ (-44 : ℤ) = ε at *
  have hv2 : (v : ℝ) ≤ 399 := nv.2.trans (by nlinarith)
  have hv2' : v ≤ 399 := by exact_mod_cast hv2
  obtain ⟨t1, t2⟩ := toU64_ceil_near v0 (hv2'.trans (by norm_num))
  rw [← hv] at t1 t2
  generalize (kHash lm c cap).toNat = k at *
  have hk0 : (0 : ℝ) < k := lt_of_lt_of_le (lt_of_lt_of_le (by nlinarith) nv.1) t1
  have hk3 : (k : ℝ) < 400 := by linarith
  have a1 : 0 < k := by exact_mod_cast hk0
  have a2 : k < 400 := by exact_mod_cast hk3
  exact ⟨k, rfl, a1, a2.le, nv.1.trans t1, lt_of_lt_of_le t2 (by linarith [nv.2])⟩

/-- The bits set per bit, as computed. -/
theorem load_near {cap c : U64} (h0 : cap ≠ 0) (h1 : cap.toNat ≤ c.toNat) {k : ℕ}
    (hk1 : 0 < k) (hk2 : k ≤ 400) (y1 : (69 / 100 : ℝ) ≤ k * cap.toNat / c.toNat)
    (y2 : (k * cap.toNat / c.toNat : ℝ) ≤ 17 / 10) :
    ∃ w : ℚ, FVal.div (FVal.mul (FVal.neg (.fin (k : ℚ))) (FVal.ofU64 cap)) (FVal.ofU64 c)
        = .fin (-w) ∧ IsF (-w) ∧ Near (20 * halfUlp) w (k * cap.toNat / c.toNat) := by
  have hu := halfUlp_pos
  have hu' := halfUlp_lt
  have hn0 := toNat_pos_of_ne h0
  have hc0 : 0 < c.toNat := lt_of_lt_of_le hn0 h1
  have hcne : c ≠ 0 := by rintro rfl; simp at hc0
  obtain ⟨n, hn, n0, _, nn, n1, n64⟩ := near_ofU64 cap
  obtain ⟨d, hd, d0, _, nd, d1, d64⟩ := near_ofU64 c
  have n1 := n1 h0
  have d1 := d1 hcne
  have k1 : (1 : ℚ) ≤ k := by exact_mod_cast hk1
  have k2 : (k : ℚ) ≤ 400 := by exact_mod_cast hk2
  have hkn1 : 1 ≤ (k : ℚ) * n := by nlinarith
  have hkr : (0 : ℝ) ≤ k := Nat.cast_nonneg _
  have hnr : (0 : ℝ) < cap.toNat := by exact_mod_cast hn0
  have hcr : (0 : ℝ) < c.toNat := by exact_mod_cast hc0
  have hkn2 : (k : ℚ) * n ≤ 2 ^ 70 := by
    have hc64 : (c.toNat : ℝ) ≤ 2 ^ 64 := by exact_mod_cast c.isLt.le
    rw [div_le_iff₀ hcr] at y2
    have b1 : (n : ℝ) ≤ 2 * cap.toNat := nn.2.trans (by nlinarith)
    have b2 : (k : ℝ) * n ≤ 2 * (k * cap.toNat) := by nlinarith
    have : (((k : ℚ) * n : ℚ) : ℝ) ≤ ((2 ^ 70 : ℚ) : ℝ) := by push_cast; linarith
    exact_mod_cast this
  obtain ⟨p, hp, _, np⟩ := rnd_near_neg (x := k * n) (le_trans (by norm_num) hkn1) hkn2
  have a1 : Near (0 + 2 * halfUlp) ((k : ℝ) * n) (k * cap.toNat) :=
    (Near.refl le_rfl hkr).mul hkr hnr.le le_rfl hu.le (by norm_num) (by linarith) nn
  push_cast at np
  have hx : (0 : ℝ) ≤ k * cap.toNat := by positivity
  have a2 := np.trans hx hu.le (by linarith) (by linarith) (by linarith) a1
  have a3 : Near _ ((p : ℝ) / d) (k * cap.toNat / c.toNat) :=
    a2.div hx hcr (by linarith) hu.le (by linarith) (by linarith) nd
  have hy : (0 : ℝ) ≤ k * cap.toNat / c.toNat := by positivity
  have q1 : (1 : ℚ) / 2 ^ 60 ≤ p / d := by
    have : ((1 / 2 ^ 60 : ℚ) : ℝ) ≤ ((p / d : ℚ) : ℝ) := by
      push_cast
      refine le_trans ?_ a3.1
      nlinarith
    exact_mod_cast this
  have q2 : p / d ≤ (2 : ℚ) ^ 70 := by
    have : ((p / d : ℚ) : ℝ) ≤ (((2 : ℚ) ^ 70 : ℚ) : ℝ) := by
      push_cast
      refine le_trans a3.2 ?_
      nlinarith
    exact_mod_cast this
  obtain ⟨w, hw, wF, nw⟩ := rnd_near_neg q1 q2
  push_cast at nw
  have a4 := nw.trans hy hu.le (by linarith) (by linarith) (by linarith) a3
  refine ⟨w, ?_, wF, ?_⟩
  · rw [hn, hd]
    show FVal.div (rnd (-(k : ℚ) * n)) _ = _
    rw [neg_mul, hp, fdiv_fin (by linarith), neg_div, hw]
  · exact a4.mono hy (by linarith)

/-- The load with the best number of hash functions. -/
theorem load_bounds {c n : ℝ} (hn : 0 < n) (h1 : n ≤ c) {k : ℕ}
    (k1 : bestHashes c n * (1 - 2 ^ (-44 : ℤ)) ≤ k)
    (k2 : k < bestHashes c n * (1 + 2 ^ (-44 : ℤ)) + 1) :
    69 / 100 ≤ k * n / c ∧ k * n / c ≤ 17 / 10 := by
  have hl := log_two_bounds
  have s44 : (2 : ℝ) ^ (-44 : ℤ) ≤ 1 / 1000000 := by norm_num
  have p44 : (0 : ℝ) < 2 ^ (-44 : ℤ) := by positivity
  generalize (2 : ℝ) ^ (-44 : ℤ) = ε at *
  have hc : 0 < c := lt_of_lt_of_le hn h1
  have e : bestHashes c n * n = Real.log 2 * c := by unfold bestHashes; field_simp
  have m1 := mul_le_mul_of_nonneg_right k1 hn.le
  have m2 := mul_le_mul_of_nonneg_right k2.le hn.le
  constructor
  · rw [le_div_iff₀ hc]
    nlinarith
  · rw [div_le_iff₀ hc]
    nlinarith

/-- `estimate_p` computes the false positive probability with the number of hash functions that is
best for the number of entries. -/
theorem estimateP_rate {lm : Libm} (ac : lm.Accurate) (ax : lm.AccurateExp) (ap : lm.AccuratePow)
    {cap c : U64} (h0 : cap ≠ 0) (h1 : cap.toNat ≤ c.toNat) (h2 : c.toNat ≤ 500 * cap.toNat) :
    ∃ v : ℚ, estimateP lm cap c = .fin v ∧
      Near (2 ^ (-34 : ℤ)) v (falsePos c.toNat (kHash lm c cap).toNat cap.toNat) := by
  have hu := halfUlp_pos
  have hu' := halfUlp_lt
  obtain ⟨k, hkk, hk0, hk400, k1, k2⟩ := kHash_bounds ac h0 h1 h2
  have hnr : (0 : ℝ) < cap.toNat := by exact_mod_cast toNat_pos_of_ne h0
  obtain ⟨y1, y2⟩ := load_bounds hnr (by exact_mod_cast h1) k1 k2
  obtain ⟨w, hw, wF, nw⟩ := load_near h0 h1 hk0 hk400 y1 y2
  have hk64 : FVal.ofU64 (kHash lm c cap) = .fin k := by
    rw [ofU64_exact (by rw [hkk]; omega), hkk]
  rw [hkk]
  unfold falsePos
  generalize (k : ℝ) * cap.toNat / c.toNat = y at *
  have w1 : (1 : ℝ) / 2 ≤ w := le_trans (by nlinarith) nw.1
  have w2 : (w : ℝ) ≤ 2 := nw.2.trans (by nlinarith)
  obtain ⟨r, hr, nr⟩ := ax.exp (-w) wF (by
      have : ((-2 : ℚ) : ℝ) ≤ ((-w : ℚ) : ℝ) := by push_cast; linarith
      exact_mod_cast this) (by
      have : ((-w : ℚ) : ℝ) ≤ ((0 : ℚ) : ℝ) := by push_cast; linarith
      exact_mod_cast this)
  push_cast at nr
  have hey : Real.exp (-(w : ℝ)) ≤ 1 := Real.exp_le_one_iff.2 (by linarith)
  have c1 := exp_neg_close (a := w) (b := y) (by linarith) (by linarith)
  have c2 : |(w : ℝ) - y| ≤ 34 * halfUlp := by
    rw [abs_le]; constructor <;> nlinarith [nw.1, nw.2]
  have c3 : |(r : ℝ) - Real.exp (-y)| ≤ 38 * halfUlp := by
    have : 4 * halfUlp * Real.exp (-(w : ℝ)) ≤ 4 * halfUlp := by nlinarith
    calc |(r : ℝ) - Real.exp (-y)| ≤ |(r : ℝ) - Real.exp (-(w : ℝ))|
          + |Real.exp (-(w : ℝ)) - Real.exp (-y)| := abs_sub_le _ _ _
      _ ≤ 38 * halfUlp := by linarith
  have g : 4 / 10 ≤ 1 - Real.exp (-y) ∧ 1 - Real.exp (-y) ≤ 9 / 10 := by
    have h5 : Real.exp (-y) ≤ Real.exp (-(69 / 100)) := Real.exp_le_exp.2 (by linarith)
    have h6 := Real.add_one_le_exp (69 / 100 : ℝ)
    have h7 : Real.exp (-(69 / 100)) ≤ 1 / (69 / 100 + 1) := by
      rw [Real.exp_neg, ← one_div]
      exact one_div_le_one_div_of_le (by norm_num) h6
    norm_num at h7
    have h8 : Real.exp (-2) ≤ Real.exp (-y) := Real.exp_le_exp.2 (by linarith)
    have h9 : (1 : ℝ) / 10 ≤ Real.exp (-2) := by
      have x2 := Real.exp_one_lt_d9
      have x0 := Real.exp_pos 1
      rw [show (-2 : ℝ) = -(1 + 1) by norm_num, Real.exp_neg, Real.exp_add, one_div]
      apply inv_anti₀ (by positivity)
      nlinarith
    exact ⟨by linarith, by linarith⟩
  rw [abs_le] at c3
  have d1 : (1 : ℝ) / 4 ≤ 1 - r := by linarith [c3.2]
  have d2 : (1 : ℝ) - r ≤ 1 := by linarith [c3.1]
  have d1' : (1 : ℚ) / 4 ≤ 1 - r := by
    have : ((1 / 4 : ℚ) : ℝ) ≤ ((1 - r : ℚ) : ℝ) := by push_cast; linarith
    exact_mod_cast this
  have d2' : 1 - r ≤ 1 := by
    have : ((1 - r : ℚ) : ℝ) ≤ ((1 : ℚ) : ℝ) := by push_cast; linarith
    exact_mod_cast this
  obtain ⟨g1, g2⟩ := rnd_near (x := 1 - r) (le_trans (by norm_num) d1') (d2'.trans (by norm_num))
  have b1 : (1 : ℚ) / 4 ≤ rndQ (1 - r) := by
    refine le_rndQ _ ?_ (by simpa using d1')
    have := isF_dyadic 1 2 (by norm_num) (by norm_num)
    norm_num at this ⊢
    exact this
  have b2 : rndQ (1 - r) ≤ 1 := rndQ_le _ isF_one (by simpa using d2')
  obtain ⟨s, hs, ns⟩ := ap _ (isF_rndQ _) b1 b2 k hk400
  refine ⟨s, ?_, ?_⟩
  · unfold estimateP
    simp only
    rw [hk64, hw, hr, fsub_one, g1, hs]
  · push_cast at g2
    have hz : (0 : ℝ) ≤ 1 - Real.exp (-y) := by linarith
    have n1 : Near (95 * halfUlp) (1 - (r : ℝ)) (1 - Real.exp (-y)) := by
      constructor <;> nlinarith [c3.1, c3.2]
    have n2 := (g2.trans hz hu.le (by linarith) (by linarith) (by linarith) n1).mono
      (e' := 200 * halfUlp) hz (by linarith)
    have hs0 : (0 : ℝ) ≤ (rndQ (1 - r) : ℚ) := by
      have : (0 : ℚ) ≤ rndQ (1 - r) := by linarith
      exact_mod_cast this
    have n3 : Near (4 * halfUlp) s ((rndQ (1 - r) : ℚ) ^ k : ℝ) :=
      Near.of_abs (pow_nonneg hs0 _) (by rwa [abs_of_nonneg (pow_nonneg hs0 _)])
    generalize ((rndQ (1 - r) : ℚ) : ℝ) = t at *
    generalize 1 - Real.exp (-y) = z at *
    have hkr : (k : ℝ) ≤ 400 := by exact_mod_cast hk400
    have hkr0 : (0 : ℝ) ≤ k := Nat.cast_nonneg k
    have hke : (k : ℝ) * (200 * halfUlp) ≤ 80000 * halfUlp := by nlinarith
    have n4 : Near (160000 * halfUlp) (t ^ k) (z ^ k) :=
      (n2.pow hz (by linarith) (by linarith) (by linarith)).mono (by positivity) (by linarith)
    refine (n3.trans (by positivity) (by linarith) (by linarith) (by linarith) (by linarith) n4).mono
      (by positivity) (le_trans (b := 400000 * halfUlp) (by linarith) ?_)
    unfold halfUlp
    norm_num

/-- The difference of the two entropies is not negative below one half. -/
theorem entropy_diff {u : ℝ} (h0 : 0 < u) (h1 : u ≤ 1 / 2) :
    0 ≤ (1 - u) * Real.log (1 - u) - u * Real.log u := by
  have hc : ConcaveOn ℝ (Set.Icc (0 : ℝ) (1 / 2))
      (fun x => (1 - x) * Real.log (1 - x) - x * Real.log x) := by
    have hd : ∀ x ∈ Set.Ioo (0 : ℝ) (1 / 2), HasDerivAt
        (fun x => (1 - x) * Real.log (1 - x) - x * Real.log x)
        (-(Real.log (1 - x) + 1) - (Real.log x + 1)) x := by
      intro x hx
      have a := Real.hasDerivAt_mul_log (x := x) hx.1.ne'
      have b := (Real.hasDerivAt_mul_log (x := 1 - x) (by linarith [hx.2])).comp x
        ((hasDerivAt_id x).const_sub 1)
      refine (b.sub a).congr_deriv ?_
      simp only [mul_neg, mul_one]
    have hcont : Continuous (fun x : ℝ => (1 - x) * Real.log (1 - x) - x * Real.log x) :=
      (Real.continuous_mul_log.comp (continuous_const.sub continuous_id)).sub
        Real.continuous_mul_log
    refine AntitoneOn.concaveOn_of_deriv (convex_Icc _ _) hcont.continuousOn ?_ ?_
    · rw [interior_Icc]
      exact fun x hx => (hd x hx).differentiableAt.differentiableWithinAt
    · rw [interior_Icc]
      intro x hx y hy hxy
      rw [(hd x hx).deriv, (hd y hy).deriv]
      have l1 : Real.log (1 - x) + Real.log x = Real.log ((1 - x) * x) :=
        (Real.log_mul (by linarith [hx.2]) hx.1.ne').symm
      have l2 : Real.log (1 - y) + Real.log y = Real.log ((1 - y) * y) :=
        (Real.log_mul (by linarith [hy.2]) hy.1.ne').symm
      have : Real.log ((1 - x) * x) ≤ Real.log ((1 - y) * y) := by
        apply Real.log_le_log
        · exact mul_pos (by linarith [hx.2]) hx.1
        · nlinarith [hx.2, hy.2]
      linarith
  have := hc.2 (Set.left_mem_Icc.2 (by norm_num)) (Set.right_mem_Icc.2 (by norm_num))
    (show 0 ≤ 1 - 2 * u by linarith) (show 0 ≤ 2 * u by linarith) (by ring)
  simp only [smul_eq_mul] at this
  norm_num at this
  rw [show 2 * u * (1 / 2) = u by ring] at this
  linarith

theorem log_mul_log_half {u : ℝ} (h0 : 0 < u) (h1 : u ≤ 1 / 2) :
    Real.log u * Real.log (1 - u) ≤ Real.log 2 ^ 2 := by
  have hd : ∀ x ∈ Set.Icc u (1 / 2), HasDerivAt (fun x => Real.log x * Real.log (1 - x))
      (x⁻¹ * Real.log (1 - x) + Real.log x * (-(1 - x)⁻¹)) x := by
    intro x hx
    have hx0 : 0 < x := lt_of_lt_of_le h0 hx.1
    have a := Real.hasDerivAt_log hx0.ne'
    have b := (Real.hasDerivAt_log (x := 1 - x) (by linarith [hx.2])).comp x
      ((hasDerivAt_id x).const_sub 1)
    refine (a.mul b).congr_deriv ?_
    simp only [mul_neg, mul_one, Function.comp]
  have hm : MonotoneOn (fun x => Real.log x * Real.log (1 - x)) (Set.Icc u (1 / 2)) := by
    refine monotoneOn_of_deriv_nonneg (convex_Icc _ _)
      (fun x hx => (hd x hx).continuousAt.continuousWithinAt) ?_ ?_
    · exact fun x hx => (hd x (interior_subset hx)).differentiableAt.differentiableWithinAt
    · intro x hx
      have hx := interior_subset hx
      have hx0 : 0 < x := lt_of_lt_of_le h0 hx.1
      have hx1 : 0 < 1 - x := by linarith [hx.2]
      rw [(hd x hx).deriv]
      have := entropy_diff hx0 hx.2
      have e : x⁻¹ * Real.log (1 - x) + Real.log x * (-(1 - x)⁻¹)
          = ((1 - x) * Real.log (1 - x) - x * Real.log x) / (x * (1 - x)) := by
        field_simp
        ring
      rw [e]
      positivity
  have := hm (Set.left_mem_Icc.2 h1) (Set.right_mem_Icc.2 h1) h1
  have e : Real.log (1 / 2) = -Real.log 2 := by rw [one_div, Real.log_inv]
  simp only at this
  rw [show (1 : ℝ) - 1 / 2 = 1 / 2 by norm_num, e] at this
  linarith

theorem log_mul_log_le {u : ℝ} (h0 : 0 < u) (h1 : u < 1) :
    Real.log u * Real.log (1 - u) ≤ Real.log 2 ^ 2 := by
  rcases le_total u (1 / 2) with h | h
  · exact log_mul_log_half h0 h
  · have := log_mul_log_half (u := 1 - u) (by linarith) (by linarith)
    rw [sub_sub_cancel] at this
    linarith

/-- No number of hash functions gives less than `2 ^ -bestHashes`. -/
theorem falsePos_ge {m n : ℝ} (hm : 0 < m) (hn : 0 < n) (k : ℕ) :
    Real.exp (-(bestHashes m n * Real.log 2)) ≤ falsePos m k n := by
  unfold falsePos bestHashes
  have hl : 0 < Real.log 2 := Real.log_pos one_lt_two
  rcases Nat.eq_zero_or_pos k with rfl | hk
  · rw [pow_zero]
    exact Real.exp_le_one_iff.2 (by have : 0 < m / n := by positivity
                                    nlinarith [mul_pos this hl])
  have hk' : (0 : ℝ) < k := by exact_mod_cast hk
  have hy : 0 < (k : ℝ) * n / m := by positivity
  have u1 : Real.exp (-(k * n / m)) < 1 := by
    have := Real.exp_lt_exp.2 (show -((k : ℝ) * n / m) < 0 by linarith)
    rwa [Real.exp_zero] at this
  have := log_mul_log_le (Real.exp_pos _) u1
  rw [Real.log_exp] at this
  have hp : 0 < 1 - Real.exp (-(k * n / m)) := by linarith
  rw [← Real.exp_log (pow_pos hp k), Real.log_pow]
  apply Real.exp_le_exp.2
  generalize Real.log (1 - Real.exp (-(k * n / m))) = x at *
  have h3 := mul_le_mul_of_nonneg_left this (show 0 ≤ m / n by positivity)
  have e : m / n * (-(k * n / m) * x) = -(k * x) := by field_simp
  rw [e] at h3
  nlinarith

end Poppy
