import Verif.Lemmas.FalsePos
import Verif.Lemmas.Origin

/-! # The number of hash functions of filters with an index cache -/

namespace Poppy

open Spec

/-- Correctly rounded functions are accurate. -/
theorem Libm.exact_accurateExp : Libm.exact.AccurateExp := by
  have hu := halfUlp_pos
  have key : ∀ x : ℝ, 1 / 2 ^ 60 ≤ x → x ≤ 2 ^ 20 →
      ∃ r : ℚ, rnd x = .fin r ∧ |(r : ℝ) - x| ≤ 4 * halfUlp * x := by
    intro x h1 h2
    have h0 : 0 < x := lt_of_lt_of_le (by positivity) h1
    have h20 : IsF ((2 : ℚ) ^ 20) := by
      have := isF_two_zpow (e := 20) (by norm_num); exact_mod_cast this
    obtain ⟨e, _⟩ := rnd_fin (x := x) h20 (two_pow_lt_f64Huge (by norm_num)) (by
      push_cast; rw [abs_of_pos h0]; exact h2)
    refine ⟨_, e, ?_⟩
    have hn : (2 : ℝ) ^ (-1022 : ℤ) ≤ |x| := by
      rw [abs_of_pos h0]
      refine le_trans ?_ h1
      rw [show (1 : ℝ) / 2 ^ 60 = 2 ^ (-60 : ℤ) by norm_num]
      exact zpow_le_zpow_right₀ (by norm_num) (by norm_num)
    have := rndQ_rel x hn
    rw [abs_of_pos h0] at this
    have hh : (2 : ℝ) ^ (-53 : ℤ) * x ≤ 4 * halfUlp * x :=
      mul_le_mul_of_nonneg_right (by unfold halfUlp; norm_num) h0.le
    exact this.trans hh
  constructor
  · intro q _ h1 h2
    have e1 : Real.exp (-2) ≤ Real.exp (q : ℝ) := Real.exp_le_exp.2 (by exact_mod_cast h1)
    have e2 : Real.exp (q : ℝ) ≤ 1 := Real.exp_le_one_iff.2 (by exact_mod_cast h2)
    have e3 : (1 : ℝ) / 2 ^ 60 ≤ Real.exp (-2) := by
      have x2 := Real.exp_one_lt_d9
      have x0 := Real.exp_pos 1
      rw [show (-2 : ℝ) = -(1 + 1) by norm_num, Real.exp_neg, Real.exp_add, one_div]
      apply inv_anti₀ (by positivity)
      nlinarith
    exact key _ (e3.trans e1) (e2.trans (by norm_num))
  · intro x _ h1 h2 k hk
    have h0 : 0 ≤ x := le_trans (by norm_num) h1
    rw [Libm.exact_powf h0]
    have e : (x : ℝ) ^ (((k : ℕ) : ℚ) : ℝ) = (x : ℝ) ^ k := by
      push_cast
      exact Real.rpow_natCast _ _
    rw [e]
    have g1 : (1 : ℝ) / 4 ≤ x := by
      have : (((1 / 4 : ℚ)) : ℝ) ≤ x := by exact_mod_cast h1
      push_cast at this
      exact this
    have g2 : (x : ℝ) ≤ 1 := by exact_mod_cast h2
    apply key
    · rcases hk with rfl | rfl
      · rw [pow_one]; exact le_trans (by norm_num) g1
      · have : (1 : ℝ) / 16 ≤ x ^ 2 := by nlinarith
        exact le_trans (by norm_num) this
    · exact le_trans (pow_le_one₀ (by linarith) g2) (by norm_num)

theorem rnd_near {x : ℚ} (h0 : 1 / 2 ^ 60 ≤ x) (h1 : x ≤ 2 ^ 70) :
    rnd x = .fin (rndQ x) ∧ Near halfUlp (rndQ x : ℚ) (x : ℝ) := by
  refine ⟨(rnd_pos (le_trans (by norm_num) h0) (h1.trans (by norm_num))).1, near_rndQ (tiny_le ?_)⟩
  exact le_trans (by norm_num) h0

theorem rnd_near_neg {x : ℚ} (h0 : 1 / 2 ^ 60 ≤ x) (h1 : x ≤ 2 ^ 70) :
    ∃ w : ℚ, rnd (-x) = .fin (-w) ∧ IsF (-w) ∧ Near halfUlp (w : ℝ) (x : ℝ) := by
  have h70 : IsF ((2 : ℚ) ^ 70) := by
    have := isF_two_zpow (e := 70) (by norm_num); exact_mod_cast this
  refine ⟨-rndQ (-x), ?_, ?_, ?_⟩
  · rw [neg_neg]
    refine (rnd_fin (K := ℚ) h70 (two_pow_lt_f64Huge (by norm_num)) ?_).1
    rw [abs_neg, abs_of_pos (lt_of_lt_of_le (by norm_num) h0)]
    exact h1
  · rw [neg_neg]; exact isF_rndQ _
  · have := near_rndQ_neg (x := x) (tiny_le (le_trans (by norm_num) h0))
    push_cast at this ⊢
    exact this

/-- The load of the cache per hash function, as computed. -/
theorem cacheLoad_near {cap c : U64} (h0 : cap ≠ 0) (h1 : cap.toNat ≤ c.toNat)
    (h2 : c.toNat ≤ 2 * cap.toNat) {k : ℕ} (hk : k = 1 ∨ k = 2) :
    ∃ w : ℚ, FVal.div (FVal.mul (FVal.neg (.fin (k : ℚ))) (FVal.ofU64 cap)) (FVal.ofU64 c)
        = .fin (-w) ∧ IsF (-w) ∧ Near (20 * halfUlp) w (k * cap.toNat / c.toNat) := by
  have hu := halfUlp_pos
  have hu' := halfUlp_lt
  have hn0 := toNat_pos_of_ne h0
  have hc0 : 0 < c.toNat := lt_of_lt_of_le hn0 h1
  have hcne : c ≠ 0 := by rintro rfl; simp at hc0
  obtain ⟨n, hn, n0, _, nn, n1, n64⟩ := near_ofU64 cap
  obtain ⟨d, hd, d0, _, nd, d1, d64⟩ := near_ofU64 c
  have n1 := n1 h0
  have d1 := d1 hcne
  have k1 : (1 : ℚ) ≤ k := by rcases hk with rfl | rfl <;> norm_num
  have k2 : (k : ℚ) ≤ 2 := by rcases hk with rfl | rfl <;> norm_num
  have hkn1 : 1 ≤ (k : ℚ) * n := by nlinarith
  have hkn2 : (k : ℚ) * n ≤ 2 ^ 65 := by nlinarith
  obtain ⟨p, hp, _, np⟩ := rnd_near_neg (x := k * n) (le_trans (by norm_num) hkn1)
    (le_trans hkn2 (by norm_num))
  have hkr : (0 : ℝ) ≤ k := Nat.cast_nonneg _
  have hnr : (0 : ℝ) < cap.toNat := by exact_mod_cast hn0
  have hcr : (0 : ℝ) < c.toNat := by exact_mod_cast hc0
  have a1 : Near (0 + 2 * halfUlp) ((k : ℝ) * n) (k * cap.toNat) :=
    (Near.refl le_rfl hkr).mul hkr hnr.le le_rfl hu.le (by norm_num) (by linarith) nn
  push_cast at np
  have hx : (0 : ℝ) ≤ k * cap.toNat := by positivity
  have a2 := np.trans hx hu.le (by linarith) (by linarith) (by linarith) a1
  have a3 : Near _ ((p : ℝ) / d) (k * cap.toNat / c.toNat) :=
    a2.div hx hcr (by linarith) hu.le (by linarith) (by linarith) nd
  have hy : (0 : ℝ) ≤ k * cap.toNat / c.toNat := by positivity
  have hratio : (1 : ℝ) / 2 ≤ k * cap.toNat / c.toNat ∧ (k * cap.toNat / c.toNat : ℝ) ≤ 2 := by
    have k1' : (1 : ℝ) ≤ k := by exact_mod_cast k1
    have k2' : (k : ℝ) ≤ 2 := by exact_mod_cast k2
    have h1' : (cap.toNat : ℝ) ≤ c.toNat := by exact_mod_cast h1
    have h2' : (c.toNat : ℝ) ≤ 2 * cap.toNat := by exact_mod_cast h2
    constructor
    · rw [le_div_iff₀ hcr]; nlinarith
    · rw [div_le_iff₀ hcr]; nlinarith
  have q1 : (1 : ℚ) / 2 ^ 60 ≤ p / d := by
    have : ((1 / 2 ^ 60 : ℚ) : ℝ) ≤ ((p / d : ℚ) : ℝ) := by
      push_cast
      refine le_trans ?_ a3.1
      nlinarith
    exact_mod_cast this
  have q2 : p / d ≤ (2 : ℚ) ^ 70 := by
    have : ((p / d : ℚ) : ℝ) ≤ (((2 : ℚ) ^ 70 : ℚ) : ℝ) := by
      push_cast
      refine le_trans a3.2 ?_
      nlinarith
    exact_mod_cast this
  obtain ⟨w, hw, wF, nw⟩ := rnd_near_neg q1 q2
  push_cast at nw
  have a4 := nw.trans hy hu.le (by linarith) (by linarith) (by linarith) a3
  refine ⟨w, ?_, wF, ?_⟩
  · rw [hn, hd]
    show FVal.div (rnd (-(k : ℚ) * n)) _ = _
    rw [neg_mul, hp, fdiv_fin (by linarith), neg_div, hw]
  · exact a4.mono hy (by linarith)

/-- The exponential stays close if its argument does. -/
theorem exp_neg_close {a b : ℝ} (ha : 0 ≤ a) (hb : 0 ≤ b) :
    |Real.exp (-a) - Real.exp (-b)| ≤ |a - b| := by
  wlog h : a ≤ b generalizing a b
  · rw [abs_sub_comm, abs_sub_comm a]
    exact this hb ha (le_of_not_ge h)
  have h1 : Real.exp (-b) ≤ Real.exp (-a) := Real.exp_le_exp.2 (by linarith)
  rw [abs_of_nonneg (by linarith), abs_of_nonpos (by linarith)]
  have h2 : Real.exp (-b) = Real.exp (-a) * Real.exp (-(b - a)) := by
    rw [← Real.exp_add]; congr 1; ring
  have h3 := Real.add_one_le_exp (-(b - a))
  have h4 : Real.exp (-a) ≤ 1 := Real.exp_le_one_iff.2 (by linarith)
  have h5 := Real.exp_pos (-a)
  rw [h2]
  nlinarith

/-- The hash functions of the cache: one or two, and its load. -/
theorem cacheHashes {lm : Libm} (ac : lm.Accurate) {cap c : U64} (h0 : cap ≠ 0)
    (h1 : cap.toNat ≤ c.toNat) (h2 : c.toNat ≤ 2 * cap.toNat) :
    ∃ k : ℕ, (kHash lm c cap).toNat = k ∧ (k = 1 ∨ k = 2) ∧
      bestHashes c.toNat cap.toNat * (1 - 2 ^ (-44 : ℤ)) ≤ k ∧
      k < bestHashes c.toNat cap.toNat * (1 + 2 ^ (-44 : ℤ)) + 1 := by
  have hu := halfUlp_pos
  have hl := log_two_bounds
  have hn0 := toNat_pos_of_ne h0
  have hc0 : 0 < c.toNat := lt_of_lt_of_le hn0 h1
  have hnr : (0 : ℝ) < cap.toNat := by exact_mod_cast hn0
  have hcr : (0 : ℝ) < c.toNat := by exact_mod_cast hc0
  have h1' : (cap.toNat : ℝ) ≤ c.toNat := by exact_mod_cast h1
  have h2' : (c.toNat : ℝ) ≤ 2 * cap.toNat := by exact_mod_cast h2
  obtain ⟨v, v0, v1, hv, nv⟩ := kHash_near ac (bits := c) h0
  have e : Real.log 2 * (c.toNat : ℝ) / cap.toNat = bestHashes c.toNat cap.toNat := by
    unfold bestHashes; ring
  rw [e] at nv
  have r1 : Real.log 2 ≤ bestHashes c.toNat cap.toNat := by
    unfold bestHashes
    have : 1 ≤ (c.toNat : ℝ) / cap.toNat := by rw [le_div_iff₀ hnr]; linarith
    nlinarith
  have r2 : bestHashes c.toNat cap.toNat ≤ 2 * Real.log 2 := by
    unfold bestHashes
    have : (c.toNat : ℝ) / cap.toNat ≤ 2 := by rw [div_le_iff₀ hnr]; linarith
    nlinarith
  have e44 : 35 * halfUlp ≤ 2 ^ (-44 : ℤ) := by unfold halfUlp; norm_num
  have nv := nv.mono (by linarith) e44
  have s44 : (2 : ℝ) ^ (-44 : ℤ) ≤ 1 / 1000 := by norm_num
  have p44 : (0 : ℝ) < 2 ^ (-44 : ℤ) := by positivity
  generalize bestHashes (c.toNat : ℝ) (cap.toNat : ℝ) = x at *
  generalize (2 : ℝ) ^ (-44 : ℤ) = ε at *
  have hv2 : (v : ℝ) ≤ 2 := nv.2.trans (by nlinarith)
  have hv2' : v ≤ 2 := by exact_mod_cast hv2
  obtain ⟨t1, t2⟩ := toU64_ceil_near v0 (hv2'.trans (by norm_num))
  rw [← hv] at t1 t2
  generalize (kHash lm c cap).toNat = k at *
  have hk0 : (0 : ℝ) < k := lt_of_lt_of_le (lt_of_lt_of_le (by nlinarith) nv.1) t1
  have hk3 : (k : ℝ) < 3 := by linarith
  have : 0 < k := by exact_mod_cast hk0
  have : k < 3 := by exact_mod_cast hk3
  exact ⟨k, rfl, by omega, nv.1.trans t1, lt_of_lt_of_le t2 (by linarith [nv.2])⟩

/-- The probability of the cache. -/
theorem cacheRate_bounds {c n : ℝ} (hn : 0 < n) (h1 : n ≤ c) (h2 : c ≤ 2 * n) {k : ℕ}
    (hk : k = 1 ∨ k = 2) (k1 : bestHashes c n * (1 - 2 ^ (-44 : ℤ)) ≤ k)
    (k2 : k < bestHashes c n * (1 + 2 ^ (-44 : ℤ)) + 1) :
    (69 / 100 ≤ k * n / c ∧ k * n / c ≤ 14 / 10) ∧ 3995 / 10000 ≤ falsePos c k n ∧
      falsePos c k n ≤ 6322 / 10000 := by
  have hl := log_two_bounds
  have s44 : (2 : ℝ) ^ (-44 : ℤ) ≤ 1 / 1000000 := by norm_num
  have p44 : (0 : ℝ) < 2 ^ (-44 : ℤ) := by positivity
  generalize (2 : ℝ) ^ (-44 : ℤ) = ε at *
  have hc : 0 < c := lt_of_lt_of_le hn h1
  have x1 := Real.exp_one_gt_d9
  have x2 := Real.exp_one_lt_d9
  have i1 : (36787 / 100000 : ℝ) ≤ Real.exp (-1) := by
    rw [Real.exp_neg, le_inv_comm₀ (by norm_num) (by linarith)]
    norm_num; linarith
  have i2 : Real.exp (-1) ≤ (36789 / 100000 : ℝ) := by
    rw [Real.exp_neg, inv_le_comm₀ (by linarith) (by norm_num)]
    norm_num; linarith
  unfold bestHashes at k1 k2
  unfold falsePos
  have hr1 : 1 / 2 ≤ n / c := by rw [le_div_iff₀ hc]; linarith
  have hr2 : n / c ≤ 1 := by rw [div_le_one hc]; exact h1
  have hinv : c / n * (n / c) = 1 := by field_simp
  have hcn : 0 < c / n := by positivity
  have hmul : ((k : ℝ) * n / c) = k * (n / c) := by ring
  rw [hmul]
  generalize n / c = x at *
  generalize c / n = r at *
  have half : Real.exp (-Real.log 2) = 1 / 2 := by
    rw [Real.exp_neg, Real.exp_log (by norm_num)]; norm_num
  rcases hk with rfl | rfl
  · push_cast at *
    have hx : 693146 / 1000000 ≤ x := by
      have : r * (Real.log 2 * (1 - ε)) ≤ r * x := by rw [hinv]; linarith
      have := le_of_mul_le_mul_left this hcn
      nlinarith
    have e1 : Real.exp (-1) ≤ Real.exp (-(1 * x)) := Real.exp_le_exp.2 (by linarith)
    have e2 : Real.exp (-(1 * x)) ≤ 1 / 2 * (1 / (1 - 1 / 100000)) := by
      have h : Real.exp (-(1 * x)) ≤ Real.exp (-Real.log 2) * Real.exp (1 / 100000) := by
        rw [← Real.exp_add]; exact Real.exp_le_exp.2 (by linarith)
      have h' : Real.exp (1 / 100000) ≤ 1 / (1 - 1 / 100000) := by
        have := Real.add_one_le_exp (-(1 / 100000) : ℝ)
        rw [Real.exp_neg] at this
        rw [le_div_iff₀ (by norm_num)]
        have hp := Real.exp_pos (1 / 100000 : ℝ)
        have := mul_le_mul_of_nonneg_left this hp.le
        rw [mul_inv_cancel₀ hp.ne'] at this
        linarith
      rw [half] at h
      linarith
    rw [pow_one]
    norm_num at e2
    rw [one_mul] at *
    refine ⟨⟨by linarith, by linarith⟩, by linarith, by linarith⟩
  · push_cast at *
    have hx : x ≤ 693150 / 1000000 := by
      have : r * x < r * (Real.log 2 * (1 + ε)) := by rw [hinv]; linarith
      have := lt_of_mul_lt_mul_left this hcn.le
      nlinarith
    have e1 : Real.exp (-(2 * x)) ≤ Real.exp (-1) := Real.exp_le_exp.2 (by linarith)
    have e2 : 1 / 4 * (1 - 1 / 100000) ≤ Real.exp (-(2 * x)) := by
      have h : Real.exp (-Real.log 2) * Real.exp (-Real.log 2) * Real.exp (-(1 / 100000))
          ≤ Real.exp (-(2 * x)) := by
        rw [← Real.exp_add, ← Real.exp_add]; exact Real.exp_le_exp.2 (by linarith)
      have := Real.add_one_le_exp (-(1 / 100000) : ℝ)
      rw [half] at h
      linarith
    generalize Real.exp (-(2 * x)) = u at *
    refine ⟨⟨by linarith, by linarith⟩, by nlinarith, by nlinarith⟩

/-- The estimated probability of the cache is accurate. -/
theorem estimateP_near {lm : Libm} (ac : lm.Accurate) (ax : lm.AccurateExp) {cap c : U64}
    (h0 : cap ≠ 0) (h1 : cap.toNat ≤ c.toNat) (h2 : c.toNat ≤ 2 * cap.toNat) :
    ∃ k : ℕ, (k = 1 ∨ k = 2) ∧
      bestHashes c.toNat cap.toNat * (1 - 2 ^ (-44 : ℤ)) ≤ k ∧
      k < bestHashes c.toNat cap.toNat * (1 + 2 ^ (-44 : ℤ)) + 1 ∧
      ∃ v : ℚ, estimateP lm cap c = .fin v ∧
        Near (1000 * halfUlp) v (falsePos c.toNat k cap.toNat) := by
  have hu := halfUlp_pos
  have hu' := halfUlp_lt
  obtain ⟨k, hkk, hk, k1, k2⟩ := cacheHashes ac h0 h1 h2
  refine ⟨k, hk, k1, k2, ?_⟩
  have hnr : (0 : ℝ) < cap.toNat := by exact_mod_cast toNat_pos_of_ne h0
  obtain ⟨⟨y1, y2⟩, f1, f2⟩ := cacheRate_bounds hnr (by exact_mod_cast h1) (by exact_mod_cast h2) hk
    k1 k2
  obtain ⟨w, hw, wF, nw⟩ := cacheLoad_near h0 h1 h2 hk
  have hk64 : FVal.ofU64 (kHash lm c cap) = .fin k := by
    rw [ofU64_exact (by rw [hkk]; rcases hk with rfl | rfl <;> norm_num), hkk]
  unfold falsePos at f1 f2 ⊢
  generalize (k : ℝ) * cap.toNat / c.toNat = y at *
  have w1 : (1 : ℝ) / 2 ≤ w := le_trans (by nlinarith) nw.1
  have w2 : (w : ℝ) ≤ 2 := nw.2.trans (by nlinarith)
  obtain ⟨r, hr, nr⟩ := ax.exp (-w) wF (by
      have : ((-2 : ℚ) : ℝ) ≤ ((-w : ℚ) : ℝ) := by push_cast; linarith
      exact_mod_cast this) (by
      have : ((-w : ℚ) : ℝ) ≤ ((0 : ℚ) : ℝ) := by push_cast; linarith
      exact_mod_cast this)
  push_cast at nr
  have hey : Real.exp (-(w : ℝ)) ≤ 1 := Real.exp_le_one_iff.2 (by linarith)
  have c1 := exp_neg_close (a := w) (b := y) (by linarith) (by linarith)
  have c2 : |(w : ℝ) - y| ≤ 28 * halfUlp := by
    rw [abs_le]; constructor <;> nlinarith [nw.1, nw.2]
  have c3 : |(r : ℝ) - Real.exp (-y)| ≤ 32 * halfUlp := by
    have : 4 * halfUlp * Real.exp (-(w : ℝ)) ≤ 4 * halfUlp := by nlinarith
    calc |(r : ℝ) - Real.exp (-y)| ≤ |(r : ℝ) - Real.exp (-(w : ℝ))|
          + |Real.exp (-(w : ℝ)) - Real.exp (-y)| := abs_sub_le _ _ _
      _ ≤ 32 * halfUlp := by linarith
  have g : 4 / 10 ≤ 1 - Real.exp (-y) ∧ 1 - Real.exp (-y) ≤ 8 / 10 := by
    have : 0 ≤ 1 - Real.exp (-y) := by
      have : Real.exp (-y) ≤ 1 := Real.exp_le_one_iff.2 (by linarith)
      linarith
    rcases hk with rfl | rfl
    · rw [pow_one] at f1 f2
      have h5 : Real.exp (-y) ≤ Real.exp (-(69 / 100)) := Real.exp_le_exp.2 (by linarith)
      have h6 := Real.add_one_le_exp (69 / 100 : ℝ)
      have h7 : Real.exp (-(69 / 100)) ≤ 1 / (69 / 100 + 1) := by
        rw [Real.exp_neg, ← one_div]
        exact one_div_le_one_div_of_le (by norm_num) h6
      norm_num at h7
      exact ⟨by linarith, by linarith⟩
    · constructor <;> nlinarith
  rw [abs_le] at c3
  have d1 : (1 : ℝ) / 4 ≤ 1 - r := by linarith [c3.2]
  have d2 : (1 : ℝ) - r ≤ 1 := by linarith [c3.1]
  have d1' : (1 : ℚ) / 4 ≤ 1 - r := by
    have : ((1 / 4 : ℚ) : ℝ) ≤ ((1 - r : ℚ) : ℝ) := by push_cast; linarith
    exact_mod_cast this
  have d2' : 1 - r ≤ 1 := by
    have : ((1 - r : ℚ) : ℝ) ≤ ((1 : ℚ) : ℝ) := by push_cast; linarith
    exact_mod_cast this
  obtain ⟨g1, g2⟩ := rnd_near (x := 1 - r) (le_trans (by norm_num) d1') (d2'.trans (by norm_num))
  have b1 : (1 : ℚ) / 4 ≤ rndQ (1 - r) := by
    refine le_rndQ _ ?_ (by simpa using d1')
    have := isF_dyadic 1 2 (by norm_num) (by norm_num)
    norm_num at this ⊢
    exact this
  have b2 : rndQ (1 - r) ≤ 1 := rndQ_le _ isF_one (by simpa using d2')
  obtain ⟨s, hs, ns⟩ := ax.pow _ (isF_rndQ _) b1 b2 k hk
  refine ⟨s, ?_, ?_⟩
  · unfold estimateP
    simp only
    rw [hk64, hw, hr, fsub_one, g1, hs]
  · push_cast at g2
    have hz : (0 : ℝ) ≤ 1 - Real.exp (-y) := by linarith
    have n1 : Near (80 * halfUlp) (1 - (r : ℝ)) (1 - Real.exp (-y)) := by
      constructor <;> nlinarith [c3.1, c3.2]
    have n2 := g2.trans hz hu.le (by linarith) (by linarith) (by linarith) n1
    have hs0 : (0 : ℝ) ≤ (rndQ (1 - r) : ℚ) := by
      have : (0 : ℚ) ≤ rndQ (1 - r) := by linarith
      exact_mod_cast this
    have n3 : Near (4 * halfUlp) s ((rndQ (1 - r) : ℚ) ^ k : ℝ) :=
      Near.of_abs (pow_nonneg hs0 _) (by rwa [abs_of_nonneg (pow_nonneg hs0 _)])
    generalize ((rndQ (1 - r) : ℚ) : ℝ) = t at *
    generalize 1 - Real.exp (-y) = z at *
    have n4 : Near (490 * halfUlp) (t ^ k) (z ^ k) := by
      rcases hk with rfl | rfl
      · rw [pow_one, pow_one]; exact n2.mono hz (by linarith)
      · rw [pow_two, pow_two]
        exact (n2.mul hz hz (by linarith) (by linarith) (by linarith) (by linarith) n2).mono (by positivity)
          (by linarith)
    exact (n3.trans (by positivity) (by linarith) (by linarith) (by linarith) (by linarith) n4).mono
      (by positivity) (by linarith)

end Poppy
