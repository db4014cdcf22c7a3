import Verif.Lemmas.CacheHashes

/-! # The number of hash functions of filters with an index cache, and their probability -/

namespace Poppy

open Spec

/-- The bits per entry: a whole number, off by little more than one half. -/
theorem bitsPerEntry_near {c : U64} (hc : 22 ≤ c.toNat) : ∃ b : ℕ,
    FVal.round (FVal.div (FVal.ofU64 V2.bucketBitSize) (FVal.ofU64 c)) = .fin b ∧ b ≤ 1490 ∧
      |(b : ℝ) - 32768 / c.toNat| ≤ 1 / 2 + 2 ^ (-38 : ℤ) := by
  have hu := halfUlp_pos
  have hc0 : c ≠ 0 := by rintro rfl; simp at hc
  obtain ⟨v, v0, _, hv, nv⟩ := div_near (a := V2.bucketBitSize) (by decide) hc0
  rw [bucketBitSize_toNat] at nv
  have hcn : (22 : ℝ) ≤ c.toNat := by exact_mod_cast hc
  have hx : ((32768 : ℕ) : ℝ) / c.toNat ≤ 148946 / 100 := by
    rw [div_le_iff₀ (by linarith)]; push_cast; linarith
  have hx0 : 0 ≤ ((32768 : ℕ) : ℝ) / (c.toNat : ℝ) := by positivity
  have hf := Int.floor_nonneg.2 (show (0 : ℚ) ≤ v + 1 / 2 by linarith)
  have f1 := Int.floor_le (v + 1 / 2)
  have f2 := Int.lt_floor_add_one (v + 1 / 2)
  push_cast at nv hx hx0
  generalize (32768 : ℝ) / (c.toNat : ℝ) = x at *
  have h38 : 11 * halfUlp * x ≤ 2 ^ (-38 : ℤ) := by
    have : 11 * halfUlp * x ≤ 11 * halfUlp * (148946 / 100) := by
      apply mul_le_mul_of_nonneg_left hx; linarith
    refine this.trans ?_
    unfold halfUlp
    norm_num
  have e38 : (2 : ℝ) ^ (-38 : ℤ) ≤ 1 / 1000 := by norm_num
  generalize (2 : ℝ) ^ (-38 : ℤ) = ε at *
  have e : ((⌊v + 1 / 2⌋.toNat : ℕ) : ℝ) = ((⌊v + 1 / 2⌋ : ℤ) : ℝ) := by
    have : ((⌊v + 1 / 2⌋.toNat : ℕ) : ℤ) = ⌊v + 1 / 2⌋ := Int.toNat_of_nonneg hf
    exact_mod_cast congrArg (Int.cast (R := ℝ)) this
  have f1 : ((⌊v + 1 / 2⌋ : ℤ) : ℝ) ≤ v + 1 / 2 := by
    have : (((⌊v + 1 / 2⌋ : ℤ) : ℚ) : ℝ) ≤ ((v + 1 / 2 : ℚ) : ℝ) := by exact_mod_cast f1
    push_cast at this; exact this
  have f2 : (v : ℝ) + 1 / 2 < ((⌊v + 1 / 2⌋ : ℤ) : ℝ) + 1 := by
    have : ((v + 1 / 2 : ℚ) : ℝ) < ((((⌊v + 1 / 2⌋ : ℤ) : ℚ) + 1 : ℚ) : ℝ) := by exact_mod_cast f2
    push_cast at this; exact this
  refine ⟨⌊v + 1 / 2⌋.toNat, ?_, ?_, ?_⟩
  · rw [hv]
    show FVal.fin _ = _
    rw [if_pos v0.le]
    congr 1
    have : ((⌊v + 1 / 2⌋.toNat : ℕ) : ℤ) = ⌊v + 1 / 2⌋ := Int.toNat_of_nonneg hf
    exact_mod_cast congrArg (Int.cast (R := ℚ)) this.symm
  · have : ((⌊v + 1 / 2⌋.toNat : ℕ) : ℝ) ≤ (1490 : ℕ) := by
      rw [e]; push_cast; linarith [nv.2]
    exact_mod_cast this
  · rw [e, abs_le]
    constructor <;> linarith [nv.1, nv.2]

/-- The product from which the number of hash functions is taken. -/
theorem nHashOpt_near {lm : Libm} (ac : lm.Accurate) (ax : lm.AccurateExp) {cap c : U64}
    (h0 : cap ≠ 0) (h1 : cap.toNat ≤ c.toNat) (h2 : c.toNat ≤ 2 * cap.toNat) {b : ℕ}
    (hb : b ≤ 1490) :
    ∃ k : ℕ, (k = 1 ∨ k = 2) ∧
      bestHashes c.toNat cap.toNat * (1 - 2 ^ (-44 : ℤ)) ≤ k ∧
      k < bestHashes c.toNat cap.toNat * (1 + 2 ^ (-44 : ℤ)) + 1 ∧
      Real.log 2 * falsePos c.toNat k cap.toNat * b * (1 - 2 ^ (-41 : ℤ))
        ≤ (V2.nHashOpt lm cap c (.fin b)).toNat ∧
      (V2.nHashOpt lm cap c (.fin b)).toNat
        < Real.log 2 * falsePos c.toNat k cap.toNat * b * (1 + 2 ^ (-41 : ℤ)) + 1 := by
  have hu := halfUlp_pos
  have hu' := halfUlp_lt
  have hl2 := log_two_bounds
  obtain ⟨k, hk, k1, k2, v, hv, nv⟩ := estimateP_near ac ax h0 h1 h2
  refine ⟨k, hk, k1, k2, ?_⟩
  have hnr : (0 : ℝ) < cap.toNat := by exact_mod_cast toNat_pos_of_ne h0
  obtain ⟨_, f1, f2⟩ := cacheRate_bounds hnr (by exact_mod_cast h1) (by exact_mod_cast h2) hk k1 k2
  obtain ⟨l, hl, nl⟩ := ac.ln_two
  unfold V2.nHashOpt
  rw [hv, show lm.ln .two = .fin l from hl]
  generalize falsePos (c.toNat : ℝ) k (cap.toNat : ℝ) = q at *
  have n1 : Near (1008 * halfUlp) ((l * v : ℚ) : ℝ) (Real.log 2 * q) := by
    have := nv.mul (by linarith) (by linarith) (by linarith) (by linarith) (by linarith)
      (by linarith) nl
    push_cast
    rw [mul_comm (l : ℝ), mul_comm (Real.log 2)]
    exact this.mono (by nlinarith) (by linarith)
  have hq0 : 0 ≤ Real.log 2 * q := by nlinarith
  have b1 : (1 : ℝ) / 4 ≤ ((l * v : ℚ) : ℝ) := le_trans (by nlinarith) n1.1
  have b2 : ((l * v : ℚ) : ℝ) ≤ 1 := n1.2.trans (by nlinarith)
  have b1' : (1 : ℚ) / 4 ≤ l * v := by
    have : ((1 / 4 : ℚ) : ℝ) ≤ ((l * v : ℚ) : ℝ) := by push_cast at b1 ⊢; exact b1
    exact_mod_cast this
  have b2' : l * v ≤ 1 := by exact_mod_cast b2
  obtain ⟨g1, g2⟩ := rnd_near (x := l * v) (le_trans (by norm_num) b1') (b2'.trans (by norm_num))
  have n2 := g2.trans hq0 (by linarith) (by linarith) (by linarith) (by linarith) n1
  rw [show FVal.mul (.fin l) (.fin v) = rnd (l * v) from rfl, g1]
  have t1 : (1 : ℝ) / 8 ≤ (rndQ (l * v) : ℚ) := le_trans (by nlinarith) n2.1
  have t2 : ((rndQ (l * v) : ℚ) : ℝ) ≤ 1 := n2.2.trans (by nlinarith)
  have t1' : (1 : ℚ) / 8 ≤ rndQ (l * v) := by
    have : ((1 / 8 : ℚ) : ℝ) ≤ ((rndQ (l * v) : ℚ) : ℝ) := by push_cast at t1 ⊢; exact t1
    exact_mod_cast this
  have t2' : rndQ (l * v) ≤ 1 := by exact_mod_cast t2
  generalize rndQ (l * v) = t at *
  rcases Nat.eq_zero_or_pos b with rfl | hb0
  · have : FVal.toU64 (FVal.ceil (FVal.mul (.fin t) (.fin ((0 : ℕ) : ℚ)))) = 0 := by
      show FVal.toU64 (FVal.ceil (rnd (t * ((0 : ℕ) : ℚ)))) = 0
      rw [Nat.cast_zero, mul_zero, rnd_zero]
      decide +kernel
    rw [this]
    simp
  · have c1 : (1 : ℚ) ≤ b := by exact_mod_cast hb0
    have c2 : (b : ℚ) ≤ 1490 := by exact_mod_cast hb
    obtain ⟨g3, g4⟩ := rnd_near (x := t * b) (by nlinarith) (by nlinarith)
    have hbr : (0 : ℝ) ≤ b := Nat.cast_nonneg _
    have n3 : Near (2017 * halfUlp) ((t * b : ℚ) : ℝ) (Real.log 2 * q * b) := by
      push_cast
      constructor
      · nlinarith [mul_le_mul_of_nonneg_right n2.1 hbr]
      · nlinarith [mul_le_mul_of_nonneg_right n2.2 hbr]
    have hqb : 0 ≤ Real.log 2 * q * b := mul_nonneg hq0 hbr
    have n4 := (g4.trans hqb (by linarith) (by linarith) (by linarith) (by linarith) n3).mono hqb
      (show halfUlp + 2 * (2017 * halfUlp) ≤ 2 ^ (-41 : ℤ) by unfold halfUlp; norm_num)
    have p0 : 0 ≤ rndQ (t * b : ℚ) := by
      have : (0 : ℝ) ≤ (rndQ (t * b : ℚ) : ℚ) := n4.nonneg hqb (by norm_num)
      exact_mod_cast this
    have p1 : rndQ (t * b : ℚ) ≤ 2 ^ 63 := by
      have : ((rndQ (t * b : ℚ) : ℚ) : ℝ) ≤ ((2 ^ 63 : ℚ) : ℝ) := by
        refine g4.2.trans ?_
        have : ((t * b : ℚ) : ℝ) ≤ 1490 := by
          have : t * b ≤ 1490 := by nlinarith
          exact_mod_cast this
        push_cast at this ⊢
        nlinarith
      exact_mod_cast this
    obtain ⟨s1, s2⟩ := toU64_ceil_near p0 p1
    rw [show FVal.mul (.fin t) (.fin (b : ℚ)) = rnd (t * b) from rfl, g3]
    exact ⟨n4.1.trans s1, lt_of_lt_of_le s2 (by linarith [n4.2])⟩

/-- The bytes of an index cache. -/
theorem byteCap_pow2 : ∀ j < 64,
    (BitVec.ofNat 64 (2 ^ j)).toNat ≤ 8 * (byteCapFromBitCap (BitVec.ofNat 64 (2 ^ j))).toNat ∧
    8 * (byteCapFromBitCap (BitVec.ofNat 64 (2 ^ j))).toNat < (BitVec.ofNat 64 (2 ^ j)).toNat + 8 := by
  decide +kernel

/-- What the sizes of a filter with index cache are. -/
theorem V2.sizes_cached {env : Env} {cap : U64} {fpp : F64} {opt : OptLevel} {nb nh cbs : U64}
    (h : V2.sizes env cap fpp opt = .ok (nb, nh, cbs)) (ho : opt = .speed ∨ opt = .best) :
    nextPowerOfTwo env.debug cap = .ok cbs ∧
      nh = V2.nHashOpt env.libm cap cbs (FVal.round (FVal.div (FVal.ofU64 V2.bucketBitSize)
        (FVal.ofU64 (capFromBitSize env.libm V2.bucketBitSize (FVal.ofBits fpp))))) := by
  unfold V2.sizes at h
  rcases ho with rfl | rfl
  · simp only [Res.bind_eq_ok] at h
    obtain ⟨c, hc, nb', _, h⟩ := h
    cases h
    exact ⟨hc, rfl⟩
  · simp only [Res.bind_eq_ok] at h
    obtain ⟨c, hc, h⟩ := h
    cases h
    exact ⟨hc, rfl⟩

/-- A tangent of the logarithm of the probability. -/
theorem log_fill_tangent {a w : ℝ} (ha : 0 < a) (ha1 : a < 1) (hw : 0 < w) :
    Real.log (1 - Real.exp (-w)) ≤
      Real.log (1 - a) + a / (1 - a) * (w + Real.log a) := by
  have h1 : Real.exp (-w) < 1 := Real.exp_lt_one_iff.2 (by linarith)
  have h2 := Real.log_le_sub_one_of_pos (div_pos (show 0 < 1 - Real.exp (-w) by linarith)
    (show 0 < 1 - a by linarith))
  rw [Real.log_div (by linarith) (by linarith)] at h2
  have h3 : a * (1 - (w + Real.log a)) ≤ Real.exp (-w) := by
    have := Real.add_one_le_exp (-(w + Real.log a))
    have e : Real.exp (-w) = a * Real.exp (-(w + Real.log a)) := by
      rw [neg_add, Real.exp_add, Real.exp_neg (Real.log a), Real.exp_log ha]
      field_simp
    rw [e]
    nlinarith
  have h4 : (1 - Real.exp (-w)) / (1 - a) - 1 ≤ a / (1 - a) * (w + Real.log a) := by
    rw [div_mul_eq_mul_div, div_sub_one (by linarith)]
    apply div_le_div_of_nonneg_right _ (by linarith)
    linarith
  linarith

theorem log_three_le : Real.log 3 ≤ 65 / 41 * Real.log 2 := by
  have h : Real.log ((3 : ℝ) ^ 41) ≤ Real.log ((2 : ℝ) ^ 65) :=
    Real.log_le_log (by positivity) (by norm_num)
  rw [Real.log_pow, Real.log_pow] at h
  push_cast at h
  linarith

/-- The exponent of the probability of full buckets of filters with index cache. -/
theorem cached_exponent {k y : ℝ} (hy : 0 < y) (hk : 0 ≤ k)
    (h1 : 2767 / 10000 * y - 1386 / 10000 ≤ k) (h2 : k ≤ 4384 / 10000 * y + 12194 / 10000)
    (h3 : y ≤ 135 / 100 → k ≤ 1) :
    k * Real.log (1 - Real.exp (-(k / y))) ≤ 458 / 1000 - 3845 / 10000 * y := by
  have hl := log_two_bounds
  rcases le_total y (119 / 100) with c | c
  · have e0 := Real.exp_pos (-(k / y))
    have e1 : Real.exp (-(k / y)) ≤ 1 := Real.exp_le_one_iff.2 (by
      have : 0 ≤ k / y := by positivity
      linarith)
    have := Real.log_nonpos (show 0 ≤ 1 - Real.exp (-(k / y)) by linarith) (by linarith)
    nlinarith
  have hk0 : 0 < k := by linarith
  have hw : 0 < k / y := by positivity
  have hwy : k / y * y = k := by field_simp
  suffices h : k * Real.log (1 - Real.exp (-(k / y))) * y ≤ (458 / 1000 - 3845 / 10000 * y) * y from
    le_of_mul_le_mul_right h hy
  rcases le_total k (4855 / 10000 * y) with d | d
  · have t := log_fill_tangent (a := 3 / 4) (by norm_num) (by norm_num) hw
    have e1 : Real.log (1 - 3 / 4) = -(2 * Real.log 2) := by
      rw [show (1 : ℝ) - 3 / 4 = (2 ^ 2)⁻¹ by norm_num, Real.log_inv, Real.log_pow]; push_cast; ring
    have e2 : Real.log (3 / 4) = Real.log 3 - 2 * Real.log 2 := by
      rw [Real.log_div (by norm_num) (by norm_num), show (4 : ℝ) = 2 ^ 2 by norm_num, Real.log_pow]
      push_cast; ring
    rw [e1, e2] at t
    have l3 := log_three_le
    have t' : Real.log (1 - Real.exp (-(k / y))) ≤ 3 * (k / y) - 22485 / 10000 := by
      norm_num at t ⊢
      linarith
    have t2 := mul_le_mul_of_nonneg_left t' (mul_pos hk0 hy).le
    have e3 : k * y * (3 * (k / y) - 22485 / 10000) = 3 * k * k - 22485 / 10000 * k * y := by
      rw [← hwy]; ring_nf
      field_simp
    nlinarith
  · have t := log_fill_tangent (a := 1 / 2) (by norm_num) (by norm_num) hw
    have e1 : Real.log (1 - 1 / 2) = -Real.log 2 := by
      rw [show (1 : ℝ) - 1 / 2 = 2⁻¹ by norm_num, Real.log_inv]
    have e2 : Real.log (1 / 2) = -Real.log 2 := by rw [one_div, Real.log_inv]
    rw [e1, e2] at t
    have t' : Real.log (1 - Real.exp (-(k / y))) ≤ k / y - 1386294 / 1000000 := by
      norm_num at t ⊢
      linarith
    have t2 := mul_le_mul_of_nonneg_left t' (mul_pos hk0 hy).le
    have e3 : k * y * (k / y - 1386294 / 1000000) = k * k - 1386294 / 1000000 * k * y := by
      field_simp
    rw [e3] at t2
    have goal : k * k - 1386294 / 1000000 * k * y + 3845 / 10000 * y * y ≤ 458 / 1000 * y := by
      rcases le_total y (135 / 100) with f | f
      · have := h3 f
        nlinarith
      · rcases le_total k (10028 / 10000 * y) with g | g
        · nlinarith
        · nlinarith
    nlinarith

theorem falsePos_nonneg {m a : ℝ} {k : ℕ} (hm : 0 ≤ m) (ha : 0 ≤ a) : 0 ≤ falsePos m k a := by
  unfold falsePos
  apply pow_nonneg
  have : Real.exp (-(k * a / m)) ≤ 1 := Real.exp_le_one_iff.2 (by
    have : 0 ≤ (k : ℝ) * a / m := by positivity
    linarith)
  linarith

/-- The probability of the index cache. -/
theorem cache_fill {m n : ℝ} (h : n ≤ m) (hm : 0 < m) :
    falsePos m 1 n ≤ Real.exp (-(458 / 1000)) := by
  unfold falsePos
  have h1 : Real.exp (-1) ≤ Real.exp (-(((1 : ℕ) : ℝ) * n / m)) := by
    apply Real.exp_le_exp.2
    have : ((1 : ℕ) : ℝ) * n / m ≤ 1 := by
      rw [div_le_one hm]; push_cast; linarith
    linarith
  have x1 := Real.exp_one_lt_d9
  have i1 : (36787 / 100000 : ℝ) ≤ Real.exp (-1) := by
    rw [Real.exp_neg, le_inv_comm₀ (by norm_num) (Real.exp_pos _)]
    norm_num; linarith
  have h2 := Real.exp_bound' (x := 458 / 1000) (by norm_num) (by norm_num) (n := 6) (by norm_num)
  norm_num [Finset.sum_range_succ, Nat.factorial] at h2
  have h3 : (632131 / 1000000 : ℝ) ≤ Real.exp (-(458 / 1000)) := by
    rw [Real.exp_neg, le_inv_comm₀ (by norm_num) (Real.exp_pos _)]
    norm_num
    linarith
  rw [pow_one]
  linarith

/-- The probability of full buckets of filters with index cache. -/
theorem cached_fill {k b : ℕ} {B q load : ℝ} (hB : 0 < B) (hl0 : 0 ≤ load)
    (hl : load ≤ B / (1 - 2 ^ (-44 : ℤ))) (f1 : 3995 / 10000 ≤ q) (f2 : q ≤ 6322 / 10000)
    (hb : |(b : ℝ) - 32768 / B| ≤ 1 / 2 + 2 ^ (-38 : ℤ))
    (m1 : Real.log 2 * q * b * (1 - 2 ^ (-41 : ℤ)) ≤ k)
    (m2 : k < Real.log 2 * q * b * (1 + 2 ^ (-41 : ℤ)) + 1) :
    falsePos 32768 k load
      ≤ Real.exp (458 / 1000 - 3845 / 10000 * (32768 / B * (1 - 2 ^ (-44 : ℤ)))) := by
  have hl2 := log_two_bounds
  refine (falsePos_mono (by norm_num) k hl0 hl).trans ?_
  unfold falsePos
  have hy : (k : ℝ) * (B / (1 - 2 ^ (-44 : ℤ))) / 32768 = k / (32768 / B * (1 - 2 ^ (-44 : ℤ))) := by
    have : (1 : ℝ) - 2 ^ (-44 : ℤ) ≠ 0 := by norm_num
    field_simp
  rw [hy]
  have hx : 0 < 32768 / B := by positivity
  rw [abs_le] at hb
  generalize 32768 / B = x at *
  have e44 : (1 : ℝ) - 1 / 1000000000 ≤ 1 - 2 ^ (-44 : ℤ) := by norm_num
  have e44' : (1 : ℝ) - 2 ^ (-44 : ℤ) ≤ 1 := by norm_num
  have e41 : (2 : ℝ) ^ (-41 : ℤ) ≤ 1 / 1000000000 := by norm_num
  have e41' : (0 : ℝ) < 2 ^ (-41 : ℤ) := by positivity
  have e38 : (2 : ℝ) ^ (-38 : ℤ) ≤ 1 / 1000000000 := by norm_num
  generalize (1 : ℝ) - 2 ^ (-44 : ℤ) = d at *
  generalize (2 : ℝ) ^ (-41 : ℤ) = ε at *
  generalize (2 : ℝ) ^ (-38 : ℤ) = δ at *
  have hy0 : 0 < x * d := mul_pos hx (by linarith)
  have hyx : x * d ≤ x := by nlinarith
  have hyx' : x * (1 - 1 / 1000000000) ≤ x * d := mul_le_mul_of_nonneg_left e44 hx.le
  generalize x * d = y at *
  have hb0 : (0 : ℝ) ≤ b := Nat.cast_nonneg _
  have hk0 : (0 : ℝ) ≤ k := Nat.cast_nonneg _
  have s1 : 2769 / 10000 ≤ Real.log 2 * q := by nlinarith
  have s2 : Real.log 2 * q ≤ 43822 / 100000 := by nlinarith
  generalize Real.log 2 * q = s at *
  have t1 : 2769 / 10000 * (1 - 1 / 1000000000) * (b : ℝ) ≤ k := by
    refine le_trans ?_ m1
    have : 2769 / 10000 * b ≤ s * b := mul_le_mul_of_nonneg_right s1 hb0
    nlinarith [mul_nonneg (by linarith : 0 ≤ s) hb0]
  have t2 : (k : ℝ) < 43822 / 100000 * (1 + 1 / 1000000000) * b + 1 := by
    refine lt_of_lt_of_le m2 ?_
    have : s * b ≤ 43822 / 100000 * b := mul_le_mul_of_nonneg_right s2 hb0
    nlinarith [mul_nonneg (by linarith : 0 ≤ s) hb0]
  have key := cached_exponent hy0 hk0 (by linarith) (by linarith) (fun hy1 => by
    have : (b : ℝ) < 2 := by linarith
    have : b ≤ 1 := by
      have : b < 2 := by exact_mod_cast this
      omega
    have hb1 : (b : ℝ) ≤ 1 := by exact_mod_cast this
    have : (k : ℝ) < 2 := by linarith
    have : k ≤ 1 := by
      have : k < 2 := by exact_mod_cast this
      omega
    exact_mod_cast this)
  rcases Nat.eq_zero_or_pos k with rfl | hk
  · rw [pow_zero]
    rw [← Real.exp_zero]
    apply Real.exp_le_exp.2
    simpa using key
  · have hk' : (0 : ℝ) < k := by exact_mod_cast hk
    have hb : 0 < 1 - Real.exp (-(k / y)) := by
      have : Real.exp (-(k / y)) < 1 := Real.exp_lt_one_iff.2 (by
        have : 0 < (k : ℝ) / y := by positivity
        linarith)
      linarith
    rw [← Real.log_le_iff_le_exp (pow_pos hb _), Real.log_pow]
    exact key

theorem cacheHashes_one_two {c n : ℝ} (hn : 0 < n) (h1 : n ≤ c) (h2 : c ≤ 2 * n) {k : ℕ}
    (k1 : bestHashes c n * (1 - 2 ^ (-44 : ℤ)) ≤ k)
    (k2 : k < bestHashes c n * (1 + 2 ^ (-44 : ℤ)) + 1) : k = 1 ∨ k = 2 := by
  have hl := log_two_bounds
  have r1 : Real.log 2 ≤ bestHashes c n := by
    unfold bestHashes
    have : 1 ≤ c / n := by rw [le_div_iff₀ hn]; linarith
    nlinarith
  have r2 : bestHashes c n ≤ 2 * Real.log 2 := by
    unfold bestHashes
    have : c / n ≤ 2 := by rw [div_le_iff₀ hn]; linarith
    nlinarith
  have s44 : (2 : ℝ) ^ (-44 : ℤ) ≤ 1 / 1000 := by norm_num
  have p44 : (0 : ℝ) < 2 ^ (-44 : ℤ) := by positivity
  generalize (2 : ℝ) ^ (-44 : ℤ) = ε at *
  have a : (0 : ℝ) < k := lt_of_lt_of_le (by nlinarith) k1
  have b : (k : ℝ) < 3 := lt_of_lt_of_le k2 (by nlinarith)
  have : 0 < k := by exact_mod_cast a
  have : k < 3 := by exact_mod_cast b
  omega

/-- There are enough buckets. -/
theorem V2.enough_buckets {env : Env} (sp : env.libm.Spec) {cap : U64} {fpp : F64} {opt : OptLevel}
    {nb nh cbs : U64} (hin : fppInRange fpp = true) (hc : cap ≠ 0)
    (h : V2.sizes env cap fpp opt = .ok (nb, nh, cbs)) :
    (cap.toNat : ℝ) * (1 - 2 ^ (-44 : ℤ)) ≤ (List.replicate nb.toNat
      (BitSet.new BUCKET_SIZE)).length *
      ((capFromBitSize env.libm V2.bucketBitSize (FVal.ofBits fpp)).toNat : ℝ) := by
  obtain ⟨n1, _⟩ := nBucketOf_bounds sp hin hc
  obtain ⟨p1, p2⟩ := nBucket_pos sp hin hc
  rw [List.length_replicate]
  refine n1.trans (mul_le_mul_of_nonneg_right ?_ (Nat.cast_nonneg _))
  rcases V2.sizes_ok h with ⟨_, rfl, _⟩ | ⟨_, hn, _⟩ | ⟨_, rfl, _⟩
  · exact le_rfl
  · rcases nextPow2_ok hn with ⟨_, _, g1, _⟩ | ⟨g, _⟩
    · exact_mod_cast g1
    · omega
  · exact le_rfl

/-- The logarithm of the bound. -/
theorem cached_log {l z B : ℝ} (hB0 : 0 < B) (hl0 : 0 < -l) (hz : z * -l = 32768 * Real.log 2 ^ 2)
    (hB : B ≤ z * (1 + 2 ^ (-44 : ℤ))) :
    -l * (8 / 10) ≤ 3845 / 10000 * (32768 / B * (1 - 2 ^ (-44 : ℤ))) := by
  have hl := log_two_bounds
  have e1 : (1 : ℝ) - 1 / 1000000 ≤ 1 - 2 ^ (-44 : ℤ) := by norm_num
  have e2 : (1 : ℝ) + 2 ^ (-44 : ℤ) ≤ 1 + 1 / 1000000 := by norm_num
  have e3 : (1 : ℝ) ≤ 1 + 2 ^ (-44 : ℤ) := by norm_num
  generalize (1 : ℝ) - 2 ^ (-44 : ℤ) = d at *
  generalize (1 : ℝ) + 2 ^ (-44 : ℤ) = u at *
  have a : Real.log 2 ^ 2 ≤ 480455 / 1000000 := by nlinarith
  have h1 : B * -l ≤ 32768 * (480455 / 1000000 * (1 + 1 / 1000000)) := by
    have := mul_le_mul_of_nonneg_right hB hl0.le
    have h2 : z * u * -l = 32768 * (Real.log 2 ^ 2 * u) := by rw [← mul_assoc, ← hz]; ring
    have h3 : Real.log 2 ^ 2 * u ≤ 480455 / 1000000 * (1 + 1 / 1000000) :=
      mul_le_mul a e2 (by linarith) (by norm_num)
    linarith
  have h4 : -l * (8 / 10) * B ≤ 3845 / 10000 * (32768 * d) := by linarith
  have h5 : 3845 / 10000 * (32768 / B * d) = 3845 / 10000 * (32768 * d) / B := by ring
  rw [h5, le_div_iff₀ hB0]
  exact h4

end Poppy
