import Verif.Lemmas.CacheHashesV2
import Verif.Lemmas.FalsePosSample
import Verif.Props.FalsePos

/-! # Properties C71 and C76 of filters with an index cache -/

namespace Poppy

open Spec

/-! ## C71 -/

/-- With an index cache, the number of hash functions of a v2 filter is that for buckets of 32768
bits, times the textbook probability of the full index cache, were it a filter with the best number
`k` of hash functions.  In detail: the index cache has `c` bits, the next power of two; `b` is the
whole number of bits per entry in a bucket with room for `B` entries, of which there are enough; and
the number of hash
functions is `ln 2 · falsePos c k cap · b`, rounded up. -/
theorem C71_v2_cached_hashes {env : Env} (ac : env.libm.Accurate) (ax : env.libm.AccurateExp)
    {cap : U64} {fpp : F64} {opt : OptLevel} (ho : opt = .speed ∨ opt = .best) {f : V2}
    (h : V2.make env cap fpp opt = .ok f) (hc : cap ≠ 0) (hc63 : cap.toNat ≤ 2 ^ 63) {p : ℚ}
    (hp : FVal.ofBits fpp = .fin p) (h1 : p ≤ 1 - 1 / 2 ^ 40) :
    ∃ c k b B : ℕ, (∃ j, c = 2 ^ j) ∧ cap.toNat ≤ c ∧ c < 2 * cap.toNat ∧
      (c ≤ 8 * f.indexCache.byteLen ∧ 8 * f.indexCache.byteLen < c + 8) ∧
      (bestHashes c cap.toNat * (1 - 2 ^ (-44 : ℤ)) ≤ k ∧
        k < bestHashes c cap.toNat * (1 + 2 ^ (-44 : ℤ)) + 1) ∧
      (bestCapacity 32768 p * (1 - 2 ^ (-44 : ℤ)) - 1 < B ∧
        B ≤ bestCapacity 32768 p * (1 + 2 ^ (-44 : ℤ))) ∧
      cap.toNat * (1 - 2 ^ (-44 : ℤ)) ≤ f.buckets.length * (B : ℝ) ∧
      |(b : ℝ) - 32768 / B| ≤ 1 / 2 + 2 ^ (-38 : ℤ) ∧
      Real.log 2 * falsePos c k cap.toNat * b * (1 - 2 ^ (-41 : ℤ)) ≤ f.nHashBuck.toNat ∧
      f.nHashBuck.toNat < Real.log 2 * falsePos c k cap.toNat * b * (1 + 2 ^ (-41 : ℤ)) + 1 := by
  obtain ⟨hin, nb, nh, cbs, hsz, _, _, rfl⟩ := V2.make_ok h
  obtain ⟨hn, hnh⟩ := V2.sizes_cached hsz ho
  have hb := bucketCap_ge ac.spec hin
  obtain ⟨b, hbe, hb1, hb2⟩ := bitsPerEntry_near hb
  have hc1 : 1 ≤ cap.toNat := toNat_pos_of_ne hc
  rcases nextPow2_ok hn with ⟨_, ⟨j, j64, hj⟩, g1, g2⟩ | ⟨g, _⟩
  swap
  · omega
  rw [max_eq_left hc1] at g2
  rw [hbe] at hnh
  obtain ⟨k, _, k1, k2, m1, m2⟩ := nHashOpt_near ac ax hc g1 g2.le hb1
  rw [← hnh] at m1 m2
  refine ⟨cbs.toNat, k, b, _, ⟨j, hj⟩, g1, g2, ?_, ⟨k1, k2⟩, bucketCap_bounds ac hin hp h1, ?_, hb2,
    m1, m2⟩
  swap
  · exact V2.enough_buckets ac.spec hin hc hsz
  have : cbs = BitVec.ofNat 64 (2 ^ j) := by
    apply BitVec.eq_of_toNat_eq
    rw [hj, BitVec.toNat_ofNat, Nat.mod_eq_of_lt]
    exact Nat.pow_lt_pow_right (by norm_num) j64
  subst this
  rw [VecBitSet.byteLen, VecBitSet.withBitCapacity, List.length_replicate]
  exact byteCap_pow2 _ j64

/-! ## C76 -/

/-- Until a v2 filter with index cache is full, its textbook false positive probability is at most
`p ^ (4/5)`, if the entries are spread evenly. -/
theorem C76_cached_partial {env : Env} (ac : env.libm.Accurate) (ax : env.libm.AccurateExp)
    {cap : U64} {fpp : F64} {opt : OptLevel} (ho : opt = .speed ∨ opt = .best) {f : V2}
    (h : V2.make env cap fpp opt = .ok f) (hc : cap ≠ 0) (hc63 : cap.toNat ≤ 2 ^ 63) {p : ℚ}
    (hp : FVal.ofBits fpp = .fin p) (h1 : p ≤ 1 - 1 / 2 ^ 40) {n : ℕ} (hn : n ≤ cap.toNat) :
    f.rate n ≤ (p : ℝ) ^ (4 / 5 : ℝ) := by
  obtain ⟨c, k, b, B, _, g1, g2, ⟨g3, _⟩, ⟨k1, k2⟩, ⟨B1, B2⟩, l1, b1, m1, m2⟩ :=
    C71_v2_cached_hashes ac ax ho h hc hc63 hp h1
  obtain ⟨hin, _⟩ := V2.make_ok h
  obtain ⟨_, _, e, q0, q1, qm, _⟩ := ac.ln_fpp hin
  rw [hp] at e
  cases e
  have q0 : (0 : ℝ) < p := by exact_mod_cast q0
  obtain ⟨z1, _, hlp⟩ := bestCapacity_bounds qm h1
  have hz : bestCapacity 32768 p * -Real.log p = 32768 * Real.log 2 ^ 2 := by
    unfold bestCapacity
    exact div_mul_cancel₀ _ hlp.ne'
  have hcn : (1 : ℝ) ≤ cap.toNat := by exact_mod_cast toNat_pos_of_ne hc
  have hnn : (n : ℝ) ≤ cap.toNat := by exact_mod_cast hn
  have hn0 : (0 : ℝ) ≤ n := Nat.cast_nonneg _
  have g1' : (cap.toNat : ℝ) ≤ c := by exact_mod_cast g1
  have g2' : (c : ℝ) ≤ 2 * cap.toNat := by exact_mod_cast g2.le
  have g3' : (c : ℝ) ≤ 8 * f.indexCache.byteLen := by exact_mod_cast g3
  have hk : k = 1 ∨ k = 2 := cacheHashes_one_two (by linarith) g1' g2' k1 k2
  obtain ⟨_, f1, f2⟩ := cacheRate_bounds (by linarith) g1' g2' hk k1 k2
  have hB0 : (0 : ℝ) < B := by
    refine lt_of_le_of_lt ?_ B1
    have : (22 : ℝ) * (1 / 2) ≤ bestCapacity 32768 p * (1 - 2 ^ (-44 : ℤ)) :=
      mul_le_mul z1 (by norm_num) (by norm_num) (by linarith)
    generalize bestCapacity 32768 (p : ℝ) * (1 - 2 ^ (-44 : ℤ)) = w at this ⊢
    linarith
  have hne : f.indexCache.isEmpty = false := by
    have : 0 < f.indexCache.byteLen := by
      have := toNat_pos_of_ne hc
      omega
    unfold VecBitSet.byteLen at this
    unfold VecBitSet.isEmpty
    cases hb : f.indexCache.bytes with
    | nil => rw [hb] at this; simp at this
    | cons => rfl
  have hlen : (0 : ℝ) < f.buckets.length := by
    rcases Nat.eq_zero_or_pos f.buckets.length with h0 | h0
    · rw [h0, Nat.cast_zero, zero_mul] at l1
      have : (0 : ℝ) < cap.toNat * (1 - 2 ^ (-44 : ℤ)) := mul_pos (by linarith) (by norm_num)
      linarith
    · exact_mod_cast h0
  have hload : (n : ℝ) / f.buckets.length ≤ B / (1 - 2 ^ (-44 : ℤ)) := by
    rw [div_le_div_iff₀ hlen (by norm_num), mul_comm (B : ℝ)]
    exact (mul_le_mul_of_nonneg_right hnn (by norm_num)).trans l1
  have r2 := cached_fill hB0 (div_nonneg hn0 hlen.le) hload f1 f2 b1 m1 m2
  have r1 := cache_fill (m := 8 * f.indexCache.byteLen) (n := n) (by linarith) (by linarith)
  unfold V2.rate
  rw [hne, if_neg (by decide)]
  have r20 : 0 ≤ falsePos 32768 f.nHashBuck.toNat ((n : ℝ) / f.buckets.length) :=
    falsePos_nonneg (by norm_num) (div_nonneg hn0 hlen.le)
  refine (mul_le_mul r1 r2 r20 (Real.exp_pos _).le).trans ?_
  rw [← Real.exp_add, Real.rpow_def_of_pos q0]
  apply Real.exp_le_exp.2
  have key := cached_log hB0 hlp hz B2
  linarith

-- a filter to which the theorems apply: 131072 bits of cache
example : ∃ f, V2.make (Sample.envX false) 65537 Sample.tiny .best = .ok f ∧
    ∃ c k b B : ℕ, (∃ j, c = 2 ^ j) ∧ (65537 : U64).toNat ≤ c ∧
      Real.log 2 * falsePos c k (65537 : U64).toNat * b * (1 - 2 ^ (-41 : ℤ)) ≤ f.nHashBuck.toNat ∧
      |(b : ℝ) - 32768 / B| ≤ 1 / 2 + 2 ^ (-38 : ℤ) := by
  obtain ⟨f, hf, _⟩ := Sample.tiny_make
  obtain ⟨c, k, b, B, h1, h2, _, _, _, _, _, h3, h4, _⟩ := C71_v2_cached_hashes
    (Sample.envX_accurate _) Libm.exact_accurateExp (.inr rfl) hf (by decide) (by decide)
    Sample.tiny_eq (by norm_num)
  exact ⟨f, hf, c, k, b, B, h1, h2, h4, h3⟩
-- the same filter, with its 12 hash functions
example : ∃ f, V2.make (Sample.envX false) 65537 Sample.tiny .best = .ok f ∧ f.nHashBuck = 12 ∧
    f.rate (65537 : ℕ) ≤ ((1 / 2 ^ 30 : ℚ) : ℝ) ^ (4 / 5 : ℝ) := by
  obtain ⟨f, hf, h1, _, _⟩ := Sample.tiny_make
  exact ⟨f, hf, h1, C76_cached_partial (Sample.envX_accurate _) Libm.exact_accurateExp (.inr rfl) hf
    (by decide) (by decide) Sample.tiny_eq (by norm_num) (le_refl 65537)⟩

end Poppy
