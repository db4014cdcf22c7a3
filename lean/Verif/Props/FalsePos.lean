import Verif.Lemmas.FalsePos
import Verif.Props.Accuracy
import Verif.Lemmas.FalsePosSample

/-! # The requested probability against the textbook probability (C76) -/

namespace Poppy

open Spec

/-! ### Helpers -/

/-- Textbook false positive probability of a v2 filter with `n` entries: each bucket has its share
of the entries, and the index cache is a filter with one hash function. -/
noncomputable def V2.rate (f : V2) (n : ℝ) : ℝ :=
  (if f.indexCache.isEmpty then 1 else falsePos (8 * f.indexCache.byteLen) 1 n) *
    falsePos 32768 f.nHashBuck.toNat (n / f.buckets.length)

/-! ## C76 -/

/-- Until a v1 filter is full, its textbook false positive probability is at most
`exp (1/4 + 1/(2 cap))` (about 1.3) times the requested one. -/
theorem C76_v1 {env : Env} (hs : env.Small) (ac : env.libm.Accurate) {cap : U64} {fpp : F64}
    {f : V1} (h : V1.withCapacity env cap fpp = .ok f) (hc : cap ≠ 0) {p : ℚ}
    (hp : FVal.ofBits fpp = .fin p) {n : ℕ} (hn : n ≤ cap.toNat) :
    falsePos f.bitSize.toNat f.nHash.toNat n
      ≤ Real.exp (1 / 4 + 1 / (2 * cap.toNat)) * (p : ℝ) ^ (1 - 2 ^ (-41 : ℤ) : ℝ) := by
  obtain ⟨b1, b2⟩ := C71_v1_bits hs ac h hp
  obtain ⟨h1, h2⟩ := C71_v1_hashes hs ac h hc
  obtain ⟨_, _, e, q0, q1, _⟩ := ac.ln_fpp (V1.withCapacity_ok h).1
  rw [hp] at e
  cases e
  have q0 : (0 : ℝ) < p := by exact_mod_cast q0
  have q1 : (p : ℝ) ≤ 1 := by exact_mod_cast q1
  have hl := log_two_bounds
  have hcn : (1 : ℝ) ≤ cap.toNat := by exact_mod_cast toNat_pos_of_ne hc
  refine (falsePos_mono (Nat.cast_nonneg _) _ (Nat.cast_nonneg _)
    (show (n : ℝ) ≤ cap.toNat by exact_mod_cast hn)).trans ?_
  refine (falsePos_le (Nat.cast_nonneg _) (by linarith) (by positivity) (by norm_num) h1 h2).trans ?_
  refine exp_rpow_le q0 q1 (d := (1 - 2 ^ (-44 : ℤ)) ^ 2) ?_ (by norm_num)
  have hb : bestBits cap.toNat p * Real.log 2 ^ 2 = cap.toNat * -Real.log p := by
    unfold bestBits
    have : Real.log 2 ≠ 0 := by linarith
    field_simp
  have hx : bestHashes f.bitSize.toNat cap.toNat * Real.log 2 * cap.toNat
      = f.bitSize.toNat * Real.log 2 ^ 2 := by
    unfold bestHashes
    field_simp
  generalize bestHashes (f.bitSize.toNat : ℝ) (cap.toNat : ℝ) * Real.log 2 = y at *
  generalize bestBits (cap.toNat : ℝ) (p : ℝ) = B at *
  generalize (f.bitSize.toNat : ℝ) = m at *
  generalize (cap.toNat : ℝ) = c at *
  have e0 : (0 : ℝ) ≤ 1 - 2 ^ (-44 : ℤ) := by norm_num
  have e1 : (1 : ℝ) - 2 ^ (-44 : ℤ) ≤ 1 := by norm_num
  generalize (1 : ℝ) - 2 ^ (-44 : ℤ) = d at *
  have k1 : (B * d - 1) * Real.log 2 ^ 2 ≤ y * c := by
    rw [hx]; exact mul_le_mul_of_nonneg_right b1.le (sq_nonneg _)
  have k2 : (B * d - 1) * Real.log 2 ^ 2 = c * -Real.log p * d - Real.log 2 ^ 2 := by
    rw [← hb]; ring
  have k3 : -Real.log p * d - 1 / (2 * c) ≤ y := by
    have : Real.log 2 ^ 2 ≤ 1 / 2 := by nlinarith
    have h3 : (-Real.log p * d - 1 / (2 * c)) * c ≤ y * c := by
      have : 1 / (2 * c) * c = 1 / 2 := by field_simp
      nlinarith
    exact le_of_mul_le_mul_right h3 (by linarith)
  have k4 := mul_le_mul_of_nonneg_right k3 e0
  have k5 : 0 ≤ 1 / (2 * c) := by positivity
  nlinarith

/-- Until a v2 filter without index cache is full, the textbook false positive probability of its
buckets is at most `exp (1/4)` (1.284) times the requested one, if the entries are spread evenly. -/
theorem C76_v2_partial {env : Env} (ac : env.libm.Accurate) {cap : U64} {fpp : F64}
    {opt : OptLevel} (ho : opt = .none ∨ opt = .space) {f : V2}
    (h : V2.make env cap fpp opt = .ok f) (hc : cap ≠ 0) {p : ℚ}
    (hp : FVal.ofBits fpp = .fin p) (h1 : p ≤ 1 - 1 / 2 ^ 40) {n : ℕ} (hn : n ≤ cap.toNat) :
    f.rate n ≤ Real.exp (1 / 4) * (p : ℝ) ^ (1 - 2 ^ (-41 : ℤ) : ℝ) := by
  obtain ⟨hin, nb, nh, cbs, hsz, _, _, rfl⟩ := V2.make_ok h
  obtain ⟨_, _, e, q0, q1, qm, _⟩ := ac.ln_fpp hin
  rw [hp] at e
  cases e
  have q0 : (0 : ℝ) < p := by exact_mod_cast q0
  have q1 : (p : ℝ) ≤ 1 := by exact_mod_cast q1
  obtain ⟨z1, _, hlp⟩ := bestCapacity_bounds qm h1
  obtain ⟨c1, c2⟩ := bucketCap_bounds ac hin hp h1
  have hb := bucketCap_ge ac.spec hin
  obtain ⟨n1, n2⟩ := nHash_bounds ac hb
  obtain ⟨m1, _⟩ := nBucketOf_bounds ac.spec hin hc
  obtain ⟨p1, _⟩ := nBucket_pos ac.spec hin hc
  have key : nb = V2.nBucketOf env.libm cap fpp ∧ cbs = 0 ∧
      nh = FVal.toU64 (FVal.ceil (FVal.ofU64 (kHash env.libm V2.bucketBitSize
        (capFromBitSize env.libm V2.bucketBitSize (FVal.ofBits fpp))))) := by
    rcases V2.sizes_ok hsz with ⟨_, h⟩ | ⟨rfl, _⟩ | ⟨rfl, _⟩
    · exact h
    · rcases ho with h | h <;> cases h
    · rcases ho with h | h <;> cases h
  obtain ⟨rfl, rfl, hnh⟩ := key
  rw [← hnh] at n1 n2
  unfold V2.rate
  simp only [List.length_replicate]
  rw [if_pos (by decide +kernel), one_mul]
  have hl := log_two_bounds
  have hl0 : 0 < Real.log 2 := by linarith
  have hz : bestCapacity 32768 p * -Real.log p = 32768 * Real.log 2 ^ 2 := by
    unfold bestCapacity
    exact div_mul_cancel₀ _ hlp.ne'
  have hcn : (22 : ℝ) ≤ (capFromBitSize env.libm V2.bucketBitSize (FVal.ofBits fpp)).toNat := by
    exact_mod_cast hb
  generalize ((capFromBitSize env.libm V2.bucketBitSize (FVal.ofBits fpp)).toNat : ℝ) = c at *
  generalize bestCapacity 32768 (p : ℝ) = z at *
  have hB : (1 : ℝ) ≤ (V2.nBucketOf env.libm cap fpp).toNat := by exact_mod_cast p1
  generalize ((V2.nBucketOf env.libm cap fpp).toNat : ℝ) = B at *
  have hnn : (n : ℝ) ≤ cap.toNat := by exact_mod_cast hn
  have d0 : (0 : ℝ) < 1 - 2 ^ (-44 : ℤ) := by norm_num
  -- the load of a bucket
  have hload : (n : ℝ) / B ≤ c / (1 - 2 ^ (-44 : ℤ)) := by
    rw [div_le_div_iff₀ (by linarith) d0]
    calc (n : ℝ) * (1 - 2 ^ (-44 : ℤ)) ≤ cap.toNat * (1 - 2 ^ (-44 : ℤ)) :=
          mul_le_mul_of_nonneg_right hnn d0.le
      _ ≤ B * c := m1
      _ = c * B := mul_comm _ _
  refine (falsePos_mono (by norm_num) _ (by positivity) hload).trans ?_
  have hx : bestHashes 32768 (c / (1 - 2 ^ (-44 : ℤ))) * c
      = 32768 * Real.log 2 * (1 - 2 ^ (-44 : ℤ)) := by
    unfold bestHashes
    field_simp
  have hcp : 0 < c := by linarith
  refine (falsePos_le (e := 2 ^ (-42 : ℤ)) (by norm_num) (div_pos hcp d0) (by positivity)
    (by norm_num) ?_ ?_).trans ?_
  · rw [← mul_le_mul_iff_left₀ hcp, mul_right_comm, hx]
    refine le_trans ?_ n1
    have : 0 ≤ 32768 * Real.log 2 * (1 - 2 ^ (-44 : ℤ)) := mul_nonneg (by positivity) d0.le
    have h2 : (1 : ℝ) - 2 ^ (-42 : ℤ) ≤ 1 := by norm_num
    nlinarith
  · rw [← sub_lt_iff_lt_add, ← mul_lt_mul_iff_left₀ hcp, mul_right_comm, hx]
    refine lt_of_lt_of_le n2 ?_
    have h2 : (1 + 2 ^ (-44 : ℤ) : ℝ) ≤ (1 - 2 ^ (-44 : ℤ)) * (1 + 2 ^ (-42 : ℤ)) := by norm_num
    have h3 : (0 : ℝ) ≤ 32768 * Real.log 2 := by positivity
    rw [mul_assoc (32768 * Real.log 2)]
    exact mul_le_mul_of_nonneg_left h2 h3
  · refine exp_rpow_le q0 q1 (d := (1 - 2 ^ (-44 : ℤ)) * (1 - 2 ^ (-42 : ℤ)) / (1 + 2 ^ (-44 : ℤ)))
      ?_ (by norm_num)
    generalize hX : bestHashes 32768 (c / (1 - 2 ^ (-44 : ℤ))) = x at *
    have k1 : -Real.log p * (1 - 2 ^ (-44 : ℤ)) / (1 + 2 ^ (-44 : ℤ)) ≤ x * Real.log 2 := by
      rw [div_le_iff₀ (by norm_num), ← mul_le_mul_iff_left₀ hcp]
      have e1 : x * Real.log 2 * (1 + 2 ^ (-44 : ℤ)) * c
          = 32768 * Real.log 2 ^ 2 * (1 - 2 ^ (-44 : ℤ)) * (1 + 2 ^ (-44 : ℤ)) := by
        calc _ = x * c * (Real.log 2 * (1 + 2 ^ (-44 : ℤ))) := by ring
          _ = _ := by rw [hx]; ring
      rw [e1, ← hz]
      have := mul_le_mul_of_nonneg_left c2 (mul_nonneg hlp.le d0.le)
      linarith
    have k2 := mul_le_mul_of_nonneg_right k1 (show (0 : ℝ) ≤ 1 - 2 ^ (-42 : ℤ) by norm_num)
    have e2 : (1 - 2 ^ (-44 : ℤ)) * (1 - 2 ^ (-42 : ℤ)) / (1 + 2 ^ (-44 : ℤ)) * Real.log p
        = -(-Real.log p * (1 - 2 ^ (-44 : ℤ)) / (1 + 2 ^ (-44 : ℤ)) * (1 - 2 ^ (-42 : ℤ)) : ℝ) := by
      ring
    rw [e2]
    linarith

/-- A filter optimised with `Best` for 65537 entries and `2^-30`, when full: as the number of hash
functions is multiplied by the probability of the index cache (12 instead of 30), the probability
is more than 10 times the requested one. -/
theorem C76_best_violated : ∃ (env : Env) (cap : U64) (fpp : F64) (f : V2) (p : ℚ),
    env.Small ∧ env.libm.Accurate ∧ V2.make env cap fpp .best = .ok f ∧ FVal.ofBits fpp = .fin p ∧
    10 * (p : ℝ) < f.rate cap.toNat := by
  obtain ⟨f, hf, h1, h2, h3⟩ := Sample.tiny_make
  refine ⟨Sample.envX false, 65537, Sample.tiny, f, _, Sample.envX_small _, Sample.envX_accurate _,
    hf, Sample.tiny_eq, ?_⟩
  have hne : f.indexCache.isEmpty = false := by
    unfold VecBitSet.byteLen at h3
    unfold VecBitSet.isEmpty
    cases hb : f.indexCache.bytes with
    | nil => rw [hb] at h3; cases h3
    | cons => rfl
  unfold V2.rate
  rw [hne, h1, h2, h3]
  have hn : (((65537 : U64).toNat : ℕ) : ℝ) = 65537 := by
    show ((65537 : ℕ) : ℝ) = _
    norm_num
  rw [hn, if_neg (by decide)]
  unfold falsePos
  have e12 : (12 : U64).toNat = 12 := rfl
  rw [e12]
  have hexp : ∀ u : ℝ, 0 ≤ u → Real.exp (-u) ≤ 1 / (1 + u + u ^ 2 / 2) := by
    intro u hu
    have := Real.quadratic_le_exp_of_nonneg hu
    rw [Real.exp_neg, inv_eq_one_div]
    exact one_div_le_one_div_of_le (by positivity) this
  have b1 := hexp (12 * (65537 / 87) / 32768) (by norm_num)
  have b2 := hexp (1 * 65537 / (8 * 16384)) (by norm_num)
  push_cast
  have c1 : (0.2388 : ℝ) ≤ 1 - Real.exp (-(12 * (65537 / 87) / 32768)) := by
    have : (1 : ℝ) / (1 + 12 * (65537 / 87) / 32768 + (12 * (65537 / 87) / 32768) ^ 2 / 2) ≤ 0.7612 := by
      norm_num
    linarith
  have c2 : (0.38 : ℝ) ≤ 1 - Real.exp (-(1 * 65537 / (8 * 16384))) := by
    have : (1 : ℝ) / (1 + 1 * 65537 / (8 * 16384) + (1 * 65537 / (8 * 16384)) ^ 2 / 2) ≤ 0.62 := by
      norm_num
    linarith
  have d1 := pow_le_pow_left₀ (by norm_num) c1 12
  have d2 := pow_le_pow_left₀ (by norm_num) c2 1
  refine lt_of_lt_of_le ?_ (mul_le_mul d2 d1 (by norm_num) (le_trans (by norm_num) d2))
  norm_num

-- filters to which the theorems apply
example : ∃ f, V1.withCapacity (Sample.envX false) 100 Sample.half = .ok f ∧
    falsePos f.bitSize.toNat f.nHash.toNat (100 : ℕ)
      ≤ Real.exp (1 / 4 + 1 / (2 * (100 : U64).toNat)) *
        ((1 / 2 : ℚ) : ℝ) ^ (1 - 2 ^ (-41 : ℤ) : ℝ) := by
  obtain ⟨f, h⟩ := Sample.half_v1
  exact ⟨f, h, C76_v1 (Sample.envX_small _) (Sample.envX_accurate _) h (by decide) Sample.half_eq
    (le_refl 100)⟩
example : ∃ f, V2.make (Sample.envX false) 5000 Sample.half .none = .ok f ∧
    f.rate (5000 : ℕ) ≤ Real.exp (1 / 4) * ((1 / 2 : ℚ) : ℝ) ^ (1 - 2 ^ (-41 : ℤ) : ℝ) := by
  obtain ⟨f, h⟩ := Sample.half_v2
  exact ⟨f, h, C76_v2_partial (Sample.envX_accurate _) (.inl rfl) h (by decide) Sample.half_eq
    (by norm_num) (le_refl 5000)⟩

end Poppy
