import Verif.Lemmas.AccuracySizes
import Verif.Lemmas.Origin

/-! # Lemmas for C110: sizes that fit in memory -/

namespace Poppy

namespace V2

/-- With enough memory for the sizes that were computed the filter is made. -/
theorem make_of_memory {env : Env} {cap : U64} {fpp : F64} {opt : OptLevel} {nb nh cbs : U64}
    (hin : fppInRange fpp = true) (h : sizes env cap fpp opt = .ok (nb, nh, cbs))
    (h1 : (byteCapFromBitCap cbs).toNat ≤ env.allocLimit) (h2 : nb.toNat * 4096 ≤ env.allocLimit) :
    ∃ f, make env cap fpp opt = .ok f ∧ f.buckets.length = nb.toNat := by
  unfold make
  rw [hin, h]
  simp only [Bool.not_true, Bool.false_eq_true, if_false, Res.bind_ok]
  have a1 : env.alloc (byteCapFromBitCap cbs).toNat 1 = .ok () := by
    unfold Env.alloc; rw [if_pos (by omega)]
  have a2 : env.alloc nb.toNat BUCKET_SIZE = .ok () := by
    unfold Env.alloc; rw [if_pos (by show nb.toNat * 4096 ≤ _; omega)]
  rw [a1, a2]
  exact ⟨_, rfl, by simp⟩

/-- `next_power_of_two` stays below every power of two that is large enough. -/
theorem nextPow2_le (d : Bool) {x : U64} {j : ℕ} (hj : j < 64) (hx : x.toNat ≤ 2 ^ j) :
    ∃ p, nextPowerOfTwo d x = .ok p ∧ p.toNat ≤ 2 ^ j := by
  have h63 : x.toNat ≤ 2 ^ 63 := hx.trans (Nat.pow_le_pow_right (by norm_num) (by omega))
  obtain ⟨p, hp, ⟨k, hk, e⟩, _, h2⟩ := nextPow2 d h63
  refine ⟨p, hp, ?_⟩
  rw [e] at h2 ⊢
  have h3 : 2 ^ k < 2 ^ (j + 1) := by
    have : max x.toNat 1 ≤ 2 ^ j := max_le hx Nat.one_le_two_pow
    rw [pow_succ]; omega
  have := (Nat.pow_lt_pow_iff_right (by norm_num)).1 h3
  exact Nat.pow_le_pow_right (by norm_num) (by omega)

/-- The number of buckets is at most `n` if `n` buckets hold the capacity. -/
theorem nBucketOf_le {lm : Libm} (sp : lm.Spec) {fpp : F64} (h : fppInRange fpp = true)
    {cap : U64} {n : ℕ} {c : ℝ} (hc : c ≤ (capFromBitSize lm bucketBitSize (FVal.ofBits fpp)).toNat)
    (hn : cap.toNat * (1 + 2 ^ (-44 : ℤ)) ≤ n * c) : (nBucketOf lm cap fpp).toNat ≤ n := by
  by_cases h0 : cap = 0
  · subst h0; rw [nBucketOf_zero sp h]; exact Nat.zero_le _
  obtain ⟨_, n2⟩ := nBucketOf_bounds sp h h0
  have hb : (22 : ℝ) ≤ (capFromBitSize lm bucketBitSize (FVal.ofBits fpp)).toNat := by
    exact_mod_cast bucketCap_ge sp h
  generalize ((capFromBitSize lm bucketBitSize (FVal.ofBits fpp)).toNat : ℝ) = d at *
  by_contra hlt
  have h1 : ((n : ℝ) + 1) ≤ (nBucketOf lm cap fpp).toNat := by
    have : n + 1 ≤ (nBucketOf lm cap fpp).toNat := by omega
    exact_mod_cast this
  have h2 : (n : ℝ) * d ≤ ((nBucketOf lm cap fpp).toNat - 1 : ℝ) * d :=
    mul_le_mul_of_nonneg_right (by linarith) (by linarith)
  have h3 : (n : ℝ) * c ≤ n * d := mul_le_mul_of_nonneg_left hc (Nat.cast_nonneg _)
  linarith

/-- What the level asks for besides the buckets: powers of two. -/
def Extra (limit : ℕ) (cap : U64) (opt : OptLevel) (n : ℕ) : Prop :=
  (opt = .speed → ∃ k < 64, n = 2 ^ k) ∧
    (opt = .speed ∨ opt = .best → ∃ j ≤ 52, cap.toNat ≤ 2 ^ j ∧ (2 ^ j + 7) / 8 ≤ limit)

theorem make_enough {env : Env} (sp : env.libm.Spec) {fpp : F64} (h : fppInRange fpp = true)
    {cap : U64} {opt : OptLevel} {n : ℕ} {c : ℝ}
    (hc : c ≤ (capFromBitSize env.libm bucketBitSize (FVal.ofBits fpp)).toNat)
    (hn : cap.toNat * (1 + 2 ^ (-44 : ℤ)) ≤ n * c) (hl : n * 4096 ≤ env.allocLimit)
    (hx : Extra env.allocLimit cap opt n) :
    ∃ f, make env cap fpp opt = .ok f ∧ f.buckets.length ≤ n := by
  have hb := nBucketOf_le sp h hc hn
  have cache : ∀ {p : U64} {j : ℕ}, j ≤ 52 → (2 ^ j + 7) / 8 ≤ env.allocLimit → p.toNat ≤ 2 ^ j →
      (byteCapFromBitCap p).toNat ≤ env.allocLimit := by
    intro p j hj hm hp
    have : 2 ^ j ≤ 2 ^ 52 := Nat.pow_le_pow_right (by norm_num) hj
    rw [byteCap_eq (by omega)]
    omega
  obtain ⟨hx1, hx2⟩ := hx
  have fin : ∀ {nb nh cbs : U64}, sizes env cap fpp opt = .ok (nb, nh, cbs) →
      (byteCapFromBitCap cbs).toNat ≤ env.allocLimit → nb.toNat ≤ n →
      ∃ f, make env cap fpp opt = .ok f ∧ f.buckets.length ≤ n := by
    intro nb nh cbs e1 e2 e3
    obtain ⟨f, hf, e⟩ := make_of_memory h e1 e2 (le_trans (Nat.mul_le_mul_right _ e3) hl)
    exact ⟨f, hf, e ▸ e3⟩
  have z : (byteCapFromBitCap (0 : U64)).toNat ≤ env.allocLimit := by
    rw [byteCap_zero]; exact Nat.zero_le _
  cases opt with
  | none => exact fin rfl z hb
  | space => exact fin rfl z hb
  | best =>
    obtain ⟨j, hj, h1, h2⟩ := hx2 (Or.inr rfl)
    obtain ⟨p, hp, hpj⟩ := nextPow2_le env.debug (by omega) h1
    have e : ∃ nh, sizes env cap fpp .best = .ok (nBucketOf env.libm cap fpp, nh, p) := by
      unfold sizes
      simp only [hp, Res.bind_ok]
      exact ⟨_, rfl⟩
    obtain ⟨nh, e⟩ := e
    exact fin e (cache hj h2 hpj) hb
  | speed =>
    obtain ⟨j, hj, h1, h2⟩ := hx2 (Or.inl rfl)
    obtain ⟨k, hk, rfl⟩ := hx1 rfl
    obtain ⟨p, hp, hpj⟩ := nextPow2_le env.debug (by omega) h1
    obtain ⟨q, hq, hqk⟩ := nextPow2_le env.debug hk hb
    have e : ∃ nh, sizes env cap fpp .speed = .ok (q, nh, p) := by
      unfold sizes
      unfold nBucketOf at hq
      simp only [hp, hq, Res.bind_ok]
      exact ⟨_, rfl⟩
    obtain ⟨nh, e⟩ := e
    exact fin e (cache hj h2 hpj) hqk

end V2

end Poppy
