import Verif.GrowSpec
import Verif.Lemmas.Creation
import Verif.Lemmas.Merge

/-! # Lemmas for C122: sizes grow with the capacity, the inverse of the probability and the level -/

namespace Poppy

namespace FVal

theorem div_mono {c : ℚ} (hc : 0 < c) {a b : FVal} (h : le a b = true) :
    le (div a (.fin c)) (div b (.fin c)) = true := by
  have h0 : c ≠ 0 := hc.ne'
  have h1 : 0 ≤ c := hc.le
  have hr : ∀ q : ℚ, le .ninf (rnd q) = true ∧ le (rnd q) .pinf = true := by
    intro q
    unfold rnd; simp only; split_ifs <;> simp [le]
  cases a with
  | nan => simp [le] at h
  | pinf => cases b <;> simp_all [le, div]
  | ninf =>
    cases b with
    | nan => simp [le] at h
    | pinf => simp [div, h1, le]
    | ninf => simp [div, h1, le]
    | fin q => simp only [div, h1, h0, if_true, if_false]; exact (hr _).1
  | fin p =>
    cases b with
    | nan => simp [le] at h
    | ninf => simp [le] at h
    | pinf => simp only [div, h1, h0, if_true, if_false]; exact (hr _).2
    | fin q =>
      have hpq : p ≤ q := by simpa [le] using h
      simp only [div, h0, if_false]
      exact rnd_mono (by gcongr)

theorem ceil_mono {a b : FVal} (h : le a b = true) : le (ceil a) (ceil b) = true := by
  cases a <;> cases b <;> simp_all [le, ceil]
  exact Int.ceil_le_ceil h

theorem abs_anti {a b : FVal} (h : le a b = true) (h0 : le b (.fin 0) = true) :
    le (abs b) (abs a) = true := by
  cases a <;> cases b <;> simp_all [le, abs]
  rename_i p q
  rw [abs_of_nonpos h0, abs_of_nonpos (h.trans h0)]
  linarith

theorem ofU64_mono {a b : U64} (h : a.toNat ≤ b.toNat) : le (ofU64 a) (ofU64 b) = true := by
  rw [rnd_fin_u64, rnd_fin_u64]
  simp only [le, decide_eq_true_eq]
  exact rndQ_mono (by exact_mod_cast h)

end FVal

/-- Quotients by a constant grow. -/
theorem toU64_ceil_div_mono {a b : U64} (h : a.toNat ≤ b.toNat) {c : ℚ} (hc : 0 < c) :
    (FVal.toU64 (FVal.ceil (FVal.div (FVal.ofU64 a) (.fin c)))).toNat
      ≤ (FVal.toU64 (FVal.ceil (FVal.div (FVal.ofU64 b) (.fin c)))).toNat :=
  FVal.toU64_mono (FVal.ceil_mono (FVal.div_mono hc (FVal.ofU64_mono h)))

/-- The logarithm of an accepted probability. -/
theorem ln_inRange {lm : Libm} (sp : lm.Spec) {fpp : F64} (h : fppInRange fpp = true) :
    ∃ r : ℚ, lm.ln (FVal.ofBits fpp) = .fin r ∧ r ≤ 0 := by
  obtain ⟨q, hq, hq1, hq2, hqF⟩ := ofBits_of_inRange h
  rw [hq]
  rcases eq_or_lt_of_le hq2 with rfl | hlt
  · exact ⟨0, sp.ln_one, le_refl _⟩
  · obtain ⟨r, hr, _, h2⟩ := sp.ln_below_one q hqF hq1 hlt
    exact ⟨r, hr, h2.le⟩

/-- The number of bits grows. -/
theorem bitSizeFor_mono {lm : Libm} (sp : lm.Spec) {cap cap' : U64} {fpp fpp' : F64}
    (h : fppInRange fpp = true) (h' : fppInRange fpp' = true) (hc : cap.toNat ≤ cap'.toNat)
    (hl : FVal.le (lm.ln (FVal.ofBits fpp')) (lm.ln (FVal.ofBits fpp)) = true) :
    (bitSizeFor lm cap (FVal.ofBits fpp)).toNat ≤ (bitSizeFor lm cap' (FVal.ofBits fpp')).toNat := by
  obtain ⟨v, v0, e, _⟩ := bitSizeFor_eq sp h cap
  obtain ⟨r, er, hr⟩ := ln_inRange sp h
  obtain ⟨r', er', hr'⟩ := ln_inRange sp h'
  obtain ⟨s, hs, hs1, hs2⟩ := sp.ln_two_sq
  have hrr : r' ≤ r := by rw [er, er'] at hl; simpa [FVal.le] using hl
  have k0 : 0 ≤ rndQ ((cap.toNat : ℕ) : ℚ) := le_rndQ _ isF_zero (by
    simp only [Rat.cast_zero]; positivity)
  have k1 : rndQ ((cap.toNat : ℕ) : ℚ) ≤ rndQ ((cap'.toNat : ℕ) : ℚ) :=
    rndQ_mono (by exact_mod_cast hc)
  unfold bitSizeFor
  apply FVal.toU64_mono
  apply FVal.abs_anti
  · apply FVal.ceil_mono
    rw [show FVal.two = .fin 2 from rfl, hs]
    apply FVal.div_mono (by linarith)
    rw [er, er', rnd_fin_u64, rnd_fin_u64]
    apply FVal.rnd_mono
    nlinarith
  · rw [show FVal.two = .fin 2 from rfl, e]
    simp only [FVal.ceil, FVal.le, decide_eq_true_eq]
    have : ⌈-v⌉ ≤ 0 := Int.ceil_le.2 (by simpa using v0)
    exact_mod_cast this

/-- The capacity of a bucket shrinks. -/
theorem bucketCap_anti {lm : Libm} (sp : lm.Spec) {fpp fpp' : F64}
    (h : fppInRange fpp = true) (h' : fppInRange fpp' = true)
    (hl : FVal.le (lm.ln (FVal.ofBits fpp')) (lm.ln (FVal.ofBits fpp)) = true) :
    (capFromBitSize lm V2.bucketBitSize (FVal.ofBits fpp')).toNat
      ≤ (capFromBitSize lm V2.bucketBitSize (FVal.ofBits fpp)).toNat := by
  obtain ⟨r, er, hr⟩ := ln_inRange sp h
  obtain ⟨r', er', hr'⟩ := ln_inRange sp h'
  obtain ⟨s, hs, hs1, hs2⟩ := sp.ln_two_sq
  have hrr : r' ≤ r := by rw [er, er'] at hl; simpa [FVal.le] using hl
  unfold capFromBitSize
  rw [ofU64_bucketBitSize, show FVal.two = .fin 2 from rfl, hs, er, er']
  have h1 : (15728 : ℚ) ≤ 32768 * s := by linarith
  have h2 : 32768 * s ≤ 2 ^ 128 := by linarith [show (2 : ℚ) ^ 15 ≤ 2 ^ 128 by norm_num]
  have hm : FVal.mul (.fin 32768) (.fin s) = .fin (rndQ (32768 * s)) :=
    (rnd_pos (le_trans (by norm_num) h1) h2).1
  have hm0 : 15728 ≤ rndQ (32768 * s) :=
    le_rndQ _ (by simpa using isF_nat (m := 15728) (by norm_num)) (by simpa using h1)
  rw [hm]
  generalize rndQ (32768 * s) = m at *
  rcases eq_or_lt_of_le hr with rfl | hlt
  · have : FVal.toU64 (FVal.abs (FVal.div (.fin m) (.fin 0))) = BitVec.allOnes 64 := by
      simp [FVal.div, FVal.infTimes, show 0 < m by linarith, FVal.abs, FVal.toU64]
    rw [this, BitVec.toNat_allOnes]
    have := (FVal.toU64 (FVal.abs (FVal.div (.fin m) (.fin r')))).isLt
    omega
  · have hlt' : r' < 0 := by linarith
    apply FVal.toU64_mono
    simp only [FVal.div, hlt.ne, hlt'.ne, if_false]
    apply FVal.abs_anti
    · apply FVal.rnd_mono
      rw [div_le_iff_of_neg hlt, div_mul_eq_mul_div, div_le_iff_of_neg hlt']
      nlinarith
    · rw [← rnd_zero]
      apply FVal.rnd_mono
      exact div_nonpos_of_nonneg_of_nonpos (by linarith) hlt'.le

namespace V2

/-- The number of buckets grows. -/
theorem nBucketOf_mono {lm : Libm} (sp : lm.Spec) {cap cap' : U64} {fpp fpp' : F64}
    (h : fppInRange fpp = true) (h' : fppInRange fpp' = true) (hc : cap.toNat ≤ cap'.toNat)
    (hl : FVal.le (lm.ln (FVal.ofBits fpp')) (lm.ln (FVal.ofBits fpp)) = true) :
    (nBucketOf lm cap fpp).toNat ≤ (nBucketOf lm cap' fpp').toNat := by
  have b := bucketCap_ge sp h'
  have bb := bucketCap_anti sp h h' hl
  unfold nBucketOf
  generalize capFromBitSize lm bucketBitSize (FVal.ofBits fpp) = d at *
  generalize capFromBitSize lm bucketBitSize (FVal.ofBits fpp') = d' at *
  have k0 : 0 ≤ rndQ ((cap.toNat : ℕ) : ℚ) := le_rndQ _ isF_zero (by
    simp only [Rat.cast_zero]; positivity)
  have k1 : rndQ ((cap.toNat : ℕ) : ℚ) ≤ rndQ ((cap'.toNat : ℕ) : ℚ) :=
    rndQ_mono (by exact_mod_cast hc)
  have k2 : rndQ ((d'.toNat : ℕ) : ℚ) ≤ rndQ ((d.toNat : ℕ) : ℚ) :=
    rndQ_mono (by exact_mod_cast bb)
  have k3 : 16 ≤ rndQ ((d'.toNat : ℕ) : ℚ) :=
    le_rndQ _ (by simpa using isF_nat (m := 16) (by norm_num)) (by
      have : 16 ≤ d'.toNat := by omega
      simp only [Rat.cast_id]; exact_mod_cast this)
  apply FVal.toU64_mono
  apply FVal.ceil_mono
  rw [rnd_fin_u64, rnd_fin_u64, rnd_fin_u64, rnd_fin_u64]
  generalize rndQ ((cap.toNat : ℕ) : ℚ) = a at *
  generalize rndQ ((cap'.toNat : ℕ) : ℚ) = a' at *
  generalize rndQ ((d.toNat : ℕ) : ℚ) = x at *
  generalize rndQ ((d'.toNat : ℕ) : ℚ) = x' at *
  simp only [FVal.div, show x ≠ 0 by intro; linarith, show x' ≠ 0 by intro; linarith, if_false]
  apply FVal.rnd_mono
  exact div_le_div₀ (by linarith) k1 (by linarith) k2

theorem nextPow2_release (x : U64) : ∃ p, nextPowerOfTwo false x = .ok p := by
  unfold nextPowerOfTwo
  simp only [Bool.false_eq_true, if_false]
  split_ifs <;> exact ⟨_, rfl⟩

/-- `next_power_of_two` grows, unless only the larger call overflows. -/
theorem nextPow2_mono {d : Bool} {x y q : U64} (h : nextPowerOfTwo d y = .ok q)
    (hy : d = true ∨ (x.toNat ≤ 2 ^ 63 → y.toNat ≤ 2 ^ 63)) (hxy : x.toNat ≤ y.toNat) :
    ∃ p, nextPowerOfTwo d x = .ok p ∧ p.toNat ≤ q.toNat := by
  rcases nextPow2_ok h with ⟨_, ⟨k, hk, e⟩, h1, _⟩ | ⟨h1, rfl, _⟩
  · rw [e] at h1 ⊢
    exact nextPow2_le d hk (hxy.trans h1)
  · have hx : 2 ^ 63 < x.toNat := by
      by_contra hx
      have := hy.resolve_left (by simp) (by omega)
      omega
    obtain ⟨p, hp⟩ := nextPow2_release x
    refine ⟨p, hp, ?_⟩
    rcases nextPow2_ok hp with ⟨h2, _⟩ | ⟨_, _, rfl⟩
    · omega
    · simp

/-- All sizes grow. -/
theorem sizes_mono {env : Env} (sp : env.libm.Spec) {cap cap' : U64} {fpp fpp' : F64}
    {opt opt' : OptLevel} {nb' nh' cb' : U64}
    (h : fppInRange fpp = true) (h' : fppInRange fpp' = true) (hc : cap.toNat ≤ cap'.toNat)
    (hl : FVal.le (env.libm.ln (FVal.ofBits fpp')) (env.libm.ln (FVal.ofBits fpp)) = true)
    (ho : opt.rank ≤ opt'.rank) (hw : opt.rank = 0 ∨ env.debug = true ∨
      (cap.toNat ≤ 2 ^ 63 → cap'.toNat ≤ 2 ^ 63))
    (hs : sizes env cap' fpp' opt' = .ok (nb', nh', cb')) :
    ∃ nb nh cb, sizes env cap fpp opt = .ok (nb, nh, cb) ∧ nb.toNat ≤ nb'.toNat ∧
      cb.toNat ≤ cb'.toNat := by
  have hn := nBucketOf_mono sp h h' hc hl
  have hnp : ∀ d q, nextPowerOfTwo d (nBucketOf env.libm cap' fpp') = .ok q →
      (nBucketOf env.libm cap' fpp').toNat ≤ 2 ^ 63 ∧
      (nBucketOf env.libm cap' fpp').toNat ≤ q.toNat := by
    intro d q hq
    have hb : (nBucketOf env.libm cap' fpp').toNat ≤ 2 ^ 63 := by
      by_cases h0 : cap' = 0
      · subst h0; rw [nBucketOf_zero sp h']; simp
      · exact (nBucket_pos sp h' h0).2.trans (by norm_num)
    rcases nextPow2_ok hq with ⟨_, _, h1, _⟩ | ⟨h1, _⟩
    · exact ⟨hb, h1⟩
    · omega
  have hlev : (nBucketOf env.libm cap' fpp').toNat ≤ nb'.toNat ∧
      (opt'.rank ≠ 0 → nextPowerOfTwo env.debug cap' = .ok cb') ∧
      (opt'.rank = 2 →
        nextPowerOfTwo env.debug (nBucketOf env.libm cap' fpp') = .ok nb') := by
    rcases sizes_ok hs with ⟨rfl | rfl, rfl, _⟩ | ⟨rfl, e1, e2⟩ | ⟨rfl, rfl, e2⟩
    · exact ⟨le_refl _, fun h => absurd rfl h, fun h => absurd h (by decide)⟩
    · exact ⟨le_refl _, fun h => absurd rfl h, fun h => absurd h (by decide)⟩
    · exact ⟨(hnp _ _ e1).2, fun _ => e2, fun _ => e1⟩
    · exact ⟨le_refl _, fun _ => e2, fun h => absurd h (by decide)⟩
  obtain ⟨l1, l2, l3⟩ := hlev
  have hcache : opt.rank ≠ 0 → ∃ p, nextPowerOfTwo env.debug cap = .ok p ∧ p.toNat ≤ cb'.toNat := by
    intro h0
    have h1 : opt'.rank ≠ 0 := by omega
    exact nextPow2_mono (l2 h1) (hw.resolve_left h0) hc
  cases opt with
  | none => exact ⟨_, _, _, rfl, hn.trans l1, Nat.zero_le _⟩
  | space => exact ⟨_, _, _, rfl, hn.trans l1, Nat.zero_le _⟩
  | best =>
    obtain ⟨p, e, hp⟩ := hcache (by decide)
    refine ⟨nBucketOf env.libm cap fpp, nHashOpt env.libm cap p (FVal.round (FVal.div
      (FVal.ofU64 bucketBitSize) (FVal.ofU64 (capFromBitSize env.libm bucketBitSize
        (FVal.ofBits fpp))))), p, ?_, hn.trans l1, hp⟩
    unfold sizes
    simp only [e, Res.bind_ok]
    rfl
  | speed =>
    obtain ⟨p, e, hp⟩ := hcache (by decide)
    have h2 : opt'.rank = 2 := by
      have : opt'.rank ≤ 2 := by cases opt' <;> decide
      have : 2 ≤ opt'.rank := ho
      omega
    obtain ⟨n, en, hn⟩ := nextPow2_mono (l3 h2) (Or.inr fun _ => (hnp _ _ (l3 h2)).1) hn
    refine ⟨n, nHashOpt env.libm cap p (FVal.round (FVal.div
      (FVal.ofU64 bucketBitSize) (FVal.ofU64 (capFromBitSize env.libm bucketBitSize
        (FVal.ofBits fpp))))), p, ?_, hn, hp⟩
    unfold sizes
    have en' := en
    unfold nBucketOf at en'
    simp only [e, Res.bind_ok, en']

/-- The filter for less exists and is not longer. -/
theorem make_mono {env : Env} (sp : env.libm.Spec) {cap cap' : U64} {fpp fpp' : F64}
    {opt opt' : OptLevel} {f' : V2} (h : fppInRange fpp = true) (hc : cap.toNat ≤ cap'.toNat)
    (hl : FVal.le (env.libm.ln (FVal.ofBits fpp')) (env.libm.ln (FVal.ofBits fpp)) = true)
    (ho : opt.rank ≤ opt'.rank) (hw : opt.rank = 0 ∨ env.debug = true ∨
      (cap.toNat ≤ 2 ^ 63 → cap'.toNat ≤ 2 ^ 63))
    (hf : make env cap' fpp' opt' = .ok f') :
    ∃ f, make env cap fpp opt = .ok f ∧ f.buckets.length ≤ f'.buckets.length ∧
      f.indexCache.asSlice.length ≤ f'.indexCache.asSlice.length ∧ f.flags.version = 2 ∧
      f'.flags.version = 2 ∧ f.data = [] := by
  obtain ⟨h', nb', nh', cb', hs, m1, m2, rfl⟩ := make_ok hf
  obtain ⟨nb, nh, cb, e, e1, e2⟩ := sizes_mono sp h h' hc hl ho hw hs
  have e3 : (byteCapFromBitCap cb).toNat ≤ (byteCapFromBitCap cb').toNat :=
    toU64_ceil_div_mono e2 (by norm_num)
  obtain ⟨f, hm, _⟩ := make_of_memory h e (e3.trans m1) (le_trans (Nat.mul_le_mul_right _ e1) m2)
  refine ⟨f, hm, ?_⟩
  obtain ⟨_, nb2, nh2, cb2, hs2, _, _, rfl⟩ := make_ok hm
  rw [e] at hs2
  cases hs2
  exact ⟨by simpa using e1, by simpa [VecBitSet.withBitCapacity, VecBitSet.asSlice] using e3,
    rfl, rfl, rfl⟩

end V2

namespace V1

/-- The filter for less exists and is not longer. -/
theorem withCapacity_mono {env : Env} (sp : env.libm.Spec) {cap cap' : U64} {fpp fpp' : F64}
    {f' : V1} (h : fppInRange fpp = true) (hc : cap.toNat ≤ cap'.toNat)
    (hl : FVal.le (env.libm.ln (FVal.ofBits fpp')) (env.libm.ln (FVal.ofBits fpp)) = true)
    (hf : withCapacity env cap' fpp' = .ok f') :
    ∃ f, withCapacity env cap fpp = .ok f ∧ f.bitset.length ≤ f'.bitset.length ∧ f.data = [] := by
  obtain ⟨h', m, rfl⟩ := withCapacity_ok hf
  have e : (u64SizeFor (bitSizeFor env.libm cap (FVal.ofBits fpp))).toNat
      ≤ (u64SizeFor (bitSizeFor env.libm cap' (FVal.ofBits fpp'))).toNat :=
    toU64_ceil_div_mono (bitSizeFor_mono sp h h' hc hl) (by norm_num)
  have a : env.alloc (u64SizeFor (bitSizeFor env.libm cap (FVal.ofBits fpp))).toNat 8 = .ok () := by
    unfold Env.alloc; rw [if_pos (by omega)]
  unfold withCapacity
  rw [h]
  simp only [Bool.not_true, Bool.false_eq_true, if_false, a]
  exact ⟨_, rfl, by simpa using e, rfl⟩

end V1

end Poppy
