import Verif.Lemmas.Origin
import Verif.Lemmas.BitSet
import Verif.Samples

/-! # Construction and sizing (C43 to C47) -/

namespace Poppy

open Spec (bitAt)

/-! ## C43 bit vectors -/

/-- A `VecBitSet` created for `n` bits has at least `n` and fewer than `n + 8` bits, all unset,
and is empty exactly when `n` is 0. -/
theorem C43_vec_capacity {n : U64} (h : n.toNat ≤ 2 ^ 53) :
    n.toNat ≤ (VecBitSet.withBitCapacity n).bitLen.toNat ∧
      (VecBitSet.withBitCapacity n).bitLen.toNat < n.toNat + 8 ∧
      (∀ i < (VecBitSet.withBitCapacity n).bitLen.toNat, ∀ j : U64, j.toNat = i →
        (VecBitSet.withBitCapacity n).getNthBit j = .ok false) ∧
      ((VecBitSet.withBitCapacity n).isEmpty = true ↔ n = 0) := by
  have hl : (VecBitSet.withBitCapacity n).asSlice.length = (n.toNat + 7) / 8 := by
    simp [VecBitSet.withBitCapacity, VecBitSet.asSlice, byteCap_eq h]
  have hb : (VecBitSet.withBitCapacity n).bitLen.toNat = (n.toNat + 7) / 8 * 8 := by
    unfold VecBitSet.bitLen
    change ((BitVec.ofNat 64 ((VecBitSet.withBitCapacity n).asSlice.length * 8))).toNat = _
    rw [hl, BitVec.toNat_ofNat, Nat.mod_eq_of_lt (by omega)]
  rw [hb]
  refine ⟨by omega, by omega, ?_, ?_⟩
  · intro i hi j hj
    rw [VecBitSet.getNthBit_eq _ (by rw [hl, hj]; exact hi), VecBitSet.bitAt_withBitCapacity]
  · have h1 : (VecBitSet.withBitCapacity n).isEmpty = true ↔
        (VecBitSet.withBitCapacity n).asSlice.length = 0 := by
      rw [List.length_eq_zero_iff]; exact List.isEmpty_iff
    rw [h1, hl]
    constructor
    · intro h0; exact BitVec.eq_of_toNat_eq (by show n.toNat = 0; omega)
    · rintro rfl; rfl

example : (VecBitSet.withBitCapacity 13#64).bitLen = 16#64 := by decide +kernel

/-! ## C44 parameters accepted by the constructors -/

/-- The accepted probabilities are exactly the normal numbers of `]0;1]`. -/
theorem C44_range (fpp : F64) :
    (2 ^ 52 ≤ fpp.toNat ∧ fpp.toNat ≤ 1023 * 2 ^ 52) ↔
      ∃ q : ℚ, FVal.ofBits fpp = .fin q ∧ 2 ^ (-1022 : ℤ) ≤ q ∧ q ≤ 1 := by
  rw [← fppInRange_iff]
  constructor
  · intro h
    obtain ⟨q, h1, h2, h3, _⟩ := ofBits_of_inRange h
    exact ⟨q, h1, h2, h3⟩
  · rintro ⟨q, h1, h2, h3⟩
    unfold fppInRange
    rw [ofBits_minPositive, ofBits_one, h1]
    simp only [FVal.le, Bool.and_eq_true, decide_eq_true_eq]
    exact ⟨h2, h3⟩

/-- v2 creation fails with `WrongFpp` exactly for the other bit patterns (NaN, infinities,
negative, zero, subnormal, or above 1), and never fails with another error. -/
theorem C44_v2 (env : Env) (cap : U64) (fpp : F64) (opt : OptLevel) (e : Error) :
    V2.make env cap fpp opt = .err e ↔
      e = .wrongFpp fpp ∧ ¬ (2 ^ 52 ≤ fpp.toNat ∧ fpp.toNat ≤ 1023 * 2 ^ 52) := by
  rw [← fppInRange_iff]
  unfold V2.make
  cases hf : fppInRange fpp with
  | false => simp [eq_comm]
  | true =>
    simp only [Bool.not_true, Bool.false_eq_true, if_false, not_true_eq_false, and_false,
      iff_false]
    have hse : ∀ e, V2.sizes env cap fpp opt ≠ .err e := by
      intro e
      unfold V2.sizes nextPowerOfTwo
      cases opt <;> simp only [ne_eq, reduceCtorEq, not_false_eq_true] <;>
        (repeat' split) <;> simp
    intro h
    cases hs : V2.sizes env cap fpp opt with
    | err e => exact hse e hs
    | panic => rw [hs] at h; simp at h
    | ok t =>
      obtain ⟨a, b, c⟩ := t
      rw [hs] at h
      simp only [Res.bind_ok] at h
      unfold Env.alloc at h
      split at h <;> [skip; simp at h]
      simp only [Res.bind_ok] at h
      split at h <;> simp at h

/-- Same for v1. -/
theorem C44_v1 (env : Env) (cap : U64) (fpp : F64) (e : Error) :
    V1.withCapacity env cap fpp = .err e ↔
      e = .wrongFpp fpp ∧ ¬ (2 ^ 52 ≤ fpp.toNat ∧ fpp.toNat ≤ 1023 * 2 ^ 52) := by
  rw [← fppInRange_iff]
  unfold V1.withCapacity
  cases hf : fppInRange fpp with
  | false => simp [eq_comm]
  | true =>
    simp only [Bool.not_true, Bool.false_eq_true, if_false, not_true_eq_false, and_false,
      iff_false]
    unfold Env.alloc
    split <;> rename_i h <;> split at h <;> simp_all

/-- Version independent creation: versions other than 1 and 2 fail with `InvalidVersion`,
whatever the other parameters. -/
theorem C44_bloom (env : Env) (v : U8) (cap : U64) (fpp : F64) (opt : OptLevel) (e : Error) :
    Bloom.withVersionCapacityOpt env v cap fpp opt = .err e ↔
      (v ≠ 1#8 ∧ v ≠ 2#8 ∧ e = .invalidVersion v) ∨
      ((v = 1#8 ∨ v = 2#8) ∧ e = .wrongFpp fpp ∧
        ¬ (2 ^ 52 ≤ fpp.toNat ∧ fpp.toNat ≤ 1023 * 2 ^ 52)) := by
  have map_err : ∀ {α β : Type} (r : Res α) (g : α → β), r.map g = .err e ↔ r = .err e := by
    intro α β r g
    cases r <;> simp [Res.map]
  unfold Bloom.withVersionCapacityOpt
  by_cases h1 : v = 1#8
  · subst h1
    rw [if_pos rfl, map_err, C44_v1]
    simp
  · by_cases h2 : v = 2#8
    · subst h2
      rw [if_neg h1, if_pos rfl, map_err, C44_v2]
      simp
    · rw [if_neg h1, if_neg h2]
      simp [h1, h2, eq_comm]

/-- The filter has the requested version. -/
theorem C44_version (env : Env) (v : U8) (cap : U64) (fpp : F64) (opt : OptLevel) (f : Bloom)
    (h : Bloom.withVersionCapacityOpt env v cap fpp opt = .ok f) : f.version = v := by
  have map_ok : ∀ {α β : Type} {r : Res α} {g : α → β} {b : β}, r.map g = .ok b → ∃ a, b = g a := by
    intro α β r g b h
    cases r with
    | ok a => exact ⟨a, by simpa [Res.map, eq_comm] using h⟩
    | err e => simp [Res.map] at h
    | panic => simp [Res.map] at h
  unfold Bloom.withVersionCapacityOpt at h
  split at h
  · obtain ⟨a, rfl⟩ := map_ok h
    symm; assumption
  · split at h
    · obtain ⟨a, rfl⟩ := map_ok h
      symm; assumption
    · simp at h

/-- The builder creates what its last settings say. -/
theorem C44_params (env : Env) (v : U8) (cap : U64) (fpp : F64) (opt : OptLevel) :
    (((Params.new cap fpp).withVersion v).withOpt opt).tryInto env =
        Bloom.withVersionCapacityOpt env v cap fpp opt ∧
      (Params.new cap fpp).tryInto env = Bloom.withVersionCapacityOpt env 2 cap fpp .none :=
  ⟨rfl, rfl⟩

-- NaN, 0.0, a subnormal and the successor of 1.0 are refused
example : V2.make Sample.env 100 0x7FF8000000000000#64 .none = .err (.wrongFpp 0x7FF8000000000000#64) :=
  (C44_v2 ..).2 ⟨rfl, by decide⟩
example : V2.make Sample.env 100 0#64 .none = .err (.wrongFpp 0#64) := (C44_v2 ..).2 ⟨rfl, by decide⟩
example : V1.withCapacity Sample.env 100 0x000FFFFFFFFFFFFF#64 = .err (.wrongFpp 0x000FFFFFFFFFFFFF#64) :=
  (C44_v1 ..).2 ⟨rfl, by decide⟩
example : V1.withCapacity Sample.env 100 0x3FF0000000000001#64 = .err (.wrongFpp 0x3FF0000000000001#64) :=
  (C44_v1 ..).2 ⟨rfl, by decide⟩
example : ∃ f, V2.make Sample.env 5000 Sample.p001 .best = .ok f := ⟨_, Sample.f2_make⟩

/-! ## C45 sizes of v2 filters -/

/-- Number of buckets.  `cap_from_bit_size` of a bucket is the bucket capacity. -/
theorem C45_buckets {env : Env} (sp : env.libm.Spec) {cap : U64} {fpp : F64} {opt : OptLevel}
    {f : V2} (h : V2.make env cap fpp opt = .ok f) :
    f.capacity = cap ∧
      (cap ≠ 0 → 1 ≤ f.buckets.length) ∧
      (cap.toNat ≤ 2 ^ 53 → cap.toNat ≤
        (capFromBitSize env.libm 32768 (FVal.ofBits fpp)).toNat * f.buckets.length) ∧
      22 ≤ (capFromBitSize env.libm 32768 (FVal.ofBits fpp)).toNat ∧
      (opt = .speed → ∃ k, f.buckets.length = 2 ^ k) := by
  have hbb : V2.bucketBitSize = 32768 := by decide
  have hpos := V2.make_buckets sp h
  obtain ⟨hin, nb, nh, cbs, hsz, _, _, rfl⟩ := V2.make_ok h
  have hcap := bucketCap_ge sp hin
  have hcov := nBucket_cover sp hin (cap := cap)
  rw [hbb] at hcap hcov
  simp only [List.length_replicate]
  have hge : (V2.nBucketOf env.libm cap fpp).toNat ≤ nb.toNat := by
    rcases V2.sizes_ok hsz with ⟨_, rfl, _⟩ | ⟨_, hn, _⟩ | ⟨_, rfl, _⟩
    · exact le_refl _
    · rcases nextPow2_ok hn with ⟨_, _, h3, _⟩ | ⟨h3, _⟩
      · exact h3
      · by_cases hc : cap = 0
        · subst hc
          have h0 : V2.nBucketOf env.libm 0 fpp = 0 := nBucketOf_zero sp hin
          rw [h0] at h3
          simp at h3
        · have := (nBucket_pos sp hin hc).2
          omega
    · exact le_refl _
  refine ⟨trivial, fun hc => ?_, fun hc => (hcov hc).trans (Nat.mul_le_mul_left _ hge), hcap, ?_⟩
  · have := hpos hc
    simp only [ne_eq, List.replicate_eq_nil_iff] at this
    omega
  · rintro rfl
    rcases V2.sizes_ok hsz with ⟨h1, _⟩ | ⟨_, hn, _⟩ | ⟨h1, _⟩
    · simp at h1
    · rcases nextPow2_ok hn with ⟨_, ⟨k, _, h2⟩, _⟩ | ⟨h3, _⟩
      · exact ⟨k, h2⟩
      · exfalso
        by_cases hc : cap = 0
        · subst hc
          rw [nBucketOf_zero sp hin] at h3
          simp at h3
        · have := (nBucket_pos sp hin hc).2
          omega
    · simp at h1

/-- Number of hash functions. -/
theorem C45_hashes {env : Env} (sp : env.libm.Spec) {cap : U64} {fpp : F64} {opt : OptLevel}
    {f : V2} (h : V2.make env cap fpp opt = .ok f) (ho : opt = .none ∨ opt = .space) :
    1 ≤ f.nHashBuck.toNat ∧ f.nHashBuck.toNat ≤ 2048 := by
  obtain ⟨hin, nb, nh, cbs, hsz, _, _, rfl⟩ := V2.make_ok h
  rcases V2.sizes_ok hsz with ⟨_, _, _, rfl⟩ | ⟨rfl, _⟩ | ⟨rfl, _⟩
  · exact nHash_pos sp (bucketCap_ge sp hin)
  · simp at ho
  · simp at ho

/-- Index cache. -/
theorem C45_cache {env : Env} {cap : U64} {fpp : F64} {opt : OptLevel}
    {f : V2} (h : V2.make env cap fpp opt = .ok f) :
    (opt = .none ∨ opt = .space → f.indexCache.byteLen = 0) ∧
    (opt = .speed ∨ opt = .best → cap.toNat ≤ 2 ^ 53 →
      ∃ k, f.indexCache.byteLen * 8 = 2 ^ k ∧ 3 ≤ k ∧ cap.toNat ≤ 2 ^ k) :=
  ⟨fun ho => List.length_eq_zero_iff.2 ((V2.make_cache h).1 ho), (V2.make_cache h).2⟩

/-- New filters are empty: no entry, no bit set, no data. -/
theorem C45_empty {env : Env} {cap : U64} {fpp : F64} {opt : OptLevel}
    {f : V2} (h : V2.make env cap fpp opt = .ok f) :
    f.count = 0 ∧ f.data = [] ∧ f.fpp = fpp ∧ f.flags.opt = opt ∧
      (∀ b ∈ f.buckets, ∀ i, bitAt b.asSlice i = false) ∧
      ∀ i, bitAt f.indexCache.asSlice i = false := by
  obtain ⟨hin, nb, nh, cbs, hsz, _, _, rfl⟩ := V2.make_ok h
  refine ⟨rfl, rfl, rfl, rfl, ?_, fun i => VecBitSet.bitAt_withBitCapacity _ i⟩
  intro b hb i
  rw [List.eq_of_mem_replicate hb]
  exact BitSet.bitAt_new i

example := C45_buckets Sample.libm_spec Sample.f2_make
example := C45_cache Sample.f2_make
example := C45_empty Sample.f2_make

/-! ## C46 sizes of v1 filters -/

/-- The bit size is the integer part of `- (capacity * ln fpp) / ln^2 2` as computed, and the bits
are stored on the smallest number of words. -/
theorem C46_v1_sizing {env : Env} (sp : env.libm.Spec) (hs : env.Small) {cap : U64} {fpp : F64}
    {f : V1} (h : V1.withCapacity env cap fpp = .ok f) :
    (∃ v : ℚ, FVal.div (FVal.mul (FVal.ofU64 cap) (env.libm.ln (FVal.ofBits fpp)))
        (env.libm.powf (env.libm.ln (.fin 2)) (.fin 2)) = .fin (-v) ∧
      (f.bitSize.toNat : ℚ) ≤ v ∧ v < f.bitSize.toNat + 1) ∧
    f.bitset.length = (f.bitSize.toNat + 63) / 64 ∧
    (f.bitSize = 0 ↔ f.nHash = 0) ∧ (cap = 0 → f.bitSize = 0) ∧
    f.capacity = cap ∧ f.fpp = fpp ∧ f.count = 0 ∧ f.data = [] ∧
    ∀ i, bitAt f.bitset i = false := by
  have hb := V1.make_bits sp h
  obtain ⟨hin, hal, rfl⟩ := V1.withCapacity_ok h
  obtain ⟨v, hv0, hq, hv, _⟩ := bitSizeFor_eq sp hin cap
  obtain ⟨hle, hw⟩ := u64SizeFor_small (n := bitSizeFor env.libm cap (FVal.ofBits fpp))
    (lt_of_le_of_lt hal hs)
  simp only [List.length_replicate]
  refine ⟨⟨v, hq, ?_, ?_⟩, hw, hb.1, hb.2, trivial, trivial, trivial, trivial, bitAt_replicate_zero _⟩
  all_goals
    have hvv : v < 2 ^ 64 := by
      by_contra hge
      push Not at hge
      have h1 : (2 : ℚ) ^ 64 ≤ ((⌊v⌋ : ℤ) : ℚ) := by
        have : (2 ^ 64 : ℤ) ≤ ⌊v⌋ := Int.le_floor.2 (by push_cast; exact hge)
        exact_mod_cast this
      rw [hv, toU64_fin_big h1] at hle
      simp at hle
    have hf0 : 0 ≤ ⌊v⌋ := Int.floor_nonneg.2 hv0
    have h2 : ((⌊v⌋ : ℤ) : ℚ) < 2 ^ 64 := lt_of_le_of_lt (Int.floor_le v) hvv
    have h3 := toU64_fin h2
    rw [← hv, Int.floor_intCast] at h3
    have h4 : (((⌊v⌋).toNat : ℕ) : ℚ) = ((⌊v⌋ : ℤ) : ℚ) := by
      have : (((⌊v⌋).toNat : ℕ) : ℤ) = ⌊v⌋ := Int.toNat_of_nonneg hf0
      exact_mod_cast this
    rw [h3, h4]
  · exact Int.floor_le v
  · exact Int.lt_floor_add_one v

example := C46_v1_sizing Sample.libm_spec Sample.env_small Sample.f1_make

/-! ## C47 no panic -/

/-- `contains` never panics on filters derived from a constructor, and `insert` panics only in
debug builds when the count is `u64::MAX` already. -/
theorem C47_v2_no_panic {env : Env} (sp : env.libm.Spec) (hs : env.Small) {f : V2}
    (h : V2.Built env f) (k : Key) :
    f.contains env k ≠ .panic ∧
      ((f.insert env k).2 = .panic → env.debug = true ∧ f.count.toNat = 2 ^ 64 - 1) := by
  have w := h.reach.wf
  by_cases hc : f.capacity = 0
  · rw [V2.contains_noCap env k hc, V2.insert_noCap env k hc]
    simp
  · have hb := h.buckets hs sp hc
    rw [V2.contains_eq env w k hc hb, V2.insert_cases env w k hc hb]
    refine ⟨by simp, ?_⟩
    split
    · simp
    · split
      · rename_i h1
        intro _
        have := h1.1
        unfold V2.CountOverflow at this
        exact ⟨this.1, by omega⟩
      · simp

/-- v1 operations never panic on filters derived from a constructor. -/
theorem C47_v1_no_panic {env : Env} (sp : env.libm.Spec) (hs : env.Small) {f : V1}
    (h : V1.Built env f) (k : List U8) :
    f.containsBytes k ≠ .panic ∧ (f.insertBytes env k).2 ≠ .panic := by
  have w := h.reach.wf hs
  obtain ⟨h1, h2⟩ := h.bits sp
  by_cases hm : f.bitSize = 0
  · rw [V1.containsBytes_noHash w k (h1.1 hm)]
    refine ⟨by simp, ?_⟩
    by_cases hc : f.capacity = 0
    · simp [V1.insertBytes, hc]
    · rw [V1.insertBytes_noHash env w k hc (h1.1 hm)]
      simp
  · rw [V1.containsBytes_eq w k hm,
      V1.insertBytes_eq env w k (fun hc => hm (h2 hc)) hm]
    refine ⟨by simp, ?_⟩
    split <;> simp

-- any history from a constructor, here an insertion followed by a union
example (k k' : Key) (o : V2) :
    (((Sample.f2.insert Sample.env k).1.unionMerge Sample.env o).1.contains Sample.env k') ≠ .panic :=
  (C47_v2_no_panic Sample.libm_spec Sample.env_small
    (.union o (.insertIter _ (.make Sample.f2_make))) k').1

-- the libm assumptions hold of correctly rounded functions
example : Libm.exact.Spec := Libm.exact_spec

end Poppy
