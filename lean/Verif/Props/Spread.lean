import Verif.Lemmas.Spread
import Verif.Lemmas.Refine
import Verif.Props.Hash
import Verif.Props.Misc
import Verif.Samples

/-!
# Spread of the keys (C82)

The `2^64` keys of eight bytes are their own hashes, so what happens to them can be counted without
any assumption on the hash function.
-/

namespace Poppy
open Spec Finset

namespace V2

theorem eight_hash (wy : Wy) {x : ℕ} (hx : x < 2 ^ 64) :
    ((Key.slice (le 8 x)).hashPop wy).toNat = x := by
  rw [C35_short_key_value _ _ (by simp [le]), ← leToNat_eq, ← natToLe_eq, leToNat_natToLe]
  exact Nat.mod_eq_of_lt (by norm_num; exact hx)

theorem eight_bucket (env : Env) (f : V2) {x : ℕ} (hx : x < 2 ^ 64) :
    f.keyBucket env (.slice (le 8 x)) = Spec.xorshift x % f.buckets.length := by
  unfold keyBucket
  rw [eight_hash _ hx]

theorem eight_probe (env : Env) {x : ℕ} (hx : x < 2 ^ 64) :
    keyProbe env (.slice (le 8 x)) 0 = x % 32768 := by
  unfold keyProbe poppyProbe
  rw [eight_hash _ hx]
  simp only [Nat.zero_mul, Nat.add_zero, Nat.zero_add, Nat.mod_eq_of_lt hx,
    show Nat.choose 1 3 = 0 from rfl]

theorem buckets_le_39 {env : Env} (hs : env.Small) {f : V2} (hf : V2.Reach env f) {b : ℕ}
    (hb : f.buckets.length = 2 ^ b) : b ≤ 39 := by
  have h1 := hf.fits.mb
  have h2 : env.allocLimit < 2 ^ 50 := hs
  rw [hb] at h1
  by_contra hlt
  have : 2 ^ 40 ≤ 2 ^ b := Nat.pow_le_pow_right (by norm_num) (by omega)
  omega

theorem buckets_ne {f : V2} {b : ℕ} (hb : f.buckets.length = 2 ^ b) : f.buckets ≠ [] := by
  have : 0 < 2 ^ b := by positivity
  exact List.length_pos_iff.1 (by omega)

theorem nHash_pos_of_ne {f : V2} (hk : f.nHashBuck ≠ 0) : 0 < f.nHashBuck.toNat := by
  rcases Nat.eq_zero_or_pos f.nHashBuck.toNat with h0 | h0
  · exact absurd (BitVec.eq_of_toNat_eq h0) hk
  · exact h0

/-- The set bits of a filter. -/
def setBits (f : V2) : Finset (ℕ × ℕ) :=
  (range f.buckets.length ×ˢ range 32768).filter fun c => f.bucketBit c.1 c.2 = true

theorem card_setBits (f : V2) : f.setBits.card = f.countOnes := by
  rw [← view_ones]
  unfold setBits Abs.F2.ones Abs.F2.onesIn
  rw [card_filter, sum_product]
  apply sum_congr rfl
  intro q _
  rw [countBelow_card, card_filter]
  rfl

end V2

/-- A new filter with `n` buckets: for each bucket, the number of keys of eight bytes whose
insertion changes the bucket is `⌊2^64/n⌋` or one more. -/
theorem C82_buckets {env : Env} {cap : U64} {fpp : F64} {opt : OptLevel} {f : V2}
    (h : V2.make env cap fpp opt = .ok f) (hc : cap ≠ 0) (hk : f.nHashBuck ≠ 0) {j : ℕ}
    (hj : j < f.buckets.length) :
    2 ^ 64 / f.buckets.length
        ≤ countBelow (2 ^ 64) (fun x =>
            decide ((f.insertBytes env (le 8 x)).1.buckets[j]? ≠ f.buckets[j]?)) ∧
      countBelow (2 ^ 64) (fun x =>
            decide ((f.insertBytes env (le 8 x)).1.buckets[j]? ≠ f.buckets[j]?))
        ≤ 2 ^ 64 / f.buckets.length + 1 := by
  have hb : f.buckets ≠ [] := by rintro e; simp [e] at hj
  have w := (V2.Reach.make h).wf
  have hcap : f.capacity ≠ 0 := by
    obtain ⟨_, _, _, _, _, _, _, rfl⟩ := V2.make_ok h
    exact hc
  have hcount : f.count = 0 := (V2.make_countOnes h).2
  have hk1 := V2.nHash_pos_of_ne hk
  have key : ∀ x < 2 ^ 64, (decide ((f.insertBytes env (le 8 x)).1.buckets[j]? ≠ f.buckets[j]?))
      = decide (Spec.xorshift x % f.buckets.length = j) := by
    intro x hx
    have hbk := V2.eight_bucket env f hx
    set k := Key.slice (le 8 x) with hkdef
    have hbit : ∀ b i, f.bit b i = false := fun b i => V2.make_bit h b i
    have hall : V2.allSet env f (k.hashPop env.wy) = false := by
      rw [Bool.eq_false_iff, ne_eq, V2.allSet_iff]
      intro hh
      have := hh 0 hk1
      rw [hbit] at this
      exact absurd this (by simp)
    have hins : (f.insertBytes env (le 8 x)).1.buckets = (V2.added env f (k.hashPop env.wy)).buckets := by
      show (f.insert env k).1.buckets = _
      rw [V2.insert_cases env w k hcap hb, if_neg (by rw [hcount]; intro hh; exact hcap hh.1.symm)]
      split <;> rfl
    rw [hins]
    have hbo : f.bucketOf (k.hashPop env.wy) = Spec.xorshift x % f.buckets.length := by
      rw [← hbk, V2.keyBucket_eq]
    by_cases hjb : Spec.xorshift x % f.buckets.length = j
    · rw [decide_eq_true hjb, decide_eq_true_eq]
      intro he
      have h1 := V2.bit_added env hb (k.hashPop env.wy) j (V2.probe env (k.hashPop env.wy) 0)
      have h2 : (V2.added env f (k.hashPop env.wy)).bit j (V2.probe env (k.hashPop env.wy) 0)
          = f.bit j (V2.probe env (k.hashPop env.wy) 0) := by
        unfold V2.bit
        rw [List.getD_eq_getElem?_getD, List.getD_eq_getElem?_getD, he]
      rw [h2, hbit, hbo, hjb] at h1
      have h3 : ∃ n < f.nHashBuck.toNat, V2.probe env (k.hashPop env.wy) 0 = V2.probe env (k.hashPop env.wy) n :=
        ⟨0, hk1, rfl⟩
      simp [h3] at h1
    · rw [decide_eq_false hjb, decide_eq_false_iff_not, not_not]
      show (f.buckets.set _ _)[j]? = _
      rw [hbo, List.getElem?_set_ne hjb]
  rw [countBelow_congr key, countBelow_card]
  have hcc := card_comp (N := 2 ^ 64) (g := Spec.xorshift) (fun x _ => xorshift_lt x) xorshift_inj
    (fun y => y % f.buckets.length = j)
  simp only [decide_eq_true_eq]
  rw [hcc]
  exact card_mod _ _ _ hj

/-- With a power of two of buckets, bucket and first bit are exactly uniform together: each bit of
the filter is the first bit of exactly `2^64 / bits` keys of eight bytes. -/
theorem C82_first_bits {env : Env} (hs : env.Small) {f : V2} (hf : V2.Reach env f) {b : ℕ}
    (hb : f.buckets.length = 2 ^ b) {q p : ℕ} (hq : q < f.buckets.length) (hp : p < 32768) :
    countBelow (2 ^ 64) (fun x => decide (f.keyBucket env (.slice (le 8 x)) = q ∧
        V2.keyProbe env (.slice (le 8 x)) 0 = p)) * (f.buckets.length * 32768) = 2 ^ 64 := by
  have hb39 := V2.buckets_le_39 hs hf hb
  have e : countBelow (2 ^ 64) (fun x => decide (f.keyBucket env (.slice (le 8 x)) = q ∧
      V2.keyProbe env (.slice (le 8 x)) 0 = p)) = (cell b q p).card := by
    rw [countBelow_card]
    unfold cell
    refine congrArg card (filter_congr fun x hx => ?_)
    rw [decide_eq_true_eq, V2.eight_bucket env f (mem_range.1 hx),
      V2.eight_probe env (mem_range.1 hx), hb]
  have e2 : 49 - b + (b + 15) = 64 := by omega
  rw [e, card_cell hb39 (hb ▸ hq) hp, hb, show 32768 = 2 ^ 15 by norm_num, ← pow_add, ← pow_add, e2]

/-- So of a filter with a power of two of buckets (and at least one hash function) the share of the
keys of eight bytes that are members is at most the share of bits set. -/
theorem C82_members {env : Env} (hs : env.Small) {f : V2} (hf : V2.Reach env f) {b : ℕ}
    (hb : f.buckets.length = 2 ^ b) (hk : f.nHashBuck ≠ 0) :
    countBelow (2 ^ 64) (fun x => decide (f.containsBytes env (le 8 x) = .ok true))
        * (f.buckets.length * 32768) ≤ f.countOnes * 2 ^ 64 := by
  have hne := V2.buckets_ne hb
  have hb39 := V2.buckets_le_39 hs hf hb
  have hk1 := V2.nHash_pos_of_ne hk
  have hsub : ((range (2 ^ 64)).filter fun x => f.containsBytes env (le 8 x) = .ok true)
      ⊆ f.setBits.biUnion fun c => cell b c.1 c.2 := by
    intro x hx
    obtain ⟨hx, hm⟩ := mem_filter.1 hx
    have hx' := mem_range.1 hx
    have h := ((C65_v2_member hf hne (.slice (le 8 x))).1 hm).2.1 ⟨0, hk1⟩
    rw [V2.eight_bucket env f hx', V2.eight_probe env hx'] at h
    refine mem_biUnion.2 ⟨(Spec.xorshift x % f.buckets.length, x % 32768), ?_, ?_⟩
    · exact mem_filter.2 ⟨mem_product.2 ⟨mem_range.2 (Nat.mod_lt _ (List.length_pos_iff.2 hne)),
        mem_range.2 (Nat.mod_lt _ (by norm_num))⟩, h⟩
    · exact mem_filter.2 ⟨hx, by rw [hb], rfl⟩
  have hle := (card_le_card hsub).trans (card_biUnion_le_card_mul _ _ _
    (fun c _ => card_cell_le hb39 c.1 c.2))
  rw [V2.card_setBits] at hle
  have e2 : 49 - b + (b + 15) = 64 := by omega
  have e : countBelow (2 ^ 64) (fun x => decide (f.containsBytes env (le 8 x) = .ok true))
      = ((range (2 ^ 64)).filter fun x => f.containsBytes env (le 8 x) = .ok true).card := by
    rw [countBelow_card]
    simp only [decide_eq_true_eq]
  rw [e]
  calc _ ≤ f.countOnes * 2 ^ (49 - b) * (f.buckets.length * 32768) := Nat.mul_le_mul_right _ hle
    _ = f.countOnes * 2 ^ 64 := by
      rw [hb, show 32768 = 2 ^ 15 by norm_num, mul_assoc, ← pow_add, ← pow_add, e2]

/-- With one hash function and no index cache it is exactly the share of bits set. -/
theorem C82_members_exact {env : Env} (hs : env.Small) {f : V2} (hf : V2.Reach env f) {b : ℕ}
    (hb : f.buckets.length = 2 ^ b) (hk : f.nHashBuck = 1) (hc : f.capacity ≠ 0)
    (hi : f.indexCache.asSlice = []) :
    countBelow (2 ^ 64) (fun x => decide (f.containsBytes env (le 8 x) = .ok true))
        * (f.buckets.length * 32768) = f.countOnes * 2 ^ 64 := by
  have hne := V2.buckets_ne hb
  have hb39 := V2.buckets_le_39 hs hf hb
  have hk1 : f.nHashBuck.toNat = 1 := by rw [hk]; rfl
  have heq : ((range (2 ^ 64)).filter fun x => f.containsBytes env (le 8 x) = .ok true)
      = f.setBits.biUnion fun c => cell b c.1 c.2 := by
    ext x
    constructor
    · intro hx
      obtain ⟨hx, hm⟩ := mem_filter.1 hx
      have hx' := mem_range.1 hx
      have h := ((C65_v2_member hf hne (.slice (le 8 x))).1 hm).2.1 ⟨0, by omega⟩
      rw [V2.eight_bucket env f hx', V2.eight_probe env hx'] at h
      refine mem_biUnion.2 ⟨(Spec.xorshift x % f.buckets.length, x % 32768), ?_, ?_⟩
      · exact mem_filter.2 ⟨mem_product.2 ⟨mem_range.2 (Nat.mod_lt _ (List.length_pos_iff.2 hne)),
          mem_range.2 (Nat.mod_lt _ (by norm_num))⟩, h⟩
      · exact mem_filter.2 ⟨hx, by rw [hb], rfl⟩
    · intro hx
      obtain ⟨c, hc1, hc2⟩ := mem_biUnion.1 hx
      obtain ⟨hx, h1, h2⟩ := mem_filter.1 hc2
      have hx' := mem_range.1 hx
      refine mem_filter.2 ⟨hx, ?_⟩
      refine (C65_v2_member hf hne (.slice (le 8 x))).2 ⟨hc, fun j => ?_, fun h => absurd hi h⟩
      have hj : (j : ℕ) = 0 := by have := j.isLt; omega
      rw [hj, V2.eight_bucket env f hx', V2.eight_probe env hx', hb, h1, h2]
      exact (mem_filter.1 hc1).2
  have hdisj : Set.PairwiseDisjoint (↑f.setBits : Set (ℕ × ℕ)) fun c => cell b c.1 c.2 := by
    intro c _ d _ hcd
    rw [Function.onFun, disjoint_left]
    intro x hx hy
    obtain ⟨_, h1, h2⟩ := mem_filter.1 hx
    obtain ⟨_, h3, h4⟩ := mem_filter.1 hy
    exact hcd (Prod.ext (h1.symm.trans h3) (h2.symm.trans h4))
  have e : countBelow (2 ^ 64) (fun x => decide (f.containsBytes env (le 8 x) = .ok true))
      = ((range (2 ^ 64)).filter fun x => f.containsBytes env (le 8 x) = .ok true).card := by
    rw [countBelow_card]
    simp only [decide_eq_true_eq]
  have e2 : 49 - b + (b + 15) = 64 := by omega
  have hcell : ∀ c ∈ f.setBits, (cell b c.1 c.2).card = 2 ^ (49 - b) := by
    intro c hc
    have := mem_product.1 (mem_filter.1 hc).1
    exact card_cell hb39 (hb ▸ mem_range.1 this.1) (mem_range.1 this.2)
  rw [e, heq, card_biUnion hdisj, sum_congr rfl hcell, sum_const, V2.card_setBits, smul_eq_mul, hb,
    show 32768 = 2 ^ 15 by norm_num, mul_assoc, ← pow_add, ← pow_add, e2]

/-- With an index cache whose number of bits is a power of two (as in all filters made with `Speed`
or `Best`), the share of the keys of eight bytes that are members is at most the share of its bits
that are set. -/
theorem C82_members_cache {env : Env} {f : V2} (hf : V2.Reach env f) {a : ℕ}
    (ha : f.indexCache.asSlice.length * 8 = 2 ^ a) :
    countBelow (2 ^ 64) (fun x => decide (f.containsBytes env (le 8 x) = .ok true))
        * (f.indexCache.asSlice.length * 8)
      ≤ countBelow (f.indexCache.asSlice.length * 8) (bitAt f.indexCache.asSlice) * 2 ^ 64 := by
  have hne : f.indexCache.asSlice ≠ [] := by
    intro h
    rw [h] at ha
    have : 0 < 2 ^ a := by positivity
    simp only [List.length_nil, Nat.zero_mul] at ha
    omega
  have hwc := hf.wf.cache
  have ha64 : a ≤ 64 := by
    by_contra hlt
    have : 2 ^ 65 ≤ 2 ^ a := Nat.pow_le_pow_right (by norm_num) (by omega)
    omega
  have hd : 2 ^ a ∣ 2 ^ 64 := pow_dvd_pow 2 ha64
  have hcache : ∀ x < 2 ^ 64, f.keyCache env (.slice (le 8 x)) = Spec.xorshift x % 2 ^ a := by
    intro x hx
    unfold V2.keyCache
    rw [V2.eight_hash _ hx, ha]
    exact Nat.and_two_pow_sub_one_eq_mod _ _
  rw [ha]
  set S := (range (2 ^ a)).filter fun i => bitAt f.indexCache.asSlice i = true with hS
  have hsub : ((range (2 ^ 64)).filter fun x => f.containsBytes env (le 8 x) = .ok true)
      ⊆ S.biUnion fun i => (range (2 ^ 64)).filter fun x => Spec.xorshift x % 2 ^ a = i := by
    intro x hx
    obtain ⟨hx, hm⟩ := mem_filter.1 hx
    have hx' := mem_range.1 hx
    have hcap : f.capacity ≠ 0 := by
      intro h0
      rw [V2.containsBytes, V2.contains_noCap env _ h0] at hm
      simp at hm
    have hb : f.buckets ≠ [] := by
      intro h0
      rw [V2.containsBytes, V2.contains_nil env hf.wf _ hcap h0] at hm
      split at hm <;> simp at hm
    have h := ((C65_v2_member hf hb (.slice (le 8 x))).1 hm).2.2 hne
    rw [hcache x hx'] at h
    exact mem_biUnion.2 ⟨_, mem_filter.2 ⟨mem_range.2 (Nat.mod_lt _ (by positivity)), h⟩,
      mem_filter.2 ⟨hx, rfl⟩⟩
  have hle := (card_le_card hsub).trans (card_biUnion_le_card_mul S _ (2 ^ 64 / 2 ^ a) (by
    intro i hi
    have hi' := mem_range.1 (mem_filter.1 hi).1
    have hcc := card_comp (N := 2 ^ 64) (g := Spec.xorshift) (fun x _ => xorshift_lt x)
      xorshift_inj (fun y => y % 2 ^ a = i)
    rw [hcc, card_mod_dvd hd hi']))
  have e : countBelow (2 ^ 64) (fun x => decide (f.containsBytes env (le 8 x) = .ok true))
      = ((range (2 ^ 64)).filter fun x => f.containsBytes env (le 8 x) = .ok true).card := by
    rw [countBelow_card]
    simp only [decide_eq_true_eq]
  rw [e, countBelow_card (2 ^ a), ← hS]
  calc _ ≤ S.card * (2 ^ 64 / 2 ^ a) * 2 ^ a := Nat.mul_le_mul_right _ hle
    _ = S.card * 2 ^ 64 := by rw [mul_assoc, Nat.div_mul_cancel hd]

theorem V2.inserts_cache {env : Env} {f : V2} (hf : V2.Reach env f) (ks : List Key) :
    V2.Reach env (V2.inserts env f ks) ∧
    (V2.inserts env f ks).indexCache.asSlice.length = f.indexCache.asSlice.length ∧
    (V2.inserts env f ks).indexCache.countOnes ≤ f.indexCache.countOnes + ks.length := by
  induction ks generalizing f with
  | nil => exact ⟨hf, rfl, le_rfl⟩
  | cons k ks ih =>
    obtain ⟨h1, h2, h3⟩ := ih (f := (f.insert env k).1) (V2.Reach.insertIter _ hf)
    have h4 := (C13_v2_step hf k).2.2.2.2
    refine ⟨h1, h2.trans (V2.insert_ext env f k).clen, ?_⟩
    show (V2.inserts env (f.insert env k).1 ks).indexCache.countOnes ≤ _
    rw [List.length_cons]
    omega

/-- So after `n` insertions into a new filter made with `Speed` or `Best` for `cap` entries, at most
the share `n / cap` of the keys of eight bytes are members, whatever the hash function. -/
theorem C82_cached {env : Env} {cap : U64} {fpp : F64} {opt : OptLevel} {f : V2}
    (h : V2.make env cap fpp opt = .ok f) (ho : opt = .speed ∨ opt = .best)
    (hcap : cap.toNat ≤ 2 ^ 53) (ks : List Key) :
    countBelow (2 ^ 64) (fun x =>
        decide ((V2.inserts env f ks).containsBytes env (le 8 x) = .ok true)) * cap.toNat
      ≤ ks.length * 2 ^ 64 := by
  obtain ⟨a, ha, _, hle⟩ := (V2.make_cache h).2 ho hcap
  obtain ⟨h1, h2, h3⟩ := V2.inserts_cache (V2.Reach.make h) ks
  have hm := C82_members_cache (a := a) h1 (by rw [h2]; exact ha)
  rw [h2, ← h2, ← VecBitSet.countOnes_eq, h2, ha] at hm
  have h0 : f.indexCache.countOnes = 0 := by
    rw [VecBitSet.countOnes_eq, ← countBelow_false (f.indexCache.asSlice.length * 8)]
    exact countBelow_congr fun i _ => V2.make_cacheBit h i
  calc _ ≤ _ * 2 ^ a := Nat.mul_le_mul_left _ hle
    _ ≤ _ := hm
    _ ≤ ks.length * 2 ^ 64 := Nat.mul_le_mul_right _ (by omega)

/-! ## Samples -/

/-- Two buckets with the same byte everywhere, one hash function, no index cache. -/
def Sample.oneHash (b : U8) : V2 :=
  { flags := Flags.new 2#8
    indexCache := ⟨[]⟩
    nBuckets := 2
    cacheByteSize := 0
    capacity := 5000
    fpp := p001
    nHashBuck := 1
    count := 0
    buckets := List.replicate 2 ⟨Vector.replicate _ b⟩
    data := [] }

theorem Sample.oneHash_reach (b : U8) : V2.Reach Sample.env (Sample.oneHash b) :=
  .load (V2.fromReader_ser ⟨Sample.p001_inRange, rfl, rfl, by
    have h1 : (Sample.oneHash b).buckets.length = 2 := rfl
    rw [h1]; unfold Sample.env; norm_num, Nat.zero_le _⟩ Sample.env_small rfl)

-- the two buckets of a new filter are changed by 2^63 keys (or one more) each
example : 2 ^ 64 / Sample.f2.buckets.length ≤ countBelow (2 ^ 64) (fun x =>
    decide ((Sample.f2.insertBytes Sample.env (le 8 x)).1.buckets[1]? ≠ Sample.f2.buckets[1]?)) :=
  (C82_buckets Sample.f2_make (by decide) (by decide) (j := 1) (Nat.lt_succ_self 1)).1

-- bit 5 of bucket 1 is the first bit of 2^48 keys
example : countBelow (2 ^ 64) (fun x => decide (Sample.f2.keyBucket Sample.env (.slice (le 8 x)) = 1 ∧
    V2.keyProbe Sample.env (.slice (le 8 x)) 0 = 5)) * (Sample.f2.buckets.length * 32768) = 2 ^ 64 :=
  C82_first_bits Sample.env_small (.make Sample.f2_make) (b := 1) rfl (by decide) (by decide)

-- after an insertion, at most 2^64 / 5000 keys of eight bytes are members, and at most the share
-- of bits set
example (k : Key) : countBelow (2 ^ 64) (fun x => decide
    ((V2.inserts Sample.env Sample.f2 [k]).containsBytes Sample.env (le 8 x) = .ok true)) * (5000 : U64).toNat
      ≤ [k].length * 2 ^ 64 :=
  C82_cached Sample.f2_make (.inr rfl) (by decide) [k]

example : countBelow (2 ^ 64) (fun x => decide
    (Sample.f2.containsBytes Sample.env (le 8 x) = .ok true)) * (Sample.f2.buckets.length * 32768)
      ≤ Sample.f2.countOnes * 2 ^ 64 :=
  C82_members Sample.env_small (.make Sample.f2_make) (b := 1) rfl (by decide)

example : countBelow (2 ^ 64) (fun x => decide
    (Sample.f2.containsBytes Sample.env (le 8 x) = .ok true)) * 2 ^ 13
      ≤ countBelow (2 ^ 13) (bitAt Sample.f2.indexCache.asSlice) * 2 ^ 64 := by
  have hl : Sample.f2.indexCache.asSlice.length * 8 = 2 ^ 13 := by
    simp only [Sample.f2, VecBitSet.withBitCapacity, VecBitSet.asSlice, List.length_replicate]
    decide +kernel
  have := C82_members_cache (.make Sample.f2_make) hl
  rwa [hl] at this

-- a filter with every other bit set answers true for exactly half of the keys of eight bytes
example : countBelow (2 ^ 64) (fun x => decide
    ((Sample.oneHash 0x55#8).containsBytes Sample.env (le 8 x) = .ok true))
        * ((Sample.oneHash 0x55#8).buckets.length * 32768)
      = (Sample.oneHash 0x55#8).countOnes * 2 ^ 64 :=
  C82_members_exact Sample.env_small (Sample.oneHash_reach _) (b := 1) rfl rfl (by decide) rfl

end Poppy
