import Verif.Lemmas.Average
import Verif.Props.Spread

/-!
# Average number of bits set (C83)

The keys inserted are drawn from any finite collection of keys; nothing is assumed about the hash
function.
-/

namespace Poppy
open Spec Finset

namespace V2

/-- Bit `i` of bucket `b` is one of the bits of a key. -/
def Covers (env : Env) (f : V2) (k : Key) (c : ℕ × ℕ) : Prop :=
  c.1 = f.keyBucket env k ∧ ∃ n < f.nHashBuck.toNat, c.2 = keyProbe env k n

instance (env : Env) (f : V2) (k : Key) (c : ℕ × ℕ) : Decidable (Covers env f k c) :=
  inferInstanceAs (Decidable (_ ∧ ∃ n < f.nHashBuck.toNat, c.2 = keyProbe env k n))

theorem covers_congr (env : Env) {f g : V2} (s : Shape f g) (k : Key) (c : ℕ × ℕ) :
    Covers env g k c ↔ Covers env f k c := by
  unfold Covers keyBucket
  rw [s.blen, s.nHash]

/-- The bits after insertions are among those of the keys. -/
theorem inserts_bits {env : Env} {f : V2} (hf : Reach env f) (ks : List Key) :
    Reach env (inserts env f ks) ∧ Shape f (inserts env f ks) ∧
    ∀ b i, (inserts env f ks).bucketBit b i = true →
      f.bucketBit b i = true ∨ ∃ k ∈ ks, Covers env f k (b, i) := by
  induction ks generalizing f with
  | nil => exact ⟨hf, Shape.refl f, fun b i h => .inl h⟩
  | cons k ks ih =>
    have hf' : Reach env (f.insert env k).1 := Reach.insertIter _ hf
    have s := (insert_ext env f k).toShape
    obtain ⟨h1, h2, h3⟩ := ih hf'
    refine ⟨h1, s.trans h2, fun b i h => ?_⟩
    rcases h3 b i h with h4 | ⟨k', hk', h4⟩
    · rcases (C13_v2_step hf k).2.1 b i h4 with h5 | h5
      · exact .inl h5
      · exact .inr ⟨k, by simp, h5⟩
    · exact .inr ⟨k', by simp [hk'], (covers_congr env s _ _).1 h4⟩

/-- As long as the capacity is not reached, they are exactly those of the keys. -/
theorem inserts_bits_iff {env : Env} {f : V2} (hf : Reach env f) (hb : f.buckets ≠ [])
    (ks : List Key) (hc : f.count.toNat + ks.length ≤ f.capacity.toNat) (b i : ℕ) :
    (inserts env f ks).bucketBit b i = true ↔
      f.bucketBit b i = true ∨ ∃ k ∈ ks, Covers env f k (b, i) := by
  refine ⟨(inserts_bits hf ks).2.2 b i, ?_⟩
  induction ks generalizing f with
  | nil => rintro (h | ⟨_, h, _⟩); exacts [h, absurd h (by simp)]
  | cons k ks ih =>
    rw [List.length_cons] at hc
    have hcap : f.capacity ≠ 0 := by
      intro h0
      have : f.capacity.toNat = 0 := by rw [h0]; rfl
      omega
    have hne : f.count ≠ f.capacity := by
      intro h0
      rw [h0] at hc
      omega
    have hlt := f.capacity.isLt
    have hov : ¬ CountOverflow env f := by
      unfold CountOverflow
      omega
    have hins : f.insert env k = (added env f (k.hashPop env.wy), .ok (!allSet env f (k.hashPop env.wy))) := by
      rw [insert_cases env hf.wf k hcap hb, if_neg (by tauto), if_neg (by tauto)]
    have hf' : Reach env (f.insert env k).1 := Reach.insertIter _ hf
    have s := (insert_ext env f k).toShape
    have hcnt : (f.insert env k).1.count.toNat ≤ f.count.toNat + 1 := by
      rw [hins]
      unfold added
      simp only
      split
      · omega
      · rw [BitVec.toNat_add, show (1 : U64).toNat = 1 from rfl, Nat.mod_eq_of_lt (by omega)]
    have hb' : (f.insert env k).1.buckets ≠ [] := by
      have := s.blen
      intro h0
      rw [h0] at this
      exact hb (List.length_eq_zero_iff.1 this.symm)
    have hbit : ∀ b i, (f.insert env k).1.bucketBit b i = true ↔
        f.bucketBit b i = true ∨ Covers env f k (b, i) := by
      intro b i
      rw [hins]
      show (added env f (k.hashPop env.wy)).bit b i = true ↔ f.bit b i = true ∨ _
      rw [bit_added env hb]
      unfold Covers
      simp only [Bool.or_eq_true, Bool.and_eq_true, decide_eq_true_eq]
      rw [keyBucket_eq]
      rfl
    intro h
    refine ih hf' hb' (by rw [s.capacity]; omega) ?_
    rcases h with h | ⟨k', hk', h⟩
    · exact .inl ((hbit b i).2 (.inl h))
    · rcases List.mem_cons.1 hk' with rfl | hk'
      · exact .inl ((hbit b i).2 (.inr h))
      · exact .inr ⟨k', hk', (covers_congr env s _ _).2 h⟩

theorem card_covers (env : Env) (f : V2) (k : Key) (cells : Finset (ℕ × ℕ)) :
    (cells.filter (Covers env f k)).card ≤ f.nHashBuck.toNat := by
  have : cells.filter (Covers env f k)
      ⊆ (range f.nHashBuck.toNat).image fun n => (f.keyBucket env k, keyProbe env k n) := by
    intro c hc
    obtain ⟨_, h1, n, hn, h2⟩ := mem_filter.1 hc
    exact mem_image.2 ⟨n, mem_range.2 hn, Prod.ext h1.symm h2.symm⟩
  refine (card_le_card this).trans (card_image_le.trans ?_)
  rw [card_range]

end V2

/-- The number of bits set by `n` insertions of keys drawn from `N` keys, on average over the `N^n`
possible draws: at most `m (1 - (1 - k/m)^n)` for `m` bits and `k` hash functions. -/
theorem C83_v2 {env : Env} {cap : U64} {fpp : F64} {opt : OptLevel} {f : V2}
    (h : V2.make env cap fpp opt = .ok f) (hb : f.buckets ≠ [])
    (hk : f.nHashBuck.toNat ≤ f.buckets.length * 32768)
    {N : ℕ} (hN : 0 < N) (keys : Fin N → Key) (n : ℕ) :
    (∑ t : Fin n → Fin N, ((V2.inserts env f (List.ofFn fun j => keys (t j))).countOnes : ℝ)) / N ^ n
      ≤ (f.buckets.length * 32768 : ℕ)
          * (1 - (1 - f.nHashBuck.toNat / (f.buckets.length * 32768 : ℕ) : ℝ) ^ n) := by
  set cells := range f.buckets.length ×ˢ range 32768 with hcells
  have hm : cells.card = f.buckets.length * 32768 := by
    rw [hcells, card_product, card_range, card_range]
  have h0 : 0 < f.buckets.length * 32768 := by
    have := List.length_pos_iff.2 hb
    omega
  refine le_trans ?_ (average_hit_le cells hm h0 hN n (fun x c => V2.Covers env f (keys x) c)
    (fun x => V2.card_covers env f (keys x) cells) hk)
  apply div_le_div_of_nonneg_right _ (by positivity)
  apply sum_le_sum
  intro t _
  obtain ⟨_, s, hbits⟩ := V2.inserts_bits (V2.Reach.make h) (List.ofFn fun j => keys (t j))
  rw [← V2.card_setBits]
  have : (V2.inserts env f (List.ofFn fun j => keys (t j))).setBits
      ⊆ cells.filter fun c => ∃ j, V2.Covers env f (keys (t j)) c := by
    intro c hc
    obtain ⟨h1, h2⟩ := mem_filter.1 hc
    rw [s.blen] at h1
    refine mem_filter.2 ⟨h1, ?_⟩
    rcases hbits c.1 c.2 h2 with h3 | ⟨k, hk, h3⟩
    · exact absurd ((V2.make_bit h c.1 c.2).symm.trans h3) (by simp)
    · obtain ⟨j, rfl⟩ := List.mem_ofFn.1 hk
      exact ⟨j, h3⟩
  exact_mod_cast card_le_card this

/-- As long as the capacity is not exceeded, the total over the draws is known exactly: a bit
shared by `a` of the `N` keys is set by all but `(N - a)^n` of the `N^n` draws. -/
theorem C83_v2_exact {env : Env} {cap : U64} {fpp : F64} {opt : OptLevel} {f : V2}
    (h : V2.make env cap fpp opt = .ok f) (hb : f.buckets ≠ []) {N : ℕ} (keys : Fin N → Key)
    {n : ℕ} (hn : n ≤ cap.toNat) :
    ∑ t : Fin n → Fin N, (V2.inserts env f (List.ofFn fun j => keys (t j))).countOnes
      = ∑ b ∈ range f.buckets.length, ∑ i ∈ range 32768,
          (N ^ n - (N - ((univ : Finset (Fin N)).filter fun x => f.keyBucket env (keys x) = b ∧
            ∃ j < f.nHashBuck.toNat, V2.keyProbe env (keys x) j = i).card) ^ n) := by
  have hcap : f.capacity = cap := by
    obtain ⟨_, _, _, _, _, _, _, rfl⟩ := V2.make_ok h
    rfl
  have hcount : f.count = 0 := (V2.make_countOnes h).2
  have hs := sum_hit (range f.buckets.length ×ˢ range 32768) n
    (fun x c => V2.Covers env f (keys x) c)
  rw [sum_product] at hs
  have e : ∀ b i, ((univ : Finset (Fin N)).filter fun x => f.keyBucket env (keys x) = b ∧
      ∃ j < f.nHashBuck.toNat, V2.keyProbe env (keys x) j = i)
      = (univ : Finset (Fin N)).filter fun x => V2.Covers env f (keys x) (b, i) := by
    intro b i
    apply filter_congr
    intro x _
    unfold V2.Covers
    simp only [eq_comm]
  simp only [e]
  rw [← hs]
  apply sum_congr rfl
  intro t _
  have hr := V2.Reach.make h
  have s := (V2.inserts_bits hr (List.ofFn fun j => keys (t j))).2.1
  rw [← V2.card_setBits]
  unfold V2.setBits
  rw [s.blen]
  refine congrArg card (filter_congr fun c _ => ?_)
  rw [V2.inserts_bits_iff hr hb _ (by rw [hcount, hcap, List.length_ofFn]; simpa using hn)]
  constructor
  · rintro (h3 | ⟨k, hk, h3⟩)
    · exact absurd ((V2.make_bit h c.1 c.2).symm.trans h3) (by simp)
    · obtain ⟨j, rfl⟩ := List.mem_ofFn.1 hk
      exact ⟨j, h3⟩
  · rintro ⟨j, h3⟩
    exact .inr ⟨_, List.mem_ofFn.2 ⟨j, rfl⟩, h3⟩

/-- So, with a power of two of buckets, on average over the draws at most the share
`1 - (1 - k/m)^n` of the keys of eight bytes are members afterwards. -/
theorem C83_v2_members {env : Env} (hs : env.Small) {cap : U64} {fpp : F64} {opt : OptLevel} {f : V2}
    (h : V2.make env cap fpp opt = .ok f) {b : ℕ} (hb : f.buckets.length = 2 ^ b)
    (hk0 : f.nHashBuck ≠ 0) (hk : f.nHashBuck.toNat ≤ f.buckets.length * 32768)
    {N : ℕ} (hN : 0 < N) (keys : Fin N → Key) (n : ℕ) :
    (∑ t : Fin n → Fin N, (countBelow (2 ^ 64) (fun x => decide
        ((V2.inserts env f (List.ofFn fun j => keys (t j))).containsBytes env (le 8 x) = .ok true))
          / 2 ^ 64 : ℝ)) / N ^ n
      ≤ 1 - (1 - f.nHashBuck.toNat / (f.buckets.length * 32768 : ℕ) : ℝ) ^ n := by
  have hne := V2.buckets_ne hb
  have hm : 0 < f.buckets.length * 32768 := by
    have := List.length_pos_iff.2 hne
    omega
  have hmR : (0 : ℝ) < (f.buckets.length * 32768 : ℕ) := by exact_mod_cast hm
  have h1 := C83_v2 h hne hk hN keys n
  refine le_of_mul_le_mul_left (le_trans ?_ h1) hmR
  rw [← mul_div_assoc, mul_sum]
  apply div_le_div_of_nonneg_right _ (by positivity)
  apply sum_le_sum
  intro t _
  obtain ⟨hr, s, _⟩ := V2.inserts_bits (V2.Reach.make h) (List.ofFn fun j => keys (t j))
  have h2 := C82_members hs hr (by rw [s.blen]; exact hb) (by rw [s.nHash]; exact hk0)
  rw [s.blen] at h2
  have h3 : ((countBelow (2 ^ 64) (fun x => decide
      ((V2.inserts env f (List.ofFn fun j => keys (t j))).containsBytes env (le 8 x) = .ok true))
        * (f.buckets.length * 32768) : ℕ) : ℝ)
      ≤ ((V2.inserts env f (List.ofFn fun j => keys (t j))).countOnes * 2 ^ 64 : ℕ) := by
    exact_mod_cast h2
  rw [Nat.cast_mul, Nat.cast_mul _ (2 ^ 64)] at h3
  rw [← mul_div_assoc, div_le_iff₀ (by positivity), mul_comm]
  refine h3.trans (le_of_eq ?_)
  norm_num

/-! ## v1 -/

namespace V1

theorem inserts_bits {env : Env} (hs : env.Small) {f : V1} (hf : Reach env f) (ks : List (List U8)) :
    Reach env (inserts env f ks) ∧ Shape f (inserts env f ks) ∧
    ∀ i, bitAt (inserts env f ks).bitset i = true →
      bitAt f.bitset i = true ∨ ∃ k ∈ ks, ∃ n < f.nHash.toNat, i = dcsoProbe k f.bitSize.toNat n := by
  induction ks generalizing f with
  | nil => exact ⟨hf, Shape.refl f, fun i h => .inl h⟩
  | cons k ks ih =>
    have s := (insertBytes_ext env f k).toShape
    obtain ⟨h1, h2, h3⟩ := ih (f := (f.insertBytes env k).1) (Reach.insert k hf)
    refine ⟨h1, s.trans h2, fun i h => ?_⟩
    rcases h3 i h with h4 | ⟨k', hk', h4⟩
    · rcases (C13_v1_step hs hf k).2.1 i h4 with h5 | h5
      · exact .inl h5
      · exact .inr ⟨k, by simp, h5⟩
    · rw [s.nHash, s.bitSize] at h4
      exact .inr ⟨k', by simp [hk'], h4⟩

end V1

/-- Same for v1. -/
theorem C83_v1 {env : Env} (hs : env.Small) {cap : U64} {fpp : F64} {f : V1}
    (h : V1.withCapacity env cap fpp = .ok f) (hb : f.bitSize ≠ 0)
    (hk : f.nHash.toNat ≤ f.bitSize.toNat) {N : ℕ} (hN : 0 < N) (keys : Fin N → List U8) (n : ℕ) :
    (∑ t : Fin n → Fin N, ((V1.inserts env f (List.ofFn fun j => keys (t j))).countOnes : ℝ)) / N ^ n
      ≤ f.bitSize.toNat * (1 - (1 - f.nHash.toNat / f.bitSize.toNat : ℝ) ^ n) := by
  have h0 : 0 < f.bitSize.toNat := by
    rcases Nat.eq_zero_or_pos f.bitSize.toNat with h0 | h0
    · exact absurd (BitVec.eq_of_toNat_eq h0) hb
    · exact h0
  have hcov : ∀ x : Fin N, ((range f.bitSize.toNat).filter fun i =>
      ∃ m < f.nHash.toNat, i = dcsoProbe (keys x) f.bitSize.toNat m).card ≤ f.nHash.toNat := by
    intro x
    have : ((range f.bitSize.toNat).filter fun i =>
        ∃ m < f.nHash.toNat, i = dcsoProbe (keys x) f.bitSize.toNat m)
        ⊆ (range f.nHash.toNat).image fun m => dcsoProbe (keys x) f.bitSize.toNat m := by
      intro c hc
      obtain ⟨_, m, hm, h2⟩ := mem_filter.1 hc
      exact mem_image.2 ⟨m, mem_range.2 hm, h2.symm⟩
    refine (card_le_card this).trans (card_image_le.trans ?_)
    rw [card_range]
  refine le_trans ?_ (average_hit_le (range f.bitSize.toNat) (card_range _) h0 hN n
    (fun x i => ∃ m < f.nHash.toNat, i = dcsoProbe (keys x) f.bitSize.toNat m) hcov hk)
  apply div_le_div_of_nonneg_right _ (by positivity)
  apply sum_le_sum
  intro t _
  obtain ⟨_, s, hbits⟩ := V1.inserts_bits hs (V1.Reach.make h) (List.ofFn fun j => keys (t j))
  rw [V1.countOnes_eq, countBelow_card]
  have : ((range ((V1.inserts env f (List.ofFn fun j => keys (t j))).bitset.length * 64)).filter
        fun i => bitAt (V1.inserts env f (List.ofFn fun j => keys (t j))).bitset i = true)
      ⊆ (range f.bitSize.toNat).filter fun i =>
          ∃ j, ∃ m < f.nHash.toNat, i = dcsoProbe (keys (t j)) f.bitSize.toNat m := by
    intro i hi
    obtain ⟨_, h2⟩ := mem_filter.1 hi
    rcases hbits i h2 with h3 | ⟨k, hk, m, hm, h3⟩
    · exact absurd ((V1.make_bit h i).symm.trans h3) (by simp)
    · obtain ⟨j, rfl⟩ := List.mem_ofFn.1 hk
      refine mem_filter.2 ⟨mem_range.2 ?_, j, m, hm, h3⟩
      rw [h3]
      exact Nat.mod_lt _ h0
  exact_mod_cast card_le_card this

/-! ## Samples -/

-- a fair coin tossed twice between two keys
example (k1 k2 : Key) :
    (∑ t : Fin 2 → Fin 2, ((V2.inserts Sample.env Sample.f2
      (List.ofFn fun j => (![k1, k2] : Fin 2 → Key) (t j))).countOnes : ℝ)) / (2 : ℕ) ^ 2
      ≤ (Sample.f2.buckets.length * 32768 : ℕ)
        * (1 - (1 - Sample.f2.nHashBuck.toNat / (Sample.f2.buckets.length * 32768 : ℕ) : ℝ) ^ 2) :=
  C83_v2 Sample.f2_make (by simp [Sample.f2])
    (by rw [show Sample.f2.buckets.length = 2 from rfl, show Sample.f2.nHashBuck.toNat = 4 from rfl]
        norm_num) (by norm_num) _ 2

-- the hypotheses of the other theorems
example : Sample.f2.buckets ≠ [] ∧ 2 ≤ (5000 : U64).toNat ∧ Sample.f2.buckets.length = 2 ^ 1 ∧
    Sample.f2.nHashBuck ≠ 0 := ⟨by simp [Sample.f2], by decide, rfl, by decide⟩

example (keys : Fin 3 → List U8) :
    (∑ t : Fin 10 → Fin 3, ((V1.inserts Sample.env Sample.f1
      (List.ofFn fun j => keys (t j))).countOnes : ℝ)) / (3 : ℕ) ^ 10
      ≤ Sample.f1.bitSize.toNat
        * (1 - (1 - Sample.f1.nHash.toNat / Sample.f1.bitSize.toNat : ℝ) ^ 10) :=
  C83_v1 Sample.env_small Sample.f1_make (by decide) (by decide) (by norm_num) keys 10

end Poppy
