import Verif.Props.Misc
import Verif.Props.Membership

/-! # What a v2 filter can tell apart (C77) -/

namespace Poppy

open Spec

/-! ### Helpers -/

/-- The low 15 bits of the two hashes of a key. -/
def keyClass (env : Env) (k : Key) : Fin 32768 × Fin 32768 :=
  (⟨(k.hashPop env.wy).toNat % 32768, Nat.mod_lt _ (by norm_num)⟩,
    ⟨(digest env.wy (u64ToBe (k.hashPop env.wy))).toNat % 32768, Nat.mod_lt _ (by norm_num)⟩)

theorem keyProbe_class (env : Env) (k : Key) (n : ℕ) :
    V2.keyProbe env k n = poppyProbe (keyClass env k).1 (keyClass env k).2 n :=
  (poppyProbe_mod _ _ n).symm

/-! ## C77 -/

/-- Two keys with the same bucket, the same index cache bit and the same low 15 bits of both hashes
are members of the same filters. -/
theorem C77_indistinguishable {env : Env} {f : V2} (hf : V2.Reach env f) (hb : f.buckets ≠ [])
    {q q' : Key} (h1 : f.keyBucket env q = f.keyBucket env q')
    (h2 : keyClass env q = keyClass env q') (h3 : f.keyCache env q = f.keyCache env q') :
    f.contains env q = .ok true ↔ f.contains env q' = .ok true := by
  rw [C65_v2_member hf hb, C65_v2_member hf hb]
  simp only [keyProbe_class, h1, h2, h3]

/-- After inserting keys of `d` different classes into a bucket, at least `d` of its `2^30` classes
are accepted by the bucket. -/
theorem C77_floor {env : Env} (hs : env.Small) {f : V2} {S : List Key} (h : V2.Holds env f S)
    (b : ℕ) :
    ((S.filter (f.keyBucket env · = b)).map (keyClass env)).toFinset.card
      ≤ Fintype.card {t : Fin 32768 × Fin 32768 //
          ∀ n < f.nHashBuck.toNat, f.bucketBit b (poppyProbe t.1 t.2 n) = true} := by
  refine toFinset_card_le fun t ht => ?_
  rw [List.mem_map] at ht
  obtain ⟨k, hk, rfl⟩ := ht
  rw [List.mem_filter, decide_eq_true_iff] at hk
  intro n hn
  rw [← keyProbe_class]
  exact ((C03_v2_bits hs h).1 b _).2 ⟨k, hk.1, hk.2.symm, n, hn, rfl⟩

/-- A key is a member exactly when its class is accepted by its bucket (without index cache). -/
theorem C77_member {env : Env} {f : V2} (hf : V2.Reach env f) (hb : f.buckets ≠ [])
    (hc : f.capacity ≠ 0) (hi : f.indexCache.asSlice = []) (q : Key) :
    f.contains env q = .ok true ↔ ∀ n < f.nHashBuck.toNat, f.bucketBit (f.keyBucket env q)
      (poppyProbe (keyClass env q).1 (keyClass env q).2 n) = true := by
  rw [C65_v2_member hf hb]
  simp only [keyProbe_class]
  exact ⟨fun h n hn => h.2.1 ⟨n, hn⟩, fun h => ⟨hc, fun j => h j j.2, fun hn => absurd hi hn⟩⟩

/-- So the share of accepted classes is at least `d / 2^30`, however small the requested
probability: one key is enough to exceed every probability below `2^-30`. -/
theorem C77_share {env : Env} (hs : env.Small) {f : V2} {S : List Key} (h : V2.Holds env f S)
    {k : Key} (hk : k ∈ S) {p : ℚ} (hp : p < 1 / 2 ^ 30) :
    p < (Fintype.card {t : Fin 32768 × Fin 32768 // ∀ n < f.nHashBuck.toNat,
          f.bucketBit (f.keyBucket env k) (poppyProbe t.1 t.2 n) = true} : ℚ)
        / Fintype.card (Fin 32768 × Fin 32768) := by
  have h1 := C77_floor hs h (f.keyBucket env k)
  have h2 : 1 ≤ ((S.filter (f.keyBucket env · = f.keyBucket env k)).map
      (keyClass env)).toFinset.card := by
    rw [Nat.one_le_iff_ne_zero, Finset.card_ne_zero]
    exact ⟨keyClass env k, List.mem_toFinset.2 (List.mem_map.2 ⟨k, List.mem_filter.2
      ⟨hk, by simp⟩, rfl⟩)⟩
  have h3 := h2.trans h1
  have e : (Fintype.card (Fin 32768 × Fin 32768) : ℚ) = 2 ^ 30 := by
    rw [Fintype.card_prod, Fintype.card_fin]; norm_num
  rw [e]
  refine hp.trans_le (div_le_div_of_nonneg_right ?_ (by norm_num))
  exact_mod_cast h3

/-- On the other hand, with at least two hash functions the share of accepted classes is at most
the square of the share of bits set: the first two probes are independent. -/
theorem C77_ceiling (f : V2) (b : ℕ) (hk : 2 ≤ f.nHashBuck.toNat) :
    (Fintype.card {t : Fin 32768 × Fin 32768 // ∀ n < f.nHashBuck.toNat,
        f.bucketBit b (poppyProbe t.1 t.2 n) = true} : ℚ) / Fintype.card (Fin 32768 × Fin 32768)
      ≤ (countBelow 32768 (f.bucketBit b) / 32768 : ℚ) ^ 2 := by
  rw [← C65_v2_fraction f b 2]
  have e1 : Fintype.card (Fin 32768 × Fin 32768) = Fintype.card (Fin 2 → Fin 32768) := by
    rw [Fintype.card_prod, Fintype.card_fun, Fintype.card_fin, Fintype.card_fin]; norm_num
  rw [e1]
  refine div_le_div_of_nonneg_right (Nat.cast_le.2 ?_) (Nat.cast_nonneg _)
  refine Fintype.card_le_of_injective (fun t => ⟨![t.1.1, t.1.1 + t.1.2], fun j => ?_⟩) ?_
  · match j with
    | 0 =>
      have := t.2 0 (by omega)
      rw [show poppyProbe t.1.1 t.1.2 0 = t.1.1.val by
        unfold poppyProbe; have := t.1.1.isLt; simp [Nat.choose]] at this
      exact this
    | 1 =>
      have := t.2 1 (by omega)
      rw [show poppyProbe t.1.1 t.1.2 1 = (t.1.1 + t.1.2).val by
        unfold poppyProbe; rw [Fin.val_add]; simp [Nat.choose]] at this
      exact this
  · intro s t h
    have h0 := congrFun (congrArg Subtype.val h) 0
    have h1 := congrFun (congrArg Subtype.val h) 1
    simp only [Matrix.cons_val_zero, Matrix.cons_val_one] at h0 h1
    rw [h0] at h1
    exact Subtype.ext (Prod.ext h0 (add_left_cancel h1))

-- a filter with one key, and two keys it cannot tell apart
example (g : V2) (k : Key) (b : Bool) (hi : Sample.f2.insert Sample.env k = (g, .ok b)) :
    (1 / 2 ^ 31 : ℚ) < (Fintype.card {t : Fin 32768 × Fin 32768 // ∀ n < g.nHashBuck.toNat,
          g.bucketBit (g.keyBucket Sample.env k) (poppyProbe t.1 t.2 n) = true} : ℚ)
        / Fintype.card (Fin 32768 × Fin 32768) :=
  C77_share Sample.env_small (.insert (.make Sample.f2_make) hi) (List.mem_singleton.2 rfl)
    (by norm_num)
example : keyClass Sample.env (.slice [1#8, 0#8, 1#8]) = keyClass Sample.env (.slice [1#8, 0#8, 2#8]) := by
  decide +kernel

end Poppy
