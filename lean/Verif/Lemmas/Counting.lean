import Verif.Lemmas.Members

/-! # Lemmas on sequences of insertions -/

namespace Poppy

open Spec (bitAt dcsoProbe countBelow)

theorem countBelow_or_mem (n : ℕ) (p : ℕ → Bool) (l : List ℕ) :
    countBelow n (fun i => p i || decide (i ∈ l)) ≤ countBelow n p + l.length := by
  have h := countBelow_or_and n p (fun i => decide (i ∈ l))
  have h2 : countBelow n (fun i => decide (i ∈ l)) ≤ l.length := by
    unfold countBelow
    rw [List.countP_eq_length_filter]
    have hn : ((List.range n).filter fun i => decide (i ∈ l)).Nodup := List.nodup_range.filter _
    have hs : ((List.range n).filter fun i => decide (i ∈ l)) ⊆ l := by
      intro x hx
      simpa using (List.mem_filter.1 hx).2
    exact (List.Nodup.subperm hn hs).length_le
  omega

theorem sum_map_set_le {α : Type} (g : α → ℕ) (l : List α) (i : ℕ) (a : α) (m : ℕ)
    (h : ∀ b, l[i]? = some b → g a ≤ g b + m) :
    ((l.set i a).map g).sum ≤ (l.map g).sum + m := by
  induction l generalizing i with
  | nil => simp
  | cons x l ih =>
    cases i with
    | zero =>
      have := h x rfl
      simp only [List.set_cons_zero, List.map_cons, List.sum_cons]
      omega
    | succ i =>
      have := ih i (by simpa using h)
      simp only [List.set_cons_succ, List.map_cons, List.sum_cons]
      omega

theorem countBelow_mem (n : ℕ) (l : List ℕ) (hn : l.Nodup) (hl : ∀ p ∈ l, p < n) :
    countBelow n (fun i => decide (i ∈ l)) = l.length := by
  unfold countBelow
  rw [List.countP_eq_length_filter]
  apply List.Perm.length_eq
  rw [List.perm_ext_iff_of_nodup (List.nodup_range.filter _) hn]
  intro a
  simp only [List.mem_filter, List.mem_range, decide_eq_true_eq]
  exact ⟨fun h => h.2, fun h => ⟨hl a h, h⟩⟩

theorem countOnes_setAll_new (ps : List ℕ) (hn : ps.Nodup) (hl : ∀ p ∈ ps, p < 32768) :
    (setAll (BitSet.new _) ps).countOnes = ps.length := by
  rw [BitSet.countOnes_eq, ← countBelow_mem (BUCKET_SIZE * 8) ps hn hl]
  apply countBelow_congr
  intro i _
  rw [bitAt_setAll _ _ hl, BitSet.bitAt_new, Bool.false_or]

theorem union_setAll_new (ps qs : List ℕ) (hp : ∀ p ∈ ps, p < 32768) (hq : ∀ p ∈ qs, p < 32768) :
    (setAll (BitSet.new _) ps).union (setAll (BitSet.new _) qs)
      = setAll (BitSet.new _) (ps ++ qs) := by
  apply BitSet.ext_bits
  intro i _
  rw [BitSet.bitAt_union, bitAt_setAll _ _ hp, bitAt_setAll _ _ hq, bitAt_setAll, BitSet.bitAt_new]
  · simp
  · intro p h
    rcases List.mem_append.1 h with h | h
    · exact hp p h
    · exact hq p h

namespace V2

/-- Bucket of the union of two filters with one bucket, holding one key each. -/
theorem orBits_added_buckets (env : Env) {f : V2} (hf : f.buckets = [BitSet.new _]) (h1 h2 : U64) :
    (orBits (added env f h1) (added env f h2)).buckets = [setAll (BitSet.new _)
      ((List.range f.nHashBuck.toNat).map (probe env h1)
        ++ (List.range f.nHashBuck.toNat).map (probe env h2))] := by
  have hb : ∀ h, (added env f h).buckets
      = [setAll (BitSet.new _) ((List.range f.nHashBuck.toNat).map (probe env h))] := by
    intro h
    have h0 : f.bucketOf h = 0 := by simp [bucketOf, hf, Nat.mod_one]
    show f.buckets.set (f.bucketOf h) _ = _
    rw [h0, hf]
    rfl
  show List.zipWith BitSet.union (added env f h1).buckets (added env f h2).buckets = _
  rw [hb, hb]
  show [BitSet.union _ _] = _
  rw [union_setAll_new]
  · intro p hp
    obtain ⟨n, _, rfl⟩ := List.mem_map.1 hp
    exact probe_lt env _ n
  · intro p hp
    obtain ⟨n, _, rfl⟩ := List.mem_map.1 hp
    exact probe_lt env _ n

/-- Union of two copies of a filter with one empty bucket, holding one key each. -/
theorem unionMerge_added {env : Env} {f : V2} (hf : f.buckets = [BitSet.new _]) (h1 h2 c : U64)
    (hn : FVal.feq (FVal.ofBits f.fpp) (FVal.ofBits f.fpp) = true) {ps : List ℕ}
    (hps : (List.range f.nHashBuck.toNat).map (probe env h1)
        ++ (List.range f.nHashBuck.toNat).map (probe env h2) = ps) (hd : ps.Nodup)
    (hc : sumU64 env.debug [bucketEstimate env f.nHashBuck ps.length] = .ok c) :
    ∃ g, (added env f h1).unionMerge env (added env f h2) = (g, .ok ()) ∧
      g.nHashBuck = f.nHashBuck ∧ g.capacity = f.capacity ∧ g.count = c ∧
      g.buckets = [setAll (BitSet.new _) ps] := by
  have hp : (added env f h1).hasSameParams (added env f h2) = true := by
    rw [hasSameParams_iff]
    exact ⟨rfl, rfl, by rw [added_cache_length, added_cache_length], hn, rfl,
      by rw [added_length, added_length]⟩
  have hbk := orBits_added_buckets env hf h1 h2
  rw [hps] at hbk
  have hlt : ∀ p ∈ ps, p < 32768 := by
    intro p hp
    rw [← hps] at hp
    rcases List.mem_append.1 hp with hp | hp <;>
    · obtain ⟨n, _, rfl⟩ := List.mem_map.1 hp
      exact probe_lt env _ n
  have hs : sumU64 env.debug ((orBits (added env f h1) (added env f h2)).buckets.map fun b =>
      bucketEstimate env (orBits (added env f h1) (added env f h2)).nHashBuck b.countOnes)
      = .ok c := by
    rw [hbk, List.map_singleton, countOnes_setAll_new _ hd hlt]
    exact hc
  refine ⟨{ orBits (added env f h1) (added env f h2) with count := c }, ?_, rfl, rfl, rfl, hbk⟩
  rw [unionMerge_eq, if_pos hp]
  unfold updateCount
  rw [hs]

theorem insert_fst_of_ok {env : Env} {f : V2} (w : f.WF) {k : Key} {b : Bool}
    (h : (f.insert env k).2 = .ok b) : (f.insert env k).1 = added env f (k.hashPop env.wy) :=
  (insert_ok env w (k := k) (show f.insert env k = ((f.insert env k).1, Res.ok b) by rw [← h])).2.2.1

theorem Built.insert_union {env : Env} {f : V2} (hf : Built env f) (k₁ k₂ : Key) :
    Built env ((f.insert env k₁).1.unionMerge env (f.insert env k₂).1).1 :=
  .union _ (.insertIter _ hf)

theorem bucketBit_eq (f : V2) (b i : ℕ) : f.bucketBit b i = f.bit b i := rfl

theorem allSet_key (env : Env) (f : V2) (k : Key) :
    allSet env f (k.hashPop env.wy) = true ↔ ∀ n < f.nHashBuck.toNat, f.keyBit env k n = true := by
  rw [allSet_iff]
  simp only [keyBit, bucketBit_eq, keyBucket_eq, keyProbe_eq]

theorem not_allSet_key (env : Env) (f : V2) (k : Key) :
    allSet env f (k.hashPop env.wy) = false ↔
      ∃ n < f.nHashBuck.toNat, f.keyBit env k n = false := by
  rw [← Bool.not_eq_true, allSet_key]
  simp

/-- Filters with the same bits have the same buckets. -/
theorem buckets_ext {f g : V2} (hl : f.buckets.length = g.buckets.length)
    (h : ∀ b i, f.bit b i = g.bit b i) : f.buckets = g.buckets := by
  apply List.ext_getElem hl
  intro b h1 h2
  apply BitSet.ext_bits
  intro i _
  have := h b i
  unfold bit at this
  simpa [List.getD_eq_getElem?_getD, h1, h2] using this

theorem cache_ext {f g : V2} (hl : f.indexCache.asSlice.length = g.indexCache.asSlice.length)
    (h : ∀ i, bitAt f.indexCache.asSlice i = bitAt g.indexCache.asSlice i) :
    f.indexCache = g.indexCache := VecBitSet.ext_bits hl (fun i _ => h i)

theorem added_buckets_self (env : Env) {f : V2} (hb : f.buckets ≠ []) {h : U64}
    (ha : allSet env f h = true) : (added env f h).buckets = f.buckets := by
  apply buckets_ext (added_length _ _ _)
  intro b i
  rw [bit_added env hb, Bool.or_eq_left_iff_imp]
  intro hx
  simp only [Bool.and_eq_true, decide_eq_true_eq] at hx
  obtain ⟨rfl, n, hn, rfl⟩ := hx
  exact (allSet_iff env f h).1 ha n hn

/-- Adding a member changes nothing. -/
theorem added_self (env : Env) {f : V2} (w : f.WF) (hb : f.buckets ≠ []) {h : U64}
    (ha : allSet env f h = true) (hc : f.cacheOk h = true) : added env f h = f := by
  have h1 := added_buckets_self env hb ha
  have h2 : (added env f h).indexCache = f.indexCache := by
    cases he : f.indexCache.asSlice.isEmpty with
    | true => simp [added, he]
    | false =>
      apply cache_ext (added_cache_length _ _ _)
      intro i
      rw [cacheBit_added env w he, Bool.or_eq_left_iff_imp]
      intro hx
      rw [decide_eq_true_eq] at hx
      subst hx
      rcases (cacheOk_iff f h).1 hc with hc | hc
      · rw [hc] at he; simp at he
      · exact hc
  have h3 : added env f h = { f with
      buckets := (added env f h).buckets
      indexCache := (added env f h).indexCache
      count := if allSet env f h then f.count else f.count + 1 } := rfl
  rw [h3, h1, h2, if_pos ha]

/-- Insertion of a member. -/
theorem Has.insert {env : Env} {k : Key} {f : V2} (h : Has env k f) :
    f.insert env k = (f, .ok false) := by
  rw [insert_cases env h.reach.wf k h.cap h.buckets, h.all,
    added_self env h.reach.wf h.buckets h.all h.cache]
  simp

/-- The possible outcomes of an insertion when the count is at most the capacity. -/
theorem insert_step (env : Env) {f : V2} (w : f.WF) (hle : f.count.toNat ≤ f.capacity.toNat)
    (k : Key) :
    (f.insert env k = (f, .err .tooManyEntries) ∧
      (f.capacity = 0 ∨ f.capacity ≠ 0 ∧ f.buckets ≠ [] ∧ f.count = f.capacity ∧
        allSet env f (k.hashPop env.wy) = false)) ∨
    (f.insert env k = (f, .panic) ∧ f.capacity ≠ 0 ∧ f.buckets = []) ∨
    (f.insert env k = (added env f (k.hashPop env.wy), .ok (!allSet env f (k.hashPop env.wy))) ∧
      f.capacity ≠ 0 ∧ f.buckets ≠ [] ∧
      ¬ (f.count = f.capacity ∧ allSet env f (k.hashPop env.wy) = false)) := by
  by_cases hc : f.capacity = 0
  · exact Or.inl ⟨insert_noCap env k hc, Or.inl hc⟩
  by_cases hb : f.buckets = []
  · exact Or.inr (Or.inl ⟨insert_nil env k hc hb, hc, hb⟩)
  rw [insert_cases env w k hc hb]
  by_cases h1 : f.count = f.capacity ∧ allSet env f (k.hashPop env.wy) = false
  · rw [if_pos h1]
    exact Or.inl ⟨rfl, Or.inr ⟨hc, hb, h1⟩⟩
  · rw [if_neg h1, if_neg]
    · exact Or.inr (Or.inr ⟨rfl, hc, hb, h1⟩)
    · rintro ⟨⟨_, h2⟩, h3⟩
      have : f.count ≠ f.capacity := fun h => h1 ⟨h, h3⟩
      have h4 := f.capacity.isLt
      have : f.count.toNat ≠ f.capacity.toNat := fun h => this (BitVec.eq_of_toNat_eq h)
      omega

theorem added_count_of_new (env : Env) {f : V2} {h : U64} (hlt : f.count.toNat < f.capacity.toNat)
    (ha : allSet env f h = false) : (added env f h).count.toNat = f.count.toNat + 1 := by
  have h1 : (added env f h).count = f.count + 1 := by
    show (if allSet env f h = true then _ else _) = _
    rw [ha]; rfl
  rw [h1, BitVec.toNat_add, show (1 : U64).toNat = 1 from rfl]
  have := f.capacity.isLt
  exact Nat.mod_eq_of_lt (by omega)

theorem added_count_of_member (env : Env) {f : V2} {h : U64}
    (ha : allSet env f h = true) : (added env f h).count = f.count := by
  show (if allSet env f h = true then _ else _) = _
  rw [ha]; rfl

theorem count_lt {f : V2} (hle : f.count.toNat ≤ f.capacity.toNat) (h : f.count ≠ f.capacity) :
    f.count.toNat < f.capacity.toNat := by
  have : f.count.toNat ≠ f.capacity.toNat := fun h' => h (BitVec.eq_of_toNat_eq h')
  omega

theorem inserts_ext (env : Env) (f : V2) (ks : List Key) : Ext f (inserts env f ks) := by
  induction ks generalizing f with
  | nil => exact Ext.refl f
  | cons k ks ih => exact (insert_ext env f k).trans (ih _)

theorem inserts_append (env : Env) (f : V2) (a b : List Key) :
    inserts env f (a ++ b) = inserts env (inserts env f a) b := by
  induction a generalizing f with
  | nil => rfl
  | cons k a ih => exact ih _

theorem AllOk_append (env : Env) (f : V2) (a b : List Key) :
    AllOk env f (a ++ b) ↔ AllOk env f a ∧ AllOk env (inserts env f a) b := by
  induction a generalizing f with
  | nil => simp [AllOk, inserts]
  | cons k a ih =>
    simp only [List.cons_append, AllOk, inserts, ih, and_assoc]

theorem Reach.inserts {env : Env} {f : V2} (h : Reach env f) (ks : List Key) :
    Reach env (inserts env f ks) := by
  induction ks generalizing f with
  | nil => exact h
  | cons k ks ih => exact ih (f := (f.insert env k).1) (.insertIter _ h)

theorem Built.inserts {env : Env} {f : V2} (h : Built env f) (ks : List Key) :
    Built env (inserts env f ks) := by
  induction ks generalizing f with
  | nil => exact h
  | cons k ks ih => exact ih (f := (f.insert env k).1) (.insertIter _ h)

theorem accepted_cons (env : Env) (f : V2) (k : Key) (ks : List Key) :
    accepted env f (k :: ks) = if (f.insert env k).2 = .ok true then
      k :: accepted env (f.insert env k).1 ks else accepted env (f.insert env k).1 ks := by
  rw [accepted]
  obtain ⟨g, r⟩ := f.insert env k
  rcases r with (_ | _) | _ | _ <;> simp

theorem accepted_sublist (env : Env) (f : V2) (ks : List Key) :
    (accepted env f ks).Sublist ks := by
  induction ks generalizing f with
  | nil => exact .slnil
  | cons k ks ih =>
    rw [accepted_cons]
    split
    · exact (ih _).cons_cons k
    · exact (ih _).cons k

theorem not_accepted {env : Env} {f : V2} (w : f.WF) {k : Key}
    (ha : allSet env f (k.hashPop env.wy) = true) (ks : List Key) : k ∉ accepted env f ks := by
  induction ks generalizing f with
  | nil => simp [accepted]
  | cons k' ks ih =>
    have e := insert_ext env f k'
    have h1 := ih (e.wf w) (allSet_ext e ha)
    rw [accepted_cons]
    split
    · rename_i hi
      simp only [List.mem_cons, not_or]
      refine ⟨?_, h1⟩
      rintro rfl
      obtain ⟨_, _, _, h2, _⟩ := insert_ok env w
        (show f.insert env k = ((f.insert env k).1, .ok true) by rw [← hi])
      rw [ha] at h2
      simp at h2
    · exact h1

theorem accepted_nodup {env : Env} {f : V2} (w : f.WF) (ks : List Key) :
    (accepted env f ks).Nodup := by
  induction ks generalizing f with
  | nil => simp [accepted]
  | cons k ks ih =>
    have h1 := ih ((insert_ext env f k).wf w)
    rw [accepted_cons]
    split
    · rename_i hi
      refine List.nodup_cons.2 ⟨?_, h1⟩
      obtain ⟨_, hb, h2, _⟩ := insert_ok env w
        (show f.insert env k = ((f.insert env k).1, .ok true) by rw [← hi])
      apply not_accepted ((insert_ext env f k).wf w)
      rw [h2]
      exact allSet_added env hb _
    · exact h1

theorem accepted_length {env : Env} {f : V2} (w : f.WF) (hle : f.count.toNat ≤ f.capacity.toNat)
    (ks : List Key) :
    (inserts env f ks).count.toNat = f.count.toNat + (accepted env f ks).length ∧
      (inserts env f ks).count.toNat ≤ f.capacity.toNat := by
  induction ks generalizing f with
  | nil => simp [inserts, accepted, hle]
  | cons k ks ih =>
    rw [accepted_cons]
    show (inserts env (f.insert env k).1 ks).count.toNat = _ ∧
      (inserts env (f.insert env k).1 ks).count.toNat ≤ _
    rcases insert_step env w hle k with ⟨h1, _⟩ | ⟨h1, _⟩ | ⟨h1, hc, hb, hn⟩
    · rw [h1]; simpa using ih w hle
    · rw [h1]; simpa using ih w hle
    · rw [h1]
      have w' := added_WF env w (k.hashPop env.wy)
      cases ha : allSet env f (k.hashPop env.wy) with
      | true =>
        have hcount := added_count_of_member env ha
        have := ih w' (by rw [hcount]; exact hle)
        rw [hcount] at this
        simpa using this
      | false =>
        have hcount := added_count_of_new env (count_lt hle (fun h => hn ⟨h, ha⟩)) ha
        have hlt := count_lt hle (fun h => hn ⟨h, ha⟩)
        have := ih w' (by rw [hcount]; exact hlt)
        rw [hcount] at this
        simp only [Bool.not_false, if_true, List.length_cons]
        exact ⟨by omega, this.2⟩

/-- Bits after successful insertions. -/
theorem AllOk.bits {env : Env} {f : V2} (w : f.WF) {ks : List Key} (h : AllOk env f ks) :
    (∀ b i, (inserts env f ks).bit b i = true ↔ f.bit b i = true ∨
      ∃ k ∈ ks, b = f.bucketOf (k.hashPop env.wy) ∧
        ∃ n < f.nHashBuck.toNat, i = probe env (k.hashPop env.wy) n) ∧
    (∀ i, bitAt (inserts env f ks).indexCache.asSlice i = true ↔
      bitAt f.indexCache.asSlice i = true ∨
      f.indexCache.asSlice ≠ [] ∧ ∃ k ∈ ks, i = f.cacheIdx (k.hashPop env.wy)) := by
  induction ks generalizing f with
  | nil => simp [inserts]
  | cons k ks ih =>
    obtain ⟨⟨b, hb⟩, h⟩ := h
    obtain ⟨hc, hne, he, _⟩ := insert_ok env w
      (show f.insert env k = ((f.insert env k).1, .ok b) by rw [← hb])
    obtain ⟨i1, i2⟩ := ih ((insert_ext env f k).wf w) h
    refine ⟨fun b i => ?_, fun i => ?_⟩
    · rw [show inserts env f (k :: ks) = inserts env (f.insert env k).1 ks from rfl, i1, he,
        bit_added env hne]
      simp only [Bool.or_eq_true, Bool.and_eq_true, decide_eq_true_eq, added_nHash,
        bucketOf_congr (added_length env f _), List.mem_cons, exists_eq_or_imp]
      exact or_assoc
    · rw [show inserts env f (k :: ks) = inserts env (f.insert env k).1 ks from rfl, i2, he]
      have hl := added_cache_length env f (k.hashPop env.wy)
      have hz : (added env f (k.hashPop env.wy)).indexCache.asSlice ≠ [] ↔
          f.indexCache.asSlice ≠ [] := by
        rw [← List.length_pos_iff, ← List.length_pos_iff, hl]
      rw [hz]
      simp only [cacheIdx_congr hl, List.mem_cons, exists_eq_or_imp]
      cases hce : f.indexCache.asSlice.isEmpty with
      | true =>
        have hnil := List.isEmpty_iff.1 hce
        have : (added env f (k.hashPop env.wy)).indexCache = f.indexCache := by simp [added, hce]
        rw [this, hnil]; simp
      | false =>
        have hnil : f.indexCache.asSlice ≠ [] := by
          intro h0; rw [h0] at hce; simp at hce
        rw [cacheBit_added env w hce]
        simp only [Bool.or_eq_true, decide_eq_true_eq, ne_eq, hnil, not_false_eq_true, true_and]
        exact or_assoc

/-! ### Number of bits set -/

theorem added_countOnes_le (env : Env) (f : V2) (h : U64) :
    (added env f h).countOnes ≤ f.countOnes + f.nHashBuck.toNat := by
  unfold countOnes
  apply sum_map_set_le
  intro b hb
  have hg : f.buckets.getD (f.bucketOf h) (BitSet.new _) = b := by
    rw [List.getD_eq_getElem?_getD, hb]; rfl
  rw [hg, BitSet.countOnes_eq, BitSet.countOnes_eq]
  have := countBelow_or_mem (BUCKET_SIZE * 8) (bitAt b.asSlice)
    ((List.range f.nHashBuck.toNat).map (probe env h))
  rw [List.length_map, List.length_range] at this
  refine le_trans (le_of_eq ?_) this
  apply countBelow_congr
  intro i _
  rw [bitAt_setAll]
  intro p hp
  obtain ⟨n, _, rfl⟩ := List.mem_map.1 hp
  exact probe_lt env h n

theorem added_cacheOnes_le (env : Env) {f : V2} (w : f.WF) (h : U64) :
    (added env f h).indexCache.countOnes ≤ f.indexCache.countOnes + 1 := by
  cases he : f.indexCache.asSlice.isEmpty with
  | true => simp [added, he]
  | false =>
    rw [VecBitSet.countOnes_eq, VecBitSet.countOnes_eq, added_cache_length]
    have := countBelow_or_mem (f.indexCache.asSlice.length * 8) (bitAt f.indexCache.asSlice)
      [f.cacheIdx h]
    refine le_trans (le_of_eq ?_) this
    apply countBelow_congr
    intro i _
    rw [cacheBit_added env w he]
    simp

theorem make_countOnes {env : Env} {cap : U64} {fpp : F64} {opt : OptLevel} {f : V2}
    (h : V2.make env cap fpp opt = .ok f) : f.countOnes = 0 ∧ f.count = 0 := by
  obtain ⟨_, nb, nh, cbs, _, _, _, rfl⟩ := make_ok h
  have h0 : (BitSet.new BUCKET_SIZE).countOnes = 0 := by
    rw [BitSet.countOnes_eq, ← countBelow_false (BUCKET_SIZE * 8)]
    exact countBelow_congr (fun i _ => BitSet.bitAt_new i)
  refine ⟨?_, rfl⟩
  simp [countOnes, h0]

theorem inserts_ones {env : Env} {f : V2} (w : f.WF) (hle : f.count.toNat ≤ f.capacity.toNat)
    (ks : List Key) (h0 : f.countOnes ≤ f.nHashBuck.toNat * f.count.toNat) :
    (inserts env f ks).countOnes ≤ f.nHashBuck.toNat * (inserts env f ks).count.toNat := by
  induction ks generalizing f with
  | nil => exact h0
  | cons k ks ih =>
    show (inserts env (f.insert env k).1 ks).countOnes ≤
      _ * (inserts env (f.insert env k).1 ks).count.toNat
    rcases insert_step env w hle k with ⟨h1, _⟩ | ⟨h1, _⟩ | ⟨h1, hc, hb, hn⟩
    · rw [h1]; exact ih w hle h0
    · rw [h1]; exact ih w hle h0
    · rw [h1]
      have w' := added_WF env w (k.hashPop env.wy)
      have i := ih (f := added env f (k.hashPop env.wy)) w'
      rw [added_nHash, added_capacity] at i
      cases ha : allSet env f (k.hashPop env.wy) with
      | true =>
        rw [added_count_of_member env ha] at i
        refine i hle ?_
        unfold countOnes
        rw [added_buckets_self env hb ha]
        exact h0
      | false =>
        have hlt := count_lt hle (fun h => hn ⟨h, ha⟩)
        rw [added_count_of_new env hlt ha] at i
        refine i hlt ?_
        have := added_countOnes_le env f (k.hashPop env.wy)
        rw [Nat.mul_add, Nat.mul_one]
        omega

end V2

namespace V1

theorem not_allSet_key (f : V1) (k : List U8) :
    f.allSet k = false ↔
      ∃ n < f.nHash.toNat, bitAt f.bitset (dcsoProbe k f.bitSize.toNat n) = false := by
  rw [← Bool.not_eq_true, allSet_iff]
  simp

theorem bitset_ext {f g : V1} (hl : f.bitset.length = g.bitset.length)
    (h : ∀ i, bitAt f.bitset i = bitAt g.bitset i) : f.bitset = g.bitset :=
  bitAt_ext hl (fun i _ => h i)

/-- Adding a member changes nothing. -/
theorem added_self {f : V1} {k : List U8} (ha : f.allSet k = true) : f.added k = f := by
  unfold added
  rw [setAllW_of_all, if_pos ha]
  intro p hp
  obtain ⟨n, hn, rfl⟩ := List.mem_map.1 hp
  exact (allSet_iff f k).1 ha n (List.mem_range.1 hn)

/-- Insertion of a member. -/
theorem insert_member (env : Env) {f : V1} (w : f.WF) {k : List U8} (hc : f.capacity ≠ 0)
    (hm : f.bitSize ≠ 0 ∨ f.nHash = 0) (ha : f.allSet k = true) :
    f.insertBytes env k = (f, .ok false) := by
  by_cases hk : f.nHash = 0
  · exact insertBytes_noHash env w k hc hk
  · rw [insertBytes_eq env w k hc (by tauto), ha, added_self ha]
    simp

/-- The possible outcomes of an insertion. -/
theorem insert_step (env : Env) {f : V1} (w : f.WF) (k : List U8) :
    (f.insertBytes env k = (f, .err .tooManyEntries) ∧
      (f.capacity = 0 ∨ f.capacity ≠ 0 ∧ (f.bitSize ≠ 0 ∨ f.nHash = 0) ∧ f.capacity ≤ f.count ∧
        f.allSet k = false)) ∨
    (f.insertBytes env k = (f, .panic) ∧ f.capacity ≠ 0 ∧ f.bitSize = 0 ∧ f.nHash ≠ 0) ∨
    (f.insertBytes env k = (f.added k, .ok (!f.allSet k)) ∧
      f.capacity ≠ 0 ∧ (f.bitSize ≠ 0 ∨ f.nHash = 0) ∧
      ¬ (f.capacity ≤ f.count ∧ f.allSet k = false)) := by
  by_cases hc : f.capacity = 0
  · exact Or.inl ⟨by simp [insertBytes, hc], Or.inl hc⟩
  by_cases hk : f.nHash = 0
  · have ha : f.allSet k = true := by simp [allSet, hk]
    refine Or.inr (Or.inr ⟨?_, hc, Or.inr hk, by simp [ha]⟩)
    rw [insertBytes_noHash env w k hc hk, ha, added_self ha]; rfl
  by_cases hm : f.bitSize = 0
  · exact Or.inr (Or.inl ⟨insertBytes_noBits env w.fpCount (by rw [w.fpM, hm]) k hc hk, hc, hm, hk⟩)
  rw [insertBytes_eq env w k hc hm]
  by_cases h1 : f.capacity ≤ f.count ∧ f.allSet k = false
  · rw [if_pos h1]
    exact Or.inl ⟨rfl, Or.inr ⟨hc, Or.inl hm, h1⟩⟩
  · rw [if_neg h1]
    exact Or.inr (Or.inr ⟨rfl, hc, Or.inl hm, h1⟩)

theorem added_count_of_new {f : V1} {k : List U8} (hlt : f.count.toNat < f.capacity.toNat)
    (ha : f.allSet k = false) : (f.added k).count.toNat = f.count.toNat + 1 := by
  have h1 : (f.added k).count = f.count + 1 := by
    show (if f.allSet k = true then _ else _) = _
    rw [ha]; rfl
  rw [h1, BitVec.toNat_add, show (1 : U64).toNat = 1 from rfl]
  have := f.capacity.isLt
  exact Nat.mod_eq_of_lt (by omega)

theorem count_lt {f : V1} (h : ¬ f.capacity ≤ f.count) : f.count.toNat < f.capacity.toNat := by
  rw [BitVec.le_def] at h
  omega

theorem inserts_ext (env : Env) (f : V1) (ks : List (List U8)) : Ext f (inserts env f ks) := by
  induction ks generalizing f with
  | nil => exact Ext.refl f
  | cons k ks ih => exact (insertBytes_ext env f k).trans (ih _)

theorem inserts_append (env : Env) (f : V1) (a b : List (List U8)) :
    inserts env f (a ++ b) = inserts env (inserts env f a) b := by
  induction a generalizing f with
  | nil => rfl
  | cons k a ih => exact ih _

theorem AllOk_append (env : Env) (f : V1) (a b : List (List U8)) :
    AllOk env f (a ++ b) ↔ AllOk env f a ∧ AllOk env (inserts env f a) b := by
  induction a generalizing f with
  | nil => simp [AllOk, inserts]
  | cons k a ih =>
    simp only [List.cons_append, AllOk, inserts, ih, and_assoc]

theorem Reach.inserts {env : Env} {f : V1} (h : Reach env f) (ks : List (List U8)) :
    Reach env (inserts env f ks) := by
  induction ks generalizing f with
  | nil => exact h
  | cons k ks ih => exact ih (.insert _ h)

theorem Built.inserts {env : Env} {f : V1} (h : Built env f) (ks : List (List U8)) :
    Built env (inserts env f ks) := by
  induction ks generalizing f with
  | nil => exact h
  | cons k ks ih => exact ih (.insert _ h)

theorem accepted_cons (env : Env) (f : V1) (k : List U8) (ks : List (List U8)) :
    accepted env f (k :: ks) = if (f.insertBytes env k).2 = .ok true then
      k :: accepted env (f.insertBytes env k).1 ks
      else accepted env (f.insertBytes env k).1 ks := by
  rw [accepted]
  obtain ⟨g, r⟩ := f.insertBytes env k
  rcases r with (_ | _) | _ | _ <;> simp

theorem accepted_sublist (env : Env) (f : V1) (ks : List (List U8)) :
    (accepted env f ks).Sublist ks := by
  induction ks generalizing f with
  | nil => exact .slnil
  | cons k ks ih =>
    rw [accepted_cons]
    split
    · exact (ih _).cons_cons k
    · exact (ih _).cons k

theorem not_accepted {env : Env} {f : V1} (w : f.WF) {k : List U8}
    (ha : f.allSet k = true) (ks : List (List U8)) : k ∉ accepted env f ks := by
  induction ks generalizing f with
  | nil => simp [accepted]
  | cons k' ks ih =>
    have e := insertBytes_ext env f k'
    have h1 := ih (e.wf w) (allSet_ext e ha)
    rw [accepted_cons]
    split
    · rename_i hi
      simp only [List.mem_cons, not_or]
      refine ⟨?_, h1⟩
      rintro rfl
      obtain ⟨_, _, _, h2, _⟩ := insert_ok env w
        (show f.insertBytes env k = ((f.insertBytes env k).1, .ok true) by rw [← hi])
      rw [ha] at h2
      simp at h2
    · exact h1

theorem accepted_nodup {env : Env} {f : V1} (w : f.WF) (ks : List (List U8)) :
    (accepted env f ks).Nodup := by
  induction ks generalizing f with
  | nil => simp [accepted]
  | cons k ks ih =>
    have h1 := ih ((insertBytes_ext env f k).wf w)
    rw [accepted_cons]
    split
    · rename_i hi
      refine List.nodup_cons.2 ⟨?_, h1⟩
      obtain ⟨_, hb, h2, _⟩ := insert_ok env w
        (show f.insertBytes env k = ((f.insertBytes env k).1, .ok true) by rw [← hi])
      apply not_accepted ((insertBytes_ext env f k).wf w)
      rw [h2]
      exact allSet_added w _ hb
    · exact h1

theorem accepted_length {env : Env} {f : V1} (w : f.WF) (hle : f.count.toNat ≤ f.capacity.toNat)
    (ks : List (List U8)) :
    (inserts env f ks).count.toNat = f.count.toNat + (accepted env f ks).length ∧
      (inserts env f ks).count.toNat ≤ f.capacity.toNat := by
  induction ks generalizing f with
  | nil => simp [inserts, accepted, hle]
  | cons k ks ih =>
    rw [accepted_cons]
    show (inserts env (f.insertBytes env k).1 ks).count.toNat = _ ∧
      (inserts env (f.insertBytes env k).1 ks).count.toNat ≤ _
    rcases insert_step env w k with ⟨h1, _⟩ | ⟨h1, _⟩ | ⟨h1, hc, hb, hn⟩
    · rw [h1]; simpa using ih w hle
    · rw [h1]; simpa using ih w hle
    · rw [h1]
      have w' := added_WF w k
      cases ha : f.allSet k with
      | true =>
        rw [added_self ha]
        simpa using ih w hle
      | false =>
        have hlt := count_lt (fun h => hn ⟨h, ha⟩)
        have hcount := added_count_of_new hlt ha
        have := ih w' (by rw [hcount]; exact hlt)
        rw [hcount] at this
        simp only [Bool.not_false, if_true, List.length_cons]
        exact ⟨by omega, this.2⟩

/-- Bits after successful insertions. -/
theorem AllOk.bits {env : Env} {f : V1} (w : f.WF) {ks : List (List U8)} (h : AllOk env f ks)
    (i : ℕ) : bitAt (inserts env f ks).bitset i = true ↔ bitAt f.bitset i = true ∨
      ∃ k ∈ ks, ∃ n < f.nHash.toNat, i = dcsoProbe k f.bitSize.toNat n := by
  induction ks generalizing f with
  | nil => simp [inserts]
  | cons k ks ih =>
    obtain ⟨⟨b, hb⟩, h⟩ := h
    obtain ⟨hc, hne, he, _⟩ := insert_ok env w
      (show f.insertBytes env k = ((f.insertBytes env k).1, .ok b) by rw [← hb])
    have i1 := ih ((insertBytes_ext env f k).wf w) h
    rw [show inserts env f (k :: ks) = inserts env (f.insertBytes env k).1 ks from rfl, i1, he]
    by_cases hk : f.nHash = 0
    · rw [added_noHash hk, hk]; simp
    · rw [bit_added w (by tauto)]
      simp only [Bool.or_eq_true, decide_eq_true_eq, added_nHash,
        List.mem_cons, exists_eq_or_imp]
      have : (f.added k).bitSize = f.bitSize := rfl
      rw [this]
      exact or_assoc

theorem countOnes_eq (f : V1) :
    f.countOnes = countBelow (f.bitset.length * 64) (bitAt f.bitset) := sum_countOnes f.bitset

theorem added_countOnes_le {f : V1} (w : f.WF) (k : List U8) (hm : f.bitSize ≠ 0 ∨ f.nHash = 0) :
    (f.added k).countOnes ≤ f.countOnes + f.nHash.toNat := by
  by_cases hk : f.nHash = 0
  · rw [added_noHash hk]; omega
  rw [countOnes_eq, countOnes_eq, added_length]
  have := countBelow_or_mem (f.bitset.length * 64) (bitAt f.bitset)
    ((List.range f.nHash.toNat).map (dcsoProbe k f.bitSize.toNat))
  rw [List.length_map, List.length_range] at this
  refine le_trans (le_of_eq ?_) this
  apply countBelow_congr
  intro i _
  rw [bit_added w (by tauto)]
  congr 1
  simp [List.mem_map, eq_comm]

theorem make_countOnes {env : Env} {cap : U64} {fpp : F64} {f : V1}
    (h : withCapacity env cap fpp = .ok f) : f.countOnes = 0 ∧ f.count = 0 := by
  refine ⟨?_, ?_⟩
  · rw [countOnes_eq, ← countBelow_false (f.bitset.length * 64)]
    exact countBelow_congr (fun i _ => make_bit h i)
  · obtain ⟨_, _, rfl⟩ := withCapacity_ok h; rfl

theorem inserts_ones {env : Env} {f : V1} (w : f.WF) (ks : List (List U8))
    (h0 : f.countOnes ≤ f.nHash.toNat * f.count.toNat) :
    (inserts env f ks).countOnes ≤ f.nHash.toNat * (inserts env f ks).count.toNat := by
  induction ks generalizing f with
  | nil => exact h0
  | cons k ks ih =>
    show (inserts env (f.insertBytes env k).1 ks).countOnes ≤
      _ * (inserts env (f.insertBytes env k).1 ks).count.toNat
    rcases insert_step env w k with ⟨h1, _⟩ | ⟨h1, _⟩ | ⟨h1, hc, hb, hn⟩
    · rw [h1]; exact ih w h0
    · rw [h1]; exact ih w h0
    · rw [h1]
      cases ha : f.allSet k with
      | true => rw [added_self ha]; exact ih w h0
      | false =>
        have hlt := count_lt (fun h => hn ⟨h, ha⟩)
        have i := ih (f := f.added k) (added_WF w k)
        rw [added_nHash, added_count_of_new hlt ha] at i
        refine i ?_
        have := added_countOnes_le w k hb
        rw [Nat.mul_add, Nat.mul_one]
        omega

end V1

end Poppy
