import Verif.Lemmas.Members
import Verif.Samples

/-! # Membership (C01 to C07) -/

namespace Poppy

open Spec (bitAt dcsoProbe)

/-! ## C01 no false negatives (poppy format) -/

/-- Once a key was inserted successfully, queries answer true whatever happens later, except
clearing the filter or intersecting it with one that does not contain the key. -/
theorem C01_no_false_negative {env : Env} (hs : env.Small) {f g h : V2} (hf : V2.Reach env f)
    {k : Key} {b : Bool} (hi : f.insert env k = (g, .ok b)) (hk : V2.Keeps env k g h) :
    h.contains env k = .ok true := by
  have h0 : V2.Has env k g := by
    have hr : V2.Reach env g := by
      have : g = (f.insertIter env (V2.buildIndexIter env k)).1 := by
        show g = (f.insert env k).1; rw [hi]
      rw [this]; exact .insertIter _ hf
    obtain ⟨hc, hb, rfl, _⟩ := V2.insert_ok env hf.wf hi
    refine ⟨hr, hc, ?_, V2.allSet_added env hb _, V2.cacheOk_added env hf.wf _⟩
    rw [← List.length_pos_iff] at hb ⊢
    rw [V2.added_length]; exact hb
  suffices V2.Has env k h from this.contains
  clear hi
  induction hk with
  | refl => exact h0
  | step _ st ih => exact ih.keep hs st

-- a history: insertion of a second key, union with an arbitrary filter, save and reload
example (k k' : Key) (o g h : V2) (b : Bool) (hi : Sample.f2.insert Sample.env k = (g, .ok b))
    (hr : V2.fromReader Sample.env (Reader.ofBytes
      (((g.insert Sample.env k').1.unionMerge Sample.env o).1).file) = .ok h) :
    h.contains Sample.env k = .ok true :=
  C01_no_false_negative Sample.env_small (.make Sample.f2_make) hi
    (.step (.step (.step .refl (.insert k')) (.union o)) (.reload hr))
-- insertions do succeed
example : (Sample.f2.insert Sample.env (.slice [1#8, 2#8])).2 = .ok true := by decide +kernel

/-! ## C02 no false negatives (DCSO format) -/

/-- Same for v1, when the filter has bits at all. -/
theorem C02_no_false_negative_partial {env : Env} (hs : env.Small) {f g h : V1}
    (hf : V1.Reach env f) (hbits : f.bitSize ≠ 0) {k : List U8} {b : Bool}
    (hi : f.insertBytes env k = (g, .ok b)) (hk : V1.Keeps env g h) :
    h.containsBytes k = .ok true := by
  have h0 : V1.Reach env g ∧ g.bitSize ≠ 0 ∧ g.allSet k = true := by
    have hr : V1.Reach env g := by
      have : g = (f.insertBytes env k).1 := by rw [hi]
      rw [this]; exact .insert _ hf
    obtain ⟨hc, hm, rfl, _⟩ := V1.insert_ok env (hf.wf hs) hi
    exact ⟨hr, hbits, V1.allSet_added (hf.wf hs) k hm⟩
  suffices V1.Reach env h ∧ h.bitSize ≠ 0 ∧ h.allSet k = true by
    rw [V1.containsBytes_eq (this.1.wf hs) k this.2.1, this.2.2]
  clear hi
  induction hk with
  | refl => exact h0
  | @step g h _ st ih =>
    obtain ⟨h1, h2, h3⟩ := ih
    cases st with
    | insert key =>
      have e := V1.insertBytes_ext env g key
      exact ⟨.insert _ h1, by rw [e.bitSize]; exact h2, V1.allSet_ext e h3⟩
    | union o =>
      have e := V1.unionMerge_ext env g o
      exact ⟨.union _ h1, by rw [e.bitSize]; exact h2, V1.allSet_ext e h3⟩
    | setData d => exact ⟨.setData d h1, h2, h3⟩
    | reload hr =>
      have hl := hr
      rw [h1.fits.reload] at hr
      cases hr
      exact ⟨.load hl, h2, h3⟩

example (k k' : List U8) (o g : V1) (b : Bool)
    (hi : Sample.f1.insertBytes Sample.env k = (g, .ok b)) :
    ((g.insertBytes Sample.env k').1.unionMerge Sample.env o).1.containsBytes k = .ok true :=
  C02_no_false_negative_partial Sample.env_small (.make Sample.f1_make) (by decide) hi
    (.step (.step .refl (.insert k')) (.union o))
example : (Sample.f1.insertBytes Sample.env [1#8, 2#8]).2 = .ok true := by decide +kernel

/-- The claim is false for degenerate filters: for every capacity, a v1 filter created with
`fpp = 1.0` accepts every key and contains none. -/
theorem C02_violated {env : Env} (sp : env.libm.Spec) (cap : U64) (hc : cap ≠ 0) :
    ∃ f, V1.withCapacity env cap oneBits = .ok f ∧
      ∀ k, f.insertBytes env k = (f, .ok false) ∧ f.containsBytes k = .ok false := by
  obtain ⟨h0, h1⟩ := V1.fpp_one_sizes sp cap
  have hm : V1.withCapacity env cap oneBits = .ok
      ⟨Flags.new 1#8, [], cap, oneBits, 0, 0, 0, [], Fingerprint.new 0 0⟩ := by
    unfold V1.withCapacity
    have hin : fppInRange oneBits = true := (fppInRange_iff _).2 (by decide)
    have hz : u64SizeFor 0 = 0 := by decide +kernel
    simp only [hin, h0, h1, hz, Bool.not_true, Bool.false_eq_true, if_false]
    rw [Env.alloc_of_le (by simp)]
    rfl
  have w := (V1.Reach.make hm).fits
  refine ⟨_, hm, fun k => ⟨?_, V1.containsBytes_empty rfl k⟩⟩
  exact V1.insertBytes_noHash env ⟨rfl, rfl, by simp, by simp⟩ k hc rfl

/-! ## C03 false positives -/

/-- The bits set in a v2 filter are exactly those of its members. -/
theorem C03_v2_bits {env : Env} (hs : env.Small) {f : V2} {S : List Key} (h : V2.Holds env f S) :
    (∀ b i, bitAt (f.buckets.getD b (BitSet.new _)).asSlice i = true ↔
      ∃ k ∈ S, b = f.keyBucket env k ∧ ∃ n < f.nHashBuck.toNat, i = V2.keyProbe env k n) ∧
    (∀ i, bitAt f.indexCache.asSlice i = true ↔
      f.indexCache.asSlice ≠ [] ∧ ∃ k ∈ S, i = f.keyCache env k) := by
  obtain ⟨h1, h2⟩ := h.bits hs
  refine ⟨fun b i => ?_, fun i => ?_⟩
  · simp only [V2.keyBucket_eq, V2.keyProbe_eq]
    exact h1 b i
  · rw [h2 i]
    refine and_congr_right fun hne => ?_
    simp only [V2.keyCache_eq env h.built.reach.wf hne]

/-- A v2 filter answers true exactly when every position of the key (each of its probes in its
bucket, and its index cache bit if there is a cache) is also a position of some member. -/
theorem C03_v2_contains {env : Env} (sp : env.libm.Spec) (hs : env.Small) {f : V2} {S : List Key}
    (h : V2.Holds env f S) (q : Key) :
    f.contains env q = .ok true ↔
      f.capacity ≠ 0 ∧
      (∀ n < f.nHashBuck.toNat, ∃ k ∈ S, f.keyBucket env k = f.keyBucket env q ∧
        ∃ m < f.nHashBuck.toNat, V2.keyProbe env k m = V2.keyProbe env q n) ∧
      (f.indexCache.asSlice ≠ [] → ∃ k ∈ S, f.keyCache env k = f.keyCache env q) := by
  have w := h.built.reach.wf
  obtain ⟨h1, h2⟩ := h.bits hs
  by_cases hc : f.capacity = 0
  · rw [V2.contains_noCap env q hc]; simp [hc]
  have hb := h.built.buckets hs sp hc
  rw [V2.contains_eq env w q hc hb]
  simp only [Res.ok.injEq, Bool.and_eq_true, V2.allSet_iff, V2.cacheOk_iff, h1, h2, ne_eq, hc,
    not_false_eq_true, true_and, V2.keyBucket_eq, V2.keyProbe_eq]
  rw [and_comm]
  refine and_congr ?_ ?_
  · simp only [eq_comm]
  · by_cases hne : f.indexCache.asSlice = []
    · simp [hne]
    · simp only [hne, false_or, not_false_eq_true, true_and, forall_const,
        V2.keyCache_eq env w hne]
      simp only [eq_comm]

/-- The bits set in a v1 filter are exactly those of its members. -/
theorem C03_v1_bits {env : Env} (hs : env.Small) {f : V1} {S : List (List U8)}
    (h : V1.Holds env f S) (i : ℕ) :
    bitAt f.bitset i = true ↔
      ∃ k ∈ S, ∃ n < f.nHash.toNat, i = dcsoProbe k f.bitSize.toNat n := h.bits hs i

/-- A v1 filter answers true exactly when every probe of the key is a probe of some member. -/
theorem C03_v1_contains {env : Env} (hs : env.Small) {f : V1}
    {S : List (List U8)} (h : V1.Holds env f S) (q : List U8) :
    f.containsBytes q = .ok true ↔
      f.bitSize ≠ 0 ∧ ∀ n < f.nHash.toNat, ∃ k ∈ S, ∃ m < f.nHash.toNat,
        dcsoProbe k f.bitSize.toNat m = dcsoProbe q f.bitSize.toNat n := by
  have w := h.built.reach.wf hs
  by_cases hm : f.bitSize = 0
  · have he : f.bitset = [] := by
      have := h.built.reach.fits.nw
      rw [hm] at this
      rw [← List.length_eq_zero_iff, ← this]
      decide +kernel
    rw [V1.containsBytes_empty he]; simp [hm]
  · rw [V1.containsBytes_eq w q hm]
    simp only [Res.ok.injEq, V1.allSet_iff, h.bits hs, ne_eq, hm, not_false_eq_true, true_and]
    simp only [eq_comm]

-- a filter holding two keys inserted one after the other
example (k k' : Key) (g h : V2) (b c : Bool) (hi : Sample.f2.insert Sample.env k = (g, .ok b))
    (hi' : g.insert Sample.env k' = (h, .ok c)) : V2.Holds Sample.env h [k', k] :=
  .insert (.insert (.make Sample.f2_make) hi) hi'
example (k k' : List U8) (g h : V1) (b c : Bool)
    (hi : Sample.f1.insertBytes Sample.env k = (g, .ok b))
    (hi' : g.insertBytes Sample.env k' = (h, .ok c)) : V1.Holds Sample.env h [k', k] :=
  .insert (.insert (.make Sample.f1_make) hi) hi'

/-! ## C04 new filters -/

/-- A new v2 filter contains nothing, except possibly (in release builds) when the capacity
exceeds `2^63` with optimization levels `Speed` and `Best`. -/
theorem C04_v2_new_partial {env : Env} (sp : env.libm.Spec) (hs : env.Small) {cap : U64}
    {fpp : F64} {opt : OptLevel} {f : V2} (h : V2.make env cap fpp opt = .ok f)
    (hx : opt = .none ∨ opt = .space ∨ env.debug = true ∨ cap.toNat ≤ 2 ^ 63) (k : Key) :
    f.contains env k = .ok false := by
  have hr := V2.Reach.make h
  have hc0 : f.capacity = cap := by
    obtain ⟨_, nb, nh, cbs, _, _, _, rfl⟩ := V2.make_ok h; rfl
  by_cases hc : cap = 0
  · exact V2.contains_noCap env k (by rw [hc0, hc])
  rw [V2.contains_eq env hr.wf k (by rw [hc0]; exact hc) (V2.make_buckets sp h hc)]
  congr 1
  rw [Bool.and_eq_false_iff]
  by_cases he : f.indexCache.asSlice = []
  · right
    have ho := V2.make_noCache hs h he hx
    have hn := V2.make_nHash sp h ho
    by_contra ha
    rw [Bool.not_eq_false, V2.allSet_iff] at ha
    have := ha 0 hn
    rw [V2.make_bit h] at this
    simp at this
  · left
    by_contra ha
    rw [Bool.not_eq_false, V2.cacheOk_iff, V2.make_cacheBit h] at ha
    simp [he] at ha

example (k : Key) : Sample.f2.contains Sample.env k = .ok false :=
  C04_v2_new_partial Sample.libm_spec Sample.env_small Sample.f2_make (by decide) k

/-- The exception is real: a new filter that contains every key. -/
theorem C04_violated : ∃ f, V2.make Sample.env (2 ^ 63 + 1) oneBits .best = .ok f ∧
    ∀ k, f.contains Sample.env k = .ok true := by
  have hm := V2.make_of_sizes (env := Sample.env) (cap := 2 ^ 63 + 1) (fpp := oneBits)
    (opt := .best) (nb := 1) (nh := 0) (cbs := 0) ((fppInRange_iff _).2 (by decide))
    (by decide +kernel) (by decide +kernel) (by decide)
  refine ⟨_, hm, fun k => ?_⟩
  rw [V2.contains_eq Sample.env (V2.Reach.make hm).wf k
    (show (2 ^ 63 + 1 : U64) ≠ 0 by decide +kernel) (by simp)]
  have h1 : (VecBitSet.withBitCapacity 0).asSlice = [] := by decide +kernel
  simp only [V2.cacheOk, V2.allSet, h1]
  rfl

/-- A new v1 filter contains nothing. -/
theorem C04_v1_new {env : Env} (sp : env.libm.Spec) (hs : env.Small) {cap : U64}
    {fpp : F64} {f : V1} (h : V1.withCapacity env cap fpp = .ok f) (k : List U8) :
    f.containsBytes k = .ok false := by
  have hr := V1.Reach.make h
  obtain ⟨h1, h2⟩ := V1.make_bits sp h
  by_cases hm : f.bitSize = 0
  · exact V1.containsBytes_empty (V1.bitset_nil hr.fits hm) k
  · rw [V1.containsBytes_eq (hr.wf hs) k hm]
    congr 1
    by_contra ha
    rw [Bool.not_eq_false, V1.allSet_iff] at ha
    have := ha 0 (V1.toNat_pos (fun h0 => hm (h1.2 h0)))
    rw [V1.make_bit h] at this
    simp at this

example (k : List U8) : Sample.f1.containsBytes k = .ok false :=
  C04_v1_new Sample.libm_spec Sample.env_small Sample.f1_make k

/-! ## C05 clear removes every member -/

/-- After `clear` a v2 filter with hash functions contains nothing. -/
theorem C05_v2_clear_partial {env : Env} (sp : env.libm.Spec) (hs : env.Small) {f : V2}
    (h : V2.Built env f) (hn : f.nHashBuck ≠ 0) (k : Key) :
    f.clear.contains env k = .ok false ∧ f.clear.countEstimate = 0 := by
  refine ⟨?_, rfl⟩
  have h' : V2.Built env f.clear := .clear h
  by_cases hc : f.clear.capacity = 0
  · exact V2.contains_noCap env k hc
  rw [V2.contains_eq env h'.reach.wf k hc (h'.buckets hs sp hc)]
  congr 1
  rw [Bool.and_eq_false_iff]
  right
  by_contra ha
  rw [Bool.not_eq_false, V2.allSet_iff] at ha
  have := ha 0 (V1.toNat_pos hn)
  rw [V2.bit_clear] at this
  simp at this

/-- Same for filters loaded from any file (which may panic when they lack buckets). -/
theorem C05_v2_clear_loaded_partial {env : Env} {f : V2} (h : V2.Reach env f)
    (hn : f.nHashBuck ≠ 0) (k : Key) :
    f.clear.contains env k ≠ .ok true ∧ f.clear.countEstimate = 0 := by
  refine ⟨?_, rfl⟩
  have h' : V2.Reach env f.clear := .clear h
  by_cases hc : f.clear.capacity = 0
  · rw [V2.contains_noCap env k hc]; simp
  by_cases hb : f.clear.buckets = []
  · rw [V2.contains_nil env h'.wf k hc hb]
    split <;> simp
  rw [V2.contains_eq env h'.wf k hc hb]
  intro ht
  simp only [Res.ok.injEq, Bool.and_eq_true, V2.allSet_iff] at ht
  have := ht.2 0 (V1.toNat_pos hn)
  rw [V2.bit_clear] at this
  simp at this

/-- Without hash functions the index cache decides, and `clear` does not reset it: a key is still
there after `clear`. -/
theorem C05_violated : ∃ f g k, V2.make Sample.env 8 oneBits .best = .ok f ∧
    f.insert Sample.env k = (g, .ok false) ∧ g.clear.contains Sample.env k = .ok true := by
  have hm := V2.make_of_sizes (env := Sample.env) (cap := 8) (fpp := oneBits)
    (opt := .best) (nb := 1) (nh := 0) (cbs := 8) ((fppInRange_iff _).2 (by decide))
    (by decide +kernel) (by decide +kernel) (by decide)
  generalize hf : (V2.mk .. : V2) = f at hm
  have h1 : (f.insert Sample.env (.slice [1#8])).2 = .ok false := by subst hf; decide +kernel
  refine ⟨f, (f.insert Sample.env (.slice [1#8])).1, .slice [1#8], hm, ?_, ?_⟩
  · rw [← h1]
  · subst hf; decide +kernel

/-- After `clear` a v1 filter contains nothing. -/
theorem C05_v1_clear {env : Env} (sp : env.libm.Spec) (hs : env.Small) {f : V1}
    (h : V1.Built env f) (k : List U8) :
    f.clear.containsBytes k = .ok false ∧ f.clear.countEstimate = 0 := by
  refine ⟨?_, rfl⟩
  have h' : V1.Built env f.clear := .clear h
  by_cases hm : f.clear.bitSize = 0
  · exact V1.containsBytes_empty (V1.bitset_nil h'.reach.fits hm) k
  · rw [V1.containsBytes_eq (h'.reach.wf hs) k hm]
    congr 1
    by_contra ha
    rw [Bool.not_eq_false, V1.allSet_iff] at ha
    have := ha 0 (V1.toNat_pos (fun h0 => hm ((h'.bits sp).1.2 h0)))
    rw [V1.bit_clear] at this
    simp at this

example (k k' : Key) :
    ((Sample.f2.insert Sample.env k).1).clear.contains Sample.env k' = .ok false :=
  (C05_v2_clear_partial Sample.libm_spec Sample.env_small
    (.insertIter _ (.make Sample.f2_make)) (by
      rw [(V2.insertIter_ext Sample.env Sample.f2 _).nHash]; decide) k').1

/-! ## C06 clear gives back a fresh filter -/

/-- A cleared v1 filter is the one created from its parameters, apart from attached data. -/
theorem C06_v1_clear_fresh {env : Env} {f : V1} (h : V1.Built env f) :
    V1.withCapacity env f.capacity f.fpp = .ok { f.clear with data := [] } := by
  obtain ⟨cap, fpp, f0, hm, a⟩ := h.origin
  have h0 := hm
  obtain ⟨_, _, rfl⟩ := V1.withCapacity_ok h0
  have e1 : f.capacity = cap := a.capacity
  have e2 : f.fpp = fpp := a.fpp
  rw [e1, e2, hm]
  have e3 := a.len
  obtain ⟨fl, bs, c, p, nh, sz, ct, d, fp⟩ := f
  have := a.flags
  have := a.nHash
  have := a.bitSize
  have := a.fp
  simp only at *
  subst_vars
  simp only [V1.clear, Res.ok.injEq, V1.mk.injEq, true_and, and_true]
  rw [List.map_const', e3, List.length_replicate]

/-- Hence both are written as the same bytes. -/
theorem C06_v1_clear_bytes {env : Env} {f f0 : V1} (h : V1.Built env f) (hd : f.data = [])
    (hm : V1.withCapacity env f.capacity f.fpp = .ok f0) : f.clear.file = f0.file := by
  rw [C06_v1_clear_fresh h] at hm
  cases hm
  rw [← hd]; rfl

/-- A cleared v2 filter is the one created from its parameters, apart from attached data and the
index cache. -/
theorem C06_v2_clear_fresh_partial {env : Env} (hs : env.Small) {f : V2} (h : V2.Built env f) :
    ∃ f0, V2.make env f.capacity f.fpp f.flags.opt = .ok f0 ∧
      { f.clear with data := [], indexCache := f0.indexCache } = f0 ∧
      f0.indexCache.byteLen = f.indexCache.byteLen := by
  obtain ⟨cap, fpp, opt, f0, hm, a⟩ := h.origin hs
  have h0 := hm
  obtain ⟨_, nb, nh, cbs, _, _, _, rfl⟩ := V2.make_ok h0
  have e1 : f.capacity = cap := a.capacity
  have e2 : f.fpp = fpp := a.fpp
  have e3 : f.flags = (Flags.new 2#8).withOpt opt := a.flags
  refine ⟨_, by rw [e1, e2, e3]; exact hm, ?_, a.clen.symm⟩
  have e4 := a.blen
  obtain ⟨fl, ic, n, cb, c, p, nh', ct, bk, d⟩ := f
  have := a.nb
  have := a.cb
  have := a.nHash
  simp only at *
  subst_vars
  simp only [V2.clear, V2.mk.injEq, true_and, and_true]
  have : BitSet.clear (N := BUCKET_SIZE) = fun _ => BitSet.new BUCKET_SIZE := by
    funext s; exact BitSet.clear_eq s
  rw [this, List.map_const', e4, List.length_replicate]

/-- So without index cache (`None` and `Space`) it is written as the same bytes. -/
theorem C06_v2_clear_bytes_partial {env : Env} (hs : env.Small) {f f0 : V2} (h : V2.Built env f)
    (hd : f.data = []) (hc : f.indexCache.isEmpty = true)
    (hm : V2.make env f.capacity f.fpp f.flags.opt = .ok f0) : f.clear.file = f0.file := by
  obtain ⟨f1, h1, h2, h3⟩ := C06_v2_clear_fresh_partial hs h
  rw [hm] at h1
  cases h1
  have hi : f0.indexCache = f.indexCache := by
    have e1 : f.indexCache.bytes = [] := List.isEmpty_iff.1 hc
    have e2 : f0.indexCache.bytes = [] := by
      rw [← List.length_eq_zero_iff]; rw [VecBitSet.byteLen, VecBitSet.byteLen, e1] at h3; exact h3
    cases hx : f0.indexCache; cases hy : f.indexCache
    rw [hx] at e2; rw [hy] at e1
    simp_all
  congr 1
  rw [← h2, hi, ← hd]; rfl

/-- With an index cache the cleared filter is written differently. -/
theorem C06_violated : ∃ g k, Sample.f2.insert Sample.env k = (g, .ok true) ∧
    g.clear.file ≠ Sample.f2.file := by
  have h1 : (Sample.f2.insert Sample.env (.slice [1#8, 2#8])).2 = .ok true := by decide +kernel
  refine ⟨(Sample.f2.insert Sample.env (.slice [1#8, 2#8])).1, .slice [1#8, 2#8], ?_, ?_⟩
  · rw [← h1]
  · intro he
    have hr : V2.Reach Sample.env Sample.f2 := .make Sample.f2_make
    have e1 := (V2.Reach.clear (V2.Reach.insertIter (V2.buildIndexIter Sample.env
      (.slice [1#8, 2#8])) hr)).reload Sample.env_small
    have e2 := hr.reload Sample.env_small
    have he' : ((Sample.f2.insertIter Sample.env (V2.buildIndexIter Sample.env
      (.slice [1#8, 2#8]))).1.clear).file = Sample.f2.file := he
    rw [he', e2, Res.ok.injEq] at e1
    have e3 := congrArg (fun f : V2 => f.indexCache.countOnes) e1
    revert e3
    decide +kernel

/-! ## C07 zero capacity -/

/-- v2 filters of capacity 0, wherever they come from. -/
theorem C07_v2_zero_capacity (env : Env) {f : V2} (hc : f.capacity = 0) (k : Key) :
    f.insert env k = (f, .err .tooManyEntries) ∧ f.contains env k = .ok false :=
  ⟨V2.insert_noCap env k hc, V2.contains_noCap env k hc⟩

/-- v1 filters of capacity 0 derived from a constructor. -/
theorem C07_v1_zero_capacity {env : Env} (sp : env.libm.Spec) {f : V1} (h : V1.Built env f)
    (hc : f.capacity = 0) (k : List U8) :
    f.insertBytes env k = (f, .err .tooManyEntries) ∧ f.containsBytes k = .ok false := by
  refine ⟨by simp [V1.insertBytes, hc], ?_⟩
  exact V1.containsBytes_empty (V1.bitset_nil h.reach.fits ((h.bits sp).2 hc)) k

/-- Version independent interface: creation with capacity 0 never fails for accepted
probabilities (4096 bytes of memory suffice), and the filter is inert. -/
theorem C07_create {env : Env} (sp : env.libm.Spec) {fpp : F64}
    (hp : 2 ^ 52 ≤ fpp.toNat ∧ fpp.toNat ≤ 1023 * 2 ^ 52) (opt : OptLevel) {v : U8}
    (hv : v = 1#8 ∨ v = 2#8) (hmem : 4096 ≤ env.allocLimit) :
    ∃ f, Bloom.withVersionCapacityOpt env v 0 fpp opt = .ok f ∧
      ∀ k, f.insertBytes env k = (f, .err .tooManyEntries) ∧ f.containsBytes env k = .ok false := by
  have hin := (fppInRange_iff _).2 hp
  rcases hv with rfl | rfl
  · obtain ⟨f, hm, hc⟩ : ∃ f, V1.withCapacity env 0 fpp = .ok f ∧ f.capacity = 0 := by
      obtain ⟨v, _, _, hb, hv⟩ := bitSizeFor_eq sp hin 0
      have h0 : bitSizeFor env.libm 0 (FVal.ofBits fpp) = 0 := by
        rw [hb, hv rfl]; decide +kernel
      have hz : (u64SizeFor 0).toNat = 0 := by decide +kernel
      unfold V1.withCapacity
      simp only [hin, h0, hz, Bool.not_true, Bool.false_eq_true, if_false]
      rw [Env.alloc_of_le (by simp)]
      exact ⟨_, rfl, rfl⟩
    refine ⟨.v1 f, show (V1.withCapacity env 0 fpp).map _ = _ by rw [hm]; rfl, fun k => ?_⟩
    obtain ⟨h1, h2⟩ := C07_v1_zero_capacity sp (V1.Built.make hm) hc k
    simp [Bloom.insertBytes, Bloom.containsBytes, h1, h2]
  · obtain ⟨f, hm, hc⟩ : ∃ f, V2.make env 0 fpp opt = .ok f ∧ f.capacity = 0 := by
      have hp1 : ∀ d, nextPowerOfTwo d 0 = .ok 1 := by intro d; cases d <;> decide +kernel
      obtain ⟨nb, nh, cbs, hs, h1, h2⟩ : ∃ nb nh cbs, V2.sizes env 0 fpp opt = .ok (nb, nh, cbs) ∧
          nb.toNat ≤ 1 ∧ (cbs = 0 ∨ cbs = 1) := by
        have hn : FVal.toU64 (FVal.ceil (FVal.div (FVal.ofU64 0) (FVal.ofU64
          (capFromBitSize env.libm V2.bucketBitSize (FVal.ofBits fpp))))) = 0 :=
          nBucketOf_zero sp hin
        unfold V2.sizes
        simp only [hn, hp1, Res.bind_ok]
        cases opt <;> simp
      refine ⟨_, V2.make_of_sizes hin hs ?_ (by omega), rfl⟩
      have : (byteCapFromBitCap cbs).toNat ≤ 1 := by
        rcases h2 with rfl | rfl <;> decide +kernel
      omega
    refine ⟨.v2 f, show (V2.make env 0 fpp opt).map _ = _ by rw [hm]; rfl, fun k => ?_⟩
    obtain ⟨h1, h2⟩ := C07_v2_zero_capacity env hc (.slice k)
    simp [Bloom.insertBytes, Bloom.containsBytes, V2.insertBytes, V2.containsBytes, h1, h2]

example := C07_create Sample.libm_spec (fpp := Sample.p001) (by decide) .best (v := 2#8)
  (Or.inr rfl) (by decide)

end Poppy
