import Mathlib.Data.List.Dedup
import Verif.Lemmas.Counting
import Verif.Samples

/-! # Insertion and counting (C08 to C15) -/

namespace Poppy

namespace Sample

/-- A hash function that is constantly 0: probes and buckets then depend on short keys in a
simple way. -/
def envFlat : Env := { env with wy := fun _ => 0 }

/-- A floating point library which is accurate at one more point: `ln(1 - 14 / 32768)`. -/
def libmUnion : Libm :=
  { libm with ln := fun x => if x = .fin (16377 / 16384) then
      FVal.fin (-3941491727390437 / 2 ^ 63) else libm.ln x }

/-- `env` with this library. -/
def envUnion : Env := { env with libm := libmUnion }

/-- One bucket, four hash functions, an index cache of 128 bits. -/
def f2b : V2 :=
  { flags := (Flags.new 2#8).withOpt .best
    indexCache := VecBitSet.withBitCapacity 128
    nBuckets := 1
    cacheByteSize := BitVec.ofNat 64 (VecBitSet.withBitCapacity 128).byteLen
    buckets := List.replicate 1 (BitSet.new BUCKET_SIZE)
    capacity := 100
    fpp := p001
    nHashBuck := 4
    count := 0
    data := [] }

theorem f2b_make : V2.make envFlat 100 p001 .best = .ok f2b :=
  V2.make_of_sizes (nb := 1) (nh := 4) (cbs := 128) p001_inRange (by decide +kernel)
    (by decide +kernel) (by decide)

/-- One bucket, four hash functions, an index cache of one byte, capacity 1. -/
def f2c : V2 :=
  { flags := (Flags.new 2#8).withOpt .best
    indexCache := VecBitSet.withBitCapacity 1
    nBuckets := 1
    cacheByteSize := BitVec.ofNat 64 (VecBitSet.withBitCapacity 1).byteLen
    buckets := List.replicate 1 (BitSet.new BUCKET_SIZE)
    capacity := 1
    fpp := p001
    nHashBuck := 4
    count := 0
    data := [] }

theorem f2c_make : V2.make envFlat 1 p001 .best = .ok f2c :=
  V2.make_of_sizes (nb := 1) (nh := 4) (cbs := 1) p001_inRange (by decide +kernel)
    (by decide +kernel) (by decide)

/-- One bucket, seven hash functions, no index cache, capacity 1. -/
def f2s : V2 :=
  { flags := (Flags.new 2#8).withOpt .none
    indexCache := VecBitSet.withBitCapacity 0
    nBuckets := 1
    cacheByteSize := BitVec.ofNat 64 (VecBitSet.withBitCapacity 0).byteLen
    buckets := List.replicate 1 (BitSet.new BUCKET_SIZE)
    capacity := 1
    fpp := p001
    nHashBuck := 7
    count := 0
    data := [] }

theorem f2s_make : V2.make envUnion 1 p001 .none = .ok f2s :=
  V2.make_of_sizes (nb := 1) (nh := 7) (cbs := 0) p001_inRange (by decide +kernel)
    (by decide +kernel) (by decide)

/-- Union of two copies of `f2s` holding the keys `[1]` and `[2]`. -/
theorem f2s_union : ∃ f, V2.Built envUnion f ∧
    (Sample.f2s.insert envUnion (.slice [1#8])).1.unionMerge envUnion
      (Sample.f2s.insert envUnion (.slice [2#8])).1 = (f, .ok ()) ∧
    f.nHashBuck = 7 ∧ f.capacity = 1 ∧ f.count = 2 ∧
    f.buckets = [setAll (BitSet.new _) ([1, 2].flatMap fun h =>
      (List.range 7).map (V2.probe envUnion h))] := by
  have hr : V2.Reach envUnion f2s := .make f2s_make
  have e1 := V2.insert_fst_of_ok (env := envUnion) hr.wf (k := .slice [1#8]) (b := true)
    (by decide +kernel)
  have e2 := V2.insert_fst_of_ok (env := envUnion) hr.wf (k := .slice [2#8]) (b := true)
    (by decide +kernel)
  have hB := V2.Built.insert_union (.make f2s_make) (.slice [1#8]) (.slice [2#8])
  have hk1 : Key.hashPop envUnion.wy (.slice [1#8]) = 1 := by decide +kernel
  have hk2 : Key.hashPop envUnion.wy (.slice [2#8]) = 2 := by decide +kernel
  rw [hk1] at e1
  rw [hk2] at e2
  rw [e1, e2] at hB ⊢
  obtain ⟨g, hg, g1, g2, g3, g4⟩ := V2.unionMerge_added (env := envUnion) (f := f2s) rfl 1 2 2
    (by decide +kernel) (ps := [1, 2].flatMap fun h => (List.range 7).map (V2.probe envUnion h))
    (by decide +kernel) (by decide +kernel) (by decide +kernel)
  rw [hg] at hB
  exact ⟨g, hB, hg, g1, g2, g3, g4⟩

end Sample

open Spec (bitAt dcsoProbe)

/-! ## C08 the boolean returned by insert -/

/-- Without index cache a successful insertion returns true exactly when the key was not
contained. -/
theorem C08_v2 {env : Env} {f g : V2} (hf : V2.Reach env f) (hc : f.indexCache.isEmpty = true)
    {k : Key} {b : Bool} (hi : f.insert env k = (g, .ok b)) : f.contains env k = .ok (!b) := by
  obtain ⟨h1, h2, _, rfl, _⟩ := V2.insert_ok env hf.wf hi
  rw [V2.contains_eq env hf.wf k h1 h2]
  have : f.cacheOk (k.hashPop env.wy) = true := by
    rw [V2.cacheOk_iff]; exact Or.inl ((V2.isEmpty_iff f).1 hc)
  rw [this]; simp

example (k : Key) (g : V2) (b : Bool) (h : Sample.f2s.insert Sample.envUnion k = (g, .ok b)) :
    Sample.f2s.contains Sample.envUnion k = .ok (!b) :=
  C08_v2 (.make Sample.f2s_make) (by decide +kernel) h

/-- With or without index cache, a true result means that the key was not contained. -/
theorem C08_v2_true {env : Env} {f g : V2} (hf : V2.Reach env f) {k : Key}
    (hi : f.insert env k = (g, .ok true)) : f.contains env k = .ok false := by
  obtain ⟨h1, h2, _, h3, _⟩ := V2.insert_ok env hf.wf hi
  rw [V2.contains_eq env hf.wf k h1 h2]
  have : V2.allSet env f (k.hashPop env.wy) = false := by simpa using h3.symm
  rw [this]; simp

/-- The converse fails with an index cache: `insert` may return false although the key was not
contained (and is afterwards). -/
theorem C08_v2_cache : ∃ f g k, V2.Built Sample.envFlat f ∧
    f.contains Sample.envFlat k = .ok false ∧ f.insert Sample.envFlat k = (g, .ok false) ∧
    g.contains Sample.envFlat k = .ok true := by
  refine ⟨(Sample.f2b.insert Sample.envFlat (.slice [0#8])).1, _, .slice [0#8, 128#8],
    .insertIter _ (.make Sample.f2b_make), ?_, Prod.ext rfl ?_, ?_⟩
  · decide +kernel
  · show (V2.insert _ _ _).2 = _; decide +kernel
  · decide +kernel

/-- v1 filters that have bits. -/
theorem C08_v1 {env : Env} (hs : env.Small) {f g : V1} (hf : V1.Reach env f) (hm : f.bitSize ≠ 0)
    {k : List U8} {b : Bool} (hi : f.insertBytes env k = (g, .ok b)) :
    f.containsBytes k = .ok (!b) := by
  obtain ⟨h1, h2, _, rfl, _⟩ := V1.insert_ok env (hf.wf hs) hi
  rw [V1.containsBytes_eq (hf.wf hs) k hm]; simp

/-- v1 filters without bits: an insertion that succeeds returns false, and the key is not
contained. -/
theorem C08_v1_no_bits {env : Env} (hs : env.Small) {f g : V1} (hf : V1.Reach env f)
    (hm : f.bitSize = 0) {k : List U8} {b : Bool} (hi : f.insertBytes env k = (g, .ok b)) :
    b = false ∧ g = f ∧ f.containsBytes k = .ok false := by
  obtain ⟨h1, h2, h3, h4, _⟩ := V1.insert_ok env (hf.wf hs) hi
  have hk : f.nHash = 0 := by tauto
  have ha : f.allSet k = true := by simp [V1.allSet, hk]
  rw [ha] at h4
  rw [V1.added_self ha] at h3
  exact ⟨h4, h3, V1.containsBytes_empty (V1.bitset_nil hf.fits hm) k⟩

example (k : List U8) (g : V1) (b : Bool) (h : Sample.f1.insertBytes Sample.env k = (g, .ok b)) :
    Sample.f1.containsBytes k = .ok (!b) :=
  C08_v1 Sample.env_small (.make Sample.f1_make) (by decide) h
example : (Sample.f1.insertBytes Sample.env [1#8]).2 = .ok true := by decide +kernel

/-! ## C09 counting -/

/-- Along insertions into a filter, `count_estimate` grows by the number of insertions that
returned `Ok(true)` and stays within the capacity.  No key is accepted twice. -/
theorem C09_v2 {env : Env} {f : V2} (hf : V2.Reach env f)
    (hle : f.countEstimate.toNat ≤ f.capacity.toNat) (ks : List Key) :
    (V2.inserts env f ks).countEstimate.toNat
        = f.countEstimate.toNat + (V2.accepted env f ks).length ∧
      (V2.inserts env f ks).countEstimate.toNat ≤ f.capacity.toNat ∧
      (V2.accepted env f ks).Nodup ∧ (V2.accepted env f ks).Sublist ks :=
  ⟨(V2.accepted_length hf.wf hle ks).1, (V2.accepted_length hf.wf hle ks).2,
    V2.accepted_nodup hf.wf ks, V2.accepted_sublist env f ks⟩

/-- For a new filter: the number of insertions that returned `Ok(true)`, at most the number of
distinct keys, at most the capacity. -/
theorem C09_v2_new [DecidableEq Key] {env : Env} {cap : U64} {fpp : F64} {opt : OptLevel} {f : V2}
    (h : V2.make env cap fpp opt = .ok f) (ks : List Key) :
    (V2.inserts env f ks).countEstimate.toNat = (V2.accepted env f ks).length ∧
      (V2.inserts env f ks).countEstimate.toNat ≤ ks.dedup.length ∧
      (V2.inserts env f ks).countEstimate.toNat ≤ cap.toNat := by
  have h0 := (V2.make_countOnes h).2
  have hz : f.countEstimate.toNat = 0 := by show f.count.toNat = 0; rw [h0]; rfl
  have hc : f.capacity = cap := by obtain ⟨_, _, _, _, _, _, _, rfl⟩ := V2.make_ok h; rfl
  obtain ⟨h1, h2, h3, h4⟩ := C09_v2 (.make h) (by omega) ks
  rw [hz, Nat.zero_add] at h1
  refine ⟨h1, ?_, by rw [← hc]; exact h2⟩
  rw [h1]
  refine (List.Nodup.subperm h3 fun x hx => ?_).length_le
  exact List.mem_dedup.2 (h4.subset hx)

-- two different keys, one of them twice
example : (V2.inserts Sample.env Sample.f2 [.slice [1#8], .slice [2#8], .slice [1#8]]).countEstimate
    = 2 := by decide +kernel

theorem C09_v1 {env : Env} (hs : env.Small) {f : V1} (hf : V1.Reach env f)
    (hle : f.countEstimate.toNat ≤ f.capacity.toNat) (ks : List (List U8)) :
    (V1.inserts env f ks).countEstimate.toNat
        = f.countEstimate.toNat + (V1.accepted env f ks).length ∧
      (V1.inserts env f ks).countEstimate.toNat ≤ f.capacity.toNat ∧
      (V1.accepted env f ks).Nodup ∧ (V1.accepted env f ks).Sublist ks :=
  ⟨(V1.accepted_length (hf.wf hs) hle ks).1, (V1.accepted_length (hf.wf hs) hle ks).2,
    V1.accepted_nodup (hf.wf hs) ks, V1.accepted_sublist env f ks⟩

theorem C09_v1_new {env : Env} (hs : env.Small) {cap : U64} {fpp : F64} {f : V1}
    (h : V1.withCapacity env cap fpp = .ok f) (ks : List (List U8)) :
    (V1.inserts env f ks).countEstimate.toNat = (V1.accepted env f ks).length ∧
      (V1.inserts env f ks).countEstimate.toNat ≤ ks.dedup.length ∧
      (V1.inserts env f ks).countEstimate.toNat ≤ cap.toNat := by
  have h0 := (V1.make_countOnes h).2
  have hz : f.countEstimate.toNat = 0 := by show f.count.toNat = 0; rw [h0]; rfl
  have hc : f.capacity = cap := by obtain ⟨_, _, rfl⟩ := V1.withCapacity_ok h; rfl
  obtain ⟨h1, h2, h3, h4⟩ := C09_v1 hs (.make h) (by omega) ks
  rw [hz, Nat.zero_add] at h1
  refine ⟨h1, ?_, by rw [← hc]; exact h2⟩
  rw [h1]
  refine (List.Nodup.subperm h3 fun x hx => ?_).length_le
  exact List.mem_dedup.2 (h4.subset hx)

example : (V1.inserts Sample.env Sample.f1 [[1#8], [2#8], [1#8]]).countEstimate = 2 := by
  decide +kernel

/-! ## C10 TooManyEntries -/

/-- A failed insertion changes nothing, whatever filter (even loaded from a crafted file) and
whatever the error; the only error is `TooManyEntries`. -/
theorem C10_v2_unchanged {env : Env} {f g : V2} (hf : V2.Reach env f) {k : Key} {e : Error}
    (hi : f.insert env k = (g, .err e)) : g = f ∧ e = .tooManyEntries :=
  ⟨(V2.insert_err env hf.wf hi).1, (V2.insert_err env hf.wf hi).2.1⟩

/-- When an insertion is refused. -/
theorem C10_v2 {env : Env} (sp : env.libm.Spec) (hs : env.Small) {f : V2} (hf : V2.Built env f)
    (hle : f.countEstimate.toNat ≤ f.capacity.toNat) (k : Key) :
    f.insert env k = (f, .err .tooManyEntries) ↔
      f.capacity = 0 ∨ (f.countEstimate = f.capacity ∧
        ∃ n < f.nHashBuck.toNat, f.keyBit env k n = false) := by
  rw [← V2.not_allSet_key]
  rcases V2.insert_step env hf.reach.wf hle k with ⟨h1, h2⟩ | ⟨h1, hc, hb⟩ | ⟨h1, h2, h3, h4⟩
  · simp only [h1, true_iff]
    rcases h2 with h2 | ⟨_, _, h2⟩
    · exact Or.inl h2
    · exact Or.inr h2
  · exact absurd hb (hf.buckets hs sp hc)
  · rw [h1]
    simp only [Prod.mk.injEq, reduceCtorEq, and_false, false_iff, not_or]
    exact ⟨h2, h4⟩

/-- In the same situation every other insertion succeeds. -/
theorem C10_v2_total {env : Env} (sp : env.libm.Spec) (hs : env.Small) {f : V2}
    (hf : V2.Built env f) (hle : f.countEstimate.toNat ≤ f.capacity.toNat) (k : Key) :
    f.insert env k = (f, .err .tooManyEntries) ∨ ∃ g b, f.insert env k = (g, .ok b) := by
  rcases V2.insert_step env hf.reach.wf hle k with ⟨h1, h2⟩ | ⟨h1, hc, hb⟩ | ⟨h1, h2, h3, h4⟩
  · exact Or.inl h1
  · exact absurd hb (hf.buckets hs sp hc)
  · exact Or.inr ⟨_, _, h1⟩

theorem C10_v1_unchanged {env : Env} (hs : env.Small) {f g : V1} (hf : V1.Reach env f)
    {k : List U8} {e : Error} (hi : f.insertBytes env k = (g, .err e)) :
    g = f ∧ e = .tooManyEntries :=
  ⟨(V1.insert_err env (hf.wf hs) hi).1, (V1.insert_err env (hf.wf hs) hi).2.1⟩

theorem C10_v1 {env : Env} (sp : env.libm.Spec) (hs : env.Small) {f : V1} (hf : V1.Built env f)
    (hle : f.countEstimate.toNat ≤ f.capacity.toNat) (k : List U8) :
    f.insertBytes env k = (f, .err .tooManyEntries) ↔
      f.capacity = 0 ∨ (f.countEstimate = f.capacity ∧
        ∃ n < f.nHash.toNat, bitAt f.bitset (dcsoProbe k f.bitSize.toNat n) = false) := by
  rw [← V1.not_allSet_key]
  have hiff : f.capacity ≤ f.count ↔ f.countEstimate = f.capacity := by
    have hle : f.count.toNat ≤ f.capacity.toNat := hle
    rw [BitVec.le_def]
    constructor
    · intro h; exact BitVec.eq_of_toNat_eq (show f.count.toNat = _ by omega)
    · intro h; rw [← show f.count = f.capacity from h]
  rw [← hiff]
  rcases V1.insert_step env (hf.reach.wf hs) k with ⟨h1, h2⟩ | ⟨h1, hc, hm, hk⟩ | ⟨h1, h2, h3, h4⟩
  · simp only [h1, true_iff]
    rcases h2 with h2 | ⟨_, _, h2⟩
    · exact Or.inl h2
    · exact Or.inr h2
  · exact absurd ((hf.bits sp).1.1 hm) hk
  · rw [h1]
    simp only [Prod.mk.injEq, reduceCtorEq, and_false, false_iff, not_or]
    exact ⟨h2, h4⟩

-- the filter of capacity 1 is full after one insertion
example : ((Sample.f2s.insert Sample.envUnion (.slice [1#8])).1.insert Sample.envUnion
    (.slice [2#8])).2 = .err .tooManyEntries := by decide +kernel

/-! ## C11 idempotence -/

/-- Inserting a key again at any later time returns `Ok(false)` and changes nothing. -/
theorem C11_v2 {env : Env} (hs : env.Small) {f g h : V2} (hf : V2.Reach env f) {k : Key} {b : Bool}
    (hi : f.insert env k = (g, .ok b)) (hk : V2.Keeps env k g h) :
    h.insert env k = (h, .ok false) := by
  have h0 : V2.Has env k g := by
    have hr : V2.Reach env g := by
      have : g = (f.insertIter env (V2.buildIndexIter env k)).1 := by
        show g = (f.insert env k).1; rw [hi]
      rw [this]; exact .insertIter _ hf
    obtain ⟨hc, hb, rfl, _⟩ := V2.insert_ok env hf.wf hi
    refine ⟨hr, hc, ?_, V2.allSet_added env hb _, V2.cacheOk_added env hf.wf _⟩
    rw [← List.length_pos_iff] at hb ⊢
    rw [V2.added_length]; exact hb
  suffices V2.Has env k h from this.insert
  clear hi
  induction hk with
  | refl => exact h0
  | step _ st ih => exact ih.keep hs st

-- right after, and after other insertions
example (k : Key) (ks : List Key) (g : V2) (b : Bool)
    (hi : Sample.f2.insert Sample.env k = (g, .ok b)) :
    (V2.inserts Sample.env g ks).insert Sample.env k = (V2.inserts Sample.env g ks, .ok false) := by
  refine C11_v2 Sample.env_small (.make Sample.f2_make) hi ?_
  have : ∀ h, V2.Keeps Sample.env k g h → V2.Keeps Sample.env k g (V2.inserts Sample.env h ks) := by
    induction ks with
    | nil => exact fun h x => x
    | cons k' ks ih => exact fun h x => ih _ (.step x (.insert k'))
  exact this g .refl

theorem C11_v1 {env : Env} (hs : env.Small) {f g h : V1} (hf : V1.Reach env f) {k : List U8}
    {b : Bool} (hi : f.insertBytes env k = (g, .ok b)) (hk : V1.Keeps env g h) :
    h.insertBytes env k = (h, .ok false) := by
  have h0 : V1.Reach env g ∧ g.capacity ≠ 0 ∧ (g.bitSize ≠ 0 ∨ g.nHash = 0) ∧
      g.allSet k = true := by
    have hr : V1.Reach env g := by
      have : g = (f.insertBytes env k).1 := by rw [hi]
      rw [this]; exact .insert _ hf
    obtain ⟨hc, hm, rfl, _⟩ := V1.insert_ok env (hf.wf hs) hi
    exact ⟨hr, hc, hm, V1.allSet_added (hf.wf hs) k hm⟩
  suffices V1.Reach env h ∧ h.capacity ≠ 0 ∧ (h.bitSize ≠ 0 ∨ h.nHash = 0) ∧
      h.allSet k = true from V1.insert_member env (this.1.wf hs) this.2.1 this.2.2.1 this.2.2.2
  clear hi
  have step : ∀ {g h : V1}, V1.Reach env h → V1.Ext g h →
      (V1.Reach env g ∧ g.capacity ≠ 0 ∧ (g.bitSize ≠ 0 ∨ g.nHash = 0) ∧ g.allSet k = true) →
      (V1.Reach env h ∧ h.capacity ≠ 0 ∧ (h.bitSize ≠ 0 ∨ h.nHash = 0) ∧ h.allSet k = true) := by
    intro g h hr e ⟨_, h2, h3, h4⟩
    exact ⟨hr, by rw [e.capacity]; exact h2, by rw [e.bitSize, e.nHash]; exact h3,
      V1.allSet_ext e h4⟩
  induction hk with
  | refl => exact h0
  | @step g h _ st ih =>
    cases st with
    | insert key => exact step (.insert _ ih.1) (V1.insertBytes_ext env g key) ih
    | union o => exact step (.union _ ih.1) (V1.unionMerge_ext env g o) ih
    | setData d => exact ⟨.setData d ih.1, ih.2⟩
    | reload hr =>
      have hl := hr
      rw [ih.1.fits.reload] at hr
      cases hr
      exact ⟨.load hl, ih.2⟩

/-! ## C12 order -/

/-- Lists with the same elements (in particular permutations of a list) give the same bits, the
same bucket and cache bytes, hence the same answers, when every insertion succeeds. -/
theorem C12_v2 {env : Env} {f : V2} (hf : V2.Reach env f) {ks ks' : List Key}
    (hk : ∀ k, k ∈ ks ↔ k ∈ ks') (h : V2.AllOk env f ks) (h' : V2.AllOk env f ks') :
    (V2.inserts env f ks).buckets = (V2.inserts env f ks').buckets ∧
      (V2.inserts env f ks).indexCache = (V2.inserts env f ks').indexCache ∧
      ∀ q, (V2.inserts env f ks).contains env q = (V2.inserts env f ks').contains env q := by
  have e := V2.inserts_ext env f ks
  have e' := V2.inserts_ext env f ks'
  obtain ⟨b1, c1⟩ := h.bits hf.wf
  obtain ⟨b2, c2⟩ := h'.bits hf.wf
  have h1 : (V2.inserts env f ks).buckets = (V2.inserts env f ks').buckets := by
    apply V2.buckets_ext (by rw [e.blen, e'.blen])
    intro b i
    rw [Bool.eq_iff_iff, b1, b2]
    simp only [hk]
  have h2 : (V2.inserts env f ks).indexCache = (V2.inserts env f ks').indexCache := by
    apply V2.cache_ext (by rw [e.clen, e'.clen])
    intro i
    rw [Bool.eq_iff_iff, c1, c2]
    simp only [hk]
  refine ⟨h1, h2, fun q => ?_⟩
  have hc : (V2.inserts env f ks).capacity = (V2.inserts env f ks').capacity := by
    rw [e.capacity, e'.capacity]
  have hn : (V2.inserts env f ks).nHashBuck = (V2.inserts env f ks').nHashBuck := by
    rw [e.nHash, e'.nHash]
  by_cases hz : (V2.inserts env f ks).capacity = 0
  · rw [V2.contains_noCap env q hz, V2.contains_noCap env q (by rw [← hc]; exact hz)]
  · have w1 := (hf.inserts ks).wf
    have w2 := (hf.inserts ks').wf
    have a1 : (V2.inserts env f ks).cacheOk (q.hashPop env.wy)
        = (V2.inserts env f ks').cacheOk (q.hashPop env.wy) := by
      simp only [V2.cacheOk, V2.cacheIdx, h2]
    have a2 : V2.allSet env (V2.inserts env f ks) (q.hashPop env.wy)
        = V2.allSet env (V2.inserts env f ks') (q.hashPop env.wy) := by
      simp only [V2.allSet, V2.bucketOf, V2.bit, h1, hn]
    by_cases hb : (V2.inserts env f ks).buckets = []
    · rw [V2.contains_nil env w1 q hz hb,
        V2.contains_nil env w2 q (by rw [← hc]; exact hz) (by rw [← h1]; exact hb), a1]
    · rw [V2.contains_eq env w1 q hz hb,
        V2.contains_eq env w2 q (by rw [← hc]; exact hz) (by rw [← h1]; exact hb), a1, a2]

theorem C12_v2_perm {env : Env} {f : V2} (hf : V2.Reach env f) {ks ks' : List Key}
    (hk : ks.Perm ks') (h : V2.AllOk env f ks) (h' : V2.AllOk env f ks') :
    (V2.inserts env f ks).buckets = (V2.inserts env f ks').buckets ∧
      (V2.inserts env f ks).indexCache = (V2.inserts env f ks').indexCache ∧
      ∀ q, (V2.inserts env f ks).contains env q = (V2.inserts env f ks').contains env q :=
  C12_v2 hf (fun _ => hk.mem_iff) h h'

/-- The count, in contrast, depends on the order. -/
theorem C12_count_depends_on_order : ∃ f ks ks', V2.Built Sample.envFlat f ∧ ks.Perm ks' ∧
    V2.AllOk Sample.envFlat f ks ∧ V2.AllOk Sample.envFlat f ks' ∧
    (V2.inserts Sample.envFlat f ks).countEstimate ≠ (V2.inserts Sample.envFlat f ks').countEstimate := by
  refine ⟨Sample.f2b, [.slice [0#8], .slice [2#8], .slice [5#8], .slice [1#8]],
    [.slice [1#8], .slice [0#8], .slice [2#8], .slice [5#8]], .make Sample.f2b_make, ?_, ?_, ?_, ?_⟩
  · exact (List.perm_append_comm (l₁ := [Key.slice [0#8], .slice [2#8], .slice [5#8]])
      (l₂ := [.slice [1#8]]))
  · exact ⟨⟨true, by decide +kernel⟩, ⟨true, by decide +kernel⟩, ⟨true, by decide +kernel⟩,
      ⟨false, by decide +kernel⟩, trivial⟩
  · exact ⟨⟨true, by decide +kernel⟩, ⟨true, by decide +kernel⟩, ⟨true, by decide +kernel⟩,
      ⟨true, by decide +kernel⟩, trivial⟩
  · decide +kernel

theorem C12_v1 {env : Env} (hs : env.Small) {f : V1} (hf : V1.Reach env f) {ks ks' : List (List U8)}
    (hk : ∀ k, k ∈ ks ↔ k ∈ ks') (h : V1.AllOk env f ks) (h' : V1.AllOk env f ks') :
    (V1.inserts env f ks).bitset = (V1.inserts env f ks').bitset ∧
      ∀ q, (V1.inserts env f ks).containsBytes q = (V1.inserts env f ks').containsBytes q := by
  have e := V1.inserts_ext env f ks
  have e' := V1.inserts_ext env f ks'
  have h1 : (V1.inserts env f ks).bitset = (V1.inserts env f ks').bitset := by
    apply V1.bitset_ext (by rw [e.len, e'.len])
    intro i
    rw [Bool.eq_iff_iff, h.bits (hf.wf hs), h'.bits (hf.wf hs)]
    simp only [hk]
  refine ⟨h1, fun q => ?_⟩
  have hn : (V1.inserts env f ks).bitSize = (V1.inserts env f ks').bitSize := by
    rw [e.bitSize, e'.bitSize]
  have w1 := (hf.inserts ks).wf hs
  have w2 := (hf.inserts ks').wf hs
  by_cases hz : (V1.inserts env f ks).bitSize = 0
  · rw [V1.containsBytes_empty (V1.bitset_nil (hf.inserts ks).fits hz),
      V1.containsBytes_empty (V1.bitset_nil (hf.inserts ks').fits (by rw [← hn]; exact hz))]
  · rw [V1.containsBytes_eq w1 q hz, V1.containsBytes_eq w2 q (by rw [← hn]; exact hz)]
    have hk : (V1.inserts env f ks).nHash = (V1.inserts env f ks').nHash := by
      rw [e.nHash, e'.nHash]
    simp only [V1.allSet, h1, hn, hk]

theorem C12_v1_perm {env : Env} (hs : env.Small) {f : V1} (hf : V1.Reach env f)
    {ks ks' : List (List U8)} (hk : ks.Perm ks') (h : V1.AllOk env f ks) (h' : V1.AllOk env f ks') :
    (V1.inserts env f ks).bitset = (V1.inserts env f ks').bitset ∧
      ∀ q, (V1.inserts env f ks).containsBytes q = (V1.inserts env f ks').containsBytes q :=
  C12_v1 hs hf (fun _ => hk.mem_iff) h h'

example : V1.AllOk Sample.env Sample.f1 [[1#8], [2#8], [1#8]] :=
  ⟨⟨true, by decide +kernel⟩, ⟨true, by decide +kernel⟩, ⟨false, by decide +kernel⟩, trivial⟩

/-! ## C13 bits set by an insertion -/

/-- Whatever its outcome (also a panic), an insertion sets only probed bits of the key, all in
one bucket, and one index cache bit; it unsets nothing. -/
theorem C13_v2_step {env : Env} {f : V2} (hf : V2.Reach env f) (k : Key) :
    (∀ b i, f.bucketBit b i = true → (f.insert env k).1.bucketBit b i = true) ∧
    (∀ b i, (f.insert env k).1.bucketBit b i = true → f.bucketBit b i = true ∨
      b = f.keyBucket env k ∧ ∃ n < f.nHashBuck.toNat, i = V2.keyProbe env k n) ∧
    (f.insert env k).1.countOnes ≤ f.countOnes + f.nHashBuck.toNat ∧
    (∀ i, bitAt f.indexCache.asSlice i = true →
      bitAt (f.insert env k).1.indexCache.asSlice i = true) ∧
    (f.insert env k).1.indexCache.countOnes ≤ f.indexCache.countOnes + 1 := by
  have e := V2.insert_ext env f k
  have w := hf.wf
  refine ⟨e.bits, ?_, ?_, e.cache, ?_⟩
  all_goals
    by_cases hc : f.capacity = 0
    · rw [V2.insert_noCap env k hc]; simp +contextual
    by_cases hb : f.buckets = []
    · rw [V2.insert_nil env k hc hb]; simp +contextual
    rw [V2.insert_cases env w k hc hb]
    split
    · simp +contextual
  · have : ∀ b i, (V2.added env f (k.hashPop env.wy)).bit b i = true → f.bit b i = true ∨
        b = f.keyBucket env k ∧ ∃ n < f.nHashBuck.toNat, i = V2.keyProbe env k n := by
      intro b i hi
      rw [V2.bit_added env hb] at hi
      simp only [Bool.or_eq_true, Bool.and_eq_true, decide_eq_true_eq] at hi
      rw [V2.keyBucket_eq]
      exact hi
    split
    · exact this
    · exact this
  · have := V2.added_countOnes_le env f (k.hashPop env.wy)
    split
    · exact this
    · exact this
  · split
    · simp
    · exact V2.added_cacheOnes_le env w _

/-- A new filter filled by insertions has at most `n_hash` bits set per counted entry. -/
theorem C13_v2 {env : Env} {cap : U64} {fpp : F64} {opt : OptLevel} {f : V2}
    (h : V2.make env cap fpp opt = .ok f) (ks : List Key) :
    (V2.inserts env f ks).countOnes
      ≤ f.nHashBuck.toNat * (V2.inserts env f ks).countEstimate.toNat := by
  obtain ⟨h1, h2⟩ := V2.make_countOnes h
  refine V2.inserts_ones (V2.Reach.make h).wf ?_ ks ?_
  · rw [h2]; exact Nat.zero_le _
  · rw [h1]; exact Nat.zero_le _

example (ks : List Key) : (V2.inserts Sample.env Sample.f2 ks).countOnes
    ≤ 4 * (V2.inserts Sample.env Sample.f2 ks).countEstimate.toNat := C13_v2 Sample.f2_make ks

theorem C13_v1_step {env : Env} (hs : env.Small) {f : V1} (hf : V1.Reach env f) (k : List U8) :
    (∀ i, bitAt f.bitset i = true → bitAt (f.insertBytes env k).1.bitset i = true) ∧
    (∀ i, bitAt (f.insertBytes env k).1.bitset i = true → bitAt f.bitset i = true ∨
      ∃ n < f.nHash.toNat, i = dcsoProbe k f.bitSize.toNat n) ∧
    (f.insertBytes env k).1.countOnes ≤ f.countOnes + f.nHash.toNat := by
  have w := hf.wf hs
  refine ⟨(V1.insertBytes_ext env f k).bits, ?_⟩
  rcases V1.insert_step env w k with ⟨h1, _⟩ | ⟨h1, _⟩ | ⟨h1, hc, hb, hn⟩
  · rw [h1]; simp +contextual
  · rw [h1]; simp +contextual
  · rw [h1]
    refine ⟨fun i hi => ?_, V1.added_countOnes_le w k hb⟩
    by_cases hk : f.nHash = 0
    · rw [V1.added_noHash hk] at hi; exact Or.inl hi
    · rw [V1.bit_added w (by tauto)] at hi
      simpa only [Bool.or_eq_true, decide_eq_true_eq] using hi

theorem C13_v1 {env : Env} (hs : env.Small) {cap : U64} {fpp : F64} {f : V1}
    (h : V1.withCapacity env cap fpp = .ok f) (ks : List (List U8)) :
    (V1.inserts env f ks).countOnes
      ≤ f.nHash.toNat * (V1.inserts env f ks).countEstimate.toNat := by
  obtain ⟨h1, h2⟩ := V1.make_countOnes h
  refine V1.inserts_ones ((V1.Reach.make h).wf hs) ks ?_
  rw [h1]; exact Nat.zero_le _

example (ks : List (List U8)) : (V1.inserts Sample.env Sample.f1 ks).countOnes
    ≤ 7 * (V1.inserts Sample.env Sample.f1 ks).countEstimate.toNat :=
  C13_v1 Sample.env_small Sample.f1_make ks

/-! ## C14 at or beyond capacity -/

/-- v1: a filter at or beyond its capacity, also after unions or loading, refuses every key it
does not contain (if it has bits). -/
theorem C14_v1 {env : Env} (hs : env.Small) {f : V1} (hf : V1.Reach env f) (hm : f.bitSize ≠ 0)
    (hge : f.capacity.toNat ≤ f.countEstimate.toNat) {k : List U8}
    (hk : f.containsBytes k = .ok false) : f.insertBytes env k = (f, .err .tooManyEntries) := by
  rw [V1.containsBytes_eq (hf.wf hs) k hm, Res.ok.injEq] at hk
  by_cases hc : f.capacity = 0
  · simp [V1.insertBytes, hc]
  · rw [V1.insertBytes_eq env (hf.wf hs) k hc hm, if_pos ⟨hge, hk⟩]

/-- v2: only when the count is exactly the capacity. -/
theorem C14_v2_partial {env : Env} {f : V2} (hf : V2.Reach env f) (hne : f.buckets ≠ [])
    (hge : f.capacity = f.countEstimate) {k : Key}
    (hk : ∃ n < f.nHashBuck.toNat, f.keyBit env k n = false) :
    f.insert env k = (f, .err .tooManyEntries) := by
  by_cases hc : f.capacity = 0
  · exact V2.insert_noCap env k hc
  · rw [V2.insert_cases env hf.wf k hc hne, if_pos ⟨hge.symm, (V2.not_allSet_key env f k).2 hk⟩]

/-- In terms of `contains`: without index cache, such a filter refuses every key it does not
contain. -/
theorem C14_v2_no_cache_partial {env : Env} {f : V2} (hf : V2.Reach env f) (hne : f.buckets ≠ [])
    (hc : f.indexCache.isEmpty = true) (hge : f.capacity = f.countEstimate) {k : Key}
    (hk : f.contains env k = .ok false) : f.insert env k = (f, .err .tooManyEntries) := by
  by_cases h0 : f.capacity = 0
  · exact V2.insert_noCap env k h0
  · rw [V2.contains_eq env hf.wf k h0 hne, Res.ok.injEq] at hk
    have : f.cacheOk (k.hashPop env.wy) = true := by
      rw [V2.cacheOk_iff]; exact Or.inl ((V2.isEmpty_iff f).1 hc)
    rw [this, Bool.true_and] at hk
    rw [V2.insert_cases env hf.wf k h0 hne, if_pos ⟨hge.symm, hk⟩]

example : (Sample.f2s.insert Sample.envUnion (.slice [1#8])).1.insert Sample.envUnion (.slice [2#8])
    = ((Sample.f2s.insert Sample.envUnion (.slice [1#8])).1, .err .tooManyEntries) :=
  C14_v2_no_cache_partial (V2.Built.insertIter _ (.make Sample.f2s_make)).reach (by decide +kernel)
    (by decide +kernel) (by decide +kernel) (by decide +kernel)

/-- The second condition: with an index cache a filter whose count is exactly the capacity may
answer `Ok(false)` for a key it does not contain, and contain it from then on. -/
theorem C14_v2_cache_violated : ∃ f g k, V2.Built Sample.envFlat f ∧
    f.capacity = f.countEstimate ∧ f.contains Sample.envFlat k = .ok false ∧
    f.insert Sample.envFlat k = (g, .ok false) ∧ g.contains Sample.envFlat k = .ok true := by
  refine ⟨(Sample.f2c.insert Sample.envFlat (.slice [0#8])).1, _, .slice [0#8, 128#8],
    .insertIter _ (.make Sample.f2c_make), ?_, ?_, Prod.ext rfl ?_, ?_⟩
  · decide +kernel
  · decide +kernel
  · show (V2.insert _ _ _).2 = _; decide +kernel
  · decide +kernel

/-- The union of two filters of capacity 1, each holding one key, has count 2 and accepts new
keys. -/
theorem C14_v2_violated : ∃ f g k, V2.Built Sample.envUnion f ∧
    f.capacity.toNat < f.countEstimate.toNat ∧ f.contains Sample.envUnion k = .ok false ∧
    f.insert Sample.envUnion k = (g, .ok true) := by
  obtain ⟨f, h1, h2, hn, h3, h4, h5⟩ := Sample.f2s_union
  have hb : f.buckets ≠ [] := by rw [h5]; simp
  have hx : V2.allSet Sample.envUnion f (Key.hashPop Sample.envUnion.wy (.slice [3#8])) = false := by
    rw [← Bool.not_eq_true, V2.allSet_iff, hn]
    intro hx
    have := hx 0 (by decide)
    unfold V2.bit V2.bucketOf at this
    rw [h5] at this
    simp only [List.length_singleton, Nat.mod_one, List.getD_cons_zero] at this
    rw [bitAt_setAll _ _ (by decide +kernel), BitSet.bitAt_new] at this
    revert this
    decide +kernel
  have hc : f.capacity ≠ 0 := by rw [h3]; decide
  refine ⟨f, V2.added Sample.envUnion f (Key.hashPop Sample.envUnion.wy (.slice [3#8])),
    .slice [3#8], h1, ?_, ?_, ?_⟩
  · rw [h3]; show _ < f.count.toNat; rw [h4]; decide
  · rw [V2.contains_eq _ h1.reach.wf _ hc hb, hx, Bool.and_false]
  · rw [V2.insert_cases _ h1.reach.wf _ hc hb, hx, h3, h4, if_neg (by decide),
      if_neg (by rintro ⟨⟨_, h⟩, _⟩; rw [h4] at h; exact absurd h (by decide))]
    rfl

/-! ## C15 is_full -/

theorem C15_is_full (f : V2) (g : V1) :
    (f.isFull = true ↔ f.countEstimate = f.capacity) ∧
    (g.isFull = true ↔ g.countEstimate = g.capacity) := by
  simp [V2.isFull, V1.isFull]

/-- Along insertions into a new filter: while `is_full` is false every insertion succeeds; once it
is true it stays true and the keys refused are exactly those with an unset probed bit (the others
give `Ok(false)`, unless the capacity is 0). -/
theorem C15_v2 {env : Env} (sp : env.libm.Spec) (hs : env.Small) {cap : U64} {fpp : F64}
    {opt : OptLevel} {f : V2} (h : V2.make env cap fpp opt = .ok f) (ks : List Key) :
    ((V2.inserts env f ks).isFull = false →
      ∀ k, ∃ b, ((V2.inserts env f ks).insert env k).2 = .ok b) ∧
    ((V2.inserts env f ks).isFull = true →
      (∀ ks', (V2.inserts env f (ks ++ ks')).isFull = true) ∧
      ∀ k, ((V2.inserts env f ks).insert env k).2 =
        if cap ≠ 0 ∧ ∀ n < f.nHashBuck.toNat, (V2.inserts env f ks).keyBit env k n = true
        then .ok false else .err .tooManyEntries) := by
  obtain ⟨_, h2⟩ := V2.make_countOnes h
  have hb := V2.Built.inserts (V2.Built.make h) ks
  have hc0 : f.capacity = cap := by obtain ⟨_, _, _, _, _, _, _, rfl⟩ := V2.make_ok h; rfl
  have hle0 : f.count.toNat ≤ f.capacity.toNat := by rw [h2]; exact Nat.zero_le _
  have hle := (V2.accepted_length (env := env) (V2.Reach.make h).wf hle0 ks).2
  have e := V2.inserts_ext env f ks
  rw [← e.capacity] at hle
  refine ⟨fun hf k => ?_, fun hf => ⟨fun ks' => ?_, fun k => ?_⟩⟩
  · have hcc : (V2.inserts env f ks).count ≠ (V2.inserts env f ks).capacity := by
      intro hx; simp [V2.isFull, V2.countEstimate, hx] at hf
    rcases V2.insert_step env hb.reach.wf hle k with ⟨_, h4⟩ | ⟨_, hc, hn⟩ | ⟨h3, _⟩
    · exfalso
      rcases h4 with h4 | ⟨_, _, h4, _⟩
      · rw [h4] at hle hcc
        exact hcc (BitVec.eq_of_toNat_eq (Nat.le_zero.1 hle))
      · exact hcc h4
    · exact absurd hn (hb.buckets hs sp hc)
    · exact ⟨_, by rw [h3]⟩
  · have hcc : (V2.inserts env f ks).count = (V2.inserts env f ks).capacity := by
      simpa [V2.isFull, V2.countEstimate] using hf
    rw [V2.inserts_append]
    have h5 := V2.accepted_length (env := env) hb.reach.wf hle ks'
    have e' := V2.inserts_ext env (V2.inserts env f ks) ks'
    have : (V2.inserts env (V2.inserts env f ks) ks').count
        = (V2.inserts env (V2.inserts env f ks) ks').capacity := by
      rw [e'.capacity]
      apply BitVec.eq_of_toNat_eq
      have := congrArg BitVec.toNat hcc
      omega
    simpa [V2.isFull, V2.countEstimate] using this
  · have hcc : (V2.inserts env f ks).count = (V2.inserts env f ks).capacity := by
      simpa [V2.isFull, V2.countEstimate] using hf
    have ha := V2.allSet_key env (V2.inserts env f ks) k
    rw [e.nHash] at ha
    simp only [← ha, ← hc0, ← e.capacity]
    rcases V2.insert_step env hb.reach.wf hle k with ⟨h3, h4⟩ | ⟨_, hc, hn⟩ | ⟨h3, h4, h5, h6⟩
    · rw [h3, if_neg]
      rintro ⟨h7, h8⟩
      rcases h4 with h4 | ⟨_, _, _, h4⟩
      · exact h7 h4
      · rw [h8] at h4; simp at h4
    · exact absurd hn (hb.buckets hs sp hc)
    · have h7 : V2.allSet env (V2.inserts env f ks) (k.hashPop env.wy) = true := by
        by_contra hx
        exact h6 ⟨hcc, by simpa using hx⟩
      rw [h3, if_pos ⟨h4, h7⟩, h7]; rfl

-- the filter of capacity 1 is full after one insertion
example : (V2.inserts Sample.envUnion Sample.f2s [.slice [1#8]]).isFull = true := by decide +kernel

theorem C15_v1 {env : Env} (sp : env.libm.Spec) (hs : env.Small) {cap : U64} {fpp : F64}
    {f : V1} (h : V1.withCapacity env cap fpp = .ok f) (ks : List (List U8)) :
    ((V1.inserts env f ks).isFull = false →
      ∀ k, ∃ b, ((V1.inserts env f ks).insertBytes env k).2 = .ok b) ∧
    ((V1.inserts env f ks).isFull = true →
      (∀ ks', (V1.inserts env f (ks ++ ks')).isFull = true) ∧
      ∀ k, ((V1.inserts env f ks).insertBytes env k).2 =
        if cap ≠ 0 ∧ ∀ n < f.nHash.toNat,
          bitAt (V1.inserts env f ks).bitset (dcsoProbe k f.bitSize.toNat n) = true
        then .ok false else .err .tooManyEntries) := by
  obtain ⟨_, h2⟩ := V1.make_countOnes h
  have hb := V1.Built.inserts (V1.Built.make h) ks
  have w := hb.reach.wf hs
  have hc0 : f.capacity = cap := by obtain ⟨_, _, rfl⟩ := V1.withCapacity_ok h; rfl
  have hle0 : f.count.toNat ≤ f.capacity.toNat := by rw [h2]; exact Nat.zero_le _
  have hle := (V1.accepted_length (env := env) ((V1.Reach.make h).wf hs) hle0 ks).2
  have e := V1.inserts_ext env f ks
  rw [← e.capacity] at hle
  refine ⟨fun hf k => ?_, fun hf => ⟨fun ks' => ?_, fun k => ?_⟩⟩
  · have hcc : (V1.inserts env f ks).count ≠ (V1.inserts env f ks).capacity := by
      intro hx; simp [V1.isFull, V1.countEstimate, hx] at hf
    have hcl : ¬ (V1.inserts env f ks).capacity ≤ (V1.inserts env f ks).count := by
      intro hx
      rw [BitVec.le_def] at hx
      exact hcc (BitVec.eq_of_toNat_eq (by omega))
    rcases V1.insert_step env w k with ⟨_, h4⟩ | ⟨_, hc, hm, hn⟩ | ⟨h3, _⟩
    · exfalso
      rcases h4 with h4 | ⟨_, _, h4, _⟩
      · rw [h4] at hle hcc
        exact hcc (BitVec.eq_of_toNat_eq (Nat.le_zero.1 hle))
      · exact hcl h4
    · exact absurd ((hb.bits sp).1.1 hm) hn
    · exact ⟨_, by rw [h3]⟩
  · have hcc : (V1.inserts env f ks).count = (V1.inserts env f ks).capacity := by
      simpa [V1.isFull, V1.countEstimate] using hf
    rw [V1.inserts_append]
    have h5 := V1.accepted_length (env := env) w hle ks'
    have e' := V1.inserts_ext env (V1.inserts env f ks) ks'
    have : (V1.inserts env (V1.inserts env f ks) ks').count
        = (V1.inserts env (V1.inserts env f ks) ks').capacity := by
      rw [e'.capacity]
      apply BitVec.eq_of_toNat_eq
      have := congrArg BitVec.toNat hcc
      omega
    simpa [V1.isFull, V1.countEstimate] using this
  · have hcc : (V1.inserts env f ks).count = (V1.inserts env f ks).capacity := by
      simpa [V1.isFull, V1.countEstimate] using hf
    have ha := V1.allSet_iff (V1.inserts env f ks) k
    rw [e.nHash, e.bitSize] at ha
    simp only [← ha, ← hc0, ← e.capacity]
    rcases V1.insert_step env w k with ⟨h3, h4⟩ | ⟨_, hc, hm, hn⟩ | ⟨h3, h4, h5, h6⟩
    · rw [h3, if_neg]
      rintro ⟨h7, h8⟩
      rcases h4 with h4 | ⟨_, _, _, h4⟩
      · exact h7 h4
      · rw [h8] at h4; simp at h4
    · exact absurd ((hb.bits sp).1.1 hm) hn
    · have h7 : (V1.inserts env f ks).allSet k = true := by
        by_contra hx
        exact h6 ⟨by rw [hcc]; exact BitVec.le_refl _, by simpa using hx⟩
      rw [h3, if_pos ⟨h4, h7⟩, h7]; rfl

end Poppy
