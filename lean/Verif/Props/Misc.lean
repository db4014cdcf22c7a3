import Verif.Lemmas.Misc
import Verif.Props.Membership
import Verif.Props.Counting
import Verif.Props.Serial

/-! # Sizes, bit counts, the version independent filter, statistics (C48, C49, C51, C52, C63–C65) -/

namespace Poppy

open Spec

/-! ## C48 size_in_bytes -/

/-- `size_in_bytes` of a v2 filter is the number of bytes of its buckets and index cache. -/
theorem C48_v2 {env : Env} {f : V2} (hf : V2.Reach env f) :
    ∃ n, f.sizeInBytes env = .ok n ∧
      n.toNat = (f.buckets.map fun b => b.asSlice.length).sum + f.indexCache.asSlice.length := by
  have h := hf.fits
  have hl := env.allocLimit_lt
  have hmb := h.mb
  have hmc := h.mc
  obtain ⟨h1, h2⟩ := toNat_mulSmall (a := f.nBuckets) (b := 4096) (by rw [h.nb]; omega) (by omega)
    env.debug
  have hsum : (f.buckets.map fun b => b.asSlice.length).sum = f.buckets.length * 4096 := by
    rw [← length_flatten_buckets, List.length_flatten, List.map_map]; rfl
  have hlt : (f.nBuckets * BitVec.ofNat 64 4096).toNat + f.cacheByteSize.toNat < 2 ^ 64 := by
    rw [h2, h.nb, h.cb]; omega
  refine ⟨f.nBuckets * BitVec.ofNat 64 4096 + f.cacheByteSize, ?_, ?_⟩
  · unfold V2.sizeInBytes
    rw [show BitSet.byteSize BUCKET_SIZE = 4096 from rfl, h1, Res.bind_ok]
    unfold addU64
    rw [if_neg]
    rw [Bool.and_eq_true, decide_eq_true_eq]
    omega
  · rw [BitVec.toNat_add, Nat.mod_eq_of_lt hlt, h2, h.nb, h.cb, hsum]

/-- What v1 reports instead: 8 times the number of bits. -/
theorem C48_v1_partial {env : Env} (hs : env.Small) {f : V1} (hf : V1.Reach env f) :
    ∃ n, f.sizeInBytes env = .ok n ∧ n.toNat = 8 * f.bitSize.toNat ∧
      f.bitset.length * 8 ≤ n.toNat ∧ n.toNat ≤ 64 * (f.bitset.length * 8) := by
  have w := hf.wf hs
  have hfit := hf.fits
  have hmw := hfit.mw
  have hsz := w.size
  unfold Env.Small at hs
  have hnw := (u64SizeFor_small (n := f.bitSize) (by rw [hfit.nw]; omega)).2
  rw [hfit.nw] at hnw
  obtain ⟨h1, h2⟩ := toNat_mulSmall (a := f.bitSize) (b := 8) (by omega) (by omega) env.debug
  refine ⟨f.bitSize * BitVec.ofNat 64 8, h1, by rw [h2]; omega, ?_, ?_⟩ <;> rw [h2] <;> omega

/-- The size reported for v1 is wrong (too large) for every filter with at least two bits. -/
theorem C48_v1_violated {env : Env} (hs : env.Small) {f : V1} (hf : V1.Reach env f)
    (hm : 2 ≤ f.bitSize.toNat) {n : U64} (h : f.sizeInBytes env = .ok n) :
    f.bitset.length * 8 < n.toNat := by
  obtain ⟨n', h', h1, _, _⟩ := C48_v1_partial hs hf
  rw [h] at h'
  cases h'
  have hfit := hf.fits
  have hmw := hfit.mw
  unfold Env.Small at hs
  have hnw := (u64SizeFor_small (n := f.bitSize) (by rw [hfit.nw]; omega)).2
  rw [hfit.nw] at hnw
  omega

-- 15 words are reported as 7664 bytes
example : Sample.f1.sizeInBytes Sample.env = .ok 7664 ∧ Sample.f1.bitset.length * 8 = 120 := by
  decide +kernel
example : Sample.f2.sizeInBytes Sample.env = .ok (2 * 4096 + 1024) := by decide +kernel

/-! ## C49 bit counts -/

/-- `count_ones` and `count_zeros` of a v2 filter: the bits set and unset in its buckets. -/
theorem C49_v2 (f : V2) :
    f.countOnes = ((List.range f.buckets.length).map
      fun b => countBelow 32768 (f.bucketBit b)).sum ∧
    f.countZeros = ((List.range f.buckets.length).map
      fun b => countBelow 32768 (fun i => !f.bucketBit b i)).sum ∧
    f.countOnes + f.countZeros = 32768 * f.buckets.length := by
  have key : ∀ (g : Bucket → ℕ) (h : ℕ → ℕ), (∀ b (hb : b < f.buckets.length),
      g f.buckets[b] = h b) →
      (f.buckets.map g).sum = ((List.range f.buckets.length).map h).sum := by
    intro g h hgh
    congr 1
    apply List.ext_getElem (by simp)
    intro i h1 h2
    simp only [List.getElem_map, List.getElem_range]
    exact hgh i _
  have e1 : f.countOnes = ((List.range f.buckets.length).map
      fun b => countBelow 32768 (f.bucketBit b)).sum := by
    unfold V2.countOnes
    apply key
    intro b hb
    rw [BitSet.countOnes_eq]
    unfold V2.bucketBit
    simp only [List.getD, List.getElem?_eq_getElem hb, Option.getD_some]
    rfl
  have e2 : f.countZeros = ((List.range f.buckets.length).map
      fun b => countBelow 32768 (fun i => !f.bucketBit b i)).sum := by
    unfold V2.countZeros
    apply key
    intro b hb
    rw [BitSet.countZeros_eq]
    unfold V2.bucketBit
    simp only [List.getD, List.getElem?_eq_getElem hb, Option.getD_some]
    rfl
  refine ⟨e1, e2, ?_⟩
  rw [e1, e2]
  generalize f.buckets.length = n
  induction n with
  | zero => simp
  | succ n ih =>
    have := countBelow_not 32768 (f.bucketBit n)
    rw [List.range_succ]
    simp only [List.map_append, List.map_cons, List.map_nil, List.sum_append, List.sum_cons,
      List.sum_nil]
    omega

/-- Same for v1: all bits of the words, including those beyond `bit_size`. -/
theorem C49_v1 (f : V1) :
    f.countOnes = countBelow (f.bitset.length * 64) (bitAt f.bitset) ∧
    f.countZeros = countBelow (f.bitset.length * 64) (fun i => !bitAt f.bitset i) ∧
    f.countOnes + f.countZeros = 64 * f.bitset.length := by
  refine ⟨sum_countOnes _, sum_countZeros _, ?_⟩
  have := countBelow_not (f.bitset.length * 64) (bitAt f.bitset)
  have e1 : f.countOnes = _ := sum_countOnes f.bitset
  have e2 : f.countZeros = _ := sum_countZeros f.bitset
  omega

/-- `bits` lists the first `bit_size` bits in order. -/
theorem C49_v1_bits {env : Env} (hs : env.Small) {f : V1} (hf : V1.Reach env f) :
    f.bits = .ok ((List.range f.bitSize.toNat).map (bitAt f.bitset)) := V1.bits_eq (hf.wf hs)

/-- No insertion sets a padding bit. -/
theorem C49_v1_padding {env : Env} (hs : env.Small) {f : V1} (hf : V1.Reach env f) (k : List U8)
    (hp : ∀ i, bitAt f.bitset i = true → i < f.bitSize.toNat) (i : ℕ)
    (hi : bitAt (f.insertBytes env k).1.bitset i = true) : i < f.bitSize.toNat := by
  have := V1.padding_insert (env := env) (hf.wf hs) k hp i hi
  rwa [(V1.insertBytes_ext env f k).bitSize] at this

/-- So the set bits of a filter made by insertions, unions and so on are among the first `bit_size`,
and `count_ones` counts the true entries of `bits`. -/
theorem C49_v1_holds {env : Env} (hs : env.Small) {f : V1} {S : List (List U8)}
    (h : V1.Holds env f S) :
    (∀ i, bitAt f.bitset i = true → i < f.bitSize.toNat) ∧
    ∃ l, f.bits = .ok l ∧ f.countOnes = l.count true := by
  have w := h.built.reach.wf hs
  have h1 : ∀ i, bitAt f.bitset i = true → i < f.bitSize.toNat := by
    intro i hi
    have hi' := hi
    rw [C03_v1_bits hs h] at hi
    obtain ⟨k, _, n, _, rfl⟩ := hi
    by_cases hm : f.bitSize = 0
    · have hn := V1.bitset_nil h.built.reach.fits hm
      rw [hn] at hi'
      simp [bitAt] at hi'
    · exact V1.probe_lt k hm n
  refine ⟨h1, _, V1.bits_eq w, ?_⟩
  have hle := w.size
  rw [(C49_v1 f).1, show f.bitset.length * 64 = f.bitSize.toNat
    + (f.bitset.length * 64 - f.bitSize.toNat) by omega, countBelow_add]
  have hz : countBelow (f.bitset.length * 64 - f.bitSize.toNat)
      (fun i => bitAt f.bitset (f.bitSize.toNat + i)) = 0 := by
    rw [countBelow_congr (q := fun _ => false), countBelow_false]
    intro i _
    by_contra hc
    have := h1 _ (by simpa using hc)
    omega
  rw [hz, Nat.add_zero, List.count, List.countP_map]
  unfold countBelow
  apply List.countP_congr
  simp

example : (Sample.f1.insertBytes Sample.env [1#8]).1.countOnes = 7 := by decide +kernel

/-! ## C51 the version independent filter -/

/-- Every operation acts on the wrapped filter (`union_merge` and `count_common_entries` use other
error messages, so for them success, panic and state are compared). -/
theorem C51_operations (env : Env) :
    (∀ (f : V1) (k : List U8), (Bloom.v1 f).insertBytes env k
        = (.v1 (f.insertBytes env k).1, (f.insertBytes env k).2) ∧
      (Bloom.v1 f).containsBytes env k = f.containsBytes k) ∧
    (∀ (f : V2) (k : List U8), (Bloom.v2 f).insertBytes env k
        = (.v2 (f.insertBytes env k).1, (f.insertBytes env k).2) ∧
      (Bloom.v2 f).containsBytes env k = f.containsBytes env k) ∧
    (∀ (f o : V1), ((Bloom.v1 f).unionMerge env (.v1 o)).1 = .v1 (f.unionMerge env o).1 ∧
      (((Bloom.v1 f).unionMerge env (.v1 o)).2 = (f.unionMerge env o).2 ∨
        ∃ m m', ((Bloom.v1 f).unionMerge env (.v1 o)).2 = .err (.merge m) ∧
          (f.unionMerge env o).2 = .err (.merge m')) ∧
      (Bloom.v1 f).countCommonEntries env (.v1 o) = f.countCommonEntries env o) ∧
    (∀ (f o : V2), ((Bloom.v2 f).unionMerge env (.v2 o)).1 = .v2 (f.unionMerge env o).1 ∧
      (((Bloom.v2 f).unionMerge env (.v2 o)).2 = (f.unionMerge env o).2 ∨
        ∃ m m', ((Bloom.v2 f).unionMerge env (.v2 o)).2 = .err (.merge m) ∧
          (f.unionMerge env o).2 = .err (.merge m')) ∧
      (Bloom.v2 f).countCommonEntries env (.v2 o) = f.countCommonEntries env o) := by
  refine ⟨fun f k => ⟨rfl, rfl⟩, fun f k => ⟨rfl, rfl⟩, fun f o => ?_, fun f o => ?_⟩
  · have e : (Bloom.v1 f).hasSameParams (.v1 o) = .ok (f.hasSameParams o) := rfl
    unfold Bloom.unionMerge Bloom.countCommonEntries
    rw [e]
    cases hp : f.hasSameParams o with
    | true => exact ⟨rfl, Or.inl rfl, rfl⟩
    | false =>
      have h1 : f.unionMerge env o = (f, .err (.merge
        "cannot make union of bloom filters with different parameters")) := by
        rw [V1.unionMerge_eq, hp]; rfl
      have h2 : f.countCommonEntries env o
          = .err (.merge "cannot compare filters with different parameters") := by
        unfold V1.countCommonEntries; rw [hp]; rfl
      rw [h1, h2]
      exact ⟨rfl, Or.inr ⟨_, _, rfl, rfl⟩, rfl⟩
  · have e : (Bloom.v2 f).hasSameParams (.v2 o) = .ok (f.hasSameParams o) := rfl
    unfold Bloom.unionMerge Bloom.countCommonEntries
    rw [e]
    cases hp : f.hasSameParams o with
    | true => exact ⟨rfl, Or.inl rfl, rfl⟩
    | false =>
      have h1 : f.unionMerge env o = (f, .err (.merge
        "cannot make union of bloom filters with different parameters")) := by
        rw [V2.unionMerge_eq, hp]; rfl
      have h2 : f.countCommonEntries env o
          = .err (.merge "cannot compare filters with different parameters") := by
        unfold V2.countCommonEntries; rw [hp]; rfl
      rw [h1, h2]
      exact ⟨rfl, Or.inr ⟨_, _, rfl, rfl⟩, rfl⟩

/-- The accessors, `clear`, `write` and `version`. -/
theorem C51_accessors (env : Env) (s : Sink) :
    (∀ f : V1, (Bloom.v1 f).clear = .v1 f.clear ∧ (Bloom.v1 f).write s = f.write s ∧
      (Bloom.v1 f).version = 1 ∧ (Bloom.v1 f).capacity = f.capacity ∧ (Bloom.v1 f).fpp = f.fpp ∧
      (Bloom.v1 f).countEstimate = f.countEstimate ∧ (Bloom.v1 f).isFull = f.isFull ∧
      (Bloom.v1 f).data = f.data ∧ (Bloom.v1 f).sizeInBytes env = f.sizeInBytes env) ∧
    (∀ f : V2, (Bloom.v2 f).clear = .v2 f.clear ∧ (Bloom.v2 f).write s = f.write s ∧
      (Bloom.v2 f).version = 2 ∧ (Bloom.v2 f).capacity = f.capacity ∧ (Bloom.v2 f).fpp = f.fpp ∧
      (Bloom.v2 f).countEstimate = f.countEstimate ∧ (Bloom.v2 f).isFull = f.isFull ∧
      (Bloom.v2 f).data = f.data ∧ (Bloom.v2 f).sizeInBytes env = f.sizeInBytes env) :=
  ⟨fun _ => ⟨rfl, rfl, rfl, rfl, rfl, rfl, rfl, rfl, rfl⟩,
    fun _ => ⟨rfl, rfl, rfl, rfl, rfl, rfl, rfl, rfl, rfl⟩⟩

/-- No operation changes the version. -/
theorem C51_version_kept (env : Env) (f o : Bloom) (k : List U8) (ds : List (List U8)) :
    (f.insertBytes env k).1.version = f.version ∧ (f.unionMerge env o).1.version = f.version ∧
    f.clear.version = f.version ∧ (f.fill env ds).1.version = f.version := by
  have hi : ∀ (f : Bloom) (k : List U8), (f.insertBytes env k).1.version = f.version := by
    intro f k; cases f <;> rfl
  refine ⟨hi f k, ?_, by cases f <;> rfl, ?_⟩
  · unfold Bloom.unionMerge
    split
    · rfl
    · cases f <;> cases o <;> rfl
    · rfl
    · rfl
  · induction ds generalizing f with
    | nil => rfl
    | cons d ds ih =>
      rw [Bloom.fill]
      have := hi f d
      split <;> rename_i he <;> rw [he] at this
      · rw [ih]; exact this
      · exact this
      · exact this

/-- Reading: the common reader accepts exactly the files accepted by the reader of either version,
and gives the same filter. -/
theorem C51_readers (env : Env) (bs : List U8) :
    (∀ f, Bloom.fromReader env (Reader.ofBytes bs) = .ok (.v1 f) ↔
      V1.fromReader env (Reader.ofBytes bs) = .ok f) ∧
    (∀ f, Bloom.fromReader env (Reader.ofBytes bs) = .ok (.v2 f) ↔
      V2.fromReader env (Reader.ofBytes bs) = .ok f) := by
  constructor
  · intro f
    unfold Bloom.fromReader Bloom.fromReaderAux V1.fromReader V1.fromReader'
    cases readFlags (Reader.ofBytes bs) with
    | err e => simp
    | panic => simp
    | ok x =>
      obtain ⟨fl, r⟩ := x
      simp only [Res.bind_ok]
      by_cases h1 : fl.version = 1#8
      · rw [if_pos h1, if_neg (by simpa using h1)]
        cases V1.fromReaderWithFlags env fl false r <;> simp [Res.map]
      · rw [if_neg h1, if_pos h1]
        by_cases h2 : fl.version = 2#8
        · rw [if_pos h2]
          cases V2.fromReaderWithFlags env fl false r <;> simp [Res.map]
        · rw [if_neg h2]; simp
  · intro f
    unfold Bloom.fromReader Bloom.fromReaderAux V2.fromReader V2.fromReader'
    cases readFlags (Reader.ofBytes bs) with
    | err e => simp
    | panic => simp
    | ok x =>
      obtain ⟨fl, r⟩ := x
      simp only [Res.bind_ok]
      by_cases h2 : fl.version = 2#8
      · rw [if_neg (by rw [h2]; decide), if_pos h2, if_neg (by simpa using h2)]
        cases V2.fromReaderWithFlags env fl false r <;> simp [Res.map]
      · rw [if_neg h2, if_pos h2]
        by_cases h1 : fl.version = 1#8
        · rw [if_pos h1]
          cases V1.fromReaderWithFlags env fl false r <;> simp [Res.map]
        · rw [if_neg h1]; simp

/-- C48 when only the metadata of a file is read (no bucket is in memory then): the size
reported is that of the filter in the file. -/
theorem C48_v2_metadata {env : Env} {bs : List U8} {f : V2} {g : Bloom}
    (h : Bloom.fromReader env (Reader.ofBytes bs) = .ok (.v2 f))
    (hg : Bloom.partialFromReader env (Reader.ofBytes bs) = .ok g) :
    ∃ n, g.sizeInBytes env = .ok n ∧
      n.toNat = (f.buckets.map fun b => b.asSlice.length).sum + f.indexCache.asSlice.length := by
  obtain ⟨g', hg', _, _, _, _, _, _, hs, _⟩ := C27_partial_metadata env bs _ h
  rw [hg] at hg'
  cases hg'
  rw [hs]
  exact C48_v2 (.load (((C51_readers env bs).2 f).1 h))

/-- The `Params` builders set the named field only, in any order; `try_into` follows the version,
`try_into_v1` and `try_into_v2` ignore it, and unknown versions are refused. -/
theorem C51_params (env : Env) (cap : U64) (fpp : F64) (v : U8) (o : OptLevel) :
    (Params.new cap fpp = ⟨2, cap, fpp, .none⟩) ∧
    (∀ p : Params, p.withVersion v = ⟨v, p.capacity, p.fpp, p.opt⟩ ∧
      p.withOpt o = ⟨p.version, p.capacity, p.fpp, o⟩ ∧
      (p.withVersion v).withOpt o = (p.withOpt o).withVersion v ∧
      (p.withVersion v).tryIntoV1 env = p.tryIntoV1 env ∧
      (p.withVersion v).tryIntoV2 env = p.tryIntoV2 env ∧
      (p.withOpt o).tryIntoV1 env = p.tryIntoV1 env ∧
      (∀ f, (p.withVersion 1).tryInto env = .ok f ↔ ∃ g, f = .v1 g ∧ p.tryIntoV1 env = .ok g) ∧
      (∀ f, (p.withVersion 2).tryInto env = .ok f ↔ ∃ g, f = .v2 g ∧ p.tryIntoV2 env = .ok g) ∧
      (v ≠ 1 → v ≠ 2 → (p.withVersion v).tryInto env = .err (.invalidVersion v))) ∧
    (∀ f, Bloom.withCapacity env cap fpp = .ok f ↔ (Params.new cap fpp).tryInto env = .ok f) := by
  refine ⟨rfl, fun p => ⟨rfl, rfl, rfl, rfl, rfl, rfl, fun f => ?_, fun f => ?_, fun h1 h2 => ?_⟩,
    fun f => ?_⟩
  · show (V1.withCapacity env p.capacity p.fpp).map Bloom.v1 = .ok f ↔ _
    unfold Params.tryIntoV1
    cases V1.withCapacity env p.capacity p.fpp <;> simp [Res.map, eq_comm]
  · show (V2.make env p.capacity p.fpp p.opt).map Bloom.v2 = .ok f ↔ _
    unfold Params.tryIntoV2
    cases V2.make env p.capacity p.fpp p.opt <;> simp [Res.map, eq_comm]
  · show Bloom.withVersionCapacityOpt env v _ _ _ = _
    unfold Bloom.withVersionCapacityOpt
    split_ifs with a b
    · exact absurd a h1
    · exact absurd b h2
    · rfl
  · exact Iff.rfl

example : ∃ f, ((Params.new 100 Sample.p001).withVersion 1).tryInto Sample.env = .ok (.v1 f) := by
  refine ⟨Sample.f1, ?_⟩
  show (V1.withCapacity Sample.env 100 Sample.p001).map Bloom.v1 = _
  rw [Sample.f1_make]; rfl

/-! ## C52 fill -/

/-- A successful `fill` is the insertion of all entries in order, each of which succeeds. -/
theorem C52_fill_ok {env : Env} (f g : Bloom) (ds : List (List U8)) :
    f.fill env ds = (g, .ok ()) ↔ f.AllOk env ds ∧ g = f.inserts env ds := by
  constructor
  · intro h
    exact ⟨(Bloom.fill_ok h).2, (Bloom.fill_ok h).1⟩
  · rintro ⟨h, rfl⟩
    exact Bloom.fill_of_allOk h

/-- After a successful `fill` every entry is contained. -/
theorem C52_fill_contains {env : Env} (hs : env.Small) {f g : Bloom} (hf : f.Reach env)
    (hb : f.HasBits) {ds : List (List U8)} (h : f.fill env ds = (g, .ok ())) :
    ∀ k ∈ ds, g.containsBytes env k = .ok true := by
  obtain ⟨rfl, hok⟩ := Bloom.fill_ok h
  clear h
  induction ds generalizing f with
  | nil => simp
  | cons d ds ih =>
    obtain ⟨⟨b, h1⟩, h2⟩ := hok
    intro k hk
    rcases List.mem_cons.1 hk with rfl | hk
    · cases f with
      | v1 f =>
        rw [Bloom.inserts_v1]
        exact C02_no_false_negative_partial hs hf hb (g := (f.insertBytes env k).1) (b := b)
          (by rw [← h1]; rfl) (V1.keeps_inserts env _ _ ds .refl)
      | v2 f =>
        rw [Bloom.inserts_v2]
        exact C01_no_false_negative hs hf (k := .slice k) (g := (f.insert env (.slice k)).1) (b := b)
          (by rw [← h1]; rfl) (V2.keeps_inserts env _ _ _ (ds.map Key.slice) .refl)
    · exact ih (hf.insert d) (hb.insert d) h2 k hk

/-- A failed `fill` leaves the filter with exactly the entries before the failing one. -/
theorem C52_fill_err {env : Env} (hs : env.Small) {f g : Bloom} (hf : f.Reach env)
    {ds : List (List U8)} {e : Error} (h : f.fill env ds = (g, .err e)) :
    e = .tooManyEntries ∧ ∃ pre k post, ds = pre ++ k :: post ∧ f.AllOk env pre ∧
      g = f.inserts env pre ∧ g.insertBytes env k = (g, .err e) := by
  obtain ⟨pre, k, post, h1, h2, h3⟩ := Bloom.fill_fail h (by simp)
  rcases h3 with ⟨e', he, h3⟩ | ⟨h3, _⟩
  · cases he
    obtain ⟨rfl, he⟩ := Bloom.insert_err hs (hf.inserts pre) h3
    exact ⟨he, pre, k, post, h1, h2, rfl, h3⟩
  · cases h3

example : ((Bloom.v1 Sample.f1).fill Sample.env [[1#8], [2#8], [1#8]]).2 = .ok () := by
  decide +kernel
-- a filter of capacity 1 refuses the second entry
example : ((Bloom.v2 Sample.f2s).fill Sample.env [[1#8], [2#8]]).2 = .err .tooManyEntries := by
  decide +kernel

/-! ## C63 ByteSize -/

/-- Equality, ordering and hashing only depend on the number of bytes. -/
theorem C63_compare (a b : ByteSize) :
    (a.eq b = true ↔ a.inBytes.toNat = b.inBytes.toNat) ∧
    (a.cmp b = .lt ↔ a.inBytes.toNat < b.inBytes.toNat) ∧
    (a.cmp b = .eq ↔ a.eq b = true) ∧
    (a.cmp b = .gt ↔ b.inBytes.toNat < a.inBytes.toNat) ∧
    (a.hashWrites = b.hashWrites ↔ a.eq b = true) ∧
    a.asBytes.eq a = true := by
  have he : a.eq b = true ↔ a.inBytes.toNat = b.inBytes.toNat := by
    unfold ByteSize.eq
    rw [beq_iff_eq]
    exact ⟨fun h => by rw [h], BitVec.eq_of_toNat_eq⟩
  refine ⟨he, ?_, ?_, ?_, ?_, ?_⟩
  · unfold ByteSize.cmp; rw [Nat.compare_eq_lt]
  · unfold ByteSize.cmp; rw [Nat.compare_eq_eq, he]
  · unfold ByteSize.cmp; rw [Nat.compare_eq_gt]
  · unfold ByteSize.hashWrites ByteSize.eq
    rw [beq_iff_eq]
    simp only [List.cons.injEq, and_true]
    exact ⟨fun h => by rw [← u64OfLe_u64ToLe a.inBytes, h, u64OfLe_u64ToLe], fun h => by rw [h]⟩
  · cases a <;> simp [ByteSize.asBytes, ByteSize.eq, ByteSize.inBytes]

/-- Values scaled by units. -/
theorem C63_from_bytes (b : U64) :
    (ByteSize.fromBytes b).inBytes = b ∧
    (ByteSize.fromBits b).inBytes.toNat = b.toNat / 8 ∧
    ((ByteSize.fromBytes b).unitStr = "B" ↔ b.toNat < 2 ^ 10) ∧
    ((ByteSize.fromBytes b).unitStr = "KB" ↔ 2 ^ 10 ≤ b.toNat ∧ b.toNat < 2 ^ 20) ∧
    ((ByteSize.fromBytes b).unitStr = "MB" ↔ 2 ^ 20 ≤ b.toNat ∧ b.toNat < 2 ^ 30) ∧
    ((ByteSize.fromBytes b).unitStr = "GB" ↔ 2 ^ 30 ≤ b.toNat) := by
  have hin : ∀ b, (ByteSize.fromBytes b).inBytes = b := by
    intro b; unfold ByteSize.fromBytes; split_ifs <;> rfl
  have hk : KILO.toNat = 2 ^ 10 := by decide
  have hm : MEGA.toNat = 2 ^ 20 := by decide
  have hg : GIGA.toNat = 2 ^ 30 := by decide
  refine ⟨hin b, ?_, ?_⟩
  · unfold ByteSize.fromBits; rw [hin, BitVec.toNat_udiv]; rfl
  · unfold ByteSize.fromBytes
    simp only [BitVec.lt_def, hk, hm, hg]
    split_ifs <;> simp [ByteSize.unitStr] <;> omega

/-- The displayed number is at least 1 (from a kilobyte on) and below 1024 (below a gigabyte); it
is the exact quotient up to 8 PiB. -/
theorem C63_in_unit (b : U64) : ∃ q : ℚ, (ByteSize.fromBytes b).inUnit = .fin q ∧
    (2 ^ 10 ≤ b.toNat → 1 ≤ q) ∧ (b.toNat < 2 ^ 30 → q < 1024) ∧
    (b.toNat ≤ 2 ^ 53 → q = b.toNat / (if b.toNat < 2 ^ 10 then 1 else if b.toNat < 2 ^ 20 then 2 ^ 10
      else if b.toNat < 2 ^ 30 then 2 ^ 20 else 2 ^ 30)) := by
  have hk : KILO.toNat = 2 ^ 10 := by decide
  have hm : MEGA.toNat = 2 ^ 20 := by decide
  have hg : GIGA.toNat = 2 ^ 30 := by decide
  have hdiv := ByteSize.div_pow b
  unfold ByteSize.fromBytes
  simp only [BitVec.lt_def, hk, hm, hg]
  split_ifs with h1 h2 h3
  · refine ⟨b.toNat, ofU64_exact (by omega), fun h => by omega, fun _ => ?_, fun _ => by simp⟩
    exact_mod_cast (by omega : b.toNat < 1024)
  · obtain ⟨q, a1, a2, a3⟩ := hdiv KILO 10 hk (by omega)
    refine ⟨q, a1, a2, fun _ => ?_, fun h => a3 h⟩
    rw [a3 (by omega), div_lt_iff₀ (by positivity)]
    exact_mod_cast (by omega : b.toNat < 1024 * 2 ^ 10)
  · obtain ⟨q, a1, a2, a3⟩ := hdiv MEGA 20 hm (by omega)
    refine ⟨q, a1, fun _ => a2 (by omega), fun _ => ?_, fun h => a3 h⟩
    rw [a3 (by omega), div_lt_iff₀ (by positivity)]
    exact_mod_cast (by omega : b.toNat < 1024 * 2 ^ 20)
  · obtain ⟨q, a1, a2, a3⟩ := hdiv GIGA 30 hg (by omega)
    exact ⟨q, a1, fun _ => a2 (by omega), fun h => by omega, fun h => a3 h⟩

/-- `in_mb` is the number of megabytes, whatever the unit; it is exact up to 8 PiB. -/
theorem C63_in_mb (a b : ByteSize) :
    (∃ q : ℚ, a.inMb = .fin q ∧ (2 ^ 20 ≤ a.inBytes.toNat → 1 ≤ q) ∧
      (a.inBytes.toNat ≤ 2 ^ 53 → q = a.inBytes.toNat / 2 ^ 20)) ∧
    (a.eq b = true → a.inMb = b.inMb) := by
  have e : ∀ a : ByteSize, a.inMb = FVal.div (FVal.ofU64 a.inBytes) (FVal.ofU64 MEGA) := by
    intro a; cases a <;> rfl
  refine ⟨?_, fun h => ?_⟩
  · rw [e]
    exact ByteSize.div_pow _ MEGA 20 (by decide) (by omega)
  · unfold ByteSize.eq at h
    rw [e, e, beq_iff_eq.1 h]

example : (ByteSize.fromBytes (3 * 2 ^ 19)).inMb = .fin (3 / 2) := by
  obtain ⟨⟨q, h1, _, h2⟩, _⟩ := C63_in_mb (.fromBytes (3 * 2 ^ 19)) (.bytes 0)
  have hn : (ByteSize.fromBytes (3 * 2 ^ 19)).inBytes.toNat = 1572864 := by decide +kernel
  rw [h1, h2 (by decide +kernel), hn]
  norm_num

/-- The displayed text is the number in the unit with one decimal, followed by the unit. -/
theorem C63_display (fmt1 : FVal → String) (b : U64) :
    ∃ q : ℚ, ∃ u, (ByteSize.fromBytes b).display fmt1 = fmt1 (.fin q) ++ u ∧
      (b.toNat ≤ 2 ^ 53 → (u, q) = if b.toNat < 2 ^ 10 then ("B", (b.toNat : ℚ))
        else if b.toNat < 2 ^ 20 then ("KB", b.toNat / 2 ^ 10)
        else if b.toNat < 2 ^ 30 then ("MB", b.toNat / 2 ^ 20) else ("GB", b.toNat / 2 ^ 30)) := by
  obtain ⟨q, h1, _, _, h2⟩ := C63_in_unit b
  obtain ⟨_, _, u1, u2, u3, u4⟩ := C63_from_bytes b
  refine ⟨q, (ByteSize.fromBytes b).unitStr, by unfold ByteSize.display; rw [h1], fun h => ?_⟩
  rw [h2 h]
  split_ifs with a1 a2 a3
  · rw [u1.2 a1, div_one]
  · rw [u2.2 (by omega)]
  · rw [u3.2 (by omega)]
  · rw [u4.2 (by omega)]

/-- `from_mb` gives that many megabytes as long as the number of bytes fits in 64 bits; otherwise it
panics in debug builds and wraps in release builds. -/
theorem C63_from_mb (debug : Bool) (mb : U64) :
    (mb.toNat < 2 ^ 44 → ∃ s, ByteSize.fromMb debug mb = .ok s ∧
      s.inBytes.toNat = mb.toNat * 2 ^ 20) ∧
    (2 ^ 44 ≤ mb.toNat → debug = true → ByteSize.fromMb debug mb = .panic) ∧
    (debug = false → ∃ s, ByteSize.fromMb debug mb = .ok s ∧
      s.inBytes.toNat = mb.toNat * 2 ^ 20 % 2 ^ 64) := by
  have hm : MEGA.toNat = 2 ^ 20 := by decide
  have hin : ∀ b, (ByteSize.fromBytes b).inBytes = b := fun b => (C63_from_bytes b).1
  unfold ByteSize.fromMb mulU64
  refine ⟨fun h => ?_, fun h hd => ?_, fun hd => ?_⟩
  · rw [if_neg (by rw [Bool.and_eq_true, decide_eq_true_eq, hm]; omega), Res.bind_ok]
    refine ⟨_, rfl, ?_⟩
    rw [hin, BitVec.toNat_mul, hm, Nat.mod_eq_of_lt (by omega)]
  · rw [if_pos (by rw [Bool.and_eq_true, decide_eq_true_eq, hm]; exact ⟨hd, by omega⟩)]
    rfl
  · rw [if_neg (by rw [hd]; simp), Res.bind_ok]
    exact ⟨_, rfl, by rw [hin, BitVec.toNat_mul, hm]⟩

example : (ByteSize.fromBytes 1536).display (fun q => if q = .fin (3 / 2) then "1.5" else "")
    = "1.5KB" := by decide +kernel
example : (ByteSize.kilo 5).eq (ByteSize.bytes 5) = true := by decide

/-! ## C64 Stats -/

/-- Event counts, total and false positive rate after any sequence of fewer than `2^53` events. -/
theorem C64_stats (evs : List Stats.Event) (h : evs.length < 2 ^ 53) :
    (evs.foldl Stats.record Stats.new).total.toNat = evs.length ∧
    ((evs.foldl Stats.record Stats.new).fpRate = .nan ↔
      evs.count .fp = 0 ∧ evs.count .tn = 0) ∧
    (evs.count .fp + evs.count .tn ≠ 0 → ∃ q : ℚ,
      (evs.foldl Stats.record Stats.new).fpRate = .fin q ∧ 0 ≤ q ∧ q ≤ 1 ∧
      q = rndQ (evs.count .fp / (evs.count .fp + evs.count .tn) : ℚ) ∧
      (evs.count .fp = 0 → q = 0) ∧ (evs.count .tn = 0 → q = 1)) := by
  have hle : evs.count .fp + evs.count .tn ≤ evs.length := by
    clear h
    induction evs with
    | nil => simp
    | cons e evs ih => cases e <;> simp <;> omega
  obtain ⟨_, _, h3, h4, h5⟩ := Stats.run_exact evs h
  have hadd : FVal.add (.fin (evs.count .tn : ℕ)) (.fin (evs.count .fp : ℕ))
      = .fin ((evs.count .fp + evs.count .tn : ℕ) : ℚ) := by
    unfold FVal.add
    have := rnd_nat (m := evs.count .fp + evs.count .tn) (by omega)
    rw [← this]
    push_cast
    rw [add_comm]
  refine ⟨h5, ?_⟩
  have hr : (evs.foldl Stats.record Stats.new).fpRate
      = FVal.div (.fin (evs.count .fp : ℕ)) (.fin ((evs.count .fp + evs.count .tn : ℕ) : ℚ)) := by
    unfold Stats.fpRate
    rw [h3, h4, hadd]
  rw [hr]
  generalize List.count Stats.Event.fp evs = x at *
  generalize List.count Stats.Event.tn evs = y at *
  by_cases hz : x + y = 0
  · have hx : x = 0 := by omega
    have hy : y = 0 := by omega
    subst hx hy
    simp [FVal.div, FVal.infTimes]
  · have hpos : (0 : ℚ) < ((x + y : ℕ) : ℚ) := by
      exact_mod_cast Nat.pos_of_ne_zero hz
    have hq0 : (0 : ℚ) ≤ (x : ℚ) / ((x + y : ℕ) : ℚ) := by positivity
    have hq1 : (x : ℚ) / ((x + y : ℕ) : ℚ) ≤ 1 := by
      rw [div_le_one hpos]; exact_mod_cast Nat.le_add_right x y
    have hd : FVal.div (.fin (x : ℕ)) (.fin ((x + y : ℕ) : ℚ))
        = .fin (rndQ ((x : ℚ) / ((x + y : ℕ) : ℚ))) := by
      unfold FVal.div
      simp only
      rw [if_neg (ne_of_gt hpos)]
      exact (rnd_fin (K := ℚ) isF_one (by simpa using two_pow_lt_f64Huge (n := 0) (by norm_num))
        (by rw [abs_of_nonneg hq0]; exact_mod_cast hq1)).1
    rw [hd]
    refine ⟨⟨(fun h => by cases h), (fun h => by omega)⟩, fun _ => ⟨_, rfl, ?_, ?_, ?_, ?_, ?_⟩⟩
    · exact le_rndQ _ isF_zero (by exact_mod_cast hq0)
    · exact rndQ_le _ isF_one (by exact_mod_cast hq1)
    · push_cast; rfl
    · intro hx
      subst hx
      have := rndQ_of_isF (K := ℚ) isF_zero
      simpa using this
    · intro hy
      subst hy
      have := rndQ_of_isF (K := ℚ) isF_one
      rw [Nat.add_zero, div_self (by simpa using ne_of_gt hpos)]
      simpa using this

example : ([Stats.Event.fp, .tn, .tp, .tn, .tn].foldl Stats.record Stats.new).fpRate
    = .fin (1 / 4) := by decide +kernel

/-! ## C65 ideal false positive rate -/

/-- The fraction of tuples of `k` positions of a v2 bucket whose bits are all set is
`(ones / 32768)^k`. -/
theorem C65_v2_fraction (f : V2) (b k : ℕ) :
    (Fintype.card {t : Fin k → Fin 32768 // ∀ j, f.bucketBit b (t j) = true} : ℚ)
        / Fintype.card (Fin k → Fin 32768)
      = (countBelow 32768 (f.bucketBit b) / 32768 : ℚ) ^ k := by
  rw [card_tuples, Fintype.card_fun, Fintype.card_fin, Fintype.card_fin, div_pow]
  push_cast
  rfl

/-- A key is a member exactly when its capacity is not 0, its tuple of probes is one of them and its
index cache bit (if there is a cache) is set. -/
theorem C65_v2_member {env : Env} {f : V2} (hf : V2.Reach env f) (hb : f.buckets ≠ []) (q : Key) :
    f.contains env q = .ok true ↔ f.capacity ≠ 0 ∧
      (∀ j : Fin f.nHashBuck.toNat, f.bucketBit (f.keyBucket env q) (V2.keyProbe env q j) = true) ∧
      (f.indexCache.asSlice ≠ [] → bitAt f.indexCache.asSlice (f.keyCache env q) = true) := by
  by_cases hc : f.capacity = 0
  · rw [V2.contains_noCap env q hc]; simp [hc]
  rw [V2.contains_eq env hf.wf q hc hb, Res.ok.injEq, Bool.and_eq_true, V2.allSet_key]
  have hca : f.cacheOk (q.hashPop env.wy) = true ↔
      (f.indexCache.asSlice ≠ [] → bitAt f.indexCache.asSlice (f.keyCache env q) = true) := by
    by_cases he : f.indexCache.asSlice = []
    · simp [V2.cacheOk, he]
    · rw [V2.keyCache_eq env hf.wf he]
      have : f.indexCache.asSlice.isEmpty = false := by simpa using he
      simp [V2.cacheOk, this, he]
  rw [hca]
  constructor
  · rintro ⟨h1, h2⟩
    exact ⟨hc, fun j => h2 j j.isLt, h1⟩
  · rintro ⟨_, h1, h2⟩
    exact ⟨h2, fun n hn => h1 ⟨n, hn⟩⟩

/-- After `n` accepted insertions into a new v2 filter the fraction is at most
`(k n / 32768)^k` in every bucket. -/
theorem C65_v2_bound {env : Env} {cap : U64} {fpp : F64} {opt : OptLevel} {f0 f : V2}
    (h0 : V2.make env cap fpp opt = .ok f0) (ks : List Key) (hf : f = V2.inserts env f0 ks) (b : ℕ) :
    (Fintype.card {t : Fin f.nHashBuck.toNat → Fin 32768 // ∀ j, f.bucketBit b (t j) = true} : ℚ)
        / Fintype.card (Fin f.nHashBuck.toNat → Fin 32768)
      ≤ (f.nHashBuck.toNat * (V2.accepted env f0 ks).length / 32768 : ℚ) ^ f.nHashBuck.toNat := by
  obtain ⟨m1, m2⟩ := V2.make_countOnes h0
  have w := (V2.Reach.make h0).wf
  have hle : f0.count.toNat ≤ f0.capacity.toNat := by rw [m2]; exact Nat.zero_le _
  have h1 := V2.inserts_ones (env := env) w hle ks (by rw [m1]; omega)
  have h2 := (V2.accepted_length (env := env) w hle ks).1
  have hz : (0 : U64).toNat = 0 := rfl
  rw [m2, hz, Nat.zero_add] at h2
  rw [← hf] at h1 h2
  have hsh : V2.Shape f0 f := by rw [hf]; exact V2.inserts_shape env f0 ks
  rw [C65_v2_fraction]
  have hones : countBelow 32768 (f.bucketBit b) ≤ f.countOnes := by
    by_cases hb : b < f.buckets.length
    · rw [(C49_v2 f).1]
      exact List.single_le_sum (fun _ _ => Nat.zero_le _) _
        (List.mem_map.2 ⟨b, List.mem_range.2 hb, rfl⟩)
    · rw [countBelow_congr (q := fun _ => false), countBelow_false]
      · omega
      · intro i _
        unfold V2.bucketBit
        have hn : f.buckets[b]? = none := List.getElem?_eq_none (by omega)
        simp only [List.getD, hn, Option.getD_none]
        exact BitSet.bitAt_new i
  refine pow_le_pow_left₀ (div_nonneg (Nat.cast_nonneg _) (by norm_num)) ?_ _
  refine div_le_div_of_nonneg_right ?_ (by norm_num)
  have : countBelow 32768 (f.bucketBit b) ≤ f.nHashBuck.toNat * (V2.accepted env f0 ks).length := by
    rw [← h2, hsh.nHash]; omega
  exact_mod_cast this

/-- Same for v1: the fraction of tuples of `k` positions is `(ones / m)^k`, at most `(k n / m)^k`
after `n` accepted insertions into a new filter. -/
theorem C65_v1 {env : Env} (hs : env.Small) {cap : U64} {fpp : F64} {f0 f : V1}
    (h0 : V1.withCapacity env cap fpp = .ok f0) (ks : List (List U8))
    (hf : f = V1.inserts env f0 ks) :
    (Fintype.card {t : Fin f.nHash.toNat → Fin f.bitSize.toNat // ∀ j, bitAt f.bitset (t j) = true} : ℚ)
        / Fintype.card (Fin f.nHash.toNat → Fin f.bitSize.toNat)
      = (countBelow f.bitSize.toNat (bitAt f.bitset) / f.bitSize.toNat : ℚ) ^ f.nHash.toNat ∧
    (Fintype.card {t : Fin f.nHash.toNat → Fin f.bitSize.toNat // ∀ j, bitAt f.bitset (t j) = true} : ℚ)
        / Fintype.card (Fin f.nHash.toNat → Fin f.bitSize.toNat)
      ≤ (f.nHash.toNat * (V1.accepted env f0 ks).length / f.bitSize.toNat : ℚ) ^ f.nHash.toNat := by
  have hfr : (Fintype.card {t : Fin f.nHash.toNat → Fin f.bitSize.toNat //
        ∀ j, bitAt f.bitset (t j) = true} : ℚ)
        / Fintype.card (Fin f.nHash.toNat → Fin f.bitSize.toNat)
      = (countBelow f.bitSize.toNat (bitAt f.bitset) / f.bitSize.toNat : ℚ) ^ f.nHash.toNat := by
    rw [card_tuples, Fintype.card_fun, Fintype.card_fin, Fintype.card_fin, div_pow]
    push_cast
    rfl
  refine ⟨hfr, ?_⟩
  rw [hfr]
  obtain ⟨m1, m2⟩ := V1.make_countOnes h0
  have w := (V1.Reach.make h0).wf hs
  have hle : f0.count.toNat ≤ f0.capacity.toNat := by rw [m2]; exact Nat.zero_le _
  have h1 := V1.inserts_ones w ks (env := env) (by rw [m1]; omega)
  have h2 := (V1.accepted_length (env := env) w hle ks).1
  have hz : (0 : U64).toNat = 0 := rfl
  rw [m2, hz, Nat.zero_add] at h2
  rw [← hf] at h1 h2
  have hsh : V1.Shape f0 f := by rw [hf]; exact V1.inserts_shape env f0 ks
  have hsz := (hsh.wf w).size
  have hones : countBelow f.bitSize.toNat (bitAt f.bitset) ≤ f.countOnes := by
    rw [(C49_v1 f).1, show f.bitset.length * 64 = f.bitSize.toNat
      + (f.bitset.length * 64 - f.bitSize.toNat) by omega, countBelow_add]
    omega
  apply pow_le_pow_left₀ (by positivity)
  apply div_le_div_of_nonneg_right _ (by positivity)
  have : countBelow f.bitSize.toNat (bitAt f.bitset)
      ≤ f.nHash.toNat * (V1.accepted env f0 ks).length := by
    rw [← h2, hsh.nHash]; omega
  exact_mod_cast this

-- one accepted key sets 7 of 958 bits
example : countBelow 958 (bitAt (V1.inserts Sample.env Sample.f1 [[1#8]]).bitset) = 7 := by
  decide +kernel

end Poppy
