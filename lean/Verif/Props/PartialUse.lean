import Verif.Lemmas.PartialUse
import Verif.Props.Serial

/-! # Partially loaded filters in use (C94) -/

namespace Poppy

/-- Whatever is done with a partially loaded filter, it never answers that it contains something:
v1 always says no, v2 (of non-zero capacity) panics. -/
theorem C94_queries {env : Env} {r : Reader} {g h : Bloom}
    (hp : Bloom.partialFromReader env r = .ok g) (hu : Bloom.Used env g h) (k : List U8) :
    h.containsBytes env k = if g.version = 1#8 then .ok false
      else if g.capacity = 0 then .ok false else .panic := by
  have hs := hu.shape
  rw [((Bloom.partialFromReader_noBits hp).shape hs).contains k]
  cases g <;> cases h <;> first | exact hs.elim | skip
  · rfl
  · simp only [Bloom.version, Bloom.capacity, V2.Shape.capacity hs]
    rfl

/-- It takes no entry: inserting leaves it as it is and gives an error, panics, or (a v1 filter with
no hash function, to which every key is the same) says the key is not new. -/
theorem C94_inserts {env : Env} {r : Reader} {g h : Bloom}
    (hp : Bloom.partialFromReader env r = .ok g) (hu : Bloom.Used env g h) (k : List U8) :
    h.insertBytes env k = (h, if g.capacity = 0 then .err .tooManyEntries
      else if g.version = 1#8 ∧ g.hashes = 0 then .ok false else .panic) := by
  have hs := hu.shape
  rw [((Bloom.partialFromReader_noBits hp).shape hs).insert k]
  cases g <;> cases h <;> first | exact hs.elim | skip
  · simp only [Bloom.version, Bloom.capacity, Bloom.hashes, V1.Shape.capacity hs,
      V1.Shape.nHash hs]
  · simp only [Bloom.version, Bloom.capacity, Bloom.hashes, V2.Shape.capacity hs,
      V2.Shape.nHash hs]
    rfl

/-- What it was loaded for stays: everything it tells except the count. -/
theorem C94_parameters {env : Env} {g h : Bloom} (hu : Bloom.Used env g h) :
    h.version = g.version ∧ h.capacity = g.capacity ∧ h.fpp = g.fpp ∧ h.opt = g.opt ∧
    h.hashes = g.hashes ∧ h.data = g.data ∧ h.sizeInBytes env = g.sizeInBytes env := by
  have hs := hu.shape
  cases g <;> cases h <;> first | exact hs.elim | skip
  · rename_i g h
    have hs : V1.Shape g h := hs
    exact ⟨rfl, hs.capacity, hs.fpp, congrArg Flags.opt hs.flags, hs.nHash, hs.data, by
      simp only [Bloom.sizeInBytes, V1.sizeInBytes, V1.sizeInU64, hs.bitSize]⟩
  · rename_i g h
    have hs : V2.Shape g h := hs
    exact ⟨rfl, hs.capacity, hs.fpp, congrArg Flags.opt hs.flags, hs.nHash, hs.data, by
      simp only [Bloom.sizeInBytes, V2.sizeInBytes, hs.nb, hs.cb]⟩

/-- It is not merged or compared with a filter that contains something, not even with the complete
filter of the same file: all is refused, and no filter is changed. -/
theorem C94_merges {env : Env} {r : Reader} {f g h : Bloom}
    (hp : Bloom.partialFromReader env r = .ok g) (hu : Bloom.Used env g h) {k : List U8}
    (hf : f.containsBytes env k = .ok true) :
    f.unionMerge env h = (f, .err (.merge "cannot merge filters with different parameters")) ∧
    h.unionMerge env f = (h, .err (.merge "cannot merge filters with different parameters")) ∧
    f.countCommonEntries env h
      = .err (.merge "cannot compare filters with different parameters") ∧
    h.countCommonEntries env f
      = .err (.merge "cannot compare filters with different parameters") := by
  obtain ⟨h1, h2⟩ := Bloom.not_same_of_contains hf
    ((Bloom.partialFromReader_noBits hp).shape hu.shape)
  exact ⟨Bloom.unionMerge_of_not_same h1, Bloom.unionMerge_of_not_same h2,
    Bloom.countCommonEntries_of_not_same h1, Bloom.countCommonEntries_of_not_same h2⟩

/-- Written, a partially loaded v1 filter gives a file that is refused, provided that less data is
attached than the bits take: the file is too short. -/
theorem C94_v1_written_partial {env : Env} {bs : List U8} {f : V1} {g : Bloom}
    (h : Bloom.fromReader env (Reader.ofBytes bs) = .ok (.v1 f))
    (hp : Bloom.partialFromReader env (Reader.ofBytes bs) = .ok g)
    (hd : f.data.length < 8 * f.bitset.length) :
    Bloom.fromReader env (Reader.ofBytes g.file) = .err (.ioError .unexpectedEof) := by
  rw [Bloom.partialFromReader_of_full h] at hp
  cases hp
  exact V1.reload_short (Bloom.fromReader_ok_inv h).1.1 hd

/-- With more data the file is accepted: the first bytes of the data are taken for the bits of the
filter, the rest for its data. -/
theorem C94_v1_written_violated {env : Env} {bs : List U8} {f : V1} {g : Bloom}
    (h : Bloom.fromReader env (Reader.ofBytes bs) = .ok (.v1 f))
    (hp : Bloom.partialFromReader env (Reader.ofBytes bs) = .ok g)
    (hd : 8 * f.bitset.length ≤ f.data.length) :
    ∃ f' : V1, Bloom.fromReader env (Reader.ofBytes g.file) = .ok (.v1 f') ∧
      f'.capacity = f.capacity ∧ f'.fpp = f.fpp ∧ f'.count = f.count ∧
      f'.bitset.length = f.bitset.length ∧
      ((f'.bitset.map BitVec.toNat).map (Spec.le 8)).flatten = f.data.take (8 * f.bitset.length) ∧
      f'.data = f.data.drop (8 * f.bitset.length) := by
  rw [Bloom.partialFromReader_of_full h] at hp
  cases hp
  obtain ⟨ws, h1, h2, h3⟩ := V1.reload_long (Bloom.fromReader_ok_inv h).1.1 hd
  refine ⟨_, h3, rfl, rfl, rfl, h1, ?_, rfl⟩
  rw [← h2, List.map_map]
  congr 1
  exact List.map_congr_left fun x _ => (u64ToLe_eq x).symm

/-- A partially loaded v2 filter, whatever was done with it, gives a file that is always accepted, as
a filter of the same capacity, probability, count and data, but of size 0, that contains nothing:
the bits are lost without an error. -/
theorem C94_v2_written_violated {env : Env} (hs : env.Small) {r : Reader} {g h : Bloom}
    (hp : Bloom.partialFromReader env r = .ok g) (hv : g.version = 2#8)
    (hu : Bloom.Used env g h) :
    ∃ f, Bloom.fromReader env (Reader.ofBytes h.file) = .ok f ∧ f.version = 2#8 ∧
      f.capacity = g.capacity ∧ f.fpp = g.fpp ∧ f.countEstimate = h.countEstimate ∧
      f.data = g.data ∧ f.sizeInBytes env = .ok 0 ∧
      ∀ k, f.containsBytes env k = if g.capacity = 0 then .ok false else .panic := by
  have hsh := hu.shape
  have hn := (Bloom.partialFromReader_noBits hp).shape hsh
  cases g with
  | v1 g => cases hv
  | v2 g =>
    cases h with
    | v1 h => exact hsh.elim
    | v2 h =>
      have hsh : V2.Shape g h := hsh
      obtain ⟨h1, h2, h3, h4⟩ := hn
      refine ⟨_, V2.reload_nil hs h1 h4 h2 h3, rfl, hsh.capacity, hsh.fpp, rfl, hsh.data, ?_,
        fun k => ?_⟩
      · show V2.sizeInBytes env _ = _
        unfold V2.sizeInBytes mulU64 addU64
        simp
      · rw [show (Bloom.v2 g).capacity = h.capacity from hsh.capacity.symm]
        exact V2.containsBytes_nil env (g := { h.canon with nBuckets := 0, cacheByteSize := 0 })
          h2 h3 k

/-- Two partially loaded filters with the same parameters can be merged, although the entries of
neither are there: afterwards the count is 0. -/
theorem C94_count_violated {env : Env} (sp : env.libm.LnSpec) {r r' : Reader} {g g' h h' : Bloom}
    (hp : Bloom.partialFromReader env r = .ok g) (hu : Bloom.Used env g h)
    (hp' : Bloom.partialFromReader env r' = .ok g') (hu' : Bloom.Used env g' h')
    (hsame : h.hasSameParams h' = .ok true) :
    (h.unionMerge env h').2 = .ok () ∧ (h.unionMerge env h').1.countEstimate = 0 ∧
    h.countCommonEntries env h' = .ok 0 := by
  have hn := (Bloom.partialFromReader_noBits hp).shape hu.shape
  have hn' := (Bloom.partialFromReader_noBits hp').shape hu'.shape
  unfold Bloom.unionMerge Bloom.countCommonEntries
  rw [hsame]
  cases h with
  | v1 h =>
    cases h' with
    | v2 h' => cases hsame
    | v1 h' =>
      have hb : h.hasSameParams h' = true := by
        simpa [Bloom.hasSameParams, Bloom.version] using hsame
      simp only [V1.unionMerge_eq, hb, if_true, Bloom.countEstimate, V1.countEstimate,
        V1.updateCount, V1.countCommonEntries, V1.countOnesInCommon, hn.1, hn'.1]
      refine ⟨trivial, ?_, ?_⟩
      · simp only [V1.countOnes, V1.orBits, hn.1, hn'.1]
        exact estimateCount_zero sp _ _
      · simp only [Bool.not_true, Bool.false_eq_true, if_false, Res.bind_ok]
        exact congrArg Res.ok (estimateCount_zero sp _ _)
  | v2 h =>
    cases h' with
    | v1 h' => cases hsame
    | v2 h' =>
      have hb : h.hasSameParams h' = true := by
        simpa [Bloom.hasSameParams, Bloom.version] using hsame
      simp only [V2.unionMerge_eq, hb, if_true, Bloom.countEstimate, V2.countEstimate,
        V2.updateCount, V2.countCommonEntries, V2.orBits, hn.2.2.1, hn'.2.2.1]
      exact ⟨rfl, rfl, rfl⟩

namespace Sample

/-- A v1 file with one word of bits, all 0, and nine bytes of data. -/
def withData : List U8 :=
  Spec.v1Bytes 1 0x3FF0000000000000 1 64 0 [0] (List.replicate 8 0xff ++ [7])

/-- What complete loading of it gives. -/
def withDataFull : V1 :=
  ⟨Flags.new 1, [0], 1, oneBits, 1, 64, 0, List.replicate 8 0xff ++ [7], Fingerprint.new 1 64⟩

theorem withData_full : Bloom.fromReader env (Reader.ofBytes withData) = .ok (.v1 withDataFull) := by
  decide +kernel

/-- A v1 file with a word of bits, all 1, and no data. -/
def noData : List U8 := Spec.v1Bytes 1 0x3FF0000000000000 1 64 1 [2 ^ 64 - 1] []

/-- What complete loading of it gives. -/
def noDataFull : V1 :=
  ⟨Flags.new 1, [BitVec.allOnes 64], 1, oneBits, 1, 64, 1, [], Fingerprint.new 1 64⟩

theorem noData_full : Bloom.fromReader env (Reader.ofBytes noData) = .ok (.v1 noDataFull) := by
  decide +kernel

end Sample

-- this file loaded partially and written again is refused; the partially loaded filter does not
-- contain what the file contains, even after clearing, and cannot be merged with the complete one
example : ∃ g, Bloom.partialFromReader Sample.env (Reader.ofBytes Sample.noData) = .ok g ∧
    Bloom.fromReader Sample.env (Reader.ofBytes g.file) = .err (.ioError .unexpectedEof) ∧
    (Bloom.v1 Sample.noDataFull).containsBytes Sample.env [1] = .ok true ∧
    g.containsBytes Sample.env [1] = .ok false ∧
    (g.clear.insertBytes Sample.env [1]).2 = .panic ∧
    (Bloom.v1 Sample.noDataFull).unionMerge Sample.env g = (.v1 Sample.noDataFull,
      .err (.merge "cannot merge filters with different parameters")) := by
  obtain ⟨g, hg, _⟩ := C27_partial_metadata Sample.env _ _ Sample.noData_full
  have hc : (Bloom.v1 Sample.noDataFull).containsBytes Sample.env [1] = .ok true := by
    decide +kernel
  have hg' := hg
  rw [Bloom.partialFromReader_of_full Sample.noData_full] at hg'
  cases hg'
  refine ⟨_, hg, C94_v1_written_partial Sample.noData_full hg (by decide), hc, ?_, ?_,
    (C94_merges hg .start hc).1⟩
  · rw [C94_queries hg .start]; rfl
  · rw [C94_inserts hg (.clear .start)]; rfl

-- this file loaded partially, written and loaded contains a key that was never inserted
example : Bloom.containsBytes Sample.env (.v1 Sample.withDataFull) [1] = .ok false ∧
    ∃ g f', Bloom.partialFromReader Sample.env (Reader.ofBytes Sample.withData) = .ok g ∧
      Bloom.fromReader Sample.env (Reader.ofBytes g.file) = .ok f' ∧
      f'.containsBytes Sample.env [1] = .ok true ∧ f'.data = [7] := by
  refine ⟨by decide +kernel, .v1 { Sample.withDataFull with bitset := [] },
    .v1 { Sample.withDataFull with bitset := [BitVec.allOnes 64], data := [7] },
    by decide +kernel, by decide +kernel, by decide +kernel, rfl⟩

-- a v2 filter of capacity 5000: its file, loaded partially and written again, loads as a filter that
-- panics on every query
example : ∃ g f, Bloom.partialFromReader Sample.env (Reader.ofBytes (Bloom.v2 Sample.f2).file) = .ok g ∧
    Bloom.fromReader Sample.env (Reader.ofBytes g.file) = .ok f ∧ f.capacity = 5000 ∧
    ∀ k, f.containsBytes Sample.env k = .panic := by
  obtain ⟨f0, h0, hv, _, _, hc, _⟩ := C22_bloom_round_trip Sample.env Sample.env_small
    (.v2 Sample.f2) (V2.Reach.make Sample.f2_make)
  obtain ⟨g, hg, hv', hc', _⟩ := C27_partial_metadata Sample.env _ _ h0
  have hcap : g.capacity = 5000 := by rw [hc', hc]; rfl
  obtain ⟨f, h1, _, h2, _, _, _, _, h3⟩ := C94_v2_written_violated Sample.env_small hg
    (by rw [hv', hv]; rfl) .start
  refine ⟨g, f, hg, h1, by rw [h2, hcap], fun k => ?_⟩
  rw [h3, hcap]; rfl

-- the same file loaded partially twice: merging succeeds and the count, which was 1, is 0
example : ∃ g, Bloom.partialFromReader Sample.env (Reader.ofBytes Sample.noData) = .ok g ∧
    g.countEstimate = 1 ∧ (g.unionMerge Sample.env g).2 = .ok () ∧
    (g.unionMerge Sample.env g).1.countEstimate = 0 := by
  refine ⟨.v1 { Sample.noDataFull with bitset := [] }, by decide +kernel, rfl, by decide +kernel,
    by decide +kernel⟩

end Poppy
