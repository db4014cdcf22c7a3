import Verif.Model.Flags
import Verif.Model.Hash
import Verif.Model.BitSet

/-!
# Model of `poppy/src/bloom/v2.rs` (poppy filter)
-/

namespace Poppy

/-! ## Index iterator -/

/-- `v2.rs:18-26` `struct IndexIterator<H, M>` (the hasher type `H` is `WyHasher`, the constant
`M` is an argument of `next`) -/
structure IndexIterator where
  init : Bool
  h1 : U64
  h2 : U64
  i : U64
  count : U64
  deriving DecidableEq

/-- `v2.rs:31-36` `xorshift_star` -/
def xorshiftStar (seed : U64) : U64 :=
  let seed := seed ^^^ (seed <<< 12)
  let seed := seed ^^^ (seed >>> 25)
  let seed := seed ^^^ (seed <<< 27)
  seed * 2685821657736338717#64

namespace IndexIterator

/-- `v2.rs:39-43` `new` (`Default`) -/
def new : IndexIterator := ⟨false, 0, 0, 0, 0⟩

/-- `v2.rs:45-47` `set_count` -/
def setCount (it : IndexIterator) (count : U64) : IndexIterator := { it with count := count }

/-- `v2.rs:50-54` `bucket_hash` -/
def bucketHash (it : IndexIterator) : U64 := xorshiftStar it.h1

/-- `v2.rs:58-74` `init_with_slice` (former implementation, kept for compatibility tests) -/
def initWithSlice (wy : Wy) (it : IndexIterator) (data : List U8) : IndexIterator :=
  { it with
    init := true
    h1 := if 8 < data.length then digest wy data
          else u64OfLe (data ++ List.replicate (8 - data.length) 0#8)
    h2 := 0
    i := 0 }

/-- `v2.rs:77-83` `init_with_hashable` -/
def initWithHashable (wy : Wy) (it : IndexIterator) (data : Key) : IndexIterator :=
  { it with init := true, h1 := data.hashPop wy, h2 := 0, i := 0 }

/-- `v2.rs:86-88` `is_init` -/
def isInit (it : IndexIterator) : Bool := it.init && it.i == 0

/-- `v2.rs:96-120` `Iterator::next` with modulus `M`; `% M` panics for `M = 0`. -/
def next (wy : Wy) (M : U64) (it : IndexIterator) : Res (Option U64) × IndexIterator :=
  if it.i < it.count then
    let it :=
      if 0#64 < it.i then
        let it := if it.i = 1#64 then { it with h2 := digest wy (u64ToBe it.h1) } else it
        let it := { it with h1 := it.h1 + it.h2 }
        { it with h2 := it.h2 + it.i }
      else it
    let it := { it with i := it.i + 1 }
    if isPowerOfTwo M then (.ok (some (it.h1 &&& (M - 1))), it)
    else if M = 0 then (.panic, it)
    else (.ok (some (it.h1 % M)), it)
  else (.ok none, it)

end IndexIterator

/-- `v2.rs:125` -/
def BUCKET_SIZE : Nat := 4096
/-- `v2.rs:126` `(BUCKET_SIZE * 8) as u64` -/
def BIT_SET_MOD : U64 := 32768#64
/-- `v2.rs:127` -/
abbrev Bucket := BitSet BUCKET_SIZE

/-! ## The filter -/

/-- `v2.rs:131-155` `struct BloomFilter` -/
structure V2 where
  flags : Flags
  indexCache : VecBitSet
  nBuckets : U64
  cacheByteSize : U64
  capacity : U64
  fpp : F64
  nHashBuck : U64
  count : U64
  buckets : List Bucket
  data : List U8
  deriving DecidableEq

namespace V2

/-- Reading `n` buckets (loop `v2.rs:227-229`). -/
def readBuckets : Nat → ReadM (List Bucket)
  | 0 => fun r => .ok ([], r)
  | n + 1 => fun r =>
    match readExact BUCKET_SIZE r with
    | .ok (bs, r) =>
      match readBuckets n r with
      | .ok (rest, r) =>
        -- the buffer has exactly BUCKET_SIZE bytes
        if h : bs.length = BUCKET_SIZE then .ok (⟨⟨bs.toArray, by simpa using h⟩⟩ :: rest, r)
        else .panic
      | .err e => .err e
      | .panic => .panic
    | .err e => .err e
    | .panic => .panic

/-- `v2.rs:206-215`: the index cache, skipped when reading partially. -/
def readCache (env : Env) (cacheBitSize : U64) (partialRead : Bool) : ReadM VecBitSet := fun r =>
  let cacheByteSize := byteCapFromBitCap cacheBitSize
  if partialRead then
    match seekRelative cacheByteSize r with
    | .ok ((), r) => .ok (VecBitSet.withBitCapacity 0, r)
    | .err e => .err e
    | .panic => .panic
  else
    match env.alloc (byteCapFromBitCap cacheBitSize).toNat 1 with
    | .ok () =>
      let ic := VecBitSet.withBitCapacity cacheBitSize
      match readExact ic.byteLen r with
      | .ok (bs, r) => .ok (⟨bs⟩, r)
      | .err e => .err e
      | .panic => .panic
    | .err e => .err e
    | .panic => .panic

/-- `v2.rs:220-232`: the buckets, skipped when reading partially. -/
def readAllBuckets (env : Env) (nBuckets : U64) (partialRead : Bool) : ReadM (List Bucket) :=
  fun r =>
  if partialRead then
    match mulU64 env.debug nBuckets (BitVec.ofNat 64 BUCKET_SIZE) with
    | .ok off =>
      match seekRelative off r with
      | .ok ((), r) => .ok ([], r)
      | .err e => .err e
      | .panic => .panic
    | .err e => .err e
    | .panic => .panic
  else
    match env.alloc nBuckets.toNat BUCKET_SIZE with
    | .ok () => readBuckets nBuckets.toNat r
    | .err e => .err e
    | .panic => .panic

/-- `v2.rs:185-250` `from_reader_with_flags` -/
def fromReaderWithFlags (env : Env) (flags : Flags) (partialRead : Bool) : Reader → Res V2 := fun r => do
  let (capacity, r) ← readLeU64 r
  let (fpp, r) ← readLeU64 r
  if !fppInRange fpp then .err (.wrongFpp fpp)
  else do
    let (nHashBuck, r) ← readLeU64 r
    let (count, r) ← readLeU64 r
    let (cacheBitSize, r) ← readLeU64 r
    let cacheByteSize := byteCapFromBitCap cacheBitSize
    let (indexCache, r) ← readCache env cacheBitSize partialRead r
    let (nBuckets, r) ← readLeU64 r
    let (buckets, r) ← readAllBuckets env nBuckets partialRead r
    let (data, _) ← readToEnd r
    .ok { flags := flags
          indexCache := indexCache
          nBuckets := nBuckets
          cacheByteSize := cacheByteSize
          capacity := capacity
          fpp := fpp
          nHashBuck := nHashBuck
          count := count
          buckets := buckets
          data := data }

/-- `v2.rs:171-182` `_from_reader` -/
def fromReader' (env : Env) (partialRead : Bool) : Reader → Res V2 := fun r => do
  let (flags, r) ← readFlags r
  if flags.version ≠ 2#8 then .err (.invalidVersion flags.version)
  else fromReaderWithFlags env flags partialRead r

/-- `v2.rs:166-168` `from_reader` -/
def fromReader (env : Env) : Reader → Res V2 := fromReader' env false

/-- The byte strings passed to `write_all`, in order (`v2.rs:257-277`). -/
def chunks (f : V2) : List (List U8) :=
  [f.flags.toBytes, u64ToLe f.capacity, u64ToLe f.fpp, u64ToLe f.nHashBuck, u64ToLe f.count,
    u64ToLe f.indexCache.bitLen, f.indexCache.asSlice,
    u64ToLe (BitVec.ofNat 64 f.buckets.length)] ++ f.buckets.map BitSet.asSlice ++ [f.data]

/-- `v2.rs:253-279` `write` -/
def write (f : V2) (s : Sink) : Sink × Res Unit :=
  match (BufWriter.new s).writeChunks f.chunks with
  | (w, r) => (w.drop, r)

/-- `Bucket::bit_size() as u64` -/
def bucketBitSize : U64 := BitVec.ofNat 64 (BitSet.bitSize BUCKET_SIZE)

/-- The number of hash functions chosen by the `Speed` and `Best` levels (`v2.rs:302-304`,
`v2.rs:308-310`). -/
def nHashOpt (lm : Libm) (capacity cacheBitSize : U64) (bitsPerEntry : FVal) : U64 :=
  FVal.toU64 (FVal.ceil
    (FVal.mul (FVal.mul (lm.ln .two) (estimateP lm capacity cacheBitSize)) bitsPerEntry))

/-- `v2.rs:286-312`: number of buckets, number of hash functions and cache bit size. -/
def sizes (env : Env) (capacity : U64) (fpp : F64) (opt : OptLevel) : Res (U64 × U64 × U64) :=
  let bucketCap := capFromBitSize env.libm bucketBitSize (FVal.ofBits fpp)
  let nBucket := FVal.toU64 (FVal.ceil (FVal.div (FVal.ofU64 capacity) (FVal.ofU64 bucketCap)))
  let nHashBuck :=
    FVal.toU64 (FVal.ceil (FVal.ofU64 (kHash env.libm bucketBitSize bucketCap)))
  let bitsPerEntry := FVal.round (FVal.div (FVal.ofU64 bucketBitSize) (FVal.ofU64 bucketCap))
  match opt with
  | .none | .space => .ok (nBucket, nHashBuck, 0)
  | .speed => do
    let cacheBitSize ← nextPowerOfTwo env.debug capacity
    let nBucket ← nextPowerOfTwo env.debug nBucket
    .ok (nBucket, nHashOpt env.libm capacity cacheBitSize bitsPerEntry, cacheBitSize)
  | .best => do
    let cacheBitSize ← nextPowerOfTwo env.debug capacity
    .ok (nBucket, nHashOpt env.libm capacity cacheBitSize bitsPerEntry, cacheBitSize)

/-- `v2.rs:281-329` `make` -/
def make (env : Env) (capacity : U64) (fpp : F64) (opt : OptLevel) : Res V2 :=
  if !fppInRange fpp then .err (.wrongFpp fpp)
  else do
    let (nBucket, nHashBuck, cacheBitSize) ← sizes env capacity fpp opt
    env.alloc (byteCapFromBitCap cacheBitSize).toNat 1
    let indexCache := VecBitSet.withBitCapacity cacheBitSize
    env.alloc nBucket.toNat BUCKET_SIZE
    .ok { flags := (Flags.new 2#8).withOpt opt
          indexCache := indexCache
          nBuckets := nBucket
          cacheByteSize := BitVec.ofNat 64 indexCache.byteLen
          buckets := List.replicate nBucket.toNat (BitSet.new BUCKET_SIZE)
          capacity := capacity
          fpp := fpp
          nHashBuck := nHashBuck
          count := 0
          data := [] }

/-- `v2.rs:331-333` `with_capacity` -/
def withCapacity (env : Env) (cap : U64) (proba : F64) : Res V2 := make env cap proba .none

/-- `v2.rs:339-343` `index_iter` -/
def indexIter (f : V2) : IndexIterator := IndexIterator.new.setCount f.nHashBuck

/-- `self.buckets.len() as u64` -/
def bucketsLen (f : V2) : U64 := BitVec.ofNat 64 f.buckets.length

/-- `v2.rs:346-348` `has_optimal_buckets` -/
def hasOptimalBuckets (f : V2) : Bool := isPowerOfTwo f.bucketsLen

/-- `v2.rs:352-355` `clear` (the index cache is left as is) -/
def clear (f : V2) : V2 := { f with buckets := f.buckets.map BitSet.clear, count := 0 }

/-- `v2.rs:376-382`, `v2.rs:474-480`: the bucket of a hash; `%` panics without buckets. -/
def ibucket (f : V2) (h : U64) : Res U64 :=
  if f.hasOptimalBuckets then .ok (h &&& (f.bucketsLen - 1))
  else if f.bucketsLen = 0 then .panic
  else .ok (h % f.bucketsLen)

/-- Loop of `insert_iter` (`v2.rs:391-399`) on the selected bucket.  `fuel` bounds the number of
calls to `next`; `insertIter` passes enough. -/
def insertLoop (env : Env) (reachedCap : Bool) :
    Nat → Bucket → IndexIterator → Bool → Bucket × Res Bool
  | 0, b, _, _ => (b, .panic)
  | fuel + 1, b, it, new =>
    match it.next env.wy BIT_SET_MOD with
    | (.ok none, _) => (b, .ok new)
    | (.ok (some ibit), it) =>
      match (if reachedCap then b.getNthBit ibit else .ok true) with
      | .ok false => (b, .err .tooManyEntries)
      | .ok true =>
        match b.setNthBit ibit with
        | (b, .ok old) =>
          let new := if !old then true else new
          -- `debug_assert!(bucket.get_nth_bit(ibit as usize))`
          if env.debug && decide (b.getNthBit ibit ≠ .ok true) then (b, .panic)
          else insertLoop env reachedCap fuel b it new
        | (b, .err e) => (b, .err e)
        | (b, .panic) => (b, .panic)
      | .err e => (b, .err e)
      | .panic => (b, .panic)
    | (.err e, _) => (b, .err e)
    | (.panic, _) => (b, .panic)

/-- `v2.rs:401-410`: update of the count and of the index cache after the loop. -/
def insertFinish (env : Env) (f : V2) (h : U64) (new : Bool) : V2 × Res Bool :=
  match (if new then addU64 env.debug f.count 1 else .ok f.count) with
  | .ok c =>
    let f := { f with count := c }
    if !f.indexCache.isEmpty then
      match f.indexCache.setNthBit (h &&& (f.indexCache.bitLen - 1)) with
      | (ic, .ok _) => ({ f with indexCache := ic }, .ok new)
      | (ic, .err e) => ({ f with indexCache := ic }, .err e)
      | (ic, .panic) => ({ f with indexCache := ic }, .panic)
    else (f, .ok new)
  | .err e => (f, .err e)
  | .panic => (f, .panic)

/-- `v2.rs:360-411` `insert_iter` -/
def insertIter (env : Env) (f : V2) (it : IndexIterator) : V2 × Res Bool :=
  if !it.isInit then (f, .err .uninitIter)
  else
    let it := it.setCount f.nHashBuck
    if f.capacity = 0 then (f, .err .tooManyEntries)
    else
      let h := it.bucketHash
      match f.ibucket h with
      | .ok ib =>
        match f.buckets[ib.toNat]? with
        | none => (f, .panic)
        | some bucket =>
          let reachedCap := f.count == f.capacity
          match insertLoop env reachedCap (it.count.toNat + 1) bucket it false with
          | (bucket, .ok new) =>
            insertFinish env { f with buckets := f.buckets.set ib.toNat bucket } h new
          | (bucket, .err e) => ({ f with buckets := f.buckets.set ib.toNat bucket }, .err e)
          | (bucket, .panic) => ({ f with buckets := f.buckets.set ib.toNat bucket }, .panic)
      | .err e => (f, .err e)
      | .panic => (f, .panic)

/-- `v2.rs:515-519` `build_index_iter` -/
def buildIndexIter (env : Env) (data : Key) : IndexIterator :=
  IndexIterator.new.initWithHashable env.wy data

/-- `v2.rs:427-429` `insert` -/
def insert (env : Env) (f : V2) (data : Key) : V2 × Res Bool :=
  f.insertIter env (buildIndexIter env data)

/-- `v2.rs:421-423` `insert_bytes` -/
def insertBytes (env : Env) (f : V2) (data : List U8) : V2 × Res Bool :=
  f.insert env (.slice data)

/-- `v2.rs:414-416` `_insert_bytes_old` -/
def insertBytesOld (env : Env) (f : V2) (data : List U8) : V2 × Res Bool :=
  f.insertIter env (f.indexIter.initWithSlice env.wy data)

/-- Loop of `contains_iter` (`v2.rs:487-491`), see `insertLoop` for `fuel`. -/
def containsLoop (env : Env) : Nat → Bucket → IndexIterator → Res Bool
  | 0, _, _ => .panic
  | fuel + 1, b, it =>
    match it.next env.wy BIT_SET_MOD with
    | (.ok none, _) => .ok true
    | (.ok (some ibit), it) =>
      match b.getNthBit ibit with
      | .ok false => .ok false
      | .ok true => containsLoop env fuel b it
      | .err e => .err e
      | .panic => .panic
    | (.err e, _) => .err e
    | (.panic, _) => .panic

/-- `v2.rs:466-472`: may the key be present according to the index cache? -/
def cacheAllows (f : V2) (h : U64) : Res Bool :=
  if !f.indexCache.isEmpty then f.indexCache.getNthBit (h &&& (f.indexCache.bitLen - 1))
  else .ok true

/-- `v2.rs:451-494` `contains_iter` -/
def containsIter (env : Env) (f : V2) (it : IndexIterator) : Res Bool :=
  if !it.isInit then .err .uninitIter
  else
    let it := it.setCount f.nHashBuck
    if f.capacity = 0 then .ok false
    else
      let h := it.bucketHash
      match f.cacheAllows h with
      | .ok false => .ok false
      | .ok true =>
        match f.ibucket h with
        | .ok ib =>
          match f.buckets[ib.toNat]? with
          | none => .panic
          | some bucket => containsLoop env (it.count.toNat + 1) bucket it
        | .err e => .err e
        | .panic => .panic
      | .err e => .err e
      | .panic => .panic

/-- `v2.rs:509-512` `contains` -/
def contains (env : Env) (f : V2) (data : Key) : Res Bool :=
  (f.containsIter env (buildIndexIter env data)).unwrap

/-- `v2.rs:504-506` `contains_bytes` -/
def containsBytes (env : Env) (f : V2) (data : List U8) : Res Bool :=
  f.contains env (.slice data)

/-- `v2.rs:497-501` `_contains_bytes_old` -/
def containsBytesOld (env : Env) (f : V2) (data : List U8) : Res Bool :=
  (f.containsIter env (f.indexIter.initWithSlice env.wy data)).unwrap

/-- `v2.rs:523-525` `count_ones` -/
def countOnes (f : V2) : Nat := (f.buckets.map BitSet.countOnes).sum

/-- `v2.rs:529-531` `count_zeros` -/
def countZeros (f : V2) : Nat := (f.buckets.map BitSet.countZeros).sum

/-- `v2.rs:534-536` `size_in_bytes` -/
def sizeInBytes (env : Env) (f : V2) : Res U64 := do
  let a ← mulU64 env.debug f.nBuckets (BitVec.ofNat 64 (BitSet.byteSize BUCKET_SIZE))
  addU64 env.debug a f.cacheByteSize

/-- `v2.rs:593-595` `count_estimate` -/
def countEstimate (f : V2) : U64 := f.count

/-- `v2.rs:550-552` `is_full` -/
def isFull (f : V2) : Bool := f.countEstimate == f.capacity

/-- `v2.rs:598-605` `has_same_params` -/
def hasSameParams (s o : V2) : Bool :=
  decide (s.flags = o.flags)
    && s.capacity == o.capacity
    && s.indexCache.byteLen == o.indexCache.byteLen
    && FVal.feq (FVal.ofBits s.fpp) (FVal.ofBits o.fpp)
    && s.nHashBuck == o.nHashBuck
    && s.buckets.length == o.buckets.length

/-- `Iterator::sum` on `u64`/`usize` (overflow checks inherited from the caller). -/
def sumU64 (debug : Bool) (l : List U64) : Res U64 :=
  l.foldl (fun acc x => do let a ← acc; addU64 debug a x) (.ok 0)

/-- Estimate for one bucket with `ones` bits set, see `estimateCount`. -/
def bucketEstimate (env : Env) (nHash : U64) (ones : Nat) : U64 :=
  estimateCount env.libm bucketBitSize (BitVec.ofNat 64 ones) nHash

/-- `v2.rs:556-572` `count_common_entries` (`has_same_params` ensures equal lengths, so
indexing cannot fail) -/
def countCommonEntries (env : Env) (s o : V2) : Res U64 :=
  if !s.hasSameParams o then
    .err (.merge "cannot compare filters with different parameters")
  else
    sumU64 env.debug (List.zipWith
      (fun b1 b2 => bucketEstimate env s.nHashBuck (b1.countOnesInCommon b2))
      s.buckets o.buckets)

/-- `v2.rs:576-587` `update_count` -/
def updateCount (env : Env) (f : V2) : V2 × Res Unit :=
  match sumU64 env.debug (f.buckets.map (fun b => bucketEstimate env f.nHashBuck b.countOnes)) with
  | .ok c => ({ f with count := c }, .ok ())
  | .err e => (f, .err e)
  | .panic => (f, .panic)

/-- `v2.rs:614-625` `union_merge` -/
def unionMerge (env : Env) (s o : V2) : V2 × Res Unit :=
  if !s.hasSameParams o then
    (s, .err (.merge "cannot make union of bloom filters with different parameters"))
  else
    match s.indexCache.union o.indexCache with
    | (ic, .ok ()) =>
      updateCount env { s with
        indexCache := ic
        buckets := List.zipWith BitSet.union s.buckets o.buckets }
    | (ic, r) => ({ s with indexCache := ic }, r)

/-- `v2.rs:634-645` `intersection_merge` -/
def intersectionMerge (env : Env) (s o : V2) : V2 × Res Unit :=
  if !s.hasSameParams o then
    (s, .err (.merge "cannot make intersection of bloom filters with different parameters"))
  else
    match s.indexCache.intersection o.indexCache with
    | (ic, .ok ()) =>
      updateCount env { s with
        indexCache := ic
        buckets := List.zipWith BitSet.intersection s.buckets o.buckets }
    | (ic, r) => ({ s with indexCache := ic }, r)

/-- `v2.rs:608-611` `union` -/
def union (env : Env) (s o : V2) : Res V2 :=
  match s.unionMerge env o with
  | (s, .ok ()) => .ok s
  | (_, .err e) => .err e
  | (_, .panic) => .panic

/-- `v2.rs:628-631` `intersection` -/
def intersection (env : Env) (s o : V2) : Res V2 :=
  match s.intersectionMerge env o with
  | (s, .ok ()) => .ok s
  | (_, .err e) => .err e
  | (_, .panic) => .panic

end V2

end Poppy
