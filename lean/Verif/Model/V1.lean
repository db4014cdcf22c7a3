import Verif.Model.Flags
import Verif.Model.Hash

/-!
# Model of `poppy/src/bloom/v1.rs` (DCSO compatible filter)
-/

namespace Poppy

/-! ## Fingerprint iterator -/

/-- `v1.rs:21` -/
def V1.M : U64 := 18446744073709551557#64
/-- `v1.rs:26` -/
def V1.G : U64 := 18446744073709550147#64

/-- `v1.rs:28-34` `struct Fingerprint` -/
structure Fingerprint where
  h : U64
  m : U64
  i : U64
  count : U64
  deriving DecidableEq

namespace Fingerprint

/-- `v1.rs:37-43` `new` -/
def new (count modulo : U64) : Fingerprint := ⟨0, modulo, 0, count⟩

/-- `v1.rs:46-52` `fingerprint` -/
def fingerprint (f : Fingerprint) (data : List U8) : Fingerprint :=
  { f with h := fnvHash data % V1.M, i := 0 }

/-- `v1.rs:58-65` `Iterator::next`; `self.h % self.m` panics when `m` is `0`. -/
def next (f : Fingerprint) : Res (Option U64) × Fingerprint :=
  if f.i < f.count then
    let h := (f.h * V1.G) % V1.M
    let f := { f with h := h, i := f.i + 1 }
    if f.m = 0 then (.panic, f) else (.ok (some (f.h % f.m)), f)
  else (.ok none, f)

end Fingerprint

/-! ## The filter -/

/-- `v1.rs:74-92` `struct BloomFilter` -/
structure V1 where
  flags : Flags
  bitset : List U64
  capacity : U64
  fpp : F64
  nHash : U64
  bitSize : U64
  count : U64
  data : List U8
  fingerprint : Fingerprint
  deriving DecidableEq

/-- `f64::ceil(bit_size as f64 / 64.0) as usize` (`v1.rs:113`, `v1.rs:178`) -/
def u64SizeFor (bitSize : U64) : U64 :=
  FVal.toU64 (FVal.ceil (FVal.div (FVal.ofU64 bitSize) (.fin 64)))

namespace V1

/-- `v1.rs:104-128` `with_capacity` -/
def withCapacity (env : Env) (cap : U64) (fpp : F64) : Res V1 :=
  if !fppInRange fpp then .err (.wrongFpp fpp)
  else
    let bitSize := bitSizeFor env.libm cap (FVal.ofBits fpp)
    let u64Size := u64SizeFor bitSize
    let nHashFn := kHash env.libm bitSize cap
    match env.alloc u64Size.toNat 8 with
    | .ok () =>
      .ok { flags := Flags.new 1#8
            bitset := List.replicate u64Size.toNat 0#64
            capacity := cap
            fpp := fpp
            nHash := nHashFn
            bitSize := bitSize
            count := 0
            data := []
            fingerprint := Fingerprint.new nHashFn bitSize }
    | .err e => .err e
    | .panic => .panic

/-- `v1.rs:131-133` `estimated_p` -/
def estimatedP (env : Env) (f : V1) : FVal := estimateP env.libm f.count f.bitSize

/-- `v1.rs:136-138` `n_hash_fn` -/
def nHashFn (f : V1) : U64 := f.nHash

/-- `v1.rs:141-143` `n_bits` -/
def nBits (f : V1) : U64 := f.bitSize

/-- Reading `n` little-endian words (loop `v1.rs:186-188`). -/
def readWords : Nat → ReadM (List U64)
  | 0 => fun r => .ok ([], r)
  | n + 1 => fun r =>
    match readLeU64 r with
    | .ok (w, r) =>
      match readWords n r with
      | .ok (ws, r) => .ok (w :: ws, r)
      | .err e => .err e
      | .panic => .panic
    | .err e => .err e
    | .panic => .panic

/-- `v1.rs:177-191`: the bitset, skipped when reading partially. -/
def readBitset (env : Env) (bitSize : U64) (partialRead : Bool) : ReadM (List U64) := fun r =>
  let u64Size := u64SizeFor bitSize
  if partialRead then
    match mulU64 env.debug u64Size 8#64 with
    | .ok off =>
      match seekRelative off r with
      | .ok ((), r) => .ok ([], r)
      | .err e => .err e
      | .panic => .panic
    | .err e => .err e
    | .panic => .panic
  else
    match env.alloc u64Size.toNat 8 with
    | .ok () => readWords u64Size.toNat r
    | .err e => .err e
    | .panic => .panic

/-- `v1.rs:163-212` `from_reader_with_flags` -/
def fromReaderWithFlags (env : Env) (flags : Flags) (partialRead : Bool) : Reader → Res V1 := fun r => do
  let (cap, r) ← readLeU64 r
  let (p, r) ← readLeU64 r
  let (nHash, r) ← readLeU64 r
  let (bitSize, r) ← readLeU64 r
  let (count, r) ← readLeU64 r
  let (bitset, r) ← readBitset env bitSize partialRead r
  let (data, _) ← readToEnd r
  .ok { flags := flags
        bitset := bitset
        capacity := cap
        fpp := p
        nHash := nHash
        bitSize := bitSize
        count := count
        data := data
        fingerprint := Fingerprint.new nHash bitSize }

/-- `v1.rs:151-160` `_from_reader` -/
def fromReader' (env : Env) (partialRead : Bool) : Reader → Res V1 := fun r => do
  let (flags, r) ← readFlags r
  if flags.version ≠ 1#8 then .err (.invalidVersion flags.version)
  else fromReaderWithFlags env flags partialRead r

/-- `v1.rs:146-148` `from_reader` -/
def fromReader (env : Env) : Reader → Res V1 := fromReader' env false

/-- The byte strings passed to `write_all`, in order (`v1.rs:219-231`). -/
def chunks (f : V1) : List (List U8) :=
  [(Flags.new 1#8).toBytes, u64ToLe f.capacity, u64ToLe f.fpp, u64ToLe f.nHash,
    u64ToLe f.bitSize, u64ToLe f.count] ++ f.bitset.map u64ToLe ++ [f.data]

/-- `v1.rs:215-233` `write`: everything goes through a `BufWriter` that is dropped at the end. -/
def write (f : V1) (s : Sink) : Sink × Res Unit :=
  match (BufWriter.new s).writeChunks f.chunks with
  | (w, r) => (w.drop, r)

/-- `1u64.wrapping_shl(ibit as u32)` with `ibit = index % 64` (`v1.rs:241`, `v1.rs:271`).
`wrapping_shl` masks the shift by 63. -/
def wordMask (index : U64) : U64 := 1#64 <<< ((index % 64#64).toNat % 64)

/-- `v1.rs:237-243` `get_nth_bit` -/
def getNthBit (f : V1) (index : U64) : Res Bool :=
  match f.bitset[(index / 64#64).toNat]? with
  | some w => .ok ((w &&& wordMask index) == wordMask index)
  | none => .panic

/-- `v1.rs:245-249` `bits` -/
def bits (f : V1) : Res (List Bool) :=
  (List.range f.bitSize.toNat).foldr
    (fun i acc => do
      let b ← f.getNthBit (BitVec.ofNat 64 i)
      let bs ← acc
      .ok (b :: bs)) (.ok [])

/-- Loop of `insert_bytes` (`v1.rs:261-287`).  `fuel` bounds the number of calls to `next`;
`V1.insertBytes` passes enough (theorem `V1.insertLoop_eq`). -/
def insertLoop (env : Env) : Nat → V1 → Fingerprint → Bool → V1 × Res Bool
  | 0, f, _, _ => (f, .panic)
  | fuel + 1, f, fp, new =>
    match fp.next with
    | (.ok none, _) => (f, .ok new)
    | (.ok (some index), fp) =>
      let iblock := (index / 64#64).toNat
      match f.bitset[iblock]? with
      | none => (f, .panic)
      | some entry =>
        let bit := wordMask index
        let old := (entry &&& bit) == bit
        if !old && decide (f.capacity ≤ f.count) then (f, .err .tooManyEntries)
        else
          let f := { f with bitset := f.bitset.set iblock (entry ||| bit) }
          let new := if !old then true else new
          -- `debug_assert!(self.get_nth_bit(index))`
          if env.debug && decide (f.getNthBit index ≠ .ok true) then (f, .panic)
          else insertLoop env fuel f fp new
    | (.err e, _) => (f, .err e)
    | (.panic, _) => (f, .panic)

/-- `v1.rs:254-294` `insert_bytes` -/
def insertBytes (env : Env) (f : V1) (value : List U8) : V1 × Res Bool :=
  if f.capacity = 0 then (f, .err .tooManyEntries)
  else
    let fp := f.fingerprint.fingerprint value
    match insertLoop env (fp.count.toNat + 1) f fp false with
    | (f, .ok new) =>
      if new then
        match addU64 env.debug f.count 1 with
        | .ok c => ({ f with count := c }, .ok new)
        | .err e => (f, .err e)
        | .panic => (f, .panic)
      else (f, .ok new)
    | (f, r) => (f, r)

/-- `v1.rs:298-301` `clear` -/
def clear (f : V1) : V1 := { f with bitset := f.bitset.map (fun _ => 0#64), count := 0 }

/-- Loop of `contains_bytes` (`v1.rs:309-313`), see `insertLoop` for `fuel`. -/
def containsLoop : Nat → V1 → Fingerprint → Res Bool
  | 0, _, _ => .panic
  | fuel + 1, f, fp =>
    match fp.next with
    | (.ok none, _) => .ok true
    | (.ok (some index), fp) =>
      match f.getNthBit index with
      | .ok false => .ok false
      | .ok true => containsLoop fuel f fp
      | .err e => .err e
      | .panic => .panic
    | (.err e, _) => .err e
    | (.panic, _) => .panic

/-- `v1.rs:305-315` `contains_bytes` -/
def containsBytes (f : V1) (value : List U8) : Res Bool :=
  if f.bitset.isEmpty then .ok false
  else
    let fp := f.fingerprint.fingerprint value
    containsLoop (fp.count.toNat + 1) f fp

/-- `v1.rs:319-321` `count_ones` -/
def countOnes (f : V1) : Nat := (f.bitset.map (fun w => Poppy.countOnes w)).sum

/-- `v1.rs:325-327` `count_zeros` -/
def countZeros (f : V1) : Nat := (f.bitset.map (fun w => Poppy.countZeros w)).sum

/-- `v1.rs:330-334` `update_count` -/
def updateCount (env : Env) (f : V1) : V1 :=
  { f with count := estimateCount env.libm f.bitSize (BitVec.ofNat 64 f.countOnes) f.nHash }

/-- `v1.rs:340-342` `count_estimate` -/
def countEstimate (f : V1) : U64 := f.count

/-- `v1.rs:345-347` `size_in_u64` -/
def sizeInU64 (f : V1) : U64 := f.bitSize

/-- `v1.rs:350-354` `size_in_bytes` -/
def sizeInBytes (env : Env) (f : V1) : Res U64 := mulU64 env.debug f.sizeInU64 8#64

/-- `v1.rs:368-370` `is_full` -/
def isFull (f : V1) : Bool := f.countEstimate == f.capacity

/-- `v1.rs:373-380` `has_same_params` (`fpp` compared as `f64`) -/
def hasSameParams (s o : V1) : Bool :=
  decide (s.flags = o.flags)
    && s.capacity == o.capacity
    && FVal.feq (FVal.ofBits s.fpp) (FVal.ofBits o.fpp)
    && s.nHash == o.nHash
    && s.bitSize == o.bitSize
    && s.bitset.length == o.bitset.length

/-- `v1.rs:383-392` `count_ones_in_common` -/
def countOnesInCommon (s o : V1) : Res Nat :=
  if s.bitset.length = o.bitset.length then
    .ok ((List.zipWith (· &&& ·) s.bitset o.bitset).map (fun w => Poppy.countOnes w)).sum
  else .panic

/-- `v1.rs:396-406` `count_common_entries` -/
def countCommonEntries (env : Env) (s o : V1) : Res U64 :=
  if !s.hasSameParams o then
    .err (.merge "cannot compare filters with different parameters")
  else do
    let ones ← s.countOnesInCommon o
    .ok (estimateCount env.libm s.bitSize (BitVec.ofNat 64 ones) s.nHash)

/-- `*e |= other.bitset[i]` for every word (`v1.rs:418-420`) -/
def orWords : List U64 → List U64 → Res (List U64)
  | [], _ => .ok []
  | _ :: _, [] => .panic
  | a :: as, b :: bs => do
    let r ← orWords as bs
    .ok ((a ||| b) :: r)

/-- `v1.rs:411-426` `union_merge`.  Simplification: if the word loop panicked the state would
be partly merged; the model returns the original state with `panic` (never happens, since
`has_same_params` compares the lengths). -/
def unionMerge (env : Env) (s o : V1) : V1 × Res Unit :=
  if !s.hasSameParams o then
    (s, .err (.merge "cannot make union of bloom filters with different parameters"))
  else
    match orWords s.bitset o.bitset with
    | .ok ws => (updateCount env { s with bitset := ws }, .ok ())
    | .err e => (s, .err e)
    | .panic => (s, .panic)

end V1

end Poppy
