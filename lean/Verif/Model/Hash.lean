import Verif.Model.Basic

/-!
# Model of `poppy/src/hash.rs`, `hash/fnv.rs` and `hash/wyhash.rs`
-/

namespace Poppy

/-! ## FNV-1 (`hash/fnv.rs`) -/

/-- `fnv.rs:5` -/
def FNV_OFFSET : U64 := 14695981039346656037#64
/-- `fnv.rs:6` -/
def FNV_PRIME : U64 := 1099511628211#64

/-- One round: `self.sum = self.sum.wrapping_mul(FNV_PRIME); self.sum ^= *b as u64`
(`fnv.rs:42-43`, `fnv.rs:50-51`). -/
def fnvRound (sum : U64) (b : U8) : U64 := (sum * FNV_PRIME) ^^^ b.setWidth 64

/-- `bytes.chunks_exact(8)` and its `remainder()` (`fnv.rs:32-34`). -/
def chunksExact8 : List U8 → List (List U8) × List U8
  | a :: b :: c :: d :: e :: f :: g :: h :: rest =>
    ([a, b, c, d, e, f, g, h] :: (chunksExact8 rest).1, (chunksExact8 rest).2)
  | rest => ([], rest)

/-- `fnv.rs:29-54` `Fnv1Hasher::write`: whole 8-byte chunks first, then the remainder (if not
empty) through the zero-initialised buffer `rem`, of which only `rem[..r.len()]` is used. -/
def fnvWrite (sum : U64) (bytes : List U8) : U64 :=
  let r := (chunksExact8 bytes).2
  let rem := r ++ List.replicate (8 - r.length) 0#8
  let sum := (chunksExact8 bytes).1.foldl (fun s c => c.foldl fnvRound s) sum
  if r.isEmpty then sum else (rem.take r.length).foldl fnvRound sum

/-- `Fnv1Hasher::default()`, one `write`, `finish` (`fnv.rs:13-23`, used at `v1.rs:47-49`). -/
def fnvHash (bytes : List U8) : U64 := fnvWrite FNV_OFFSET bytes

/-! ## WyHash (`hash/wyhash.rs`)

The wyhash crate is not modelled.  `WyHasher` is only used through `Default`, `write` and
`finish` (`wyhash.rs:15-33`), so its whole behaviour is a function from the list of byte
strings passed to `write` to the final `u64`; it is a parameter of the model. -/

/-- Observable behaviour of `WyHasher`: value of `finish` after the given `write` calls. -/
abbrev Wy := List (List U8) → U64

/-- `hash.rs:83-87` `digest` (and `hash.rs:9-13` `PoppyHasher::hash_one`): one `write`. -/
def digest (wy : Wy) (s : List U8) : U64 := wy [s]

/-- Integer types with a `PoppyHash` implementation (`hash.rs:50`). -/
inductive IntTy where
  | u8 | u16 | u32 | u64 | u128 | usize | i8 | i16 | i32 | i64 | i128 | isize
  deriving DecidableEq, Repr

/-- Size in bytes of the integer types (64-bit platform). -/
def IntTy.size : IntTy → Nat
  | .u8 | .i8 => 1
  | .u16 | .i16 => 2
  | .u32 | .i32 => 4
  | .u64 | .i64 | .usize | .isize => 8
  | .u128 | .i128 => 16

/-- `to_ne_bytes` of an integer on a little-endian machine; this is what `Hash for {integer}`
passes to `Hasher::write` (`WyHasher` does not override `write_u8`, `write_u16`, ...). -/
def IntTy.bytes (t : IntTy) (v : Int) : List U8 :=
  natToLe t.size (BitVec.ofInt (8 * t.size) v).toNat

/-- A key of one of the types implementing `PoppyHash` (`hash.rs:34-81`).
`optNone`/`optSome w` are `Option<T>` (`hash.rs:42`) where `w` are the `write` calls made by
`T`'s `Hash`; `custom w` is a user type whose derived `Hash` makes the `write` calls `w`
(`hash.rs:34-40`). -/
inductive Key where
  | slice (bs : List U8)
  | vec (bs : List U8)
  | str (bs : List U8)
  | string (bs : List U8)
  | int (t : IntTy) (v : Int)
  | optNone
  | optSome (w : List (List U8))
  | custom (w : List (List U8))

/-- `hash.rs:52-63` `hash_pop` for `&[u8]`. -/
def hashPopSlice (wy : Wy) (s : List U8) : U64 :=
  if 8 < s.length then digest wy s
  else
    -- `tmp` zero-initialised, `tmp[i] = b` for every byte
    u64OfLe (s ++ List.replicate (8 - s.length) 0#8)

/-- `hash_pop` for every key type. -/
def Key.hashPop (wy : Wy) : Key → U64
  -- hash.rs:52-63
  | .slice bs => hashPopSlice wy bs
  -- hash.rs:65-69
  | .vec bs => hashPopSlice wy bs
  -- hash.rs:71-75
  | .str bs => hashPopSlice wy bs
  -- hash.rs:77-81
  | .string bs => hashPopSlice wy bs
  -- hash.rs:50 with the default method hash.rs:35-39
  | .int t v => wy [t.bytes v]
  -- hash.rs:42 with the default method; derived `Hash` writes the discriminant as `isize`
  | .optNone => wy [natToLe 8 0]
  | .optSome w => wy (natToLe 8 1 :: w)
  | .custom w => wy w

end Poppy
