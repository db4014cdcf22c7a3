import Verif.Model.F64

/-!
# Model of `poppy/src/bitset/array.rs` and `poppy/src/bitset/vec.rs`
-/

namespace Poppy

/-- `(value as u8) << (index & 7)` (`array.rs:16`, `vec.rs:56`). -/
def valueMask (index : U64) (value : Bool) : U8 :=
  (if value then 1#8 else 0#8) <<< (index &&& 7#64).toNat

/-- `1u8 << (index & 7)` (`array.rs:51`, `vec.rs:71`). -/
def bitMask (index : U64) : U8 := 1#8 <<< (index &&& 7#64).toNat

/-! ## `BitSet<N>` (`array.rs`) -/

/-- `array.rs:1-4` `struct BitSet<const N: usize>([u8; N])`. -/
structure BitSet (N : Nat) where
  bytes : Vector U8 N
  deriving DecidableEq

namespace BitSet
variable {N : Nat}

/-- `array.rs:8-10` `new` -/
def new (N : Nat) : BitSet N := ⟨Vector.replicate N 0#8⟩

/-- `array.rs:13-20` `set_value_nth_bit`.  Indexing `self.0[iblock]` panics out of bounds. -/
def setValueNthBit (s : BitSet N) (index : U64) (value : Bool) : BitSet N × Res Bool :=
  let iblock := (index / 8#64).toNat
  let mask := valueMask index value
  if h : iblock < N then
    let old := (s.bytes[iblock] &&& mask) == mask
    (⟨s.bytes.set iblock (s.bytes[iblock] ||| mask)⟩, .ok old)
  else (s, .panic)

/-- `array.rs:28-30` `set_nth_bit` -/
def setNthBit (s : BitSet N) (index : U64) : BitSet N × Res Bool := s.setValueNthBit index true

/-- `array.rs:38-40` `unset_nth_bit` -/
def unsetNthBit (s : BitSet N) (index : U64) : BitSet N × Res Bool := s.setValueNthBit index false

/-- `array.rs:48-53` `get_nth_bit` -/
def getNthBit (s : BitSet N) (index : U64) : Res Bool :=
  let iblock := (index / 8#64).toNat
  let mask := bitMask index
  if h : iblock < N then .ok ((s.bytes[iblock] &&& mask) == mask) else .panic

/-- `array.rs:56-58` `as_slice` -/
def asSlice (s : BitSet N) : List U8 := s.bytes.toList

/-- `array.rs:67-69` `clear` -/
def clear (s : BitSet N) : BitSet N := ⟨s.bytes.map (fun _ => 0#8)⟩

/-- `array.rs:73-75` `bit_len` (`N * 8`; no overflow for the sizes used) -/
def bitLen (_ : BitSet N) : Nat := N * 8

/-- `array.rs:79-81` `byte_len` -/
def byteLen (_ : BitSet N) : Nat := N

/-- `array.rs:85-87` `count_ones` -/
def countOnes (s : BitSet N) : Nat := (s.bytes.toList.map (fun b => Poppy.countOnes b)).sum

/-- `array.rs:91-93` `union` -/
def union (s other : BitSet N) : BitSet N := ⟨Vector.zipWith (· ||| ·) s.bytes other.bytes⟩

/-- `array.rs:97-99` `intersection` -/
def intersection (s other : BitSet N) : BitSet N :=
  ⟨Vector.zipWith (· &&& ·) s.bytes other.bytes⟩

/-- `array.rs:103-114` `count_ones_in_common` -/
def countOnesInCommon (s other : BitSet N) : Nat :=
  ((List.zipWith (· &&& ·) s.bytes.toList other.bytes.toList).map
    (fun b => Poppy.countOnes b)).sum

/-- `array.rs:118-120` `count_zeros` -/
def countZeros (s : BitSet N) : Nat := (s.bytes.toList.map (fun b => Poppy.countZeros b)).sum

/-- `array.rs:124-126` `byte_size` -/
def byteSize (N : Nat) : Nat := N

/-- `array.rs:130-132` `bit_size` -/
def bitSize (N : Nat) : Nat := N * 8

end BitSet

/-! ## `VecBitSet` (`vec.rs`) -/

/-- `vec.rs:5-7` `byte_cap_from_bit_cap`: `((bit_cap as f64) / 8.0).ceil() as usize` -/
def byteCapFromBitCap (bitCap : U64) : U64 :=
  FVal.toU64 (FVal.ceil (FVal.div (FVal.ofU64 bitCap) (.fin 8)))

/-- `vec.rs:1-2` `struct VecBitSet(Vec<u8>)` -/
structure VecBitSet where
  bytes : List U8
  deriving DecidableEq

namespace VecBitSet

/-- `vec.rs:11-14` `with_bit_capacity`, without the allocation failure (see `V2.make` and the
reader for the allocation check). -/
def withBitCapacity (capacity : U64) : VecBitSet :=
  ⟨List.replicate (byteCapFromBitCap capacity).toNat 0#8⟩

/-- `vec.rs:18-20` `is_empty` -/
def isEmpty (s : VecBitSet) : Bool := s.bytes.isEmpty

/-- `vec.rs:23-25` `as_slice` -/
def asSlice (s : VecBitSet) : List U8 := s.bytes

/-- `vec.rs:53-60` `set_value_nth_bit`.  Indexing panics out of bounds. -/
def setValueNthBit (s : VecBitSet) (index : U64) (value : Bool) : VecBitSet × Res Bool :=
  let iblock := (index / 8#64).toNat
  let mask := valueMask index value
  match s.bytes[iblock]? with
  | some b => (⟨s.bytes.set iblock (b ||| mask)⟩, .ok ((b &&& mask) == mask))
  | none => (s, .panic)

/-- `vec.rs:38-40` `set_nth_bit` -/
def setNthBit (s : VecBitSet) (index : U64) : VecBitSet × Res Bool := s.setValueNthBit index true

/-- `vec.rs:48-50` `unset_nth_bit` -/
def unsetNthBit (s : VecBitSet) (index : U64) : VecBitSet × Res Bool :=
  s.setValueNthBit index false

/-- `vec.rs:68-73` `get_nth_bit` -/
def getNthBit (s : VecBitSet) (index : U64) : Res Bool :=
  let iblock := (index / 8#64).toNat
  let mask := bitMask index
  match s.bytes[iblock]? with
  | some b => .ok ((b &&& mask) == mask)
  | none => .panic

/-- `vec.rs:77-79` `clear` -/
def clear (s : VecBitSet) : VecBitSet := ⟨s.bytes.map (fun _ => 0#8)⟩

/-- `vec.rs:83-85` `bit_len`: `self.0.len() * 8`, as a `usize`.  Simplification: the
multiplication wraps in the model; it can only overflow for vectors of `2^61` bytes or more,
which cannot be allocated (`Env.allocLimit_lt`). -/
def bitLen (s : VecBitSet) : U64 := BitVec.ofNat 64 (s.bytes.length * 8)

/-- `vec.rs:89-91` `byte_len` -/
def byteLen (s : VecBitSet) : Nat := s.bytes.length

/-- `vec.rs:99-106` `union`: `assert_eq!` on the lengths, then byte-wise or. -/
def union (s other : VecBitSet) : VecBitSet × Res Unit :=
  if s.byteLen = other.byteLen then
    (⟨List.zipWith (· ||| ·) s.bytes other.bytes⟩, .ok ())
  else (s, .panic)

/-- `vec.rs:114-121` `intersection` -/
def intersection (s other : VecBitSet) : VecBitSet × Res Unit :=
  if s.byteLen = other.byteLen then
    (⟨List.zipWith (· &&& ·) s.bytes other.bytes⟩, .ok ())
  else (s, .panic)

/-- `vec.rs:129-138` `count_ones_in_common` -/
def countOnesInCommon (s other : VecBitSet) : Res Nat :=
  if s.byteLen = other.byteLen then
    .ok ((List.zipWith (· &&& ·) s.bytes other.bytes).map (fun b => Poppy.countOnes b)).sum
  else .panic

/-- `vec.rs:142-144` `count_ones` -/
def countOnes (s : VecBitSet) : Nat := (s.bytes.map (fun b => Poppy.countOnes b)).sum

/-- `vec.rs:148-150` `count_zeros` -/
def countZeros (s : VecBitSet) : Nat := (s.bytes.map (fun b => Poppy.countZeros b)).sum

end VecBitSet

end Poppy
