import Verif.Abstract
import Verif.LoadSpec

/-!
# Abstract filters of either version

What the version independent filter does, including reading arbitrary bytes, in terms of the abstract
filters of `Verif/Abstract.lean` and of `Verif/LoadSpec.lean`.  It uses no function of the model except
the comparison of `f64` inside `F1.same` and `F2.same`.
-/

namespace Abs

open Poppy (U8 U64 F64 Res Error Flags OptLevel)
open Spec (File1 File2 Load)

/-- A filter of either version. -/
inductive F where
  | v1 (a : F1)
  | v2 (a : F2)

/-- The parameters of a machine for both versions. -/
structure Machine where
  c1 : Cfg (List U8)
  c2 : Cfg (List U8)
  /-- the memory that can be asked for at once -/
  limit : ℕ

/-- The level with a number. -/
def levelOf : ℕ → OptLevel
  | 0 => .none
  | 1 => .space
  | 2 => .speed
  | _ => .best

/-- The filter in a v2 file. -/
def ofFile2 (x : File2) : F2 :=
  ⟨⟨2, levelOf x.level, x.reserved⟩, x.capacity, BitVec.ofNat 64 x.fpp, x.hashes, x.buckets.length,
    x.cache.length, x.count, fun j i => Spec.bitAt (x.buckets.getD j []) i, Spec.bitAt x.cache, x.data⟩

/-- The filter in a v1 file. -/
def ofFile1 (x : File1) : F1 :=
  ⟨⟨1, levelOf x.level, x.reserved⟩, x.capacity, BitVec.ofNat 64 x.fpp, x.hashes, x.bits,
    x.words.length, x.count, fun i => (x.words.getD (i / 64) 0).testBit (i % 64), x.data⟩

/-- The result of loading. -/
def loaded : Load (File1 ⊕ File2) → Res F
  | .eof => .err (.ioError .unexpectedEof)
  | .level o => .err (.optLevel o)
  | .version v => .err (.invalidVersion v)
  | .fpp b => .err (.wrongFpp (BitVec.ofNat 64 b))
  | .memory => .panic
  | .overflow => .panic
  | .seek => .err (.ioError .invalidInput)
  | .ok (.inl x) => .ok (.v1 (ofFile1 x))
  | .ok (.inr x) => .ok (.v2 (ofFile2 x))

/-- A new filter. -/
def make (m : Machine) (version : U8) (cap : U64) (fpp : F64) (opt : OptLevel) : Res F :=
  if version = 1#8 then (make1 m.c1 cap fpp).map .v1
  else if version = 2#8 then (make2 m.c2 cap fpp opt).map .v2
  else .err (.invalidVersion version)

namespace F

variable (m : Machine)

/-- Insert a key. -/
def insert (k : List U8) : F → F × Answer
  | v1 a => (.v1 (a.insert k).1, (a.insert k).2)
  | v2 a => (.v2 (a.insert m.c2 k).1, (a.insert m.c2 k).2)

/-- Insert keys in turn, up to the first that fails. -/
def fill (a : F) : List (List U8) → F × Answer
  | [] => (a, .done)
  | k :: ks =>
    match (a.insert m k).2 with
    | .err e => ((a.insert m k).1, .err e)
    | .panic => ((a.insert m k).1, .panic)
    | _ => fill (a.insert m k).1 ks

/-- Is a key a member? -/
def contains (k : List U8) : F → Answer
  | v1 a => a.contains k
  | v2 a => a.contains m.c2 k

/-- Remove all keys. -/
def clear : F → F
  | v1 a => v1 a.clear
  | v2 a => v2 a.clear

/-- May the filters be merged? -/
def same : F → F → Bool
  | v1 a, v1 b => a.same b
  | v2 a, v2 b => a.same b
  | _, _ => false

/-- Merge. -/
def union : F → F → F × Answer
  | v1 a, v1 b => if a.same b then (v1 (a.union m.c1 b).1, (a.union m.c1 b).2)
      else (v1 a, .err (.merge "cannot merge filters with different parameters"))
  | v2 a, v2 b => if a.same b then (v2 (a.union m.c2 b).1, (a.union m.c2 b).2)
      else (v2 a, .err (.merge "cannot merge filters with different parameters"))
  | a, _ => (a, .err (.merge "cannot merge filters with different parameters"))

/-- Estimated number of common entries. -/
def common : F → F → Answer
  | v1 a, v1 b => a.common m.c1 b
  | v2 a, v2 b => a.common m.c2 b
  | _, _ => .err (.merge "cannot compare filters with different parameters")

/-- The version. -/
def version : F → ℕ
  | v1 _ => 1
  | v2 _ => 2

/-- The capacity. -/
def cap : F → ℕ
  | v1 a => a.cap
  | v2 a => a.cap

/-- The probability. -/
def fpp : F → F64
  | v1 a => a.fpp
  | v2 a => a.fpp

/-- The count. -/
def count : F → ℕ
  | v1 a => a.count
  | v2 a => a.count

/-- The data. -/
def data : F → List U8
  | v1 a => a.data
  | v2 a => a.data

/-- Replace the data. -/
def setData (d : List U8) : F → F
  | v1 a => v1 { a with data := d }
  | v2 a => v2 { a with data := d }

/-- The reported size in bytes; eight times too much for v1. -/
def size : F → ℕ
  | v1 a => a.size * 8
  | v2 a => a.buckets * 4096 + a.cacheBytes

/-- The file. -/
def file : F → List U8
  | v1 a => a.file
  | v2 a => a.file

end F

/-- The operations of a program on numbered filters of either version. -/
inductive BOp where
  | make (r : ℕ) (version : U8) (cap : U64) (fpp : F64) (opt : OptLevel)
  | load (r : ℕ) (bs : List U8)
  | clone (r s : ℕ)
  | insert (r : ℕ) (k : List U8)
  | fill (r : ℕ) (ks : List (List U8))
  | contains (r : ℕ) (k : List U8)
  | clear (r : ℕ)
  | union (r s : ℕ)
  | common (r s : ℕ)
  | same (r s : ℕ)
  | setData (r : ℕ) (d : List U8)
  | data (r : ℕ)
  | version (r : ℕ)
  | cap (r : ℕ)
  | fpp (r : ℕ)
  | isFull (r : ℕ)
  | count (r : ℕ)
  | size (r : ℕ)
  | file (r : ℕ)
  | reload (r s : ℕ)

/-- One step of a program. -/
def step (m : Machine) (σ : ℕ → F) : BOp → (ℕ → F) × Answer
  | .make r v cap fpp opt => put σ r (make m v cap fpp opt)
  | .load r bs => put σ r (loaded (Spec.load m.limit bs))
  | .clone r s => (set σ r (σ s), .done)
  | .insert r k => (set σ r ((σ r).insert m k).1, ((σ r).insert m k).2)
  | .fill r ks => (set σ r ((σ r).fill m ks).1, ((σ r).fill m ks).2)
  | .contains r k => (σ, (σ r).contains m k)
  | .clear r => (set σ r (σ r).clear, .done)
  | .union r s => (set σ r ((σ r).union m (σ s)).1, ((σ r).union m (σ s)).2)
  | .common r s => (σ, (σ r).common m (σ s))
  | .same r s => (σ, .bool ((σ r).same (σ s)))
  | .setData r d => (set σ r ((σ r).setData d), .done)
  | .data r => (σ, .bytes (σ r).data)
  | .version r => (σ, .num (σ r).version)
  | .cap r => (σ, .num (σ r).cap)
  | .fpp r => (σ, .num (σ r).fpp.toNat)
  | .isFull r => (σ, .bool (decide ((σ r).count = (σ r).cap)))
  | .count r => (σ, .num (σ r).count)
  | .size r => (σ, .num (σ r).size)
  | .file r => (σ, .bytes (σ r).file)
  | .reload r s => put σ r (loaded (Spec.load m.limit (σ s).file))

end Abs
