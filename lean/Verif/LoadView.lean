import Verif.LoadSpec
import Verif.Model.Bloom

/-! The content of the filters of the model, for comparison with `Verif/LoadSpec.lean`. -/

namespace Poppy

open Spec

/-- The content of a v2 filter. -/
def V2.content (f : V2) : File2 :=
  ⟨f.flags.opt.toU8.toNat, f.flags.reserved, f.capacity.toNat, f.fpp.toNat, f.nHashBuck.toNat,
    f.count.toNat, f.indexCache.asSlice, f.buckets.map BitSet.asSlice, f.data⟩

/-- The content of a v1 filter. -/
def V1.content (f : V1) : File1 :=
  ⟨f.flags.opt.toU8.toNat, f.flags.reserved, f.capacity.toNat, f.fpp.toNat, f.nHash.toNat,
    f.bitSize.toNat, f.count.toNat, f.bitset.map BitVec.toNat, f.data⟩

/-- The content of a filter. -/
def Bloom.content : Bloom → File1 ⊕ File2
  | .v1 f => .inl f.content
  | .v2 f => .inr f.content

/-- The content of a partially loaded filter. -/
def Bloom.peek : Bloom → File1 ⊕ Peek2
  | .v1 f => .inl f.content
  | .v2 f => .inr ⟨f.content, f.cacheByteSize.toNat, f.nBuckets.toNat⟩

/-- The outcome of loading as a result. -/
def Load.res {α : Type} : Load α → Res α
  | .eof => .err (.ioError .unexpectedEof)
  | .level o => .err (.optLevel o)
  | .version v => .err (.invalidVersion v)
  | .fpp b => .err (.wrongFpp (BitVec.ofNat 64 b))
  | .memory => .panic
  | .overflow => .panic
  | .seek => .err (.ioError .invalidInput)
  | .ok a => .ok a

/-- An outcome on a source that ends, when the source fails instead of ending. -/
def failing {α : Type} : Res α → Res α
  | .ok _ => .err (.ioError .other)
  | .err (.ioError .unexpectedEof) => .err (.ioError .other)
  | r => r

end Poppy
