import Verif.Spec

/-!
# What loading a file does

For every byte string, what reading it as a filter gives: decided by the length of the string and
the numbers at fixed places.  No function of the model is used.
-/

namespace Spec

open Poppy (U8)

/-- The 64-bit number at a place. -/
def num (bs : List U8) (o : ℕ) : ℕ := leVal ((bs.drop o).take 8)

/-- The `n` bytes at a place. -/
def slice (bs : List U8) (o n : ℕ) : List U8 := (bs.drop o).take n

/-- What loading can give. -/
inductive Load (α : Type) where
  /-- the file is too short -/
  | eof
  /-- no such optimisation level -/
  | level (o : U8)
  /-- wrong version -/
  | version (v : U8)
  /-- wrong false positive probability -/
  | fpp (bits : ℕ)
  /-- more memory is asked for than there is: panic -/
  | memory
  /-- an offset is too large for the machine: panic in debug builds (partial loading only) -/
  | overflow
  /-- seeking before the start of the file (partial loading only) -/
  | seek
  | ok (a : α)
  deriving DecidableEq

/-- Content of a v2 file. -/
structure File2 where
  level : ℕ
  reserved : List U8
  capacity : ℕ
  fpp : ℕ
  hashes : ℕ
  count : ℕ
  cache : List U8
  buckets : List (List U8)
  data : List U8
  deriving DecidableEq

/-- Content of a v1 file. -/
structure File1 where
  level : ℕ
  reserved : List U8
  capacity : ℕ
  fpp : ℕ
  hashes : ℕ
  bits : ℕ
  count : ℕ
  words : List ℕ
  data : List U8
  deriving DecidableEq

/-- The part of a v2 file after the header (the header is included in the places). -/
def body2 (limit : ℕ) (bs : List U8) : Load File2 :=
  let cache := (num bs 40 + 7) / 8
  let n := num bs (48 + cache)
  if bs.length < 24 then .eof
  else if ¬ (2 ^ 52 ≤ num bs 16 ∧ num bs 16 ≤ 1023 * 2 ^ 52) then .fpp (num bs 16)
  else if bs.length < 48 then .eof
  else if limit < cache then .memory
  else if bs.length < 56 + cache then .eof
  else if limit < n * 4096 then .memory
  else if bs.length < 56 + cache + n * 4096 then .eof
  else .ok ⟨(bs.getD 1 0).toNat, slice bs 2 6, num bs 8, num bs 16, num bs 24, num bs 32,
    slice bs 48 cache, (List.range n).map fun i => slice bs (56 + cache + i * 4096) 4096,
    bs.drop (56 + cache + n * 4096)⟩

/-- The part of a v1 file after the header. -/
def body1 (limit : ℕ) (bs : List U8) : Load File1 :=
  let n := (num bs 32 + 63) / 64
  if bs.length < 48 then .eof
  else if limit < n * 8 then .memory
  else if bs.length < 48 + n * 8 then .eof
  else .ok ⟨(bs.getD 1 0).toNat, slice bs 2 6, num bs 8, num bs 16, num bs 24, num bs 32,
    num bs 40, (List.range n).map fun i => num bs (48 + i * 8), bs.drop (48 + n * 8)⟩

/-- Eight bytes of header come first; `next` is what follows for the version. -/
def header {α : Type} (bs : List U8) (next : U8 → Load α) : Load α :=
  if bs.length < 8 then .eof
  else if 3 < (bs.getD 1 0).toNat then .level (bs.getD 1 0)
  else next (bs.getD 0 0)

/-- Loading a v2 filter. -/
def load2 (limit : ℕ) (bs : List U8) : Load File2 :=
  header bs fun v => if v = 2#8 then body2 limit bs else .version v

/-- Loading a v1 filter. -/
def load1 (limit : ℕ) (bs : List U8) : Load File1 :=
  header bs fun v => if v = 1#8 then body1 limit bs else .version v

/-- Change the content. -/
def Load.map {α β : Type} (f : α → β) : Load α → Load β
  | .eof => .eof
  | .level o => .level o
  | .version v => .version v
  | .fpp b => .fpp b
  | .memory => .memory
  | .overflow => .overflow
  | .seek => .seek
  | .ok a => .ok (f a)

/-- Loading a filter of either version. -/
def load (limit : ℕ) (bs : List U8) : Load (File1 ⊕ File2) :=
  header bs fun v =>
    if v = 1#8 then (body1 limit bs).map .inl
    else if v = 2#8 then (body2 limit bs).map .inr
    else .version v

/-! ## Partial loading: the bits are skipped -/

/-- A v2 file without its bits, and the numbers of cache bytes and buckets it states. -/
structure Peek2 where
  file : File2
  cacheBytes : ℕ
  nBuckets : ℕ
  deriving DecidableEq

/-- Where a signed 64-bit offset leads; nowhere if before the start. -/
def seekTo (o m : ℕ) : Option ℕ :=
  if m < 2 ^ 63 then some (o + m) else if o + m < 2 ^ 64 then none else some (o + m - 2 ^ 64)

/-- Partial loading of v2 after the header. -/
def peekBody2 (debug : Bool) (bs : List U8) : Load Peek2 :=
  let cache := (num bs 40 + 7) / 8
  let n := num bs (48 + cache)
  if bs.length < 24 then .eof
  else if ¬ (2 ^ 52 ≤ num bs 16 ∧ num bs 16 ≤ 1023 * 2 ^ 52) then .fpp (num bs 16)
  else if bs.length < 56 + cache then .eof
  else if debug = true ∧ 2 ^ 64 ≤ n * 4096 then .overflow
  else match seekTo (56 + cache) (n * 4096 % 2 ^ 64) with
    | none => .seek
    | some p => .ok ⟨⟨(bs.getD 1 0).toNat, slice bs 2 6, num bs 8, num bs 16, num bs 24, num bs 32,
        [], [], bs.drop p⟩, cache, n⟩

/-- Partial loading of v1 after the header. -/
def peekBody1 (bs : List U8) : Load File1 :=
  if bs.length < 48 then .eof
  else .ok ⟨(bs.getD 1 0).toNat, slice bs 2 6, num bs 8, num bs 16, num bs 24, num bs 32,
    num bs 40, [], bs.drop (48 + (num bs 32 + 63) / 64 * 8)⟩

/-- Partial loading. -/
def peek (debug : Bool) (bs : List U8) : Load (File1 ⊕ Peek2) :=
  header bs fun v =>
    if v = 1#8 then (peekBody1 bs).map .inl
    else if v = 2#8 then (peekBody2 debug bs).map .inr
    else .version v

end Spec
