import Verif.LoadSpec

/-!
# Membership read off a file

Which bits of a filter file a key is about, and the answer these bits give.  The two hashes of the key
in the poppy format are parameters; no function of the model is used.
-/

namespace Spec

open Poppy (U8)

/-- The number of bytes of the index cache in a v2 file. -/
def cacheLen (bs : List U8) : ℕ := (num bs 40 + 7) / 8

/-- The number of buckets in a v2 file. -/
def bucketCount (bs : List U8) : ℕ := num bs (48 + cacheLen bs)

/-- The place of the index cache bit of a key in a v2 file. -/
def slotPlace (bs : List U8) (h : ℕ) : ℕ := 8 * 48 + Nat.land (xorshift h) (8 * cacheLen bs - 1)

/-- The place of the `i`th bit of a key in a v2 file. -/
def place2 (bs : List U8) (h H i : ℕ) : ℕ :=
  8 * (56 + cacheLen bs) + 32768 * (xorshift h % bucketCount bs) + poppyProbe h H i

/-- The place of the `i`th bit of a key in a v1 file. -/
def place1 (bs key : List U8) (i : ℕ) : ℕ := 8 * 48 + dcsoProbe key (num bs 32) i

/-- The bits of a file that a key is about. -/
def Probed (bs key : List U8) (h H o : ℕ) : Prop :=
  if bs.getD 0 0 = 1#8 then ∃ i < num bs 24, o = place1 bs key i
  else (cacheLen bs ≠ 0 ∧ o = slotPlace bs h) ∨ ∃ i < num bs 24, o = place2 bs h H i

/-- The filter in the file can hold keys at all: it has bits, and a v2 filter a capacity. -/
def Usable (bs : List U8) : Prop :=
  if bs.getD 0 0 = 1#8 then num bs 32 ≠ 0 else num bs 8 ≠ 0 ∧ bucketCount bs ≠ 0

/-- The files state the same version, level and sizes. -/
structure SameShape (bs bs' : List U8) : Prop where
  length : bs'.length = bs.length
  version : bs'.getD 0 0 = bs.getD 0 0
  level : bs'.getD 1 0 = bs.getD 1 0
  capacity : num bs' 8 = num bs 8
  fpp : num bs' 16 = num bs 16
  hashes : num bs' 24 = num bs 24
  bits : bs.getD 0 0 = 1#8 → num bs' 32 = num bs 32
  cache : bs.getD 0 0 ≠ 1#8 → num bs' 40 = num bs 40
  buckets : bs.getD 0 0 ≠ 1#8 → bucketCount bs' = bucketCount bs

/-- The place of the count in a file. -/
def countPlace (bs : List U8) : ℕ := if bs.getD 0 0 = 1#8 then 40 else 32

/-- The place is in the index cache of a v2 file. -/
def CachePart (bs : List U8) (o : ℕ) : Prop :=
  bs.getD 0 0 ≠ 1#8 ∧ 8 * 48 ≤ o ∧ o < 8 * (48 + cacheLen bs)

/-- The place is among the bits of a v1 file or in a bucket of a v2 file. -/
def BitPart (bs : List U8) (o : ℕ) : Prop :=
  if bs.getD 0 0 = 1#8 then 8 * 48 ≤ o ∧ o < 8 * 48 + 64 * ((num bs 32 + 63) / 64)
  else 8 * (56 + cacheLen bs) ≤ o ∧ o < 8 * (56 + cacheLen bs) + 32768 * bucketCount bs

/-- The place does not belong to the count. -/
def NotCount (bs : List U8) (o : ℕ) : Prop := o < 8 * countPlace bs ∨ 8 * countPlace bs + 64 ≤ o

end Spec
