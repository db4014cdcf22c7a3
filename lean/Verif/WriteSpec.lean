/-!
# Writing through a buffer

What a buffer of 8192 bytes hands over to a writer, in terms of the sizes of the pieces written.
-/

namespace Spec

/-- The number of bytes handed over when pieces of these sizes are written while some bytes are held,
not counting what is held in the end: a piece of at least 8192 bytes is handed over at once, after
what was held; a smaller one is held, if need be after handing over what was held. -/
def handed (held : Nat) : List Nat → Nat
  | [] => 0
  | n :: ns =>
    if 8192 ≤ n then held + n + handed 0 ns
    else if held + n ≤ 8192 then handed (held + n) ns
    else held + handed n ns

/-- The pieces of a v1 file: header, words and data. -/
def v1Pieces (words data : Nat) : List Nat := List.replicate (6 + words) 8 ++ [data]

/-- The pieces of a v2 file: header, index cache, number of buckets, buckets and data. -/
def v2Pieces (cacheBytes buckets data : Nat) : List Nat :=
  List.replicate 6 8 ++ [cacheBytes, 8] ++ List.replicate buckets 4096 ++ [data]

end Spec
