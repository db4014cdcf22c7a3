import Verif.Model.Main

/-!
# What happens to a file while the tool saves a filter

`create` and `insert` save with `File::create` followed by `write` (`poppy.rs:317-318`,
`poppy.rs:333-334`): the file is emptied, then the bytes of the filter are put into it in pieces, each
where the previous one ended (`BufWriter`, `bloom/v1.rs:215-233`, `bloom/v2.rs:253-279`).  How the bytes are cut
into pieces is left open.  Here the single operations are modelled, to say what other processes see
in between; putting something beyond the end of a file that was emptied by another process fills the
gap with zeros, as files do.
-/

namespace Poppy
namespace Cli

/-- An operation on the content of a file. -/
inductive FileOp where
  /-- `File::create` on a file that exists -/
  | empty
  /-- write some bytes at a place -/
  | put (o : ℕ) (bs : List U8)

/-- The content after the operation. -/
def FileOp.act (c : List U8) : FileOp → List U8
  | .empty => []
  | .put o bs => (c ++ List.replicate (o - c.length) 0#8).take o ++ bs ++ c.drop (o + bs.length)

/-- Pieces one after the other. -/
def puts (o : ℕ) : List (List U8) → List FileOp
  | [] => []
  | p :: ps => .put o p :: puts (o + p.length) ps

/-- Saving in pieces (`poppy.rs:317-318`, `poppy.rs:333-334`). -/
def saving (pieces : List (List U8)) : List FileOp := .empty :: puts 0 pieces

/-- The content after some operations. -/
def after (c : List U8) (ops : List FileOp) : List U8 := ops.foldl FileOp.act c

end Cli
end Poppy
