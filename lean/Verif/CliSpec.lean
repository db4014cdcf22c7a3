import Verif.Model.Cli

/-! Vocabulary of the properties of the command line tool. -/

namespace Poppy
namespace Cli

/-- The lines of a file, up to the first failing read (none if it cannot be opened). -/
def linesIn (w : World) (f : Path) : List (Res (List U8)) :=
  match w.open f with
  | .ok r => fileLines r
  | _ => []

/-- All lines of the files, in order. -/
def linesOf (w : World) (files : List Path) : List (Res (List U8)) := files.flatMap (linesIn w)

/-- All files can be opened. -/
def AllOpen (w : World) (files : List Path) : Prop := ∀ f ∈ files, ∃ r, w.open f = .ok r

/-- All files can be opened and read to their end. -/
def AllRead (w : World) (files : List Path) : Prop :=
  ∀ f ∈ files, ∃ bs, w.open f = .ok (Reader.ofBytes bs)

/-- The file can be opened, but reading it fails before its end is seen (on Linux: a directory). -/
def Broken (w : World) (f : Path) : Prop :=
  ∃ bs k, w.fs f = some bs ∧ w.access f = .upTo k ∧ k ≤ bs.length

/-- The schedule gives each of the first `n` threads at least `N` steps. -/
def Fair (n N : ℕ) (s : Schedule) : Prop := ∀ i < n, N ≤ s.count i

/-- All files can be opened, and their lines are these (in particular they are valid UTF-8). -/
def Reads (w : World) (files : List Path) (es : List (List U8)) : Prop :=
  AllOpen w files ∧ linesOf w files = es.map Res.ok

/-- The lines given to a command: those of stdin (if asked for, or if there are no input files),
then those of the input files. -/
def inputLines (w : World) (stdin : Stdin) (useStdin : Bool) (inputs : List Path) :
    List (Res (List U8)) :=
  (if useStdin || inputs.isEmpty then stdin.lines else []) ++ linesOf w inputs

/-- What `check` should print, in some order, for these lines. -/
def toPrint (contains : List U8 → Res Bool) (verify silent : Bool) (es : List (List U8)) :
    List (List U8) :=
  if verify then
    -- ": NOK"
    (es.filter fun l => decide (contains l = .ok false)).map
      (· ++ [58#8, 32#8, 78#8, 79#8, 75#8])
  else if silent then []
  else es.filter fun l => decide (contains l = .ok true)

/-- The entries among the lines (invalid lines left out). -/
def entries (ls : List (Res (List U8))) : List (List U8) :=
  ls.filterMap fun l => match l with
    | .ok l => some l
    | _ => none

/-- The elements of a list whose `h` occurs for the first time. -/
def firsts {α β : Type} [DecidableEq β] (h : α → β) : List α → List α
  | [] => []
  | x :: xs => x :: (firsts h xs).filter fun y => decide (h y ≠ h x)

/-- Total length. -/
def total (ls : List (List U8)) : ℕ := (ls.map List.length).sum

/-- The mutated lines among the test lines. -/
def mutatedOf (ls : List (Bool × List U8)) : List (List U8) := (ls.filter (·.1)).map (·.2)

end Cli
end Poppy
