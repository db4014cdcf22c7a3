import Verif.SessionSpec

/-! Vocabulary of the statements about the number of jobs. -/

namespace Spec

/-- Where the file of a filter has the estimated number of entries (eight bytes). -/
def countAt (bs : List Poppy.U8) : ℕ := if bs.head? = some 1#8 then 40 else 32

/-- Files of filters that differ in the estimated number of entries at most. -/
def SameButCount (bs bs' : List Poppy.U8) : Prop :=
  bs.length = bs'.length ∧ ∀ i, i < countAt bs ∨ countAt bs + 8 ≤ i → bs[i]? = bs'[i]?

end Spec

namespace Poppy.Cli

/-- The same run, but for the number of jobs and the interleaving of the threads. -/
def SameTask (r r' : Run) : Prop := ∃ j s, r' = { r with jobs := j, sched := s }

end Poppy.Cli
