import Verif.CliSpec
import Verif.JobsSpec

/-! Vocabulary of the statements about which lines went into the filter of a file. -/

namespace Poppy.Cli

/-- A run of `insert` that adds these lines to the filter in `file`, and succeeds: from any files and
standard input, with any number of jobs and interleaving of the threads. There is room for the file. -/
def InsertRun (t : Libs) (env : Env) (file : Path) (w : World) (ls : List (List U8)) (w' : World) : Prop :=
  w.disk = none ∧ ∃ (r : Run) (o : Insert) (p : Printed), r.command = .insert o ∧ o.file = file ∧
    main t env w r = (w', p, some (.ok ())) ∧
    inputLines w r.stdin o.stdin o.inputs = ls.map Res.ok

/-- A run of `create` for a filter with these parameters that adds these lines to it, and succeeds.
With files the capacity is the number of their lines. -/
def CreateRun (t : Libs) (env : Env) (file : Path) (v : U8) (cap : U64) (fpp : F64) (opt : U8)
    (w : World) (ls : List (List U8)) (w' : World) : Prop :=
  w.disk = none ∧ ∃ (r : Run) (o : Create) (p : Printed), r.command = .create o ∧ o.file = file ∧
    o.version = v ∧ o.probability = fpp ∧ o.optimize = opt ∧
    (o.dataset = [] → o.capacity = cap) ∧ (o.dataset ≠ [] → BitVec.ofNat 64 ls.length = cap) ∧
    main t env w r = (w', p, some (.ok ())) ∧ linesOf w o.dataset = ls.map Res.ok

/-- The filter in `file` was created with these parameters, and filled with these lines by any number
of runs. In between anything may happen that leaves the file alone. -/
inductive Filled (t : Libs) (env : Env) (file : Path) (v : U8) (cap : U64) (fpp : F64) (opt : U8) :
    World → List (List U8) → Prop
  | create {w w' : World} {ls : List (List U8)} :
      CreateRun t env file v cap fpp opt w ls w' → Filled t env file v cap fpp opt w' ls
  | insert {w w' : World} {es ls : List (List U8)} : Filled t env file v cap fpp opt w es →
      InsertRun t env file w ls w' → Filled t env file v cap fpp opt w' (es ++ ls)
  | other {w w' : World} {es : List (List U8)} : Filled t env file v cap fpp opt w es →
      w'.fs file = w.fs file → Filled t env file v cap fpp opt w' es

/-- To the filter in `file`, which has the bytes `bs` at first, these lines were added by at least one
run. -/
inductive Inserted (t : Libs) (env : Env) (file : Path) (bs : List U8) : World → List (List U8) → Prop
  | first {w w' : World} {ls : List (List U8)} : w.fs file = some bs →
      InsertRun t env file w ls w' → Inserted t env file bs w' ls
  | again {w w' : World} {es ls : List (List U8)} : Inserted t env file bs w es →
      InsertRun t env file w ls w' → Inserted t env file bs w' (es ++ ls)
  | other {w w' : World} {es : List (List U8)} : Inserted t env file bs w es →
      w'.fs file = w.fs file → Inserted t env file bs w' es

end Poppy.Cli
