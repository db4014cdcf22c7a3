import Verif.Model.Bench

/-! The dispatch of the commands in `main` (`poppy/src/bin/poppy.rs`). -/

namespace Poppy
namespace Cli

/-- `poppy.rs:44-58` `enum Command` -/
inductive Command where
  | create (o : Create)
  | insert (o : Insert)
  | check (o : Check)
  | bench (o : Benchmark)
  | show (file : Path)

/-- One run of the tool: its arguments (`poppy.rs:27-42` `struct Args`; `verbose` only adds
messages on stderr and is not modelled), its standard input, the number of lines that its standard
output takes (`none`: all), the interleaving of its threads and the random numbers and the measured times it gets. -/
structure Run where
  command : Command
  jobs : Nat
  stdin : Stdin
  stdout : Option Nat
  sched : Schedule
  rng : BenchRng
  measure : Measure

/-- What the tool takes from libraries: formatting, and `wyhash(_, 42)`. -/
structure Libs where
  fmt : Fmt
  hash : List U8 → U64

/-- What a run prints on stdout: lines of bytes (`check`), text (`show`, `bench`), or nothing. -/
inductive Printed where
  | none
  | bytes (ls : List (List U8))
  | text (ls : List String)

/-- `poppy.rs:284-565` `main`: the files afterwards, what was printed, and the outcome (`none`: the
schedule ends before the threads do). -/
def main (t : Libs) (env : Env) (w : World) (r : Run) : World × Printed × Option (Res Unit) :=
  match r.command with
  | .create o => match create env w r.sched o r.jobs with | (w, x) => (w, .none, x)
  | .insert o => match insert env w r.sched r.stdin o r.jobs with | (w, x) => (w, .none, x)
  | .check o =>
    match checkTo env w r.sched r.stdin o r.jobs ⟨[], r.stdout⟩ with
    | (s, x) => (w, .bytes s.lines, x)
  | .bench o =>
    match (benchLog t.fmt env w t.hash r.measure r.rng r.stdin o).to ⟨[], r.stdout⟩ with
    | (s, x) => (w, .text s.lines, some x)
  | .show file =>
    match (showLog t.fmt env w file).to ⟨[], r.stdout⟩ with
    | (s, x) => (w, .text s.lines, some x)

end Cli
end Poppy
