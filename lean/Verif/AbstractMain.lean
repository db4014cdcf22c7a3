import Verif.AbstractCli
import Verif.BenchSpec
import Verif.Model.Main

/-!
# The whole tool

What a run of the tool does, whatever the command: the files afterwards, what is printed and the
outcome, in terms of `Verif/AbstractCli.lean`.  Of the model it uses the types of runs and, for `bench`,
the measured duration (`Cli.benchmark`) and the vocabulary of `Verif/BenchSpec.lean`.
-/

namespace Abs

open Poppy (U8 U64 F64 Res Error FVal rndQ)
open Poppy.Cli (World Path Stdin Stdout Fmt Run Libs Printed Benchmark BenchRng Measure Round sizeLimit
  mutants queried benchHead roundText benchmark asSecs)

/-! ## Benchmarking -/

/-- The dataset, after `es`: lines with a new hash, until they exceed the limit in total. -/
def dataset (hash : List U8 → U64) (limit : ℕ) : List (List U8) → List Item → Res (List (List U8))
  | es, [] => .ok es
  | es, .ok l :: ls =>
    if limit < Poppy.Cli.total es then .ok es
    else if hash l ∈ es.map hash then dataset hash limit es ls
    else dataset hash limit (es ++ [l]) ls
  | _, .err e :: _ => .err e
  | _, .panic :: _ => .panic

/-- Does the filter contain the whole dataset? -/
def F.holds (m : Machine) (a : F) : List (List U8) → Res Unit
  | [] => .ok ()
  | e :: es =>
    match a.ask m (.ok e) with
    | .ok true => a.holds m es
    | .ok false => .err (.other "bloom filter to benchmark must contain all entries")
    | _ => .panic

/-- The filter that is measured: the one in the file, or a new one with the dataset. -/
def tested (m : Machine) (w : World) (o : Benchmark) (es : List (List U8)) : Res F :=
  match o.file with
  | some f =>
    match (source w f).filter m with
    | .ok a => (a.holds m es).map fun _ => a
    | x => x
  | none =>
    match levelNo o.opt with
    | .err e => .err e
    | .panic => .panic
    | .ok lvl =>
      match make m o.version (BitVec.ofNat 64 es.length) o.fpp lvl with
      | .ok a =>
        match (a.fill m es).2 with
        | .err e => .err e
        | .panic => .panic
        | _ => .ok (a.fill m es).1
      | x => x

/-- The share of those that hold, rounded to `f64`; NaN if there are none. -/
def share (bs : List Bool) : FVal :=
  if bs = [] then .nan else .fin (rndQ ((bs.count true : ℚ) / bs.length))

/-- One mutation rate, on the first `n` lines. -/
def F.round (m : Machine) (a : F) (mc : Measure) (rng : BenchRng) (es : List (List U8)) (n runs p : ℕ) :
    Res Round :=
  match firstFailure ((queried rng es n p).map fun l => a.ask m (.ok l)) with
  | .err e => .err e
  | .panic => .panic
  | .ok _ => (benchmark mc runs p).map fun d =>
    ⟨(es.take n).length, Poppy.Cli.total (es.take n), d,
      share ((mutants rng es n p).map fun l => decide (a.ask m (.ok l) = .ok true))⟩

/-- The results before the first failure. -/
def beforeFailure {α : Type} : List (Res α) → List α
  | .ok a :: rs => a :: beforeFailure rs
  | _ => []

/-- The values shown of a loaded filter. -/
def F.values (a : F) : Shown := ⟨a.version, a.cap, a.count, a.fpp.toNat, a.data.length, a.size⟩

/-- Is the first number larger? -/
def larger (x y : FVal) : Bool := FVal.le y x && !FVal.le x y

/-- What `bench` prints, and how it ends. -/
noncomputable def benchCmd (t : Libs) (m : Machine) (debug : Bool) (w : World) (mc : Measure)
    (rng : BenchRng) (stdin : Stdin) (o : Benchmark) : List String × Res Unit :=
  match sizeLimit debug o.sizeMb.toNat with
  | none => ([], .panic)
  | some limit =>
    match dataset t.hash limit [] (stdinItems stdin true []) with
    | .err e => (["Preparing dataset"], .err e)
    | .panic => (["Preparing dataset"], .panic)
    | .ok es =>
      match tested m w o es with
      | .err e => ((benchHead t.fmt o es []).take 2, .err e)
      | .panic => ((benchHead t.fmt o es []).take 2, .panic)
      | .ok a =>
        let rates := [10, 20, 30, 40, 50, 60, 70, 80, 90, 100]
        let results := rates.map
          (a.round m mc rng (rng.shuffle es) (o.testSize.getD es.length) o.runs)
        let rounds := beforeFailure results
        let text := benchHead t.fmt o es (a.values.text t.fmt "").tail ++
          (List.zipWith (roundText t.fmt) rates rounds).flatten
        match firstFailure results with
        | .err e => (text, .err e)
        | .panic => (text, .panic)
        | .ok _ =>
          if larger (mc.mean (rounds.map Round.rate)) (FVal.add (FVal.ofBits a.fpp)
              (FVal.mul (FVal.ofBits a.fpp) (FVal.ofBits o.fpTol))) then
            (text, .err (.other "bloom filter fp rate is not respected"))
          else
            (text ++ ["Average queries per seconds: " ++ t.fmt.f64 (FVal.round (mc.mean
              (rounds.map fun r => FVal.div (FVal.ofU64 (BitVec.ofNat 64 r.lines))
                (asSecs r.duration))))], .ok ())

/-! ## Showing -/

/-- What `show` prints, and how it ends: if the size overflows, in a debug build, the last line is
missing. -/
def showRun (fmt : Fmt) (debug : Bool) (w : World) (file : Path) : List String × Res Unit :=
  match (source w file).metadata debug with
  | .err e => ([], .err e)
  | .panic => ([], .panic)
  | .ok x =>
    if debug = true ∧ 2 ^ 64 ≤ (shown x).size then (((shown x).text fmt file).dropLast, .panic)
    else ((shown x).text fmt file, .ok ())

/-! ## Running -/

/-- Text printed where only some lines are taken. -/
def printed (room : Option ℕ) (x : List String × Res Unit) : Printed × Res Unit :=
  match room with
  | none => (.text x.1, x.2)
  | some n => (.text (x.1.take n), if x.1.length ≤ n then x.2 else .panic)

/-- What a run that ends does: the files afterwards, what is printed, and the outcome. -/
def Does (t : Libs) (m : Machine) (debug : Bool) (w : World) (r : Run) (w' : World) (p : Printed)
    (x : Res Unit) : Prop :=
  match r.command with
  | .create o => p = .none ∧ ∃ y, createCmd m w o r.jobs = some y ∧ (w', x) = ended w o.file y
  | .insert o => p = .none ∧ (w', x) = ended w o.file (insertCmd m w r.stdin o r.jobs)
  | .check o => w' = w ∧ ∃ ls, p = .bytes ls ∧ ls.Subperm (checkPrints m w r.stdin o) ∧
    (∀ n, r.stdout = some n → ls.length ≤ n) ∧
    (x = .ok () → ls.Perm (checkPrints m w r.stdin o)) ∧
    (x = checkCmd m w r.stdin o r.jobs ∨
      -- a line was refused
      (r.stdout = some ls.length ∧ ls.length < (checkPrints m w r.stdin o).length ∧ x = .panic))
  | .bench o => w' = w ∧ (p, x) = printed r.stdout
    (benchCmd t m debug w r.measure r.rng r.stdin o)
  | .show file => w' = w ∧ (p, x) = printed r.stdout (showRun t.fmt debug w file)

/-- The command has an end, if its threads get enough steps. -/
def Ends (m : Machine) (w : World) (r : Run) : Prop :=
  ∀ o, r.command = .create o → createCmd m w o r.jobs ≠ none

/-- The number of threads is at most this. -/
def threads (r : Run) : ℕ :=
  match r.command with
  | .create o => o.dataset.length
  | .insert o => o.inputs.length
  | .check o => o.inputs.length
  | _ => 0

end Abs

namespace Poppy
namespace Cli

/-- Runs of the tool, one after the other: the files at the end, and what each run printed and its
outcome. -/
def session (t : Libs) (env : Env) : World → List Run → World × List (Printed × Option (Res Unit))
  | w, [] => (w, [])
  | w, r :: rs =>
    ((session t env (main t env w r).1 rs).1,
      (main t env w r).2 :: (session t env (main t env w r).1 rs).2)

/-- The same run, but for the interleaving of its threads. -/
def SameRun (r r' : Run) : Prop := ∃ s, r' = { r with sched := s }

/-- The same was printed, but for the order of the lines. -/
def Printed.Same : Printed → Printed → Prop
  | .none, .none => True
  | .bytes a, .bytes b => a.Perm b
  | .text a, .text b => a = b
  | _, _ => False

end Cli
end Poppy
