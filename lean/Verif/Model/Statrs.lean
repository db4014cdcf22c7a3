import Mathlib.Analysis.Real.Sqrt
import Verif.Model.Bench

/-!
# Model of the standard deviation of the `statrs` crate (0.16) and of `utils::benchmark`

The crate is not part of the repository; its functions are written down here from its public
source (`statrs::statistics::IterStatistics`).
-/

namespace Poppy

/-- `f64::sqrt`, correctly rounded (IEEE-754) -/
noncomputable def FVal.sqrt : FVal → FVal
  | .nan => .nan
  | .pinf => .pinf
  | .ninf => .nan
  | .fin q => if q < 0 then .nan else rnd (Real.sqrt q)

namespace Cli

/-- One turn of the loop of `Statistics::variance` (number of values, sum, variance so far). -/
def statrsVarStep (s : FVal × FVal × FVal) (x : FVal) : FVal × FVal × FVal :=
  let i := FVal.add s.1 .one
  let sum := FVal.add s.2.1 x
  let diff := FVal.sub (FVal.mul i x) sum
  (i, sum, FVal.add s.2.2 (FVal.div (FVal.mul diff diff) (FVal.mul i (FVal.sub i .one))))

/-- `Statistics::variance` of the `statrs` crate (used by `utils.rs:150`) -/
def statrsVariance : List FVal → FVal
  | [] => .nan
  | x :: xs =>
    let r := xs.foldl statrsVarStep (.one, x, .fin 0)
    if FVal.le r.1 .one then .nan else FVal.div r.2.2 (FVal.sub r.1 .one)

/-- `Statistics::std_dev` of the `statrs` crate (`utils.rs:150`) -/
noncomputable def statrsStdDev (l : List FVal) : FVal := FVal.sqrt (statrsVariance l)

/-- `utils.rs:136-142`: the runs and their times in seconds.  `f` takes and returns the state the
closure works on, or panics; `clock` is what the clock shows for each run in nanoseconds. -/
def timeRuns {σ : Type} (clock : Nat → Nat) (f : σ → σ × Res Unit) : Nat → Nat → σ → σ × Res (List FVal)
  | 0, _, s => (s, .ok [])
  | k + 1, i, s =>
    match f s with
    | (s, .ok ()) =>
      match timeRuns clock f k (i + 1) s with
      | (s, .ok ts) => (s, .ok (asSecs (clock i) :: ts))
      | (s, .err e) => (s, .err e)
      | (s, .panic) => (s, .panic)
    | (s, .err e) => (s, .err e)
    | (s, .panic) => (s, .panic)

/-- `utils.rs:144-157`: the time made of the times of the runs, in nanoseconds. -/
noncomputable def summary (run : Nat) (times : List FVal) : Res Nat :=
  if run = 1 then
    match times with
    | t :: _ => fromSecs t
    | [] => .panic
  else
    let mean := statrsMean times
    let threshold := FVal.mul (.fin 3) (statrsStdDev times)
    fromSecs (statrsMean (times.filter fun x => FVal.le (FVal.abs (FVal.sub x mean)) threshold))

/-- `utils.rs:133-158` `benchmark`.  Simplification: the vector for the times is always allocated. -/
noncomputable def benchmarkFn {σ : Type} (clock : Nat → Nat) (f : σ → σ × Res Unit) (run : Nat) (s : σ) :
    σ × Res Nat :=
  match timeRuns clock f run 0 s with
  | (s, .ok times) => (s, summary run times)
  | (s, .err e) => (s, .err e)
  | (s, .panic) => (s, .panic)

/-- `utils.rs:160-162` `time_it_once` -/
noncomputable def timeItOnce {σ : Type} (clock : Nat → Nat) (f : σ → σ × Res Unit) (s : σ) :
    σ × Res Nat := benchmarkFn clock f 1 s

end Cli
end Poppy
