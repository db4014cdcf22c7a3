import Verif.Model.Bench
import Verif.CliSpec

/-! Vocabulary of the properties of `poppy bench`: which lines it queries and what it measures. -/

namespace Poppy
namespace Cli

/-- The limit in bytes for `--size-mb mb`, where 0 stands for `usize::MAX`; none if computing it
overflows in a debug build. -/
def sizeLimit (debug : Bool) (mb : ℕ) : Option ℕ :=
  if debug = true ∧ 2 ^ 64 ≤ (if mb = 0 then 2 ^ 64 - 1 else mb) * 2 ^ 20 then none
  else some ((if mb = 0 then 2 ^ 64 - 1 else mb) * 2 ^ 20 % 2 ^ 64)

/-- The dataset: lines are read up to the first point where those with a new hash exceed the limit
in total; then, if another line is there it is still read, but left out. -/
def Dataset (h : List U8 → U64) (limit : ℕ) (ls : List (Res (List U8))) (es : List (List U8)) :
    Prop :=
  ∃ pre rest, ls = pre.map Res.ok ++ rest ∧ es = firsts h pre ∧
    (∀ p, p <+: pre → p ≠ pre → total (firsts h p) ≤ limit) ∧
    (rest = [] ∨ (∃ l r, rest = .ok l :: r) ∧ limit < total es)

/-- The filter tested: that of the file, if it contains the whole dataset, or one made for it. -/
inductive Tested (env : Env) (w : World) (o : Benchmark) (es : List (List U8)) : Bloom → Prop
  | file {f : Path} {bs : List U8} {b : Bloom} : o.file = some f → w.open f = .ok (.ofBytes bs) →
      Bloom.fromReader env (Reader.ofBytes bs) = .ok b →
      (∀ e ∈ es, b.containsBytes env e = .ok true) → Tested env w o es b
  | made {lvl : OptLevel} {b₀ b : Bloom} : o.file = none → OptLevel.tryFrom o.opt = .ok lvl →
      Bloom.withVersionCapacityOpt env o.version (BitVec.ofNat 64 es.length) o.fpp lvl = .ok b₀ →
      b₀.fill env es = (b, .ok ()) → Tested env w o es b

/-- What `bench` prepares before it measures: the dataset and the filter. -/
structure Setup (env : Env) (w : World) (h : List U8 → U64) (stdin : Stdin) (o : Benchmark)
    (es : List (List U8)) (b : Bloom) : Prop where
  dataset : ∃ limit, sizeLimit env.debug o.sizeMb.toNat = some limit ∧
    Dataset h limit stdin.lines es
  filter : Tested env w o es b

/-- The lines among the first `n` that are changed at mutation rate `m`: those whose random
percentage is below the rate, each byte xored with a random one. -/
def mutants (rng : BenchRng) (es : List (List U8)) (n m : ℕ) : List (List U8) :=
  ((List.range (min n es.length)).filter fun i => decide (rng.percent m i < m)).map fun i =>
    (List.range (es.getD i []).length).map fun j => (es.getD i []).getD j 0 ^^^ rng.byte m i j

/-- The first `n` lines as they are queried at mutation rate `m`. -/
def queried (rng : BenchRng) (es : List (List U8)) (n m : ℕ) : List (List U8) :=
  (List.range (min n es.length)).map fun i =>
    if rng.percent m i < m then
      (List.range (es.getD i []).length).map fun j => (es.getD i []).getD j 0 ^^^ rng.byte m i j
    else es.getD i []

/-- The share of these lines that is answered true, rounded to `f64`; NaN for no lines. -/
def IsRate (contains : List U8 → Res Bool) (ls : List (List U8)) (r : FVal) : Prop :=
  (ls = [] ∧ r = .nan) ∨ (ls ≠ [] ∧
    r = .fin (rndQ ((ls.countP fun l => decide (contains l = .ok true) : ℕ) / ls.length : ℚ)))

/-- The mean rate is above the number `x`. -/
def Above (x : ℚ) : FVal → Prop
  | .fin a => x < a
  | .pinf => True
  | _ => False

/-- The duration `d` in nanoseconds stands for `runs` runs: that of the single run (if it took less
than 48 days), or to the nearest nanosecond the mean of those runs whose time is within three times
the standard deviation of the mean of all. -/
def IsDuration (mc : Measure) (runs m d : ℕ) : Prop :=
  (runs = 1 → mc.clock m 0 < 2 ^ 22 * 10 ^ 9 → d = mc.clock m 0) ∧
  (runs ≠ 1 → ∀ times, times = (List.range runs).map (fun i => asSecs (mc.clock m i)) →
    ∃ q : ℚ, |d - q * 10 ^ 9| ≤ 1 / 2 ∧ mc.mean (times.filter fun x =>
      FVal.le (FVal.abs (FVal.sub x (mc.mean times))) (FVal.mul (.fin 3) (mc.stdDev times)))
        = .fin q)

/-- The figures of the round at mutation rate `m`, on the first `n` lines: how many there are, their
bytes, how long it took to query them, and the share of the changed ones that is answered true. -/
structure IsRound (contains : List U8 → Res Bool) (mc : Measure) (runs : ℕ) (rng : BenchRng)
    (es : List (List U8)) (n m : ℕ) (r : Round) : Prop where
  lines : r.lines = (es.take n).length
  bytes : r.bytes = total (es.take n)
  duration : IsDuration mc runs m r.duration
  rate : IsRate contains (mutants rng es n m) r.rate

/-- What is printed before the rounds, where `info` describes the filter. -/
def benchHead (fmt : Fmt) (o : Benchmark) (es : List (List U8)) (info : List String) :
    List String :=
  ["Preparing dataset",
    match o.file with
    | none => "Benchmarking dataset:"
    | some f => "Benchmarking filter: " ++ f] ++ info ++
  ["\nQuery performance:",
    "\tdataset size: " ++ (ByteSize.fromBytes (BitVec.ofNat 64 (total es))).display fmt.f64Prec1 ++
      " (" ++ fmt.f64 (FVal.round (ByteSize.fromBytes (BitVec.ofNat 64 (total es))).inMb) ++ "MB)",
    "\ttest size: " ++ fmt.u64 (BitVec.ofNat 64 (o.testSize.getD es.length)),
    ""]

/-- What is printed about the round at mutation rate `m`. -/
def roundText (fmt : Fmt) (m : ℕ) (r : Round) : List String :=
  ["\tcondition: " ++ fmt.u64 (BitVec.ofNat 64 (100 - m)) ++ "% of queried values are in filter",
    "\tquery duration: " ++ fmt.duration r.duration,
    "\tquery speed: " ++
      fmt.f64Prec1 (FVal.div (FVal.ofU64 (BitVec.ofNat 64 r.lines)) (asSecs r.duration)) ++
      " queries/s -> " ++
      fmt.f64Prec1 (FVal.div (ByteSize.fromBytes (BitVec.ofNat 64 r.bytes)).inMb
        (asSecs r.duration)) ++ " MB/s",
    "\tfp rate = " ++ fmt.f64Width3 r.rate,
    ""]

end Cli
end Poppy
