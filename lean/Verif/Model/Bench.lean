import Verif.Model.Stdout

/-!
# Model of the `bench` command (`poppy/src/bin/poppy.rs:411-556`)

Random numbers, measured times and the statistical functions of the `statrs` crate are parameters.
-/

namespace Poppy
namespace Cli

/-- `poppy.rs:117-145` `struct Benchmark` -/
structure Benchmark where
  sizeMb : U64
  testSize : Option Nat
  runs : Nat
  fpTol : F64
  version : U8
  fpp : F64
  opt : U8
  file : Option Path

/-- The random choices of the command. -/
structure BenchRng where
  /-- `entries.shuffle(&mut rng)` (`poppy.rs:476`) -/
  shuffle : List (List U8) → List (List U8)
  shuffle_perm : ∀ l, (shuffle l).Perm l
  /-- `rng.gen_range(0..=100)` for the mutation rate and the line with this number
  (`poppy.rs:490`) -/
  percent : Nat → Nat → Nat
  percent_le : ∀ m i, percent m i ≤ 100
  /-- `rng.gen_range(0..=255)` for each byte of the line (`poppy.rs:494`) -/
  byte : Nat → Nat → Nat → U8

/-- `poppy.rs:488-497`: one test line, with the flag telling whether it was mutated. The bytes of a
`String` are changed in place (`as_bytes_mut`), without care for UTF-8. -/
def benchMutate (rng : BenchRng) (mutProb i : Nat) (e : List U8) : Bool × List U8 :=
  if rng.percent mutProb i < mutProb then
    (true, e.mapIdx fun j b => b ^^^ rng.byte mutProb i j)
  else (false, e)

/-- `poppy.rs:481-499` `mutated_lines` -/
def benchLines (rng : BenchRng) (entries : List (List U8)) (testLen mutProb : Nat) :
    List (Bool × List U8) :=
  (entries.take testLen).mapIdx (benchMutate rng mutProb)

/-- `poppy.rs:505-515`: the statistics over the test lines. -/
def benchStats (env : Env) (b : Bloom) : List (Bool × List U8) → Stats → Res Stats
  | [], s => .ok s
  | (m, l) :: ls, s =>
    match b.containsBytes env l with
    | .ok isIn => benchStats env b ls (if m then (if isIn then s.incFp else s.incTn) else s)
    | .err e => .err e
    | .panic => .panic

/-- What measuring depends on. -/
structure Measure where
  /-- `Statistics::mean` of the `statrs` crate -/
  mean : List FVal → FVal
  /-- `Statistics::std_dev` of the `statrs` crate -/
  stdDev : List FVal → FVal
  /-- `end_time - start_time` (`utils.rs:138-141`) of the run with this number at this mutation rate,
  in nanoseconds -/
  clock : Nat → Nat → Nat

/-- `Duration::from_secs_f64`: in nanoseconds, the nearest (what older versions of std cut off instead
only shows in the numbers printed). -/
def fromSecs : FVal → Res Nat
  | .fin q =>
    if q < 0 then .panic
    else if 2 ^ 64 * 10 ^ 9 ≤ (rneInt (q * 10 ^ 9)).toNat then .panic
    else .ok (rneInt (q * 10 ^ 9)).toNat
  | _ => .panic

/-- `utils.rs:133-158` `benchmark`: the mean time of the runs at mutation rate `m`, without those far
away from the mean.  Without runs the mean of no duration is NaN, and `Duration::from_secs_f64`
panics. -/
def benchmark (mc : Measure) (runs m : Nat) : Res Nat :=
  let times := (List.range runs).map fun i => asSecs (mc.clock m i)
  if runs = 1 then fromSecs (asSecs (mc.clock m 0))
  else
    let mean := mc.mean times
    let threshold := FVal.mul (.fin 3) (mc.stdDev times)
    fromSecs (mc.mean (times.filter fun x => FVal.le (FVal.abs (FVal.sub x mean)) threshold))

/-- What is measured at one mutation rate: the number of lines, their bytes, the duration in
nanoseconds, and the rate of false positives. -/
structure Round where
  lines : Nat
  bytes : Nat
  duration : Nat
  rate : FVal

/-- `poppy.rs:526` `qps` -/
def Round.qps (r : Round) : FVal :=
  FVal.div (FVal.ofU64 (BitVec.ofNat 64 r.lines)) (asSecs r.duration)

/-- `poppy.rs:527-537`: what is printed for a mutation rate. -/
def Round.text (fmt : Fmt) (m : Nat) (r : Round) : List String := [
  "\tcondition: " ++ fmt.u64 (BitVec.ofNat 64 (100 - m)) ++ "% of queried values are in filter",
  "\tquery duration: " ++ fmt.duration r.duration,
  "\tquery speed: " ++ fmt.f64Prec1 r.qps ++ " queries/s -> " ++
    fmt.f64Prec1 (FVal.div (ByteSize.fromBytes (BitVec.ofNat 64 r.bytes)).inMb
      (asSecs r.duration)) ++ " MB/s",
  "\tfp rate = " ++ fmt.f64Width3 r.rate,
  ""]

/-- `poppy.rs:481-539`: one mutation rate. -/
def benchRound (fmt : Fmt) (env : Env) (mc : Measure) (rng : BenchRng) (b : Bloom)
    (entries : List (List U8)) (testLen runs m : Nat) : Log Round := do
  let ls := benchLines rng entries testLen m
  let s ← Log.lift (benchStats env b ls Stats.new)
  let d ← Log.lift (benchmark mc runs m)
  let r := ⟨ls.length, (ls.map fun l => l.2.length).sum, d, s.fpRate⟩
  (⟨Round.text fmt m r, .ok r⟩ : Log Round)

/-- `poppy.rs:479-539`: the rounds, one for each mutation rate of the list. -/
def benchRounds (fmt : Fmt) (env : Env) (mc : Measure) (rng : BenchRng) (b : Bloom)
    (entries : List (List U8)) (testLen runs : Nat) : List Nat → Log (List Round)
  | [] => pure []
  | m :: ms => do
    let r ← benchRound fmt env mc rng b entries testLen runs m
    let rs ← benchRounds fmt env mc rng b entries testLen runs ms
    pure (r :: rs)

/-- `(10..=100).step_by(10)` (`poppy.rs:480`) -/
def mutProbs : List Nat := [10, 20, 30, 40, 50, 60, 70, 80, 90, 100]

/-- `>` on `f64` -/
def gt (a b : FVal) : Bool := FVal.le b a && !FVal.le a b

/-- `poppy.rs:541-549`: the verdict.  `avg` is the mean of the rates. -/
def benchVerdict (b : Bloom) (fpTol : F64) (avg : FVal) : Res Unit :=
  let fpp := FVal.ofBits b.fpp
  if avg ≠ .nan ∧ gt avg (FVal.add fpp (FVal.mul fpp (FVal.ofBits fpTol))) = true then
    .err (.other "bloom filter fp rate is not respected")
  else .ok ()

/-- `poppy.rs:442-449`: the filter must contain all the entries. -/
def benchAll (env : Env) (b : Bloom) : List (List U8) → Res Unit
  | [] => .ok ()
  | e :: es =>
    match b.containsBytes env e with
    | .ok true => benchAll env b es
    | .ok false => .err (.other "bloom filter to benchmark must contain all entries")
    | .err e => .err e
    | .panic => .panic

/-- `poppy.rs:438-460`: the filter to benchmark. -/
def benchBloom (env : Env) (w : World) (o : Benchmark) (entries : List (List U8)) : Res Bloom :=
  match o.file with
  | some f => do
    let r ← w.open f
    let b ← Bloom.fromReader env r
    let _ ← benchAll env b entries
    .ok b
  | none => benchFilter env o.version o.opt o.fpp entries

/-- `Statistics::mean` of the `statrs` crate (0.16), a running mean.  The crate is not part of the
repository: the properties are stated for any function with the properties `MeanSpec` below, which
this one has. -/
def statrsMean (l : List FVal) : FVal :=
  if l.isEmpty then .nan
  else (l.foldl (fun (s : FVal × FVal) x =>
    (FVal.add s.1 .one, FVal.add s.2 (FVal.div (FVal.sub x s.2) (FVal.add s.1 .one))))
    (.fin 0, .fin 0)).2

/-- `poppy.rs:440`, `poppy.rs:452` -/
def benchTitle (o : Benchmark) : String :=
  match o.file with
  | some f => "Benchmarking filter: " ++ f
  | none => "Benchmarking dataset:"

/-- `poppy.rs:411-556` `bench`.  `h` is `wyhash(_, 42)`.  Simplification: `dataset_size` is computed
from the entries. -/
def benchLog (fmt : Fmt) (env : Env) (w : World) (h : List U8 → U64) (mc : Measure)
    (rng : BenchRng) (stdin : Stdin) (o : Benchmark) : Log Unit := do
  let limit ← Log.lift (benchLimit env.debug o.sizeMb)
  Log.print "Preparing dataset"
  let entries ← Log.lift (benchEntries h limit stdin.lines [] 0 [])
  Log.print (benchTitle o)
  let b ← Log.lift (benchBloom env w o entries)
  showBfPropertiesLog fmt env b
  let testLen := o.testSize.getD entries.length
  let size := ByteSize.fromBytes (BitVec.ofNat 64 (entries.map List.length).sum)
  Log.print "\nQuery performance:"
  Log.print ("\tdataset size: " ++ size.display fmt.f64Prec1 ++ " (" ++
    fmt.f64 (FVal.round size.inMb) ++ "MB)")
  Log.print ("\ttest size: " ++ fmt.u64 (BitVec.ofNat 64 testLen))
  Log.print ""
  let rounds ← benchRounds fmt env mc rng b (rng.shuffle entries) testLen o.runs mutProbs
  Log.lift (benchVerdict b o.fpTol (mc.mean (rounds.map Round.rate)))
  Log.print ("Average queries per seconds: " ++
    fmt.f64 (FVal.round (mc.mean (rounds.map Round.qps))))

/-- How `bench` ends when all it prints is taken. -/
def bench (fmt : Fmt) (env : Env) (w : World) (h : List U8 → U64) (mc : Measure) (rng : BenchRng)
    (stdin : Stdin) (o : Benchmark) : Res Unit :=
  (benchLog fmt env w h mc rng stdin o).res

end Cli
end Poppy
