import Verif.Model.Cli

/-!
# Model of a standard output that can fail (`poppy/src/bin/poppy.rs`)

`println!` panics when the line cannot be written, for instance because the process at the other end
of a pipe has ended.  Simplification: a line is written completely or not at all.
-/

namespace Poppy
namespace Cli

/-- The standard output: the lines printed so far, and how many more it takes (`none`: any number). -/
structure Stdout (α : Type) where
  lines : List α
  room : Option Nat

/-- `println!` -/
def Stdout.println {α : Type} (s : Stdout α) (l : α) : Stdout α × Res Unit :=
  match s.room with
  | none => (⟨s.lines ++ [l], none⟩, .ok ())
  | some 0 => (s, .panic)
  | some (n + 1) => (⟨s.lines ++ [l], some n⟩, .ok ())

/-- One `println!` after the other. -/
def Stdout.printAll {α : Type} (s : Stdout α) : List α → Stdout α × Res Unit
  | [] => (s, .ok ())
  | l :: ls =>
    match s.println l with
    | (s, .ok ()) => s.printAll ls
    | x => x

/-- `poppy.rs:350-359`, `poppy.rs:388-397`: print the line, or not. -/
def checkPrintTo (o : Check) (line : List U8) (ok : Bool) (s : Stdout (List U8)) :
    Stdout (List U8) × Res Unit :=
  if o.verify then (if !ok then s.println (line ++ nok) else (s, .ok ()))
  else if ok && !o.silent then s.println line else (s, .ok ())

/-- Lines from stdin (`poppy.rs:346-360`), see `checkStdin`. -/
def checkStdinTo (env : Env) (bf : Bloom) (o : Check) :
    List (Res (List U8)) → Stdout (List U8) → Stdout (List U8) × Res Unit
  | [], s => (s, .ok ())
  | l :: ls, s =>
    match l with
    | .ok line =>
      match bf.containsBytes env line with
      | .ok ok =>
        match checkPrintTo o line ok s with
        | (s, .ok ()) => checkStdinTo env bf o ls s
        | x => x
      | _ => (s, .panic)
    | _ => (s, .panic)

/-- One step of a checking thread (`poppy.rs:376-402`), see `Checker.step`.  The standard output is
shared by the threads, and locked while a line is printed. -/
def Checker.stepTo (env : Env) (w : World) (bf : Bloom) (o : Check) :
    Checker → Stdout (List U8) → Checker × Stdout (List U8)
  | .done r, s => (.done r, s)
  | .running [] [], s => (.done (.ok ()), s)
  | .running [] (f :: fs), s =>
    match w.open f with
    | .ok r => (.running (fileLines r) fs, s)
    | .err e => (.done (.err e), s)
    | .panic => (.done .panic, s)
  | .running (l :: ls) fs, s =>
    match l with
    | .ok line =>
      match bf.containsBytes env line with
      | .ok ok =>
        match checkPrintTo o line ok s with
        | (s, .ok ()) => (.running ls fs, s)
        | (s, _) => (.done .panic, s)
      | _ => (.done .panic, s)
    | .err e => (.done (.err e), s)
    | .panic => (.done .panic, s)

/-- Run the checking threads under a schedule. -/
def runCheckersTo (env : Env) (w : World) (bf : Bloom) (o : Check) :
    Schedule → List Checker → Stdout (List U8) → List Checker × Stdout (List U8)
  | [], ts, s => (ts, s)
  | i :: sched, ts, s =>
    match ts[i]? with
    | none => runCheckersTo env w bf o sched ts s
    | some t =>
      match t.stepTo env w bf o s with
      | (t, s) => runCheckersTo env w bf o sched (ts.set i t) s

/-- `poppy.rs:366-409`: the part of `check` reading files. -/
def checkFilesTo (env : Env) (w : World) (sched : Schedule) (bf : Bloom) (o : Check) (jobs : Nat)
    (s : Stdout (List U8)) : Stdout (List U8) × Option (Res Unit) :=
  if o.inputs.isEmpty then (s, some (.ok ()))
  else
    match batches o.inputs jobs with
    | .ok bs =>
      match runCheckersTo env w bf o sched (bs.map (fun b => Checker.running [] b)) s with
      | (ts, s) => (s, joinCheckers ts)
    | .err e => (s, some (.err e))
    | .panic => (s, some .panic)

/-- `poppy.rs:337-410` `check` -/
def checkTo (env : Env) (w : World) (sched : Schedule) (stdin : Stdin) (o : Check) (jobs : Nat)
    (s : Stdout (List U8)) : Stdout (List U8) × Option (Res Unit) :=
  match (do
      let r ← w.open o.file
      Bloom.fromReader env r) with
  | .ok bf =>
    match (if o.stdin || o.inputs.isEmpty then checkStdinTo env bf o stdin.lines s
           else (s, .ok ())) with
    | (s, .ok ()) => checkFilesTo env w sched bf o jobs s
    | (s, .err e) => (s, some (.err e))
    | (s, .panic) => (s, some .panic)
  | .err e => (s, some (.err e))
  | .panic => (s, some .panic)

/-- What a function prints, line by line, and its result.  Between the lines it has no effect, so it
ends at the first line that is refused. -/
structure Log (α : Type) where
  out : List String
  res : Res α

/-- One after the other, as long as they succeed. -/
instance : Monad Log where
  pure a := ⟨[], .ok a⟩
  bind x f :=
    match x.res with
    | .ok a => ⟨x.out ++ (f a).out, (f a).res⟩
    | .err e => ⟨x.out, .err e⟩
    | .panic => ⟨x.out, .panic⟩

/-- `println!` -/
def Log.print (l : String) : Log Unit := ⟨[l], .ok ()⟩

/-- Nothing is printed. -/
def Log.lift {α : Type} (r : Res α) : Log α := ⟨[], r⟩

/-- With this standard output. -/
def Log.to (l : Log Unit) (s : Stdout String) : Stdout String × Res Unit :=
  match s.printAll l.out with
  | (s, .ok ()) => (s, l.res)
  | x => x

/-- `poppy.rs:153-176` `show_bf_properties`: the size is only computed for the last line. -/
def showBfPropertiesLog (fmt : Fmt) (env : Env) (b : Bloom) : Log Unit := do
  Log.print ("\tversion                                  : " ++ fmt.u64 (b.version.setWidth 64))
  Log.print ("\tcapacity (desired number of elements)    : " ++ fmt.u64 b.capacity)
  Log.print ("\tn (estimated number of elements)         : " ++ fmt.u64 b.countEstimate)
  Log.print ("\tfpp (false positive probability)         : " ++ fmt.f64 (FVal.ofBits b.fpp))
  Log.print ("\tLength of data                           : " ++
    (ByteSize.fromBytes (BitVec.ofNat 64 b.data.length)).display fmt.f64Prec1)
  let size ← Log.lift (b.sizeInBytes env)
  Log.print ("\tSize of bloom filter                     : " ++
    (ByteSize.fromBytes size).display fmt.f64Prec1)

/-- `poppy.rs:557-562` `show` -/
def showLog (fmt : Fmt) (env : Env) (w : World) (file : Path) : Log Unit := do
  let r ← Log.lift (w.open file)
  let b ← Log.lift (Bloom.partialFromReader env r)
  Log.print ("File: " ++ file)
  showBfPropertiesLog fmt env b

end Cli
end Poppy
