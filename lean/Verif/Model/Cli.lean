import Verif.Model.Bloom
import Verif.Model.Utils

/-!
# Model of the command line tool (`poppy/src/bin/poppy.rs`)

Arguments are already parsed (`clap` is not modelled), text on stderr is ignored.  Files do not
change during a command except by the command itself.  Reading a file or stdin can fail at any
position.
-/

namespace Poppy
namespace Cli

abbrev Path := String

/-- What reading a path gives (if it exists): it cannot be opened; it can be opened, but every read
at or after a position fails (a directory on Linux: position 0, a damaged disk); it can be read
to its end. -/
inductive Access where
  | denied
  | upTo (k : Nat)
  | full

/-- The file system, and what the operating system allows. -/
structure World where
  /-- content of the existing files -/
  fs : Path → Option (List U8)
  /-- how far a path can be read -/
  access : Path → Access
  /-- does `File::create` succeed on the path? -/
  creatable : Path → Bool
  /-- free space for the written file (`none`: unlimited); also models an interruption -/
  disk : Option Nat
  /-- `thread::available_parallelism()` (at least 1), `1` if it fails -/
  cpus : Nat
  cpus_pos : 0 < cpus

/-- `File::open`. -/
def World.open (w : World) (p : Path) : Res Reader :=
  match w.fs p with
  | none => .err (.ioError .notFound)
  | some bs =>
    match w.access p with
    | .denied => .err (.ioError .other)
    | .upTo k => if k ≤ bs.length then .ok ⟨bs, 0, some k⟩ else .ok (Reader.ofBytes bs)
    | .full => .ok (Reader.ofBytes bs)

/-- `File::create`: empties or creates the file. -/
def World.create (w : World) (p : Path) : World × Res Unit :=
  if w.creatable p then
    ({ w with fs := fun q => if q = p then some [] else w.fs q }, .ok ())
  else (w, .err (.ioError .other))

/-- Store the bytes a writer received for `p`. -/
def World.put (w : World) (p : Path) (bs : List U8) : World :=
  { w with fs := fun q => if q = p then some bs else w.fs q }

/-! ## `BufRead::lines` -/

/-- Is the byte a UTF-8 continuation byte within `[lo, hi]`? -/
def inRange (b : U8) (lo hi : Nat) : Bool := decide (lo ≤ b.toNat) && decide (b.toNat ≤ hi)

/-- `std::str::from_utf8(..).is_ok()`: well-formed UTF-8 byte sequences, table 3-7 of the
Unicode standard. -/
def validUtf8 : List U8 → Bool
  | [] => true
  | [a] => inRange a 0 0x7F
  | a :: b :: t =>
    if inRange a 0 0x7F then validUtf8 (b :: t)
    else if inRange a 0xC2 0xDF then inRange b 0x80 0xBF && validUtf8 t
    else
      match t with
      | [] => false
      | c :: t =>
        if inRange a 0xE0 0xEF then
          inRange b (if a = 0xE0#8 then 0xA0 else 0x80) (if a = 0xED#8 then 0x9F else 0xBF)
            && inRange c 0x80 0xBF && validUtf8 t
        else
          match t with
          | [] => false
          | d :: t =>
            inRange a 0xF0 0xF4
              && inRange b (if a = 0xF0#8 then 0x90 else 0x80) (if a = 0xF4#8 then 0x8F else 0xBF)
              && inRange c 0x80 0xBF && inRange d 0x80 0xBF && validUtf8 t

/-- `'\n'` -/
def LF : U8 := 10#8
/-- `'\r'` -/
def CR : U8 := 13#8

/-- `BufRead::read_until(b'\n')`: the bytes up to and including the first newline (or all of
them), and what remains. -/
def readUntilLf : List U8 → List U8 × List U8
  | [] => ([], [])
  | b :: bs => if b = LF then ([b], bs) else (b :: (readUntilLf bs).1, (readUntilLf bs).2)

/-- `io::Lines::next`: drop one trailing `\n`, and then one trailing `\r`. -/
def stripEol (l : List U8) : List U8 :=
  if l.getLast? = some LF then
    let l := l.dropLast
    if l.getLast? = some CR then l.dropLast else l
  else l

/-- `BufRead::read_line` result turned into the item of `Lines`. -/
def lineItem (l : List U8) : Res (List U8) :=
  if validUtf8 l then .ok (stripEol l) else .err (.ioError .invalidData)

/-- The items of `BufRead::lines()`; `fuel` bounds the number of `next` calls. -/
def linesAux : Nat → List U8 → List (Res (List U8))
  | 0, _ => []
  | fuel + 1, bs =>
    match readUntilLf bs with
    | ([], _) => []
    | (l, rest) => lineItem l :: linesAux fuel rest

/-- `BufRead::lines()` on a source with the given content. -/
def lines (bs : List U8) : List (Res (List U8)) := linesAux (bs.length + 1) bs

/-- The items of `BufRead::lines()` on a source with the given content that fails afterwards, up
to the first failure: an incomplete last line is lost. -/
def brokenLinesAux : Nat → List U8 → List (Res (List U8))
  | 0, _ => [.err (.ioError .other)]
  | fuel + 1, bs =>
    if LF ∈ bs then lineItem (readUntilLf bs).1 :: brokenLinesAux fuel (readUntilLf bs).2
    else [.err (.ioError .other)]

/-- `BufReader::new(file).lines()` up to the first failing read.  After a failing read `io::Lines`
does not end: every further item is the same error again.  Everything but counting stops at the
first error. -/
def fileLines (r : Reader) : List (Res (List U8)) :=
  match r.failAt with
  | none => lines r.data
  | some k => brokenLinesAux (k + 1) (r.data.take k)

/-- The standard input: bytes, then the end, or a read error. -/
structure Stdin where
  bytes : List U8
  fails : Bool

/-- `io::stdin().lines()`, `BufReader::new(io::stdin()).lines()` (`poppy.rs:326`, `poppy.rs:346`,
`poppy.rs:423`) up to the first failing read, see `fileLines`. -/
def Stdin.lines (s : Stdin) : List (Res (List U8)) :=
  if s.fails then brokenLinesAux (s.bytes.length + 1) s.bytes else Cli.lines s.bytes

/-! ## Work distribution -/

/-- `slice::chunks(k)` for `k > 0`; `fuel` bounds the number of chunks. -/
def chunksAux {α : Type} (k : Nat) : Nat → List α → List (List α)
  | 0, _ => []
  | _ + 1, [] => []
  | fuel + 1, a :: l => (a :: l).take k :: chunksAux k fuel ((a :: l).drop k)

/-- `slice::chunks(k)`, panics for `k = 0`. -/
def chunks {α : Type} (k : Nat) (l : List α) : Res (List (List α)) :=
  if k = 0 then .panic else .ok (chunksAux k l.length l)

/-- `poppy.rs:178-186` `optimal_jobs` -/
def optimalJobs (w : World) (jobs : Nat) : Nat := if jobs = 0 then w.cpus else jobs

/-- `files.chunks(max(files.len() / jobs, 1))` (`poppy.rs:195`, `poppy.rs:244`, `poppy.rs:370`);
the division panics for `jobs = 0`. -/
def batches {α : Type} (files : List α) (jobs : Nat) : Res (List (List α)) :=
  if jobs = 0 then .panic else chunks (max (files.length / jobs) 1) files

/-! ## Counting lines -/

/-- `BufReader::new(file).lines().count()` (`poppy.rs:205`): `none` if it never returns, as the
iterator gives errors forever. -/
def countLines (r : Reader) : Option Nat :=
  match r.failAt with
  | none => some (lines r.data).length
  | some _ => none

/-- Body of the counting thread (`poppy.rs:201-208`); `none` if it never returns. -/
def countBatch (w : World) : List Path → Option (Res Nat)
  | [] => some (.ok 0)
  | f :: fs =>
    match w.open f with
    | .ok r =>
      match countLines r with
      | some n =>
        match countBatch w fs with
        | some (.ok m) => some (.ok (n + m))
        | x => x
      | none => none
    | .err e => some (.err e)
    | .panic => some .panic

/-- Join the counting threads in order (`poppy.rs:211-213`); `none` if it never returns. -/
def sumBatches : List (Option (Res Nat)) → Option (Res Nat)
  | [] => some (.ok 0)
  | some (.ok n) :: rs =>
    match sumBatches rs with
    | some (.ok m) => some (.ok (n + m))
    | x => x
  | x :: _ => x

/-- `poppy.rs:188-216` `count_lines_parallel`; `none` if it never returns.  The threads only read
files, so their interleaving is irrelevant and they are evaluated directly.  Simplification: the
`usize` additions do not overflow. -/
def countLinesParallel (w : World) (files : List Path) (jobs : Nat) : Option (Res Nat) :=
  match batches files (optimalJobs w jobs) with
  | .ok bs => sumBatches (bs.map (countBatch w))
  | .err e => some (.err e)
  | .panic => some .panic

/-! ## Inserting files -/

/-- A worker thread inserting files, one step per opened file or inserted line. -/
inductive Worker where
  /-- its filter, the lines left in the current file, the files left -/
  | running (bf : Bloom) (pending : List (Res (List U8))) (files : List Path)
  | done (r : Res Bloom)

/-- One step of a worker (`poppy.rs:218-230` `process_file` inside the loop
`poppy.rs:259-265`). -/
def Worker.step (env : Env) (w : World) : Worker → Worker
  | .done r => .done r
  | .running bf [] [] => .done (.ok bf)
  | .running bf [] (f :: fs) =>
    match w.open f with
    | .ok r => .running bf (fileLines r) fs
    | .err e => .done (.err e)
    | .panic => .done .panic
  | .running bf (l :: ls) fs =>
    match l with
    | .ok line =>
      match bf.insertBytes env line with
      | (bf, .ok _) => .running bf ls fs
      | (_, .err e) => .done (.err e)
      | (_, .panic) => .done .panic
    | .err e => .done (.err e)
    | .panic => .done .panic

/-- A schedule: which worker makes the next step. -/
abbrev Schedule := List Nat

/-- Run workers under a schedule. -/
def runWorkers (env : Env) (w : World) : Schedule → List Worker → List Worker
  | [], ws => ws
  | i :: sched, ws => runWorkers env w sched (ws.modify i (Worker.step env w))

/-- Joining the workers in order (`poppy.rs:270-273`): `none` while waiting for a running one.
`join().expect(..)` panics if the thread panicked, `.unwrap()` panics if it failed. -/
def joinWorkers : List Worker → Option (Res (List Bloom))
  | [] => some (.ok [])
  | .running .. :: _ => none
  | .done (.ok bf) :: ws =>
    match joinWorkers ws with
    | some (.ok bfs) => some (.ok (bf :: bfs))
    | r => r
  | .done _ :: _ => some .panic

/-- `while let Some(bf) = bfs.pop() { out.union_merge(&bf)? }` (`poppy.rs:277-279`); the list
is given in popping order. -/
def mergeAll (env : Env) (out : Bloom) : List Bloom → Res Bloom
  | [] => .ok out
  | bf :: bfs =>
    match out.unionMerge env bf with
    | (out, .ok ()) => mergeAll env out bfs
    | (_, .err e) => .err e
    | (_, .panic) => .panic

/-- `poppy.rs:276-281` -/
def reduce (env : Env) (bfs : List Bloom) : Res Bloom :=
  match bfs.reverse with
  | [] => .panic
  | out :: rest => mergeAll env out rest

/-- The filters for the workers (`poppy.rs:245-250`): a copy for each batch but one, then the filter
itself. -/
def copies (bf : Bloom) (n : Nat) : List Bloom := List.replicate (n - 1) bf ++ [bf]

/-- Starting the workers (`poppy.rs:255-267`): each takes the last of the filters left,
`bfs.pop().unwrap()`. -/
def startWorkers : List (List Path) → List Bloom → Res (List Worker)
  | [], _ => .ok []
  | b :: bs, bfs =>
    match bfs.getLast? with
    | none => .panic
    | some bf =>
      match startWorkers bs bfs.dropLast with
      | .ok ws => .ok (.running bf [] b :: ws)
      | r => r

/-- `poppy.rs:232-282` `parallel_insert` under a schedule; `none` if the schedule stops before
the command can return. -/
def parallelInsert (env : Env) (w : World) (sched : Schedule) (bf : Bloom) (files : List Path)
    (jobs : Nat) : Option (Res Bloom) :=
  if files.isEmpty then some (.ok bf)
  else
    match batches files (optimalJobs w jobs) with
    | .ok bs =>
      match startWorkers bs (copies bf bs.length) with
      | .ok ws =>
        match joinWorkers (runWorkers env w sched ws) with
        | none => none
        | some (.ok bfs) => some (reduce env bfs)
        | some (.err e) => some (.err e)
        | some .panic => some .panic
      | .err e => some (.err e)
      | .panic => some .panic
    | .err e => some (.err e)
    | .panic => some .panic

/-! ## Commands -/

/-- `poppy.rs:60-85` `struct Create` -/
structure Create where
  version : U8
  capacity : U64
  probability : F64
  optimize : U8
  file : Path
  dataset : List Path

/-- `poppy.rs:87-97` `struct Insert` -/
structure Insert where
  stdin : Bool
  file : Path
  inputs : List Path

/-- `poppy.rs:99-115` `struct Check` -/
structure Check where
  stdin : Bool
  silent : Bool
  verify : Bool
  file : Path
  inputs : List Path

/-- `File::create(file)?; bf.write(&mut f)?` (`poppy.rs:317-318`, `poppy.rs:333-334`) -/
def save (w : World) (file : Path) (bf : Bloom) : World × Res Unit :=
  match w.create file with
  | (w, .ok ()) =>
    match bf.write ⟨[], w.disk⟩ with
    | (s, r) => (w.put file s.out, r)
  | (w, r) => (w, r)

/-- `poppy.rs:292-295`: an existing output file must be a valid filter. -/
def createGuard (env : Env) (w : World) (file : Path) : Res Unit :=
  match w.fs file with
  | none => .ok ()
  | some _ =>
    match w.open file with
    | .ok r =>
      match Bloom.fromReader env r with
      | .ok _ => .ok ()
      | .err _ => .err (.other "output file exists but it is not a valid poppy file")
      | .panic => .panic
    | .err e => .err e
    | .panic => .panic

/-- `poppy.rs:307-313`: the empty filter to fill, given its capacity. -/
def createSized (env : Env) (o : Create) (capacity : U64) : Res Bloom := do
  let opt ← OptLevel.tryFrom o.optimize
  (((Params.new capacity o.probability).withVersion o.version).withOpt opt).tryInto env

/-- `poppy.rs:297-313`: the empty filter to fill; `none` if counting the lines never returns. -/
def createFilter (env : Env) (w : World) (o : Create) (jobs : Nat) : Option (Res Bloom) :=
  if o.dataset.length = 0 then some (createSized env o o.capacity)
  else
    match countLinesParallel w o.dataset jobs with
    | some (.ok n) => some (createSized env o (BitVec.ofNat 64 n))
    | some (.err e) => some (.err e)
    | some .panic => some .panic
    | none => none

/-- `poppy.rs:288-319` `create`; `none` if it does not return under this schedule. -/
def create (env : Env) (w : World) (sched : Schedule) (o : Create) (jobs : Nat) :
    World × Option (Res Unit) :=
  match createGuard env w o.file with
  | .ok () =>
    match createFilter env w o jobs with
    | some (.ok b) =>
      match parallelInsert env w sched b o.dataset jobs with
      | some (.ok bf) => match save w o.file bf with | (w, r) => (w, some r)
      | some (.err e) => (w, some (.err e))
      | some .panic => (w, some .panic)
      | none => (w, none)
    | some (.err e) => (w, some (.err e))
    | some .panic => (w, some .panic)
    | none => (w, none)
  | .err e => (w, some (.err e))
  | .panic => (w, some .panic)

/-- Insert the given lines one by one (`poppy.rs:326-328`). -/
def insertLines (env : Env) (bf : Bloom) : List (Res (List U8)) → Res Bloom
  | [] => .ok bf
  | l :: ls =>
    match l with
    | .ok line =>
      match bf.insertBytes env line with
      | (bf, .ok _) => insertLines env bf ls
      | (_, .err e) => .err e
      | (_, .panic) => .panic
    | .err e => .err e
    | .panic => .panic

/-- `poppy.rs:320-335` `insert` -/
def insert (env : Env) (w : World) (sched : Schedule) (stdin : Stdin) (o : Insert)
    (jobs : Nat) : World × Option (Res Unit) :=
  match (do
      let r ← w.open o.file
      let bf ← Bloom.fromReader env r
      if o.stdin || o.inputs.isEmpty then insertLines env bf stdin.lines else .ok bf) with
  | .ok bf =>
    match parallelInsert env w sched bf o.inputs jobs with
    | some (.ok bf) => match save w o.file bf with | (w, r) => (w, some r)
    | some (.err e) => (w, some (.err e))
    | some .panic => (w, some .panic)
    | none => (w, none)
  | .err e => (w, some (.err e))
  | .panic => (w, some .panic)

/-- `": NOK"` -/
def nok : List U8 := [58#8, 32#8, 78#8, 79#8, 75#8]

/-- What is printed for a line (`poppy.rs:350-359`, `poppy.rs:388-397`). -/
def checkPrint (o : Check) (line : List U8) (ok : Bool) : List (List U8) :=
  if o.verify then (if !ok then [line ++ nok] else [])
  else if ok && !o.silent then [line] else []

/-- Lines from stdin (`poppy.rs:346-360`): printed lines and outcome; an invalid line panics
(`line.unwrap()`). -/
def checkStdin (env : Env) (bf : Bloom) (o : Check) :
    List (Res (List U8)) → List (List U8) × Res Unit
  | [] => ([], .ok ())
  | l :: ls =>
    match l with
    | .ok line =>
      match bf.containsBytes env line with
      | .ok ok =>
        match checkStdin env bf o ls with
        | (out, r) => (checkPrint o line ok ++ out, r)
      | _ => ([], .panic)
    | _ => ([], .panic)

/-- A checking thread. -/
inductive Checker where
  | running (pending : List (Res (List U8))) (files : List Path)
  | done (r : Res Unit)

/-- One step of a checking thread (`poppy.rs:376-402`): open a file or check and print one line.
The `RwLock` is only ever taken for reading. -/
def Checker.step (env : Env) (w : World) (bf : Bloom) (o : Check) :
    Checker → Checker × List (List U8)
  | .done r => (.done r, [])
  | .running [] [] => (.done (.ok ()), [])
  | .running [] (f :: fs) =>
    match w.open f with
    | .ok r => (.running (fileLines r) fs, [])
    | .err e => (.done (.err e), [])
    | .panic => (.done .panic, [])
  | .running (l :: ls) fs =>
    match l with
    | .ok line =>
      match bf.containsBytes env line with
      | .ok ok => (.running ls fs, checkPrint o line ok)
      | _ => (.done .panic, [])
    | .err e => (.done (.err e), [])
    | .panic => (.done .panic, [])

/-- Run the checking threads under a schedule, collecting the printed lines. -/
def runCheckers (env : Env) (w : World) (bf : Bloom) (o : Check) :
    Schedule → List Checker → List Checker × List (List U8)
  | [], ts => (ts, [])
  | i :: sched, ts =>
    match ts[i]? with
    | none => runCheckers env w bf o sched ts
    | some t =>
      match t.step env w bf o with
      | (t, out) =>
        match runCheckers env w bf o sched (ts.set i t) with
        | (ts, out') => (ts, out ++ out')

/-- `for h in handles { h.join().expect(..)?; }` (`poppy.rs:406-408`) -/
def joinCheckers : List Checker → Option (Res Unit)
  | [] => some (.ok ())
  | .running .. :: _ => none
  | .done (.ok ()) :: ts => joinCheckers ts
  | .done (.err e) :: _ => some (.err e)
  | .done .panic :: _ => some .panic

/-- `poppy.rs:366-409`: the part of `check` reading files. -/
def checkFiles (env : Env) (w : World) (sched : Schedule) (bf : Bloom) (o : Check) (jobs : Nat) :
    List (List U8) × Option (Res Unit) :=
  if o.inputs.isEmpty then ([], some (.ok ()))
  else
    match batches o.inputs jobs with
    | .ok bs =>
      match runCheckers env w bf o sched (bs.map (fun b => Checker.running [] b)) with
      | (ts, out) => (out, joinCheckers ts)
    | .err e => ([], some (.err e))
    | .panic => ([], some .panic)

/-- `poppy.rs:337-410` `check`: printed lines and outcome.  No file is written. -/
def check (env : Env) (w : World) (sched : Schedule) (stdin : Stdin) (o : Check) (jobs : Nat) :
    List (List U8) × Option (Res Unit) :=
  match (do
      let r ← w.open o.file
      Bloom.fromReader env r) with
  | .ok bf =>
    match (if o.stdin || o.inputs.isEmpty then checkStdin env bf o stdin.lines
           else ([], .ok ())) with
    | (out, .ok ()) =>
      match checkFiles env w sched bf o jobs with
      | (out', r) => (out ++ out', r)
    | (out, .err e) => (out, some (.err e))
    | (out, .panic) => (out, some .panic)
  | .err e => ([], some (.err e))
  | .panic => ([], some .panic)

/-- Number and float formatting of the standard library. -/
structure Fmt where
  u64 : U64 → String
  f64 : FVal → String
  /-- `{:.1}` -/
  f64Prec1 : FVal → String
  /-- `{:3}` -/
  f64Width3 : FVal → String
  /-- `{:?}` of a `Duration` of so many nanoseconds -/
  duration : Nat → String

/-- `poppy.rs:153-176` `show_bf_properties`: the printed lines. -/
def showBfProperties (fmt : Fmt) (env : Env) (b : Bloom) : Res (List String) := do
  let size ← b.sizeInBytes env
  .ok [
    "\tversion                                  : " ++ fmt.u64 (b.version.setWidth 64),
    "\tcapacity (desired number of elements)    : " ++ fmt.u64 b.capacity,
    "\tn (estimated number of elements)         : " ++ fmt.u64 b.countEstimate,
    "\tfpp (false positive probability)         : " ++ fmt.f64 (FVal.ofBits b.fpp),
    "\tLength of data                           : " ++
      (ByteSize.fromBytes (BitVec.ofNat 64 b.data.length)).display fmt.f64Prec1,
    "\tSize of bloom filter                     : " ++
      (ByteSize.fromBytes size).display fmt.f64Prec1]

/-- `poppy.rs:557-562` `show` -/
def «show» (fmt : Fmt) (env : Env) (w : World) (file : Path) : Res (List String) := do
  let r ← w.open file
  let b ← Bloom.partialFromReader env r
  let ls ← showBfProperties fmt env b
  .ok (("File: " ++ file) :: ls)

/-! ## Parts of `bench` -/

/-- `poppy.rs:417-420`: the limit on the dataset size. -/
def benchLimit (debug : Bool) (sizeMb : U64) : Res ByteSize :=
  if sizeMb = 0 then ByteSize.fromMb debug (BitVec.allOnes 64) else ByteSize.fromMb debug sizeMb

/-- `poppy.rs:423-436`: the dataset; `h` is `wyhash(_, 42)`, `size` the running `dataset_size`
(simplification: no overflow). -/
def benchEntries (h : List U8 → U64) (limit : ByteSize) :
    List (Res (List U8)) → List U64 → U64 → List (List U8) → Res (List (List U8))
  | [], _, _, entries => .ok entries
  | l :: ls, marked, size, entries =>
    match l with
    | .ok line =>
      if (ByteSize.fromBytes size).cmp limit = .gt then .ok entries
      else if !marked.contains (h line) then
        benchEntries h limit ls (h line :: marked) (size + BitVec.ofNat 64 line.length)
          (entries ++ [line])
      else benchEntries h limit ls marked size entries
    | .err e => .err e
    | .panic => .panic

/-- `poppy.rs:452-459`: the filter made from the dataset. -/
def benchFilter (env : Env) (version opt : U8) (fpp : F64) (entries : List (List U8)) :
    Res Bloom := do
  let opt ← OptLevel.tryFrom opt
  let b ← (((Params.new (BitVec.ofNat 64 entries.length) fpp).withVersion version).withOpt
    opt).tryInto env
  match b.fill env entries with
  | (b, .ok ()) => .ok b
  | (_, .err e) => .err e
  | (_, .panic) => .panic

end Cli
end Poppy
