import Verif.AbstractBloom
import Verif.LoadView
import Verif.WriteSpec
import Verif.Model.Cli

/-!
# The commands on files

What `create`, `insert`, `check` and `show` do with the files and the standard input, in terms of bytes and of
the abstract filters of `Verif/AbstractBloom.lean`.  There are no threads here.  Of the model it uses
the description of the file system (`Cli.World`), the options of the commands and the type of results,
and of its functions only the printing of a number of bytes.
-/

namespace Abs

open Poppy (U8 U64 F64 Res Error OptLevel failing)
open Poppy.Cli (World Path Stdin Create Insert Check)

/-! ## Reading -/

/-- What comes from a path. -/
inductive Source where
  /-- it cannot be opened -/
  | refused (e : Error)
  /-- bytes, then the end -/
  | whole (bs : List U8)
  /-- bytes, then an error -/
  | broken (bs : List U8)

/-- What comes from a path. -/
def source (w : World) (f : Path) : Source :=
  match w.fs f with
  | none => .refused (.ioError .notFound)
  | some bs =>
    match w.access f with
    | .denied => .refused (.ioError .other)
    | .full => .whole bs
    | .upTo k => if k ≤ bs.length then .broken (bs.take k) else .whole bs

/-- The lines of a text that are ended by a line feed, and what follows the last line feed. -/
def splitLines : List U8 → List (List U8) × List U8
  | [] => ([], [])
  | b :: bs =>
    if b = 10#8 then ([] :: (splitLines bs).1, (splitLines bs).2)
    else match splitLines bs with
      | ([], last) => ([], b :: last)
      | (l :: ls, last) => ((b :: l) :: ls, last)

/-- A line read: an entry, or an error. -/
abbrev Item := Res (List U8)

open Classical in
/-- An entry, if the line is text. -/
noncomputable def item (line entry : List U8) : Item :=
  if Spec.IsUtf8 line then .ok entry else .err (.ioError .invalidData)

/-- The complete lines. -/
noncomputable def completeLines (bs : List U8) : List Item :=
  (splitLines bs).1.map fun l => item l (Spec.dropCr l)

/-- All lines: the complete ones, and what follows unless it is empty. -/
noncomputable def textLines (bs : List U8) : List Item :=
  completeLines bs ++
    if (splitLines bs).2 = [] then [] else [item (splitLines bs).2 (splitLines bs).2]

/-- The lines of a path, errors included. -/
noncomputable def Source.items : Source → List Item
  | .refused e => [.err e]
  | .whole bs => textLines bs
  | .broken bs => completeLines bs ++ [.err (.ioError .other)]

/-- The filter stored under a path. -/
def Source.filter (m : Machine) : Source → Res F
  | .refused e => .err e
  | .whole bs => loaded (Spec.load m.limit bs)
  | .broken bs => failing (loaded (Spec.load m.limit bs))

/-- The lines of the standard input, if it is used. -/
noncomputable def stdinItems (stdin : Stdin) (use : Bool) (inputs : List Path) : List Item :=
  if use = true ∨ inputs = [] then
    (if stdin.fails then Source.broken stdin.bytes else Source.whole stdin.bytes).items
  else []

/-! ## Inserting -/

/-- Insert lines in turn, up to the first failure. -/
def F.feed (m : Machine) (a : F) : List Item → Res F
  | [] => .ok a
  | .ok l :: ls =>
    match (a.insert m l).2 with
    | .err e => .err e
    | .panic => .panic
    | _ => F.feed m (a.insert m l).1 ls
  | .err e :: _ => .err e
  | .panic :: _ => .panic

/-- Unite with filters in turn. -/
def F.unite (m : Machine) (a : F) : List F → Res F
  | [] => .ok a
  | b :: bs =>
    match (a.union m b).2 with
    | .err e => .err e
    | .panic => .panic
    | _ => F.unite m (a.union m b).1 bs

/-- The files dealt out to `jobs` threads: consecutive parts of equal size but for the last. -/
def deal (jobs : ℕ) (files : List Path) : List (List Path) :=
  (List.range ((files.length + max (files.length / jobs) 1 - 1) / max (files.length / jobs) 1)).map
    fun i => (files.drop (i * max (files.length / jobs) 1)).take (max (files.length / jobs) 1)

/-- All of them, if all succeed. -/
def allOk {α : Type} : List (Res α) → Option (List α)
  | [] => some []
  | .ok a :: rs => (allOk rs).map (a :: ·)
  | _ :: _ => none

/-- Insert files: every part into a copy of the filter, then unite the copies, the last one first. If
any part fails, the command panics. -/
noncomputable def F.feedFiles (m : Machine) (w : World) (jobs : ℕ) (a : F) (files : List Path) : Res F :=
  if files = [] then .ok a
  else
    match allOk ((deal (if jobs = 0 then w.cpus else jobs) files).map fun part =>
      a.feed m (part.flatMap fun f => (source w f).items)) with
    | none => .panic
    | some as =>
      match as.reverse with
      | [] => .panic
      | b :: bs => b.unite m bs

/-- The filter `insert` stores. -/
noncomputable def insertCmd (m : Machine) (w : World) (stdin : Stdin) (o : Insert) (jobs : ℕ) : Res F :=
  match (source w o.file).filter m with
  | .err e => .err e
  | .panic => .panic
  | .ok a =>
    match a.feed m (stdinItems stdin o.stdin o.inputs) with
    | .err e => .err e
    | .panic => .panic
    | .ok a => a.feedFiles m w jobs o.inputs

/-! ## Creating -/

/-- May the file be replaced?  Only a filter may. -/
def guardCmd (m : Machine) (w : World) (file : Path) : Res Unit :=
  if w.fs file = none then .ok ()
  else
    match source w file with
    | .refused e => .err e
    | s =>
      match s.filter m with
      | .ok _ => .ok ()
      | .err _ => .err (.other "output file exists but it is not a valid poppy file")
      | .panic => .panic

/-- The number of lines of files; `none` if counting does not end. -/
noncomputable def count (w : World) : List Path → Option (Res ℕ)
  | [] => some (.ok 0)
  | f :: fs =>
    match source w f with
    | .refused e => some (.err e)
    | .broken _ => none
    | .whole bs => (count w fs).map fun r => r.map ((textLines bs).length + ·)

/-- The level with a number, if there is one. -/
def levelNo (n : U8) : Res OptLevel :=
  if n.toNat < 4 then .ok (levelOf n.toNat) else .err (.optLevel n)

/-- The filter `create` starts from, given its capacity. -/
def startCmd (m : Machine) (o : Create) (cap : U64) : Res F :=
  match levelNo o.optimize with
  | .ok opt => make m o.version cap o.probability opt
  | .err e => .err e
  | .panic => .panic

/-- The filter `create` stores; `none` if it does not end. -/
noncomputable def createCmd (m : Machine) (w : World) (o : Create) (jobs : ℕ) : Option (Res F) :=
  match guardCmd m w o.file with
  | .err e => some (.err e)
  | .panic => some .panic
  | .ok _ =>
    if o.dataset = [] then some (startCmd m o o.capacity)
    else
      (count w o.dataset).map fun n =>
        match n with
        | .err e => .err e
        | .panic => .panic
        | .ok n =>
          match startCmd m o (BitVec.ofNat 64 n) with
          | .err e => .err e
          | .panic => .panic
          | .ok a => a.feedFiles m w jobs o.dataset

/-! ## Storing -/

/-- The sizes of the pieces in which a filter is written. -/
def F.pieces : F → List ℕ
  | .v1 a => Spec.v1Pieces a.words a.data.length
  | .v2 a => Spec.v2Pieces a.cacheBytes a.buckets a.data.length

/-- What fits on the disk. -/
def fitting (w : World) (bs : List U8) : List U8 :=
  match w.disk with
  | none => bs
  | some k => bs.take k

/-- Is it noticed that the disk is full?  Only if what was handed over before the end did not fit. -/
def noticed (w : World) (a : F) : Bool :=
  match w.disk with
  | none => false
  | some k => decide (k < Spec.handed 0 a.pieces)

/-- A filter stored under a path. -/
def store (w : World) (file : Path) (a : F) : World × Res Unit :=
  if w.creatable file then
    ({ w with fs := fun p => if p = file then some (fitting w a.file) else w.fs p },
      if noticed w a then .err (.ioError .other) else .ok ())
  else (w, .err (.ioError .other))

/-- How a command that stores a filter ends. -/
def ended (w : World) (file : Path) : Res F → World × Res Unit
  | .ok a => store w file a
  | .err e => (w, .err e)
  | .panic => (w, .panic)

/-! ## Checking -/

/-- The answer for a line. -/
def F.ask (m : Machine) (a : F) : Item → Res Bool
  | .ok l =>
    match a.contains m l with
    | .bool b => .ok b
    | _ => .panic
  | .err e => .err e
  | .panic => .panic

/-- The first failure. -/
def firstFailure {α : Type} : List (Res α) → Res Unit
  | [] => .ok ()
  | .ok _ :: rs => firstFailure rs
  | .err e :: _ => .err e
  | .panic :: _ => .panic

/-- How `check` ends. -/
noncomputable def checkCmd (m : Machine) (w : World) (stdin : Stdin) (o : Check) (jobs : ℕ) : Res Unit :=
  match (source w o.file).filter m with
  | .err e => .err e
  | .panic => .panic
  | .ok a =>
    match firstFailure ((stdinItems stdin o.stdin o.inputs).map (a.ask m)) with
    | .ok _ =>
      if o.inputs = [] then .ok ()
      else if jobs = 0 then .panic
      else firstFailure ((o.inputs.flatMap fun f => (source w f).items).map (a.ask m))
    | _ => .panic

/-- The lines to print for a line: with `verify` those that are not members, otherwise the members
unless `silent`. -/
def F.toPrint (m : Machine) (a : F) (o : Check) : Item → List (List U8)
  | .ok l =>
    match a.contains m l with
    | .bool true => if o.verify ∨ o.silent then [] else [l]
    | .bool false => if o.verify then [l ++ [58#8, 32#8, 78#8, 79#8, 75#8]] else []
    | _ => []
  | _ => []

/-- What `check` prints, if it succeeds, in some order. -/
noncomputable def checkPrints (m : Machine) (w : World) (stdin : Stdin) (o : Check) : List (List U8) :=
  match (source w o.file).filter m with
  | .ok a =>
    (stdinItems stdin o.stdin o.inputs ++ o.inputs.flatMap fun f => (source w f).items).flatMap
      (a.toPrint m o)
  | _ => []

/-! ## Showing -/

/-- The values that are shown. -/
structure Shown where
  version : ℕ
  capacity : ℕ
  count : ℕ
  /-- bits of the probability -/
  fpp : ℕ
  /-- length of the data -/
  data : ℕ
  /-- size before it is cut to 64 bits -/
  size : ℕ

/-- The values shown for a file of which only the metadata are read; the size of v1 is eight times too
large. -/
def shown : Spec.File1 ⊕ Spec.Peek2 → Shown
  | .inl x => ⟨1, x.capacity, x.count, x.fpp, x.data.length, x.bits * 8⟩
  | .inr x => ⟨2, x.file.capacity, x.file.count, x.file.fpp, x.file.data.length,
      x.nBuckets * 4096 + x.cacheBytes⟩

/-- The metadata stored under a path. -/
def Source.metadata (debug : Bool) : Source → Res (Spec.File1 ⊕ Spec.Peek2)
  | .refused e => .err e
  | .whole bs => Poppy.Load.res (Spec.peek debug bs)
  | .broken bs => failing (Poppy.Load.res (Spec.peek debug bs))

/-- The text. The size of bytes is printed as C63 says. -/
def Shown.text (fmt : Poppy.Cli.Fmt) (file : Path) (x : Shown) : List String :=
  ["File: " ++ file,
    "\tversion                                  : " ++ fmt.u64 (BitVec.ofNat 64 x.version),
    "\tcapacity (desired number of elements)    : " ++ fmt.u64 (BitVec.ofNat 64 x.capacity),
    "\tn (estimated number of elements)         : " ++ fmt.u64 (BitVec.ofNat 64 x.count),
    "\tfpp (false positive probability)         : " ++
      fmt.f64 (Poppy.FVal.ofBits (BitVec.ofNat 64 x.fpp)),
    "\tLength of data                           : " ++
      (Poppy.ByteSize.fromBytes (BitVec.ofNat 64 x.data)).display fmt.f64Prec1,
    "\tSize of bloom filter                     : " ++
      (Poppy.ByteSize.fromBytes (BitVec.ofNat 64 x.size)).display fmt.f64Prec1]

/-- What `show` prints. -/
def showCmd (fmt : Poppy.Cli.Fmt) (debug : Bool) (w : World) (file : Path) : Res (List String) :=
  match (source w file).metadata debug with
  | .err e => .err e
  | .panic => .panic
  | .ok x =>
    if debug = true ∧ 2 ^ 64 ≤ (shown x).size then .panic else .ok ((shown x).text fmt file)

end Abs
