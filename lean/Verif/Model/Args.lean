import Verif.Model.Main

/-!
# The command line of the tool (`poppy/src/bin/poppy.rs:27-151`)

The declarations are those of the source, the parser is what `clap` 4.5 (an external crate) makes of
them: options before, between and after the other words, `--name value`, `--name=value`, `-n value`,
`-nvalue`, `-n=value`, several flags in one word, `--` before words that are not options, no option
twice, `-h` and `--help` everywhere and the command `help`.  Words are texts; words that are not
UTF-8 are not modelled.  Reading a decimal number as `f64` is a parameter.
-/

namespace Poppy
namespace Cli

abbrev Text := List Char

/-- The types of the values of the options. -/
inductive Kind where
  | usize
  | u8
  | u32
  | f64
  deriving DecidableEq

/-- An option: `#[clap(short, long)]`; `value` is `none` for a `bool`. -/
structure Opt where
  short : Option Char
  long : Text
  value : Option Kind
  deriving DecidableEq

/-- Added by `clap` to every command. -/
def helpOpt : Opt := ⟨some 'h', ['h', 'e', 'l', 'p'], none⟩

/-- What a command takes: its options, how many other words, and whether the first of them is a
`PathBuf`, which must not be empty. -/
structure Decl where
  opts : List Opt
  words : Option Nat
  path : Bool

namespace Name
def verbose : Text := ['v', 'e', 'r', 'b', 'o', 's', 'e']
def jobs : Text := ['j', 'o', 'b', 's']
def version : Text := ['v', 'e', 'r', 's', 'i', 'o', 'n']
def capacity : Text := ['c', 'a', 'p', 'a', 'c', 'i', 't', 'y']
def probability : Text := ['p', 'r', 'o', 'b', 'a', 'b', 'i', 'l', 'i', 't', 'y']
def optLvl : Text := ['o', 'p', 't', '-', 'l', 'v', 'l']
def stdin : Text := ['s', 't', 'd', 'i', 'n']
def silent : Text := ['s', 'i', 'l', 'e', 'n', 't']
def verify : Text := ['v', 'e', 'r', 'i', 'f', 'y']
def sizeMb : Text := ['s', 'i', 'z', 'e', '-', 'm', 'b']
def testSize : Text := ['t', 'e', 's', 't', '-', 's', 'i', 'z', 'e']
def runs : Text := ['r', 'u', 'n', 's']
def fpTol : Text := ['f', 'p', '-', 't', 'o', 'l']
def fpp : Text := ['f', 'p', 'p']
def opt : Text := ['o', 'p', 't']
def create : Text := ['c', 'r', 'e', 'a', 't', 'e']
def insert : Text := ['i', 'n', 's', 'e', 'r', 't']
def check : Text := ['c', 'h', 'e', 'c', 'k']
def bench : Text := ['b', 'e', 'n', 'c', 'h']
def «show» : Text := ['s', 'h', 'o', 'w']
def help : Text := ['h', 'e', 'l', 'p']
end Name

/-- `poppy.rs:27-42` `struct Args` -/
def argsDecl : Decl :=
  ⟨[⟨some 'v', Name.verbose, none⟩, ⟨some 'j', Name.jobs, some .usize⟩, helpOpt], none, false⟩

/-- `poppy.rs:60-85` `struct Create` -/
def createDecl : Decl :=
  ⟨[⟨none, Name.version, some .u8⟩, ⟨some 'c', Name.capacity, some .usize⟩,
    ⟨some 'p', Name.probability, some .f64⟩, ⟨some 'O', Name.optLvl, some .u8⟩, helpOpt], none, true⟩

/-- `poppy.rs:87-97` `struct Insert` -/
def insertDecl : Decl := ⟨[⟨none, Name.stdin, none⟩, helpOpt], none, false⟩

/-- `poppy.rs:99-115` `struct Check` -/
def checkDecl : Decl :=
  ⟨[⟨none, Name.stdin, none⟩, ⟨none, Name.silent, none⟩, ⟨none, Name.verify, none⟩, helpOpt],
    none, false⟩

/-- `poppy.rs:117-145` `struct Benchmark` -/
def benchDecl : Decl :=
  ⟨[⟨some 's', Name.sizeMb, some .usize⟩, ⟨none, Name.testSize, some .usize⟩,
    ⟨some 'r', Name.runs, some .u32⟩, ⟨some 'f', Name.fpTol, some .f64⟩,
    ⟨some 'v', Name.version, some .u8⟩, ⟨none, Name.fpp, some .f64⟩,
    ⟨some 'O', Name.opt, some .u8⟩, helpOpt], some 1, false⟩

/-- `poppy.rs:147-151` `struct Show` -/
def showDecl : Decl := ⟨[helpOpt], some 1, false⟩

/-! ## Numbers -/

/-- One or more decimal digits. -/
def readDigits (s : Text) : Option Nat :=
  if s = [] ∨ ¬ s.all Char.isDigit then none
  else some (s.foldl (fun n c => 10 * n + (c.toNat - '0'.toNat)) 0)

/-- Digits with or without a plus sign. -/
def readNatural : Text → Option Nat
  | '+' :: s => readDigits s
  | s => readDigits s

/-- `usize::from_str` -/
def readUsize (s : Text) : Option U64 :=
  match readNatural s with
  | some n => if n < 2 ^ 64 then some (BitVec.ofNat 64 n) else none
  | none => none

/-- `i64::from_str`, followed by a test for the range `0 ..= max` (`clap` reads `u8` and `u32` in
this way; what does not fit in an `i64` is not in the range either). -/
def readRanged (max : Nat) (s : Text) : Option Nat :=
  match s with
  | '+' :: s => (readDigits s).filter (· ≤ max)
  | '-' :: s => (readDigits s).filter (· = 0)
  | s => (readDigits s).filter (· ≤ max)

/-- `f64::from_str`, a parameter. -/
abbrev ReadF64 := Text → Option F64

/-- Whether the parser of the option's type accepts the text. -/
def Kind.accepts (rd : ReadF64) : Kind → Text → Bool
  | .usize, v => (readUsize v).isSome
  | .u8, v => (readRanged 255 v).isSome
  | .u32, v => (readRanged 4294967295 v).isSome
  | .f64, v => (rd v).isSome

def Opt.accepts (rd : ReadF64) (o : Opt) (v : Text) : Bool :=
  match o.value with
  | none => true
  | some k => k.accepts rd v

/-- Whether there may be more than `n` words that are no options. -/
def Decl.room (d : Decl) (n : Nat) : Bool :=
  match d.words with
  | none => true
  | some m => decide (n < m)

/-! ## Words -/

/-- Why parsing ends without arguments: help was asked for (exit code 0), or the words do not
follow the declarations (exit code 2). -/
inductive Stop where
  | help
  | usage
  deriving DecidableEq

/-- The options given so far with their values (empty for flags), and the other words. -/
structure Parsed where
  set : List (Text × Text)
  pos : List Text
  deriving DecidableEq

/-- An option is given. -/
def Parsed.give (rd : ReadF64) (p : Parsed) (o : Opt) (v : Text) : Except Stop Parsed :=
  if o = helpOpt then .error .help
  else if o.long ∈ p.set.map (·.1) then .error .usage
  else if o.accepts rd v then
    .ok { p with set := p.set ++ [(o.long, v)] }
  else .error .usage

/-- A word that is no option. -/
def Parsed.word (d : Decl) (p : Parsed) (w : Text) : Except Stop Parsed :=
  if d.path ∧ p.pos = [] ∧ w = [] then .error .usage
  else if d.room p.pos.length then
    .ok { p with pos := p.pos ++ [w] }
  else .error .usage

/-- The words after `--`. -/
def Parsed.rest (d : Decl) : List Text → Parsed → Except Stop Parsed
  | [], p => .ok p
  | w :: ws, p =>
    match p.word d w with
    | .ok p => Parsed.rest d ws p
    | .error e => .error e

/-- The value in the same word as the letter of its option. -/
def attached : Text → Option Text
  | [] => none
  | '=' :: v => some v
  | v => some v

/-- The letters after a single `-`; the option returned still waits for its value. -/
def Parsed.shorts (rd : ReadF64) (d : Decl) : Text → Parsed → Except Stop (Parsed × Option Opt)
  | [], p => .ok (p, none)
  | c :: cs, p =>
    match d.opts.find? (fun o => o.short == some c) with
    | none => .error .usage
    | some o =>
      match o.value, attached cs with
      | none, _ =>
        match p.give rd o [] with
        | .ok p => Parsed.shorts rd d cs p
        | .error e => .error e
      | some _, none => .ok (p, some o)
      | some _, some v => (p.give rd o v).map (·, none)

/-- What comes after `--` in a word: the name, and the text after the first `=` if there is one. -/
def splitEq : Text → Text × Option Text
  | [] => ([], none)
  | c :: s => if c = '=' then ([], some s) else ((c :: (splitEq s).1), (splitEq s).2)

def Parsed.long (rd : ReadF64) (d : Decl) (s : Text) (p : Parsed) :
    Except Stop (Parsed × Option Opt) :=
  match d.opts.find? (fun o => o.long == (splitEq s).1) with
  | none => .error .usage
  | some o =>
    match o.value, (splitEq s).2 with
    | none, none => (p.give rd o []).map (·, none)
    | none, some _ => .error .usage
    | some _, none => .ok (p, some o)
    | some _, some v => (p.give rd o v).map (·, none)

/-- A word that begins with `-` and is not `-` is never the value of the option before it. -/
def hyphen : Text → Bool
  | '-' :: _ :: _ => true
  | _ => false

/-- The kinds of words: `--`, `--…`, `-…`, and others (also `-`). -/
inductive Shape where
  | escape
  | long (s : Text)
  | short (s : Text)
  | word
  deriving DecidableEq

def shape : Text → Shape
  | ['-', '-'] => .escape
  | '-' :: '-' :: s => .long s
  | '-' :: c :: s => .short (c :: s)
  | _ => .word

/-- The words of a command; `want` is the option whose value must follow.  With `sub` the first
word that is no option is the name of a command and ends the scan. -/
def scan (rd : ReadF64) (d : Decl) (sub : Bool) :
    Option Opt → List Text → Parsed → Except Stop (Parsed × List Text)
  | some _, [], _ => .error .usage
  | some o, v :: ws, p =>
    if hyphen v then .error .usage
    else
      match p.give rd o v with
      | .ok p => scan rd d sub none ws p
      | .error e => .error e
  | none, [], p => .ok (p, [])
  | none, w :: ws, p =>
    match shape w with
    | .escape => if sub then .error .usage else (p.rest d ws).map (·, [])
    | .long s =>
      match p.long rd d s with
      | .ok (p, want) => scan rd d sub want ws p
      | .error e => .error e
    | .short s =>
      match p.shorts rd d s with
      | .ok (p, want) => scan rd d sub want ws p
      | .error e => .error e
    | .word =>
      if sub then .ok (p, w :: ws)
      else
        match p.word d w with
        | .ok p => scan rd d sub none ws p
        | .error e => .error e

/-! ## Arguments -/

def Parsed.flag (p : Parsed) (name : Text) : Bool := decide (name ∈ p.set.map (·.1))

/-- The text given for an option. -/
def Parsed.get (p : Parsed) (name : Text) : Option Text := p.set.lookup name

def usizeOf (s : Text) : U64 := (readUsize s).getD 0
def u8Of (s : Text) : U8 := BitVec.ofNat 8 ((readRanged 255 s).getD 0)
def u32Of (s : Text) : Nat := (readRanged 4294967295 s).getD 0
def f64Of (rd : ReadF64) (s : Text) : F64 := (rd s).getD 0

/-- `poppy.rs:60-85` `struct Create`, with its defaults. -/
def Parsed.create (rd : ReadF64) (p : Parsed) : Except Stop Command :=
  match p.pos with
  | [] => .error .usage
  | file :: dataset => .ok (.create {
      version := u8Of ((p.get Name.version).getD ['2'])
      capacity := usizeOf ((p.get Name.capacity).getD ['1', '0', '0', '0', '0'])
      probability := f64Of rd ((p.get Name.probability).getD ['0', '.', '0', '1'])
      optimize := u8Of ((p.get Name.optLvl).getD ['0'])
      file := String.ofList file
      dataset := dataset.map String.ofList })

/-- `poppy.rs:87-97` `struct Insert` -/
def Parsed.insert (p : Parsed) : Except Stop Command :=
  match p.pos with
  | [] => .error .usage
  | file :: inputs => .ok (.insert {
      stdin := p.flag Name.stdin
      file := String.ofList file
      inputs := inputs.map String.ofList })

/-- `poppy.rs:99-115` `struct Check` -/
def Parsed.check (p : Parsed) : Except Stop Command :=
  match p.pos with
  | [] => .error .usage
  | file :: inputs => .ok (.check {
      stdin := p.flag Name.stdin
      silent := p.flag Name.silent
      verify := p.flag Name.verify
      file := String.ofList file
      inputs := inputs.map String.ofList })

/-- `poppy.rs:117-145` `struct Benchmark`, with its defaults. -/
def Parsed.bench (rd : ReadF64) (p : Parsed) : Except Stop Command :=
  .ok (.bench {
    sizeMb := usizeOf ((p.get Name.sizeMb).getD ['1', '0', '0'])
    testSize := (p.get Name.testSize).map (fun s => (usizeOf s).toNat)
    runs := u32Of ((p.get Name.runs).getD ['5', '0'])
    fpTol := f64Of rd ((p.get Name.fpTol).getD ['0', '.', '2'])
    version := u8Of ((p.get Name.version).getD ['2'])
    fpp := f64Of rd ((p.get Name.fpp).getD ['0', '.', '0', '0', '1'])
    opt := u8Of ((p.get Name.opt).getD ['0'])
    file := p.pos.head?.map String.ofList })

/-- `poppy.rs:147-151` `struct Show` -/
def Parsed.«show» (p : Parsed) : Except Stop Command :=
  match p.pos with
  | [] => .error .usage
  | file :: _ => .ok (.show (String.ofList file))

/-- The words after the name of a command. -/
def subScan (rd : ReadF64) (d : Decl) (ws : List Text) : Except Stop Parsed :=
  (scan rd d false none ws ⟨[], []⟩).map (·.1)

/-- The command `help`. -/
def helpFor : List Text → Stop
  | [] => .help
  | [w] =>
    if w ∈ [Name.create, Name.insert, Name.check, Name.bench, Name.show, Name.help] then .help
    else .usage
  | _ => .usage

/-- `poppy.rs:44-58` `enum Command`: the name of the command and the words after it.  `clap` adds
the command `help`, which takes the name of a command. -/
def parseCommand (rd : ReadF64) : List Text → Except Stop Command
  | [] => .error .usage
  | c :: ws =>
    if c = Name.create then (subScan rd createDecl ws).bind (·.create rd)
    else if c = Name.insert then (subScan rd insertDecl ws).bind (·.insert)
    else if c = Name.check then (subScan rd checkDecl ws).bind (·.check)
    else if c = Name.bench then (subScan rd benchDecl ws).bind (·.bench rd)
    else if c = Name.show then (subScan rd showDecl ws).bind (·.show)
    else if c = Name.help then .error (helpFor ws)
    else .error .usage

/-- `poppy.rs:27-42` `struct Args` -/
structure Args where
  verbose : Bool
  jobs : Nat
  command : Command

/-- `poppy.rs:285` `Args::parse()`, from the words after the name of the program. -/
def parseArgs (rd : ReadF64) (ws : List Text) : Except Stop Args :=
  match scan rd argsDecl true none ws ⟨[], []⟩ with
  | .error e => .error e
  | .ok (p, ws) =>
    match parseCommand rd ws with
    | .error e => .error e
    | .ok c => .ok {
        verbose := p.flag Name.verbose
        jobs := (usizeOf ((p.get Name.jobs).getD ['2'])).toNat
        command := c }

/-- What a run gets besides its words. -/
structure Around where
  stdin : Stdin
  stdout : Option Nat
  sched : Schedule
  rng : BenchRng
  measure : Measure

def Around.run (x : Around) (a : Args) : Run :=
  ⟨a.command, a.jobs, x.stdin, x.stdout, x.sched, x.rng, x.measure⟩

/-- The exit code of a `main` that returns a `Result`. -/
def exitCode : Res Unit → Nat
  | .ok () => 0
  | .err _ => 1
  | .panic => 101

/-- A run of the program from its words: the files afterwards, what is printed on stdout (the text
of the help is not modelled), and the exit code (`none`: the schedule ends before the threads do). -/
def tool (t : Libs) (rd : ReadF64) (env : Env) (w : World) (ws : List Text) (x : Around) :
    World × Printed × Option Nat :=
  match parseArgs rd ws with
  | .error .help => (w, .none, some 0)
  | .error .usage => (w, .none, some 2)
  | .ok a =>
    match main t env w (x.run a) with
    | (w, pr, r) => (w, pr, r.map exitCode)

end Cli
end Poppy
