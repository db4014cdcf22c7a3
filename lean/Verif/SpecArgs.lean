import Verif.Model.Main
import Mathlib.Data.Nat.Digits.Defs

/-!
# What command lines mean

The grammar of the command lines of the tool and their meaning, stated without the parser: which
words give which options, and which arguments these give.
-/

namespace Spec
namespace Line

open Poppy

abbrev Text := List Char

/-- The kinds of values. -/
inductive Kind where
  | usize
  | u8
  | u32
  | f64
  deriving DecidableEq

/-- An option with its one-letter name, its long name and the kind of its value (`none`: it is a
flag). -/
structure Opt where
  short : Option Char
  long : String
  kind : Option Kind
  deriving DecidableEq

/-- Options before the name of the command. -/
def before : List Opt :=
  [⟨some 'v', "verbose", none⟩, ⟨some 'j', "jobs", some .usize⟩]

def create : List Opt :=
  [⟨none, "version", some .u8⟩, ⟨some 'c', "capacity", some .usize⟩,
   ⟨some 'p', "probability", some .f64⟩, ⟨some 'O', "opt-lvl", some .u8⟩]

def insert : List Opt := [⟨none, "stdin", none⟩]

def check : List Opt := [⟨none, "stdin", none⟩, ⟨none, "silent", none⟩, ⟨none, "verify", none⟩]

def bench : List Opt :=
  [⟨some 's', "size-mb", some .usize⟩, ⟨none, "test-size", some .usize⟩,
   ⟨some 'r', "runs", some .u32⟩, ⟨some 'f', "fp-tol", some .f64⟩,
   ⟨some 'v', "version", some .u8⟩, ⟨none, "fpp", some .f64⟩, ⟨some 'O', "opt", some .u8⟩]

/-- The word begins with a hyphen and is not just a hyphen. -/
def Dashed (w : Text) : Prop := ∃ s, s ≠ [] ∧ w = '-' :: s

/-- One-letter flags, as they can be joined in one word. -/
inductive Flags (os : List Opt) : Text → List (Opt × Text) → Prop
  | nil : Flags os [] []
  | cons {o c s l} : o ∈ os → o.kind = none → o.short = some c → Flags os s l →
      Flags os (c :: s) ((o, []) :: l)

/-- `Words os ws l ps`: the words `ws` give the options `l` with their values (empty for flags), in
this order, and `ps` are the other words. -/
inductive Words (os : List Opt) : List Text → List (Opt × Text) → List Text → Prop
  /-- no words -/
  | nil : Words os [] [] []
  /-- `--` and words that may begin with a hyphen -/
  | stop (ps) : Words os (['-', '-'] :: ps) [] ps
  /-- a word -/
  | word {w ws l ps} : ¬ Dashed w → Words os ws l ps → Words os (w :: ws) l (w :: ps)
  /-- `--name` -/
  | flag {o ws l ps} : o ∈ os → o.kind = none → Words os ws l ps →
      Words os (('-' :: '-' :: o.long.toList) :: ws) ((o, []) :: l) ps
  /-- `--name=value` -/
  | eq {o v ws l ps} : o ∈ os → o.kind ≠ none → Words os ws l ps →
      Words os (('-' :: '-' :: (o.long.toList ++ '=' :: v)) :: ws) ((o, v) :: l) ps
  /-- `--name value` -/
  | long {o v ws l ps} : o ∈ os → o.kind ≠ none → ¬ Dashed v → Words os ws l ps →
      Words os (('-' :: '-' :: o.long.toList) :: v :: ws) ((o, v) :: l) ps
  /-- `-abc` -/
  | flags {s f ws l ps} : Flags os s f → s ≠ [] → Words os ws l ps →
      Words os (('-' :: s) :: ws) (f ++ l) ps
  /-- `-abn value` -/
  | short {s f o c v ws l ps} : Flags os s f → o ∈ os → o.kind ≠ none → o.short = some c →
      ¬ Dashed v → Words os ws l ps →
      Words os (('-' :: (s ++ [c])) :: v :: ws) (f ++ (o, v) :: l) ps
  /-- `-abn=value` -/
  | shortEq {s f o c v ws l ps} : Flags os s f → o ∈ os → o.kind ≠ none → o.short = some c →
      Words os ws l ps →
      Words os (('-' :: (s ++ c :: '=' :: v)) :: ws) (f ++ (o, v) :: l) ps
  /-- `-abnvalue` -/
  | shortJoined {s f o c v ws l ps} : Flags os s f → o ∈ os → o.kind ≠ none → o.short = some c →
      v ≠ [] → v.head? ≠ some '=' → Words os ws l ps →
      Words os (('-' :: (s ++ c :: v)) :: ws) (f ++ (o, v) :: l) ps

/-- A word that asks for help: `--help`, or an `h` after other flags (possibly none). -/
def HelpWord (os : List Opt) (w : Text) (f : List (Opt × Text)) : Prop :=
  (w = ['-', '-', 'h', 'e', 'l', 'p'] ∧ f = []) ∨
    ∃ s t, Flags os s f ∧ w = '-' :: (s ++ 'h' :: t)

/-- The words ask for help, after these options and other words. -/
def Asks (os : List Opt) (ws : List Text) (l : List (Opt × Text)) (ps : List Text) : Prop :=
  ∃ ws₁ w ws₂ l₁ f, ws = ws₁ ++ w :: ws₂ ∧ Words os ws₁ l₁ ps ∧ ['-', '-'] ∉ ws₁ ∧
    HelpWord os w f ∧ l = l₁ ++ f

/-- The text is a decimal number. -/
def Decimal (s : Text) (n : Nat) : Prop :=
  s ≠ [] ∧ (∀ c ∈ s, c.isDigit) ∧ n = Nat.ofDigits 10 (s.reverse.map fun c => c.toNat - 48)

/-- A decimal number with or without a plus sign. -/
def Natural (s : Text) (n : Nat) : Prop := Decimal s n ∨ ∃ s', s = '+' :: s' ∧ Decimal s' n

/-- The text is a number of the kind (and which one, of integers). -/
def Reads (rd : Text → Option F64) : Kind → Text → Nat → Prop
  | .usize, s, n => Natural s n ∧ n < 2 ^ 64
  | .u8, s, n => (Natural s n ∧ n < 2 ^ 8) ∨ (n = 0 ∧ ∃ s', s = '-' :: s' ∧ Decimal s' 0)
  | .u32, s, n => (Natural s n ∧ n < 2 ^ 32) ∨ (n = 0 ∧ ∃ s', s = '-' :: s' ∧ Decimal s' 0)
  | .f64, s, n => ∃ x, rd s = some x ∧ n = x.toNat

/-- The options are given at most once and have values of their kinds. -/
def Fine (rd : Text → Option F64) (l : List (Opt × Text)) : Prop :=
  (l.map (·.1.long)).Nodup ∧ ∀ o v, (o, v) ∈ l → ∀ k, o.kind = some k → ∃ n, Reads rd k v n

/-- The option has this value: the given one, or the default. -/
def Value (rd : Text → Option F64) (l : List (Opt × Text)) (name : String) (default n : Nat) : Prop :=
  (∃ o v k, (o, v) ∈ l ∧ o.long = name ∧ o.kind = some k ∧ Reads rd k v n) ∨
    (n = default ∧ ∀ o v, (o, v) ∈ l → o.long ≠ name)

/-- The option is given. -/
def Given (l : List (Opt × Text)) (name : String) : Prop := ∃ o v, (o, v) ∈ l ∧ o.long = name

/-- 0.01, 0.2 and 0.001, rounded to `f64`. -/
def percent : F64 := 0x3F847AE147AE147B#64
def fifth : F64 := 0x3FC999999999999A#64
def permille : F64 := 0x3F50624DD2F1A9FC#64

/-- Assumption on reading numbers as `f64`: the three texts are rounded to the nearest `f64`. -/
structure ReadSpec (rd : Text → Option F64) : Prop where
  percent : rd ['0', '.', '0', '1'] = some percent
  fifth : rd ['0', '.', '2'] = some fifth
  permille : rd ['0', '.', '0', '0', '1'] = some permille

/-- The options of a command and the other words give this command. -/
inductive Names (rd : Text → Option F64) : String → List Text → Cli.Command → Prop
  | create {ws l f ds} {o : Cli.Create} : Words create ws l (f :: ds) → Fine rd l → f ≠ [] →
      Value rd l "version" 2 o.version.toNat →
      Value rd l "capacity" 10000 o.capacity.toNat →
      Value rd l "probability" percent.toNat o.probability.toNat →
      Value rd l "opt-lvl" 0 o.optimize.toNat →
      o.file = String.ofList f → o.dataset = ds.map String.ofList →
      Names rd "create" ws (.create o)
  | insert {ws l f is} {o : Cli.Insert} : Words insert ws l (f :: is) → Fine rd l →
      (o.stdin = true ↔ Given l "stdin") →
      o.file = String.ofList f → o.inputs = is.map String.ofList →
      Names rd "insert" ws (.insert o)
  | check {ws l f is} {o : Cli.Check} : Words check ws l (f :: is) → Fine rd l →
      (o.stdin = true ↔ Given l "stdin") →
      (o.silent = true ↔ Given l "silent") →
      (o.verify = true ↔ Given l "verify") →
      o.file = String.ofList f → o.inputs = is.map String.ofList →
      Names rd "check" ws (.check o)
  | bench {ws l ps} {o : Cli.Benchmark} : Words bench ws l ps → Fine rd l → ps.length ≤ 1 →
      Value rd l "size-mb" 100 o.sizeMb.toNat →
      (∀ n, o.testSize = some n → Value rd l "test-size" n n ∧ Given l "test-size") →
      (o.testSize = none → ¬ Given l "test-size") →
      Value rd l "runs" 50 o.runs →
      Value rd l "fp-tol" fifth.toNat o.fpTol.toNat →
      Value rd l "version" 2 o.version.toNat →
      Value rd l "fpp" permille.toNat o.fpp.toNat →
      Value rd l "opt" 0 o.opt.toNat →
      o.file = ps.head?.map String.ofList →
      Names rd "bench" ws (.bench o)
  | «show» {ws f} : Words [] ws [] [f] → Names rd "show" ws (.show (String.ofList f))

/-- The words mean: this command, with this number of jobs, talkative or not. -/
def Means (rd : Text → Option F64) (ws : List Text) (verbose : Bool) (jobs : Nat)
    (c : Cli.Command) : Prop :=
  ∃ ws₁ name ws₂ l, ws = ws₁ ++ String.toList name :: ws₂ ∧
    Words before ws₁ l [] ∧ ['-', '-'] ∉ ws₁ ∧ Fine rd l ∧
    (verbose = true ↔ Given l "verbose") ∧ Value rd l "jobs" 2 jobs ∧
    Names rd name ws₂ c

/-- The command can be written down: its numbers are in range, and its `f64` are values of texts. -/
def Spellable (rd : Text → Option F64) : Cli.Command → Prop
  | .create o => o.file ≠ "" ∧ ∃ s, rd s = some o.probability
  | .insert _ => True
  | .check _ => True
  | .bench o => (∀ n, o.testSize = some n → n < 2 ^ 64) ∧ o.runs < 2 ^ 32 ∧
      (∃ s, rd s = some o.fpTol) ∧ ∃ s, rd s = some o.fpp
  | .show _ => True

/-- The words after the name of a command ask for help. -/
inductive AsksFor (rd : Text → Option F64) : String → List Text → Prop
  | create {ws l ps} : Asks create ws l ps → Fine rd l → ps.head? ≠ some [] → AsksFor rd "create" ws
  | insert {ws l ps} : Asks insert ws l ps → Fine rd l → AsksFor rd "insert" ws
  | check {ws l ps} : Asks check ws l ps → Fine rd l → AsksFor rd "check" ws
  | bench {ws l ps} : Asks bench ws l ps → Fine rd l → ps.length ≤ 1 → AsksFor rd "bench" ws
  | «show» {ws l ps} : Asks [] ws l ps → ps.length ≤ 1 → AsksFor rd "show" ws
  | all : AsksFor rd "help" []
  | one {name} : name ∈ ["create", "insert", "check", "bench", "show", "help"] →
      AsksFor rd "help" [String.toList name]

/-- The words ask for help. -/
def AsksHelp (rd : Text → Option F64) (ws : List Text) : Prop :=
  (∃ l, Asks before ws l [] ∧ Fine rd l) ∨
  ∃ ws₁ name ws₂ l, ws = ws₁ ++ String.toList name :: ws₂ ∧
    Words before ws₁ l [] ∧ ['-', '-'] ∉ ws₁ ∧ Fine rd l ∧ AsksFor rd name ws₂

end Line
end Spec
