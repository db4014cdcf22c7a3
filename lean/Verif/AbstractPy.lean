import Verif.AbstractCli
import Verif.Model.PyCalls

/-!
# The Python module

What calls from Python do, whatever the arguments, in terms of the abstract filters of
`Verif/AbstractBloom.lean`.  Of the model it uses the types of calls, values and outcomes, and the
description of the file system.
-/

namespace Abs

open Poppy (U8 U64 F64 Res Error)
open Poppy.Cli (World Path)
open Poppy.Py (Val Exc Out PyCall Heap)

/-! ## Arguments -/

/-- The whole number that a value is. -/
def whole : Val → Option ℤ
  | .int n => some n
  | .bool b => some (if b then 1 else 0)
  | _ => none

/-- A whole number below `2 ^ bits`. -/
def natArg (bits : ℕ) (v : Val) : Except Exc ℕ :=
  match whole v with
  | none => .error .typeError
  | some n => if 0 ≤ n ∧ n < 2 ^ bits then .ok n.toNat else .error .overflowError

/-- A number, given the `f64` for whole numbers. -/
def numArg (near : ℤ → Option F64) (v : Val) : Except Exc F64 :=
  match v with
  | .float x => .ok x
  | v =>
    match whole v with
    | none => .error .typeError
    | some n =>
      match near n with
      | none => .error .overflowError
      | some x => .ok x

/-- Code points of characters: all but the surrogates. -/
def scalar (c : ℕ) : Bool := decide (c < 0xD800 ∨ 0xE000 ≤ c ∧ c < 0x110000)

/-- A text, as UTF-8. -/
def textArg : Val → Except Exc (List U8)
  | .str s =>
    if s.all scalar then .ok (s.flatMap fun c => Spec.utf8 (Char.ofNat c))
    else .error .unicodeEncodeError
  | _ => .error .typeError

/-- A byte string. -/
def bytesArg : Val → Except Exc (List U8)
  | .bytes b => .ok b
  | _ => .error .typeError

/-- A byte string or a sequence of bytes. -/
def seqArg : Val → Except Exc (List U8)
  | .bytes b => .ok b
  | .bytearray b => .ok b
  | .list l => (l.mapM (natArg 8)).map (List.map (BitVec.ofNat 8))
  | _ => .error .typeError

/-- A single argument. -/
def single {α : Type} (f : Val → Except Exc α) (args : List Val) : Except Exc α :=
  match args with
  | [v] => f v
  | _ => .error .typeError

/-! ## Calls -/

/-- An object that is made. -/
def added (h : Heap F) : Res F → Heap F × Out
  | .ok a => (⟨h.objs ++ [a], h.world⟩, .filter h.objs.length)
  | .err e => (h, .raised (.valueError e))
  | .panic => (h, .raised .panicException)

/-- What an answer is in Python. -/
def Answer.out : Answer → Out
  | .done => .none
  | .bool b => .bool b
  | .num n => .int n
  | .bytes l => .bytes l
  | .err e => .raised (.valueError e)
  | .panic => .raised .panicException

/-- An answer about an object. -/
def told (h : Heap F) (i : ℕ) (f : F → Out) : Heap F × Out :=
  match h.objs[i]? with
  | none => (h, .raised .nameError)
  | some a => (h, f a)

/-- An object asked about an argument. -/
def asked {α : Type} (h : Heap F) (i : ℕ) (arg : Except Exc α) (f : F → α → Answer) : Heap F × Out :=
  told h i fun a =>
    match arg with
    | .error e => .raised e
    | .ok x => (f a x).out

/-- An object changed with an argument. -/
def changed {α : Type} (h : Heap F) (i : ℕ) (arg : Except Exc α) (f : F → α → F × Answer) :
    Heap F × Out :=
  match h.objs[i]?, arg with
  | none, _ => (h, .raised .nameError)
  | some _, .error e => (h, .raised e)
  | some a, .ok x => (⟨h.objs.set i (f a x).1, h.world⟩, (f a x).2.out)

/-- The filter with a number. -/
def filterArg (objs : List F) : Val → Except Exc F
  | .filter j =>
    match objs[j]? with
    | some a => .ok a
    | none => .error .typeError
  | _ => .error .typeError

/-- The arguments of a constructor, of which the version and the level may be missing. -/
def makeArgs (m : Machine) (near : ℤ → Option F64) (v : Except Exc ℕ) (c p : Val) (o : Except Exc ℕ) :
    Except Exc (Res F) := do
  let v ← v
  let c ← natArg 64 c
  let p ← numArg near p
  let o ← o
  return if o < 4 then make m (BitVec.ofNat 8 v) (BitVec.ofNat 64 c) p (levelOf o)
    else .err (.optLevel (BitVec.ofNat 8 o))

/-- A filter made, or what is wrong with the arguments. -/
def constructed (h : Heap F) : Except Exc (Res F) → Heap F × Out
  | .ok r => added h r
  | .error e => (h, .raised e)

/-- One call. -/
def pyCall (m : Machine) (near : ℤ → Option F64) (h : Heap F) : PyCall → Heap F × Out
  | .new [c, p] => constructed h (makeArgs m near (.ok 2) c p (.ok 0))
  | .withVersion [v, c, p] => constructed h (makeArgs m near (natArg 8 v) c p (.ok 0))
  | .withParams [v, c, p, o] => constructed h (makeArgs m near (natArg 8 v) c p (natArg 8 o))
  | .new _ => (h, .raised .typeError)
  | .withVersion _ => (h, .raised .typeError)
  | .withParams _ => (h, .raised .typeError)
  | .loads args => constructed h ((single seqArg args).map fun bs => loaded (Spec.load m.limit bs))
  | .load path =>
    match source h.world path with
    | .refused e => (h, .raised (.osError e))
    | s => added h (s.filter m)
  | .insertBytes i args => changed h i (single bytesArg args) fun a k => a.insert m k
  | .insertStr i args => changed h i (single textArg args) fun a k => a.insert m k
  | .containsBytes i args => asked h i (single bytesArg args) fun a k => a.contains m k
  | .containsStr i args => asked h i (single textArg args) fun a k => a.contains m k
  | .isFull i => told h i fun a => .bool (decide (a.count = a.cap))
  | .unionMerge i [.filter j] =>
    if i = j ∧ i < h.objs.length then (h, .raised .runtimeError)
    else changed h i (filterArg h.objs (.filter j)) fun a b => a.union m b
  | .unionMerge i args => changed h i (single (filterArg h.objs) args) fun a b => a.union m b
  | .countCommonEntries i args => asked h i (single (filterArg h.objs) args) fun a b => a.common m b
  | .dumps i => told h i fun a => .bytes a.file
  | .save i path =>
    match h.objs[i]? with
    | none => (h, .raised .nameError)
    | some a =>
      if h.world.creatable path = false then (h, .raised (.osError (.ioError .other)))
      else (⟨h.objs, (store h.world path a).1⟩,
        match (store h.world path a).2 with
        | .ok _ => .none
        | .err e => .raised (.valueError e)
        | .panic => .raised .panicException)
  | .version i => told h i fun a => .int a.version
  | .capacity i => told h i fun a => .int a.cap
  | .fpp i => told h i fun a => .float a.fpp
  | .countEstimate i => told h i fun a => .int a.count
  | .data i => told h i fun a => .ints a.data

/-- A program. -/
def pyRun (m : Machine) (near : ℤ → Option F64) (h : Heap F) : List PyCall → Heap F × List Out
  | [] => (h, [])
  | c :: cs => ((pyRun m near (pyCall m near h c).1 cs).1,
      (pyCall m near h c).2 :: (pyRun m near (pyCall m near h c).1 cs).2)

end Abs
