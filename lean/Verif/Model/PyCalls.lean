import Verif.Model.Decimal
import Verif.Model.Python

/-!
# Model of calls from Python, with the conversion of their arguments

`python/src/lib.rs`, with the wrappers that the macros of PyO3 0.20 make around its functions: a
wrapper borrows the object, converts the arguments from left to right and raises what the first
conversion that fails raises.  The conversions follow `pyo3/src/conversions/std/num.rs`, `string.rs`,
`slice.rs`, `types/sequence.rs` and the functions of CPython that they call.  Keyword
arguments are added in `Verif/Model/PyKeywords.lean`.  Texts of exceptions, user defined classes
(`__index__`, `__float__`) and the conversion of paths are not modelled.
-/

namespace Poppy
namespace Py

open Cli (World Path)

/-- Python values. -/
inductive Val where
  | none
  | bool (b : Bool)
  | int (n : ℤ)
  | float (x : F64)
  /-- a text, as its code points: other than in Rust, surrogates may be among them -/
  | str (s : List ℕ)
  | bytes (b : List U8)
  | bytearray (b : List U8)
  /-- a list or a tuple -/
  | list (l : List Val)
  /-- a filter object, by its number; some other object if there is none with this number -/
  | filter (i : ℕ)

/-- Exceptions. -/
inductive Exc where
  | typeError
  | overflowError
  | unicodeEncodeError
  | runtimeError
  | nameError
  | valueError (e : Error)
  | osError (e : Error)
  | panicException
  deriving DecidableEq

/-- What a call gives. -/
inductive Out where
  | none
  | bool (b : Bool)
  | int (n : ℕ)
  | float (x : F64)
  | bytes (b : List U8)
  /-- a list of integers -/
  | ints (b : List U8)
  /-- a filter object, by its number -/
  | filter (i : ℕ)
  | raised (e : Exc)
  deriving DecidableEq

/-! ## Conversion of arguments -/

/-- `PyNumber_Index` -/
def pyNumberIndex : Val → Except Exc ℤ
  | .int n => .ok n
  | .bool true => .ok 1
  | .bool false => .ok 0
  | _ => .error .typeError

/-- `PyLong_AsUnsignedLongLong` -/
def pyLongAsUnsignedLongLong (n : ℤ) : Except Exc U64 :=
  if n < 0 then .error .overflowError
  else if 2 ^ 64 ≤ n then .error .overflowError
  else .ok (BitVec.ofInt 64 n)

/-- `PyLong_AsLong` -/
def pyLongAsLong (n : ℤ) : Except Exc ℤ :=
  if n < -2 ^ 63 ∨ 2 ^ 63 ≤ n then .error .overflowError else .ok n

/-- `num.rs`: `usize`, by way of `u64` -/
def extractUsize (v : Val) : Except Exc U64 := do
  let n ← pyNumberIndex v
  pyLongAsUnsignedLongLong n

/-- `num.rs`: `u8`, by way of `c_long` and `u8::try_from` -/
def extractU8 (v : Val) : Except Exc U8 := do
  let n ← pyNumberIndex v
  let n ← pyLongAsLong n
  if 0 ≤ n ∧ n ≤ 255 then .ok (BitVec.ofInt 8 n) else .error .overflowError

/-- `PyLong_AsDouble`: rounds to nearest, ties to even. -/
def pyLongAsDouble (n : ℤ) : Except Exc F64 :=
  match rnd (n : ℚ) with
  | .fin q => .ok (FVal.bits (.fin q))
  | _ => .error .overflowError

/-- `num.rs`: `f64`, by `PyFloat_AsDouble` -/
def extractF64 : Val → Except Exc F64
  | .float x => .ok x
  | .int n => pyLongAsDouble n
  | .bool true => pyLongAsDouble 1
  | .bool false => pyLongAsDouble 0
  | _ => .error .typeError

/-- The characters of a text without surrogates. -/
def chars? : List ℕ → Option (List Char)
  | [] => some []
  | c :: s => if h : c.isValidChar then (chars? s).map (Char.ofNatAux c h :: ·) else Option.none

/-- `string.rs`: `&str`, by `PyUnicode_AsUTF8AndSize` -/
def extractStr : Val → Except Exc String
  | .str s =>
    match chars? s with
    | some cs => .ok (String.ofList cs)
    | Option.none => .error .unicodeEncodeError
  | _ => .error .typeError

/-- `slice.rs`: `&[u8]`, from `bytes` only -/
def extractSlice : Val → Except Exc (List U8)
  | .bytes b => .ok b
  | _ => .error .typeError

/-- `sequence.rs` `extract_sequence`: item by item -/
def extractItems : List Val → Except Exc (List U8)
  | [] => .ok []
  | v :: vs => do
    let b ← extractU8 v
    let bs ← extractItems vs
    .ok (b :: bs)

/-- `sequence.rs`: `Vec<u8>`, from every sequence of integers but not from a text -/
def extractVec : Val → Except Exc (List U8)
  | .str _ => .error .typeError
  | .bytes b => .ok b
  | .bytearray b => .ok b
  | .list l => extractItems l
  | _ => .error .typeError

/-! ## Calls -/

/-- A call of a Python program.  Filter objects are named by numbers. -/
inductive PyCall where
  /-- `BloomFilter(…)` -/
  | new (args : List Val)
  /-- `BloomFilter.with_version(…)` -/
  | withVersion (args : List Val)
  /-- `BloomFilter.with_params(…)` -/
  | withParams (args : List Val)
  | loads (args : List Val)
  | load (path : Path)
  | insertBytes (i : ℕ) (args : List Val)
  | insertStr (i : ℕ) (args : List Val)
  | containsBytes (i : ℕ) (args : List Val)
  | containsStr (i : ℕ) (args : List Val)
  | isFull (i : ℕ)
  | unionMerge (i : ℕ) (args : List Val)
  | countCommonEntries (i : ℕ) (args : List Val)
  | dumps (i : ℕ)
  | save (i : ℕ) (path : Path)
  | version (i : ℕ)
  | capacity (i : ℕ)
  | fpp (i : ℕ)
  | countEstimate (i : ℕ)
  | data (i : ℕ)

/-- The filter objects made so far, and the files. -/
structure Heap (α : Type) where
  objs : List α
  world : World

/-- The outcome of a function. -/
def PyRes.out {α : Type} (f : α → Out) : PyRes α → Out
  | .ok a => f a
  | .valueError e => .raised (.valueError e)
  | .osError e => .raised (.osError e)
  | .panic => .raised .panicException

/-- A call that converts its arguments first. -/
def withArgs {α β : Type} (h : Heap α) (args : Except Exc β) (f : β → Heap α × Out) : Heap α × Out :=
  match args with
  | .ok b => f b
  | .error e => (h, .raised e)

/-- A call of a method of an object. -/
def onObj {α : Type} (h : Heap α) (i : ℕ) (f : α → Heap α × Out) : Heap α × Out :=
  match h.objs[i]? with
  | some a => f a
  | none => (h, .raised .nameError)

/-- A function that returns an object. -/
def returnsObj (h : Heap Bloom) : PyRes Bloom → Heap Bloom × Out
  | .ok f => ({ h with objs := h.objs ++ [f] }, .filter h.objs.length)
  | r => (h, r.out fun _ => .none)

/-- A method that changes its object. -/
def changes {β : Type} (h : Heap Bloom) (i : ℕ) (out : β → Out) (r : Bloom × PyRes β) :
    Heap Bloom × Out :=
  ({ h with objs := h.objs.set i r.1 }, r.2.out out)

/-- The arguments of `new`: `lib.rs:48` -/
def newArgs : List Val → Except Exc (U64 × F64)
  | [c, p] => do
    let c ← extractUsize c
    let p ← extractF64 p
    .ok (c, p)
  | _ => .error .typeError

/-- The arguments of `with_version`: `lib.rs:57` -/
def withVersionArgs : List Val → Except Exc (U8 × U64 × F64)
  | [v, c, p] => do
    let v ← extractU8 v
    let c ← extractUsize c
    let p ← extractF64 p
    .ok (v, c, p)
  | _ => .error .typeError

/-- The arguments of `with_params`: `lib.rs:66` -/
def withParamsArgs : List Val → Except Exc (U8 × U64 × F64 × U8)
  | [v, c, p, o] => do
    let v ← extractU8 v
    let c ← extractUsize c
    let p ← extractF64 p
    let o ← extractU8 o
    .ok (v, c, p, o)
  | _ => .error .typeError

/-- A single argument. -/
def oneArg {β : Type} (f : Val → Except Exc β) : List Val → Except Exc β
  | [v] => f v
  | _ => .error .typeError

/-- Another object, `&Self`; `taken` is the one that is borrowed for changing. -/
def otherArg (h : Heap Bloom) (taken : Option ℕ) : List Val → Except Exc Bloom
  | [.filter j] =>
    match h.objs[j]? with
    | some o => if taken = some j then .error .runtimeError else .ok o
    | none => .error .typeError
  | _ => .error .typeError

/-- One call. -/
def Heap.call (env : Env) (h : Heap Bloom) : PyCall → Heap Bloom × Out
  | .new args => withArgs h (newArgs args) fun (c, p) => returnsObj h (Py.new env c p)
  | .withVersion args => withArgs h (withVersionArgs args) fun (v, c, p) =>
      returnsObj h (Py.withVersion env v c p)
  | .withParams args => withArgs h (withParamsArgs args) fun (v, c, p, o) =>
      returnsObj h (Py.withParams env v c p o)
  | .loads args => withArgs h (oneArg extractVec args) fun bs => returnsObj h (Py.loads env bs)
  | .load path => returnsObj h (Py.load env h.world path)
  | .insertBytes i args => onObj h i fun f => withArgs h (oneArg extractSlice args) fun k =>
      changes h i .bool (Py.insertBytes env f k)
  | .insertStr i args => onObj h i fun f => withArgs h (oneArg extractStr args) fun s =>
      changes h i .bool (Py.insertStr env f s)
  | .containsBytes i args => onObj h i fun f => withArgs h (oneArg extractSlice args) fun k =>
      (h, (Py.containsBytes env f k).out .bool)
  | .containsStr i args => onObj h i fun f => withArgs h (oneArg extractStr args) fun s =>
      (h, (Py.containsStr env f s).out .bool)
  | .isFull i => onObj h i fun f => (h, .bool (Py.isFull f))
  | .unionMerge i args => onObj h i fun f => withArgs h (otherArg h (some i) args) fun o =>
      changes h i (fun _ => .none) (Py.unionMerge env f o)
  | .countCommonEntries i args => onObj h i fun f => withArgs h (otherArg h none args) fun o =>
      (h, (Py.countCommonEntries env f o).out fun n => .int n.toNat)
  | .dumps i => onObj h i fun f => (h, (Py.dumps f).out .bytes)
  | .save i path => onObj h i fun f =>
      ({ h with world := (Py.save h.world f path).1 }, (Py.save h.world f path).2.out fun _ => .none)
  | .version i => onObj h i fun f => (h, .int (Py.version f).toNat)
  | .capacity i => onObj h i fun f => (h, .int (Py.capacity f).toNat)
  | .fpp i => onObj h i fun f => (h, .float (Py.fpp f))
  | .countEstimate i => onObj h i fun f => (h, .int (Py.countEstimate f).toNat)
  | .data i => onObj h i fun f => (h, .ints (Py.data f))

/-- A program: a list of calls, and what they give. -/
def Heap.run (env : Env) (h : Heap Bloom) : List PyCall → Heap Bloom × List Out
  | [] => (h, [])
  | c :: cs =>
    let r := h.call env c
    ((r.1.run env cs).1, r.2 :: (r.1.run env cs).2)

end Py
end Poppy
