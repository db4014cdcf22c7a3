import Verif.Model.PyCalls

/-!
# Model of calls from Python with keyword arguments

The wrappers that PyO3 0.20 makes around the functions of `python/src/lib.rs` put the arguments in
the order of the parameters before they are converted: `pyo3/src/impl_/extract_argument.rs`
`FunctionDescription::extract_arguments_fastcall`.  `load` and `save` are left out, as the conversion
of paths is not modelled.
-/

namespace Poppy
namespace Py

/-- The functions, and the methods of the object with a number. -/
inductive Fn where
  | new
  | withVersion
  | withParams
  | loads
  | insertBytes (i : ℕ)
  | insertStr (i : ℕ)
  | containsBytes (i : ℕ)
  | containsStr (i : ℕ)
  | isFull (i : ℕ)
  | unionMerge (i : ℕ)
  | countCommonEntries (i : ℕ)
  | dumps (i : ℕ)

/-- The names of their parameters: `python/src/lib.rs:29,48,57,66,77,82,87,92,97,103,108,113` -/
def Fn.params : Fn → List String
  | .new => ["capacity", "fpp"]
  | .withVersion => ["version", "capacity", "fpp"]
  | .withParams => ["version", "capacity", "fpp", "opt"]
  | .loads => ["bytes"]
  | .insertBytes _ => ["data"]
  | .insertStr _ => ["s"]
  | .containsBytes _ => ["data"]
  | .containsStr _ => ["s"]
  | .isFull _ => []
  | .unionMerge _ => ["o"]
  | .countCommonEntries _ => ["o"]
  | .dumps _ => []

/-- The object of a method. -/
def Fn.self? : Fn → Option ℕ
  | .new | .withVersion | .withParams | .loads => none
  | .insertBytes i | .insertStr i | .containsBytes i | .containsStr i | .isFull i | .unionMerge i
  | .countCommonEntries i | .dumps i => some i

/-- The call with the arguments in the order of the parameters. -/
def Fn.call : Fn → List Val → PyCall
  | .new, args => .new args
  | .withVersion, args => .withVersion args
  | .withParams, args => .withParams args
  | .loads, args => .loads args
  | .insertBytes i, args => .insertBytes i args
  | .insertStr i, args => .insertStr i args
  | .containsBytes i, args => .containsBytes i args
  | .containsStr i, args => .containsStr i args
  | .isFull i, _ => .isFull i
  | .unionMerge i, args => .unionMerge i args
  | .countCommonEntries i, args => .countCommonEntries i args
  | .dumps i, _ => .dumps i

/-- `handle_kwargs`: each keyword argument goes to the place of its parameter; a name that is not
that of a parameter, or a place that is taken, is an error. -/
def handleKwargs (names : List String) (output : List (Option Val)) :
    List (String × Val) → Except Exc (List (Option Val))
  | [] => .ok output
  | (k, v) :: kw =>
    match names.idxOf? k with
    | none => .error .typeError
    | some j =>
      match output[j]? with
      | some none => handleKwargs names (output.set j (some v)) kw
      | _ => .error .typeError

/-- `ensure_no_missing_required_positional_arguments`, and the arguments -/
def ensureNoMissing : List (Option Val) → Except Exc (List Val)
  | [] => .ok []
  | none :: _ => .error .typeError
  | some v :: l => do
    let vs ← ensureNoMissing l
    .ok (v :: vs)

/-- `extract_arguments_fastcall`: positional arguments, then keyword arguments -/
def extractArguments (names : List String) (pos : List Val) (kw : List (String × Val)) :
    Except Exc (List Val) :=
  if names.length < pos.length then .error .typeError
  else do
    let output ← handleKwargs names
      (pos.map some ++ List.replicate (names.length - pos.length) none) kw
    ensureNoMissing output

/-- A call with positional and keyword arguments. -/
structure KwCall where
  fn : Fn
  pos : List Val
  kw : List (String × Val)

/-- The name of the object is looked up first, then the arguments are put in order. -/
def Heap.kwCall (env : Env) (h : Heap Bloom) (c : KwCall) : Heap Bloom × Out :=
  match c.fn.self? with
  | some i =>
    onObj h i fun _ => withArgs h (extractArguments c.fn.params c.pos c.kw) fun args =>
      h.call env (c.fn.call args)
  | none => withArgs h (extractArguments c.fn.params c.pos c.kw) fun args =>
      h.call env (c.fn.call args)

/-- A program with calls of both kinds. -/
def Heap.kwRun (env : Env) (h : Heap Bloom) : List (PyCall ⊕ KwCall) → Heap Bloom × List Out
  | [] => (h, [])
  | c :: cs =>
    let r := match c with
      | .inl c => h.call env c
      | .inr c => h.kwCall env c
    ((r.1.kwRun env cs).1, r.2 :: (r.1.kwRun env cs).2)

end Py
end Poppy
