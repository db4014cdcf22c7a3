import Verif.AbstractPy
import Verif.Model.PyKeywords

/-!
# Keyword arguments

What calls from Python with keyword arguments do.  Of the model it uses the types of calls, values
and outcomes.
-/

namespace Abs

open Poppy.Py (Val Exc Out PyCall Heap Fn KwCall)
open Poppy (F64)

/-- The names of the parameters. -/
def parameters : Fn → List String
  | .new => ["capacity", "fpp"]
  | .withVersion => ["version", "capacity", "fpp"]
  | .withParams => ["version", "capacity", "fpp", "opt"]
  | .loads => ["bytes"]
  | .insertBytes _ | .containsBytes _ => ["data"]
  | .insertStr _ | .containsStr _ => ["s"]
  | .unionMerge _ | .countCommonEntries _ => ["o"]
  | .isFull _ | .dumps _ => []

/-- The call without names. -/
def positional : Fn → List Val → PyCall
  | .new, l => .new l
  | .withVersion, l => .withVersion l
  | .withParams, l => .withParams l
  | .loads, l => .loads l
  | .insertBytes i, l => .insertBytes i l
  | .containsBytes i, l => .containsBytes i l
  | .insertStr i, l => .insertStr i l
  | .containsStr i, l => .containsStr i l
  | .unionMerge i, l => .unionMerge i l
  | .countCommonEntries i, l => .countCommonEntries i l
  | .isFull i, _ => .isFull i
  | .dumps i, _ => .dumps i

/-- Whether there is the object whose method is called. -/
def present (n : ℕ) : Fn → Bool
  | .new | .withVersion | .withParams | .loads => true
  | .insertBytes i | .containsBytes i | .insertStr i | .containsStr i | .unionMerge i
  | .countCommonEntries i | .isFull i | .dumps i => decide (i < n)

/-- The arguments in the order of the parameters: the names given must be exactly those of the
parameters that are left after the positional arguments, in any order. -/
def arranged (names : List String) (pos : List Val) (kw : List (String × Val)) : Option (List Val) :=
  if pos.length ≤ names.length ∧ (kw.map Prod.fst).Perm (names.drop pos.length) then
    some (pos ++ (names.drop pos.length).filterMap fun k => kw.lookup k)
  else none

/-- A call with keyword arguments is the call with the arguments in order, or a `TypeError`. -/
def kwCall (m : Machine) (near : ℤ → Option F64) (h : Heap F) (c : KwCall) : Heap F × Out :=
  match present h.objs.length c.fn, arranged (parameters c.fn) c.pos c.kw with
  | false, _ => (h, .raised .nameError)
  | true, none => (h, .raised .typeError)
  | true, some args => pyCall m near h (positional c.fn args)

/-- A program. -/
def kwRun (m : Machine) (near : ℤ → Option F64) (h : Heap F) :
    List (PyCall ⊕ KwCall) → Heap F × List Out
  | [] => (h, [])
  | .inl c :: cs => ((kwRun m near (pyCall m near h c).1 cs).1,
      (pyCall m near h c).2 :: (kwRun m near (pyCall m near h c).1 cs).2)
  | .inr c :: cs => ((kwRun m near (kwCall m near h c).1 cs).1,
      (kwCall m near h c).2 :: (kwRun m near (kwCall m near h c).1 cs).2)

end Abs
