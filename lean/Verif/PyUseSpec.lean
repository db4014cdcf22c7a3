import Verif.PySpec

/-! Vocabulary of the statements about what Python programs insert, and whether they run through. -/

namespace Poppy
namespace Py

open Cli

/-- The entries that a program inserts into object `i`, texts as UTF-8. -/
def entries (i : ℕ) : List Call → List (List U8)
  | [] => []
  | .insertBytes j k :: cs => if j = i then k :: entries i cs else entries i cs
  | .insertStr j s :: cs =>
    if j = i then s.toUTF8.data.toList.map UInt8.toBitVec :: entries i cs else entries i cs
  | _ :: cs => entries i cs

/-- The call makes a new filter for `cap` entries. -/
def Call.Makes (cap : U64) : Call → Prop
  | .new c _ => c = cap
  | .withVersion _ c _ => c = cap
  | .withParams _ c _ _ => c = cap
  | _ => False

/-- The call merges another filter into object `i`. -/
def Call.MergesInto (i : ℕ) : Call → Prop
  | .unionMerge j _ => j = i
  | _ => False

/-- The call returns, instead of raising an exception. -/
def Store.Returns (env : Env) (st : Store) : Call → Prop
  | .new c p => ∃ f, Py.new env c p = .ok f
  | .withVersion v c p => ∃ f, Py.withVersion env v c p = .ok f
  | .withParams v c p o => ∃ f, Py.withParams env v c p o = .ok f
  | .load path => ∃ f, Py.load env st.world path = .ok f
  | .loads bs => ∃ f, Py.loads env bs = .ok f
  | .insertBytes i k => ∃ f r, st.objs[i]? = some f ∧ (Py.insertBytes env f k).2 = .ok r
  | .insertStr i s => ∃ f r, st.objs[i]? = some f ∧ (Py.insertStr env f s).2 = .ok r
  | .unionMerge i j => ∃ f o, st.objs[i]? = some f ∧ st.objs[j]? = some o ∧ i ≠ j ∧
      (Py.unionMerge env f o).2 = .ok ()
  | .save i path => ∃ f, st.objs[i]? = some f ∧ (Py.save st.world f path).2 = .ok ()
  | .write .. => True

/-- The program runs to its end without exception. -/
def Store.Through (env : Env) (st : Store) : List Call → Prop
  | [] => True
  | c :: cs => st.Returns env c ∧ (st.call env c).Through env cs

/-- Insert entries into the first filter, and save it. -/
def insertAndSave (es : List (List U8)) (path : Path) : List Call :=
  es.map (.insertBytes 0) ++ [.save 0 path]

end Py
end Poppy
