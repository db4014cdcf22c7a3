import Verif.Model.Python

/-!
Vocabulary of the properties of Python programs: a program calls the functions and methods of the
bindings on any number of filter objects.  Exceptions (and panics, which arrive as exceptions) are
caught, so the program goes on.
-/

namespace Poppy
namespace Py

open Cli

/-- The filter objects created so far, and the files. -/
structure Store where
  objs : List Bloom
  world : World

/-- What a program can do.  Objects are named by their position in the list of objects. -/
inductive Call where
  | new (capacity : U64) (fpp : F64)
  | withVersion (version : U8) (capacity : U64) (fpp : F64)
  | withParams (version : U8) (capacity : U64) (fpp : F64) (opt : U8)
  | load (path : Path)
  | loads (bytes : List U8)
  | insertBytes (i : ℕ) (data : List U8)
  | insertStr (i : ℕ) (s : String)
  | unionMerge (i j : ℕ)
  | save (i : ℕ) (path : Path)
  /-- a file is changed by something else -/
  | write (path : Path) (content : Option (List U8))

/-- Keep the object of a call that returned one. -/
def Store.alloc (st : Store) : PyRes Bloom → Store
  | .ok f => { st with objs := st.objs ++ [f] }
  | _ => st

/-- One call.  Reading methods change nothing and are left out.  `x.union_merge(x)` is refused by
PyO3, as `x` would be borrowed twice. -/
def Store.call (env : Env) (st : Store) : Call → Store
  | .new c p => st.alloc (Py.new env c p)
  | .withVersion v c p => st.alloc (Py.withVersion env v c p)
  | .withParams v c p o => st.alloc (Py.withParams env v c p o)
  | .load path => st.alloc (Py.load env st.world path)
  | .loads bs => st.alloc (Py.loads env bs)
  | .insertBytes i k => { st with objs := st.objs.modify i fun f => (Py.insertBytes env f k).1 }
  | .insertStr i s => { st with objs := st.objs.modify i fun f => (Py.insertStr env f s).1 }
  | .unionMerge i j =>
    match st.objs[j]? with
    | some o =>
      if i = j then st
      else { st with objs := st.objs.modify i fun f => (Py.unionMerge env f o).1 }
    | none => st
  | .save i path =>
    match st.objs[i]? with
    | some f => { st with world := (Py.save st.world f path).1 }
    | none => st
  | .write path content =>
    { st with world := { st.world with fs := fun q => if q = path then content else st.world.fs q } }

/-- A program: a list of calls. -/
def Store.run (env : Env) (st : Store) : List Call → Store
  | [] => st
  | c :: cs => (st.call env c).run env cs

/-- The call may change this file. -/
def Call.Touches (path : Path) : Call → Prop
  | .save _ q => q = path
  | .write q _ => q = path
  | _ => False

end Py
end Poppy
