import Verif.FillSpec
import Verif.Model.Python

/-! Vocabulary of the statements about filters filled in parts, by the tool and by Python programs. -/

namespace Poppy

open Cli

/-- A filter: in a file, or an object of a Python program. -/
inductive Thing where
  | file (w : World) (path : Path)
  | object (f : Bloom)

/-- The filter was created with these parameters, and these entries got into it: inserted by runs of
the tool or by calls in Python programs, or merged with other such filters, saved, loaded and so on,
any number of times. Only calls and runs that succeed are listed, when files are written there is
room, and what happens otherwise leaves the file alone. -/
inductive Thing.Has (t : Libs) (env : Env) (v : U8) (cap : U64) (fpp : F64) (opt : U8) :
    Thing → List (List U8) → Prop
  /-- `poppy create` -/
  | create {file : Path} {w w' : World} {ls : List (List U8)} :
      CreateRun t env file v cap fpp opt w ls w' → Has t env v cap fpp opt (.file w' file) ls
  /-- `poppy insert` -/
  | insert {file : Path} {w w' : World} {es ls : List (List U8)} :
      Has t env v cap fpp opt (.file w file) es → InsertRun t env file w ls w' →
      Has t env v cap fpp opt (.file w' file) (es ++ ls)
  /-- anything else, or a copy of the file -/
  | other {file file' : Path} {w w' : World} {es : List (List U8)} :
      Has t env v cap fpp opt (.file w file) es → w'.fs file' = w.fs file →
      Has t env v cap fpp opt (.file w' file') es
  /-- `save` -/
  | save {file : Path} {f : Bloom} {w w' : World} {es : List (List U8)} :
      Has t env v cap fpp opt (.object f) es → w.disk = none → Py.save w f file = (w', .ok ()) →
      Has t env v cap fpp opt (.file w' file) es
  /-- `BloomFilter.with_params` -/
  | new {f : Bloom} : Py.withParams env v cap fpp opt = .ok f → Has t env v cap fpp opt (.object f) []
  /-- `BloomFilter.load` -/
  | load {file : Path} {w : World} {f : Bloom} {es : List (List U8)} :
      Has t env v cap fpp opt (.file w file) es → Py.load env w file = .ok f →
      Has t env v cap fpp opt (.object f) es
  /-- `BloomFilter.loads` of what `dumps` returned -/
  | loads {f g : Bloom} {bs : List U8} {es : List (List U8)} :
      Has t env v cap fpp opt (.object f) es → Py.dumps f = .ok bs → Py.loads env bs = .ok g →
      Has t env v cap fpp opt (.object g) es
  /-- `insert_bytes` -/
  | insertBytes {f g : Bloom} {k : List U8} {b : Bool} {es : List (List U8)} :
      Has t env v cap fpp opt (.object f) es → Py.insertBytes env f k = (g, .ok b) →
      Has t env v cap fpp opt (.object g) (es ++ [k])
  /-- `insert_str` -/
  | insertStr {f g : Bloom} {s : String} {b : Bool} {es : List (List U8)} :
      Has t env v cap fpp opt (.object f) es → Py.insertStr env f s = (g, .ok b) →
      Has t env v cap fpp opt (.object g) (es ++ [s.toUTF8.data.toList.map UInt8.toBitVec])
  /-- `union_merge` -/
  | union {f o g : Bloom} {es es' : List (List U8)} :
      Has t env v cap fpp opt (.object f) es → Has t env v cap fpp opt (.object o) es' →
      Py.unionMerge env f o = (g, .ok ()) → Has t env v cap fpp opt (.object g) (es ++ es')

/-- The bytes of the filter: of the file, or returned by `dumps`. -/
def Thing.Bytes : Thing → List U8 → Prop
  | .file w path, bs => w.fs path = some bs
  | .object f, bs => Py.dumps f = .ok bs

/-- Is it contained, according to the object, or the object loaded from the file. -/
def Thing.Contains (env : Env) : Thing → List U8 → Py.PyRes Bool → Prop
  | .file w path, k, a => ∃ f, Stored env w path f ∧ Py.containsBytes env f k = a
  | .object f, k, a => Py.containsBytes env f k = a

end Poppy
