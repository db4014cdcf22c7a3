import Verif.Model.Cli

/-!
# Model of the Python bindings (`python/src/lib.rs`)

The conversion of arguments is modelled in `Verif/Model/PyCalls.lean`: here a Python `str` argument
arrives as its UTF-8 bytes.
-/

namespace Poppy
namespace Py

open Cli (World Path)

/-- Outcome of a Python call: a value, `ValueError` (from `poppy::Error`, `lib.rs:21-25`),
`OSError` (from `io::Error`), or `PanicException`. -/
inductive PyRes (α : Type) where
  | ok (a : α)
  | valueError (e : Error)
  | osError (e : Error)
  | panic

/-- `.map_err(Error::from)?` -/
def PyRes.ofRes {α : Type} : Res α → PyRes α
  | .ok a => .ok a
  | .err e => .valueError e
  | .panic => .panic

/-- `lib.rs:27-34` `loads` -/
def loads (env : Env) (bytes : List U8) : PyRes Bloom :=
  .ofRes (Bloom.fromReader env (Reader.ofBytes bytes))

/-- `lib.rs:36-42` `load` -/
def load (env : Env) (w : World) (path : Path) : PyRes Bloom :=
  match w.open path with
  | .ok r => .ofRes (Bloom.fromReader env r)
  | .err e => .osError e
  | .panic => .panic

/-- `lib.rs:46-52` `new` -/
def new (env : Env) (capacity : U64) (fpp : F64) : PyRes Bloom :=
  .ofRes (Bloom.withCapacity env capacity fpp)

/-- `lib.rs:54-62` `with_version` -/
def withVersion (env : Env) (version : U8) (capacity : U64) (fpp : F64) : PyRes Bloom :=
  .ofRes (Bloom.withVersionCapacity env version capacity fpp)

/-- `lib.rs:64-74` `with_params` -/
def withParams (env : Env) (version : U8) (capacity : U64) (fpp : F64) (opt : U8) : PyRes Bloom :=
  match OptLevel.tryFrom opt with
  | .ok o => .ofRes ((((Params.new capacity fpp).withVersion version).withOpt o).tryInto env)
  | .err e => .valueError e
  | .panic => .panic

/-- `lib.rs:76-79` `insert_bytes` -/
def insertBytes (env : Env) (f : Bloom) (data : List U8) : Bloom × PyRes Bool :=
  match f.insertBytes env data with | (f, r) => (f, .ofRes r)

/-- `lib.rs:81-84` `insert_str` -/
def insertStr (env : Env) (f : Bloom) (s : String) : Bloom × PyRes Bool :=
  match f.insertBytes env (s.toUTF8.data.toList.map UInt8.toBitVec) with | (f, r) => (f, .ofRes r)

/-- `lib.rs:86-89` `contains_bytes` -/
def containsBytes (env : Env) (f : Bloom) (data : List U8) : PyRes Bool :=
  .ofRes (f.containsBytes env data)

/-- `lib.rs:91-94` `contains_str` -/
def containsStr (env : Env) (f : Bloom) (s : String) : PyRes Bool :=
  .ofRes (f.containsBytes env (s.toUTF8.data.toList.map UInt8.toBitVec))

/-- `lib.rs:96-99` `is_full` -/
def isFull (f : Bloom) : Bool := f.isFull

/-- `lib.rs:101-105` `union_merge` -/
def unionMerge (env : Env) (f o : Bloom) : Bloom × PyRes Unit :=
  match f.unionMerge env o with | (f, r) => (f, .ofRes r)

/-- `lib.rs:107-110` `count_common_entries` -/
def countCommonEntries (env : Env) (f o : Bloom) : PyRes U64 :=
  .ofRes (f.countCommonEntries env o)

/-- `lib.rs:112-119` `dumps`: written to a growing memory buffer (never fails). -/
def dumps (f : Bloom) : PyRes (List U8) :=
  match f.write ⟨[], none⟩ with
  | (s, .ok ()) => .ok s.out
  | (_, .err e) => .valueError e
  | (_, .panic) => .panic

/-- `lib.rs:121-125` `save` -/
def save (w : World) (f : Bloom) (path : Path) : World × PyRes Unit :=
  match w.create path with
  | (w, .ok ()) =>
    match f.write ⟨[], w.disk⟩ with
    | (s, r) => (w.put path s.out, .ofRes r)
  | (w, .err e) => (w, .osError e)
  | (w, .panic) => (w, .panic)

/-! Getters (`lib.rs:129-152`) -/

/-- `lib.rs:129-132` `version` -/
def version (f : Bloom) : U8 := f.version

/-- `lib.rs:134-137` `capacity` -/
def capacity (f : Bloom) : U64 := f.capacity

/-- `lib.rs:139-142` `fpp` -/
def fpp (f : Bloom) : F64 := f.fpp

/-- `lib.rs:144-147` `count_estimate` -/
def countEstimate (f : Bloom) : U64 := f.countEstimate

/-- `lib.rs:149-152` `data` -/
def data (f : Bloom) : List U8 := f.data

end Py
end Poppy
