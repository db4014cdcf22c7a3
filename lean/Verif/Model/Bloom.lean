import Verif.Model.V1
import Verif.Model.V2

/-!
# Model of the version independent filter (`poppy/src/bloom.rs`)
-/

namespace Poppy

/-- `bloom.rs:10` -/
def DEFAULT_VERSION : U8 := 2#8

/-- `bloom.rs:129-139` `struct Params` -/
structure Params where
  version : U8
  capacity : U64
  fpp : F64
  opt : OptLevel
  deriving DecidableEq

/-- `bloom.rs:183-200` `enum BloomFilter` -/
inductive Bloom where
  | v1 (b : V1)
  | v2 (b : V2)
  deriving DecidableEq

namespace Bloom

/-- `bloom.rs:204-215` `with_version_capacity_opt` -/
def withVersionCapacityOpt (env : Env) (version : U8) (cap : U64) (fpp : F64) (opt : OptLevel) :
    Res Bloom :=
  if version = 1#8 then (V1.withCapacity env cap fpp).map .v1
  else if version = 2#8 then (V2.make env cap fpp opt).map .v2
  else .err (.invalidVersion version)

/-- `bloom.rs:218-220` `with_version_capacity` -/
def withVersionCapacity (env : Env) (version : U8) (cap : U64) (fpp : F64) : Res Bloom :=
  withVersionCapacityOpt env version cap fpp .none

/-- `bloom.rs:223-225` `with_capacity` -/
def withCapacity (env : Env) (cap : U64) (fpp : F64) : Res Bloom :=
  (V2.withCapacity env cap fpp).map .v2

/-- `bloom.rs:277-282` `insert_bytes` -/
def insertBytes (env : Env) (f : Bloom) (data : List U8) : Bloom × Res Bool :=
  match f with
  | .v1 b => match b.insertBytes env data with | (b, r) => (.v1 b, r)
  | .v2 b => match b.insertBytes env data with | (b, r) => (.v2 b, r)

/-- `bloom.rs:286-291` `contains_bytes` -/
def containsBytes (env : Env) (f : Bloom) (data : List U8) : Res Bool :=
  match f with
  | .v1 b => b.containsBytes data
  | .v2 b => b.containsBytes env data

/-- `bloom.rs:228-233` `fill` -/
def fill (env : Env) (f : Bloom) : List (List U8) → Bloom × Res Unit
  | [] => (f, .ok ())
  | entry :: dataset =>
    match f.insertBytes env entry with
    | (f, .ok _) => f.fill env dataset
    | (f, .err e) => (f, .err e)
    | (f, .panic) => (f, .panic)

/-- `bloom.rs:239-251` and `bloom.rs:260-272`: the body of both readers. -/
def fromReaderAux (env : Env) (partialRead : Bool) : Reader → Res Bloom := fun r =>
  match readFlags r with
  | .ok (flags, r) =>
    if flags.version = 1#8 then (V1.fromReaderWithFlags env flags partialRead r).map .v1
    else if flags.version = 2#8 then (V2.fromReaderWithFlags env flags partialRead r).map .v2
    else .err (.invalidVersion flags.version)
  | .err e => .err e
  | .panic => .panic

/-- `bloom.rs:238-252` `from_reader` -/
def fromReader (env : Env) : Reader → Res Bloom := fromReaderAux env false

/-- `bloom.rs:259-273` `partial_from_reader` -/
def partialFromReader (env : Env) : Reader → Res Bloom := fromReaderAux env true

/-- `bloom.rs:295-300` `write` -/
def write (f : Bloom) (s : Sink) : Sink × Res Unit :=
  match f with
  | .v1 b => b.write s
  | .v2 b => b.write s

/-- `bloom.rs:304-309` `version` -/
def version : Bloom → U8
  | .v1 _ => 1#8
  | .v2 _ => 2#8

/-- `bloom.rs:313-323` `has_same_params`; the `unreachable!()` arm is a panic. -/
def hasSameParams (s o : Bloom) : Res Bool :=
  if s.version ≠ o.version then .ok false
  else
    match s, o with
    | .v1 s, .v1 o => .ok (s.hasSameParams o)
    | .v2 s, .v2 o => .ok (s.hasSameParams o)
    | _, _ => .panic

/-- `bloom.rs:328-340` `union_merge` -/
def unionMerge (env : Env) (s o : Bloom) : Bloom × Res Unit :=
  match s.hasSameParams o with
  | .ok false => (s, .err (.merge "cannot merge filters with different parameters"))
  | .ok true =>
    match s, o with
    | .v1 s, .v1 o => match s.unionMerge env o with | (s, r) => (.v1 s, r)
    | .v2 s, .v2 o => match s.unionMerge env o with | (s, r) => (.v2 s, r)
    | s, _ => (s, .panic)
  | .err e => (s, .err e)
  | .panic => (s, .panic)

/-- `bloom.rs:344-356` `count_common_entries` -/
def countCommonEntries (env : Env) (s o : Bloom) : Res U64 :=
  match s.hasSameParams o with
  | .ok false => .err (.merge "cannot compare filters with different parameters")
  | .ok true =>
    match s, o with
    | .v1 s, .v1 o => s.countCommonEntries env o
    | .v2 s, .v2 o => s.countCommonEntries env o
    | _, _ => .panic
  | .err e => .err e
  | .panic => .panic

/-- `bloom.rs:360-365` `capacity` -/
def capacity : Bloom → U64
  | .v1 b => b.capacity
  | .v2 b => b.capacity

/-- `bloom.rs:368-373` `clear` -/
def clear : Bloom → Bloom
  | .v1 b => .v1 b.clear
  | .v2 b => .v2 b.clear

/-- `bloom.rs:377-382` `fpp` -/
def fpp : Bloom → F64
  | .v1 b => b.fpp
  | .v2 b => b.fpp

/-- `bloom.rs:386-391` `size_in_bytes` -/
def sizeInBytes (env : Env) : Bloom → Res U64
  | .v1 b => b.sizeInBytes env
  | .v2 b => b.sizeInBytes env

/-- `bloom.rs:395-400` `count_estimate` -/
def countEstimate : Bloom → U64
  | .v1 b => b.countEstimate
  | .v2 b => b.countEstimate

/-- `bloom.rs:403-408` `is_full` -/
def isFull : Bloom → Bool
  | .v1 b => b.isFull
  | .v2 b => b.isFull

/-- `bloom.rs:412-417` `data` -/
def data : Bloom → List U8
  | .v1 b => b.data
  | .v2 b => b.data

/-- `bloom.rs:449-451` `bloom!(cap, proba)` -/
def macroNew (env : Env) (cap : U64) (proba : F64) : Res Bloom := (withCapacity env cap proba).unwrap

/-- `$(b.insert_bytes($values).unwrap();)*` (`bloom.rs:456`) -/
def macroInsert (env : Env) (b : Bloom) : List (List U8) → Res Bloom
  | [] => .ok b
  | v :: vs =>
    match b.insertBytes env v with
    | (b, .ok _) => b.macroInsert env vs
    | (_, _) => .panic

/-- `bloom.rs:453-459` `bloom!(cap, proba, [values])` -/
def macroFill (env : Env) (cap : U64) (proba : F64) (values : List (List U8)) : Res Bloom := do
  let b ← macroNew env cap proba
  b.macroInsert env values

end Bloom

namespace Params

/-- `bloom.rs:144-151` `new` -/
def new (capacity : U64) (fpp : F64) : Params := ⟨DEFAULT_VERSION, capacity, fpp, .none⟩

/-- `bloom.rs:154-157` `version` -/
def withVersion (p : Params) (version : U8) : Params := { p with version := version }

/-- `bloom.rs:160-163` `opt` -/
def withOpt (p : Params) (opt : OptLevel) : Params := { p with opt := opt }

/-- `bloom.rs:166-168` `try_into_v1`, through `v1.rs:94-99` `TryFrom<Params>` -/
def tryIntoV1 (env : Env) (p : Params) : Res V1 := V1.withCapacity env p.capacity p.fpp

/-- `bloom.rs:171-173` `try_into_v2`, through `v2.rs:157-162` `TryFrom<Params>` -/
def tryIntoV2 (env : Env) (p : Params) : Res V2 := V2.make env p.capacity p.fpp p.opt

/-- `bloom.rs:176-181` `TryFrom<Params> for BloomFilter` -/
def tryInto (env : Env) (p : Params) : Res Bloom :=
  Bloom.withVersionCapacityOpt env p.version p.capacity p.fpp p.opt

end Params

end Poppy
