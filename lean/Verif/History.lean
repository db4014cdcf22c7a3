import Verif.Model.Bloom
import Verif.Model.Utils
import Verif.Spec

/-!
# Histories of filters

Vocabulary of the properties: which filters can be obtained through the public interface, and
what can happen to a filter.  A step may have any outcome (success, error, or a panic caught by
the caller): the state it leaves is what counts.
-/

namespace Poppy

namespace V2

/-- Filters obtainable through the interface: built, or loaded from any accepted file, then
modified by any operations. -/
inductive Reach (env : Env) : V2 → Prop
  | make {cap fpp opt f} : V2.make env cap fpp opt = .ok f → Reach env f
  | load {bs f} : V2.fromReader env (Reader.ofBytes bs) = .ok f → Reach env f
  | insertIter {f} (it : IndexIterator) : Reach env f → Reach env (f.insertIter env it).1
  | union {f} (o : V2) : Reach env f → Reach env (f.unionMerge env o).1
  | inter {f} (o : V2) : Reach env f → Reach env (f.intersectionMerge env o).1
  | clear {f} : Reach env f → Reach env f.clear
  | setData {f} (d : List U8) : Reach env f → Reach env { f with data := d }

/-- The file written by `write` to a writer that never fails. -/
def file (f : V2) : List U8 := (f.write ⟨[], none⟩).1.out

/-- Filters derived from a constructor only: modified by any operations, and possibly written and
read back. -/
inductive Built (env : Env) : V2 → Prop
  | make {cap fpp opt f} : V2.make env cap fpp opt = .ok f → Built env f
  | insertIter {f} (it : IndexIterator) : Built env f → Built env (f.insertIter env it).1
  | union {f} (o : V2) : Built env f → Built env (f.unionMerge env o).1
  | inter {f} (o : V2) : Built env f → Built env (f.intersectionMerge env o).1
  | clear {f} : Built env f → Built env f.clear
  | setData {f} (d : List U8) : Built env f → Built env { f with data := d }
  | reload {f g} : Built env f → V2.fromReader env (Reader.ofBytes f.file) = .ok g → Built env g

/-- Steps that must not remove the key `k`: everything except `clear` and intersections with
filters that do not contain `k`. -/
inductive Keep (env : Env) (k : Key) : V2 → V2 → Prop
  | insert {f} (key : Key) : Keep env k f (f.insert env key).1
  | insertIter {f} (it : IndexIterator) : Keep env k f (f.insertIter env it).1
  | union {f} (o : V2) : Keep env k f (f.unionMerge env o).1
  | inter {f} (o : V2) : o.contains env k = .ok true → Keep env k f (f.intersectionMerge env o).1
  | setData {f} (d : List U8) : Keep env k f { f with data := d }
  | reload {f g} : V2.fromReader env (Reader.ofBytes f.file) = .ok g → Keep env k f g

/-- Any number of such steps. -/
inductive Keeps (env : Env) (k : Key) : V2 → V2 → Prop
  | refl {f} : Keeps env k f f
  | step {f g h} : Keeps env k f g → Keep env k g h → Keeps env k f h

/-- Insert a list of keys, whatever the outcome of each. -/
def inserts (env : Env) (f : V2) : List Key → V2
  | [] => f
  | k :: ks => inserts env (f.insert env k).1 ks

/-- The keys of a list whose insertion returns `Ok(true)`, inserting them in order. -/
def accepted (env : Env) (f : V2) : List Key → List Key
  | [] => []
  | k :: ks =>
    match f.insert env k with
    | (g, .ok true) => k :: accepted env g ks
    | (g, _) => accepted env g ks

/-- Every insertion of the list succeeds (new key or not). -/
def AllOk (env : Env) (f : V2) : List Key → Prop
  | [] => True
  | k :: ks => (∃ b, (f.insert env k).2 = .ok b) ∧ AllOk env (f.insert env k).1 ks

/-- Merge a list of filters into `f`, one after the other, stopping at the first failure. -/
def unionAll (env : Env) (f : V2) : List V2 → V2 × Res Unit
  | [] => (f, .ok ())
  | g :: gs =>
    match f.unionMerge env g with
    | (h, .ok ()) => unionAll env h gs
    | (h, r) => (h, r)

/-- Bit `i` of bucket `b`; `false` beyond the end. -/
def bucketBit (f : V2) (b i : ℕ) : Bool :=
  Spec.bitAt (f.buckets.getD b (BitSet.new _)).asSlice i

/-- Number of a key's bucket. -/
def keyBucket (env : Env) (f : V2) (k : Key) : ℕ :=
  Spec.xorshift (k.hashPop env.wy).toNat % f.buckets.length

/-- Probed bit number `n` of a key, in its bucket. -/
def keyProbe (env : Env) (k : Key) (n : ℕ) : ℕ :=
  Spec.poppyProbe (k.hashPop env.wy).toNat (digest env.wy (u64ToBe (k.hashPop env.wy))).toNat n

/-- Probed bit number `n` of a key is set in the filter. -/
def keyBit (env : Env) (f : V2) (k : Key) (n : ℕ) : Bool :=
  f.bucketBit (f.keyBucket env k) (keyProbe env k n)

/-- Index cache bit of a key. -/
def keyCache (env : Env) (f : V2) (k : Key) : ℕ :=
  Nat.land (Spec.xorshift (k.hashPop env.wy).toNat) (f.indexCache.asSlice.length * 8 - 1)

/-- `Holds env f S`: the filter `f` comes from a history of insertions, unions, reloads and so on,
in which the keys successfully inserted (into it or filters merged into it) are `S`. -/
inductive Holds (env : Env) : V2 → List Key → Prop
  | make {cap fpp opt f} : V2.make env cap fpp opt = .ok f → Holds env f []
  | insert {f g S k b} : Holds env f S → f.insert env k = (g, .ok b) → Holds env g (k :: S)
  | rejected {f g S k e} : Holds env f S → f.insert env k = (g, .err e) → Holds env g S
  | union {f o g S T} : Holds env f S → Holds env o T → f.unionMerge env o = (g, .ok ()) →
      Holds env g (S ++ T)
  | refused {f o g S e} : Holds env f S → f.unionMerge env o = (g, .err e) → Holds env g S
  | clear {f S} : Holds env f S → f.indexCache.isEmpty = true → Holds env f.clear []
  | setData {f S} (d : List U8) : Holds env f S → Holds env { f with data := d } S
  | reload {f g S} : Holds env f S → V2.fromReader env (Reader.ofBytes f.file) = .ok g →
      Holds env g S

end V2

namespace V1

/-- Filters obtainable through the interface. -/
inductive Reach (env : Env) : V1 → Prop
  | make {cap fpp f} : V1.withCapacity env cap fpp = .ok f → Reach env f
  | load {bs f} : V1.fromReader env (Reader.ofBytes bs) = .ok f → Reach env f
  | insert {f} (k : List U8) : Reach env f → Reach env (f.insertBytes env k).1
  | union {f} (o : V1) : Reach env f → Reach env (f.unionMerge env o).1
  | clear {f} : Reach env f → Reach env f.clear
  | setData {f} (d : List U8) : Reach env f → Reach env { f with data := d }

/-- The file written by `write` to a writer that never fails. -/
def file (f : V1) : List U8 := (f.write ⟨[], none⟩).1.out

/-- Filters derived from a constructor only. -/
inductive Built (env : Env) : V1 → Prop
  | make {cap fpp f} : V1.withCapacity env cap fpp = .ok f → Built env f
  | insert {f} (k : List U8) : Built env f → Built env (f.insertBytes env k).1
  | union {f} (o : V1) : Built env f → Built env (f.unionMerge env o).1
  | clear {f} : Built env f → Built env f.clear
  | setData {f} (d : List U8) : Built env f → Built env { f with data := d }
  | reload {f g} : Built env f → V1.fromReader env (Reader.ofBytes f.file) = .ok g → Built env g

/-- Steps that must not remove any key: everything except `clear`. -/
inductive Keep (env : Env) : V1 → V1 → Prop
  | insert {f} (key : List U8) : Keep env f (f.insertBytes env key).1
  | union {f} (o : V1) : Keep env f (f.unionMerge env o).1
  | setData {f} (d : List U8) : Keep env f { f with data := d }
  | reload {f g} : V1.fromReader env (Reader.ofBytes f.file) = .ok g → Keep env f g

/-- Any number of such steps. -/
inductive Keeps (env : Env) : V1 → V1 → Prop
  | refl {f} : Keeps env f f
  | step {f g h} : Keeps env f g → Keep env g h → Keeps env f h

/-- Insert a list of keys, whatever the outcome of each. -/
def inserts (env : Env) (f : V1) : List (List U8) → V1
  | [] => f
  | k :: ks => inserts env (f.insertBytes env k).1 ks

/-- The keys of a list whose insertion returns `Ok(true)`, inserting them in order. -/
def accepted (env : Env) (f : V1) : List (List U8) → List (List U8)
  | [] => []
  | k :: ks =>
    match f.insertBytes env k with
    | (g, .ok true) => k :: accepted env g ks
    | (g, _) => accepted env g ks

/-- Every insertion of the list succeeds (new key or not). -/
def AllOk (env : Env) (f : V1) : List (List U8) → Prop
  | [] => True
  | k :: ks => (∃ b, (f.insertBytes env k).2 = .ok b) ∧ AllOk env (f.insertBytes env k).1 ks

/-- Merge a list of filters into `f`, one after the other, stopping at the first failure. -/
def unionAll (env : Env) (f : V1) : List V1 → V1 × Res Unit
  | [] => (f, .ok ())
  | g :: gs =>
    match f.unionMerge env g with
    | (h, .ok ()) => unionAll env h gs
    | (h, r) => (h, r)

/-- `Holds env f S`: the filter `f` comes from a history of insertions, unions, reloads and so on,
in which the keys successfully inserted (into it or filters merged into it) are `S`. -/
inductive Holds (env : Env) : V1 → List (List U8) → Prop
  | make {cap fpp f} : V1.withCapacity env cap fpp = .ok f → Holds env f []
  | insert {f g S k b} : Holds env f S → f.insertBytes env k = (g, .ok b) → Holds env g (k :: S)
  | rejected {f g S k e} : Holds env f S → f.insertBytes env k = (g, .err e) → Holds env g S
  | union {f o g S T} : Holds env f S → Holds env o T → f.unionMerge env o = (g, .ok ()) →
      Holds env g (S ++ T)
  | refused {f o g S e} : Holds env f S → f.unionMerge env o = (g, .err e) → Holds env g S
  | clear {f S} : Holds env f S → Holds env f.clear []
  | setData {f S} (d : List U8) : Holds env f S → Holds env { f with data := d } S
  | reload {f g S} : Holds env f S → V1.fromReader env (Reader.ofBytes f.file) = .ok g →
      Holds env g S

end V1

namespace Bloom

/-- Filters obtainable through the interface. -/
def Reach (env : Env) : Bloom → Prop
  | .v1 f => V1.Reach env f
  | .v2 f => V2.Reach env f

/-- The file written by `write` to a writer that never fails. -/
def file (f : Bloom) : List U8 := (f.write ⟨[], none⟩).1.out

/-- Same filter with other attached data. -/
def setData (d : List U8) : Bloom → Bloom
  | .v1 f => .v1 { f with data := d }
  | .v2 f => .v2 { f with data := d }

/-- Insert a list of keys, whatever the outcome of each. -/
def inserts (env : Env) (f : Bloom) : List (List U8) → Bloom
  | [] => f
  | k :: ks => inserts env (f.insertBytes env k).1 ks

/-- Every insertion of the list succeeds (new key or not). -/
def AllOk (env : Env) (f : Bloom) : List (List U8) → Prop
  | [] => True
  | k :: ks => (∃ b, (f.insertBytes env k).2 = .ok b) ∧ AllOk env (f.insertBytes env k).1 ks

/-- A filter that can store something: all but v1 filters of zero bits, which are made for large
false positive probabilities (`C02_bits`). -/
def HasBits : Bloom → Prop
  | .v1 f => f.bitSize ≠ 0
  | .v2 _ => True

end Bloom

namespace Stats

/-- Events counted by `Stats`. -/
inductive Event where
  | tp | fn | fp | tn
  deriving DecidableEq

/-- Record one event. -/
def record (s : Stats) : Event → Stats
  | .tp => s.incTp
  | .fn => s.incFn
  | .fp => s.incFp
  | .tn => s.incTn

end Stats

/-- `From env v cap fpp opt f`: the filter `f` was made by `with_version_capacity_opt` with these
arguments, and then modified by any operations, or written and read back, any number of times.
The operations may fail. -/
inductive Bloom.From (env : Env) (v : U8) (cap : U64) (fpp : F64) (opt : OptLevel) : Bloom → Prop
  | make {f} : Bloom.withVersionCapacityOpt env v cap fpp opt = .ok f → From env v cap fpp opt f
  | insert {f} (k : List U8) : From env v cap fpp opt f →
      From env v cap fpp opt (f.insertBytes env k).1
  | insertIter {f} (it : IndexIterator) : From env v cap fpp opt (.v2 f) →
      From env v cap fpp opt (.v2 (f.insertIter env it).1)
  | fill {f} (ks : List (List U8)) : From env v cap fpp opt f →
      From env v cap fpp opt (f.fill env ks).1
  | union {f} (o : Bloom) : From env v cap fpp opt f →
      From env v cap fpp opt (f.unionMerge env o).1
  | inter {f} (o : V2) : From env v cap fpp opt (.v2 f) →
      From env v cap fpp opt (.v2 (f.intersectionMerge env o).1)
  | clear {f} : From env v cap fpp opt f → From env v cap fpp opt f.clear
  | setData1 {f} (d : List U8) : From env v cap fpp opt (.v1 f) →
      From env v cap fpp opt (.v1 { f with data := d })
  | setData2 {f} (d : List U8) : From env v cap fpp opt (.v2 f) →
      From env v cap fpp opt (.v2 { f with data := d })
  | reload {f g} : From env v cap fpp opt f →
      Bloom.fromReader env (Reader.ofBytes f.file) = .ok g → From env v cap fpp opt g

end Poppy
