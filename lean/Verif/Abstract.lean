import Batteries.Data.Nat.Basic
import Mathlib.Algebra.BigOperators.Group.Finset.Basic
import Verif.Spec
import Verif.Model.Flags

/-!
# Abstract filters

A complete description of what a filter does, in terms of sets of bits instead of bytes, words,
masks and loops.  It uses no function of the model except the comparison of `f64`; the hashes of
the keys, the sizes chosen by the constructor and the estimates are parameters.
-/

namespace Abs

open Poppy (U8 U64 F64 Res Error Flags OptLevel FVal)

/-- What an operation reports. -/
inductive Answer where
  | done
  | bool (b : Bool)
  | num (n : ℕ)
  | bytes (l : List U8)
  | err (e : Error)
  | panic
  deriving DecidableEq

/-- The parameters of a machine. -/
structure Cfg (Key : Type) where
  /-- first hash of a key -/
  h1 : Key → ℕ
  /-- second hash of a key -/
  h2 : Key → ℕ
  /-- number of buckets (v2) or of bits (v1), of hash functions, and of bytes of the index cache
  (v2) or of words (v1), for a capacity, a probability and a level -/
  sizes : U64 → F64 → OptLevel → Res (ℕ × ℕ × ℕ)
  /-- estimated number of entries, from the number of hash functions, of bits, and of bits set -/
  est : ℕ → ℕ → ℕ → ℕ
  /-- overflows panic -/
  checked : Bool

/-- The bytes storing the bits `p`. -/
def pack (n : ℕ) (p : ℕ → Bool) : List U8 :=
  (List.range n).map fun i => BitVec.ofNat 8 (Nat.ofBits fun j : Fin 8 => p (8 * i + j))

/-- The words storing the bits `p`. -/
def words (n : ℕ) (p : ℕ → Bool) : List ℕ :=
  (List.range n).map fun i => Nat.ofBits fun j : Fin 64 => p (64 * i + j)

/-- The number of a level. -/
def level : OptLevel → ℕ
  | .none => 0
  | .space => 1
  | .speed => 2
  | .best => 3

/-! ## v2 -/

/-- A v2 filter. -/
structure F2 where
  flags : Flags
  cap : ℕ
  fpp : F64
  hashes : ℕ
  buckets : ℕ
  cacheBytes : ℕ
  count : ℕ
  /-- the bits of each bucket -/
  bits : ℕ → ℕ → Bool
  /-- the bits of the index cache -/
  cache : ℕ → Bool
  data : List U8

namespace F2

variable {Key : Type} (c : Cfg Key) (a b : F2) (k : Key)

/-- The bucket of a key. -/
def bucket : ℕ := Spec.xorshift (c.h1 k) % a.buckets

/-- The index cache bit of a key. -/
def slot : ℕ := Nat.land (Spec.xorshift (c.h1 k)) (a.cacheBytes * 8 - 1)

/-- The bits of a key. -/
def position (n : ℕ) : ℕ := Spec.poppyProbe (c.h1 k) (c.h2 k) n

/-- All bits of the key are set. -/
def covered : Bool := decide (∀ n < a.hashes, a.bits (a.bucket c k) (position c k n) = true)

/-- The bits of the key are set. -/
def mark : F2 :=
  { a with bits := fun b i => a.bits b i ||
      (decide (b = a.bucket c k) && decide (∃ n < a.hashes, i = position c k n)) }

/-- The index cache bit of the key is set, if there is an index cache. -/
def touch : F2 :=
  { a with cache := fun i => a.cache i || (decide (a.cacheBytes ≠ 0) && decide (i = a.slot c k)) }

/-- Insert a key. -/
def insert : F2 × Answer :=
  if a.cap = 0 then (a, .err .tooManyEntries)
  else if a.buckets = 0 then (a, .panic)
  else if a.covered c k then (a.touch c k, .bool false)
  else if a.count = a.cap then (a, .err .tooManyEntries)
  else if c.checked && decide (a.count = 2 ^ 64 - 1) then (a.mark c k, .panic)
  else ({ (a.mark c k).touch c k with count := (a.count + 1) % 2 ^ 64 }, .bool true)

/-- Is a key a member? -/
def contains : Answer :=
  if a.cap = 0 then .bool false
  else if a.cacheBytes ≠ 0 ∧ a.cache (a.slot c k) = false then .bool false
  else if a.buckets = 0 then .panic
  else .bool (a.covered c k)

/-- Remove all keys. -/
def clear : F2 := { a with bits := fun _ _ => false, count := 0 }

/-- May the filters be merged? -/
def same : Bool :=
  decide (a.flags = b.flags ∧ a.cap = b.cap ∧ a.cacheBytes = b.cacheBytes ∧
    FVal.feq (FVal.ofBits a.fpp) (FVal.ofBits b.fpp) = true ∧ a.hashes = b.hashes ∧
    a.buckets = b.buckets)

/-- Number of bits set in a bucket. -/
def onesIn (i : ℕ) : ℕ := Spec.countBelow 32768 (a.bits i)

/-- Estimated number of entries. -/
def estimate : ℕ := ∑ i ∈ Finset.range a.buckets, c.est a.hashes 32768 (a.onesIn i)

/-- Set the count to the estimate. -/
def recount : F2 × Answer :=
  if c.checked && decide (2 ^ 64 ≤ a.estimate c) then (a, .panic)
  else ({ a with count := a.estimate c % 2 ^ 64 }, .done)

/-- Merge. -/
def union : F2 × Answer :=
  if a.same b then
    recount c { a with
      bits := fun j i => a.bits j i || b.bits j i
      cache := fun i => a.cache i || b.cache i }
  else (a, .err (.merge "cannot make union of bloom filters with different parameters"))

/-- Keep what is in both. -/
def inter : F2 × Answer :=
  if a.same b then
    recount c { a with
      bits := fun j i => a.bits j i && b.bits j i
      cache := fun i => a.cache i && b.cache i }
  else (a, .err (.merge "cannot make intersection of bloom filters with different parameters"))

/-- Estimated number of common entries. -/
def common : Answer :=
  if a.same b then
    let n := estimate c { a with bits := fun j i => a.bits j i && b.bits j i }
    if c.checked && decide (2 ^ 64 ≤ n) then .panic else .num (n % 2 ^ 64)
  else .err (.merge "cannot compare filters with different parameters")

/-- Number of bits set. -/
def ones : ℕ := ∑ i ∈ Finset.range a.buckets, a.onesIn i

/-- The file. -/
def file : List U8 :=
  Spec.v2Bytes (level a.flags.opt) a.cap a.fpp.toNat a.hashes a.count (pack a.cacheBytes a.cache)
    ((List.range a.buckets).map fun j => pack 4096 (a.bits j)) a.data

end F2

/-- A new v2 filter. -/
def make2 {Key : Type} (c : Cfg Key) (cap : U64) (fpp : F64) (opt : OptLevel) : Res F2 :=
  (c.sizes cap fpp opt).map fun s =>
    ⟨⟨2, opt, [0, 0, 0, 0, 0, 0]⟩, cap.toNat, fpp, s.2.1, s.1, s.2.2, 0, fun _ _ => false,
      fun _ => false, []⟩

/-! ## v1 -/

/-- A v1 filter. -/
structure F1 where
  flags : Flags
  cap : ℕ
  fpp : F64
  hashes : ℕ
  size : ℕ
  words : ℕ
  count : ℕ
  bits : ℕ → Bool
  data : List U8

namespace F1

variable (c : Cfg (List U8)) (a b : F1) (k : List U8)

/-- All bits of the key are set. -/
def covered : Bool := decide (∀ n < a.hashes, a.bits (Spec.dcsoProbe k a.size n) = true)

/-- Insert a key. -/
def insert : F1 × Answer :=
  if a.cap = 0 then (a, .err .tooManyEntries)
  else if a.size = 0 ∧ a.hashes ≠ 0 then (a, .panic)
  else if a.covered k then (a, .bool false)
  else if a.cap ≤ a.count then (a, .err .tooManyEntries)
  else
    ({ a with
        bits := fun i => a.bits i || decide (∃ n < a.hashes, i = Spec.dcsoProbe k a.size n)
        count := a.count + 1 }, .bool true)

/-- Is a key a member? -/
def contains : Answer := .bool (decide (a.size ≠ 0) && a.covered k)

/-- Remove all keys. -/
def clear : F1 := { a with bits := fun _ => false, count := 0 }

/-- May the filters be merged? -/
def same : Bool :=
  decide (a.flags = b.flags ∧ a.cap = b.cap ∧
    FVal.feq (FVal.ofBits a.fpp) (FVal.ofBits b.fpp) = true ∧ a.hashes = b.hashes ∧
    a.size = b.size ∧ a.words = b.words)

/-- Number of bits set. -/
def ones : ℕ := Spec.countBelow (a.words * 64) a.bits

/-- Merge. -/
def union : F1 × Answer :=
  if a.same b then
    let u := { a with bits := fun i => a.bits i || b.bits i }
    ({ u with count := c.est a.hashes a.size u.ones }, .done)
  else (a, .err (.merge "cannot make union of bloom filters with different parameters"))

/-- Estimated number of common entries. -/
def common : Answer :=
  if a.same b then .num (c.est a.hashes a.size (ones { a with bits := fun i => a.bits i && b.bits i }))
  else .err (.merge "cannot compare filters with different parameters")

/-- The file. -/
def file : List U8 :=
  Spec.v1Bytes a.cap a.fpp.toNat a.hashes a.size a.count (Abs.words a.words a.bits) a.data

end F1

/-- A new v1 filter. -/
def make1 (c : Cfg (List U8)) (cap : U64) (fpp : F64) : Res F1 :=
  (c.sizes cap fpp .none).map fun s =>
    ⟨⟨1, .none, [0, 0, 0, 0, 0, 0]⟩, cap.toNat, fpp, s.2.1, s.1, s.2.2, 0, fun _ => false, []⟩

/-! ## Programs -/

/-- The operations of a program on numbered filters. -/
inductive Op (Key : Type) where
  | make (r : ℕ) (cap : U64) (fpp : F64) (opt : OptLevel)
  | clone (r s : ℕ)
  | insert (r : ℕ) (k : Key)
  | contains (r : ℕ) (k : Key)
  | clear (r : ℕ)
  | union (r s : ℕ)
  | inter (r s : ℕ)
  | common (r s : ℕ)
  | same (r s : ℕ)
  | setData (r : ℕ) (d : List U8)
  | data (r : ℕ)
  | isFull (r : ℕ)
  | count (r : ℕ)
  | ones (r : ℕ)
  | zeros (r : ℕ)
  | file (r : ℕ)
  | reload (r : ℕ)

/-- Change one register. -/
def set {α : Type} (σ : ℕ → α) (r : ℕ) (x : α) : ℕ → α := fun i => if i = r then x else σ i

/-- Store a new value, if there is one. -/
def put {α : Type} (σ : ℕ → α) (r : ℕ) : Res α → (ℕ → α) × Answer
  | .ok a => (set σ r a, .done)
  | .err e => (σ, .err e)
  | .panic => (σ, .panic)

/-- Run a program, collecting the answers. -/
def run {α Op : Type} (step : (ℕ → α) → Op → (ℕ → α) × Answer) (σ : ℕ → α) :
    List Op → (ℕ → α) × List Answer
  | [] => (σ, [])
  | o :: os => ((run step (step σ o).1 os).1, (step σ o).2 :: (run step (step σ o).1 os).2)

/-- One step of a program on v2 filters. -/
def step2 {Key : Type} (c : Cfg Key) (σ : ℕ → F2) : Op Key → (ℕ → F2) × Answer
  | .make r cap fpp opt => put σ r (make2 c cap fpp opt)
  | .clone r s => (set σ r (σ s), .done)
  | .insert r k => (set σ r ((σ r).insert c k).1, ((σ r).insert c k).2)
  | .contains r k => (σ, (σ r).contains c k)
  | .clear r => (set σ r (σ r).clear, .done)
  | .union r s => (set σ r ((σ r).union c (σ s)).1, ((σ r).union c (σ s)).2)
  | .inter r s => (set σ r ((σ r).inter c (σ s)).1, ((σ r).inter c (σ s)).2)
  | .common r s => (σ, (σ r).common c (σ s))
  | .same r s => (σ, .bool ((σ r).same (σ s)))
  | .setData r d => (set σ r { σ r with data := d }, .done)
  | .data r => (σ, .bytes (σ r).data)
  | .isFull r => (σ, .bool (decide ((σ r).count = (σ r).cap)))
  | .count r => (σ, .num (σ r).count)
  | .ones r => (σ, .num (σ r).ones)
  | .zeros r => (σ, .num ((σ r).buckets * 32768 - (σ r).ones))
  | .file r => (σ, .bytes (σ r).file)
  | .reload r => (set σ r { σ r with flags := ⟨2, (σ r).flags.opt, [0, 0, 0, 0, 0, 0]⟩ }, .done)

/-- One step of a program on v1 filters.  There is no intersection. -/
def step1 (c : Cfg (List U8)) (σ : ℕ → F1) : Op (List U8) → (ℕ → F1) × Answer
  | .make r cap fpp _ => put σ r (make1 c cap fpp)
  | .clone r s => (set σ r (σ s), .done)
  | .insert r k => (set σ r ((σ r).insert k).1, ((σ r).insert k).2)
  | .contains r k => (σ, (σ r).contains k)
  | .clear r => (set σ r (σ r).clear, .done)
  | .union r s => (set σ r ((σ r).union c (σ s)).1, ((σ r).union c (σ s)).2)
  | .inter _ _ => (σ, .done)
  | .common r s => (σ, (σ r).common c (σ s))
  | .same r s => (σ, .bool ((σ r).same (σ s)))
  | .setData r d => (set σ r { σ r with data := d }, .done)
  | .data r => (σ, .bytes (σ r).data)
  | .isFull r => (σ, .bool (decide ((σ r).count = (σ r).cap)))
  | .count r => (σ, .num (σ r).count)
  | .ones r => (σ, .num (σ r).ones)
  | .zeros r => (σ, .num ((σ r).words * 64 - (σ r).ones))
  | .file r => (σ, .bytes (σ r).file)
  | .reload r => (set σ r { σ r with flags := ⟨1, .none, [0, 0, 0, 0, 0, 0]⟩ }, .done)

end Abs
