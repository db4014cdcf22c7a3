import Verif.Abstract
import Verif.History

/-!
# Filters of the model as abstract filters

What each abstract filter (`Verif/Abstract.lean`) stands for, and programs on the filters of the
model.
-/

namespace Poppy

open Abs (Answer Op Cfg)

/-- The abstract filter of a v2 filter. -/
def V2.view (f : V2) : Abs.F2 :=
  ⟨f.flags, f.capacity.toNat, f.fpp, f.nHashBuck.toNat, f.buckets.length,
    f.indexCache.asSlice.length, f.count.toNat, f.bucketBit, Spec.bitAt f.indexCache.asSlice, f.data⟩

/-- The abstract filter of a v1 filter. -/
def V1.view (f : V1) : Abs.F1 :=
  ⟨f.flags, f.capacity.toNat, f.fpp, f.nHash.toNat, f.bitSize.toNat, f.bitset.length, f.count.toNat,
    Spec.bitAt f.bitset, f.data⟩

/-- The parameters of the abstract machine for v2 filters: WyHash of the key, and of the big-endian
bytes of that hash; the sizes and the formula of the estimate are those of the code. -/
def V2.cfg (env : Env) : Cfg Key where
  h1 k := (k.hashPop env.wy).toNat
  h2 k := (digest env.wy (u64ToBe (k.hashPop env.wy))).toNat
  sizes cap fpp opt := (V2.make env cap fpp opt).map fun f =>
    (f.buckets.length, f.nHashBuck.toNat, f.indexCache.asSlice.length)
  est k m n := (estimateCount env.libm (BitVec.ofNat 64 m) (BitVec.ofNat 64 n)
    (BitVec.ofNat 64 k)).toNat
  checked := env.debug

/-- The parameters of the abstract machine for v1 filters (the hash of the key is part of
`Spec.dcsoProbe`). -/
def V1.cfg (env : Env) : Cfg (List U8) where
  h1 _ := 0
  h2 _ := 0
  sizes cap fpp _ := (V1.withCapacity env cap fpp).map fun f =>
    (f.bitSize.toNat, f.nHash.toNat, f.bitset.length)
  est k m n := (estimateCount env.libm (BitVec.ofNat 64 m) (BitVec.ofNat 64 n)
    (BitVec.ofNat 64 k)).toNat
  checked := env.debug

/-- The answer for a result. -/
def Res.answer {α : Type} (r : Res α) (f : α → Answer) : Answer :=
  match r with
  | .ok a => f a
  | .err e => .err e
  | .panic => .panic

/-- One step of a program on v2 filters. -/
def V2.step (env : Env) (σ : ℕ → V2) : Op Key → (ℕ → V2) × Answer
  | .make r cap fpp opt => Abs.put σ r (V2.make env cap fpp opt)
  | .clone r s => (Abs.set σ r (σ s), .done)
  | .insert r k => (Abs.set σ r ((σ r).insert env k).1, ((σ r).insert env k).2.answer .bool)
  | .contains r k => (σ, ((σ r).contains env k).answer .bool)
  | .clear r => (Abs.set σ r (σ r).clear, .done)
  | .union r s => (Abs.set σ r ((σ r).unionMerge env (σ s)).1,
      ((σ r).unionMerge env (σ s)).2.answer fun _ => .done)
  | .inter r s => (Abs.set σ r ((σ r).intersectionMerge env (σ s)).1,
      ((σ r).intersectionMerge env (σ s)).2.answer fun _ => .done)
  | .common r s => (σ, ((σ r).countCommonEntries env (σ s)).answer fun n => .num n.toNat)
  | .same r s => (σ, .bool ((σ r).hasSameParams (σ s)))
  | .setData r d => (Abs.set σ r { σ r with data := d }, .done)
  | .data r => (σ, .bytes (σ r).data)
  | .isFull r => (σ, .bool (σ r).isFull)
  | .count r => (σ, .num (σ r).countEstimate.toNat)
  | .ones r => (σ, .num (σ r).countOnes)
  | .zeros r => (σ, .num (σ r).countZeros)
  | .file r => (σ, .bytes (σ r).file)
  | .reload r => Abs.put σ r (V2.fromReader env (Reader.ofBytes (σ r).file))

/-- One step of a program on v1 filters.  There is no intersection. -/
def V1.step (env : Env) (σ : ℕ → V1) : Op (List U8) → (ℕ → V1) × Answer
  | .make r cap fpp _ => Abs.put σ r (V1.withCapacity env cap fpp)
  | .clone r s => (Abs.set σ r (σ s), .done)
  | .insert r k => (Abs.set σ r ((σ r).insertBytes env k).1,
      ((σ r).insertBytes env k).2.answer .bool)
  | .contains r k => (σ, ((σ r).containsBytes k).answer .bool)
  | .clear r => (Abs.set σ r (σ r).clear, .done)
  | .union r s => (Abs.set σ r ((σ r).unionMerge env (σ s)).1,
      ((σ r).unionMerge env (σ s)).2.answer fun _ => .done)
  | .inter _ _ => (σ, .done)
  | .common r s => (σ, ((σ r).countCommonEntries env (σ s)).answer fun n => .num n.toNat)
  | .same r s => (σ, .bool ((σ r).hasSameParams (σ s)))
  | .setData r d => (Abs.set σ r { σ r with data := d }, .done)
  | .data r => (σ, .bytes (σ r).data)
  | .isFull r => (σ, .bool (σ r).isFull)
  | .count r => (σ, .num (σ r).countEstimate.toNat)
  | .ones r => (σ, .num (σ r).countOnes)
  | .zeros r => (σ, .num (σ r).countZeros)
  | .file r => (σ, .bytes (σ r).file)
  | .reload r => Abs.put σ r (V1.fromReader env (Reader.ofBytes (σ r).file))

end Poppy
