import Verif.AbstractBloom
import Verif.Refine

/-!
# Filters of either version as abstract filters

What the abstract filters of `Verif/AbstractBloom.lean` stand for, and programs on the filters of the
model.
-/

namespace Poppy

open Abs (Answer BOp)

/-- The abstract filter of a filter. -/
def Bloom.view : Bloom → Abs.F
  | .v1 f => .v1 f.view
  | .v2 f => .v2 f.view

/-- The parameters of the abstract machine: keys are byte strings. -/
def Bloom.machine (env : Env) : Abs.Machine where
  c1 := V1.cfg env
  c2 :=
    { h1 := fun k => (V2.cfg env).h1 (.slice k)
      h2 := fun k => (V2.cfg env).h2 (.slice k)
      sizes := (V2.cfg env).sizes
      est := (V2.cfg env).est
      checked := (V2.cfg env).checked }
  limit := env.allocLimit

/-- One step of a program on filters of either version. -/
def Bloom.step (env : Env) (σ : ℕ → Bloom) : BOp → (ℕ → Bloom) × Answer
  | .make r v cap fpp opt => Abs.put σ r (Bloom.withVersionCapacityOpt env v cap fpp opt)
  | .load r bs => Abs.put σ r (Bloom.fromReader env (Reader.ofBytes bs))
  | .clone r s => (Abs.set σ r (σ s), .done)
  | .insert r k => (Abs.set σ r ((σ r).insertBytes env k).1, ((σ r).insertBytes env k).2.answer .bool)
  | .fill r ks => (Abs.set σ r ((σ r).fill env ks).1, ((σ r).fill env ks).2.answer fun _ => .done)
  | .contains r k => (σ, ((σ r).containsBytes env k).answer .bool)
  | .clear r => (Abs.set σ r (σ r).clear, .done)
  | .union r s => (Abs.set σ r ((σ r).unionMerge env (σ s)).1,
      ((σ r).unionMerge env (σ s)).2.answer fun _ => .done)
  | .common r s => (σ, ((σ r).countCommonEntries env (σ s)).answer fun n => .num n.toNat)
  | .same r s => (σ, ((σ r).hasSameParams (σ s)).answer .bool)
  | .setData r d => (Abs.set σ r ((σ r).setData d), .done)
  | .data r => (σ, .bytes (σ r).data)
  | .version r => (σ, .num (σ r).version.toNat)
  | .cap r => (σ, .num (σ r).capacity.toNat)
  | .fpp r => (σ, .num (σ r).fpp.toNat)
  | .isFull r => (σ, .bool (σ r).isFull)
  | .count r => (σ, .num (σ r).countEstimate.toNat)
  | .size r => (σ, ((σ r).sizeInBytes env).answer fun n => .num n.toNat)
  | .file r => (σ, .bytes (σ r).file)
  | .reload r s => Abs.put σ r (Bloom.fromReader env (Reader.ofBytes (σ s).file))

end Poppy
