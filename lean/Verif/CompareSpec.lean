import Verif.Model.Bloom
import Mathlib.Order.WithBot

/-!
# Vocabulary for comparing parameters (C125)
-/

namespace Spec

open Poppy

/-- Where a floating point number is on the extended line; NaN is nowhere. -/
def place : FVal → Option (WithBot (WithTop ℚ))
  | .nan => none
  | .ninf => some ⊥
  | .pinf => some ((⊤ : WithTop ℚ) : WithBot (WithTop ℚ))
  | .fin q => some ((q : WithTop ℚ) : WithBot (WithTop ℚ))

/-- The number with bits `a` is left of the number with bits `b`. -/
def Below (a b : F64) : Prop :=
  ∃ x y, place (FVal.ofBits a) = some x ∧ place (FVal.ofBits b) = some y ∧ x < y

/-- Both numbers are at the same place. -/
def SamePlace (a b : F64) : Prop :=
  ∃ x, place (FVal.ofBits a) = some x ∧ place (FVal.ofBits b) = some x

/-- The optimization levels, from the lowest. -/
def levels : List OptLevel := [.none, .space, .speed, .best]

/-- Version before capacity before probability before optimization level. -/
def Before (p q : Params) : Prop :=
  p.version.toNat < q.version.toNat ∨
  p.version = q.version ∧
    (p.capacity.toNat < q.capacity.toNat ∨
     p.capacity = q.capacity ∧
       (Below p.fpp q.fpp ∨
        SamePlace p.fpp q.fpp ∧ levels.idxOf p.opt < levels.idxOf q.opt))

/-- `0.0` and `-0.0` -/
def isZero (b : F64) : Prop := b = 0x0000000000000000#64 ∨ b = 0x8000000000000000#64

end Spec
