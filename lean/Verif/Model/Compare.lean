import Verif.Model.Bloom

/-!
# Model of the comparisons `#[derive(PartialEq, PartialOrd)]` writes for `OptLevel` and `Params`
(`poppy/src/bloom.rs:53`, `poppy/src/bloom.rs:129`)
-/

namespace Poppy

/-- `bloom.rs:53` `PartialOrd for OptLevel`: the order of the discriminants -/
def OptLevel.partialCmp (a b : OptLevel) : Option Ordering :=
  some (compare a.toU8.toNat b.toU8.toNat)

/-- `PartialOrd for f64` (standard library): from `a <= b` and `a >= b` -/
def FVal.partialCmp (a b : FVal) : Option Ordering :=
  match FVal.le a b, FVal.le b a with
  | false, false => none
  | false, true => some .gt
  | true, false => some .lt
  | true, true => some .eq

namespace Params

/-- `bloom.rs:129` `PartialEq for Params`: all fields are `==` -/
def eq (p q : Params) : Bool :=
  p.version == q.version && p.capacity == q.capacity &&
    FVal.feq (FVal.ofBits p.fpp) (FVal.ofBits q.fpp) && p.opt == q.opt

/-- `bloom.rs:129` `PartialOrd for Params`: the first field that is not equal decides, in the order
of the declaration (`bloom.rs:131-138`) -/
def partialCmp (p q : Params) : Option Ordering :=
  match some (compare p.version.toNat q.version.toNat) with
  | some .eq =>
    match some (compare p.capacity.toNat q.capacity.toNat) with
    | some .eq =>
      match FVal.partialCmp (FVal.ofBits p.fpp) (FVal.ofBits q.fpp) with
      | some .eq => OptLevel.partialCmp p.opt q.opt
      | c => c
    | c => c
  | c => c

/-- `<` as derived from `partial_cmp` -/
def lt (p q : Params) : Bool := p.partialCmp q == some .lt

end Params

end Poppy
