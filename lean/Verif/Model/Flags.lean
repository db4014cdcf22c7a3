import Verif.Model.Io
import Verif.Model.Sizing

/-!
# Model of `Flags`, `OptLevel` (`poppy/src/bloom.rs`)
-/

namespace Poppy

/-- `bloom.rs:53-60` `enum OptLevel` -/
inductive OptLevel where
  | none | space | speed | best
  deriving DecidableEq, Repr

/-- `OptLevel as u8` (`bloom.rs:41`): discriminants 0..3 -/
def OptLevel.toU8 : OptLevel → U8
  | .none => 0#8
  | .space => 1#8
  | .speed => 2#8
  | .best => 3#8

/-- `bloom.rs:85-96` `TryFrom<u8> for OptLevel` -/
def OptLevel.tryFrom (v : U8) : Res OptLevel :=
  if v = OptLevel.none.toU8 then .ok .none
  else if v = OptLevel.space.toU8 then .ok .space
  else if v = OptLevel.speed.toU8 then .ok .speed
  else if v = OptLevel.best.toU8 then .ok .best
  else .err (.optLevel v)

/-- `bloom.rs:62-71` `as_str`, printed by `Display` (`bloom.rs:73-77`) -/
def OptLevel.asStr : OptLevel → String
  | .none => "none"
  | .space => "space"
  | .speed => "speed"
  | .best => "best"

/-- `bloom.rs:12-18` `struct Flags` -/
structure Flags where
  version : U8
  opt : OptLevel
  /-- six bytes -/
  reserved : List U8
  deriving DecidableEq

/-- `bloom.rs:27-33` `Flags::new` -/
def Flags.new (version : U8) : Flags := ⟨version, .none, List.replicate 6 0#8⟩

/-- `bloom.rs:35-38` `Flags::opt` -/
def Flags.withOpt (f : Flags) (o : OptLevel) : Flags := { f with opt := o }

/-- `bloom.rs:40-42` `Flags::to_bytes` -/
def Flags.toBytes (f : Flags) : List U8 :=
  [f.version, f.opt.toU8, 0#8, 0#8, 0#8, 0#8, 0#8, 0#8]

/-- `bloom.rs:44-50` `Flags::from_bytes`.  The argument is an array of 8 bytes; other lengths
do not occur. -/
def Flags.fromBytes (bytes : List U8) : Res Flags :=
  match bytes with
  | [b0, b1, b2, b3, b4, b5, b6, b7] =>
    match OptLevel.tryFrom b1 with
    | .ok o => .ok ⟨b0, o, [b2, b3, b4, b5, b6, b7]⟩
    | .err e => .err e
    | .panic => .panic
  | _ => .panic

/-- `bloom.rs:20-24` `read_flags` -/
def readFlags : ReadM Flags := fun r =>
  match readExact 8 r with
  | .ok (bs, r) =>
    match Flags.fromBytes bs with
    | .ok f => .ok (f, r)
    | .err e => .err e
    | .panic => .panic
  | .err e => .err e
  | .panic => .panic

end Poppy
