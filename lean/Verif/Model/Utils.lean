import Verif.Model.Sizing

/-!
# Model of `poppy/src/utils.rs` (`ByteSize`, `Stats`)

`benchmark` and `time_it_once` (`utils.rs:133-162`) are modelled in `Verif/Model/Statrs.lean`.
-/

namespace Poppy

/-- `utils.rs:48` -/
def KILO : U64 := 1#64 <<< 10
/-- `utils.rs:49` -/
def MEGA : U64 := 1#64 <<< 20
/-- `utils.rs:50` -/
def GIGA : U64 := 1#64 <<< 30

/-- `utils.rs:21-26` `enum ByteSize` -/
inductive ByteSize where
  | bytes (b : U64)
  | kilo (b : U64)
  | mega (b : U64)
  | giga (b : U64)
  deriving DecidableEq

namespace ByteSize

/-- `utils.rs:65-75` `from_bytes` -/
def fromBytes (b : U64) : ByteSize :=
  if b < KILO then .bytes b
  else if b < MEGA then .kilo b
  else if b < GIGA then .mega b
  else .giga b

/-- `utils.rs:60-62` `from_bits` -/
def fromBits (b : U64) : ByteSize := fromBytes (b / 8#64)

/-- `utils.rs:78-80` `from_mb` -/
def fromMb (debug : Bool) (mb : U64) : Res ByteSize := do
  let b ← mulU64 debug mb MEGA
  .ok (fromBytes b)

/-- `utils.rs:83-90` `unit_str` -/
def unitStr : ByteSize → String
  | .bytes _ => "B"
  | .kilo _ => "KB"
  | .mega _ => "MB"
  | .giga _ => "GB"

/-- `utils.rs:93-100` `in_bytes` -/
def inBytes : ByteSize → U64
  | .bytes b => b
  | .kilo b => b
  | .mega b => b
  | .giga b => b

/-- `utils.rs:103-110` `in_mb` -/
def inMb : ByteSize → FVal
  | .bytes b => FVal.div (FVal.ofU64 b) (FVal.ofU64 MEGA)
  | .kilo b => FVal.div (FVal.ofU64 b) (FVal.ofU64 MEGA)
  | .mega b => FVal.div (FVal.ofU64 b) (FVal.ofU64 MEGA)
  | .giga b => FVal.div (FVal.ofU64 b) (FVal.ofU64 MEGA)

/-- `utils.rs:113-120` `as_bytes` -/
def asBytes : ByteSize → ByteSize
  | .bytes b => .bytes b
  | .kilo b => .bytes b
  | .mega b => .bytes b
  | .giga b => .bytes b

/-- `utils.rs:123-130` `in_unit` -/
def inUnit : ByteSize → FVal
  | .bytes b => FVal.ofU64 b
  | .kilo b => FVal.div (FVal.ofU64 b) (FVal.ofU64 KILO)
  | .mega b => FVal.div (FVal.ofU64 b) (FVal.ofU64 MEGA)
  | .giga b => FVal.div (FVal.ofU64 b) (FVal.ofU64 GIGA)

/-- `utils.rs:36-40` `PartialEq::eq` -/
def eq (a b : ByteSize) : Bool := a.inBytes == b.inBytes

/-- `utils.rs:42-46` `PartialOrd::partial_cmp` (always `Some`) -/
def cmp (a b : ByteSize) : Ordering := compare a.inBytes.toNat b.inBytes.toNat

/-- `utils.rs:30-34` `Hash::hash`: the calls to `write` it makes (`usize` little-endian) -/
def hashWrites (a : ByteSize) : List (List U8) := [u64ToLe a.inBytes]

/-- `utils.rs:52-56` `Display`; `fmt1` is the standard library's `{:.1}` formatting. -/
def display (fmt1 : FVal → String) (a : ByteSize) : String := fmt1 a.inUnit ++ a.unitStr

end ByteSize

/-- `utils.rs:164-171` `struct Stats` -/
structure Stats where
  fp : FVal
  tp : FVal
  tn : FVal
  fn : FVal
  total : U64

namespace Stats

/-- `utils.rs:174-176` `new` (`Default`) -/
def new : Stats := ⟨.fin 0, .fin 0, .fin 0, .fin 0, 0⟩

/-- `utils.rs:178-180` `fp_rate` -/
def fpRate (s : Stats) : FVal := FVal.div s.fp (FVal.add s.tn s.fp)

/-- `utils.rs:182-185` `inc_tp`.  Simplification, here and below: `total += 1` wraps in the
model (it would need `2^64` events to overflow). -/
def incTp (s : Stats) : Stats := { s with tp := FVal.add s.tp .one, total := s.total + 1 }

/-- `utils.rs:187-190` `inc_fn` -/
def incFn (s : Stats) : Stats := { s with fn := FVal.add s.fn .one, total := s.total + 1 }

/-- `utils.rs:192-195` `inc_fp` -/
def incFp (s : Stats) : Stats := { s with fp := FVal.add s.fp .one, total := s.total + 1 }

/-- `utils.rs:197-200` `inc_tn` -/
def incTn (s : Stats) : Stats := { s with tn := FVal.add s.tn .one, total := s.total + 1 }

end Stats

/-- `Duration::as_secs_f64` of a duration in nanoseconds (`utils.rs:141`, `poppy.rs:526`,
`poppy.rs:535`) -/
def Cli.asSecs (ns : Nat) : FVal :=
  FVal.add (FVal.ofU64 (BitVec.ofNat 64 (ns / 10 ^ 9)))
    (FVal.div (FVal.ofU64 (BitVec.ofNat 64 (ns % 10 ^ 9))) (.fin (10 ^ 9)))

end Poppy
