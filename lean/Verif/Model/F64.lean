import Mathlib.Data.Int.Log
import Mathlib.Data.Rat.Floor
import Mathlib.Algebra.Order.Field.Rat
import Verif.Model.Basic

/-!
# Model of `f64` arithmetic

IEEE-754 binary64 with round-to-nearest-even.  The sign of zero is not represented; see
DESIGN.md for why this is unobservable in the modelled code.  `ln`, `exp` and `powf` are
not specified by IEEE-754: they are parameters (`Libm`).
-/

namespace Poppy

/-- Value of an `f64`. -/
inductive FVal where
  | nan
  | pinf
  | ninf
  | fin (q : ℚ)
  deriving DecidableEq

/-- Round to nearest integer, ties to even. -/
def rneInt {K : Type} [Field K] [LinearOrder K] [FloorRing K] (y : K) : ℤ :=
  let f := ⌊y⌋
  let d := y - (f : K)
  if d < 1 / 2 then f
  else if 1 / 2 < d then f + 1
  else if f % 2 = 0 then f else f + 1

/-- Exponent of the unit in the last place of the binary64 numbers around `x`
(52 fraction bits, subnormals below `2^-1022`). -/
def ulpExp {K : Type} [Field K] [LinearOrder K] [FloorRing K] (x : K) : ℤ :=
  max (Int.log 2 |x|) (-1022) - 52

/-- Rounding to 53 bits of precision without upper exponent limit. -/
def rndQ {K : Type} [Field K] [LinearOrder K] [FloorRing K] (x : K) : ℚ :=
  (rneInt (x / (2 : K) ^ ulpExp x) : ℚ) * (2 : ℚ) ^ ulpExp x

/-- Largest finite binary64 exponent bound: results of magnitude `≥ 2^1024` overflow. -/
def f64Huge : ℚ := 2 ^ 1024

/-- IEEE-754 rounding of an exact value to binary64. -/
def rnd {K : Type} [Field K] [LinearOrder K] [FloorRing K] (x : K) : FVal :=
  let v := rndQ x
  if f64Huge ≤ v then .pinf else if v ≤ -f64Huge then .ninf else .fin v

namespace FVal

/-- Decode raw bits: sign, 11-bit exponent, 52-bit fraction. -/
def ofBits (b : F64) : FVal :=
  let neg := b.getLsbD 63
  let e : ℕ := b.toNat / 2 ^ 52 % 2048
  let m : ℕ := b.toNat % 2 ^ 52
  if e = 2047 then
    if m = 0 then (if neg then .ninf else .pinf) else .nan
  else
    let mag : ℚ := if e = 0 then (m : ℚ) * 2 ^ (-1074 : ℤ)
                   else ((2 ^ 52 + m : ℕ) : ℚ) * 2 ^ ((e : ℤ) - 1075)
    .fin (if neg then -mag else mag)

/-- `<=` on `f64` (false when either side is NaN). -/
def le : FVal → FVal → Bool
  | .nan, _ => false
  | _, .nan => false
  | .ninf, _ => true
  | _, .pinf => true
  | .pinf, _ => false
  | _, .ninf => false
  | .fin a, .fin b => decide (a ≤ b)

/-- `==` on `f64` (false when either side is NaN). -/
def feq (a b : FVal) : Bool := le a b && le b a

/-- unary minus -/
def neg : FVal → FVal
  | .nan => .nan
  | .pinf => .ninf
  | .ninf => .pinf
  | .fin q => .fin (-q)

/-- `f64::abs` -/
def abs : FVal → FVal
  | .nan => .nan
  | .pinf => .pinf
  | .ninf => .pinf
  | .fin q => .fin |q|

/-- `f64::ceil` (exact) -/
def ceil : FVal → FVal
  | .fin q => .fin (⌈q⌉ : ℤ)
  | x => x

/-- `f64::round`: nearest integer, ties away from zero (exact) -/
def round : FVal → FVal
  | .fin q => .fin (if 0 ≤ q then ((⌊q + 1 / 2⌋ : ℤ) : ℚ) else ((⌈q - 1 / 2⌉ : ℤ) : ℚ))
  | x => x

/-- `+` -/
def add : FVal → FVal → FVal
  | .fin a, .fin b => rnd (a + b)
  | .nan, _ => .nan
  | _, .nan => .nan
  | .pinf, .ninf => .nan
  | .ninf, .pinf => .nan
  | .pinf, _ => .pinf
  | _, .pinf => .pinf
  | .ninf, _ => .ninf
  | _, .ninf => .ninf

/-- `-` -/
def sub (a b : FVal) : FVal := add a (neg b)

/-- sign-aware infinity: `±∞` according to the sign of `q`, NaN for `0` -/
def infTimes (q : ℚ) : FVal := if 0 < q then .pinf else if q < 0 then .ninf else .nan

/-- `*` -/
def mul : FVal → FVal → FVal
  | .fin a, .fin b => rnd (a * b)
  | .nan, _ => .nan
  | _, .nan => .nan
  | .pinf, .pinf => .pinf
  | .ninf, .ninf => .pinf
  | .pinf, .ninf => .ninf
  | .ninf, .pinf => .ninf
  | .pinf, .fin q => infTimes q
  | .fin q, .pinf => infTimes q
  | .ninf, .fin q => infTimes (-q)
  | .fin q, .ninf => infTimes (-q)

/-- `/` ; a zero divisor is `+0` (see module comment). -/
def div : FVal → FVal → FVal
  | .fin a, .fin b => if b = 0 then infTimes a else rnd (a / b)
  | .nan, _ => .nan
  | _, .nan => .nan
  | .fin _, .pinf => .fin 0
  | .fin _, .ninf => .fin 0
  | .pinf, .fin q => if 0 ≤ q then .pinf else .ninf
  | .ninf, .fin q => if 0 ≤ q then .ninf else .pinf
  | .pinf, .pinf => .nan
  | .pinf, .ninf => .nan
  | .ninf, .pinf => .nan
  | .ninf, .ninf => .nan

/-- `u64 as f64` / `usize as f64`: round to nearest even. -/
def ofU64 (x : U64) : FVal := rnd ((x.toNat : ℕ) : ℚ)

/-- `f64 as u64` / `f64 as usize`: truncation towards zero, saturating, NaN gives `0`. -/
def toU64 : FVal → U64
  | .nan => 0
  | .pinf => BitVec.allOnes 64
  | .ninf => 0
  | .fin q => if ⌊q⌋ ≤ 0 then 0 else if (2 ^ 64 : ℤ) ≤ ⌊q⌋ then BitVec.allOnes 64
              else BitVec.ofNat 64 ⌊q⌋.toNat

end FVal

/-- The libm functions used by the code, as arbitrary functions on `f64` values. -/
structure Libm where
  ln : FVal → FVal
  exp : FVal → FVal
  powf : FVal → FVal → FVal

/-- `f64::MIN_POSITIVE`, bits `0x0010_0000_0000_0000` (value `2^-1022`). -/
def minPositiveBits : F64 := 0x0010000000000000#64

/-- `1.0f64`, bits `0x3FF0_0000_0000_0000`. -/
def oneBits : F64 := 0x3FF0000000000000#64

/-- `(f64::MIN_POSITIVE..=1.0).contains(&fpp)` (`v1.rs:105`, `v2.rs:197`, `v2.rs:282`):
`RangeInclusive::contains` is `start <= x && x <= end`. -/
def fppInRange (fpp : F64) : Bool :=
  FVal.le (FVal.ofBits minPositiveBits) (FVal.ofBits fpp) &&
  FVal.le (FVal.ofBits fpp) (FVal.ofBits oneBits)

end Poppy
