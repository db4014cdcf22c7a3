import Verif.Model.Args

/-!
# Decimal numbers in texts

What the standard library prints for `{}` of an integer, for `{}`, `{:.1}` and `{:3}` of an `f64`
and for `{:?}` of a `Duration` (`core/src/fmt/float.rs`, `core/src/num/flt2dec`, `core/src/time.rs`),
and what `f64::from_str` reads (`core/src/num/dec2flt`).  The algorithms of the library are replaced
by what they compute: the shortest decimal number that is read as the same `f64`, the nearest number
with one decimal, the nearest `f64`.  As everywhere, `f64` values have no sign of zero.
-/

namespace Poppy

/-- The bits of a value (of NaN those of `f64::NAN`, of zero those of `0.0`). -/
def FVal.bits : FVal → F64
  | .nan => 0x7FF8000000000000#64
  | .pinf => 0x7FF0000000000000#64
  | .ninf => 0xFFF0000000000000#64
  | .fin q =>
    let u := ulpExp q
    let b := BitVec.ofNat 64 (⌊|q| / 2 ^ u⌋.toNat + (u + 1074).toNat * 2 ^ 52)
    if q = 0 then 0#64 else if q < 0 then b ||| 0x8000000000000000#64 else b

namespace Cli

/-! ## Reading -/

/-- The number written in decimal digits. -/
def digitsValue (s : Text) : Nat := s.foldl (fun n c => 10 * n + (c.toNat - '0'.toNat)) 0

/-- The digits of an exponent; further digits are dropped once it is `0x10000` or more. -/
def readExpDigits (s : Text) : Option Nat :=
  if s = [] ∨ ¬ s.all Char.isDigit then none
  else some (s.foldl (fun n c => if n < 0x10000 then 10 * n + (c.toNat - '0'.toNat) else n) 0)

/-- What follows the `e` of a number. -/
def readExp : Text → Option ℤ
  | '-' :: s => (readExpDigits s).map fun n : ℕ => -(n : ℤ)
  | '+' :: s => (readExpDigits s).map fun n : ℕ => (n : ℤ)
  | s => (readExpDigits s).map fun n : ℕ => (n : ℤ)

/-- The digits after the decimal point, if there is one, and the rest. -/
def readFraction : Text → Text × Text
  | '.' :: s => s.span Char.isDigit
  | s => ([], s)

/-- Digits, possibly with a decimal point, possibly with an exponent. -/
def readNumber (s : Text) : Option ℚ :=
  let a := s.span Char.isDigit
  let b := readFraction a.2
  if a.1 = [] ∧ b.1 = [] then none
  else match b.2 with
    | [] => some (digitsValue (a.1 ++ b.1) * 10 ^ (-(b.1.length : ℤ)))
    | c :: s => if c = 'e' ∨ c = 'E' then
        (readExp s).map fun e : ℤ => digitsValue (a.1 ++ b.1) * 10 ^ (e - b.1.length)
      else none

def readUnsigned (s : Text) : Option F64 :=
  match readNumber s with
  | some q => some (FVal.bits (rnd q))
  | none =>
    let s := s.map Char.toLower
    if s = ['n', 'a', 'n'] then some (FVal.bits .nan)
    else if s = ['i', 'n', 'f'] ∨ s = ['i', 'n', 'f', 'i', 'n', 'i', 't', 'y'] then
      some (FVal.bits .pinf)
    else none

/-- `f64::from_str` -/
def readF64 : ReadF64
  | '-' :: s => (readUnsigned s).map (· ||| 0x8000000000000000#64)
  | '+' :: s => readUnsigned s
  | s => readUnsigned s

/-! ## Printing -/

/-- The digits of `n`, with a decimal point or zeros, as text of `n * 10^k`. -/
def decText (n : ℕ) (k : ℤ) : Text :=
  let ds := Nat.toDigits 10 n
  let p : ℤ := ds.length + k
  if p ≤ 0 then '0' :: '.' :: (List.replicate (-p).toNat '0' ++ ds)
  else if k < 0 then ds.take p.toNat ++ '.' :: ds.drop p.toNat
  else ds ++ List.replicate k.toNat '0'

/-- The multiple of `10^k` that is nearest to `q` among those that are read as `q` (the greater of
two): its number of `10^k`s. -/
def decimalAt (q : ℚ) (k : ℤ) : Option ℕ :=
  let f := ⌊q / 10 ^ k⌋.toNat
  let lo := rnd ((f : ℚ) * 10 ^ k) = .fin q
  let hi := rnd (((f + 1 : ℕ) : ℚ) * 10 ^ k) = .fin q
  if lo ∧ (¬ hi ∨ q / 10 ^ k - f < 1 / 2) then some f else if hi then some (f + 1) else none

/-- The first exponent for which there is such a multiple, and this multiple. -/
def shortestFrom (q : ℚ) : ℕ → ℤ → ℕ × ℤ
  | 0, k => ((decimalAt q k).getD 0, k)
  | fuel + 1, k =>
    match decimalAt q k with
    | some n => (n, k)
    | none => shortestFrom q fuel (k - 1)

/-- The shortest decimal number that is read as `q`; 17 digits are enough. -/
def shortest (q : ℚ) : ℕ × ℤ := shortestFrom q 17 (Int.log 10 q + 1)

/-- A sign before the text of the absolute value. -/
def signed (q : ℚ) (t : ℚ → Text) : Text := if q < 0 then '-' :: t (-q) else t q

/-- `{}` of an `f64` -/
def f64Text : FVal → Text
  | .nan => ['N', 'a', 'N']
  | .pinf => ['i', 'n', 'f']
  | .ninf => ['-', 'i', 'n', 'f']
  | .fin q => if q = 0 then ['0'] else
      signed q fun q => decText (shortest q).1 (shortest q).2

/-- `{:.1}` of an `f64`: rounded to the nearest tenth, ties to even. -/
def f64Text1 : FVal → Text
  | .fin q => signed q fun q =>
      let n := (rneInt (q * 10)).toNat
      Nat.toDigits 10 (n / 10) ++ '.' :: Nat.toDigits 10 (n % 10)
  | x => f64Text x

/-- `{:3}` of an `f64`: numbers are aligned to the right. -/
def f64Text3 (x : FVal) : Text := List.replicate (3 - (f64Text x).length) ' ' ++ f64Text x

/-- The digits of `r / (10 * d)` after the decimal point, without zeros at the end. -/
def fractionDigits : ℕ → ℕ → ℕ → Text
  | 0, _, _ => []
  | fuel + 1, r, d => if r = 0 then [] else
      Nat.digitChar (r / d) :: fractionDigits fuel (r % d) (d / 10)

/-- `time.rs` `fmt_decimal`, without a precision. -/
def fmtDecimal (n r d : ℕ) (unit : Text) : Text :=
  Nat.toDigits 10 n ++ (if r = 0 then [] else '.' :: fractionDigits 9 r d) ++ unit

/-- `{:?}` of a `Duration` -/
def durationText (ns : ℕ) : Text :=
  if 10 ^ 9 ≤ ns then fmtDecimal (ns / 10 ^ 9) (ns % 10 ^ 9) (10 ^ 8) ['s']
  else if 10 ^ 6 ≤ ns then fmtDecimal (ns / 10 ^ 6) (ns % 10 ^ 6) (10 ^ 5) ['m', 's']
  else if 10 ^ 3 ≤ ns then fmtDecimal (ns / 10 ^ 3) (ns % 10 ^ 3) (10 ^ 2) ['µ', 's']
  else fmtDecimal ns 0 1 ['n', 's']

/-- The formatting of the standard library. -/
def stdFmt : Fmt where
  u64 x := String.ofList (Nat.toDigits 10 x.toNat)
  f64 x := String.ofList (f64Text x)
  f64Prec1 x := String.ofList (f64Text1 x)
  f64Width3 x := String.ofList (f64Text3 x)
  duration n := String.ofList (durationText n)

end Cli
end Poppy
