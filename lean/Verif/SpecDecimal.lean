import Verif.SpecArgs
import Mathlib.Algebra.Order.Ring.Rat

/-!
# Decimal numbers

What texts say, stated without the functions that print and read numbers.
-/

namespace Spec
namespace Line

/-- The text is the number in decimal digits, without a decimal point or with digits on both sides of
it. -/
def Numeral (s : Text) (q : ℚ) : Prop :=
  (∃ n : ℕ, Decimal s n ∧ q = n) ∨
  ∃ a b, ∃ n m : ℕ, s = a ++ '.' :: b ∧ Decimal a n ∧ Decimal b m ∧ q = n + m / 10 ^ b.length

/-- Digits, possibly with a decimal point before, between or after them. -/
def Mantissa (s : Text) (r : ℚ) : Prop :=
  ∃ a b, ∃ n : ℕ, Decimal (a ++ b) n ∧ (s = a ∧ b = [] ∨ s = a ++ '.' :: b) ∧ r = n / 10 ^ b.length

/-- An integer, possibly with a sign. -/
def Integer (s : Text) (k : ℤ) : Prop :=
  ∃ n : ℕ, Decimal s n ∧ k = n ∨ (∃ t, s = '+' :: t ∧ Decimal t n ∧ k = n) ∨
    ∃ t, s = '-' :: t ∧ Decimal t n ∧ k = -n

/-- The text of `r * 10^k`, possibly with an exponent. -/
def Scientific (s : Text) (r : ℚ) (k : ℤ) : Prop :=
  Mantissa s r ∧ k = 0 ∨ ∃ m c e, (c = 'e' ∨ c = 'E') ∧ s = m ++ c :: e ∧ Mantissa m r ∧ Integer e k

/-- Words for values that are not numbers, in upper or lower case. -/
def Infinity (s : Text) : Prop :=
  s.map Char.toLower = ['i', 'n', 'f'] ∨
    s.map Char.toLower = ['i', 'n', 'f', 'i', 'n', 'i', 't', 'y']

def NotANumber (s : Text) : Prop := s.map Char.toLower = ['n', 'a', 'n']

/-- The unit of a size, in bytes. -/
def sizeUnit : Text → Option ℕ
  | ['B'] => some 1
  | ['K', 'B'] => some (2 ^ 10)
  | ['M', 'B'] => some (2 ^ 20)
  | ['G', 'B'] => some (2 ^ 30)
  | _ => none

/-- The unit of a time, in nanoseconds. -/
def timeUnit : Text → Option ℕ
  | ['n', 's'] => some 1
  | ['µ', 's'] => some (10 ^ 3)
  | ['m', 's'] => some (10 ^ 6)
  | ['s'] => some (10 ^ 9)
  | _ => none

end Line
end Spec
