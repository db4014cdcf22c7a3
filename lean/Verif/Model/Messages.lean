import Verif.Model.Decimal
import Verif.Model.Python

/-!
# Model of the texts of errors

The texts `thiserror` makes for the errors of the library (`poppy/src/bloom.rs:79-113`), and the
text of the `ValueError` raised in Python (`python/src/lib.rs:21-25`).  The texts of errors of the
operating system are those of the standard library, given by a function here.
-/

namespace Poppy

open Cli (Text f64Text)

/-- `{}` of the `f64` with these bits: as `f64Text`, which does not know the sign of zero. -/
def f64Shown (b : F64) : String :=
  if b = 0x8000000000000000#64 then "-0" else String.ofList (f64Text (FVal.ofBits b))

/-- `{}` of a `u8` -/
def u8Shown (v : U8) : String := String.ofList (Nat.toDigits 10 v.toNat)

/-- `bloom.rs:79-83` `OptLevelError` -/
def optLevelErrorText (v : U8) : String := "invalid opt-level=" ++ u8Shown v

/-- `bloom.rs:98-113` `Error` -/
def Error.text (io : IoKind → String) : Error → String
  | .wrongFpp b => "fpp value must be in ]0;1] fpp=" ++ f64Shown b
  | .ioError k => io k
  | .invalidVersion v => "invalid version " ++ u8Shown v
  | .merge m => "union error: " ++ m
  | .optLevel v => optLevelErrorText v
  | .tooManyEntries => "too many entries, false positive rate cannot be met"
  | .uninitIter => "entry index iterator must be initialized"
  | .other m => m

namespace Py

/-- `lib.rs:21-25`: the text of the `ValueError` a call raises, if it raises one -/
def PyRes.message {α : Type} (io : IoKind → String) : PyRes α → Option String
  | .valueError e => some (e.text io)
  | _ => none

end Py
end Poppy
