import Verif.Model.Main

/-! Vocabulary of the properties of the standard output. -/

namespace Poppy
namespace Cli

/-- The number of lines printed. -/
def Printed.count : Printed → Nat
  | .none => 0
  | .bytes ls => ls.length
  | .text ls => ls.length

/-- The first lines printed. -/
def Printed.take (n : Nat) : Printed → Printed
  | .none => .none
  | .bytes ls => .bytes (ls.take n)
  | .text ls => .text (ls.take n)

/-- The same run with a standard output that takes everything. -/
def Run.unlimited (r : Run) : Run := { r with stdout := none }

/-- The same run with a standard output that takes `n` lines. -/
def Run.limited (r : Run) (n : Nat) : Run := { r with stdout := some n }

end Cli
end Poppy
