import Verif.AbstractMain
import Verif.History
import Verif.SessionSpec

/-!
# Attached data and bytes appended to the file of a filter

Whatever follows the filter in its file is its attached data.
-/

namespace Poppy

/-- The same filter with these bytes after its attached data. -/
def Bloom.extend (d : List U8) (f : Bloom) : Bloom := f.setData (f.data ++ d)

namespace Cli

/-- These bytes are appended to a file. -/
def World.append (w : World) (p : Path) (d : List U8) : World :=
  { w with fs := fun q => if q = p then (w.fs q).map (· ++ d) else w.fs q }

/-- The file holds a filter, and can be read to its end. -/
def World.Ready (env : Env) (w : World) (p : Path) : Prop :=
  w.access p = .full ∧ ∃ f, Stored env w p f

/-- The run does not read lines from the file, and does not create it. -/
def Run.Spares (p : Path) (r : Run) : Prop :=
  match r.command with
  | .create o => o.file ≠ p ∧ p ∉ o.dataset
  | .insert o => p ∉ o.inputs
  | .check o => p ∉ o.inputs
  | .bench _ => True
  | .show _ => True

/-- Two lines are the same, or both tell the length of attached data. -/
def SameLine (a b : String) : Prop :=
  a = b ∨ ∃ x y, a = "\tLength of data                           : " ++ x ∧
    b = "\tLength of data                           : " ++ y

/-- The same printed, but for the length of attached data. -/
def SamePrinted : Printed → Printed → Prop
  | .text ls, .text ls' => List.Forall₂ SameLine ls ls'
  | p, p' => p = p'

end Cli
end Poppy
