import Verif.Model.Main

/-! Vocabulary of the properties of sequences of commands. -/

namespace Poppy
namespace Cli

/-- One thing that can happen to the files while the filter in `file` is in use: a run of the tool,
with any outcome, that does not create `file` anew, or anything else that leaves `file` alone.
When `file` is written there is room for it. -/
inductive Step (t : Libs) (env : Env) (file : Path) : World → World → Prop
  | tool {w : World} (r : Run) (hc : ∀ o, r.command = .create o → o.file ≠ file)
      (hi : ∀ o, r.command = .insert o → o.file = file → w.disk = none) :
      Step t env file w (main t env w r).1
  | other {w w' : World} (h : w'.fs file = w.fs file) : Step t env file w w'

/-- Any number of them. -/
inductive Steps (t : Libs) (env : Env) (file : Path) (w : World) : World → Prop
  | refl : Steps t env file w w
  | step {w' w'' : World} : Steps t env file w w' → Step t env file w' w'' → Steps t env file w w''

/-- The filter stored in a file. -/
def Stored (env : Env) (w : World) (file : Path) (f : Bloom) : Prop :=
  ∃ bs, w.fs file = some bs ∧ Bloom.fromReader env (Reader.ofBytes bs) = .ok f

end Cli

end Poppy
