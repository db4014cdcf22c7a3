import Verif.SessionSpec
import Verif.PySpec

/-! Vocabulary of the statements about a filter file used by the tool and by Python programs. -/

namespace Poppy
namespace Py

open Cli

/-- Something that happens to the files while the filter in `file` is in use: a step as in
`Cli.Step` (a run of the tool, with any outcome, or anything that leaves `file` alone), or a Python
program that loads the filter, does whatever it likes, and saves this object to the file again.  When
the file is written there is room for it. -/
inductive Use (t : Libs) (env : Env) (file : Path) : World → World → Prop
  | step {w w' : World} : Step t env file w w' → Use t env file w w'
  | edit {w : World} (before mid : List Call) (f : Bloom) (hb : ∀ c ∈ before, ¬ c.Touches file)
      (hm : ∀ c ∈ mid, ¬ c.Touches file)
      (hl : Py.load env (Store.run env ⟨[], w⟩ before).world file = .ok f) (hd : w.disk = none) :
      Use t env file w (Store.run env ⟨[], w⟩ (before ++ .load file :: (mid ++
        [.save (Store.run env ⟨[], w⟩ before).objs.length file]))).world

/-- Any number of them. -/
inductive Uses (t : Libs) (env : Env) (file : Path) (w : World) : World → Prop
  | refl : Uses t env file w w
  | use {w' w'' : World} : Uses t env file w w' → Use t env file w' w'' → Uses t env file w w''

end Py
end Poppy
