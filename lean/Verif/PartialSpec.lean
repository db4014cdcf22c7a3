import Verif.History
import Verif.Model.Bloom

/-! Vocabulary of the statements about partially loaded filters. -/

namespace Poppy
namespace Bloom

/-- `h` is what becomes of `g` after any operations that change a filter, whatever they return. -/
inductive Used (env : Env) (g : Bloom) : Bloom → Prop
  | start : Used env g g
  | insert {h : Bloom} (k : List U8) : Used env g h → Used env g (h.insertBytes env k).1
  | fill {h : Bloom} (ks : List (List U8)) : Used env g h → Used env g (h.fill env ks).1
  | merge {h : Bloom} (o : Bloom) : Used env g h → Used env g (h.unionMerge env o).1
  | clear {h : Bloom} : Used env g h → Used env g h.clear

/-- The number of hash functions. -/
def hashes : Bloom → U64
  | .v1 f => f.nHash
  | .v2 f => f.nHashBuck

end Bloom
end Poppy
