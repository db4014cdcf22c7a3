import Verif.History

/-!
# Vocabulary of C126: what the optimization levels change
-/

namespace Spec

open Poppy

/-- Insert the keys one by one, whatever the answers. -/
def insertAll (env : Env) (f : Bloom) : List (List U8) → Bloom × List (Res Bool)
  | [] => (f, [])
  | k :: ks =>
    let r := insertAll env (f.insertBytes env k).1 ks
    (r.1, (f.insertBytes env k).2 :: r.2)

/-- Two filters that cannot be told apart by asking for keys and numbers, and whose files differ in
the byte of the level only, which is the second. -/
structure SameBut (env : Env) (level : U8) (f g : Bloom) : Prop where
  file : g.file = f.file.set 1 level
  contains : ∀ k, g.containsBytes env k = f.containsBytes env k
  count : g.countEstimate = f.countEstimate
  full : g.isFull = f.isFull
  capacity : g.capacity = f.capacity
  fpp : g.fpp = f.fpp
  size : g.sizeInBytes env = f.sizeInBytes env

end Spec
