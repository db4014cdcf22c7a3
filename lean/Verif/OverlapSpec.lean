import Verif.Model.FileOps

/-! Vocabulary of the statements about runs of the tool that overlap. -/

namespace Poppy
namespace Cli

/-- `c'` is what the file holds at some moment while the operations are done. -/
def Moment (c : List U8) (ops : List FileOp) (c' : List U8) : Prop := ∃ n, c' = after c (ops.take n)

/-- Bytes read while the file holds one thing after the other: each of them was there at some
moment.  Nothing is said about when reading stops. -/
def Saw (held : List U8 → Prop) (bs : List U8) : Prop :=
  ∀ (i : ℕ) (b : U8), bs[i]? = some b → ∃ c, held c ∧ c[i]? = some b

/-- Operations of several processes, each with its number: those of process `p` are `jobs p`. -/
def Interleaves (jobs : ℕ → List FileOp) (ops : List (ℕ × FileOp)) : Prop :=
  ∀ p, (ops.filter fun x => x.1 = p).map Prod.snd = jobs p

/-- What can be found in a filter file that held `old`, while and after runs of `insert` are made on
it (any number of them, with any outcome, also at the same time), as long as no two of them write
at the same moment: what it held, what a run that found one of these contents left, and mixtures,
got by reading or writing during another run. -/
inductive Content (env : Env) (old : List U8) : List U8 → Prop
  | old : Content env old old
  | inserted {w : World} {s : Schedule} {stdin : Stdin} {o : Insert} {jobs : ℕ} {bs out : List U8} :
      Content env old bs → w.fs o.file = some bs →
      (Cli.insert env w s stdin o jobs).1.fs o.file = some out → Content env old out
  | mixed {bs : List U8} (from_ : ℕ → List U8) : (∀ i, Content env old (from_ i)) →
      (∀ (i : ℕ) (b : U8), bs[i]? = some b → (from_ i)[i]? = some b) → Content env old bs

end Cli
end Poppy
