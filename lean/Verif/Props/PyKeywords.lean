import Verif.Lemmas.PyKeywords
import Verif.Props.PyCalls

/-!
# C99 Keyword arguments

`Verif/AbstractKeywords.lean` says what calls with keyword arguments do.
-/

namespace Poppy

open Spec Abs Cli Py

/-- Every Python program with keyword arguments gives the values and raises the exceptions of the
abstract machine, and leaves the objects and files that it leaves. -/
theorem C99_program {env : Env} (hs : env.Small) (w : World) (p : List (PyCall ⊕ KwCall)) :
    Abs.kwRun (Bloom.machine env) near ⟨[], w⟩ p =
      ((Heap.kwRun env ⟨[], w⟩ p).1.view, (Heap.kwRun env ⟨[], w⟩ p).2) := by
  have key : ∀ h : Heap Bloom, h.Reach env → Abs.kwRun (Bloom.machine env) near h.view p =
      ((h.kwRun env p).1.view, (h.kwRun env p).2) := by
    induction p with
    | nil => intro h _; rfl
    | cons c p ih =>
      intro h hr
      cases c with
      | inl c =>
        obtain ⟨h1, h2⟩ := call_agree hs hr c
        simp only [Abs.kwRun, Heap.kwRun, h2]
        rw [ih _ h1]
      | inr c =>
        obtain ⟨h1, h2⟩ := kwCall_agree hs hr c
        simp only [Abs.kwRun, Heap.kwRun, h2]
        rw [ih _ h1]
  exact key ⟨[], w⟩ (fun f hf => by cases hf)

/-- Arguments `args`, of which the first `n` are given without name and the others by their names in
any order, are taken as if they were all given without names. -/
theorem C99_names (env : Env) (h : Heap Bloom) (fn : Fn) (args : List Val) (n : ℕ)
    (hargs : args.length = (parameters fn).length) (kw : List (String × Val))
    (hkw : kw.Perm (((parameters fn).zip args).drop n)) :
    h.kwCall env ⟨fn, args.take n, kw⟩ = h.call env (positional fn args) := by
  have e : extractArguments fn.params (args.take n) kw = .ok args := by
    rw [params_eq, extractArguments_eq (params_nodup _), arranged_of_perm (params_nodup _) hargs hkw]
  unfold Heap.kwCall
  simp only [e]
  rw [← call_eq]
  cases hself : fn.self? with
  | none => rfl
  | some i =>
    simp only
    unfold onObj
    cases hi : h.objs[i]? with
    | some f => rfl
    | none =>
      have : ∀ g, onObj h i g = (h, .raised .nameError) := by
        intro g
        unfold onObj
        rw [hi]
      cases fn <;> cases hself <;> exact (this _).symm

/-- If the arguments cannot be arranged in this way (too many, a name missing, unknown or given
twice), the call raises `TypeError` and changes nothing. -/
theorem C99_wrong (env : Env) (h : Heap Bloom) (fn : Fn) (pos : List Val) (kw : List (String × Val))
    (hself : present h.objs.length fn = true)
    (hno : ¬ ∃ args : List Val, args.length = (parameters fn).length ∧ pos = args.take pos.length ∧
      kw.Perm (((parameters fn).zip args).drop pos.length)) :
    h.kwCall env ⟨fn, pos, kw⟩ = (h, .raised .typeError) := by
  have e : extractArguments fn.params pos kw = .error .typeError := by
    rw [params_eq, extractArguments_eq (params_nodup _)]
    cases ha : arranged (parameters fn) pos kw with
    | none => rfl
    | some args => exact absurd ⟨args, arranged_some (params_nodup _) ha⟩ hno
  unfold Heap.kwCall
  simp only [e]
  rw [present_eq] at hself
  cases hs : fn.self? with
  | none => rfl
  | some i =>
    rw [hs] at hself
    simp only
    unfold onObj
    rw [List.getElem?_eq_getElem (by simpa using hself)]
    rfl

/-! A program with keyword arguments. -/

def Sample.kwProgram : List (PyCall ⊕ KwCall) :=
  [.inr ⟨.withVersion, [.int 1], [("fpp", .float Sample.p001), ("capacity", .int 100)]⟩,
    .inr ⟨.withVersion, [.int 1, .int 100], [("capacity", .int 100)]⟩,
    .inr ⟨.withVersion, [.int 1, .int 100], [("fp", .float Sample.p001)]⟩,
    .inr ⟨.withVersion, [], [("fpp", .float Sample.p001), ("capacity", .int 100)]⟩,
    .inr ⟨.insertBytes 0, [], [("data", .bytes [1#8])]⟩,
    .inr ⟨.containsBytes 0, [.bytes [1#8]], []⟩,
    .inr ⟨.containsStr 0, [], [("data", .str [65])]⟩,
    .inr ⟨.isFull 0, [.int 1], []⟩,
    .inr ⟨.isFull 0, [], []⟩,
    .inl (.containsBytes 0 [.bytes [2#8]])]

example : (Heap.kwRun Sample.env ⟨[], Sample.world⟩ Sample.kwProgram).2 =
    [.filter 0, .raised .typeError, .raised .typeError, .raised .typeError, .bool true, .bool true,
      .raised .typeError, .raised .typeError, .bool false, .bool false] := by
  decide +kernel

-- arguments that meet the hypotheses of `C99_names`
example : [("fpp", Val.float Sample.p001), ("capacity", .int 100)].Perm
    (((parameters .withVersion).zip [.int 1, .int 100, .float Sample.p001]).drop 1) :=
  List.Perm.swap _ _ _

end Poppy
