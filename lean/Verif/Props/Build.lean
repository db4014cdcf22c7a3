import Verif.Lemmas.Build
import Verif.Model.Args
import Verif.Props.Jobs
import Verif.Props.PyCalls

/-!
# C120: debug and release builds, and machines with more or less memory
-/

namespace Poppy

open Cli Py

variable {e e' : Env}

/-- Membership does not depend on the build and on the memory at all. -/
theorem C120_contains (h : e.Laxer e') (f : Bloom) (k : List U8) (g : V2) (x : Key) :
    f.containsBytes e' k = f.containsBytes e k ∧ g.contains e' x = g.contains e x :=
  ⟨Bloom.containsBytes_lax h f k, V2.contains_lax h g x⟩

/-- What is loaded, fully or partially, from whatever source. -/
theorem C120_load (h : e.Laxer e') (r : Reader) :
    (Bloom.fromReader e r ≠ .panic → Bloom.fromReader e' r = Bloom.fromReader e r) ∧
    (Bloom.partialFromReader e r ≠ .panic →
      Bloom.partialFromReader e' r = Bloom.partialFromReader e r) :=
  ⟨(Bloom.fromReaderAux_lax h false r).resolve_left, (Bloom.fromReaderAux_lax h true r).resolve_left⟩

/-- Programs on filters: if no operation panics, then with fewer checks and more memory all answers
and all filters are the same. -/
theorem C120_programs (h : e.Laxer e') :
    (∀ (σ : ℕ → Bloom) (p : List Abs.BOp), .panic ∉ (Abs.run (Bloom.step e) σ p).2 →
      Abs.run (Bloom.step e') σ p = Abs.run (Bloom.step e) σ p) ∧
    (∀ (σ : ℕ → V2) (p : List (Abs.Op Key)), .panic ∉ (Abs.run (V2.step e) σ p).2 →
      Abs.run (V2.step e') σ p = Abs.run (V2.step e) σ p) ∧
    (∀ (σ : ℕ → V1) (p : List (Abs.Op (List U8))), .panic ∉ (Abs.run (V1.step e) σ p).2 →
      Abs.run (V1.step e') σ p = Abs.run (V1.step e) σ p) :=
  ⟨run_lax (Bloom.step_lax h), run_lax (V2.step_lax h), run_lax (V1.step_lax h)⟩

/-- A run of the tool that does not panic: the same files, the same printed, the same outcome. -/
theorem C120_main (h : e.Laxer e') (t : Libs) (w : World) (r : Run)
    (hp : (main t e w r).2.2 ≠ some .panic) : main t e' w r = main t e w r :=
  (main_lax h t w r).resolve_left hp

/-- Any number of runs of the tool. -/
theorem C120_session (h : e.Laxer e') (t : Libs) (w : World) (rs : List Run)
    (hp : ∀ x ∈ (session t e w rs).2, x.2 ≠ some .panic) : session t e' w rs = session t e w rs := by
  induction rs generalizing w with
  | nil => rfl
  | cons r rs ih =>
    simp only [session, List.forall_mem_cons] at hp ⊢
    rw [C120_main h t w r hp.1, ih _ hp.2]

/-- A run of the tool from its words: the same unless the exit code is 101. -/
theorem C120_tool (h : e.Laxer e') (t : Libs) (rd : ReadF64) (w : World) (ws : List Text)
    (x : Around) (hp : (tool t rd e w ws x).2.2 ≠ some 101) :
    tool t rd e' w ws x = tool t rd e w ws x := by
  unfold tool at hp ⊢
  split
  · rfl
  · rfl
  · rename_i a ha
    rw [ha] at hp
    rw [C120_main h t w (x.run a) fun hx => hp (by dsimp only; rw [hx]; rfl)]

/-- A Python program in which no call raises `PanicException`. -/
theorem C120_python (h : e.Laxer e') (p : Heap Bloom) (cs : List PyCall)
    (hp : .raised .panicException ∉ (p.run e cs).2) : p.run e' cs = p.run e cs := by
  induction cs generalizing p with
  | nil => rfl
  | cons c cs ih =>
    simp only [Heap.run, List.mem_cons, not_or] at hp ⊢
    have h1 := (call_lax h p c).resolve_left fun x => hp.1 x.symm
    rw [h1, ih _ hp.2]

namespace Sample

/-- A debug build on a machine with 64 KB. -/
def envTight : Env := { envDebug with allocLimit := 2 ^ 16, allocLimit_lt := by decide }

theorem tight_laxer : envTight.Laxer env := ⟨rfl, rfl, fun h => absurd h (by decide), by decide⟩

theorem debug_laxer : envDebug.Laxer env := ⟨rfl, rfl, fun h => absurd h (by decide), le_refl _⟩

end Sample

-- `insert` with two files and two jobs, in the debug build with little memory
example : main Sample.libs Sample.env (Sample.stored 5)
      (Sample.jobsRun (.insert ⟨false, "out", ["x", "y"]⟩) 2) =
    main Sample.libs Sample.envTight (Sample.stored 5)
      (Sample.jobsRun (.insert ⟨false, "out", ["x", "y"]⟩) 2) :=
  C120_main Sample.tight_laxer _ _ _ (by decide +kernel)

example : (main Sample.libs Sample.envTight (Sample.stored 5)
      (Sample.jobsRun (.insert ⟨false, "out", ["x", "y"]⟩) 2)).2.2 = some (.ok ()) := by
  decide +kernel

-- a Python program
example : (Heap.mk [] (Sample.stored 5)).run Sample.env
      [.load "out", .insertBytes 0 [.bytes [97#8]], .containsBytes 0 [.bytes [97#8]]] =
    (Heap.mk [] (Sample.stored 5)).run Sample.envTight
      [.load "out", .insertBytes 0 [.bytes [97#8]], .containsBytes 0 [.bytes [97#8]]] :=
  C120_python Sample.tight_laxer _ _ (by decide +kernel)

-- the condition is needed: not enough memory to load the file
example : (main Sample.libs { Sample.env with allocLimit := 1, allocLimit_lt := by decide }
      (Sample.stored 5) (Sample.jobsRun (.insert ⟨false, "out", ["x", "y"]⟩) 2)).2.2 =
    some .panic := by decide +kernel

-- and a count that overflows, which only debug builds notice
example : ((V2.insert Sample.envDebug { Sample.f2 with count := BitVec.allOnes 64 } (.slice [97#8])).2 =
      .panic) ∧
    (V2.insert Sample.env { Sample.f2 with count := BitVec.allOnes 64 } (.slice [97#8])).2 =
      .ok true := by decide +kernel

end Poppy
