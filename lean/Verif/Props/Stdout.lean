import Verif.Props.Sessions
import Verif.StdoutSpec

/-! # A standard output that fails (C86) -/

namespace Poppy

open Spec Cli

/-- The commands that print text. -/
theorem main_text (t : Libs) (env : Env) (w : World) (r : Run)
    (hr : (∃ o, r.command = .bench o) ∨ ∃ file, r.command = .show file) :
    ∃ l : Log Unit, ∀ n, main t env w { r with stdout := n } =
      (w, .text (l.to ⟨[], n⟩).1.lines, some (l.to ⟨[], n⟩).2) := by
  rcases r with ⟨c, jobs, stdin, stdout, sched, rng, measure⟩
  rcases hr with ⟨o, hr⟩ | ⟨file, hr⟩
  · have hr : c = .bench o := hr
    subst hr
    exact ⟨benchLog t.fmt env w t.hash measure rng stdin o, fun n => rfl⟩
  · have hr : c = .show file := hr
    subst hr
    exact ⟨showLog t.fmt env w file, fun n => rfl⟩

theorem text_prefix (l : Log Unit) (n : ℕ) :
    (l.to ⟨[], some n⟩).1.lines = (l.to ⟨[], none⟩).1.lines.take n := by
  simp [Log.to_eq, Stdout.after]

theorem text_enough {l : Log Unit} {n : ℕ} (h : (l.to ⟨[], none⟩).1.lines.length ≤ n) :
    (l.to ⟨[], some n⟩).2 = (l.to ⟨[], none⟩).2 := by
  rw [Log.to_eq] at h
  have h1 : (⟨[], some n⟩ : Stdout String).Takes l.out := by
    simpa [Stdout.after, Stdout.Takes] using h
  rw [Log.to_eq, Log.to_eq, if_pos h1]
  rfl

theorem text_refused {l : Log Unit} {n : ℕ} (h : n < (l.to ⟨[], none⟩).1.lines.length) :
    (l.to ⟨[], some n⟩).2 = .panic := by
  rw [Log.to_eq] at h
  have h1 : ¬ (⟨[], some n⟩ : Stdout String).Takes l.out := by
    simpa [Stdout.after, Stdout.Takes] using h
  rw [Log.to_eq, if_neg h1]

/-- What is printed are the first lines of what would be printed otherwise, and the files are left
the same. -/
theorem C86_prefix (t : Libs) (env : Env) (w : World) (r : Run) (n : ℕ) :
    (main t env w (r.limited n)).1 = (main t env w r.unlimited).1 ∧
    (main t env w (r.limited n)).2.1 = (main t env w r.unlimited).2.1.take n := by
  have htext : (∃ o, r.command = .bench o) ∨ (∃ file, r.command = .show file) →
      (main t env w (r.limited n)).1 = (main t env w r.unlimited).1 ∧
      (main t env w (r.limited n)).2.1 = (main t env w r.unlimited).2.1.take n := by
    intro hr
    obtain ⟨l, hl⟩ := main_text t env w r hr
    unfold Run.limited Run.unlimited
    rw [hl, hl]
    exact ⟨rfl, congrArg Printed.text (text_prefix l n)⟩
  rcases hr : r.command with o | o | o | o | file
  · unfold main Run.limited Run.unlimited
    simp only [hr]
    exact ⟨trivial, rfl⟩
  · unfold main Run.limited Run.unlimited
    simp only [hr]
    exact ⟨trivial, rfl⟩
  · have h1 := (checkTo_eq env w r.sched r.stdin o r.jobs ⟨[], some n⟩).1
    have h2 := (checkTo_eq env w r.sched r.stdin o r.jobs ⟨[], none⟩).1
    unfold main Run.limited Run.unlimited
    simp only [hr, h1, h2]
    exact ⟨trivial, by simp [Stdout.after, Printed.take]⟩
  · exact htext (.inl ⟨o, hr⟩)
  · exact htext (.inr ⟨file, hr⟩)

/-- When the standard output takes all the lines it makes no difference. -/
theorem C86_enough (t : Libs) (env : Env) (w : World) (r : Run) (n : ℕ)
    (h : (main t env w r.unlimited).2.1.count ≤ n) :
    main t env w (r.limited n) = main t env w r.unlimited := by
  obtain ⟨p1, p2⟩ := C86_prefix t env w r n
  refine Prod.ext p1 (Prod.ext ?_ ?_)
  · rw [p2]
    generalize (main t env w r.unlimited).2.1 = p at h
    cases p with
    | none => rfl
    | bytes ls => exact congrArg Printed.bytes (List.take_of_length_le h)
    | text ls => exact congrArg Printed.text (List.take_of_length_le h)
  have htext : (∃ o, r.command = .bench o) ∨ (∃ file, r.command = .show file) →
      (main t env w (r.limited n)).2.2 = (main t env w r.unlimited).2.2 := by
    intro hr
    obtain ⟨l, hl⟩ := main_text t env w r hr
    unfold Run.limited Run.unlimited at *
    rw [hl] at h ⊢
    rw [hl]
    exact congrArg some (text_enough h)
  rcases hr : r.command with o | o | o | o | file
  · unfold main Run.limited Run.unlimited
    simp only [hr]
  · unfold main Run.limited Run.unlimited
    simp only [hr]
  · obtain ⟨h1, h2, -⟩ := checkTo_eq env w r.sched r.stdin o r.jobs ⟨[], none⟩
    obtain ⟨-, h3, -⟩ := checkTo_eq env w r.sched r.stdin o r.jobs ⟨[], some n⟩
    unfold main Run.unlimited at h
    simp only [hr, h1] at h
    unfold main Run.limited Run.unlimited
    simp only [hr]
    rw [h2 trivial, h3 (by simpa [Stdout.after, Stdout.Takes, Printed.count] using h)]
  · exact htext (.inl ⟨o, hr⟩)
  · exact htext (.inr ⟨file, hr⟩)

/-- Reading from the standard input, showing a filter, and benchmarking is done by one thread: then a
refused line is a panic. -/
theorem C86_panics (t : Libs) (env : Env) (w : World) (r : Run) (n : ℕ)
    (hr : ∀ o, r.command = .check o → o.inputs = [])
    (h : n < (main t env w r.unlimited).2.1.count) :
    (main t env w (r.limited n)).2.2 = some .panic := by
  have htext : (∃ o, r.command = .bench o) ∨ (∃ file, r.command = .show file) →
      (main t env w (r.limited n)).2.2 = some .panic := by
    intro hr
    obtain ⟨l, hl⟩ := main_text t env w r hr
    unfold Run.limited Run.unlimited at *
    rw [hl] at h ⊢
    exact congrArg some (text_refused h)
  rcases hc : r.command with o | o | o | o | file
  · unfold main Run.unlimited at h
    simp only [hc] at h
    exact absurd h (Nat.not_lt_zero _)
  · unfold main Run.unlimited at h
    simp only [hc] at h
    exact absurd h (Nat.not_lt_zero _)
  · obtain ⟨h1, -, -⟩ := checkTo_eq env w r.sched r.stdin o r.jobs ⟨[], none⟩
    unfold main Run.unlimited at h
    simp only [hc, h1] at h
    unfold main Run.limited
    simp only [hc]
    exact checkTo_single env w r.sched r.stdin r.jobs ⟨[], some n⟩ (hr o hc)
      (by simpa [Stdout.after, Stdout.Takes, Printed.count] using h)
  · exact htext (.inl ⟨o, hc⟩)
  · exact htext (.inr ⟨file, hc⟩)

/-- When it does not take them, the tool does not report success: it panics, or ends with the failure
that it would have ended with anyway. -/
theorem C86_refused (t : Libs) (env : Env) (w : World) (r : Run) (n : ℕ)
    (h : n < (main t env w r.unlimited).2.1.count) :
    (main t env w (r.limited n)).2.2 ≠ some (.ok ()) ∧
    ((main t env w (r.limited n)).2.2 = some .panic ∨
      (main t env w (r.limited n)).2.2 = (main t env w r.unlimited).2.2) := by
  by_cases hr : ∃ o, r.command = .check o
  · obtain ⟨o, hr⟩ := hr
    obtain ⟨h1, h2, -⟩ := checkTo_eq env w r.sched r.stdin o r.jobs ⟨[], none⟩
    obtain ⟨-, -, h3⟩ := checkTo_eq env w r.sched r.stdin o r.jobs ⟨[], some n⟩
    unfold main Run.unlimited at h
    simp only [hr, h1] at h
    have h4 := h3 (by simpa [Stdout.after, Stdout.Takes, Printed.count] using h)
    rw [← h2 trivial] at h4
    unfold main Run.limited Run.unlimited
    simp only [hr]
    exact h4
  · have := C86_panics t env w r n (fun o ho => absurd ⟨o, ho⟩ hr) h
    rw [this]
    exact ⟨by simp, .inl rfl⟩

/-- So a run that succeeds has done and printed the same as with an unlimited standard output. -/
theorem C86_success {t : Libs} {env : Env} {w w' : World} {r : Run} {n : ℕ} {p : Printed}
    (h : main t env w (r.limited n) = (w', p, some (.ok ()))) :
    main t env w r.unlimited = (w', p, some (.ok ())) := by
  rcases Nat.lt_or_ge n (main t env w r.unlimited).2.1.count with hc | hc
  · exact absurd (by rw [h]) (C86_refused t env w r n hc).1
  · rw [← C86_enough t env w r n hc, h]

/-- So a `check` that succeeds, whatever the standard output, has printed exactly the lines of its
inputs that it should, in some order. -/
theorem C86_check {t : Libs} {env : Env} {w w' : World} {r : Run} {o : Check}
    (hr : r.command = .check o) {p : Printed} (h : main t env w r = (w', p, some (.ok ()))) :
    w' = w ∧ ∃ bs bf es out, p = .bytes out ∧ w.open o.file = .ok (Reader.ofBytes bs) ∧
      Bloom.fromReader env (Reader.ofBytes bs) = .ok bf ∧
      inputLines w r.stdin o.stdin o.inputs = es.map Res.ok ∧
      out.Perm (toPrint (bf.containsBytes env) o.verify o.silent es) := by
  unfold main at h
  rw [hr] at h
  simp only [Prod.mk.injEq] at h
  obtain ⟨rfl, rfl, h3⟩ := h
  obtain ⟨bs, bf, es, c1, c2, _, c4, c5⟩ := C59_printed (check_of_checkTo rfl h3)
  exact ⟨rfl, bs, bf, es, _, rfl, c1, c2, c4, c5⟩

/-- A text that was printed successfully was printed completely. -/
theorem Cli.Log.to_ok {l : Log Unit} {n : Option ℕ} (h : (l.to ⟨[], n⟩).2 = .ok ()) :
    (l.to ⟨[], n⟩).1.lines = l.out ∧ l.res = .ok () := by
  rw [Log.to_eq] at h ⊢
  by_cases ht : (⟨[], n⟩ : Stdout String).Takes l.out
  · rw [if_pos ht] at h
    refine ⟨?_, h⟩
    rcases n with _ | n
    · simp [Stdout.after]
    · have : l.out.length ≤ n := ht
      simp [Stdout.after, List.take_of_length_le this]
  · rw [if_neg ht] at h
    cases h

/-- And a `show` that succeeds has printed all its lines. -/
theorem C86_show {t : Libs} {env : Env} {w w' : World} {r : Run} {file : Path}
    (hr : r.command = .show file) {p : Printed} (h : main t env w r = (w', p, some (.ok ()))) :
    w' = w ∧ ∃ ls, p = .text ls ∧ Cli.show t.fmt env w file = .ok ls := by
  unfold main at h
  rw [hr] at h
  simp only [Prod.mk.injEq, Option.some.injEq] at h
  obtain ⟨rfl, rfl, h3⟩ := h
  obtain ⟨h4, h5⟩ := Log.to_ok h3
  refine ⟨rfl, _, rfl, ?_⟩
  rw [h4]
  obtain ⟨c1, c2, -⟩ := showLog_eq t.fmt env w file
  rw [h5] at c1
  rcases hs : Cli.show t.fmt env w file with ls | e | _
  · rw [c2 ls hs]
  · rw [hs] at c1; cases c1
  · rw [hs] at c1; cases c1

namespace Sample

/-- `check --verify bf x` with a standard output that takes `n` lines. -/
def checkRun (files : List Path) (jobs : ℕ) (sched : Schedule) (n : Option ℕ) : Run :=
  ⟨.check ⟨false, false, true, "bf", files⟩, jobs, ⟨[], false⟩, n, sched, rng, measure⟩

/-- What the run prints and how it ends. -/
def result (w : World) (r : Run) : List (List U8) × Option (Res Unit) :=
  match main libs env w r with
  | (_, .bytes out, x) => (out, x)
  | (_, _, x) => ([], x)

end Sample

-- two lines are printed when there is room for them
example : Sample.result (Sample.world3 none) (Sample.checkRun ["x"] 1 [0, 0, 0, 0, 0] none) =
      ([[97#8, 58#8, 32#8, 78#8, 79#8, 75#8], [98#8, 58#8, 32#8, 78#8, 79#8, 75#8]], some (.ok ())) ∧
    Sample.result (Sample.world3 none) (Sample.checkRun ["x"] 1 [0, 0, 0, 0, 0] (some 2)) =
      ([[97#8, 58#8, 32#8, 78#8, 79#8, 75#8], [98#8, 58#8, 32#8, 78#8, 79#8, 75#8]], some (.ok ())) := by
  decide +kernel

-- one is refused
example : Sample.result (Sample.world3 none) (Sample.checkRun ["x"] 1 [0, 0, 0, 0, 0] (some 1)) =
    ([[97#8, 58#8, 32#8, 78#8, 79#8, 75#8]], some .panic) := by
  decide +kernel

-- the first thread fails as its file is missing, the second loses a line: the first counts
example : Sample.result (Sample.world3 none)
      (Sample.checkRun ["nofile", "x"] 2 [0, 1, 1, 1, 1, 1] (some 1)) =
    ([[97#8, 58#8, 32#8, 78#8, 79#8, 75#8]], some (.err (.ioError .notFound))) := by
  decide +kernel

end Poppy
