import Verif.Lemmas.Jobs
import Verif.Props.Args

/-! # C91 The number of jobs -/

namespace Poppy

open Spec Abs Cli

/-- No jobs: as many as there are processors, except for `check` with files. -/
theorem C91_zero_partial (t : Libs) (env : Env) (w : World) (r : Run) (hj : r.jobs = 0)
    (hc : ∀ o, r.command = .check o → o.inputs = []) :
    main t env w r = main t env w { r with jobs := w.cpus } := by
  have hw := w.cpus_pos
  have h0 : ¬ w.cpus = 0 := by omega
  unfold main
  simp only [hj]
  rcases hr : r.command with o | o | o | o | file
  · simp only [create, createFilter, countLinesParallel, parallelInsert, optimalJobs, if_true, h0,
      if_false]
  · simp only [Cli.insert, parallelInsert, optimalJobs, if_true, h0, if_false]
  · simp only [checkTo, checkFilesTo, hc o hr, List.isEmpty_nil, if_true]
  · rfl
  · rfl

/-- `check` with files and no jobs never succeeds. -/
theorem C91_zero_check (t : Libs) (env : Env) (w : World) (r : Run) (hj : r.jobs = 0) {o : Check}
    (hc : r.command = .check o) (hi : o.inputs ≠ []) :
    (main t env w r).2.2 ≠ some (.ok ()) := by
  have he : o.inputs.isEmpty = false := by simpa using hi
  unfold main
  simp only [hc, hj]
  unfold checkTo checkFilesTo
  simp only [he, batches, if_true]
  repeat' split
  all_goals simp_all

namespace Sample

/-- Two files of one line each. -/
def twoFiles : World where
  fs := fun p => if p = "x" then some [97#8] else if p = "y" then some [98#8] else none
  access := fun _ => .full
  creatable := fun _ => true
  disk := none
  cpus := 2
  cpus_pos := by decide

/-- A run with so many jobs, and steps enough for two threads. -/
def jobsRun (c : Command) (j : ℕ) : Run :=
  ⟨c, j, ⟨[], false⟩, none, [0, 1, 0, 0, 1, 0, 1, 1, 0, 0, 0], rng, measure⟩

/-- A filter for `cap` entries was stored. -/
def stored (cap : U64) : World :=
  (main libs env twoFiles (jobsRun (.create ⟨1, cap, p001, 0, "out", []⟩) 1)).1

/-- The lines printed by `check`. -/
def checkOut : Printed → List (List U8)
  | .bytes l => l
  | _ => []

/-- The real logarithms of 0, 1/2, 1 and 2, rounded to `f64`. -/
def libmHalf : Libm where
  ln := fun x => if x = .fin 0 then .ninf else if x = .fin 1 then .fin 0
    else if x = .fin 2 then .fin (6243314768165359 / 2 ^ 53)
    else .fin (-6243314768165359 / 2 ^ 53)
  exp := fun _ => .fin (1 / 2)
  powf := fun _ _ => .fin (8655073435229077 / 2 ^ 54)

def envHalf : Env := { env with libm := libmHalf }

/-- `0.5f64` -/
def fppHalf : F64 := 0x3FE0000000000000#64

end Sample

/-- Though the number of processors would do: `poppy -j 0 check out x` panics. -/
theorem C91_zero_violated : ∃ (t : Libs) (env : Env) (w : World) (r : Run), r.jobs = 0 ∧
    (main t env w r).2.2 = some .panic ∧
    (main t env w { r with jobs := w.cpus }).2.2 = some (.ok ()) :=
  ⟨Sample.libs, Sample.env, Sample.stored 5,
    Sample.jobsRun (.check ⟨false, false, false, "out", ["x"]⟩) 0, by decide +kernel⟩

-- the same from the command line
example : (tool Sample.libs Sample.rd Sample.env (Sample.stored 5) (Sample.ws ["-j", "0", "check", "out", "x"])
      (Sample.around [0, 0, 0, 0])).2.2 = some 101 ∧
    (tool Sample.libs Sample.rd Sample.env (Sample.stored 5) (Sample.ws ["-j", "2", "check", "out", "x"])
      (Sample.around [0, 0, 0, 0])).2.2 = some 0 := by decide +kernel

-- `create` takes the number of processors
example : main Sample.libs Sample.env Sample.twoFiles
      (Sample.jobsRun (.create ⟨1, 0, Sample.p001, 0, "out", ["x", "y"]⟩) 0) =
    main Sample.libs Sample.env Sample.twoFiles
      (Sample.jobsRun (.create ⟨1, 0, Sample.p001, 0, "out", ["x", "y"]⟩) 2) :=
  C91_zero_partial Sample.libs Sample.env Sample.twoFiles
    (Sample.jobsRun (.create ⟨1, 0, Sample.p001, 0, "out", ["x", "y"]⟩) 0) rfl
    (fun o h => by unfold Sample.jobsRun at h; cases h)

example : (main Sample.libs Sample.env Sample.twoFiles
    (Sample.jobsRun (.create ⟨1, 0, Sample.p001, 0, "out", ["x", "y"]⟩) 0)).2.2 = some (.ok ()) := by
  decide +kernel

/-- Two runs that differ in the number of jobs and the interleaving, and that end: `check`. -/
theorem C91_check {t : Libs} {env : Env} (hs : env.Small) {w : World} {r r' : Run} {o : Check}
    (hc : r.command = .check o) (h : SameTask r r') (hj : r.jobs ≠ 0) (hj' : r'.jobs ≠ 0)
    (he : (main t env w r).2.2 ≠ none) (he' : (main t env w r').2.2 ≠ none) :
    ((main t env w r).2.2 = some (.ok ()) ↔ (main t env w r').2.2 = some (.ok ())) ∧
    ((main t env w r).2.2 = some (.ok ()) →
      (main t env w r).2.1.Same (main t env w r').2.1) ∧
    (r.stdout = none → (main t env w r).2.2 = (main t env w r').2.2) := by
  obtain ⟨j', s', rfl⟩ := h
  obtain ⟨w1, p1, x1, h1⟩ : ∃ w1 p1 x1, main t env w r = (w1, p1, some x1) := by
    rcases hm : main t env w r with ⟨a, b, _ | c⟩
    · rw [hm] at he; exact absurd rfl he
    · exact ⟨a, b, c, rfl⟩
  obtain ⟨w2, p2, x2, h2⟩ : ∃ w2 p2 x2,
      main t env w { r with jobs := j', sched := s' } = (w2, p2, some x2) := by
    rcases hm : main t env w { r with jobs := j', sched := s' } with ⟨a, b, _ | c⟩
    · rw [hm] at he'; exact absurd rfl he'
    · exact ⟨a, b, c, rfl⟩
  have d1 := C89_run hs (by simp [hc]) (by simp [hc]) h1
  have d2 := C89_run hs (by simp [hc]) (by simp [hc]) h2
  rw [h1, h2]
  unfold Does at d1 d2
  simp only [hc] at d1 d2
  obtain ⟨rfl, l1, rfl, a1, b1, c1, g1⟩ := d1
  obtain ⟨rfl, l2, rfl, a2, b2, c2, g2⟩ := d2
  have ej : checkCmd (Bloom.machine env) w2 r.stdin o j' =
      checkCmd (Bloom.machine env) w2 r.stdin o r.jobs := by
    have hj' : j' ≠ 0 := hj'
    unfold checkCmd
    simp only [hj, hj', if_false]
  rw [ej] at g2
  have key : ∀ {x y : Res Unit} {l l' : List (List U8)},
      (x = .ok () → l.Perm (checkPrints (Bloom.machine env) w2 r.stdin o)) →
      (∀ n, r.stdout = some n → l.length ≤ n) →
      (x = checkCmd (Bloom.machine env) w2 r.stdin o r.jobs ∨ (r.stdout = some l.length ∧
        l.length < (checkPrints (Bloom.machine env) w2 r.stdin o).length ∧ x = .panic)) →
      (y = checkCmd (Bloom.machine env) w2 r.stdin o r.jobs ∨ (r.stdout = some l'.length ∧
        l'.length < (checkPrints (Bloom.machine env) w2 r.stdin o).length ∧ y = .panic)) →
      x = .ok () → y = .ok () := by
    intro x y l l' c b g g' hx
    rcases g with h | ⟨_, _, h⟩
    · rcases g' with h' | ⟨k1, k2, _⟩
      · rw [h', ← h, hx]
      · have := (c hx).length_eq
        have := b _ k1
        omega
    · rw [hx] at h; cases h
  refine ⟨⟨fun h => ?_, fun h => ?_⟩, fun h => ?_, fun h => ?_⟩
  · rw [key c1 b1 g1 g2 (Option.some.inj h)]
  · rw [key c2 b2 g2 g1 (Option.some.inj h)]
  · exact (c1 (Option.some.inj h)).trans (c2 (key c1 b1 g1 g2 (Option.some.inj h))).symm
  · rcases g1 with g1 | ⟨k, _⟩
    · rcases g2 with g2 | ⟨k, _⟩
      · rw [g1, g2]
      · rw [h] at k; cases k
    · rw [h] at k; cases k

-- two checks: one thread, and two of which the second is faster
example :
    let w := (main Sample.libs Sample.env Sample.twoFiles
      (Sample.jobsRun (.create ⟨1, 0, Sample.p001, 0, "out", ["x", "y"]⟩) 1)).1
    let r := Sample.jobsRun (.check ⟨false, false, false, "out", ["x", "y"]⟩) 1
    let r' := { r with jobs := 2, sched := [1, 1, 1, 1, 0, 0, 0, 0] }
    SameTask r r' ∧
    (Sample.checkOut (main Sample.libs Sample.env w r).2.1 = [[97#8], [98#8]] ∧
      (main Sample.libs Sample.env w r).2.2 = some (.ok ())) ∧
    Sample.checkOut (main Sample.libs Sample.env w r').2.1 = [[98#8], [97#8]] ∧
      (main Sample.libs Sample.env w r').2.2 = some (.ok ()) :=
  ⟨⟨_, _, rfl⟩, by decide +kernel⟩

theorem written_at (w : World) (p : Path) (bs : List U8) : (w.written p bs).fs p = some bs := by
  simp [World.written]

/-- Two successful runs of `create` or `insert` that differ in the number of jobs and the
interleaving write files that differ in the estimated number of entries at most. -/
theorem C91_files_partial {t : Libs} {env : Env} (hs : env.Small) {w w1 w2 : World}
    (hd : w.disk = none) {r r' : Run} (h : SameTask r r') {file : Path}
    (hc : (∃ o, r.command = .create o ∧ o.file = file) ∨ ∃ o, r.command = .insert o ∧ o.file = file)
    {p p' : Printed} (h1 : main t env w r = (w1, p, some (.ok ())))
    (h2 : main t env w r' = (w2, p', some (.ok ()))) :
    ∃ bs bs', w1.fs file = some bs ∧ w2.fs file = some bs' ∧ SameButCount bs bs' ∧
      ∀ f, f ≠ file → w1.fs f = w.fs f ∧ w2.fs f = w.fs f := by
  obtain ⟨j', s', rfl⟩ := h
  have fin : ∀ {bf bf' : Bloom}, SameButCount bf.file bf'.file →
      ∃ bs bs', (w.written file (bf.write ⟨[], w.disk⟩).1.out).fs file = some bs ∧
        (w.written file (bf'.write ⟨[], w.disk⟩).1.out).fs file = some bs' ∧ SameButCount bs bs' ∧
        ∀ f, f ≠ file → (w.written file (bf.write ⟨[], w.disk⟩).1.out).fs f = w.fs f ∧
          (w.written file (bf'.write ⟨[], w.disk⟩).1.out).fs f = w.fs f := by
    intro bf bf' e
    refine ⟨_, _, written_at .., written_at .., ?_, fun f hf => ?_⟩
    · rw [written_out, written_out, hd]
      exact e
    · simp [World.written, hf]
  unfold main at h1 h2
  rcases hc with ⟨o, hr, rfl⟩ | ⟨o, hr, rfl⟩
  · simp only [hr, Prod.mk.injEq] at h1 h2
    obtain ⟨rfl, -, x1⟩ := h1
    obtain ⟨rfl, -, x2⟩ := h2
    rcases create_cases env w r.sched o r.jobs with ⟨-, n⟩ | ⟨b, bf, -, c1, c2, -, c3⟩
    · exact absurd x1 n
    rcases create_cases env w s' o j' with ⟨-, n⟩ | ⟨b', bf', -, d1, d2, -, d3⟩
    · exact absurd x2 n
    obtain ⟨cap, opt, e1, e2, e3⟩ := createFilter_ok c1
    obtain ⟨cap', opt', g1, g2, g3⟩ := createFilter_ok d1
    obtain rfl : opt = opt' := by rw [e1] at g1; exact Res.ok.inj g1
    obtain rfl : cap = cap' := by
      rcases e3 with ⟨k1, rfl⟩ | ⟨k1, -, rfl⟩ <;> rcases g3 with ⟨k2, rfl⟩ | ⟨k2, -, rfl⟩
      · rfl
      · exact absurd k1 k2
      · exact absurd k2 k1
      · rfl
    obtain rfl : b = b' := by rw [e2] at g2; exact Res.ok.inj g2
    rw [c3, d3]
    exact fin (parallel_same hs (Bloom.new_spec hs e2).1 c2 d2)
  · simp only [hr, Prod.mk.injEq] at h1 h2
    obtain ⟨rfl, -, x1⟩ := h1
    obtain ⟨rfl, -, x2⟩ := h2
    rcases insert_cases env w r.sched r.stdin o r.jobs with
      ⟨-, n⟩ | ⟨bs, b, b', bf, a0, a1, a2, a3, -, a4⟩
    · exact absurd x1 n
    rcases insert_cases env w s' r.stdin o j' with ⟨-, n⟩ | ⟨cs, c, c', cf, b0, b1, b2, b3, -, b4⟩
    · exact absurd x2 n
    rw [a0] at b0
    rw [← Res.ok.inj b0, a1] at b1
    obtain rfl := Res.ok.inj b1
    rw [a2] at b2
    obtain rfl := Res.ok.inj b2
    have hb : b.Reach env := .load a1
    have hb' : b'.Reach env := by
      by_cases hu : (o.stdin || o.inputs.isEmpty) = true
      · rw [if_pos hu] at a2
        obtain ⟨es, -, -, rfl⟩ := insertLines_ok a2
        exact hb.inserts es
      · rw [if_neg hu] at a2
        obtain rfl := Res.ok.inj a2
        exact hb
    rw [a4, b4]
    exact fin (parallel_same hs hb' a3 b3)

/-- But whether `insert` succeeds depends on the number of jobs: with one the filter is full after
the first file, with two there is room for each of the files. -/
theorem C91_outcome_violated : ∃ (t : Libs) (env : Env) (w : World) (r r' : Run),
    w.disk = none ∧ SameTask r r' ∧ r.jobs = 1 ∧ r'.jobs = 2 ∧
    (main t env w r).2.2 = some .panic ∧ (main t env w r').2.2 = some (.ok ()) :=
  ⟨Sample.libs, Sample.env, Sample.stored 1,
    Sample.jobsRun (.insert ⟨false, "out", ["x", "y"]⟩) 1,
    Sample.jobsRun (.insert ⟨false, "out", ["x", "y"]⟩) 2, by decide +kernel, ⟨_, _, rfl⟩, rfl, rfl,
    by decide +kernel⟩

/-- And the estimate depends on it: two lines are counted as two with one job, and as 2^64 - 1 with
two (all bits of the united filter are set). -/
theorem C91_count_violated : ∃ (t : Libs) (env : Env) (w : World) (r r' : Run) (bs bs' : List U8),
    w.disk = none ∧ SameTask r r' ∧ r.jobs = 1 ∧ r'.jobs = 2 ∧
    (main t env w r).2.2 = some (.ok ()) ∧ (main t env w r').2.2 = some (.ok ()) ∧
    (main t env w r).1.fs "out" = some bs ∧ (main t env w r').1.fs "out" = some bs' ∧
    (bs.drop (countAt bs)).take 8 = le 8 2 ∧ (bs'.drop (countAt bs')).take 8 = le 8 (2 ^ 64 - 1) :=
  ⟨Sample.libs, Sample.envHalf, Sample.twoFiles,
    Sample.jobsRun (.create ⟨1, 0, Sample.fppHalf, 0, "out", ["x", "y"]⟩) 1,
    Sample.jobsRun (.create ⟨1, 0, Sample.fppHalf, 0, "out", ["x", "y"]⟩) 2,
    [1, 0, 0, 0, 0, 0, 0, 0] ++ le 8 2 ++ le 8 Sample.fppHalf.toNat ++ le 8 1 ++ le 8 2 ++ le 8 2 ++ le 8 3,
    [1, 0, 0, 0, 0, 0, 0, 0] ++ le 8 2 ++ le 8 Sample.fppHalf.toNat ++ le 8 1 ++ le 8 2
      ++ le 8 (2 ^ 64 - 1) ++ le 8 3, rfl, ⟨_, _, rfl⟩, rfl, rfl, by decide +kernel⟩

end Poppy
