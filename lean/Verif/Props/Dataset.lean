import Verif.Props.Pipe

/-! # Creating from a dataset is creating, then inserting (C113) -/

namespace Poppy

open Spec Abs Cli

theorem open_written {w : World} {p f : Path} (h : f ≠ p) (bs : List U8) :
    (w.written p bs).open f = w.open f := by
  simp [World.open, World.written, h]

theorem processFiles_written (env : Env) {w : World} {p : Path} (bs : List U8) {fs : List Path}
    (h : p ∉ fs) (bf : Bloom) : processFiles env (w.written p bs) bf fs = processFiles env w bf fs := by
  induction fs generalizing bf with
  | nil => rfl
  | cons f fs ih =>
    simp only [List.mem_cons, not_or] at h
    rw [processFiles, processFiles, open_written (fun e => h.1 e.symm)]
    cases w.open f with
    | err e => rfl
    | panic => rfl
    | ok r =>
      show (do let bf ← insertLines env bf (fileLines r); processFiles env (w.written p bs) bf fs) =
        (do let bf ← insertLines env bf (fileLines r); processFiles env w bf fs)
      cases insertLines env bf (fileLines r) with
      | err e => rfl
      | panic => rfl
      | ok b => exact ih h.2 b

theorem insertFiles_written (env : Env) {w : World} {p : Path} (bs : List U8) {fs : List Path}
    (h : p ∉ fs) (bf : Bloom) (jobs : ℕ) :
    insertFiles env bf (w.written p bs) fs jobs = insertFiles env bf w fs jobs := by
  unfold insertFiles
  have hj : optimalJobs (w.written p bs) jobs = optimalJobs w jobs := rfl
  rw [hj]
  obtain ⟨l, hl⟩ := batches_ok fs (optimalJobs_pos w jobs)
  have hfl := (batches_spec hl).2.1
  rw [hl]
  have : l.map (processFiles env (w.written p bs) bf) = l.map (processFiles env w bf) := by
    refine List.map_congr_left fun a ha => processFiles_written env bs (fun hp => h ?_) bf
    rw [← hfl]
    exact List.mem_flatten.2 ⟨a, ha, hp⟩
  show (if fs.isEmpty then _ else do
    let bfs ← joinEval (l.map (processFiles env (w.written p bs) bf)); reduce env bfs) = _
  rw [this]
  rfl

/-- A new filter is the same after it was stored and loaded. -/
theorem new_reload {env : Env} (hs : env.Small) {v : U8} {cap : U64} {p : F64} {opt : OptLevel} {b : Bloom}
    (h : Bloom.withVersionCapacityOpt env v cap p opt = .ok b) :
    Bloom.fromReader env (Reader.ofBytes b.file) = .ok b := by
  unfold Bloom.withVersionCapacityOpt at h
  split at h
  · cases hm : V1.withCapacity env cap p with
    | err e => rw [hm] at h; cases h
    | panic => rw [hm] at h; cases h
    | ok f =>
      rw [hm] at h
      cases h
      exact ((C51_readers env f.file).1 _).2 ((C22_built_round_trip env hs).2 f (.make hm)).1
  · split at h
    · cases hm : V2.make env cap p opt with
      | err e => rw [hm] at h; cases h
      | panic => rw [hm] at h; cases h
      | ok f =>
        rw [hm] at h
        cases h
        exact ((C51_readers env f.file).2 _).2 ((C22_built_round_trip env hs).1 f (.make hm)).1
    · cases h

/-- The options of `create` for an empty filter with room for as many entries as the data files
have lines. -/
def Cli.Create.empty (o : Create) (w : World) : Create :=
  { o with capacity := BitVec.ofNat 64 (linesOf w o.dataset).length, dataset := [] }

theorem createFilter_empty {env : Env} {w : World} {o : Create} (hd : o.dataset ≠ [])
    (hr : AllRead w o.dataset) (jobs jobs' : ℕ) :
    createFilter env w o jobs = createFilter env w (o.empty w) jobs' := by
  have h0 : ¬ o.dataset.length = 0 := fun h => hd (List.length_eq_zero_iff.1 h)
  unfold createFilter
  rw [if_neg h0, countLines_iff.2 ⟨hr, rfl⟩]
  rfl

/-- If creating the filter with the lines of the files succeeds, so does creating the empty one. -/
theorem C113_empty {env : Env} {w w1 : World} {o : Create} (hd : o.dataset ≠ [])
    (hdisk : w.disk = none) {s : Schedule} {jobs : ℕ}
    (h1 : create env w s o jobs = (w1, some (.ok ()))) (s' : Schedule) (jobs' : ℕ) :
    ∃ w2, create env w s' (o.empty w) jobs' = (w2, some (.ok ())) := by
  rcases create_cases env w s o jobs with ⟨_, n⟩ | ⟨b, bf, g, c, _, k, _⟩
  · exact absurd (by rw [h1]) n
  have hr : AllRead w o.dataset := by
    obtain ⟨_, _, _, _, h⟩ := createFilter_ok c
    rcases h with h | h
    · exact absurd h.1 hd
    · exact h.2.1
  rw [createFilter_empty hd hr jobs jobs'] at c
  have hp : parallelInsert env w s' b (o.empty w).dataset jobs' = some (.ok b) := rfl
  refine ⟨w.written o.file (b.write ⟨[], w.disk⟩).1.out, ?_⟩
  unfold create
  rw [show createGuard env w (o.empty w).file = .ok () from g]
  simp only [c, hp]
  rcases save_cases w o.file b with ⟨k', _⟩ | ⟨_, e⟩
  · rw [k] at k'; cases k'
  · rw [show save w (o.empty w).file b = _ from e]
    rw [show (b.write ⟨[], w.disk⟩).2 = .ok () from by rw [hdisk, Bloom.write_none]]

/-- Creating from the files, and creating the empty filter and inserting the files: the outcome is
the same, and if it is success, so is everything stored. -/
theorem C113_same {env : Env} (hs : env.Small) {w w1 w2 w3 : World} {o : Create} (hd : o.dataset ≠ [])
    (hf : o.file ∉ o.dataset) (hr : AllRead w o.dataset) (hdisk : w.disk = none)
    (ha : w.access o.file = .full) {s s' s'' : Schedule} {jobs jobs' : ℕ} {stdin : Stdin}
    {r r' : Res Unit} (h1 : create env w s o jobs = (w1, some r))
    (h2 : create env w s' (o.empty w) jobs' = (w2, some (.ok ())))
    (h3 : Cli.insert env w2 s'' stdin ⟨false, o.file, o.dataset⟩ jobs = (w3, some r')) :
    r = r' ∧ (r = .ok () → w1 = w3) := by
  rcases create_cases env w s' (o.empty w) jobs' with ⟨_, n⟩ | ⟨b, bf, g, c, p, k, e⟩
  · exact absurd (by rw [h2]) n
  obtain rfl : b = bf := Res.ok.inj (Option.some.inj p)
  rw [h2, written_out, hdisk] at e
  have e2 : w2 = w.written o.file b.file := congrArg Prod.fst e
  obtain ⟨_, _, _, hb, _⟩ := createFilter_ok c
  have hl := new_reload hs hb
  rw [← createFilter_empty hd hr jobs jobs'] at c
  have g : createGuard env w o.file = .ok () := g
  have ho : w2.open o.file = .ok (Reader.ofBytes b.file) := by
    rw [e2]
    simp [World.open, World.written, ha]
  have he : (false || o.dataset.isEmpty) = false := by simpa using hd
  unfold create at h1
  simp only [g, c] at h1
  have h3' : (match parallelInsert env w2 s'' b o.dataset jobs with
      | some (.ok bf) => match save w2 o.file bf with | (w, r) => (w, some r)
      | some (.err e) => (w2, some (.err e))
      | some .panic => (w2, some .panic)
      | none => (w2, none)) = (w3, some r') := by
    rw [← h3]
    unfold Cli.insert
    simp only [ho, he]
    rw [show (do
      let r ← (Res.ok (Reader.ofBytes b.file) : Res Reader)
      let bf ← Bloom.fromReader env r
      if false = true then insertLines env bf stdin.lines else .ok bf) = (Res.ok b : Res Bloom) from by
        show (do
          let bf ← Bloom.fromReader env (Reader.ofBytes b.file)
          if false = true then insertLines env bf stdin.lines else .ok bf) = _
        rw [hl]
        rfl]
    rfl
  clear h3
  rcases hp : parallelInsert env w s b o.dataset jobs with _ | x
  · rw [hp] at h1
    simp at h1
  rcases hq : parallelInsert env w2 s'' b o.dataset jobs with _ | y
  · rw [hq] at h3'
    simp at h3'
  have hx := parallelInsert_some hp
  have hy := parallelInsert_some hq
  rw [e2, insertFiles_written env _ hf, ← hx] at hy
  subst hy
  rw [hp] at h1
  rw [hq] at h3'
  cases y with
  | err e => simp only [Prod.mk.injEq, Option.some.injEq] at h1 h3'; rw [← h1.2, ← h3'.2]; simp
  | panic => simp only [Prod.mk.injEq, Option.some.injEq] at h1 h3'; rw [← h1.2, ← h3'.2]; simp
  | ok bf =>
    simp only at h1 h3'
    have hk : w.creatable o.file = true := k
    rcases save_cases w o.file bf with ⟨k', _⟩ | ⟨_, e⟩
    · rw [hk] at k'; cases k'
    rcases save_cases w2 o.file bf with ⟨k', _⟩ | ⟨_, e'⟩
    · rw [e2] at k'
      rw [show (w.written o.file b.file).creatable o.file = w.creatable o.file from rfl, hk] at k'
      cases k'
    have hd2 : w2.disk = w.disk := by rw [e2]; rfl
    rw [e] at h1
    rw [e', hd2] at h3'
    simp only [Prod.mk.injEq, Option.some.injEq] at h1 h3'
    refine ⟨h1.2.symm.trans h3'.2, fun _ => ?_⟩
    rw [← h1.1, ← h3'.1, e2]
    unfold World.written
    congr 1
    funext q
    by_cases hq : q = o.file <;> simp [hq]

/-- With different numbers of jobs the files stored differ in the estimated number of entries at
most. -/
theorem C113_jobs {env : Env} (hs : env.Small) {w w1 w2 w3 : World} {o : Create} (hd : o.dataset ≠ [])
    (hf : o.file ∉ o.dataset) (hdisk : w.disk = none)
    (ha : w.access o.file = .full) {s s' s'' : Schedule} {jobs jobs' jobs'' : ℕ} {stdin : Stdin}
    (h1 : create env w s o jobs = (w1, some (.ok ())))
    (h2 : create env w s' (o.empty w) jobs' = (w2, some (.ok ())))
    (h3 : Cli.insert env w2 s'' stdin ⟨false, o.file, o.dataset⟩ jobs'' = (w3, some (.ok ()))) :
    ∃ bs bs', w1.fs o.file = some bs ∧ w3.fs o.file = some bs' ∧ SameButCount bs bs' := by
  have hr : AllRead w o.dataset := by
    rcases create_cases env w s o jobs with ⟨_, n⟩ | ⟨b, bf, g, c, _, k, _⟩
    · exact absurd (by rw [h1]) n
    obtain ⟨_, _, _, _, h⟩ := createFilter_ok c
    rcases h with h | h
    · exact absurd h.1 hd
    · exact h.2.1
  have hd2 : w2.disk = none := by
    rcases create_cases env w s' (o.empty w) jobs' with ⟨_, n⟩ | ⟨_, _, _, _, _, _, e⟩
    · exact absurd (by rw [h2]) n
    · rw [h2] at e
      rw [show w2 = _ from congrArg Prod.fst e]
      exact hdisk
  obtain ⟨N, hN⟩ := C84_insert_ends env w2 stdin ⟨false, o.file, o.dataset⟩ jobs
  let s1 : Schedule := (List.range o.dataset.length).flatMap fun i => List.replicate N i
  have hfair : Fair o.dataset.length N s1 := by
    intro i hi
    have hsub : (List.replicate N i).Sublist s1 :=
      List.sublist_flatten_of_mem (List.mem_map.2 ⟨i, List.mem_range.2 hi, rfl⟩)
    have := hsub.count_le i
    simpa using this
  have hn := hN s1 hfair
  rcases hx : Cli.insert env w2 s1 stdin ⟨false, o.file, o.dataset⟩ jobs with ⟨w4, _ | r4⟩
  · rw [hx] at hn; exact absurd rfl hn
  obtain ⟨e4, e5⟩ := C113_same hs hd hf hr hdisk ha h1 h2 hx
  obtain rfl := e5 rfl
  subst e4
  rcases insert_cases env w2 s1 stdin ⟨false, o.file, o.dataset⟩ jobs with
    ⟨-, n⟩ | ⟨bs, b, b', bf, a0, a1, a2, a3, -, a4⟩
  · exact absurd (by rw [hx]) n
  rcases insert_cases env w2 s'' stdin ⟨false, o.file, o.dataset⟩ jobs'' with
    ⟨-, n⟩ | ⟨cs, c, c', cf, b0, b1, b2, b3, -, b4⟩
  · exact absurd (by rw [h3]) n
  rw [a0] at b0
  rw [← Res.ok.inj b0, a1] at b1
  obtain rfl := Res.ok.inj b1
  have e1 : b = b' := by simpa [hd] using a2
  have e2 : b = c' := by simpa [hd] using b2
  subst e1
  subst e2
  have key := parallel_same hs (.load a1) a3 b3
  rw [hx] at a4
  rw [h3] at b4
  have k1 : w1 = _ := congrArg Prod.fst a4
  have k2 : w3 = _ := congrArg Prod.fst b4
  refine ⟨bf.file, cf.file, ?_, ?_, key⟩
  · rw [k1, written_at, written_out, hd2]
  · rw [k2, written_at, written_out, hd2]

-- two files of one line each: both ways succeed, and give the same file
example : let o : Create := ⟨1, 7, Sample.p001, 0, "out", ["x", "y"]⟩
    let w := Sample.twoFiles
    AllRead w o.dataset ∧ o.file ∉ o.dataset ∧ (o.empty w).capacity = 2 ∧
    (create Sample.env w [0, 1, 0, 1, 0, 1, 0, 1] o 2).2 = some (.ok ()) ∧
    (create Sample.env w [] (o.empty w) 1).2 = some (.ok ()) ∧
    (Cli.insert Sample.env (create Sample.env w [] (o.empty w) 1).1 [0, 0, 0, 0, 1, 1, 1, 1] ⟨[], false⟩
      ⟨false, "out", ["x", "y"]⟩ 2).2 = some (.ok ()) := by
  refine ⟨?_, by decide, by decide +kernel⟩
  intro f hf
  simp only [List.mem_cons, List.not_mem_nil, or_false] at hf
  rcases hf with rfl | rfl
  · exact ⟨[97#8], Sample.open_of (by decide +kernel) (by decide +kernel)⟩
  · exact ⟨[98#8], Sample.open_of (by decide +kernel) (by decide +kernel)⟩

end Poppy
