import Verif.Props.CliCommands

/-! # Files whose reading fails, and whether commands end (C84) -/

namespace Poppy

open Spec Cli

namespace Cli

theorem Broken.open {w : World} {f : Path} (h : Broken w f) :
    ∃ bs k, w.fs f = some bs ∧ k ≤ bs.length ∧ w.access f = .upTo k ∧
      w.open f = .ok ⟨bs, 0, some k⟩ := by
  obtain ⟨bs, k, h1, h2, h3⟩ := h
  refine ⟨bs, k, h1, h3, h2, ?_⟩
  unfold World.open
  rw [h1]
  simp only [h2]
  rw [if_pos h3]

theorem not_broken_read {w : World} {f : Path} {r : Reader} (h : ¬ Broken w f)
    (ho : w.open f = .ok r) : ∃ bs, r = Reader.ofBytes bs := by
  unfold World.open at ho
  cases hf : w.fs f with
  | none => rw [hf] at ho; cases ho
  | some bs =>
    rw [hf] at ho
    simp only at ho
    cases ha : w.access f with
    | denied => rw [ha] at ho; cases ho
    | full => rw [ha] at ho; cases ho; exact ⟨bs, rfl⟩
    | upTo k =>
      rw [ha] at ho
      simp only at ho
      rw [if_neg (fun hk => h ⟨bs, k, hf, ha, hk⟩)] at ho
      cases ho
      exact ⟨bs, rfl⟩

theorem brokenLinesAux_unlines {ls : List (List U8)} {last : List U8} (h : ∀ l ∈ ls, LF ∉ l)
    (hl : LF ∉ last) {fuel : ℕ} (hf : ls.length < fuel) :
    brokenLinesAux fuel (unlines ls last)
      = ls.map (fun l => lineItem (l ++ [LF])) ++ [.err (.ioError .other)] := by
  induction ls generalizing fuel with
  | nil =>
    obtain ⟨fuel, rfl⟩ : ∃ n, fuel = n + 1 := ⟨fuel - 1, by simp at hf; omega⟩
    rw [show unlines [] last = last from rfl, brokenLinesAux, if_neg hl]
    rfl
  | cons l ls ih =>
    obtain ⟨fuel, rfl⟩ : ∃ n, fuel = n + 1 := ⟨fuel - 1, by simp at hf; omega⟩
    have hu : unlines (l :: ls) last = l ++ [LF] ++ unlines ls last := by
      unfold unlines; rw [List.flatMap_cons, List.append_assoc]; rfl
    rw [hu, brokenLinesAux, if_pos (by simp), readUntilLf_seg (h l (by simp)),
      ih (fun x hx => h x (by simp [hx])) (by simpa using hf), List.map_cons, List.cons_append]

theorem Broken.err_mem {w : World} {f : Path} {fs : List Path} (h : Broken w f) (hf : f ∈ fs) :
    Res.err (.ioError .other) ∈ linesOf w fs := by
  obtain ⟨bs, k, _, _, _, ho⟩ := h.open
  unfold linesOf
  refine List.mem_flatMap.2 ⟨f, hf, ?_⟩
  unfold linesIn
  rw [ho]
  exact fileLines_broken bs k

theorem Broken.not_loaded {env : Env} {w : World} {f : Path} (h : Broken w f) {r : Reader}
    {p : Bool} {b : Bloom} (ho : w.open f = .ok r) : Bloom.fromReaderAux env p r ≠ .ok b := by
  intro hb
  obtain ⟨bs, k, _, hk, _, ho'⟩ := h.open
  rw [ho] at ho'
  cases ho'
  exact Bloom.fromReaderAux_faulty ⟨k, rfl, hk⟩ hb

theorem countBatch_append (w : World) {pre : List Path} (h : AllRead w pre) (post : List Path) :
    countBatch w (pre ++ post) = match countBatch w post with
      | some (.ok m) => some (.ok ((linesOf w pre).length + m))
      | x => x := by
  induction pre with
  | nil =>
    rw [List.nil_append]
    rcases countBatch w post with _ | n | e | _ <;> simp [linesOf]
  | cons f pre ih =>
    obtain ⟨bs, ho⟩ := h f (by simp)
    rw [List.cons_append, countBatch, ho, ih (fun x hx => h x (by simp [hx])), linesOf_cons ho]
    simp only [countLines, Reader.ofBytes, List.length_append]
    rcases countBatch w post with _ | n | e | _ <;> simp [fileLines, Nat.add_assoc]

theorem countBatch_append_bad (w : World) {b : List Path} (h : ∀ n, countBatch w b ≠ some (.ok n))
    (post : List Path) : countBatch w (b ++ post) = countBatch w b := by
  induction b with
  | nil => exact absurd rfl (h 0)
  | cons f b ih =>
    rw [List.cons_append, countBatch, countBatch]
    rw [countBatch] at h
    rcases ho : w.open f with r | e | _
    · rw [ho] at h
      simp only at h ⊢
      rcases hc : countLines r with _ | n
      · rfl
      · rw [hc] at h
        simp only at h ⊢
        rw [ih]
        intro m hm
        rw [hm] at h
        exact h _ rfl
    · rfl
    · rfl

/-- What becomes of the count does not depend on the batches. -/
theorem sumBatches_flatten (w : World) (bs : List (List Path)) :
    sumBatches (bs.map (countBatch w)) = countBatch w bs.flatten := by
  induction bs with
  | nil => rfl
  | cons b bs ih =>
    rw [List.map_cons, List.flatten_cons]
    rcases hb : countBatch w b with _ | n | e | _
    · rw [countBatch_append_bad w (by simp [hb]), hb]; rfl
    · obtain ⟨h1, rfl⟩ := countBatch_ok hb
      rw [countBatch_append w h1, sumBatches, ih]
      rcases countBatch w bs.flatten with _ | n | e | _ <;> rfl
    · rw [countBatch_append_bad w (by simp [hb]), hb]; rfl
    · rw [countBatch_append_bad w (by simp [hb]), hb]; rfl

theorem countLinesParallel_eq (w : World) (files : List Path) (jobs : ℕ) :
    countLinesParallel w files jobs = countBatch w files := by
  obtain ⟨bs, hb⟩ := batches_ok files (optimalJobs_pos w jobs)
  unfold countLinesParallel
  rw [hb]
  simp only
  rw [sumBatches_flatten, (batches_spec hb).2.1]

theorem countBatch_ne_none {w : World} {files : List Path} (h : ∀ f ∈ files, ¬ Broken w f) :
    countBatch w files ≠ none := by
  induction files with
  | nil => simp [countBatch]
  | cons f fs ih =>
    rw [countBatch]
    rcases ho : w.open f with r | e | _
    · obtain ⟨bs, rfl⟩ := not_broken_read (h f (by simp)) ho
      have := ih (fun x hx => h x (by simp [hx]))
      simp only [countLines, Reader.ofBytes]
      rcases hc : countBatch w fs with _ | n | e | _
      · exact absurd hc this
      all_goals simp
    · simp
    · simp

end Cli

/-- Of a file whose reading fails after `k` bytes come the lines complete by then, and an error; the
line being read is lost. -/
theorem C84_lines {w : World} {f : Path} {bs : List U8} {k : ℕ} (hf : w.fs f = some bs)
    (ha : w.access f = .upTo k) (hk : k ≤ bs.length) {ls : List (List U8)} {last : List U8}
    (h : ∀ l ∈ ls, 10#8 ∉ l) (hl : 10#8 ∉ last) (hb : bs.take k = unlines ls last) :
    linesOf w [f] = lines (unlines ls []) ++ [.err (.ioError .other)] := by
  obtain ⟨bs', k', h1, _, h2, ho⟩ := Broken.open ⟨bs, k, hf, ha, hk⟩
  rw [hf] at h1
  cases h1
  rw [ha] at h2
  cases h2
  rw [linesOf_cons ho]
  show brokenLinesAux (k + 1) (bs.take k) ++ [] = _
  have hlen : ls.length ≤ k := by
    have := length_unlines ls last
    rw [← hb, List.length_take] at this
    omega
  rw [hb, brokenLinesAux_unlines h hl (by omega), lines_unlines h (by simp), List.append_nil]
  simp

/-- Reading stops at the first error: an input whose reading fails makes `insert` fail, and nothing
is written. -/
theorem C84_insert_reports (env : Env) (w : World) (s : Schedule) (stdin : Stdin) (o : Insert)
    (jobs : ℕ) (h : Broken w o.file ∨ ∃ f ∈ o.inputs, Broken w f) :
    (Cli.insert env w s stdin o jobs).1 = w ∧
      (Cli.insert env w s stdin o jobs).2 ≠ some (.ok ()) := by
  refine C57_insert_unchanged env w s stdin o jobs ?_
  rcases h with h | ⟨f, hf, h⟩
  · exact Or.inl fun bs b ho => h.not_loaded ho
  · exact Or.inr (Or.inr (Or.inr (Or.inr (Or.inr (Or.inl ⟨_, h.err_mem hf⟩)))))

/-- It makes `check` fail. -/
theorem C84_check_reports (env : Env) (w : World) (s : Schedule) (stdin : Stdin) (o : Check)
    (jobs : ℕ) (h : Broken w o.file ∨ ∃ f ∈ o.inputs, Broken w f) :
    (check env w s stdin o jobs).2 ≠ some (.ok ()) := by
  intro hc
  obtain ⟨bs, bf, es, ho, hr, _, hl, _⟩ := C59_printed
    (out := (check env w s stdin o jobs).1) (by rw [← hc])
  rcases h with h | ⟨f, hf, h⟩
  · exact h.not_loaded ho hr
  · have := List.mem_append_right
      (if o.stdin || o.inputs.isEmpty then stdin.lines else []) (h.err_mem hf)
    rw [← inputLines, hl] at this
    obtain ⟨_, _, h⟩ := List.mem_map.1 this
    cases h

/-- A standard input whose reading fails makes them fail too, if they read it; `insert` changes
nothing. -/
theorem C84_stdin_reports (env : Env) (w : World) (s : Schedule) (bs : List U8) (jobs : ℕ) :
    (∀ o : Insert, o.stdin = true ∨ o.inputs = [] →
      (Cli.insert env w s ⟨bs, true⟩ o jobs).1 = w ∧
        (Cli.insert env w s ⟨bs, true⟩ o jobs).2 ≠ some (.ok ())) ∧
    ∀ o : Check, o.stdin = true ∨ o.inputs = [] →
      (check env w s ⟨bs, true⟩ o jobs).2 ≠ some (.ok ()) := by
  have herr : Res.err (.ioError .other) ∈ (Stdin.mk bs true).lines := brokenLinesAux_err _ _
  refine ⟨fun o ho => C57_insert_unchanged env w s _ o jobs (.inr (.inl ⟨ho, _, herr⟩)),
    fun o ho hc => ?_⟩
  obtain ⟨_, _, es, _, _, _, hl, _⟩ := C59_printed
    (out := (check env w s ⟨bs, true⟩ o jobs).1) (by rw [← hc])
  rw [inputLines, if_pos (by simpa using ho)] at hl
  have := List.mem_append_left (linesOf w o.inputs) herr
  rw [hl] at this
  obtain ⟨_, _, h⟩ := List.mem_map.1 this
  cases h

/-- A filter file whose reading fails makes `show` fail too. -/
theorem C84_show_reports (fmt : Fmt) (env : Env) (w : World) (file : Path) (h : Broken w file)
    (ls : List String) : Cli.show fmt env w file ≠ .ok ls := by
  intro hs
  unfold Cli.show at hs
  simp only [Res.bind_eq_ok] at hs
  obtain ⟨r, ho, b, hb, _⟩ := hs
  exact h.not_loaded ho hb

/-- `insert` ends, whatever the files, once every thread made enough steps. -/
theorem C84_insert_ends (env : Env) (w : World) (stdin : Stdin) (o : Insert) (jobs : ℕ) :
    ∃ N, ∀ s, Fair o.inputs.length N s → (Cli.insert env w s stdin o jobs).2 ≠ none := by
  unfold Cli.insert
  split
  · rename_i bf _
    obtain ⟨N, hN⟩ := parallelInsert_fair env w bf o.inputs jobs
    refine ⟨N, fun s hs => ?_⟩
    rw [hN s hs]
    rcases insertFiles env bf w o.inputs jobs with g | e | _ <;> simp
  · exact ⟨0, by simp⟩
  · exact ⟨0, by simp⟩

/-- `check` ends. -/
theorem C84_check_ends (env : Env) (w : World) (stdin : Stdin) (o : Check) (jobs : ℕ) :
    ∃ N, ∀ s, Fair o.inputs.length N s → (check env w s stdin o jobs).2 ≠ none := by
  unfold check
  split
  · rename_i bf _
    split
    · rename_i p _
      unfold checkFiles
      by_cases he : o.inputs.isEmpty = true
      · exact ⟨0, by simp [he]⟩
      · rcases hb : batches o.inputs jobs with bs | e | _
        · obtain ⟨N, hN⟩ := runCheckers_fair env w bf o bs
          obtain ⟨_, hfl, hne, _⟩ := batches_spec hb
          refine ⟨N, fun s hs => ?_⟩
          have hlen := length_le_flatten hne
          rw [hfl] at hlen
          obtain ⟨r, hr⟩ := hN s (fun i hi => hs i (by omega))
          simp [he, hr]
        · exact ⟨0, by simp [he]⟩
        · exact ⟨0, by simp [he]⟩
    · exact ⟨0, by simp⟩
    · exact ⟨0, by simp⟩
  · exact ⟨0, by simp⟩
  · exact ⟨0, by simp⟩

/-- `create` ends if no file of the dataset can be opened without being readable to its end.  What is
missing: any other dataset, for which it is false (below). -/
theorem C84_create_ends_partial (env : Env) (w : World) (o : Create) (jobs : ℕ)
    (h : ∀ f ∈ o.dataset, ¬ Broken w f) :
    ∃ N, ∀ s, Fair o.dataset.length N s → (create env w s o jobs).2 ≠ none := by
  unfold create
  split
  · split
    · rename_i b _
      obtain ⟨N, hN⟩ := parallelInsert_fair env w b o.dataset jobs
      refine ⟨N, fun s hs => ?_⟩
      rw [hN s hs]
      rcases insertFiles env b w o.dataset jobs with g | e | _ <;> simp
    · exact ⟨0, by simp⟩
    · exact ⟨0, by simp⟩
    · rename_i hn
      exfalso
      unfold createFilter at hn
      split at hn
      · cases hn
      · split at hn
        · cases hn
        · cases hn
        · cases hn
        · rename_i hc
          rw [countLinesParallel_eq] at hc
          exact countBatch_ne_none h hc
  · exact ⟨0, by simp⟩
  · exact ⟨0, by simp⟩

/-- `create` never ends, and writes nothing, if the first file of the dataset that cannot be read to
its end can be opened: counting its lines goes on forever. -/
theorem C84_create_never (env : Env) (w : World) (s : Schedule) (o : Create) (jobs : ℕ)
    (hg : w.fs o.file = none ∨ ∃ bs b, w.open o.file = .ok (Reader.ofBytes bs) ∧
      Bloom.fromReader env (Reader.ofBytes bs) = .ok b)
    {pre post : List Path} {f : Path} (hd : o.dataset = pre ++ f :: post) (hp : AllRead w pre)
    (hf : Broken w f) : create env w s o jobs = (w, none) := by
  have hguard : createGuard env w o.file = .ok () := by
    unfold createGuard
    rcases hg with h | ⟨bs, b, h1, h2⟩
    · rw [h]
    · rw [open_ok h1, h1]
      simp only [h2]
  obtain ⟨bs, k, _, _, _, ho⟩ := hf.open
  have hc : countLinesParallel w o.dataset jobs = none := by
    rw [countLinesParallel_eq, hd, countBatch_append w hp, countBatch, ho]
    rfl
  unfold create createFilter
  rw [hguard, hc, if_neg (by rw [hd]; simp)]

/-- If it cannot be opened, `create` reports that at once. -/
theorem C84_create_missing (env : Env) (w : World) (s : Schedule) (o : Create) (jobs : ℕ)
    (hg : w.fs o.file = none ∨ ∃ bs b, w.open o.file = .ok (Reader.ofBytes bs) ∧
      Bloom.fromReader env (Reader.ofBytes bs) = .ok b)
    {pre post : List Path} {f : Path} (hd : o.dataset = pre ++ f :: post) (hp : AllRead w pre)
    {e : Error} (hf : w.open f = .err e) : create env w s o jobs = (w, some (.err e)) := by
  have hguard : createGuard env w o.file = .ok () := by
    unfold createGuard
    rcases hg with h | ⟨bs, b, h1, h2⟩
    · rw [h]
    · rw [open_ok h1, h1]
      simp only [h2]
  have hc : countLinesParallel w o.dataset jobs = some (.err e) := by
    rw [countLinesParallel_eq, hd, countBatch_append w hp, countBatch, hf]
  unfold create createFilter
  rw [hguard, hc, if_neg (by rw [hd]; simp)]

theorem countBatch_none {w : World} {files : List Path} (h : countBatch w files = none) :
    ∃ pre f post, files = pre ++ f :: post ∧ AllRead w pre ∧ Broken w f := by
  induction files with
  | nil => cases h
  | cons f fs ih =>
    by_cases hf : Broken w f
    · exact ⟨[], f, fs, rfl, by simp [AllRead], hf⟩
    · rw [countBatch] at h
      rcases ho : w.open f with r | e | _
      · obtain ⟨bs, rfl⟩ := not_broken_read hf ho
        rw [ho] at h
        simp only [countLines, Reader.ofBytes] at h
        obtain ⟨pre, g, post, h1, h2, h3⟩ := ih (by
          rcases hc : countBatch w fs with _ | n | e | _
          · rfl
          all_goals rw [hc] at h; cases h)
        refine ⟨f :: pre, g, post, by rw [h1]; rfl, ?_, h3⟩
        intro x hx
        rcases List.mem_cons.mp hx with rfl | hx
        · exact ⟨bs, ho⟩
        · exact h2 x hx
      · rw [ho] at h; cases h
      · rw [ho] at h; cases h

theorem exists_fair (n N : ℕ) : ∃ s, Fair n N s := by
  refine ⟨(List.range n).flatMap fun i => List.replicate N i, fun i hi => ?_⟩
  rw [List.count_flatMap]
  have : N = ((List.count i) ∘ fun i => List.replicate N i) i := by simp
  conv_lhs => rw [this]
  exact List.single_le_sum (by simp) _ (List.mem_map.mpr ⟨i, by simpa using hi, rfl⟩)

/-- Exactly when `create` ends, whatever the schedule (if it is fair): unless the output file is missing
or a filter, and the first file of the dataset that cannot be read to its end can be opened. -/
theorem C84_create_exact (env : Env) (w : World) (o : Create) (jobs : ℕ) :
    (∃ N, ∀ s, Fair o.dataset.length N s → (create env w s o jobs).2 ≠ none) ↔
      ¬ ((w.fs o.file = none ∨ ∃ bs b, w.open o.file = .ok (Reader.ofBytes bs) ∧
          Bloom.fromReader env (Reader.ofBytes bs) = .ok b) ∧
        ∃ pre f post, o.dataset = pre ++ f :: post ∧ AllRead w pre ∧ Broken w f) := by
  constructor
  · rintro ⟨N, hN⟩ ⟨hg, pre, f, post, hd, hp, hf⟩
    obtain ⟨s, hs⟩ := exists_fair o.dataset.length N
    exact hN s hs (by rw [C84_create_never env w s o jobs hg hd hp hf])
  · intro h
    unfold create
    rcases hg : createGuard env w o.file with u | e | _
    · rcases hc : createFilter env w o jobs with _ | b | e | _
      · exfalso
        refine h ⟨?_, ?_⟩
        · unfold createGuard at hg
          rcases hf : w.fs o.file with _ | x
          · exact .inl rfl
          · right
            rw [hf] at hg
            simp only at hg
            rcases ho : w.open o.file with r | e | _
            · rw [ho] at hg
              simp only at hg
              rcases hb : Bloom.fromReader env r with b | e | _
              · obtain ⟨bs, rfl, _⟩ := open_loaded ho hb
                exact ⟨bs, b, rfl, hb⟩
              · rw [hb] at hg; cases hg
              · rw [hb] at hg; cases hg
            · rw [ho] at hg; cases hg
            · rw [ho] at hg; cases hg
        · unfold createFilter at hc
          split at hc
          · cases hc
          · split at hc
            · cases hc
            · cases hc
            · cases hc
            · rename_i hn
              rw [countLinesParallel_eq] at hn
              exact countBatch_none hn
      · obtain ⟨N, hN⟩ := parallelInsert_fair env w b o.dataset jobs
        refine ⟨N, fun s hs => ?_⟩
        simp only
        rw [hN s hs]
        rcases insertFiles env b w o.dataset jobs with g | e | _ <;> simp
      · exact ⟨0, by simp⟩
      · exact ⟨0, by simp⟩
    · exact ⟨0, by simp⟩
    · exact ⟨0, by simp⟩

namespace Sample

/-- A text file, a directory, and a file whose reading fails in its second line. -/
def world4 : World where
  fs := fun p => if p = "x" then some [97#8, 10#8] else if p = "dir" then some []
    else if p = "bad" then some [97#8, 10#8, 98#8, 10#8, 99#8] else none
  access := fun p => if p = "dir" then .upTo 0 else if p = "bad" then .upTo 3 else .full
  creatable := fun _ => true
  disk := none
  cpus := 2
  cpus_pos := by decide

theorem dir_broken : Broken world4 "dir" := ⟨[], 0, rfl, rfl, le_rfl⟩

end Sample

/-- So `create` does not end for every dataset: with a directory among the files it never does. -/
theorem C84_create_violated : ∃ (w : World) (o : Create) (jobs : ℕ), ∀ s,
    create Sample.env w s o jobs = (w, none) :=
  ⟨Sample.world4, ⟨2, 0, Sample.p001, 0, "out", ["x", "dir"]⟩, 1, fun s =>
    C84_create_never _ _ s _ 1 (Or.inl rfl) (pre := ["x"]) (post := []) rfl (by
      intro f hf
      rw [List.mem_singleton] at hf
      subst hf
      exact ⟨_, rfl⟩) Sample.dir_broken⟩

example : linesOf Sample.world4 ["bad"] = [.ok [97#8], .err (.ioError .other)] := by decide +kernel
example (s : Schedule) := C84_insert_reports Sample.env Sample.world4 s ⟨[], false⟩ ⟨false, "x", ["dir"]⟩ 1
  (Or.inr ⟨"dir", by simp, Sample.dir_broken⟩)
-- the line before the failure is read, and then the command fails
example : (Stdin.mk [97#8, 10#8, 98#8] true).lines = [.ok [97#8], .err (.ioError .other)] := by
  decide +kernel
example (s : Schedule) := (C84_stdin_reports Sample.env Sample.world4 s [97#8, 10#8, 98#8] 1).1
  ⟨true, "x", ["x"]⟩ (.inl rfl)
example : ∃ N, ∀ s, Fair 1 N s → (create Sample.env Sample.world4 s
    ⟨2, 0, Sample.p001, 0, "out", ["x"]⟩ 1).2 ≠ none :=
  C84_create_ends_partial Sample.env Sample.world4 ⟨2, 0, Sample.p001, 0, "out", ["x"]⟩ 1 (by
    intro f hf
    have hf : f = "x" := by simpa using hf
    rintro ⟨bs, k, _, h, _⟩
    subst hf
    cases h)
example (s : Schedule) : create Sample.env Sample.world4 s
    ⟨2, 0, Sample.p001, 0, "out", ["missing", "dir"]⟩ 1
      = (Sample.world4, some (.err (.ioError .notFound))) :=
  C84_create_missing _ _ s _ 1 (Or.inl rfl) (pre := []) (post := ["dir"]) rfl (by simp [AllRead]) rfl

end Poppy
