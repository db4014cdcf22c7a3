import Verif.Props.Jobs

/-! # Piping files to the tool instead of naming them (C112) -/

namespace Spec

/-- Texts that can be put behind each other without joining lines: each but the last is empty or
ends with a line feed. -/
def Joinable : List (List Poppy.U8) → Prop
  | [] => True
  | [_] => True
  | a :: b :: rest => (a = [] ∨ a.getLast? = some 10#8) ∧ Joinable (b :: rest)

end Spec

namespace Poppy

open Spec Abs Cli

/-- The lines of one text followed by another are the lines of both, exactly if the first is empty
or ends with a line feed, or the second is empty. -/
theorem C112_lines (a b : List U8) :
    lines (a ++ b) = lines a ++ lines b ↔ a = [] ∨ a.getLast? = some 10#8 ∨ b = [] := by
  obtain ⟨ls, last, h1, h2, rfl⟩ := exists_unlines a
  obtain ⟨ls', last', h1', h2', rfl⟩ := exists_unlines b
  by_cases hl : last = []
  · subst hl
    have e : unlines ls [] ++ unlines ls' last' = unlines (ls ++ ls') last' := by
      simp [unlines, List.append_assoc]
    rw [e, lines_unlines (by
      intro l hl
      rcases List.mem_append.1 hl with h | h
      · exact h1 l h
      · exact h1' l h) h2', lines_unlines h1 h2, lines_unlines h1' h2']
    refine ⟨fun _ => ?_, fun _ => by simp [List.append_assoc]⟩
    rcases List.eq_nil_or_concat ls with rfl | ⟨l0, x, rfl⟩
    · exact Or.inl rfl
    · refine Or.inr (Or.inl ?_)
      simp [unlines, List.getLast?_append]
  · have hne : unlines ls last ≠ [] := by
      intro h
      unfold unlines at h
      exact hl (List.append_eq_nil_iff.1 h).2
    have hlf : (unlines ls last).getLast? ≠ some 10#8 := by
      intro h
      unfold unlines at h
      rw [List.getLast?_append, List.getLast?_eq_some_getLast hl] at h
      exact h2 (by
        have : last.getLast hl = 10#8 := by simpa using h
        show 10#8 ∈ last
        rw [← this]; exact List.getLast_mem hl)
    constructor
    · intro h
      refine Or.inr (Or.inr ?_)
      by_contra hb
      have hlen := congrArg List.length h
      rw [lines_unlines h1 h2, lines_unlines h1' h2', if_neg hl] at hlen
      cases ls' with
      | nil =>
        have hl' : last' ≠ [] := fun h => hb (by rw [h]; rfl)
        have e : unlines ls last ++ unlines [] last' = unlines ls (last ++ last') := by
          simp [unlines, List.append_assoc]
        rw [e, lines_unlines h1 (by simp [h2, h2']), if_neg (by simp [hl]), if_neg hl'] at hlen
        simp at hlen
      | cons x ls' =>
        have e : unlines ls last ++ unlines (x :: ls') last' =
            unlines (ls ++ (last ++ x) :: ls') last' := by
          simp [unlines, List.append_assoc]
        rw [e, lines_unlines (by
          intro l hl
          rcases List.mem_append.1 hl with h | h
          · exact h1 l h
          · rcases List.mem_cons.1 h with rfl | h
            · have := h1' x (by simp)
              simp [h2, this]
            · exact h1' l (by simp [h])) h2'] at hlen
        simp at hlen
    · rintro (h | h | h)
      · exact absurd h hne
      · exact absurd h hlf
      · rw [h]
        simp [lines, linesAux, readUntilLf]

/-- The lines of joinable texts put behind each other. -/
theorem C112_texts {cs : List (List U8)} (h : Joinable cs) : lines cs.flatten = cs.flatMap lines := by
  induction cs with
  | nil => rfl
  | cons a cs ih =>
    cases cs with
    | nil => simp
    | cons b rest =>
      obtain ⟨h1, h2⟩ := h
      rw [List.flatten_cons, (C112_lines a _).2 (by tauto), ih h2, List.flatMap_cons (x := a)]

theorem pipe_items {w : World} {files : List Path} {cs : List (List U8)}
    (hc : List.Forall₂ (fun f c => source w f = .whole c) files cs) (hj : Joinable cs) :
    (Source.whole cs.flatten).items = files.flatMap fun f => (source w f).items := by
  show textLines cs.flatten = _
  rw [← lines_eq, C112_texts hj]
  clear hj
  induction hc with
  | nil => rfl
  | cons h _ ih =>
    rw [List.flatMap_cons, List.flatMap_cons, ih, h, lines_eq]
    rfl

theorem pipe_source {w : World} {f : Path} {c : List U8}
    (h : w.open f = .ok (Reader.ofBytes c)) : source w f = .whole c := by
  unfold World.open at h
  unfold source
  cases hb : w.fs f with
  | none => rw [hb] at h; cases h
  | some bs =>
    rw [hb] at h
    simp only at h ⊢
    cases ha : w.access f with
    | denied => rw [ha] at h; cases h
    | full => rw [ha] at h; cases h; rfl
    | upTo k =>
      rw [ha] at h
      simp only at h ⊢
      by_cases hk : k ≤ bs.length
      · rw [if_pos hk] at h; cases h
      · rw [if_neg hk] at h ⊢; cases h; rfl

/-- `check` on the files put behind each other and piped, and on the files: it succeeds in both
cases or in neither, and prints the same lines up to their order. -/
theorem C112_check_partial {env : Env} (hs : env.Small) {w : World} {files : List Path}
    (hne : files ≠ []) {cs : List (List U8)}
    (hc : List.Forall₂ (fun f c => w.open f = .ok (Reader.ofBytes c)) files cs) (hj : Joinable cs)
    {o : Check} {stdin : Stdin} {jobs jobs' : ℕ} (hjobs : jobs' ≠ 0) {s s' : Schedule}
    {out out' : List (List U8)} {r r' : Res Unit}
    (h : check env w s ⟨cs.flatten, false⟩ { o with inputs := [] } jobs = (out, some r))
    (h' : check env w s' stdin { o with stdin := false, inputs := files } jobs' = (out', some r')) :
    (r = .ok () ↔ r' = .ok ()) ∧ (r = .ok () → out.Perm out') := by
  have hi := pipe_items (hc.imp fun f c h => pipe_source h) hj
  obtain ⟨N, hN⟩ := C85_check hs w ⟨cs.flatten, false⟩ { o with inputs := [] } jobs
  obtain ⟨N', hN'⟩ := C85_check hs w stdin { o with stdin := false, inputs := files } jobs'
  obtain ⟨_, a1, a2⟩ := hN s
  obtain ⟨_, b1, b2⟩ := hN' s'
  rw [h] at a1 a2
  rw [h'] at b1 b2
  have a1 : r = _ := Option.some.inj (a1.resolve_left fun x => by cases x.1)
  have b1 : r' = _ := Option.some.inj (b1.resolve_left fun x => by cases x.1)
  have hp : checkPrints (Bloom.machine env) w ⟨cs.flatten, false⟩ { o with inputs := [] } =
      checkPrints (Bloom.machine env) w stdin { o with stdin := false, inputs := files } := by
    unfold checkPrints stdinItems
    simp [hne, hi]
    rfl
  have hr : r = .ok () ↔ r' = .ok () := by
    rw [a1, b1]
    unfold checkCmd stdinItems
    simp only [Bool.false_eq_true, or_true, if_true, false_or, hne, if_false, hjobs, hi,
      List.map_nil, firstFailure]
    cases (source w o.file).filter (Bloom.machine env) with
    | err e => simp
    | panic => simp
    | ok a =>
      simp only
      cases firstFailure ((files.flatMap fun f => (source w f).items).map (a.ask _)) <;> simp
  refine ⟨hr, fun h1 => ?_⟩
  subst h1
  have h2 : r' = .ok () := hr.1 rfl
  subst h2
  exact (a2 rfl).trans (hp ▸ (b2 rfl).symm)

/-- `insert` of the files put behind each other and piped, and of the files with one job: the same
file is stored, or it fails in both cases. -/
theorem C112_insert_partial {env : Env} (hs : env.Small) {w w1 w2 : World} {files : List Path}
    (hne : files ≠ []) {cs : List (List U8)}
    (hc : List.Forall₂ (fun f c => w.open f = .ok (Reader.ofBytes c)) files cs) (hj : Joinable cs)
    {o : Cli.Insert} {stdin : Stdin} {jobs : ℕ} {s s' : Schedule} {r r' : Res Unit}
    (h : Cli.insert env w s ⟨cs.flatten, false⟩ { o with inputs := [] } jobs = (w1, some r))
    (h' : Cli.insert env w s' stdin { o with stdin := false, inputs := files } 1 = (w2, some r')) :
    w1 = w2 ∧ (r = .ok () ↔ r' = .ok ()) := by
  have hi := pipe_items (hc.imp fun f c h => pipe_source h) hj
  obtain ⟨N, hN⟩ := C85_insert hs w ⟨cs.flatten, false⟩ { o with inputs := [] } jobs
  obtain ⟨N', hN'⟩ := C85_insert hs w stdin { o with stdin := false, inputs := files } 1
  rcases hN s with ⟨e, _⟩ | ⟨_, _, e, a1⟩
  · rw [h] at e; simp at e
  rcases hN' s' with ⟨e', _⟩ | ⟨_, _, e', b1⟩
  · rw [h'] at e'; simp at e'
  rw [h] at e
  rw [h'] at e'
  cases e
  cases e'
  have hd : deal 1 files = [files] := by
    have hl := List.length_pos_iff.2 hne
    unfold deal
    rw [Nat.div_one, max_eq_left (by omega),
      show (files.length + files.length - 1) / files.length = 1 from by
        rw [Nat.div_eq_iff hl]; omega]
    simp
  have ha : insertCmd (Bloom.machine env) w ⟨cs.flatten, false⟩ { o with inputs := [] } jobs =
      match (source w o.file).filter (Bloom.machine env) with
      | .err e => .err e
      | .panic => .panic
      | .ok a => a.feed (Bloom.machine env) (files.flatMap fun f => (source w f).items) := by
    unfold insertCmd stdinItems
    simp only [or_true, if_true, Bool.false_eq_true, if_false, hi]
    cases (source w o.file).filter (Bloom.machine env) with
    | err e => rfl
    | panic => rfl
    | ok a =>
      simp only
      cases a.feed (Bloom.machine env) (files.flatMap fun f => (source w f).items) with
      | err e => rfl
      | panic => rfl
      | ok b => simp [F.feedFiles]
  have hb : insertCmd (Bloom.machine env) w stdin { o with stdin := false, inputs := files } 1 =
      match (source w o.file).filter (Bloom.machine env) with
      | .err e => .err e
      | .panic => .panic
      | .ok a =>
        match a.feed (Bloom.machine env) (files.flatMap fun f => (source w f).items) with
        | .ok b => .ok b
        | _ => .panic := by
    unfold insertCmd stdinItems
    simp only [Bool.false_eq_true, false_or, hne, if_false]
    cases (source w o.file).filter (Bloom.machine env) with
    | err e => rfl
    | panic => rfl
    | ok a =>
      simp only [F.feed, F.feedFiles, hne, if_false, if_neg one_ne_zero, hd, List.map_cons, List.map_nil]
      cases a.feed (Bloom.machine env) (files.flatMap fun f => (source w f).items) with
      | err e => rfl
      | panic => rfl
      | ok b => rfl
  rw [ha] at a1
  rw [hb] at b1
  cases hf : (source w o.file).filter (Bloom.machine env) with
  | err e =>
    rw [hf] at a1 b1
    cases a1; cases b1; simp
  | panic =>
    rw [hf] at a1 b1
    cases a1; cases b1; simp
  | ok a =>
    rw [hf] at a1 b1
    simp only at a1 b1
    cases hg : a.feed (Bloom.machine env) (files.flatMap fun f => (source w f).items) with
    | err e =>
      rw [hg] at a1 b1
      cases a1; cases b1; simp
    | panic =>
      rw [hg] at a1 b1
      cases a1; cases b1; simp
    | ok b =>
      rw [hg] at a1 b1
      have := a1.trans b1.symm
      rw [Prod.mk.injEq] at this
      exact ⟨this.1, by rw [this.2]⟩

/-- With any number of jobs, if both succeed, the files stored differ in the estimated number of
entries at most. -/
theorem C112_jobs_partial {env : Env} (hs : env.Small) {w w1 w2 : World} (hd : w.disk = none)
    {files : List Path} (hne : files ≠ []) {cs : List (List U8)}
    (hc : List.Forall₂ (fun f c => w.open f = .ok (Reader.ofBytes c)) files cs) (hj : Joinable cs)
    {o : Cli.Insert} {stdin : Stdin} {jobs jobs' : ℕ} {s s' : Schedule}
    (h : Cli.insert env w s ⟨cs.flatten, false⟩ { o with inputs := [] } jobs = (w1, some (.ok ())))
    (h' : Cli.insert env w s' stdin { o with stdin := false, inputs := files } jobs'
      = (w2, some (.ok ()))) :
    ∃ bs bs', w1.fs o.file = some bs ∧ w2.fs o.file = some bs' ∧ SameButCount bs bs' := by
  obtain ⟨N, hN⟩ := C84_insert_ends env w stdin { o with stdin := false, inputs := files } 1
  let s1 : Schedule := (List.range files.length).flatMap fun i => List.replicate N i
  have hf : Fair files.length N s1 := by
    intro i hi
    have hsub : (List.replicate N i).Sublist s1 :=
      List.sublist_flatten_of_mem (List.mem_map.2 ⟨i, List.mem_range.2 hi, rfl⟩)
    have := hsub.count_le i
    simpa using this
  have hn := hN s1 hf
  rcases hx : Cli.insert env w s1 stdin { o with stdin := false, inputs := files } 1 with ⟨w3, _ | r3⟩
  · rw [hx] at hn; exact absurd rfl hn
  obtain ⟨rfl, hr3⟩ := C112_insert_partial hs hne hc hj h hx
  have hr3 : r3 = .ok () := hr3.1 rfl
  subst hr3
  rcases insert_cases env w s1 stdin { o with stdin := false, inputs := files } 1 with
    ⟨-, n⟩ | ⟨bs, b, b', bf, a0, a1, a2, a3, -, a4⟩
  · exact absurd (by rw [hx]) n
  rcases insert_cases env w s' stdin { o with stdin := false, inputs := files } jobs' with
    ⟨-, n⟩ | ⟨cs, c, c', cf, b0, b1, b2, b3, -, b4⟩
  · exact absurd (by rw [h']) n
  rw [a0] at b0
  rw [← Res.ok.inj b0, a1] at b1
  obtain rfl := Res.ok.inj b1
  have he : (false || files.isEmpty) = false := by simpa using hne
  have e1 : b = b' := by simpa [hne] using a2
  have e2 : b = c' := by simpa [hne] using b2
  subst e1
  subst e2
  have key := parallel_same hs (.load a1) a3 b3
  rw [hx] at a4
  rw [h'] at b4
  have k1 : w1 = _ := congrArg Prod.fst a4
  have k2 : w2 = _ := congrArg Prod.fst b4
  refine ⟨bf.file, cf.file, ?_, ?_, key⟩
  · rw [k1, written_at, written_out, hd]
  · rw [k2, written_at, written_out, hd]

namespace Sample

/-- Two files of one line each, the first ended by a line feed, and a filter created from them. -/
def ended2 : World :=
  let w := { twoFiles with
    fs := fun p => if p = "x" then some [97#8, 10#8] else if p = "y" then some [98#8] else none }
  (main libs env w (jobsRun (.create ⟨1, 0, p001, 0, "out", ["x", "y"]⟩) 1)).1

/-- Two files of one line each without line feeds, and a filter created from them. -/
def open2 : World :=
  (main libs env twoFiles (jobsRun (.create ⟨1, 0, p001, 0, "out", ["x", "y"]⟩) 1)).1

end Sample

theorem Sample.open_of {w : World} {f : Path} {bs : List U8} (h : w.fs f = some bs)
    (ha : (match w.access f with | .full => true | _ => false) = true) :
    w.open f = .ok (Reader.ofBytes bs) := by
  unfold World.open
  rw [h]
  cases hc : w.access f with
  | full => rfl
  | denied => rw [hc] at ha; cases ha
  | upTo k => rw [hc] at ha; cases ha

/-- Without the condition it is false: two files without final line feed, whose lines are found, are
one line when piped, which is not found. -/
theorem C112_violated : ∃ (env : Env) (w : World) (o : Check) (s : Schedule),
    w.open "x" = .ok (Reader.ofBytes [97#8]) ∧ w.open "y" = .ok (Reader.ofBytes [98#8]) ∧
    check env w s ⟨[], false⟩ { o with stdin := false, inputs := ["x", "y"] } 1
      = ([[97#8], [98#8]], some (.ok ())) ∧
    check env w s ⟨[[97#8], [98#8]].flatten, false⟩ { o with inputs := [] } 1 = ([], some (.ok ())) :=
  ⟨Sample.env, Sample.open2, ⟨false, false, false, "out", []⟩, [0, 0, 0, 0, 0, 0, 0],
    Sample.open_of (by decide +kernel) (by decide +kernel),
    Sample.open_of (by decide +kernel) (by decide +kernel), by decide +kernel⟩

-- with the line feed
example : List.Forall₂ (fun f c => Sample.ended2.open f = .ok (Reader.ofBytes c)) ["x", "y"]
      [[97#8, 10#8], [98#8]] ∧
    Joinable [[97#8, 10#8], [98#8]] ∧
    check Sample.env Sample.ended2 [0, 0, 0, 0, 0, 0, 0] ⟨[], false⟩ ⟨false, false, false, "out", ["x", "y"]⟩ 1
      = ([[97#8], [98#8]], some (.ok ())) ∧
    check Sample.env Sample.ended2 [] ⟨[97#8, 10#8, 98#8], false⟩ ⟨false, false, false, "out", []⟩ 1
      = ([[97#8], [98#8]], some (.ok ())) := by
  refine ⟨.cons (Sample.open_of (by decide +kernel) (by decide +kernel))
    (.cons (Sample.open_of (by decide +kernel) (by decide +kernel)) .nil), ⟨Or.inr rfl, trivial⟩, ?_⟩
  decide +kernel
example : (Cli.insert Sample.env Sample.ended2 [0, 0, 0, 0, 0, 0, 0] ⟨[], false⟩
      ⟨false, "out", ["x", "y"]⟩ 1).2 = some (.ok ()) ∧
    (Cli.insert Sample.env Sample.ended2 [] ⟨[97#8, 10#8, 98#8], false⟩ ⟨false, "out", []⟩ 1).2
      = some (.ok ()) := by decide +kernel

end Poppy
