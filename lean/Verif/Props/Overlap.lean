import Verif.Lemmas.Overlap
import Verif.Props.Jobs

/-! # C92 Runs that overlap -/

namespace Poppy

open Spec Abs Cli

/-- Whatever is found in the filter file while runs of `insert` go on, if it can be loaded at all it
has the parameters of the filter that was there, and contains what that one contained. -/
theorem C92_members_partial {env : Env} (hs : env.Small) {f g : Bloom} (hf : f.Reach env)
    {bs : List U8} (hc : Content env f.file bs)
    (hg : Bloom.fromReader env (Reader.ofBytes bs) = .ok g) :
    g.version = f.version ∧ g.capacity = f.capacity ∧ g.fpp = f.fpp ∧
      ∀ k, f.containsBytes env k = .ok true → g.containsBytes env k = .ok true := by
  have r := Bloom.over_load hs hf (content_over hs hf hc) hg
  refine ⟨?_, ?_, ?_, fun k hk => Bloom.rel_contains hs hf (.load hg) r hk⟩
  all_goals cases f <;> cases g <;> first | exact absurd r id | skip
  · rfl
  · rfl
  · exact BitVec.eq_of_toNat_eq r.cap
  · exact BitVec.eq_of_toNat_eq r.cap
  · exact r.fpp
  · exact r.fpp

/-- Reading the file while a single run of `insert` is saving it: each byte is one of the old or one
of the new file.  If what was read can be loaded, it contains what the old filter contained, and
nothing that the new one does not contain. -/
theorem C92_reading {env : Env} (hs : env.Small) {f : Bloom} (hf : f.Reach env) {w : World}
    {s : Schedule} {stdin : Stdin} {o : Insert} {jobs : ℕ} (hw : w.fs o.file = some f.file)
    {new : List U8} (hn : (Cli.insert env w s stdin o jobs).1.fs o.file = some new)
    {pieces : List (List U8)} (hp : pieces.flatten = new) {bs : List U8}
    (hb : Saw (Moment f.file (saving pieces)) bs) :
    Content env f.file bs ∧
    ∀ x, Bloom.fromReader env (Reader.ofBytes bs) = .ok x →
      (∀ k, f.containsBytes env k = .ok true → x.containsBytes env k = .ok true) ∧
      (w.disk = none → ∃ y, Bloom.fromReader env (Reader.ofBytes new) = .ok y ∧
        ∀ k, x.containsBytes env k = .ok true → y.containsBytes env k = .ok true) := by
  have hm : ∀ (i : ℕ) (b : U8), bs[i]? = some b → f.file[i]? = some b ∨ new[i]? = some b := by
    intro i b h
    obtain ⟨c, hc, hi⟩ := hb i b h
    rcases moment_saving hc with rfl | ⟨t, ht⟩
    · exact Or.inl hi
    · right
      rw [← hp, ← ht, List.getElem?_append_left (List.getElem?_eq_some_iff.1 hi).1, hi]
  have hcn : Content env f.file new := .inserted .old hw hn
  have mix : ∀ {P : List U8 → Prop}, P f.file → P new → ∃ src : ℕ → List U8, (∀ i, P (src i)) ∧
      ∀ (i : ℕ) (b : U8), bs[i]? = some b → (src i)[i]? = some b := by
    intro P h1 h2
    refine ⟨fun i => if bs[i]? = f.file[i]? then f.file else new, fun i => ?_, fun i b h => ?_⟩
    · beta_reduce
      split <;> assumption
    · beta_reduce
      split
      · rename_i e; rw [← e, h]
      · rename_i e
        rcases hm i b h with h' | h'
        · rw [h, h'] at e; exact absurd rfl e
        · exact h'
  have hc : Content env f.file bs := by
    obtain ⟨src, h1, h2⟩ := mix (P := Content env f.file) .old hcn
    exact .mixed src h1 h2
  refine ⟨hc, fun x hx => ⟨(C92_members_partial hs hf hc hx).2.2.2, fun hd => ?_⟩⟩
  -- the new file is that of a filter
  have hg : ∃ g : Bloom, g.Reach env ∧ new = g.file := by
    rcases insert_cases env w s stdin o jobs with ⟨e, _⟩ | ⟨bs', b, b', bf, a1, a2, a3, a4, _, a5⟩
    · rw [e, hw] at hn
      cases hn
      exact ⟨f, hf, rfl⟩
    · refine ⟨bf, ?_, ?_⟩
      · refine insertFiles_reach ?_ (parallelInsert_some a4).symm
        split at a3
        · obtain ⟨es, _, _, rfl⟩ := insertLines_ok a3
          exact (Bloom.Reach.load a2).inserts es
        · cases a3
          exact .load a2
      · rw [a5] at hn
        have hn : some (bf.write ⟨[], w.disk⟩).1.out = some new := by
          simpa [World.written] using hn
        rw [Option.some.injEq, written_out, hd] at hn
        exact hn.symm
  obtain ⟨g, hgr, rfl⟩ := hg
  obtain ⟨y, hy, hyc⟩ := Bloom.Grows.reload hs hgr
  refine ⟨y, hy, fun k hk => ?_⟩
  have rfy := Bloom.over_load hs hf (content_over hs hf hcn) hy
  have hover : Over (fun a b => Le b a) g.file bs := by
    have h1 : Over (fun a b => Le b a) g.file g.file := fun p _ => ⟨fun _ => rfl, fun _ h => h⟩
    have h2 : Over (fun a b => Le b a) g.file f.file := by
      have e : Over Eq g.file g.file := fun p _ => ⟨fun _ => rfl, fun _ => rfl⟩
      have q := (Bloom.over_load hs hgr e hy).flip
      have r : Rel Le f.view g.view := Rel.trans (fun _ _ _ h e h' => e ▸ h h') rfy q
      exact Bloom.over_file hs hgr hf r.flip
    obtain ⟨src, h1, h2⟩ := mix h2 h1
    exact Over.mixed src h1 h2
  have r := Bloom.over_load hs hgr hover hx
  exact hyc.contains k (Bloom.rel_contains hs (.load hx) hgr r.flip hk)

/-- When several runs have saved, in whatever interleaving, the file is one of the contents above:
nothing that was contained before is lost. -/
theorem C92_saved {env : Env} {f : Bloom} {n L : ℕ} (hn : 0 < n) {pieces : ℕ → List (List U8)}
    (hc : ∀ p < n, Content env f.file (pieces p).flatten)
    (hl : ∀ p < n, (pieces p).flatten.length = L) {ops : List (ℕ × FileOp)}
    (h : Interleaves (fun p => if p < n then saving (pieces p) else []) ops) (c : List U8) :
    (after c (ops.map Prod.snd)).length = L ∧ Content env f.file (after c (ops.map Prod.snd)) := by
  obtain ⟨h1, h2⟩ := interleaved_saving hn hl h c
  refine ⟨h1, ?_⟩
  have : ∀ i, ∃ p < n, i < L → (after c (ops.map Prod.snd))[i]? = (pieces p).flatten[i]? := by
    intro i
    cases hi : (after c (ops.map Prod.snd))[i]? with
    | none => exact ⟨0, hn, fun h => by rw [List.getElem?_eq_none_iff] at hi; omega⟩
    | some b =>
      obtain ⟨p, hp, e⟩ := h2 i b hi
      exact ⟨p, hp, fun _ => e.symm⟩
  choose p hp he using this
  refine .mixed (fun i => (pieces (p i)).flatten) (fun i => hc _ (hp i)) fun i b hb => ?_
  rw [← he i (by rw [← h1]; exact (List.getElem?_eq_some_iff.1 hb).1), hb]

/-- `check` during runs of `insert`: if it succeeds, it printed the lines that the old filter
contained. -/
theorem C92_check {env : Env} (hs : env.Small) {f : Bloom} (hf : f.Reach env) {w : World}
    {s : Schedule} {stdin : Stdin} {o : Check} {jobs : ℕ} {bs : List U8}
    (hw : w.fs o.file = some bs) (hc : Content env f.file bs) {out : List (List U8)}
    (h : check env w s stdin o jobs = (out, some (.ok ()))) (hv : o.verify = false)
    (hsi : o.silent = false) {k : List U8}
    (hk : .ok k ∈ inputLines w stdin o.stdin o.inputs) (hm : f.containsBytes env k = .ok true) :
    k ∈ out := by
  obtain ⟨bs', g, es, h1, h2, _, h4, h5⟩ := C59_printed h
  have e := open_ok h1
  rw [hw] at e
  cases e
  have hg := (C92_members_partial hs hf hc h2).2.2.2 k hm
  rw [h5.mem_iff]
  simp only [toPrint, hv, hsi, Bool.false_eq_true, if_false, List.mem_filter, decide_eq_true_eq]
  refine ⟨?_, hg⟩
  rw [h4] at hk
  obtain ⟨k', hk', e⟩ := List.mem_map.1 hk
  cases e
  exact hk'

namespace Sample

/-- `poppy insert out x`, one thread. -/
def insertRun (w : World) (x : Path) : World × Option (Res Unit) :=
  Cli.insert env w [0, 0, 0, 0, 0, 0] ⟨[], false⟩ ⟨false, "out", [x]⟩ 1

/-- The filter file. -/
def outFile (w : World) : List U8 := (w.fs "out").getD []

/-- Whether the filter that these bytes hold contains the line. -/
def holds (bs k : List U8) : Option Bool :=
  match Bloom.fromReader env (Reader.ofBytes bs) with
  | .ok f => match f.containsBytes env k with
    | .ok b => some b
    | _ => none
  | _ => none

theorem holds_some {bs k : List U8} {b : Bool} (h : holds bs k = some b) :
    ∃ g, Bloom.fromReader env (Reader.ofBytes bs) = .ok g ∧ g.containsBytes env k = .ok b := by
  unfold holds at h
  split at h
  · rename_i f hf
    split at h
    · rename_i c hc
      cases h
      exact ⟨f, hf, hc⟩
    · cases h
  · cases h

/-- An empty filter, and the file after `a` was inserted. -/
def base : World := stored 10
def withA : World := (insertRun base "x").1

end Sample

/-- Two runs that both load the filter before either of them saves, and save one after the other:
both succeed, and a line given to the first one is not contained in the filter afterwards. -/
theorem C92_lost_violated : ∃ (env : Env) (w : World) (s : Schedule) (stdin : Stdin)
    (o₁ o₂ : Insert) (jobs : ℕ) (old a b k : List U8) (g : Bloom),
    o₁.file = o₂.file ∧ w.fs o₁.file = some old ∧
    (Cli.insert env w s stdin o₁ jobs).2 = some (.ok ()) ∧
    (Cli.insert env w s stdin o₂ jobs).2 = some (.ok ()) ∧
    (Cli.insert env w s stdin o₁ jobs).1.fs o₁.file = some a ∧
    (Cli.insert env w s stdin o₂ jobs).1.fs o₂.file = some b ∧
    .ok k ∈ inputLines w stdin o₁.stdin o₁.inputs ∧
    Bloom.fromReader env (Reader.ofBytes (after old (saving [a] ++ saving [b]))) = .ok g ∧
    g.containsBytes env k = .ok false := by
  have h : Sample.holds (after (Sample.outFile Sample.base)
      (saving [Sample.outFile (Sample.insertRun Sample.base "x").1] ++
        saving [Sample.outFile (Sample.insertRun Sample.base "y").1])) [97#8] = some false := by
    decide +kernel
  obtain ⟨g, h1, h2⟩ := Sample.holds_some h
  exact ⟨Sample.env, Sample.base, [0, 0, 0, 0, 0, 0], ⟨[], false⟩, ⟨false, "out", ["x"]⟩,
    ⟨false, "out", ["y"]⟩, 1, _, _, _, [97#8], g, rfl, by decide +kernel, by decide +kernel,
    by decide +kernel, by decide +kernel, by decide +kernel, by decide +kernel, h1, h2⟩

/-- Two runs writing at the same moment: one puts its last piece into the file that the other one
has just emptied.  At some moment the file can be loaded, and a line that was contained in the
filter before both runs is not contained. -/
theorem C92_hole_violated : ∃ (env : Env) (w : World) (s : Schedule) (stdin : Stdin)
    (o₁ o₂ : Insert) (jobs : ℕ) (old k : List U8) (f g : Bloom) (a b : List (List U8))
    (ops : List (ℕ × FileOp)) (c : List U8),
    o₁.file = o₂.file ∧ w.fs o₁.file = some old ∧
    (Cli.insert env w s stdin o₁ jobs).2 = some (.ok ()) ∧
    (Cli.insert env w s stdin o₂ jobs).2 = some (.ok ()) ∧
    (Cli.insert env w s stdin o₁ jobs).1.fs o₁.file = some a.flatten ∧
    (Cli.insert env w s stdin o₂ jobs).1.fs o₂.file = some b.flatten ∧
    Interleaves (fun p => if p = 0 then saving a else if p = 1 then saving b else []) ops ∧
    Moment old (ops.map Prod.snd) c ∧
    Bloom.fromReader env (Reader.ofBytes old) = .ok f ∧ f.containsBytes env k = .ok true ∧
    Bloom.fromReader env (Reader.ofBytes c) = .ok g ∧ g.containsBytes env k = .ok false := by
  let n := Sample.outFile (Sample.insertRun Sample.withA "y").1
  let ops : List (ℕ × FileOp) := [(0, .empty), (0, .put 0 (n.take 56)), (1, .empty),
    (0, .put 56 (n.drop 56)), (1, .put 0 (n.take 48)), (1, .put 48 (n.drop 48))]
  have hf : Sample.holds (Sample.outFile Sample.withA) [97#8] = some true := by decide +kernel
  have hg : Sample.holds (after (Sample.outFile Sample.withA) ((ops.map Prod.snd).take 5)) [97#8] =
      some false := by decide +kernel
  obtain ⟨f, f1, f2⟩ := Sample.holds_some hf
  obtain ⟨g, g1, g2⟩ := Sample.holds_some hg
  have l56 : (n.take 56).length = 56 := by decide +kernel
  have l48 : (n.take 48).length = 48 := by decide +kernel
  have hn : (Sample.insertRun Sample.withA "y").1.fs "out" = some n := by decide +kernel
  refine ⟨Sample.env, Sample.withA, [0, 0, 0, 0, 0, 0], ⟨[], false⟩, ⟨false, "out", ["y"]⟩,
    ⟨false, "out", ["y"]⟩, 1, _, [97#8], f, g, [n.take 56, n.drop 56], [n.take 48, n.drop 48], ops, _,
    rfl, by decide +kernel, by decide +kernel, by decide +kernel, ?_, ?_, ?_, ⟨5, rfl⟩, f1, f2, g1, g2⟩
  · rw [show [n.take 56, n.drop 56].flatten = n by simp]
    exact hn
  · rw [show [n.take 48, n.drop 48].flatten = n by simp]
    exact hn
  · intro p
    rcases p with _ | _ | p
    · simp [ops, saving, puts, l56]
    · simp [ops, saving, puts, l48]
    · simp [ops]

namespace Sample

/-- The filter that was there contains `a`; a run of `insert` adds `b`. -/
def oldBytes : List U8 := outFile withA
def newBytes : List U8 := outFile (insertRun withA "y").1

/-- Read in two parts: the header before the run saved, the rest afterwards. -/
def torn : List U8 := oldBytes.take 48 ++ newBytes.drop 48

theorem old_loads : ∃ f : Bloom, f.Reach env ∧ f.file = oldBytes ∧
    f.containsBytes env [97#8] = .ok true := by
  have h : (match Bloom.fromReader env (Reader.ofBytes oldBytes) with
    | .ok f => decide (f.file = oldBytes)
    | _ => false) = true := by decide +kernel
  have ha : holds oldBytes [97#8] = some true := by decide +kernel
  obtain ⟨f, hf, hk⟩ := holds_some ha
  rw [hf] at h
  exact ⟨f, .load hf, of_decide_eq_true h, hk⟩

theorem new_content : Content env oldBytes newBytes :=
  .inserted (w := withA) (s := [0, 0, 0, 0, 0, 0]) (stdin := ⟨[], false⟩)
    (o := ⟨false, "out", ["y"]⟩) (jobs := 1) .old (by decide +kernel) (by decide +kernel)

theorem torn_saw : Saw (Moment oldBytes (saving [newBytes.take 50, newBytes.drop 50])) torn := by
  have h0 : Moment oldBytes (saving [newBytes.take 50, newBytes.drop 50]) oldBytes := ⟨0, rfl⟩
  have h1 : Moment oldBytes (saving [newBytes.take 50, newBytes.drop 50]) newBytes :=
    ⟨3, by decide +kernel⟩
  have l : (oldBytes.take 48).length = 48 := by decide +kernel
  intro i b h
  unfold torn at h
  by_cases hi : i < 48
  · rw [List.getElem?_append_left (by omega), List.getElem?_take_of_lt hi] at h
    exact ⟨_, h0, h⟩
  · rw [List.getElem?_append_right (by omega), l, List.getElem?_drop,
      show 48 + (i - 48) = i by omega] at h
    exact ⟨_, h1, h⟩

end Sample

-- what was read is neither the old nor the new file, it can be loaded, and `a` is contained
example : Sample.torn ≠ Sample.oldBytes ∧ Sample.torn ≠ Sample.newBytes ∧
    Sample.holds Sample.torn [97#8] = some true ∧ Sample.holds Sample.torn [98#8] = some true ∧
    Sample.holds Sample.oldBytes [98#8] = some false := by decide +kernel

-- `C92_reading` and `C92_members_partial` apply to it
example : ∃ f g : Bloom, f.Reach Sample.env ∧ Content Sample.env f.file Sample.torn ∧
    Bloom.fromReader Sample.env (Reader.ofBytes Sample.torn) = .ok g ∧ g.capacity = f.capacity ∧
    g.containsBytes Sample.env [97#8] = .ok true := by
  obtain ⟨f, hf, e, hk⟩ := Sample.old_loads
  have h : Sample.holds Sample.torn [97#8] = some true := by decide +kernel
  obtain ⟨g, hg, _⟩ := Sample.holds_some h
  have hc := (C92_reading Sample.env_small hf (w := Sample.withA) (s := [0, 0, 0, 0, 0, 0])
    (stdin := ⟨[], false⟩) (o := ⟨false, "out", ["y"]⟩) (jobs := 1) (new := Sample.newBytes)
    (pieces := [Sample.newBytes.take 50, Sample.newBytes.drop 50]) (bs := Sample.torn)
    (by rw [e]; decide +kernel) (by decide +kernel) (by simp) (by rw [e]; exact Sample.torn_saw)).1
  have m := C92_members_partial Sample.env_small hf hc hg
  exact ⟨f, g, hf, hc, hg, m.2.1, m.2.2.2 _ hk⟩

-- `C92_saved`: two runs that save at the same time, as in `C92_hole_violated`
example : ∃ f : Bloom, f.Reach Sample.env ∧ Content Sample.env f.file
    (after f.file [.empty, .put 0 (Sample.newBytes.take 56), .empty,
      .put 56 (Sample.newBytes.drop 56), .put 0 (Sample.newBytes.take 48),
      .put 48 (Sample.newBytes.drop 48)]) := by
  obtain ⟨f, hf, e, _⟩ := Sample.old_loads
  have l56 : (Sample.newBytes.take 56).length = 56 := by decide +kernel
  have l48 : (Sample.newBytes.take 48).length = 48 := by decide +kernel
  have fl : ∀ p : ℕ, (if p = 0 then [Sample.newBytes.take 56, Sample.newBytes.drop 56]
      else [Sample.newBytes.take 48, Sample.newBytes.drop 48]).flatten = Sample.newBytes := by
    intro p; split <;> simp
  refine ⟨f, hf, (C92_saved (n := 2) (L := 64) (by decide)
    (pieces := fun p => if p = 0 then [Sample.newBytes.take 56, Sample.newBytes.drop 56]
      else [Sample.newBytes.take 48, Sample.newBytes.drop 48])
    (ops := [(0, .empty), (0, .put 0 (Sample.newBytes.take 56)), (1, .empty),
      (0, .put 56 (Sample.newBytes.drop 56)), (1, .put 0 (Sample.newBytes.take 48)),
      (1, .put 48 (Sample.newBytes.drop 48))])
    (fun p _ => ?_) (fun p _ => ?_) (fun p => ?_) f.file).2⟩
  · rw [fl, e]; exact Sample.new_content
  · rw [fl]; decide +kernel
  · rcases p with _ | _ | p
    · simp [saving, puts, l56]
    · simp [saving, puts, l48]
    · simp

-- `C92_check`: `a` is printed by a check that found the torn file
example : ∃ (f : Bloom) (w : World) (out : List (List U8)), f.Reach Sample.env ∧
    w.fs "out" = some Sample.torn ∧ Content Sample.env f.file Sample.torn ∧
    check Sample.env w [0, 0, 0, 0] ⟨[97#8, 10#8, 99#8], false⟩ ⟨true, false, false, "out", []⟩ 1 =
      (out, some (.ok ())) ∧ [97#8] ∈ out := by
  obtain ⟨f, hf, e, hk⟩ := Sample.old_loads
  have hc : Content Sample.env f.file Sample.torn := by
    rw [e]
    have l : (Sample.oldBytes.take 48).length = 48 := by decide +kernel
    refine .mixed (fun i => if i < 48 then Sample.oldBytes else Sample.newBytes) (fun i => ?_) ?_
    · split
      · exact .old
      · exact Sample.new_content
    · intro i b h
      unfold Sample.torn at h
      by_cases hi : i < 48
      · rw [List.getElem?_append_left (by omega), List.getElem?_take_of_lt hi] at h
        simpa [hi] using h
      · rw [List.getElem?_append_right (by omega), l, List.getElem?_drop,
          show 48 + (i - 48) = i by omega] at h
        simpa [hi] using h
  have hr : check Sample.env (Sample.withA.written "out" Sample.torn) [0, 0, 0, 0]
      ⟨[97#8, 10#8, 99#8], false⟩ ⟨true, false, false, "out", []⟩ 1 =
      ([[97#8]], some (.ok ())) := by decide +kernel
  have hw : (Sample.withA.written "out" Sample.torn).fs "out" = some Sample.torn := by decide +kernel
  exact ⟨f, _, _, hf, hw, hc, hr,
    C92_check Sample.env_small hf hw hc hr rfl rfl (by decide +kernel) hk⟩

end Poppy
