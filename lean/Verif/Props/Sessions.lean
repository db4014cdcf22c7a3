import Verif.Lemmas.Sessions
import Verif.Props.Bench

/-! # Sequences of commands (C74) -/

namespace Poppy

open Spec Cli

/-- Whatever commands are run in between, the filter in the file keeps its parameters and whatever
it contains. -/
theorem C74_kept {t : Libs} {env : Env} (hs : env.Small) {file : Path} {w w' : World} {f : Bloom}
    (hf : Stored env w file f) (h : Steps t env file w w') :
    ∃ g, Stored env w' file g ∧ g.version = f.version ∧ g.capacity = f.capacity ∧ g.fpp = f.fpp ∧
      (f.HasBits → g.HasBits) ∧
      ∀ k, f.containsBytes env k = .ok true → g.containsBytes env k = .ok true := by
  have key : ∃ g, Stored env w' file g ∧ f.Grows env g := by
    induction h with
    | refl => exact ⟨f, hf, .refl env f⟩
    | @step w' w'' _ st ih =>
      obtain ⟨g, hg, hgr⟩ := ih
      cases st with
      | other h =>
        obtain ⟨bs, h1, h2⟩ := hg
        exact ⟨g, ⟨bs, by rw [h, h1], h2⟩, hgr⟩
      | tool r hc hi =>
        have same : (main t env w' r).1.fs file = w'.fs file →
            ∃ g, Stored env (main t env w' r).1 file g ∧ f.Grows env g := by
          intro e
          obtain ⟨bs, h1, h2⟩ := hg
          exact ⟨g, ⟨bs, by rw [e, h1], h2⟩, hgr⟩
        cases hr : r.command with
        | create o =>
          apply same
          have hne := hc o hr
          obtain ⟨c, hw⟩ := C57_create_only_output env w' r.sched o r.jobs
          have : (main t env w' r).1 = (create env w' r.sched o r.jobs).1 := by
            unfold main; rw [hr]
          rw [this, hw]
          exact if_neg fun e => hne e.symm
        | insert o =>
          have e : (main t env w' r).1 = (Cli.insert env w' r.sched r.stdin o r.jobs).1 := by
            unfold main; rw [hr]
          by_cases ho : o.file = file
          · rcases insert_effect hs (hi o hr ho) r.sched r.stdin o r.jobs with ⟨hw, _⟩ |
              ⟨bs, f', bs', g', es, h1, h2, h3, h4, h5, _⟩
            · apply same; rw [e, hw]
            · have : g = f' := by
                refine hg.unique ?_
                rw [← ho]
                exact stored_of_open h1 h2
              subst this
              refine ⟨g', ⟨bs', ?_, h4⟩, hgr.trans h5⟩
              rw [e, h3]
              exact if_pos ho.symm
          · apply same
            obtain ⟨c, hw⟩ := C57_insert_only_filter env w' r.sched r.stdin o r.jobs
            rw [e, hw]
            exact if_neg fun e => ho e.symm
        | check o => apply same; unfold main; rw [hr]
        | bench o => apply same; unfold main; rw [hr]
        | «show» p => apply same; unfold main; rw [hr]
  obtain ⟨g, hg, hgr⟩ := key
  exact ⟨g, hg, hgr.version, hgr.capacity, hgr.fpp, hgr.hasBits.1, hgr.contains⟩

/-- A successful `insert` stores the lines it was given. -/
theorem C74_insert {t : Libs} {env : Env} (hs : env.Small) {w w' : World} (hd : w.disk = none)
    {r : Run} {o : Insert} (hr : r.command = .insert o) {p : Printed}
    (h : main t env w r = (w', p, some (.ok ()))) :
    ∃ (f g : Bloom) (es : List (List U8)), Stored env w o.file f ∧ Stored env w' o.file g ∧ AllOpen w o.inputs ∧
      inputLines w r.stdin o.stdin o.inputs = es.map Res.ok ∧ (f.HasBits ↔ g.HasBits) ∧
      (g.HasBits → ∀ k ∈ es, g.containsBytes env k = .ok true) := by
  have h' : Cli.insert env w r.sched r.stdin o r.jobs = (w', some (.ok ())) := by
    unfold main at h
    rw [hr] at h
    simp only [Prod.mk.injEq] at h
    rw [← h.1, ← h.2.2]
  rcases insert_effect hs hd r.sched r.stdin o r.jobs with ⟨_, hw⟩ |
    ⟨bs, f, bs', g, es, h1, h2, h3, h4, h5, h6, h7, h8⟩
  · rw [h'] at hw; exact absurd rfl hw
  · rw [h'] at h3
    refine ⟨f, g, es, stored_of_open h1 h2, ⟨bs', ?_, h4⟩, h6, h7, h5.hasBits,
      fun hh => h8 (h5.hasBits.2 hh)⟩
    rw [show w' = _ from h3]
    exact if_pos rfl

/-- A successful `create` stores a filter with the given parameters, containing the lines of the
dataset. -/
theorem C74_create {t : Libs} {env : Env} (hs : env.Small) {w w' : World} (hd : w.disk = none)
    {r : Run} {o : Create} (hr : r.command = .create o) {p : Printed}
    (h : main t env w r = (w', p, some (.ok ()))) :
    ∃ (g : Bloom) (es : List (List U8)), Stored env w' o.file g ∧ Reads w o.dataset es ∧ g.version = o.version ∧
      g.fpp = o.probability ∧
      g.capacity = (if o.dataset = [] then o.capacity else BitVec.ofNat 64 es.length) ∧
      (g.HasBits → ∀ k ∈ es, g.containsBytes env k = .ok true) := by
  have h' : create env w r.sched o r.jobs = (w', some (.ok ())) := by
    unfold main at h
    rw [hr] at h
    simp only [Prod.mk.injEq] at h
    rw [← h.1, ← h.2.2]
  rcases create_cases env w r.sched o r.jobs with ⟨_, h2⟩ | ⟨b, bf, _, hf, hp, _, he⟩
  · rw [h'] at h2; exact absurd rfl h2
  · rw [h'] at he
    have hw : w' = w.written o.file (bf.write ⟨[], w.disk⟩).1.out := congrArg Prod.fst he
    obtain ⟨cap, opt, _, h1, hcap⟩ := createFilter_ok hf
    obtain ⟨hb, bcap, bfpp, _⟩ := Bloom.new_spec hs h1
    have hbf : bf.Reach env := insertFiles_reach hb (parallelInsert_some hp).symm
    obtain ⟨hop, ess, _, _, e3, _⟩ := insertFiles_ok (parallelInsert_some hp).symm
    obtain ⟨g, hg, hgr⟩ := Bloom.Grows.reload hs hbf
    have gp := Bloom.Grows.parallel hs hb hp
    have gg := gp.trans hgr
    refine ⟨g, ess.flatten, ⟨bf.file, ?_, hg⟩, ⟨hop, e3⟩,
      gg.version.trans (C44_version env _ _ _ _ _ h1), gg.fpp.trans bfpp, ?_, fun hh k hk => ?_⟩
    · rw [hw, written_out, hd]; exact if_pos rfl
    · rw [gg.capacity, bcap]
      rcases hcap with ⟨h2, h3⟩ | ⟨h2, _, h3⟩
      · rw [if_pos h2, h3]
      · rw [if_neg h2, h3, e3, List.length_map]
    · apply hgr.contains
      exact (C54_members hs hb hp ⟨hop, e3⟩ k).2 (gg.hasBits.2 hh) hk

/-- From the outside: once a line was given to a successful `insert` or `create`, every later
successful `check` of it prints it, and `check --verify` never reports it, no matter which commands
were run in between. -/
theorem C74_no_false_negatives {t : Libs} {env : Env} (hs : env.Small) {file : Path}
    {w0 w1 w2 : World} (hd : w0.disk = none) {r : Run} {p : Printed}
    (h1 : main t env w0 r = (w1, p, some (.ok ()))) {line : List U8}
    (hin : (∃ o, r.command = .insert o ∧ o.file = file ∧
        Res.ok line ∈ inputLines w0 r.stdin o.stdin o.inputs) ∨
      (∃ o, r.command = .create o ∧ o.file = file ∧ Res.ok line ∈ linesOf w0 o.dataset))
    (hbits : ∀ f, Stored env w1 file f → f.HasBits)
    (hst : Steps t env file w1 w2) {r' : Run} {o' : Check} (hr' : r'.command = .check o')
    (hfile : o'.file = file) (hline : Res.ok line ∈ inputLines w2 r'.stdin o'.stdin o'.inputs)
    {w3 : World} {out : List (List U8)}
    (h2 : main t env w2 r' = (w3, .bytes out, some (.ok ()))) :
    (o'.verify = false → o'.silent = false → line ∈ out) ∧
    (o'.verify = true → line ++ [58#8, 32#8, 78#8, 79#8, 75#8] ∉ out) := by
  have hf : ∃ f, Stored env w1 file f ∧ f.containsBytes env line = .ok true := by
    rcases hin with ⟨o, hr, rfl, hl⟩ | ⟨o, hr, rfl, hl⟩
    · obtain ⟨_, g, es, _, hg, _, he, _, hc⟩ := C74_insert hs hd hr h1
      rw [he] at hl
      obtain ⟨x, hx, hxe⟩ := List.mem_map.1 hl
      cases hxe
      exact ⟨g, hg, hc (hbits g hg) _ hx⟩
    · obtain ⟨g, es, hg, hre, _, _, _, hc⟩ := C74_create hs hd hr h1
      rw [hre.2] at hl
      obtain ⟨x, hx, hxe⟩ := List.mem_map.1 hl
      cases hxe
      exact ⟨g, hg, hc (hbits g hg) _ hx⟩
  obtain ⟨f, hf, hc⟩ := hf
  obtain ⟨g, hg, _, _, _, _, hk⟩ := C74_kept hs hf hst
  have hgc := hk line hc
  have h3 : check env w2 r'.sched r'.stdin o' r'.jobs = (out, some (.ok ())) := by
    unfold main at h2
    rw [hr'] at h2
    simp only [Prod.mk.injEq, Printed.bytes.injEq] at h2
    exact check_of_checkTo h2.2.1 h2.2.2
  obtain ⟨bs, bf, es, c1, c2, _, c4, c5⟩ := C59_printed h3
  have : bf = g := by
    refine Stored.unique (stored_of_open c1 c2) ?_
    rw [hfile]; exact hg
  subst this
  rw [c4] at hline
  obtain ⟨x, hx, hxe⟩ := List.mem_map.1 hline
  cases hxe
  constructor
  · intro hv hsil
    rw [c5.mem_iff, toPrint, hv, hsil]
    simpa [hgc] using hx
  · intro hv hout
    rw [c5.mem_iff, toPrint, hv] at hout
    simp only [if_true, List.mem_map, List.mem_filter, decide_eq_true_eq] at hout
    obtain ⟨y, ⟨_, hy⟩, hye⟩ := hout
    have : y = line := List.append_cancel_right hye
    rw [this, hgc] at hy
    cases hy

/-- The same for filters of version 2, which always have bits. -/
theorem C74_v2 {t : Libs} {env : Env} (hs : env.Small) {file : Path}
    {w0 w1 w2 : World} (hd : w0.disk = none) {r : Run} {p : Printed}
    (h1 : main t env w0 r = (w1, p, some (.ok ()))) {line : List U8} {o : Create}
    (hr : r.command = .create o) (ho : o.file = file) (hv : o.version = 2#8)
    (hin : Res.ok line ∈ linesOf w0 o.dataset)
    (hst : Steps t env file w1 w2) {r' : Run} {o' : Check} (hr' : r'.command = .check o')
    (hfile : o'.file = file) (hline : Res.ok line ∈ inputLines w2 r'.stdin o'.stdin o'.inputs)
    {w3 : World} {out : List (List U8)}
    (h2 : main t env w2 r' = (w3, .bytes out, some (.ok ())))
    (hve : o'.verify = false) (hsi : o'.silent = false) : line ∈ out := by
  refine (C74_no_false_negatives hs hd h1 (Or.inr ⟨o, hr, ho, hin⟩) (fun f hf => ?_) hst hr' hfile
    hline h2).1 hve hsi
  obtain ⟨g, _, hg, _, gv, _⟩ := C74_create hs hd hr h1
  rw [ho] at hg
  have := hf.unique hg
  subst this
  cases f with
  | v1 f => rw [hv] at gv; exact absurd gv (by simp [Bloom.version])
  | v2 f => trivial

namespace Sample

def libs : Libs where
  fmt := ⟨fun n => toString n.toNat, fun _ => "", fun _ => "", fun _ => "", fun n => toString n⟩
  hash := fun _ => 0

def rng : BenchRng where
  shuffle := id
  shuffle_perm := fun _ => .refl _
  percent := fun _ _ => 0
  percent_le := fun _ _ => by decide
  byte := fun _ _ _ => 0

/-- `create -c 10 out`, `insert out x`, an `insert out nofile y` that fails because `nofile` does not exist,
`insert --stdin out y`, then `check out x y`. -/
def session : List Run :=
  [⟨.create ⟨2, 10, p001, 0, "out", []⟩, 1, ⟨[], false⟩, none, [], rng, measure⟩,
   ⟨.insert ⟨false, "out", ["x"]⟩, 1, ⟨[], false⟩, none, [0, 0, 0], rng, measure⟩,
   ⟨.insert ⟨false, "out", ["nofile", "y"]⟩, 1, ⟨[], false⟩, none, [0, 0, 0], rng, measure⟩,
   ⟨.insert ⟨true, "out", ["y"]⟩, 1, ⟨[99#8, 10#8], false⟩, none, [0, 0, 0], rng, measure⟩,
   ⟨.check ⟨false, false, false, "out", ["x", "y"]⟩, 1, ⟨[], false⟩, none, [0, 0, 0, 0, 0], rng, measure⟩]

/-- What the runs print and how they end. -/
def outputs (w : World) : List Run → List (List (List U8) × Option (Res Unit))
  | [] => []
  | r :: rs => match main libs env w r with
    | (w, .bytes out, x) => (out, x) :: outputs w rs
    | (w, _, x) => ([], x) :: outputs w rs

end Sample

example : Sample.outputs Sample.world2 Sample.session =
    [([], some (.ok ())), ([], some (.ok ())), ([], some .panic), ([], some (.ok ())),
     ([[97#8], [98#8]], some (.ok ()))] := by decide +kernel

end Poppy
