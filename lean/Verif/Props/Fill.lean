import Verif.Lemmas.Fill
import Verif.Props.Jobs

/-! # C118 Only the parameters and the set of lines matter -/

namespace Poppy

open Spec Abs Cli

/-- Two filters created with the same parameters and filled with the same lines, in any order, any
number of times, from any files or standard input, by any number of runs with any number of jobs: the
files differ in the estimated number of entries at most. -/
theorem C118_files {t t' : Libs} {env : Env} (hs : env.Small) {file file' : Path} {v : U8} {cap : U64}
    {fpp : F64} {opt : U8} {w w' : World} {es es' : List (List U8)}
    (h : Filled t env file v cap fpp opt w es) (h' : Filled t' env file' v cap fpp opt w' es')
    (he : ∀ k, k ∈ es ↔ k ∈ es') :
    ∃ bs bs', w.fs file = some bs ∧ w'.fs file' = some bs' ∧ SameButCount bs bs' := by
  obtain ⟨l, f, g, h1, h2, h3, h4, h5⟩ := h.given hs
  obtain ⟨l', f', g', k1, k2, k3, k4, k5⟩ := h'.given hs
  obtain rfl := Res.ok.inj (h1.symm.trans k1)
  obtain rfl := Res.ok.inj (h2.symm.trans k2)
  exact ⟨_, _, h4, k4, (h5.same h3 k3 he k5).1⟩

/-- The same for lines added to an existing filter. -/
theorem C118_added {t t' : Libs} {env : Env} (hs : env.Small) {file file' : Path} {bs₀ : List U8}
    {w w' : World} {es es' : List (List U8)} (h : Inserted t env file bs₀ w es)
    (h' : Inserted t' env file' bs₀ w' es') (he : ∀ k, k ∈ es ↔ k ∈ es') :
    ∃ bs bs', w.fs file = some bs ∧ w'.fs file' = some bs' ∧ SameButCount bs bs' := by
  obtain ⟨f, g, h2, h3, h4, h5⟩ := h.given hs
  obtain ⟨f', g', k2, k3, k4, k5⟩ := h'.given hs
  obtain rfl := Res.ok.inj (h2.symm.trans k2)
  exact ⟨_, _, h4, k4, (h5.same h3 k3 he k5).1⟩

/-- And so they can be loaded, and answer every query the same. -/
theorem C118_answers {t t' : Libs} {env : Env} (hs : env.Small) {file file' : Path} {v : U8}
    {cap : U64} {fpp : F64} {opt : U8} {w w' : World} {es es' : List (List U8)}
    (h : Filled t env file v cap fpp opt w es) (h' : Filled t' env file' v cap fpp opt w' es')
    (he : ∀ k, k ∈ es ↔ k ∈ es') :
    ∃ f f', Stored env w file f ∧ Stored env w' file' f' ∧
      ∀ k, f.containsBytes env k = f'.containsBytes env k := by
  obtain ⟨l, f, g, h1, h2, h3, h4, h5⟩ := h.given hs
  obtain ⟨l', f', g', k1, k2, k3, k4, k5⟩ := h'.given hs
  obtain rfl := Res.ok.inj (h1.symm.trans k1)
  obtain rfl := Res.ok.inj (h2.symm.trans k2)
  obtain ⟨a, ha, _, ac, _⟩ := C22_bloom_round_trip env hs g h3
  obtain ⟨b, hb, _, bc, _⟩ := C22_bloom_round_trip env hs g' k3
  exact ⟨a, b, ⟨_, h4, ha⟩, ⟨_, k4, hb⟩, fun k => by rw [ac, bc, (h5.same h3 k3 he k5).2 hs]⟩

/-- So `check` prints the same for the same lines, up to the order. -/
theorem C118_check {t t' : Libs} {env : Env} (hs : env.Small) {file file' : Path} {v : U8}
    {cap : U64} {fpp : F64} {opt : U8} {w w' : World} {es es' : List (List U8)}
    (h : Filled t env file v cap fpp opt w es) (h' : Filled t' env file' v cap fpp opt w' es')
    (he : ∀ k, k ∈ es ↔ k ∈ es') {r r' : Run} {o o' : Check} (hr : r.command = .check o)
    (hr' : r'.command = .check o') (ho : o.file = file) (ho' : o'.file = file')
    (hv : o.verify = o'.verify) (hsi : o.silent = o'.silent)
    (hl : (inputLines w r.stdin o.stdin o.inputs).Perm (inputLines w' r'.stdin o'.stdin o'.inputs))
    {w₁ w₁' : World} {out out' : List (List U8)}
    (hm : main t env w r = (w₁, .bytes out, some (.ok ())))
    (hm' : main t' env w' r' = (w₁', .bytes out', some (.ok ()))) : out.Perm out' := by
  have key : ∀ {t : Libs} {w w₁ : World} {r : Run} {o : Check} {out : List (List U8)},
      r.command = .check o → main t env w r = (w₁, .bytes out, some (.ok ())) →
      ∃ (bf : Bloom) (es : List (List U8)), Stored env w o.file bf ∧
        inputLines w r.stdin o.stdin o.inputs = es.map Res.ok ∧
        out.Perm (toPrint (bf.containsBytes env) o.verify o.silent es) := by
    intro t w w₁ r o out hr hm
    have h3 : check env w r.sched r.stdin o r.jobs = (out, some (.ok ())) := by
      unfold main at hm
      rw [hr] at hm
      simp only [Prod.mk.injEq, Printed.bytes.injEq] at hm
      exact check_of_checkTo hm.2.1 hm.2.2
    obtain ⟨bs, bf, es, c1, c2, _, c4, c5⟩ := C59_printed h3
    exact ⟨bf, es, stored_of_open c1 c2, c4, c5⟩
  obtain ⟨f, f', s1, s2, ha⟩ := C118_answers hs h h' he
  obtain ⟨b, es₁, a1, a2, a3⟩ := key hr hm
  obtain ⟨b', es₁', b1, b2, b3⟩ := key hr' hm'
  rw [ho] at a1
  rw [ho'] at b1
  obtain rfl := a1.unique s1
  obtain rfl := b1.unique s2
  rw [a2, b2] at hl
  have hp : es₁.Perm es₁' := by
    have := hl.filterMap (fun x : Res (List U8) => match x with | .ok a => some a | _ => none)
    simpa [List.filterMap_map, Function.comp_def] using this
  rw [← hv, ← hsi, ← funext ha] at b3
  refine a3.trans (List.Perm.trans ?_ b3.symm)
  unfold toPrint
  split
  · exact (hp.filter _).map _
  · split
    · exact .refl _
    · exact hp.filter _

namespace Sample

/-- `create` for five entries, then `insert x y` with two jobs. -/
def fillA : World :=
  (main libs env (stored 5) (jobsRun (.insert ⟨false, "out", ["x", "y"]⟩) 2)).1

/-- `create` for five entries, then `insert y`. -/
def fillB₁ : World := (main libs env (stored 5) (jobsRun (.insert ⟨false, "out", ["y"]⟩) 1)).1

/-- And then `printf 'a\nb\n' | insert --stdin y`. -/
def fillB₂ : World :=
  (main libs env fillB₁
    { jobsRun (.insert ⟨true, "out", ["y"]⟩) 1 with stdin := ⟨[97#8, 10#8, 98#8, 10#8], false⟩ }).1

theorem filled_new : Filled libs env "out" 1 5 p001 0 (stored 5) [] :=
  .create (w := twoFiles) ⟨rfl, jobsRun (.create ⟨1, 5, p001, 0, "out", []⟩) 1, _,
    (main libs env twoFiles (jobsRun (.create ⟨1, 5, p001, 0, "out", []⟩) 1)).2.1, rfl, rfl, rfl, rfl,
    rfl, fun _ => rfl, fun h => absurd rfl h,
    Prod.ext rfl (Prod.ext rfl (by decide +kernel)), rfl⟩

theorem filledA : Filled libs env "out" 1 5 p001 0 fillA [[97#8], [98#8]] :=
  .insert (es := []) filled_new ⟨by decide +kernel, jobsRun (.insert ⟨false, "out", ["x", "y"]⟩) 2, _,
    (main libs env (stored 5) (jobsRun (.insert ⟨false, "out", ["x", "y"]⟩) 2)).2.1, rfl, rfl,
    Prod.ext rfl (Prod.ext rfl (by decide +kernel)), by decide +kernel⟩

theorem filledB : Filled libs env "out" 1 5 p001 0 fillB₂ [[98#8], [97#8], [98#8], [98#8]] :=
  .insert (es := [[98#8]]) (ls := [[97#8], [98#8], [98#8]])
    (.insert (es := []) filled_new ⟨by decide +kernel, jobsRun (.insert ⟨false, "out", ["y"]⟩) 1, _,
      (main libs env (stored 5) (jobsRun (.insert ⟨false, "out", ["y"]⟩) 1)).2.1, rfl, rfl,
      Prod.ext rfl (Prod.ext rfl (by decide +kernel)), by decide +kernel⟩)
    ⟨by decide +kernel, { jobsRun (.insert ⟨true, "out", ["y"]⟩) 1 with
        stdin := ⟨[97#8, 10#8, 98#8, 10#8], false⟩ }, _, (main libs env fillB₁
      { jobsRun (.insert ⟨true, "out", ["y"]⟩) 1 with stdin := ⟨[97#8, 10#8, 98#8, 10#8], false⟩ }).2.1,
      rfl, rfl, Prod.ext rfl (Prod.ext rfl (by decide +kernel)), by decide +kernel⟩

end Sample

-- two lines at once with two jobs, or one after the other, in the other order and repeated, and from
-- standard input: the same files
example : ∃ bs bs', Sample.fillA.fs "out" = some bs ∧ Sample.fillB₂.fs "out" = some bs' ∧
    SameButCount bs bs' :=
  C118_files Sample.env_small Sample.filledA Sample.filledB (fun k => by
    simp only [List.mem_cons, List.not_mem_nil]; tauto)

-- the same without looking at how the filter was made
example : ∃ bs, (Sample.stored 5).fs "out" = some bs ∧
    Inserted Sample.libs Sample.env "out" bs Sample.fillA [[97#8], [98#8]] := by
  obtain ⟨_, _, g, _, _, _, h, _⟩ := Sample.filled_new.given Sample.env_small
  exact ⟨_, h, .first h ⟨by decide +kernel,
    Sample.jobsRun (.insert ⟨false, "out", ["x", "y"]⟩) 2, _,
    (main Sample.libs Sample.env (Sample.stored 5)
      (Sample.jobsRun (.insert ⟨false, "out", ["x", "y"]⟩) 2)).2.1, rfl, rfl,
    Prod.ext rfl (Prod.ext rfl (by decide +kernel)), by decide +kernel⟩⟩

-- `check` succeeds and prints the lines
example : (Sample.checkOut (main Sample.libs Sample.env Sample.fillB₂
      (Sample.jobsRun (.check ⟨false, false, false, "out", ["x", "y"]⟩) 1)).2.1 = [[97#8], [98#8]]) ∧
    (main Sample.libs Sample.env Sample.fillB₂
      (Sample.jobsRun (.check ⟨false, false, false, "out", ["x", "y"]⟩) 1)).2.2 = some (.ok ()) := by
  decide +kernel

example : Sample.fillA.fs "out" ≠ (Sample.stored 5).fs "out" := by decide +kernel

-- another line makes another file
example : Sample.fillB₁.fs "out" ≠ Sample.fillB₂.fs "out" := by decide +kernel

end Poppy
