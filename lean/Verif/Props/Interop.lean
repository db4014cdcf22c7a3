import Verif.Lemmas.Interop
import Verif.Props.Overlap

/-! # C93 The tool and Python programs on one filter file -/

namespace Poppy

open Spec Cli Py

/-- Whatever the tool and Python programs do with the filter in the file, it keeps its parameters
and whatever it contains. -/
theorem C93_kept {t : Libs} {env : Env} (hs : env.Small) {file : Path} {w w' : World} {f : Bloom}
    (hf : Stored env w file f) (h : Uses t env file w w') :
    ∃ g, Stored env w' file g ∧ g.version = f.version ∧ g.capacity = f.capacity ∧ g.fpp = f.fpp ∧
      (f.HasBits → g.HasBits) ∧
      ∀ k, f.containsBytes env k = .ok true → g.containsBytes env k = .ok true := by
  induction h with
  | refl => exact ⟨f, hf, rfl, rfl, rfl, id, fun _ h => h⟩
  | use _ u ih =>
    obtain ⟨g, hg, a1, a2, a3, a4, a5⟩ := ih
    obtain ⟨x, hx, b1, b2, b3, b4, b5⟩ := use_grows hs hg u
    exact ⟨x, hx, b1.trans a1, b2.trans a2, b3.trans a3, b4 ∘ a4, fun k hk => b5 k (a5 k hk)⟩

/-- A key contained in an object that a Python program saved is found by every later successful
`check` of the file, whatever was done with the file in between. -/
theorem C93_tool_finds {t : Libs} {env : Env} (hs : env.Small) {file : Path} {w w2 w3 : World}
    (hd : w.disk = none) {program : List Call} {i : ℕ} {f : Bloom}
    (hf : (Store.run env ⟨[], w⟩ program).objs[i]? = some f)
    (hsave : (Py.save (Store.run env ⟨[], w⟩ program).world f file).2 = .ok ())
    {k : List U8} (hk : Py.containsBytes env f k = .ok true)
    (hu : Uses t env file (Store.run env ⟨[], w⟩ (program ++ [.save i file])).world w2)
    {r : Run} {o : Check} (hr : r.command = .check o) (hfile : o.file = file)
    (hline : Res.ok k ∈ inputLines w2 r.stdin o.stdin o.inputs) {out : List (List U8)}
    (h : main t env w2 r = (w3, .bytes out, some (.ok ()))) :
    (o.verify = false → o.silent = false → k ∈ out) ∧
    (o.verify = true → k ++ [58#8, 32#8, 78#8, 79#8, 75#8] ∉ out) := by
  have hR := (Store.run_ok hs (Store.ok_nil env w) program).1 f (List.mem_of_getElem? hf)
  have hw : (Store.run env ⟨[], w⟩ (program ++ [.save i file])).world =
      (Py.save (Store.run env ⟨[], w⟩ program).world f file).1 := by
    rw [Store.run_append]
    simp only [Store.run, Store.call, hf]
  rw [hw] at hu
  obtain ⟨x, hx, e⟩ := stored_save hs hR
    (by rw [(Store.run_rights (env := env) ⟨[], w⟩ program).2]; exact hd) hsave
  obtain ⟨g, hg, _, _, _, _, hc⟩ := C93_kept hs hx hu
  have hgc := hc k (e.contains k (ofRes_ok.1 hk))
  have h3 : check env w2 r.sched r.stdin o r.jobs = (out, some (.ok ())) := by
    unfold main at h
    rw [hr] at h
    simp only [Prod.mk.injEq, Printed.bytes.injEq] at h
    exact check_of_checkTo h.2.1 h.2.2
  obtain ⟨bs, bf, es, c1, c2, _, c4, c5⟩ := C59_printed h3
  have : bf = g := by
    refine Stored.unique (stored_of_open c1 c2) ?_
    rw [hfile]; exact hg
  subst this
  rw [c4] at hline
  obtain ⟨x, hx, hxe⟩ := List.mem_map.1 hline
  cases hxe
  constructor
  · intro hv hsil
    rw [c5.mem_iff, toPrint, hv, hsil]
    simpa [hgc] using hx
  · intro hv hout
    rw [c5.mem_iff, toPrint, hv] at hout
    simp only [if_true, List.mem_map, List.mem_filter, decide_eq_true_eq] at hout
    obtain ⟨y, ⟨_, hy⟩, hye⟩ := hout
    have : y = k := List.append_cancel_right hye
    rw [this, hgc] at hy
    cases hy

/-- A line given to a successful `insert` or `create` is contained in the object that a Python
program loads from the file later, whatever was done with the file in between. -/
theorem C93_python_finds {t : Libs} {env : Env} (hs : env.Small) {file : Path} {w0 w1 w2 : World}
    (hd : w0.disk = none) {r : Run} {p : Printed}
    (h1 : main t env w0 r = (w1, p, some (.ok ()))) {line : List U8}
    (hin : (∃ o, r.command = .insert o ∧ o.file = file ∧
        Res.ok line ∈ inputLines w0 r.stdin o.stdin o.inputs) ∨
      (∃ o, r.command = .create o ∧ o.file = file ∧ Res.ok line ∈ linesOf w0 o.dataset))
    (hbits : ∀ f, Stored env w1 file f → f.HasBits) (hu : Uses t env file w1 w2)
    (ha : w2.access file = .full) :
    ∃ g, Py.load env w2 file = .ok g ∧ Py.containsBytes env g line = .ok true := by
  have hf : ∃ f, Stored env w1 file f ∧ f.containsBytes env line = .ok true := by
    rcases hin with ⟨o, hr, rfl, hl⟩ | ⟨o, hr, rfl, hl⟩
    · obtain ⟨_, g, es, _, hg, _, he, _, hc⟩ := C74_insert hs hd hr h1
      rw [he] at hl
      obtain ⟨x, hx, hxe⟩ := List.mem_map.1 hl
      cases hxe
      exact ⟨g, hg, hc (hbits g hg) _ hx⟩
    · obtain ⟨g, es, hg, hre, _, _, _, hc⟩ := C74_create hs hd hr h1
      rw [hre.2] at hl
      obtain ⟨x, hx, hxe⟩ := List.mem_map.1 hl
      cases hxe
      exact ⟨g, hg, hc (hbits g hg) _ hx⟩
  obtain ⟨f, hf, hc⟩ := hf
  obtain ⟨g, hg, _, _, _, _, hk⟩ := C93_kept hs hf hu
  exact ⟨g, load_of_stored hg ha, ofRes_ok.2 (hk line hc)⟩

/-- Which keys the tool can be given: exactly the texts in UTF-8 without line feed. -/
theorem C93_lines_partial (k : List U8) :
    ((∃ s : Stdin, s.lines = [.ok k]) ↔ 10#8 ∉ k ∧ IsUtf8 k) ∧
    (¬ (10#8 ∉ k ∧ IsUtf8 k) → ∀ w stdin b files, .ok k ∉ inputLines w stdin b files) := by
  refine ⟨⟨fun ⟨s, h⟩ => ?_, fun ⟨h1, h2⟩ => ?_⟩, fun h w stdin b files hk => h (inputLines_ok hk)⟩
  · have : .ok k ∈ s.lines := by rw [h]; simp
    unfold Stdin.lines at this
    split at this
    · exact brokenLinesAux_ok this
    · exact linesAux_ok this
  · have hu : validUtf8 (k ++ [13#8]) = true := by
      rw [validUtf8_snoc k (by decide)]
      exact (validUtf8_iff k).2 h2
    refine ⟨⟨unlines [k ++ [13#8]] [], false⟩, ?_⟩
    show Cli.lines (unlines [k ++ [13#8]] []) = _
    rw [C61_lines (by simpa using h1) (by simp)]
    have : IsUtf8 (k ++ [13#8]) := (validUtf8_iff _).1 hu
    simp [this, dropCr]

namespace Sample

/-- A program that makes a filter, inserts a text, and saves it. -/
def pyProgram (s : String) : List Call := [.withVersion 1 10 p001, .insertStr 0 s]

/-- The files after it. -/
def saved (s : String) : World := (Store.run env ⟨[], twoFiles⟩ (pyProgram s ++ [.save 0 "out"])).world

def isOk {α : Type} : PyRes α → Bool
  | .ok _ => true
  | _ => false

theorem pyProgram_runs (s : String) (f : Bloom) :
    (Py.save (Store.run env ⟨[], twoFiles⟩ (pyProgram s)).world f "out").2 = .ok () := by
  rcases save_fs (w := (Store.run env ⟨[], twoFiles⟩ (pyProgram s)).world) (f := f) (p := "out")
    (by rw [(Store.run_rights (env := env) ⟨[], twoFiles⟩ (pyProgram s)).2]; rfl) with ⟨_, h⟩ | ⟨_, h⟩
  · exfalso
    have e : (Store.run env ⟨[], twoFiles⟩ (pyProgram s)).world = twoFiles := by
      have ha : ∀ r : PyRes Bloom, ∀ st : Store, (st.alloc r).world = st.world := by
        intro r st; cases r <;> rfl
      show (Store.alloc ⟨[], twoFiles⟩ _).world = _
      rw [ha]
    rw [e] at h
    unfold Py.save World.create at h
    rw [if_pos (show twoFiles.creatable "out" = true from rfl)] at h
    simp only at h
    rw [show ({ twoFiles with fs := fun q => if q = "out" then some [] else twoFiles.fs q } :
      World).disk = none from rfl, C29_write_ok] at h
    exact h () rfl
  · exact h

end Sample

/-- A text with a line feed in it: contained in the object, and in the file, but the tool, given this
very text, succeeds and finds nothing. -/
theorem C93_text_violated : ∃ (t : Libs) (env : Env) (w : World) (program : List Call) (f : Bloom)
    (s : String) (file : Path) (r : Run) (o : Check),
    (Store.run env ⟨[], w⟩ program).objs[0]? = some f ∧ Py.containsStr env f s = .ok true ∧
    (Py.save (Store.run env ⟨[], w⟩ program).world f file).2 = .ok () ∧
    r.command = .check o ∧ o.file = file ∧ o.verify = false ∧ o.silent = false ∧
    r.stdin.bytes = s.toUTF8.data.toList.map UInt8.toBitVec ∧
    (main t env (Store.run env ⟨[], w⟩ (program ++ [.save 0 file])).world r).2.2 = some (.ok ()) ∧
    Sample.checkOut (main t env
      (Store.run env ⟨[], w⟩ (program ++ [.save 0 file])).world r).2.1 = [] := by
  have hsome : ((Store.run Sample.env ⟨[], Sample.twoFiles⟩ (Sample.pyProgram "a\nb")).objs[0]?.map
      fun f => decide (f.containsBytes Sample.env [97#8, 10#8, 98#8] = .ok true)) = some true := by
    decide +kernel
  obtain ⟨f, h1, h2⟩ := Option.map_eq_some_iff.1 hsome
  have hs : ("a\nb".toUTF8.data.toList.map UInt8.toBitVec) = [97#8, 10#8, 98#8] := by decide +kernel
  have h2 : Py.containsStr Sample.env f "a\nb" = .ok true := by
    unfold Py.containsStr
    rw [hs]
    exact ofRes_ok.2 (of_decide_eq_true h2)
  have h3 := Sample.pyProgram_runs "a\nb" f
  exact ⟨Sample.libs, Sample.env, Sample.twoFiles, Sample.pyProgram "a\nb", f, "a\nb", "out",
    { Sample.jobsRun (.check ⟨true, false, false, "out", []⟩) 1 with stdin := ⟨[97#8, 10#8, 98#8], false⟩ },
    ⟨true, false, false, "out", []⟩, h1, h2, h3, rfl, rfl, rfl, rfl, by decide +kernel,
    by decide +kernel, by decide +kernel⟩

namespace Sample

/-- `a` inserted by the program. -/
theorem pyProgram_a : ∃ f, (Store.run env ⟨[], twoFiles⟩ (pyProgram "a")).objs[0]? = some f ∧
    Py.containsBytes env f [97#8] = .ok true := by
  have h : ((Store.run env ⟨[], twoFiles⟩ (pyProgram "a")).objs[0]?.map
      fun f => decide (f.containsBytes env [97#8] = .ok true)) = some true := by decide +kernel
  obtain ⟨f, h1, h2⟩ := Option.map_eq_some_iff.1 h
  exact ⟨f, h1, ofRes_ok.2 (of_decide_eq_true h2)⟩

/-- The tool inserts the line of the second file. -/
def addB : Run := jobsRun (.insert ⟨false, "out", ["y"]⟩) 1

/-- The files after both. -/
def both : World := (main libs env (saved "a") addB).1

/-- `poppy check out` with the lines `a`, `b`, `c`. -/
def ask : Run := { jobsRun (.check ⟨true, false, false, "out", []⟩) 1 with
  stdin := ⟨[97#8, 10#8, 98#8, 10#8, 99#8], false⟩ }

theorem uses_both : Uses libs env "out" (saved "a") both := by
  refine .use .refl (.step (.tool addB ?_ ?_))
  · intro o h; unfold addB jobsRun at h; cases h
  · intro o _ _
    exact (Store.run_rights (env := env) ⟨[], twoFiles⟩ (pyProgram "a" ++ [.save 0 "out"])).2

end Sample

-- saved by the program, then changed by the tool: `check` finds the key of the program
example : ∃ out, (Sample.checkOut (main Sample.libs Sample.env Sample.both Sample.ask).2.1) = out ∧
    [97#8] ∈ out := by
  obtain ⟨f, h1, h2⟩ := Sample.pyProgram_a
  have hb : ∃ out, (main Sample.libs Sample.env Sample.both Sample.ask).2.1 = .bytes out := ⟨_, rfl⟩
  obtain ⟨out, hb⟩ := hb
  have hr : (main Sample.libs Sample.env Sample.both Sample.ask).2.2 = some (.ok ()) := by
    decide +kernel
  refine ⟨out, by rw [hb]; rfl, ?_⟩
  exact (C93_tool_finds Sample.env_small (w := Sample.twoFiles) rfl h1 (Sample.pyProgram_runs "a" f) h2
    Sample.uses_both (r := Sample.ask) (o := ⟨true, false, false, "out", []⟩) rfl rfl
    (by decide +kernel) (w3 := (main Sample.libs Sample.env Sample.both Sample.ask).1) (out := out)
    (by rw [← hb, ← hr])).1 rfl rfl

-- the lines found are those of both, and not `c`
example : Sample.checkOut (main Sample.libs Sample.env Sample.both Sample.ask).2.1 =
    [[97#8], [98#8]] := by decide +kernel

-- the line inserted by the tool is found in Python
example : ∃ g, Py.load Sample.env Sample.both "out" = .ok g ∧
    Py.containsBytes Sample.env g [98#8] = .ok true := by
  have hr : (main Sample.libs Sample.env (Sample.saved "a") Sample.addB).2.2 = some (.ok ()) := by
    decide +kernel
  have hl : Sample.holds (Sample.outFile Sample.both) [98#8] = some true := by decide +kernel
  have hfs : Sample.both.fs "out" = some (Sample.outFile Sample.both) := by decide +kernel
  have hbits : (match Bloom.fromReader Sample.env (Reader.ofBytes (Sample.outFile Sample.both)) with
    | .ok (.v1 f) => decide (f.bitSize ≠ 0)
    | _ => false) = true := by decide +kernel
  refine C93_python_finds (t := Sample.libs) Sample.env_small (file := "out") (w0 := Sample.saved "a") (r := Sample.addB)
    (p := (main Sample.libs Sample.env (Sample.saved "a") Sample.addB).2.1) ?_
    (w1 := Sample.both) (by rw [← hr]; rfl) (Or.inl ⟨_, rfl, rfl, by decide +kernel⟩) ?_ .refl ?_
  · exact (Store.run_rights (env := Sample.env) ⟨[], Sample.twoFiles⟩
      (Sample.pyProgram "a" ++ [.save 0 "out"])).2
  · rintro f ⟨bs, h1, h2⟩
    rw [hfs] at h1
    cases h1
    rw [h2] at hbits
    cases f with
    | v1 f => exact (of_decide_eq_true hbits : f.bitSize ≠ 0)
    | v2 f => trivial
  · have : (match Sample.both.access "out" with | .full => true | _ => false) = true := by
      decide +kernel
    split at this
    · assumption
    · cases this

-- a program that loads the file, inserts `c`, and saves it again
example : ∃ w', Use Sample.libs Sample.env "out" Sample.both w' ∧
    Sample.checkOut (main Sample.libs Sample.env w' Sample.ask).2.1 = [[97#8], [98#8], [99#8]] := by
  have hl : ∃ f, Py.load Sample.env Sample.both "out" = .ok f := by
    have : Sample.isOk (Py.load Sample.env Sample.both "out") = true := by decide +kernel
    cases h : Py.load Sample.env Sample.both "out" with
    | ok f => exact ⟨f, rfl⟩
    | _ => rw [h] at this; cases this
  obtain ⟨f, hl⟩ := hl
  refine ⟨_, .edit [] [.insertStr 0 "c"] f (by simp) (by simp [Call.Touches]) hl (by decide +kernel), ?_⟩
  decide +kernel

end Poppy
