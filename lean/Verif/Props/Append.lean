import Verif.Lemmas.Append
import Verif.Props.Jobs

/-!
# C121: attached data changes nothing else
-/

namespace Poppy

open Cli

variable {env : Env}

/-- Bytes appended to the file of a filter: the same filter is loaded, fully or partially, with these
bytes at the end of its data. -/
theorem C121_load {bs : List U8} {f : Bloom} (h : Bloom.fromReader env (Reader.ofBytes bs) = .ok f)
    (d : List U8) :
    Bloom.fromReader env (Reader.ofBytes (bs ++ d)) = .ok (f.extend d) ∧
    ∃ g, Bloom.partialFromReader env (Reader.ofBytes bs) = .ok g ∧
      Bloom.partialFromReader env (Reader.ofBytes (bs ++ d)) = .ok (g.extend d) := by
  have h1 := Bloom.load_extend h d
  exact ⟨h1, _, Bloom.partialFromReader_of_full h,
    Bloom.stripped_extend d f ▸ Bloom.partialFromReader_of_full h1⟩

/-- The data is the end of the file that is written. -/
theorem C121_file (f : Bloom) (d : List U8) :
    (∃ h, f.file = h ++ f.data ∧ (f.setData d).file = h ++ d) ∧ (f.setData d).data = d ∧
    (f.extend d).file = f.file ++ d :=
  ⟨Bloom.file_setData d f, Bloom.data_setData d f, Bloom.file_extend d f⟩

/-- All that can be asked about filters does not depend on their data. -/
theorem C121_answers (f g : Bloom) (d d' k : List U8) :
    (f.setData d).containsBytes env k = f.containsBytes env k ∧
    (f.setData d).hasSameParams (g.setData d') = f.hasSameParams g ∧
    (f.setData d).countCommonEntries env (g.setData d') = f.countCommonEntries env g ∧
    (f.setData d).version = f.version ∧ (f.setData d).capacity = f.capacity ∧
    (f.setData d).fpp = f.fpp ∧ (f.setData d).countEstimate = f.countEstimate ∧
    (f.setData d).isFull = f.isFull ∧ (f.setData d).sizeInBytes env = f.sizeInBytes env :=
  ⟨Bloom.containsBytes_data env d f k, Bloom.hasSameParams_data d d' f g,
    Bloom.countCommonEntries_data env d d' f g, by cases f <;> exact ⟨rfl, rfl, rfl, rfl, rfl, rfl⟩⟩

/-- All that changes a filter does the same with other data, and keeps the data. -/
theorem C121_changes (f g : Bloom) (d d' k : List U8) (ks : List (List U8)) :
    (f.setData d).insertBytes env k = ((f.insertBytes env k).1.setData d, (f.insertBytes env k).2) ∧
    (f.setData d).fill env ks = ((f.fill env ks).1.setData d, (f.fill env ks).2) ∧
    (f.setData d).unionMerge env (g.setData d') =
      ((f.unionMerge env g).1.setData d, (f.unionMerge env g).2) ∧
    (f.setData d).clear = f.clear.setData d :=
  ⟨Bloom.insertBytes_data env d f k, Bloom.fill_data env d f ks, Bloom.unionMerge_data env d d' f g,
    by cases f <;> rfl⟩

/-- What only filters of version 2 have: keys of any type, and intersections. -/
theorem C121_v2 (f g : V2) (d d' : List U8) (k : Key) :
    V2.contains env { f with data := d } k = f.contains env k ∧
    V2.insert env { f with data := d } k =
      ({ (f.insert env k).1 with data := d }, (f.insert env k).2) ∧
    V2.intersectionMerge env { f with data := d } { g with data := d' } =
      ({ (f.intersectionMerge env g).1 with data := d }, (f.intersectionMerge env g).2) :=
  ⟨V2.contains_data env d f k, V2.insert_data env d f k, V2.intersectionMerge_data env d d' f g⟩

/-- Runs of the tool, if bytes were appended to the file of a filter before: every run ends in the same
way and prints the same but for the length of the data, and in the end the files are the same, but for
the same bytes at the end of that file. -/
theorem C121_session (hs : env.Small) {w : World} {p : Path} (hw : w.Ready env p)
    (hd : w.disk = none) (t : Libs) (d : List U8) (rs : List Run) (hr : ∀ r ∈ rs, r.Spares p) :
    (session t env (w.append p d) rs).1 = (session t env w rs).1.append p d ∧
    List.Forall₂ (fun x y => SamePrinted x.1 y.1 ∧ x.2 = y.2)
      (session t env w rs).2 (session t env (w.append p d) rs).2 := by
  induction rs generalizing w with
  | nil => exact ⟨rfl, .nil⟩
  | cons r rs ih =>
    rw [List.forall_mem_cons] at hr
    obtain ⟨h1, h2, h3⟩ := main_append (d := d) hw hd t hr.1
    obtain ⟨h4, h5⟩ := main_stored hs hw hd t hr.1
    obtain ⟨h6, h7⟩ := ih h4 h5 hr.2
    unfold session
    rw [h1]
    exact ⟨h6, .cons ⟨h2, h3.symm⟩ h7⟩

/-- One run, on any machine. -/
theorem C121_main {w : World} {p : Path} (hw : w.Ready env p) (hd : w.disk = none) (t : Libs)
    (d : List U8) {r : Run} (hr : r.Spares p) :
    (main t env (w.append p d) r).1 = (main t env w r).1.append p d ∧
    SamePrinted (main t env w r).2.1 (main t env (w.append p d) r).2.1 ∧
    (main t env (w.append p d) r).2.2 = (main t env w r).2.2 :=
  main_append hw hd t hr

namespace Sample

/-- Is something loaded? -/
def loads (r : Res Bloom) : Bool := match r with | .ok _ => true | _ => false

/-- Can it be read to its end? -/
def whole (a : Access) : Bool := match a with | .full => true | _ => false

theorem stored_ready : (stored 5).Ready Sample.env "out" := by
  have h' : ∀ a, whole a = true → a = .full := by
    rintro (_ | _ | _) h
    · cases h
    · cases h
    · rfl
  have h : ∀ o : Option (List U8), o.any (fun bs => loads (Bloom.fromReader Sample.env (Reader.ofBytes bs))) =
      true →
      ∃ f bs, o = some bs ∧ Bloom.fromReader Sample.env (Reader.ofBytes bs) = .ok f := by
    rintro (_ | bs) h
    · cases h
    · simp only [Option.any_some] at h
      revert h
      rcases h : Bloom.fromReader Sample.env (Reader.ofBytes bs) with f | _ | _
      · exact fun _ => ⟨f, bs, rfl, h⟩
      · exact fun h => absurd h Bool.false_ne_true
      · exact fun h => absurd h Bool.false_ne_true
  exact ⟨h' _ (by decide +kernel), h _ (by decide +kernel)⟩

/-- A run for each command. -/
def appendRuns : List Run := [
  jobsRun (.insert ⟨false, "out", ["x", "y"]⟩) 2, jobsRun (.show "out") 1,
  jobsRun (.create ⟨1, 5, p001, 0, "other", ["y"]⟩) 1,
  jobsRun (.check ⟨false, false, false, "out", ["x", "y"]⟩) 2,
  jobsRun (.bench ⟨0, none, 1, p001, 2, p001, 0, some "out"⟩) 1]

theorem appendRuns_spare : ∀ r ∈ appendRuns, r.Spares "out" := by
  simp only [appendRuns, List.forall_mem_cons]
  refine ⟨?_, ?_, ?_, ?_, ?_, fun _ h => absurd h List.not_mem_nil⟩
  all_goals
    unfold Run.Spares
    simp [jobsRun]

end Sample

-- bytes appended to the file before a run of each command
example (d : List U8) :=
  C121_session Sample.env_small Sample.stored_ready (by decide +kernel) Sample.libs d
    Sample.appendRuns Sample.appendRuns_spare

-- after `insert` the bytes are still there: the file ends with them, and all else is the same
example : ((main Sample.libs Sample.env ((Sample.stored 5).append "out" [1#8, 2#8])
      (Sample.jobsRun (.insert ⟨false, "out", ["x", "y"]⟩) 2)).1.fs "out") =
    ((main Sample.libs Sample.env (Sample.stored 5)
      (Sample.jobsRun (.insert ⟨false, "out", ["x", "y"]⟩) 2)).1.fs "out").map (· ++ [1#8, 2#8]) ∧
    (main Sample.libs Sample.env (Sample.stored 5)
      (Sample.jobsRun (.insert ⟨false, "out", ["x", "y"]⟩) 2)).1.fs "out" ≠
      (Sample.stored 5).fs "out" := by decide +kernel

-- `SamePrinted` is not equality for `show` only because of the length of the data
example : ¬ SameLine "\tversion                                  : 1"
    "\tversion                                  : 2" := by
  rintro (h | ⟨x, y, h, -⟩)
  · revert h; decide
  · have := congrArg (fun s => s.toList.take 2) h
    simp at this

-- the file must hold a filter: appended to a truncated filter, the bytes are part of it
example :
    let w : World := { Sample.stored 5 with
      fs := fun q => ((Sample.stored 5).fs q).map List.dropLast }
    let r := Sample.jobsRun (.insert ⟨false, "out", ["x", "y"]⟩) 2
    (main Sample.libs Sample.env w r).2.2 ≠ some (.ok ()) ∧
    (main Sample.libs Sample.env (w.append "out" [0#8]) r).2.2 = some (.ok ()) := by
  decide +kernel

end Poppy
