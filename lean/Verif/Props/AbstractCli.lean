import Verif.Lemmas.AbstractCli

/-!
# C85 Complete behaviour of the commands on files

`Verif/AbstractCli.lean` says what `create`, `insert` and `check` do with files and the standard input,
in terms of bytes and abstract filters and without threads.  The commands of the model do exactly this,
whatever the files, the options, the number of jobs and the schedule of the threads.
-/

namespace Poppy

open Spec Abs Cli

/-- `insert`: as long as it has not returned nothing is changed, it returns once every thread made
enough steps, and then it has done what `insertCmd` says. -/
theorem C85_insert {env : Env} (hs : env.Small) (w : World) (stdin : Stdin) (o : Cli.Insert)
    (jobs : ℕ) : ∃ N, ∀ s,
    (Cli.insert env w s stdin o jobs = (w, none) ∧ ¬ Fair o.inputs.length N s) ∨
    ∃ w' r, Cli.insert env w s stdin o jobs = (w', some r) ∧
      (w', r) = ended w o.file (insertCmd (Bloom.machine env) w stdin o jobs) := by
  obtain ⟨N, hN⟩ := C84_insert_ends env w stdin o jobs
  refine ⟨N, fun s => ?_⟩
  rcases insert_abstract hs w stdin o jobs s with h | h
  · exact .inl ⟨h, fun hf => hN s hf (by rw [h])⟩
  · exact .inr h

/-- `create`, likewise; it never returns, and changes nothing, if `createCmd` does not end. -/
theorem C85_create {env : Env} (hs : env.Small) (w : World) (o : Create) (jobs : ℕ) :
    match createCmd (Bloom.machine env) w o jobs with
    | none => ∀ s, Cli.create env w s o jobs = (w, none)
    | some x => ∃ N, ∀ s,
      (Cli.create env w s o jobs = (w, none) ∧ ¬ Fair o.dataset.length N s) ∨
      ∃ w' r, Cli.create env w s o jobs = (w', some r) ∧ (w', r) = ended w o.file x := by
  cases hx : createCmd (Bloom.machine env) w o jobs with
  | none =>
    intro s
    rcases create_abstract hs w o jobs s with h | ⟨_, _, x, _, h, _⟩
    · exact h
    · rw [hx] at h; cases h
  | some x =>
    obtain ⟨N, hN⟩ := create_ends hs (by rw [hx]; simp)
    refine ⟨N, fun s => ?_⟩
    rcases create_abstract hs w o jobs s with h | ⟨w', r, x', h1, h2, h3⟩
    · exact .inl ⟨h, fun hf => hN s hf (by rw [h])⟩
    · rw [hx] at h2
      cases h2
      exact .inr ⟨w', r, h1, h3⟩

/-- `check`: it returns once every thread made enough steps, with the outcome `checkCmd`; what it has
printed at any time is part of `checkPrints`, and in case of success it is that, in some order. -/
theorem C85_check {env : Env} (hs : env.Small) (w : World) (stdin : Stdin) (o : Check) (jobs : ℕ) :
    ∃ N, ∀ s,
    (check env w s stdin o jobs).1.Subperm (checkPrints (Bloom.machine env) w stdin o) ∧
    ((check env w s stdin o jobs).2 = none ∧ ¬ Fair o.inputs.length N s ∨
      (check env w s stdin o jobs).2 = some (checkCmd (Bloom.machine env) w stdin o jobs)) ∧
    ((check env w s stdin o jobs).2 = some (.ok ()) →
      (check env w s stdin o jobs).1.Perm (checkPrints (Bloom.machine env) w stdin o)) := by
  obtain ⟨N, hN⟩ := C84_check_ends env w stdin o jobs
  refine ⟨N, fun s => ⟨?_, ?_, fun h => ?_⟩⟩
  · by_cases hout : (check env w s stdin o jobs).1 = []
    · rw [hout]; exact List.nil_subperm
    · obtain ⟨bs, bf, h1, h2, h3⟩ := C59_nothing_else
        (out := (check env w s stdin o jobs).1) (r := (check env w s stdin o jobs).2) rfl hout
      rw [checkPrints_eq hs h1 h2]
      exact h3
  · cases hr : (check env w s stdin o jobs).2 with
    | none => exact .inl ⟨rfl, fun hf => hN s hf hr⟩
    | some r => exact .inr (by rw [check_abstract hs w s stdin o jobs hr])
  · obtain ⟨bs, bf, es, h1, h2, _, h3, h4⟩ := C59_printed
      (out := (check env w s stdin o jobs).1) (by rw [← h])
    rw [checkPrints_eq hs h1 h2, h3, entries_ok]
    exact h4

/-- `show`, for files of less than 2^50 bytes. -/
theorem C85_show (fmt : Fmt) (env : Env) (w : World) (file : Path)
    (hb : ∀ bs, w.fs file = some bs → bs.length < 2 ^ 50) :
    Cli.show fmt env w file = showCmd fmt env.debug w file :=
  show_abstract fmt env w file hb

-- the parts of five files for two and for five jobs, and the lines of a text
example : deal 2 ["a", "b", "c", "d", "e"] = [["a", "b"], ["c", "d"], ["e"]] ∧
    deal 5 ["a", "b"] = [["a"], ["b"]] := by decide +kernel
example : splitLines [97#8, 10#8, 10#8, 98#8] = ([[97#8], []], [98#8]) := by decide +kernel

/-- The letter is text. -/
theorem Sample.utf8_a : IsUtf8 [97#8] := ⟨['a'], by decide +kernel⟩

-- a broken file
example : (source Sample.world4 "bad").items = [.ok [97#8], .err (.ioError .other)] := by
  show [item [97#8] [97#8]] ++ _ = _
  rw [item, if_pos Sample.utf8_a]
  rfl

-- inserting two lines into a stored filter succeeds
example : ∃ a, insertCmd (Bloom.machine Sample.env) (Sample.world3 none) ⟨[], false⟩ ⟨false, "bf", ["x"]⟩ 1 = .ok a :=
  insert_ok Sample.env_small (s := [0, 0, 0, 0, 0]) (by decide +kernel)

-- checking two lines that are not members succeeds, and prints both
example : checkCmd (Bloom.machine Sample.env) (Sample.world3 none) ⟨[], false⟩ ⟨false, false, true, "bf", ["x"]⟩ 1
      = .ok () ∧
    (checkPrints (Bloom.machine Sample.env) (Sample.world3 none) ⟨[], false⟩
      ⟨false, false, true, "bf", ["x"]⟩).length = 2 := by
  have hrun : check Sample.env (Sample.world3 none) [0, 0, 0, 0, 0] ⟨[], false⟩
      ⟨false, false, true, "bf", ["x"]⟩ 1
    = ([[97#8, 58#8, 32#8, 78#8, 79#8, 75#8], [98#8, 58#8, 32#8, 78#8, 79#8, 75#8]], some (.ok ())) := by
    decide +kernel
  obtain ⟨N, hN⟩ := C85_check Sample.env_small (Sample.world3 none) ⟨[], false⟩ ⟨false, false, true, "bf", ["x"]⟩ 1
  obtain ⟨_, h1, h2⟩ := hN [0, 0, 0, 0, 0]
  rw [hrun] at h1 h2
  refine ⟨?_, (h2 rfl).length_eq.symm⟩
  rcases h1 with ⟨h, _⟩ | h
  · cases h
  · exact (Option.some.inj h).symm

-- what is shown of a stored v1 filter, and of a damaged file
example : ((source (Sample.world3 none) "bf").metadata false).map (fun x => ((shown x).capacity, (shown x).size))
    = .ok (100, 7664) := by decide +kernel
example : (source Sample.world4 "dir").metadata false = .err (.ioError .other) := rfl

-- a directory in the dataset
example : createCmd (Bloom.machine Sample.env) Sample.world4 ⟨2, 0, Sample.p001, 0, "out", ["x", "dir"]⟩ 1
    = none := rfl

end Poppy
