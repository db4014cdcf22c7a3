import Verif.Lemmas.CliOrder
import Verif.Props.CliCommands

/-! # Order of the output of `check` (C59) -/

namespace Poppy

open Cli

/-- The printed lines come in order: first those for stdin, in the order of stdin; then those for
the files, mixed by the threads but in order for each file; with one job everything is in order. -/
theorem C59_order {env : Env} {w : World} {s : Schedule} {stdin : Stdin} {o : Check} {jobs : ℕ}
    {out : List (List U8)} (h : check env w s stdin o jobs = (out, some (.ok ()))) :
    ∃ bs bf out', w.open o.file = .ok (Reader.ofBytes bs) ∧ Bloom.fromReader env (Reader.ofBytes bs) = .ok bf ∧
      out = toPrint (bf.containsBytes env) o.verify o.silent
        (entries (if o.stdin || o.inputs.isEmpty then stdin.lines else [])) ++ out' ∧
      (∀ f ∈ o.inputs, (toPrint (bf.containsBytes env) o.verify o.silent
        (entries (linesOf w [f]))).Sublist out') ∧
      (jobs = 1 → out = toPrint (bf.containsBytes env) o.verify o.silent
        (entries (inputLines w stdin o.stdin o.inputs))) := by
  unfold check at h
  cases ho : w.open o.file with
  | err e => rw [ho] at h; cases h
  | panic => rw [ho] at h; cases h
  | ok r₀ =>
    rw [ho, Res.bind_ok] at h
    cases hr : Bloom.fromReader env r₀ with
    | err e => rw [hr] at h; cases h
    | panic => rw [hr] at h; cases h
    | ok bf =>
      obtain ⟨bs, rfl, _⟩ := open_loaded ho hr
      rw [hr] at h
      simp only at h
      have hin : ∃ out', out = printed env bf o
            (entries (if o.stdin || o.inputs.isEmpty then stdin.lines else [])) ++ out' ∧
            checkFiles env w s bf o jobs = (out', some (.ok ())) := by
        by_cases hu : (o.stdin || o.inputs.isEmpty) = true
        · rw [if_pos hu] at h ⊢
          cases hx : checkStdin env bf o stdin.lines with
          | mk p x =>
            rw [hx] at h
            cases x with
            | err e => cases h
            | panic => cases h
            | ok u =>
              obtain ⟨es, e1, _, e3⟩ := checkStdin_ok (by rw [hx])
              rw [hx] at e3
              simp only at e3 h
              rw [e3] at h
              have hes : entries stdin.lines = es := by
                rw [e1]
                unfold entries
                rw [List.filterMap_map]
                exact List.filterMap_some
              cases hf : checkFiles env w s bf o jobs with
              | mk out' r =>
                rw [hf] at h
                simp only [Prod.mk.injEq] at h
                exact ⟨out', by rw [hes]; exact h.1.symm, by rw [h.2]⟩
        · rw [if_neg hu] at h ⊢
          simp only at h
          cases hf : checkFiles env w s bf o jobs with
          | mk out' r =>
            rw [hf] at h
            simp only [Prod.mk.injEq] at h
            exact ⟨out', h.1.symm, by rw [h.2]⟩
      obtain ⟨out', hout, hf⟩ := hin
      have hp : ∀ es, printed env bf o es
          = toPrint (bf.containsBytes env) o.verify o.silent es := fun es => by
        rw [printed_eq]; rfl
      refine ⟨bs, bf, out', rfl, hr, by rw [hout, hp], fun f hfm => ?_, fun hj => ?_⟩
      · have hne : o.inputs ≠ [] := fun e => by rw [e] at hfm; cases hfm
        obtain ⟨bb, hb, hsub⟩ := checkFiles_order hf hne
        have hfl := (batches_spec hb).2.1
        rw [← hfl, List.mem_flatten] at hfm
        obtain ⟨b, hbm, hfb⟩ := hfm
        rw [← hp]
        refine List.Sublist.trans ?_ (hsub b hbm)
        obtain ⟨x, y, rfl⟩ := List.append_of_mem hfb
        rw [show x ++ f :: y = x ++ ([f] ++ y) from rfl, linesOf_append, linesOf_append,
          entries_append, entries_append, printed_append, printed_append]
        exact (List.sublist_append_left _ _).trans (List.sublist_append_right _ _)
      · subst hj
        rw [hout, ← hp, inputLines, entries_append, printed_append]
        congr 1
        by_cases hne : o.inputs = []
        · unfold checkFiles at hf
          rw [hne] at hf
          simp only [List.isEmpty_nil, if_true, Prod.mk.injEq] at hf
          rw [← hf.1, hne, hp]
          simp [linesOf, entries, toPrint]
        · obtain ⟨bb, hb, hsub⟩ := checkFiles_order hf hne
          obtain ⟨_, hfl, _, hcnt⟩ := batches_spec hb
          have hpos : 0 < o.inputs.length := List.length_pos_iff.2 hne
          have h1 : bb.length = 1 := by
            rw [hcnt, Nat.div_one, Nat.max_eq_left (by omega)]
            exact Nat.div_eq_of_lt_le (by omega) (by omega)
          obtain ⟨b, rfl⟩ := List.length_eq_one_iff.1 h1
          rw [List.flatten_singleton] at hfl
          subst hfl
          have h2 := hsub o.inputs (by simp)
          refine (List.Sublist.eq_of_length_le h2 ?_).symm
          have := (checkFiles_subperm env w s bf o 1).length_le
          rw [hf] at this
          exact this

-- the lines of two files, read by two threads in turn
example : check Sample.env (Sample.world3 none) [0, 1, 1, 0, 0, 1, 0, 1] ⟨[], false⟩
      ⟨false, false, true, "bf", ["x", "x"]⟩ 2
    = ([[97#8, 58#8, 32#8, 78#8, 79#8, 75#8], [97#8, 58#8, 32#8, 78#8, 79#8, 75#8],
        [98#8, 58#8, 32#8, 78#8, 79#8, 75#8], [98#8, 58#8, 32#8, 78#8, 79#8, 75#8]],
      some (.ok ())) := by
  decide +kernel

end Poppy
