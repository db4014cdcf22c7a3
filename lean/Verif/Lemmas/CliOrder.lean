import Verif.Lemmas.CliCommands

/-! Order of the lines printed by `check`. -/

namespace Poppy
namespace Cli

/-- What a thread prints appears in its order in the common output. -/
theorem runCheckers_order (env : Env) (w : World) (bf : Bloom) (o : Check) (sched : Schedule)
    (ts : List Checker) (i : ℕ) (t : Checker) (h : ts[i]? = some t) :
    ∃ t', (runCheckers env w bf o sched ts).1[i]? = some t' ∧
      (t.rest env w bf o).1.Sublist
        ((runCheckers env w bf o sched ts).2 ++ (t'.rest env w bf o).1) := by
  induction sched generalizing ts t with
  | nil => exact ⟨t, h, List.Sublist.refl _⟩
  | cons j sched ih =>
    rw [runCheckers]
    cases hj : ts[j]? with
    | none => exact ih ts t h
    | some u =>
      simp only
      have hlt : j < ts.length := by
        by_contra hc
        rw [List.getElem?_eq_none (by omega)] at hj
        cases hj
      by_cases hij : j = i
      · subst hij
        obtain rfl : u = t := by rw [h] at hj; exact (Option.some.inj hj).symm
        obtain ⟨t', h1, h2⟩ := ih (ts.set j (u.step env w bf o).1) _
          (by rw [List.getElem?_set, if_pos rfl, if_pos hlt])
        refine ⟨t', h1, ?_⟩
        rw [Checker.rest_step, List.append_assoc]
        exact h2.append_left _
      · obtain ⟨t', h1, h2⟩ := ih (ts.set j (u.step env w bf o).1) t
          (by rw [List.getElem?_set, if_neg hij, h])
        refine ⟨t', h1, ?_⟩
        rw [List.append_assoc]
        exact h2.trans (List.sublist_append_right _ _)

/-- The lines of one batch come in order. -/
theorem checkFiles_order {env : Env} {w : World} {s : Schedule} {bf : Bloom} {o : Check} {jobs : ℕ}
    {out : List (List U8)} (h : checkFiles env w s bf o jobs = (out, some (.ok ())))
    (hne : o.inputs ≠ []) :
    ∃ bs, batches o.inputs jobs = .ok bs ∧ ∀ b ∈ bs,
      (printed env bf o (entries (linesOf w b))).Sublist out := by
  have he : o.inputs.isEmpty = false := by simpa using hne
  unfold checkFiles at h
  rw [he] at h
  cases hb : batches o.inputs jobs with
  | err e => rw [hb] at h; cases h
  | panic => rw [hb] at h; cases h
  | ok bs =>
    rw [hb] at h
    simp only [Bool.false_eq_true, if_false, Prod.mk.injEq] at h
    obtain ⟨h1, h2⟩ := h
    refine ⟨bs, rfl, fun b hbm => ?_⟩
    obtain ⟨i, hi, rfl⟩ := List.mem_iff_getElem.1 hbm
    obtain ⟨t', g1, g2⟩ := runCheckers_order env w bf o s (bs.map fun b => Checker.running [] b) i
      (Checker.running [] bs[i]) (by rw [List.getElem?_map, List.getElem?_eq_getElem hi]; rfl)
    have hdone := joinCheckers_ok h2 t' (List.mem_of_getElem? g1)
    obtain ⟨_, p2⟩ := runCheckers_perm env w bf o s (bs.map fun b => Checker.running [] b)
    have hr : (restFiles env w bf o bs[i]).2 = .ok () := by
      have := congrArg (fun l => l[i]?) p2
      simp only [List.getElem?_map, g1, List.getElem?_eq_getElem hi, Option.map_some, hdone,
        Option.some.injEq] at this
      exact this.symm
    obtain ⟨_, es, e1, _, e3⟩ := restFiles_ok hr
    rw [hdone, h1] at g2
    have hx : ((Checker.running [] bs[i]).rest env w bf o).1 = printed env bf o es := by
      rw [← e3]; rfl
    rw [hx] at g2
    have hes : entries (linesOf w bs[i]) = es := by
      rw [e1]
      unfold entries
      rw [List.filterMap_map]
      exact List.filterMap_some
    rw [hes]
    simpa [Checker.rest] using g2

end Cli
end Poppy
