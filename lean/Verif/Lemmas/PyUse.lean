import Verif.PyUseSpec
import Verif.Lemmas.PyPrograms
import Verif.Props.Dataset

/-! Lemmas about what Python programs insert, and about commands of the tool as Python programs. -/

namespace Poppy
namespace Py

open Cli

theorem Store.alloc_getElem {st : Store} {i : ℕ} {f : Bloom} (h : st.objs[i]? = some f)
    (r : PyRes Bloom) : (st.alloc r).objs[i]? = some f := by
  cases r with
  | ok g =>
    show (st.objs ++ [g])[i]? = _
    rw [List.getElem?_append_left (List.getElem?_eq_some_iff.1 h).1, h]
  | _ => exact h

theorem Store.run_entries {env : Env} {i : ℕ} {cs : List Call} (hm : ∀ c ∈ cs, ¬ c.MergesInto i)
    {st : Store} {f : Bloom} (h : st.objs[i]? = some f) :
    (st.run env cs).objs[i]? = some (f.inserts env (entries i cs)) := by
  induction cs generalizing st f with
  | nil => exact h
  | cons c cs ih =>
    have ih := @ih (fun c hc => hm c (List.mem_cons_of_mem _ hc))
    have hc := hm c (by simp)
    rw [Store.run]
    cases c with
    | insertBytes j k =>
      by_cases hj : j = i
      · subst hj
        rw [entries, if_pos rfl]
        refine ih (f := (f.insertBytes env k).1) ?_
        show (List.modify _ _ _)[j]? = _
        simp only [List.getElem?_modify, h, if_true]
        rfl
      · rw [entries, if_neg hj]
        refine ih ?_
        show (List.modify _ _ _)[i]? = _
        simp only [List.getElem?_modify, h, if_neg hj]
        rfl
    | insertStr j s =>
      by_cases hj : j = i
      · subst hj
        rw [entries, if_pos rfl]
        refine ih (f := (f.insertBytes env (s.toUTF8.data.toList.map UInt8.toBitVec)).1) ?_
        show (List.modify _ _ _)[j]? = _
        simp only [List.getElem?_modify, h, if_true]
        rfl
      · rw [entries, if_neg hj]
        refine ih ?_
        show (List.modify _ _ _)[i]? = _
        simp only [List.getElem?_modify, h, if_neg hj]
        rfl
    | unionMerge a b =>
      have hai : ¬ a = i := hc
      refine ih ?_
      simp only [Store.call]
      split
      · split
        · exact h
        · show (List.modify _ _ _)[i]? = _
          simp only [List.getElem?_modify, h, if_neg hai]
          rfl
      · exact h
    | save a p =>
      refine ih ?_
      simp only [Store.call]
      split <;> exact h
    | write p x => exact ih h
    | new | withVersion | withParams | load | loads => exact ih (Store.alloc_getElem h _)

theorem Call.makes {env : Env} {c : Call} {cap : U64} (h : c.Makes cap) {st : Store}
    (hl : st.objs.length < (st.call env c).objs.length) :
    ∃ v fpp opt f, Bloom.withVersionCapacityOpt env v cap fpp opt = .ok f ∧
      (st.call env c).objs[st.objs.length]? = some f := by
  have key : ∀ v p o, st.objs.length < (st.alloc (Py.withParams env v cap p o)).objs.length →
      ∃ v' fpp opt f, Bloom.withVersionCapacityOpt env v' cap fpp opt = .ok f ∧
        (st.alloc (Py.withParams env v cap p o)).objs[st.objs.length]? = some f := by
    intro v p o hl
    cases hr : Py.withParams env v cap p o with
    | ok f =>
      by_cases ho : o.toNat ≤ 3
      · obtain ⟨l, _, h2⟩ := (C62_with_params env v cap p o).2.1 ho
        have hr' := hr
        rw [h2, ofRes_ok] at hr'
        exact ⟨v, p, l, f, hr', by simp [Store.alloc]⟩
      · rw [(C62_with_params env v cap p o).1 (by omega)] at hr
        cases hr
    | valueError | osError | panic => rw [hr] at hl; exact absurd hl (lt_irrefl _)
  cases c with
  | new c p => obtain rfl : c = cap := h; exact key 2 p 0 hl
  | withVersion v c p => obtain rfl : c = cap := h; exact key v p 0 hl
  | withParams v c p o => obtain rfl : c = cap := h; exact key v p o hl
  | _ => exact h.elim

theorem save_same (w : World) (f : Bloom) (p : Path) :
    (Py.save w f p).1 = (Cli.save w p f).1 ∧
      ((Py.save w f p).2 = .ok () ↔ (Cli.save w p f).2 = .ok ()) := by
  unfold Py.save Cli.save
  cases h : w.create p with
  | mk w' r =>
    cases r with
    | ok u =>
      simp only
      exact ⟨trivial, ofRes_ok⟩
    | err e => simp
    | panic => simp

theorem run_insertAndSave {env : Env} (f : Bloom) (w : World) (es : List (List U8)) (p : Path) :
    (Store.run env ⟨[f], w⟩ (insertAndSave es p)).world = (Cli.save w p (f.inserts env es)).1 ∧
      (Store.Through env ⟨[f], w⟩ (insertAndSave es p) ↔
        f.AllOk env es ∧ (Cli.save w p (f.inserts env es)).2 = .ok ()) := by
  induction es generalizing f with
  | nil =>
    refine ⟨(save_same w f p).1, ?_⟩
    show ((∃ g, [f][0]? = some g ∧ (Py.save w g p).2 = .ok ()) ∧ True) ↔
      True ∧ (Cli.save w p f).2 = .ok ()
    rw [← (save_same w f p).2]
    simp
  | cons k es ih =>
    obtain ⟨h1, h2⟩ := ih (f.insertBytes env k).1
    refine ⟨h1, ?_⟩
    show ((∃ g r, [f][0]? = some g ∧ (Py.insertBytes env g k).2 = .ok r) ∧
      Store.Through env ⟨[(f.insertBytes env k).1], w⟩ (insertAndSave es p)) ↔
        ((∃ r, (f.insertBytes env k).2 = .ok r) ∧ (f.insertBytes env k).1.AllOk env es) ∧
          (Cli.save w p ((f.insertBytes env k).1.inserts env es)).2 = .ok ()
    rw [h2, and_assoc]
    refine and_congr_left fun _ => ?_
    constructor
    · rintro ⟨g, r, hg, hr⟩
      cases hg
      exact ⟨r, ofRes_ok.1 hr⟩
    · rintro ⟨r, hr⟩
      exact ⟨f, r, rfl, ofRes_ok.2 hr⟩

theorem withParams_ok {env : Env} {o : Create} {cap : U64} {b : Bloom} :
    Py.withParams env o.version cap o.probability o.optimize = .ok b ↔ createSized env o cap = .ok b := by
  unfold Py.withParams createSized
  cases OptLevel.tryFrom o.optimize with
  | ok l => exact ofRes_ok
  | err e => exact ⟨fun h => (by cases h), fun h => (by cases h)⟩
  | panic => exact ⟨fun h => (by cases h), fun h => (by cases h)⟩

/-- Insertion from files with one job: line by line. -/
theorem insertFiles_one {env : Env} {w : World} {bf g : Bloom} {files : List Path} :
    insertFiles env bf w files 1 = .ok g ↔
      ∃ es, Reads w files es ∧ bf.AllOk env es ∧ g = bf.inserts env es := by
  constructor
  · intro h
    obtain ⟨h0, ess, d, ds, h1, h2, h3, hm, hlen, _⟩ := insertFiles_ok h
    have h1' : ess.length ≤ 1 := hlen
    have hl := congrArg List.length h3
    simp only [List.length_reverse, List.length_cons] at hl
    have hds : ds = [] := List.length_eq_zero_iff.1 (by omega)
    subst hds
    have : ess = [d] := by simpa using congrArg List.reverse h3
    subst this
    exact ⟨d, ⟨h0, by simpa using h1⟩, h2 d (by simp), (Res.ok.inj hm).symm⟩
  · rintro ⟨es, ⟨h0, h1⟩, h2, rfl⟩
    unfold insertFiles
    by_cases he : files = []
    · subst he
      have : es = [] := by simpa [linesOf] using h1
      subst this
      rfl
    · have hpos := List.length_pos_iff.2 he
      rw [if_neg (by simpa using he)]
      obtain ⟨bs, hb⟩ := batches_ok files (optimalJobs_pos w 1)
      obtain ⟨_, hfl, _, hcnt⟩ := batches_spec hb
      have hone : optimalJobs w 1 = 1 := rfl
      rw [hone, Nat.div_one, max_eq_left (by omega),
        show (files.length + files.length - 1) / files.length = 1 from by
          rw [Nat.div_eq_iff hpos]; omega] at hcnt
      obtain ⟨x, rfl⟩ := List.length_eq_one_iff.1 hcnt
      have hx : x = files := by simpa using hfl
      subst hx
      rw [hb]
      show (do
        let bfs ← joinEval [processFiles env w bf x]
        reduce env bfs) = _
      rw [processFiles_of_allOk h0 h1 h2]
      rfl

theorem createGuard_ok {env : Env} {w : World} {file : Path}
  (hg : w.fs file = none ∨ ∃ f, Py.load env w file = .ok f) : createGuard env w file = .ok () := by
  unfold createGuard
  rcases hg with hg | ⟨f, hf⟩
  · rw [hg]
  · unfold Py.load at hf
    cases hfs : w.fs file with
    | none => rfl
    | some bs =>
      cases ho : w.open file with
      | err e => rw [ho] at hf; cases hf
      | panic => rw [ho] at hf; cases hf
      | ok r =>
        rw [ho] at hf
        simp only [ofRes_ok.1 hf]

theorem call_load {env : Env} {w : World} {p : Path} {b : Bloom} (h : Py.load env w p = .ok b) :
    Store.call env ⟨[], w⟩ (.load p) = ⟨[b], w⟩ := by
  simp only [Store.call, h]
  rfl

theorem call_params {env : Env} {w : World} {v o : U8} {c : U64} {p : F64} {b : Bloom}
    (h : Py.withParams env v c p o = .ok b) :
    Store.call env ⟨[], w⟩ (.withParams v c p o) = ⟨[b], w⟩ := by
  simp only [Store.call, h]
  rfl

end Py
end Poppy
