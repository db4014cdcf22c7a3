import Verif.Lemmas.PyPrograms
import Verif.Samples

/-! # Python programs (C75) -/

namespace Poppy

open Spec Cli Py

/-- Whatever a Python program does, its filter objects stay there, keep version, capacity and
probability, and go on containing whatever they contained. -/
theorem C75_objects {env : Env} (hs : env.Small) (w : World) (before after : List Call) (i : ℕ)
    (f : Bloom) (h : (Store.run env ⟨[], w⟩ before).objs[i]? = some f) :
    ∃ g, (Store.run env ⟨[], w⟩ (before ++ after)).objs[i]? = some g ∧
      Py.version g = Py.version f ∧ Py.capacity g = Py.capacity f ∧ Py.fpp g = Py.fpp f ∧
      ∀ k, Py.containsBytes env f k = .ok true → Py.containsBytes env g k = .ok true := by
  rw [Store.run_append]
  obtain ⟨g, hg, e⟩ := (Store.run_ok hs (Store.run_ok hs (Store.ok_nil env w) before).1 after).2 i f h
  refine ⟨g, hg, e.version, e.capacity, e.fpp, fun k hk => ?_⟩
  unfold Py.containsBytes at hk ⊢
  rw [ofRes_ok] at hk ⊢
  exact e.contains k hk

/-- A key whose insertion did not raise is contained from then on, in every program; the same for
texts. -/
theorem C75_no_false_negative {env : Env} (hs : env.Small) (w : World)
    (before after : List Call) (i : ℕ) (f : Bloom)
    (h : (Store.run env ⟨[], w⟩ before).objs[i]? = some f) (hbits : f.HasBits) :
    (∀ k b, (Py.insertBytes env f k).2 = .ok b →
      ∃ g, (Store.run env ⟨[], w⟩ (before ++ .insertBytes i k :: after)).objs[i]? = some g ∧
        Py.containsBytes env g k = .ok true) ∧
    (∀ s b, (Py.insertStr env f s).2 = .ok b →
      ∃ g, (Store.run env ⟨[], w⟩ (before ++ .insertStr i s :: after)).objs[i]? = some g ∧
        Py.containsStr env g s = .ok true) := by
  have h1 := (Store.run_ok hs (Store.ok_nil env w) before).1
  have hf := h1 f (List.mem_of_getElem? h)
  have key : ∀ k b, (f.insertBytes env k).2 = .ok b →
      (f.insertBytes env k).1.containsBytes env k = .ok true := by
    intro k b hb
    have hok : f.AllOk env [k] := ⟨⟨b, hb⟩, trivial⟩
    exact C52_fill_contains hs hf hbits (Bloom.fill_of_allOk hok) k (by simp)
  constructor
  · intro k b hb
    rw [Store.run_append]
    have hb : (f.insertBytes env k).2 = .ok b := ofRes_ok.1 hb
    have hc := Store.call_ok hs h1 (.insertBytes i k)
    have hg : ((Store.run env ⟨[], w⟩ before).call env (.insertBytes i k)).objs[i]?
        = some (f.insertBytes env k).1 := by
      show (List.modify _ i _)[i]? = _
      simp only [List.getElem?_modify, h, if_true]
      rfl
    obtain ⟨g, hg', e⟩ := (Store.run_ok hs hc.1 after).2 i _ hg
    refine ⟨g, hg', ?_⟩
    unfold Py.containsBytes
    rw [ofRes_ok]
    exact e.contains k (key k b hb)
  · intro s b hb
    rw [Store.run_append]
    have hb := ofRes_ok.1 hb
    have hc := Store.call_ok hs h1 (.insertStr i s)
    have hg : ((Store.run env ⟨[], w⟩ before).call env (.insertStr i s)).objs[i]?
        = some (f.insertBytes env (s.toUTF8.data.toList.map UInt8.toBitVec)).1 := by
      show (List.modify _ i _)[i]? = _
      simp only [List.getElem?_modify, h, if_true]
      rfl
    obtain ⟨g, hg', e⟩ := (Store.run_ok hs hc.1 after).2 i _ hg
    refine ⟨g, hg', ?_⟩
    unfold Py.containsStr
    rw [ofRes_ok]
    exact e.contains _ (key _ b hb)

/-- A saved filter can be loaded later, as long as nothing else writes the file, and then is like it
was when it was saved (with room on the disk). -/
theorem C75_saved {env : Env} (hs : env.Small) (w : World) (before after : List Call) (i : ℕ)
    (p : Path) (f : Bloom) (h : (Store.run env ⟨[], w⟩ before).objs[i]? = some f)
    (hsave : (Py.save (Store.run env ⟨[], w⟩ before).world f p).2 = .ok ())
    (hafter : ∀ c ∈ after, ¬ c.Touches p) (hr : w.access p = .full)
    (hd : w.disk = none) :
    ∃ g, Py.load env (Store.run env ⟨[], w⟩ (before ++ .save i p :: after)).world p = .ok g ∧
      Py.Same env f g := by
  have h1 := (Store.run_ok hs (Store.ok_nil env w) before).1
  have hf := h1 f (List.mem_of_getElem? h)
  obtain ⟨r1, d1⟩ := Store.run_rights (env := env) ⟨[], w⟩ before
  have hc : (Store.run env ⟨[], w⟩ before).world.creatable p = true := by
    by_contra hn
    obtain ⟨e, he⟩ := (C62_save_fails (Store.run env ⟨[], w⟩ before).world f p).1.2
      (by simpa using hn)
    rw [he] at hsave
    cases hsave
  obtain ⟨w', g, e1, e2, e3, _⟩ := C62_load_save env hs f hf _ p hc (by rw [r1]; exact hr)
    (by rw [d1]; exact hd)
  refine ⟨g, ?_, e3⟩
  rw [Store.run_append]
  have hcall : (Store.run env ⟨[], w⟩ before).call env (.save i p)
      = { Store.run env ⟨[], w⟩ before with world := w' } := by
    simp only [Store.call, h, e1]
  show Py.load env (Store.run env ((Store.run env ⟨[], w⟩ before).call env (.save i p)) after).world p
    = _
  rw [hcall]
  have f2 := Store.run_fs (env := env) { Store.run env ⟨[], w⟩ before with world := w' } after hafter
  obtain ⟨r2, _⟩ := Store.run_rights (env := env) { Store.run env ⟨[], w⟩ before with world := w' } after
  rw [← e2]
  unfold Py.load World.open
  rw [f2, r2]

/-- After a merge that did not raise, the filter contains what both filters contained, and the
other filter is unchanged. -/
theorem C75_union {env : Env} (hs : env.Small) (w : World) (before : List Call) (i j : ℕ)
    (f o : Bloom) (hi : (Store.run env ⟨[], w⟩ before).objs[i]? = some f)
    (hj : (Store.run env ⟨[], w⟩ before).objs[j]? = some o) (hij : i ≠ j)
    (hm : (Py.unionMerge env f o).2 = .ok ()) :
    ∃ g, (Store.run env ⟨[], w⟩ (before ++ [.unionMerge i j])).objs[i]? = some g ∧
      (∀ k, Py.containsBytes env f k = .ok true ∨ Py.containsBytes env o k = .ok true →
        Py.containsBytes env g k = .ok true) ∧
      ∀ n ≠ i, (Store.run env ⟨[], w⟩ (before ++ [.unionMerge i j])).objs[n]?
        = (Store.run env ⟨[], w⟩ before).objs[n]? := by
  have h1 := (Store.run_ok hs (Store.ok_nil env w) before).1
  have hf := h1 f (List.mem_of_getElem? hi)
  have ho := h1 o (List.mem_of_getElem? hj)
  have hst : Store.run env ⟨[], w⟩ (before ++ [.unionMerge i j])
      = { Store.run env ⟨[], w⟩ before with
          objs := (Store.run env ⟨[], w⟩ before).objs.modify i
            fun f => (Py.unionMerge env f o).1 } := by
    rw [Store.run_append]
    simp only [Store.run, Store.call, hj, if_neg hij]
  rw [hst]
  refine ⟨(Py.unionMerge env f o).1, ?_, fun k hk => ?_, fun n hn => ?_⟩
  · simp only [List.getElem?_modify, hi, if_true]
    rfl
  · unfold Py.containsBytes at hk ⊢
    simp only [ofRes_ok] at hk ⊢
    have hm : (f.unionMerge env o).2 = .ok () := ofRes_ok.1 hm
    have hme : mergeAll env f [o] = .ok (f.unionMerge env o).1 := by
      rw [mergeAll]
      cases hx : f.unionMerge env o with
      | mk a r =>
        rw [hx] at hm
        simp only at hm
        subst hm
        rfl
    exact mergeAll_contains hs hf (fun x hx => by rw [List.mem_singleton.1 hx]; exact ho) hme
      (hk.imp id fun hk => ⟨o, by simp, hk⟩)
  · simp only [List.getElem?_modify, if_neg (Ne.symm hn)]
    cases (Store.run env ⟨[], w⟩ before).objs[n]? <;> rfl

/-! A program: two filters are made, a key goes into the second one, which is merged into the first
one and saved. -/

deriving instance DecidableEq for PyRes

def Sample.program : List Call :=
  [.withVersion 1 100 Sample.p001, .withVersion 1 100 Sample.p001, .insertBytes 1 [1#8],
    .unionMerge 0 1, .save 0 "out"]

example : ((Store.run Sample.env ⟨[], Sample.world⟩ Sample.program).objs.map
      fun f => Py.containsBytes Sample.env f [1#8]) = [.ok true, .ok true] ∧
    (Store.run Sample.env ⟨[], Sample.world⟩ Sample.program).world.fs "out" ≠ none := by
  decide +kernel

end Poppy
