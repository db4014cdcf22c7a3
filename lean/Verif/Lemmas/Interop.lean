import Verif.InteropSpec
import Verif.Lemmas.PyPrograms
import Verif.Props.Sessions

/-! Lemmas for C93. -/

namespace Poppy

open Spec Cli Py

namespace Py

theorem load_stored {env : Env} {w : World} {file : Path} {f : Bloom}
    (h : Py.load env w file = .ok f) : Stored env w file f := by
  unfold Py.load at h
  cases ho : w.open file with
  | err e => rw [ho] at h; cases h
  | panic => rw [ho] at h; cases h
  | ok r =>
    rw [ho] at h
    have h := ofRes_ok.1 h
    obtain ⟨bs, rfl, _⟩ := open_loaded ho h
    exact stored_of_open ho h

theorem load_of_stored {env : Env} {w : World} {file : Path} {f : Bloom}
    (h : Stored env w file f) (ha : w.access file = .full) : Py.load env w file = .ok f := by
  obtain ⟨bs, h1, h2⟩ := h
  unfold Py.load World.open
  simp [h1, ha, h2, PyRes.ofRes]

theorem save_fs {w : World} {f : Bloom} {p : Path} (hd : w.disk = none) :
    (Py.save w f p).1.fs p = w.fs p ∧ (∀ u, (Py.save w f p).2 ≠ .ok u) ∨
    (Py.save w f p).1.fs p = some f.file ∧ (Py.save w f p).2 = .ok () := by
  unfold Py.save World.create
  by_cases hc : w.creatable p = true
  · right
    simp only [hc, if_true]
    rw [show ({ w with fs := fun q => if q = p then some [] else w.fs q } : World).disk = none from hd,
      C29_write_ok]
    simp [World.put, PyRes.ofRes]
  · left
    simp [hc]

theorem stored_save {env : Env} (hs : env.Small) {w : World} {f : Bloom} (hf : f.Reach env)
    {p : Path} (hd : w.disk = none) (h : (Py.save w f p).2 = .ok ()) :
    ∃ g, Stored env (Py.save w f p).1 p g ∧ f.Grows env g := by
  rcases save_fs (f := f) (p := p) hd with ⟨_, h1⟩ | ⟨h1, _⟩
  · exact absurd h (h1 ())
  · obtain ⟨g, hg, e⟩ := Bloom.Grows.reload hs hf
    exact ⟨g, ⟨_, h1, hg⟩, e⟩

theorem use_grows {t : Libs} {env : Env} (hs : env.Small) {file : Path} {w w' : World} {f : Bloom}
    (hf : Stored env w file f) (h : Use t env file w w') :
    ∃ g, Stored env w' file g ∧ g.version = f.version ∧ g.capacity = f.capacity ∧ g.fpp = f.fpp ∧
      (f.HasBits → g.HasBits) ∧
      ∀ k, f.containsBytes env k = .ok true → g.containsBytes env k = .ok true := by
  cases h with
  | step h => exact C74_kept hs hf (.step .refl h)
  | edit before mid f' hb hm hl hd =>
    set st := Store.run env ⟨[], w⟩ before with hst
    have hfs : st.world.fs file = w.fs file := Store.run_fs ⟨[], w⟩ before hb
    have e : f' = f := by
      obtain ⟨bs, h1, h2⟩ := hf
      exact (load_stored hl).unique ⟨bs, by rw [hfs, h1], h2⟩
    subst e
    have ok := (Store.run_ok hs (Store.ok_nil env w) before).1
    have hc : st.call env (.load file) = ⟨st.objs ++ [f'], st.world⟩ := by
      simp only [Store.call, hl, Store.alloc]
    have ok' := (Store.call_ok hs ok (.load file)).1
    rw [← hst, hc] at ok'
    obtain ⟨ok2, le2⟩ := Store.run_ok hs ok' mid
    obtain ⟨g, hg, hgr⟩ := le2 st.objs.length f' (by simp)
    have hgR := ok2 g (List.mem_of_getElem? hg)
    rw [Store.run_append, ← hst]
    show ∃ x, Stored env (Store.run env (st.call env (.load file)) (mid ++ _)).world file x ∧ _
    rw [hc, Store.run_append]
    set st2 := Store.run env ⟨st.objs ++ [f'], st.world⟩ mid with hst2
    have hsave : (Store.run env st2 [.save st.objs.length file]).world =
        (Py.save st2.world g file).1 := by
      simp only [Store.run, Store.call, hg]
    rw [hsave]
    have hd2 : st2.world.disk = none := by
      rw [(Store.run_rights (env := env) ⟨st.objs ++ [f'], st.world⟩ mid).2]
      show st.world.disk = none
      rw [(Store.run_rights (env := env) ⟨[], w⟩ before).2]
      exact hd
    rcases save_fs (f := g) (p := file) hd2 with ⟨h1, _⟩ | ⟨_, h2⟩
    · obtain ⟨bs, b1, b2⟩ := hf
      refine ⟨f', ⟨bs, ?_, b2⟩, rfl, rfl, rfl, id, fun _ h => h⟩
      rw [h1, Store.run_fs _ mid hm]
      show st.world.fs file = _
      rw [hfs, b1]
    · obtain ⟨x, hx, e⟩ := stored_save hs hgR hd2 h2
      have q := hgr.trans e
      exact ⟨x, hx, q.version, q.capacity, q.fpp, q.hasBits.1, q.contains⟩

end Py

namespace Cli

theorem lf_readUntilLf (bs : List U8) :
    (∃ s, LF ∉ s ∧ (readUntilLf bs).1 = s ++ [LF]) ∨ LF ∉ (readUntilLf bs).1 := by
  induction bs with
  | nil => right; simp [readUntilLf]
  | cons b bs ih =>
    unfold readUntilLf
    by_cases hb : b = LF
    · left; exact ⟨[], by simp, by simp [hb]⟩
    · simp only [hb, if_false]
      rcases ih with ⟨s, h1, h2⟩ | h
      · left; exact ⟨b :: s, by simp [h1, Ne.symm hb], by simp [h2]⟩
      · right; simp [h, Ne.symm hb]

theorem dropCr_sub {l : List U8} {x : U8} (h : x ∈ dropCr l) : x ∈ l := by
  unfold dropCr at h
  split at h
  · exact List.dropLast_subset _ h
  · exact h

theorem dropCr_utf8 {l : List U8} (h : validUtf8 l = true) : validUtf8 (dropCr l) = true := by
  unfold dropCr
  split
  · rename_i e
    obtain ⟨a, ha⟩ := List.getLast?_eq_some_iff.1 e
    rw [ha, validUtf8_snoc a (by decide)] at h
    rw [ha, List.dropLast_concat]
    exact h
  · exact h

theorem lineItem_ok {bs k : List U8} (h : lineItem (readUntilLf bs).1 = .ok k) :
    LF ∉ k ∧ IsUtf8 k := by
  suffices LF ∉ k ∧ validUtf8 k = true from ⟨this.1, (validUtf8_iff k).1 this.2⟩
  rcases lf_readUntilLf bs with ⟨s, h1, h2⟩ | h1
  · rw [h2, lineItem_terminated] at h
    split at h
    · cases h
      rename_i hv
      exact ⟨fun hx => h1 (dropCr_sub hx), dropCr_utf8 hv⟩
    · cases h
  · rw [lineItem_last h1] at h
    split at h
    · cases h; rename_i hv; exact ⟨h1, hv⟩
    · cases h

theorem linesAux_ok {n : ℕ} {bs k : List U8} (h : .ok k ∈ linesAux n bs) : LF ∉ k ∧ IsUtf8 k := by
  induction n generalizing bs with
  | zero => cases h
  | succ n ih =>
    unfold linesAux at h
    split at h
    · cases h
    · rename_i l rest _ e
      rcases List.mem_cons.1 h with h | h
      · exact lineItem_ok (bs := bs) (by rw [e]; exact h.symm)
      · exact ih h

theorem brokenLinesAux_ok {n : ℕ} {bs k : List U8} (h : .ok k ∈ brokenLinesAux n bs) :
    LF ∉ k ∧ IsUtf8 k := by
  induction n generalizing bs with
  | zero => simp [brokenLinesAux] at h
  | succ n ih =>
    unfold brokenLinesAux at h
    split at h
    · rcases List.mem_cons.1 h with h | h
      · exact lineItem_ok h.symm
      · exact ih h
    · simp at h

theorem inputLines_ok {w : World} {stdin : Stdin} {b : Bool} {files : List Path} {k : List U8}
    (h : .ok k ∈ inputLines w stdin b files) : LF ∉ k ∧ IsUtf8 k := by
  unfold inputLines at h
  rcases List.mem_append.1 h with h | h
  · split at h
    · unfold Stdin.lines at h
      split at h
      · exact brokenLinesAux_ok h
      · exact linesAux_ok h
    · cases h
  · obtain ⟨f, _, h⟩ := List.mem_flatMap.1 h
    unfold linesIn at h
    split at h
    · unfold fileLines at h
      split at h
      · exact linesAux_ok h
      · exact brokenLinesAux_ok h
    · cases h

end Cli

end Poppy
