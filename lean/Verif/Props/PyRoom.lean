import Verif.Lemmas.PyUse
import Verif.Props.RoomLeft

/-! # How many entries a Python program can insert (C115) -/

namespace Poppy

open Spec Cli Py

/-- What a program can still insert into one of its filters, whatever else it does in between apart
from merging another filter into it: as many new entries as the estimate leaves room for.  The
insertion of `k` does not raise, and all entries are contained then. -/
theorem C115_used {env : Env} (sp : env.libm.Spec) (hs : env.Small) (w : World)
    (before after : List Call) (i : ℕ) {f : Bloom}
    (h : (Store.run env ⟨[], w⟩ before).objs[i]? = some f) {v : U8} {cap : U64} {fpp : F64}
    {opt : OptLevel} (hf : f.From env v cap fpp opt) (hc : cap ≠ 0)
    (hm : ∀ c ∈ after, ¬ c.MergesInto i) (k : List U8) {new : Finset (List U8)}
    (hn : ∀ x ∈ entries i after ++ [k], Py.containsBytes env f x = .ok true ∨ x ∈ new)
    (hr : (Py.countEstimate f).toNat + new.card ≤ cap.toNat) :
    ∃ g, (Store.run env ⟨[], w⟩ (before ++ after)).objs[i]? = some g ∧
      ∃ r g', Py.insertBytes env g k = (g', .ok r) ∧
        (f.HasBits → ∀ x ∈ entries i after ++ [k], Py.containsBytes env g' x = .ok true) := by
  refine ⟨_, by rw [Store.run_append]; exact Store.run_entries hm h, ?_⟩
  obtain ⟨hok, g, hg, hin, _⟩ := C114_bloom sp hs hf hc (es := entries i after ++ [k]) (new := new)
    (fun x hx => (hn x hx).imp ofRes_ok.1 id) hr
  obtain ⟨_, ⟨r, h2⟩, _⟩ := (Bloom.allOk_append ..).1 hok
  have hg' := (Bloom.fill_ok hg).1
  rw [Bloom.inserts_append] at hg'
  refine ⟨r, g, ?_, fun hb x hx => ofRes_ok.2 (hin hb x hx)⟩
  unfold Py.insertBytes
  rw [hg']
  cases hx : (f.inserts env (entries i after)).insertBytes env k with
  | mk a b =>
    rw [hx] at h2
    simp only at h2
    subst h2
    simp [Bloom.inserts, hx, PyRes.ofRes]

/-- A filter that a program made for `cap` entries takes `cap` different entries, given as bytes or
as text, whatever else the program does in between apart from merging another filter into it.  The
insertion of `k` does not raise, and all entries are contained then. -/
theorem C115_new {env : Env} (sp : env.libm.Spec) (hs : env.Small) (w : World)
    (before after : List Call) {c : Call} {cap : U64} (hmk : c.Makes cap) (hc : cap ≠ 0) {i : ℕ}
    (hi : (Store.run env ⟨[], w⟩ before).objs.length = i)
    (hnew : (Store.run env ⟨[], w⟩ (before ++ [c])).objs.length = i + 1)
    (hm : ∀ c ∈ after, ¬ c.MergesInto i) (k : List U8)
    (he : (entries i after ++ [k]).dedup.length ≤ cap.toNat) :
    ∃ g, (Store.run env ⟨[], w⟩ (before ++ c :: after)).objs[i]? = some g ∧
      ∃ r g', Py.insertBytes env g k = (g', .ok r) ∧
        (g.HasBits → ∀ x ∈ entries i after ++ [k], Py.containsBytes env g' x = .ok true) := by
  subst hi
  rw [Store.run_append] at hnew
  obtain ⟨v, fpp, opt, f, hf, hobj⟩ := Py.Call.makes (env := env) hmk
    (st := Store.run env ⟨[], w⟩ before) (by
      show _ < (Store.run env _ [c]).objs.length
      omega)
  obtain ⟨hreach, _, _, h0, _⟩ := Bloom.new_spec hs hf
  have hb : (Store.run env ⟨[], w⟩ (before ++ [c])).objs[(Store.run env ⟨[], w⟩ before).objs.length]?
      = some f := by
    rw [Store.run_append]; exact hobj
  have h1 := C115_used sp hs w (before ++ [c]) after _ hb (.make hf) hc hm k
    (new := (entries (Store.run env ⟨[], w⟩ before).objs.length after ++ [k]).toFinset)
    (fun x hx => Or.inr (List.mem_toFinset.2 hx)) (by
      rw [List.card_toFinset]
      show (Bloom.countEstimate f).toNat + _ ≤ _
      rw [h0]
      simpa using he)
  rw [List.append_assoc, List.singleton_append] at h1
  obtain ⟨g, hg, r, g', h2, h3⟩ := h1
  refine ⟨g, hg, r, g', h2, fun hbits => h3 ?_⟩
  have hg' := Store.run_entries (env := env) hm hb
  rw [← Store.run_append, List.append_assoc, List.singleton_append, hg] at hg'
  rw [Option.some.inj hg'] at hbits
  exact (Bloom.Grows.inserts hs hreach _).hasBits.2 hbits

/-! Two filters for two entries; into the second one go a text, the same as bytes, and another
entry. -/

def Sample.pyBefore : List Call := [.withVersion 1 100 Sample.p001]
def Sample.pyAfter : List Call :=
  [.insertStr 1 "a", .insertBytes 0 [99#8], .unionMerge 0 1, .insertBytes 1 [97#8], .save 1 "out"]

example : (Call.withVersion 1 2 Sample.p001).Makes 2 ∧
    (Store.run Sample.env ⟨[], Sample.world⟩ Sample.pyBefore).objs.length = 1 ∧
    (Store.run Sample.env ⟨[], Sample.world⟩
      (Sample.pyBefore ++ [.withVersion 1 2 Sample.p001])).objs.length = 1 + 1 ∧
    (∀ c ∈ Sample.pyAfter, ¬ c.MergesInto 1) ∧
    (entries 1 Sample.pyAfter ++ [[98#8]]).dedup.length ≤ (2 : U64).toNat :=
  ⟨rfl, by decide +kernel, by decide +kernel, by simp [Sample.pyAfter, Call.MergesInto],
    by decide +kernel⟩

end Poppy
