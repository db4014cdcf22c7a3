import Verif.JobsSpec
import Verif.Lemmas.RefineBloom
import Verif.Lemmas.Sessions
import Verif.Props.Cli

/-! Lemmas about the number of jobs. -/

namespace Poppy

open Spec

theorem sameButCount_of {a b : List U8} {n n' : ℕ} (h : a.length = countAt a) (h0 : a ≠ []) :
    SameButCount (a ++ le 8 n ++ b) (a ++ le 8 n' ++ b) := by
  have hl : ∀ k, (le 8 k).length = 8 := by intro k; simp [le]
  have hc : countAt (a ++ le 8 n ++ b) = a.length := by
    rw [h]
    unfold countAt
    rcases a with _ | ⟨x, a⟩
    · exact absurd rfl h0
    · rfl
  refine ⟨by simp [hl], fun i hi => ?_⟩
  rw [hc] at hi
  rcases hi with hi | hi
  · rw [List.append_assoc, List.append_assoc, List.getElem?_append_left hi,
      List.getElem?_append_left hi]
  · rw [List.getElem?_append_right (by simp [hl]; exact hi),
      List.getElem?_append_right (by simp [hl]; exact hi)]
    simp [hl]

namespace Cli

/-- Whatever the number of jobs and the schedule, the filters differ in the estimate only. -/
theorem parallel_same {env : Env} (hs : env.Small) {w : World} {s s' : Schedule} {bf g g' : Bloom}
    (hf : bf.Reach env) {files : List Path} {j j' : ℕ}
    (h : parallelInsert env w s bf files j = some (.ok g))
    (h' : parallelInsert env w s' bf files j' = some (.ok g')) : SameButCount g.file g'.file := by
  have r := insertFiles_reach hf (parallelInsert_some h).symm
  have r' := insertFiles_reach hf (parallelInsert_some h').symm
  have inj : ∀ {a b : List (List U8)}, a.map Res.ok = b.map Res.ok → a = b := fun {a b} e =>
    (List.map_injective_iff.2 (fun a b h => Res.ok.inj h)) e
  rw [← Bloom.view_file r, ← Bloom.view_file r']
  cases bf with
  | v1 f =>
    obtain ⟨es, g, a0, rfl, a1, a2, a3, a4, a5, a6, a7, a8⟩ := C54_v1_bits hs hf h
    obtain ⟨es', g', b0, rfl, b1, b2, b3, b4, b5, b6, b7, b8⟩ := C54_v1_bits hs hf h'
    obtain rfl := inj (a0.2.symm.trans b0.2)
    have hb : bitAt g.bitset = bitAt g'.bitset := by
      funext i
      rw [Bool.eq_iff_iff, a8, b8]
    have : g'.view = { g.view with count := g'.count.toNat } := by
      simp only [V1.view, a1, a2, a3, a4, a5, a6, a7, b1, b2, b3, b4, b5, b6, b7, hb]
    simp only [Bloom.view, Abs.F.file, this, Abs.F1.file, v1Bytes]
    have := sameButCount_of (a := [1, 0, 0, 0, 0, 0, 0, 0] ++ le 8 g.view.cap ++ le 8 g.view.fpp.toNat
      ++ le 8 g.view.hashes ++ le 8 g.view.size)
      (b := ((Abs.words g.view.words g.view.bits).map (le 8)).flatten ++ g.view.data)
      (n := g.view.count) (n' := g'.count.toNat) (by simp [le, countAt]) (by simp)
    simpa only [List.append_assoc] using this
  | v2 f =>
    obtain ⟨es, g, a0, rfl, a1, a2, a3, a4, a5, a6, a7, a8, a9⟩ := C54_v2_bits hf h
    obtain ⟨es', g', b0, rfl, b1, b2, b3, b4, b5, b6, b7, b8, b9⟩ := C54_v2_bits hf h'
    obtain rfl := inj (a0.2.symm.trans b0.2)
    have hb : g.bucketBit = g'.bucketBit := by
      funext b i
      rw [Bool.eq_iff_iff, a8, b8]
    have hc : bitAt g.indexCache.asSlice = bitAt g'.indexCache.asSlice := by
      funext i
      rw [Bool.eq_iff_iff, a9, b9]
    have : g'.view = { g.view with count := g'.count.toNat } := by
      simp only [V2.view, a1, a2, a3, a4, a5, a6, a7, b1, b2, b3, b4, b5, b6, b7, hb, hc]
    simp only [Bloom.view, Abs.F.file, this, Abs.F2.file, v2Bytes, List.append_assoc]
    have := fun b => sameButCount_of (a := [2, BitVec.ofNat 8 (Abs.level g.view.flags.opt), 0, 0, 0,
      0, 0, 0] ++ le 8 g.view.cap ++ le 8 g.view.fpp.toNat ++ le 8 g.view.hashes) (b := b)
      (n := g.view.count) (n' := g'.count.toNat) (by simp [le, countAt]) (by simp)
    simp only [List.append_assoc] at this
    exact this _

end Cli
end Poppy
