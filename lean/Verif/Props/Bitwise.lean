import Verif.Lemmas.Bitwise
import Verif.Props.OnFile

/-! # C124: merging, intersecting and clearing on the bits of files -/

namespace Poppy

open Spec Abs

variable {env : Env}

/-- **C124**: the file of a union has the bits of both files; the rest, but for the count, is that of
the first. -/
theorem C124_union (hs : env.Small) {f g f' : Bloom} (hf : f.Reach env) (hg : g.Reach env)
    (h : f.unionMerge env g = (f', .ok ())) :
    f'.file.length = f.file.length ∧ ∀ o, NotCount f.file o →
      (bitAt f'.file o = true ↔ bitAt f.file o = true ∨
        (CachePart f.file o ∨ BitPart f.file o) ∧ bitAt g.file o = true) := by
  have hv := Bloom.view_union (env := env) f g
  have hf' : f'.Reach env := by
    have := Bloom.union_reach hf g
    rwa [h] at this
  rw [h] at hv
  have hin := Bloom.file_in hs hf
  rw [← Bloom.view_file hf] at hin
  rw [← Bloom.view_file hf, ← Bloom.view_file hf', ← Bloom.view_file hg]
  unfold NotCount countPlace
  cases f with
  | v1 f =>
    have w : In1 f.view.file f.view := hin
    have v : (Bloom.v1 f).view.file.getD 0 0 = 1#8 := w.version
    rw [if_pos v]
    cases g with
    | v2 g => exact absurd (congrArg Prod.snd hv) (by simp [Bloom.view, F.union, Res.answer])
    | v1 g =>
      simp only [Bloom.view, F.union] at hv
      split at hv
      · rename_i hsame
        obtain ⟨h1, h2⟩ := Prod.mk.inj hv
        cases f' with
        | v2 f' => cases h1
        | v1 f' =>
          have h1 := F.v1.inj h1
          exact (union1_file w (V1.view_words hs hf) hsame h1).imp id fun h o ho => h o (by omega)
      · exact absurd (congrArg Prod.snd hv) (by simp [Res.answer])
  | v2 f =>
    have w : In2 f.view.file f.view := hin
    have v : ¬ (Bloom.v2 f).view.file.getD 0 0 = 1#8 := by
      show ¬ f.view.file.getD 0 0 = 1#8
      rw [w.version]; decide
    rw [if_neg v]
    cases g with
    | v1 g => exact absurd (congrArg Prod.snd hv) (by simp [Bloom.view, F.union, Res.answer])
    | v2 g =>
      simp only [Bloom.view, F.union] at hv
      split at hv
      · rename_i hsame
        obtain ⟨h1, h2⟩ := Prod.mk.inj hv
        cases f' with
        | v1 f' => cases h1
        | v2 f' =>
          have h1 := F.v2.inj h1
          exact (union2_file w (Prod.ext h1 h2)).imp id fun h o ho => h o (by omega)
      · exact absurd (congrArg Prod.snd hv) (by simp [Res.answer])

/-- **C124**: the file of an intersection has the bits of the first file that are also in the second;
the rest, but for the count, is that of the first. -/
theorem C124_intersection (hs : env.Small) {f g f' : V2} (hf : f.Reach env) (hg : g.Reach env)
    (h : f.intersectionMerge env g = (f', .ok ())) :
    f'.file.length = f.file.length ∧ ∀ o, NotCount f.file o →
      (bitAt f'.file o = true ↔ bitAt f.file o = true ∧
        (CachePart f.file o ∨ BitPart f.file o → bitAt g.file o = true)) := by
  have hv := V2.view_inter env f g
  have hf' : f'.Reach env := by
    have := V2.Reach.inter g hf
    rwa [h] at this
  rw [h] at hv
  have w : In2 f.file f.view := Bloom.file_in (f := .v2 f) hs hf
  have ef := V2.view_file (V2.Reach.inv hf).2.1
  have eg := V2.view_file (V2.Reach.inv hg).2.1
  have ef' := V2.view_file (V2.Reach.inv hf').2.1
  rw [← ef] at w
  rw [← ef, ← eg, ← ef']
  have v : ¬ f.view.file.getD 0 0 = 1#8 := by rw [w.version]; decide
  unfold NotCount countPlace
  rw [if_neg v]
  exact (inter2_file w hv).imp id fun h o ho => h o (by omega)

/-- **C124**: clearing sets the count to zero and clears the bits of the file, for v2 only those in the
buckets; nothing else changes. -/
theorem C124_clear (hs : env.Small) {f : Bloom} (hf : f.Reach env) :
    f.clear.file.length = f.file.length ∧ num f.clear.file (countPlace f.file) = 0 ∧
    ∀ o, NotCount f.file o →
      (bitAt f.clear.file o = true ↔ bitAt f.file o = true ∧ ¬ BitPart f.file o) := by
  have hin := Bloom.file_in hs hf
  rw [← Bloom.view_file hf] at hin
  rw [← Bloom.view_file hf, ← Bloom.view_file (Bloom.clear_reach hf), ← Bloom.view_clear]
  unfold NotCount countPlace
  cases f with
  | v1 f =>
    have w : In1 f.view.file f.view := hin
    have v : (Bloom.v1 f).view.file.getD 0 0 = 1#8 := w.version
    rw [if_pos v]
    obtain ⟨r1, r2, r3⟩ := clear1_file w (V1.view_words hs hf)
    exact ⟨r1, r2, fun o ho => r3 o (by omega)⟩
  | v2 f =>
    have w : In2 f.view.file f.view := hin
    have v : ¬ (Bloom.v2 f).view.file.getD 0 0 = 1#8 := by
      show ¬ f.view.file.getD 0 0 = 1#8
      rw [w.version]; decide
    rw [if_neg v]
    obtain ⟨r1, r2, r3⟩ := clear2_file w
    exact ⟨r1, r2, fun o ho => r3 o (by omega)⟩

-- two v1 files with one bit each, and their union; clearing gives a file without bits
example : ∃ f', (Sample.inSmall1 (BitVec.ofNat 64 (2 ^ 58))).unionMerge Sample.env
      (Sample.inSmall1 (BitVec.ofNat 64 (2 ^ 46))) = (f', .ok ()) ∧
    (f'.file.drop 48).take 8 = le 8 (2 ^ 58 + 2 ^ 46) := by
  have h : ((Sample.inSmall1 (BitVec.ofNat 64 (2 ^ 58))).unionMerge Sample.env
      (Sample.inSmall1 (BitVec.ofNat 64 (2 ^ 46)))).2 = .ok () := by decide +kernel
  rcases hx : (Sample.inSmall1 (BitVec.ofNat 64 (2 ^ 58))).unionMerge Sample.env
      (Sample.inSmall1 (BitVec.ofNat 64 (2 ^ 46))) with ⟨f', r⟩
  rw [hx] at h
  subst h
  refine ⟨f', rfl, ?_⟩
  rw [show f' = ((Sample.inSmall1 (BitVec.ofNat 64 (2 ^ 58))).unionMerge Sample.env
      (Sample.inSmall1 (BitVec.ofNat 64 (2 ^ 46)))).1 by rw [hx]]
  decide +kernel

example : (Sample.inSmall1 (BitVec.ofNat 64 (2 ^ 58 + 2 ^ 46))).clear.file
    = Spec.v1Bytes 5 0x3FF0000000000000 2 64 0 [0] [7] := by decide +kernel

-- the parts of a v2 file with an index cache of two bytes and one bucket
example : ∀ bs, bs = Spec.v2Bytes 3 5 0x3F847AE147AE147B 6 1 [1, 128] [List.replicate 4096 255] [9] →
    CachePart bs (8 * 49 + 7) ∧ ¬ BitPart bs (8 * 49 + 7) ∧ BitPart bs (8 * 58) ∧
      ¬ CachePart bs (8 * 58) ∧ ¬ BitPart bs (8 * (58 + 4096)) ∧ NotCount bs (8 * 40) ∧
      ¬ NotCount bs (8 * 32) := by
  rintro _ rfl
  unfold CachePart BitPart NotCount countPlace
  decide +kernel

end Poppy
