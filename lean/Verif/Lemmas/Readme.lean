import Verif.Props.Decimal
import Verif.Props.Dataset
import Verif.Props.Creation

/-! Lemmas about the command lines in the README. -/

namespace Poppy

open Cli
open Spec.Line (Words Fine Dashed)

theorem Cli.readme_words {os : List Spec.Line.Opt} {l : List Text} (hl : ∀ d ∈ l, ¬ Dashed d) :
    Words os l [] l := by
  induction l with
  | nil => exact .nil
  | cons y l ih => exact .word (hl y (by simp)) (ih fun z hz => hl z (by simp [hz]))

theorem Cli.readme_fine (rd : ReadF64) : Fine rd [] := ⟨by simp, by simp⟩

/-- What `create` does without data files. -/
theorem Cli.create_stores {env : Env} (hs : env.Small) {w w' : World} (hd : w.disk = none)
    {s : Schedule} {o : Create} {jobs : ℕ} (ho : o.dataset = [])
    (h : create env w s o jobs = (w', some (.ok ()))) :
    ∃ b, w' = w.written o.file b.file ∧ Bloom.fromReader env (Reader.ofBytes b.file) = .ok b ∧
      b.version = o.version ∧ b.capacity = o.capacity ∧ b.fpp = o.probability ∧
      b.countEstimate = 0 := by
  rcases create_cases env w s o jobs with ⟨_, h2⟩ | ⟨b, bf, _, hf, hp, _, he⟩
  · rw [h] at h2; exact absurd rfl h2
  · rw [h] at he
    have hw : w' = w.written o.file (bf.write ⟨[], w.disk⟩).1.out := congrArg Prod.fst he
    obtain ⟨cap, opt, _, h1, hcap⟩ := createFilter_ok hf
    obtain ⟨_, bcap, bfpp, bcnt, _⟩ := Bloom.new_spec hs h1
    have hbf : b = bf := by
      rw [ho] at hp
      exact Res.ok.inj (Option.some.inj hp)
    subst hbf
    rw [written_out, hd] at hw
    refine ⟨b, hw, new_reload hs h1, C44_version env _ _ _ _ _ h1, ?_, bfpp, bcnt⟩
    rcases hcap with ⟨_, h3⟩ | ⟨h2, _⟩
    · rw [bcap, h3]
    · exact absurd ho h2

/-- With enough memory, `create` of a new version 2 filter without data files succeeds. -/
theorem Cli.create_succeeds {env : Env} (sp : env.libm.Spec) {cap : U64} {p : F64}
    (hr : 2 ^ 52 ≤ p.toNat ∧ p.toNat ≤ 1023 * 2 ^ 52) (hm : cap.toNat * 187 + 4096 ≤ env.allocLimit)
    {w : World} {file : Path} (hd : w.disk = none) (hc : w.creatable file = true)
    (hw : w.fs file = none) (s : Schedule) :
    ∃ f, create env w s ⟨2#8, cap, p, 0#8, file, []⟩ 2
      = (w.written file (Bloom.v2 f).file, some (.ok ())) := by
  obtain ⟨f, hf⟩ := C110_v2_any sp (opt := .none) (Or.inl rfl) hr hm
  have hb : createSized env ⟨2#8, cap, p, 0#8, file, []⟩ cap = .ok (.v2 f) := by
    show (V2.make env cap p .none).map _ = _
    rw [hf]
    rfl
  have hg : createGuard env w file = .ok () := by unfold createGuard; rw [hw]
  have hcf : createFilter env w ⟨2#8, cap, p, 0#8, file, []⟩ 2 = some (.ok (.v2 f)) := by
    unfold createFilter
    exact congrArg some hb
  have hsv : save w file (.v2 f) = (w.written file (Bloom.v2 f).file, .ok ()) := by
    rcases save_cases w file (.v2 f) with ⟨h1, _⟩ | ⟨_, h2⟩
    · rw [hc] at h1; cases h1
    · rw [h2, written_out, hd, C29_write_ok]
  refine ⟨f, ?_⟩
  unfold create
  simp only [hg, hcf, parallelInsert, List.isEmpty_nil, if_true, hsv]

end Poppy
