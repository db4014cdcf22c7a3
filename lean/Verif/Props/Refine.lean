import Verif.Lemmas.Refine
import Verif.Samples

/-! # Filters are abstract filters (C78) -/

namespace Poppy

open Spec Abs

/-- Every program on v2 filters gives the answers of the abstract machine, and leaves the filters
the abstract machine leaves. -/
theorem C78_v2 {env : Env} (hs : env.Small) {σ : ℕ → V2} (h : ∀ r, V2.Reach env (σ r))
    (p : List (Op Key)) :
    run (step2 (V2.cfg env)) (V2.view ∘ σ) p
      = (V2.view ∘ (run (V2.step env) σ p).1, (run (V2.step env) σ p).2) := by
  induction p generalizing σ with
  | nil => rfl
  | cons o p ih =>
    obtain ⟨h1, h2⟩ := V2.step_view hs h o
    simp only [run, h2]
    rw [ih h1]

/-- Every program on v1 filters gives the answers of the abstract machine, and leaves the filters
the abstract machine leaves. -/
theorem C78_v1 {env : Env} (hs : env.Small) {σ : ℕ → V1} (h : ∀ r, V1.Reach env (σ r))
    (p : List (Op (List U8))) :
    run (step1 (V1.cfg env)) (V1.view ∘ σ) p
      = (V1.view ∘ (run (V1.step env) σ p).1, (run (V1.step env) σ p).2) := by
  induction p generalizing σ with
  | nil => rfl
  | cons o p ih =>
    obtain ⟨h1, h2⟩ := V1.step_view hs h o
    simp only [run, h2]
    rw [ih h1]

/-- Filters made through the interface that have the same file are the same filter: no program can
tell them apart. -/
theorem C78_file {env : Env} (hs : env.Small) :
    (∀ f g : V2, V2.Built env f → V2.Built env g → f.file = g.file → f = g) ∧
    (∀ f g : V1, V1.Built env f → V1.Built env g → f.file = g.file → f = g) := by
  obtain ⟨h2, h1⟩ := C22_built_round_trip env hs
  refine ⟨fun f g hf hg h => ?_, fun f g hf hg h => ?_⟩
  · have a := (h2 f hf).1
    rw [h, (h2 g hg).1] at a
    exact (Res.ok.inj a).symm
  · have a := (h1 f hf).1
    rw [h, (h1 g hg).1] at a
    exact (Res.ok.inj a).symm

/-- A program: make a filter, insert a key, copy the filter, clear the copy, ask. -/
example : (run (V2.step Sample.env) (fun _ => Sample.f2)
    [.make 0 100 Sample.p001 .none, .insert 0 (.slice [1, 2, 3]), .insert 0 (.slice [1, 2, 3]),
      .clone 1 0, .clear 1, .contains 0 (.slice [1, 2, 3]), .contains 1 (.slice [1, 2, 3]),
      .count 0, .count 1, .same 0 1, .isFull 0]).2
    = [.done, .bool true, .bool false, .done, .done, .bool true, .bool false, .num 1, .num 0,
      .bool true, .bool false] := by
  have h := C78_v2 Sample.env_small (σ := fun _ => Sample.f2) (fun _ => .make Sample.f2_make)
    [.make 0 100 Sample.p001 .none, .insert 0 (.slice [1, 2, 3]), .insert 0 (.slice [1, 2, 3]),
      .clone 1 0, .clear 1, .contains 0 (.slice [1, 2, 3]), .contains 1 (.slice [1, 2, 3]),
      .count 0, .count 1, .same 0 1, .isFull 0]
  rw [← (Prod.ext_iff.1 h).2]
  decide +kernel

/-- Two v1 filters and their union. -/
example : (run (V1.step Sample.env) (fun _ => Sample.f1)
    [.insert 0 [1], .insert 1 [2], .same 0 1, .union 0 1, .contains 0 [2], .contains 1 [1], .ones 0,
      .zeros 0, .reload 0, .contains 0 [1]]).2
    = [.bool true, .bool true, .bool true, .done, .bool true, .bool false, .num 14, .num 946, .done,
      .bool true] := by
  have h := C78_v1 Sample.env_small (σ := fun _ => Sample.f1) (fun _ => .make Sample.f1_make)
    [.insert 0 [1], .insert 1 [2], .same 0 1, .union 0 1, .contains 0 [2], .contains 1 [1], .ones 0,
      .zeros 0, .reload 0, .contains 0 [1]]
  rw [← (Prod.ext_iff.1 h).2]
  decide +kernel

end Poppy
