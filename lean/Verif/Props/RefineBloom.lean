import Verif.Lemmas.RefineBloom
import Verif.Samples

/-! # Filters of either version are abstract filters (C81) -/

namespace Poppy

open Spec Abs

/-- Every program on filters of either version gives the answers of the abstract machine, and leaves
the filters the abstract machine leaves. -/
theorem C81_program {env : Env} (hs : env.Small) {σ : ℕ → Bloom} (h : ∀ r, (σ r).Reach env)
    (p : List BOp) :
    run (Abs.step (Bloom.machine env)) (Bloom.view ∘ σ) p
      = (Bloom.view ∘ (run (Bloom.step env) σ p).1, (run (Bloom.step env) σ p).2) := by
  induction p generalizing σ with
  | nil => rfl
  | cons o p ih =>
    obtain ⟨h1, h2⟩ := Bloom.step_view hs h o
    simp only [run, h2]
    rw [ih h1]

/-- Equal abstract filters are equal filters: nothing is left out of the abstraction. -/
theorem C81_view {env : Env} {f g : Bloom} (hf : f.Reach env) (hg : g.Reach env)
    (h : f.view = g.view) : f = g := by
  cases f with
  | v1 f =>
    cases g with
    | v2 g => cases h
    | v1 g =>
      rw [(C79_content (env := env)).2 f g hf hg]
      rw [V1.content_of_view f, V1.content_of_view g, F.v1.inj h]
  | v2 f =>
    cases g with
    | v1 g => cases h
    | v2 g =>
      rw [(C79_content (env := env)).1 f g hf hg]
      rw [V2.content_of_view f, V2.content_of_view g, F.v2.inj h]

/-- Two obtainable filters with different abstract filters. -/
example : Bloom.Reach Sample.env (.v1 Sample.f1) ∧ Bloom.Reach Sample.env (.v2 Sample.f2) ∧
    (Bloom.v1 Sample.f1).view ≠ (Bloom.v2 Sample.f2).view :=
  ⟨V1.Reach.make Sample.f1_make, V2.Reach.make Sample.f2_make, fun h => by cases h⟩

/-- What a program reports, starting from two v1 filters. -/
example : (run (Bloom.step Sample.env) (fun _ => .v1 Sample.f1)
    [.load 0 (v1Bytes 10 5 1 65 2 [2 ^ 64 - 1, 1] [9]), .contains 0 [7], .data 0, .size 0, .count 0,
      .union 0 1, .load 1 [2, 4, 0, 0, 0, 0, 0, 0], .make 1 3 10 Sample.p001 .none, .version 1,
      .fill 1 [[1], [2]], .count 1, .contains 1 [2], .contains 1 [3]]).2
    = [.done, .bool true, .bytes [9], .num 520, .num 2,
      .err (.merge "cannot merge filters with different parameters"), .err (.optLevel 4),
      .err (.invalidVersion 3), .num 1, .done, .num 2, .bool true, .bool false] := by
  have h := C81_program Sample.env_small (σ := fun _ => .v1 Sample.f1) (fun _ => .make Sample.f1_make)
    [.load 0 (v1Bytes 10 5 1 65 2 [2 ^ 64 - 1, 1] [9]), .contains 0 [7], .data 0, .size 0, .count 0,
      .union 0 1, .load 1 [2, 4, 0, 0, 0, 0, 0, 0], .make 1 3 10 Sample.p001 .none, .version 1,
      .fill 1 [[1], [2]], .count 1, .contains 1 [2], .contains 1 [3]]
  rw [← (Prod.ext_iff.1 h).2]
  decide +kernel

end Poppy
