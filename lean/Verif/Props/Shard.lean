import Verif.Lemmas.Shard
import Verif.Props.Fill

/-! # C119 Filters filled in parts, by the tool and by Python programs -/

namespace Poppy

open Spec Abs Cli

/-- Filters created with the same parameters that have the same entries, inserted by the tool or by
Python programs, in any order, any number of times, directly or into other filters merged later: the
bytes differ in the estimated number of entries at most. -/
theorem C119_bytes {t t' : Libs} {env : Env} (hs : env.Small) {v : U8} {cap : U64} {fpp : F64} {opt : U8}
    {T T' : Thing} {es es' : List (List U8)} (h : T.Has t env v cap fpp opt es)
    (h' : T'.Has t' env v cap fpp opt es') (he : ∀ k, k ∈ es ↔ k ∈ es') :
    ∃ bs bs', T.Bytes bs ∧ T'.Bytes bs' ∧ SameButCount bs bs' := by
  have key : ∀ {T : Thing} {es : List (List U8)}, T.Is env v cap fpp opt es →
      ∃ l f g, OptLevel.tryFrom opt = .ok l ∧ Bloom.withVersionCapacityOpt env v cap fpp l = .ok f ∧
        g.Reach env ∧ T.Bytes g.file ∧ f.Given env es g := by
    intro T es h
    cases T with
    | file w p => exact h
    | object g =>
      obtain ⟨l, f, h1, h2, h3, -, h5⟩ := h
      exact ⟨l, f, g, h1, h2, h3, Py.dumps_eq g, h5⟩
  obtain ⟨l, f, g, h1, h2, h3, h4, h5⟩ := key (h.is hs)
  obtain ⟨l', f', g', k1, k2, k3, k4, k5⟩ := key (h'.is hs)
  obtain rfl := Res.ok.inj (h1.symm.trans k1)
  obtain rfl := Res.ok.inj (h2.symm.trans k2)
  exact ⟨_, _, h4, k4, (h5.same h3 k3 he k5).1⟩

/-- And they answer every query the same. -/
theorem C119_answers {t t' : Libs} {env : Env} (hs : env.Small) {v : U8} {cap : U64} {fpp : F64}
    {opt : U8} {T T' : Thing} {es es' : List (List U8)} (h : T.Has t env v cap fpp opt es)
    (h' : T'.Has t' env v cap fpp opt es') (he : ∀ k, k ∈ es ↔ k ∈ es') (k : List U8) :
    ∃ a, T.Contains env k a ∧ T'.Contains env k a := by
  have key : ∀ {T : Thing} {es : List (List U8)}, T.Is env v cap fpp opt es →
      ∃ l f g, OptLevel.tryFrom opt = .ok l ∧ Bloom.withVersionCapacityOpt env v cap fpp l = .ok f ∧
        g.Reach env ∧ T.Contains env k (Py.containsBytes env g k) ∧ f.Given env es g := by
    intro T es h
    cases T with
    | file w p =>
      obtain ⟨l, f, g, h1, h2, h3, h4, h5⟩ := h
      obtain ⟨a, ha, _, ac, _⟩ := C22_bloom_round_trip env hs g h3
      exact ⟨l, f, g, h1, h2, h3, ⟨a, ⟨_, h4, ha⟩, by unfold Py.containsBytes; rw [ac]⟩, h5⟩
    | object g =>
      obtain ⟨l, f, h1, h2, h3, -, h5⟩ := h
      exact ⟨l, f, g, h1, h2, h3, rfl, h5⟩
  obtain ⟨l, f, g, h1, h2, h3, h4, h5⟩ := key (h.is hs)
  obtain ⟨l', f', g', k1, k2, k3, k4, k5⟩ := key (h'.is hs)
  obtain rfl := Res.ok.inj (h1.symm.trans k1)
  obtain rfl := Res.ok.inj (h2.symm.trans k2)
  refine ⟨_, h4, ?_⟩
  unfold Py.containsBytes
  rw [(h5.same h3 k3 he k5).2 hs k]
  exact k4

/-- Merging two such objects never raises an exception (in release builds). -/
theorem C119_merge {t t' : Libs} {env : Env} (hs : env.Small) (hd : env.debug = false) {v : U8}
    {cap : U64} {fpp : F64} {opt : U8} {f o : Bloom} {es es' : List (List U8)}
    (h : (Thing.object f).Has t env v cap fpp opt es)
    (h' : (Thing.object o).Has t' env v cap fpp opt es') : (Py.unionMerge env f o).2 = .ok () := by
  obtain ⟨l, f0, h1, h2, h3, h4, h5⟩ := h.is hs
  obtain ⟨l', f0', k1, k2, k3, k4, k5⟩ := h'.is hs
  obtain rfl := Res.ok.inj (h1.symm.trans k1)
  obtain rfl := Res.ok.inj (h2.symm.trans k2)
  have hp := h5.params hs h2 k5 h4 k4 h3 k3
  suffices h : (f.unionMerge env o).2 = .ok () from Py.ofRes_ok.2 h
  unfold Bloom.unionMerge
  rw [hp]
  cases f with
  | v1 f =>
    cases o with
    | v2 o => simp [Bloom.hasSameParams, Bloom.version] at hp
    | v1 o => exact ((C20_v1 f o).1 (Res.ok.inj hp)).1
  | v2 f =>
    cases o with
    | v1 o => simp [Bloom.hasSameParams, Bloom.version] at hp
    | v2 o => exact (C20_v2_release hd f o (Res.ok.inj hp)).1

namespace Sample

/-- `create` for five entries, then `insert x`. -/
def shardX : World := (main libs env (stored 5) (jobsRun (.insert ⟨false, "out", ["x"]⟩) 1)).1

theorem has_shardX : (Thing.file shardX "out").Has libs env 1 5 p001 0 [[97#8]] :=
  .insert (es := []) (w := stored 5)
    (.create (w := twoFiles) ⟨rfl, jobsRun (.create ⟨1, 5, p001, 0, "out", []⟩) 1, _,
      (main libs env twoFiles (jobsRun (.create ⟨1, 5, p001, 0, "out", []⟩) 1)).2.1, rfl, rfl, rfl, rfl,
      rfl, fun _ => rfl, fun h => absurd rfl h, Prod.ext rfl (Prod.ext rfl (by decide +kernel)), rfl⟩)
    ⟨by decide +kernel, jobsRun (.insert ⟨false, "out", ["x"]⟩) 1, _,
      (main libs env (stored 5) (jobsRun (.insert ⟨false, "out", ["x"]⟩) 1)).2.1, rfl, rfl,
      Prod.ext rfl (Prod.ext rfl (by decide +kernel)), by decide +kernel⟩

/-- And then `insert y`. -/
def shardXY : World := (main libs env shardX (jobsRun (.insert ⟨false, "out", ["y"]⟩) 1)).1

theorem has_shardXY : (Thing.file shardXY "out").Has libs env 1 5 p001 0 [[97#8], [98#8]] :=
  .insert (es := [[97#8]]) has_shardX ⟨by decide +kernel,
    jobsRun (.insert ⟨false, "out", ["y"]⟩) 1, _,
    (main libs env shardX (jobsRun (.insert ⟨false, "out", ["y"]⟩) 1)).2.1, rfl, rfl,
    Prod.ext rfl (Prod.ext rfl (by decide +kernel)), by decide +kernel⟩

/-- A Python program that inserts `b` into a new filter, merges the filter of the file with it, and
saves it to another file; its files at the end, if there was no exception. -/
def shardProgram : Option World :=
  match Py.load env shardX "out" with
  | .ok f =>
    match Py.withParams env 1 5 p001 0 with
    | .ok o =>
      match Py.insertBytes env o [98#8] with
      | (o, .ok _) =>
        match Py.unionMerge env o f with
        | (g, .ok ()) =>
          match Py.save shardX g "all" with
          | (w, .ok ()) => some w
          | _ => none
        | _ => none
      | _ => none
    | _ => none
  | _ => none

theorem shardProgram_has {w : World} (h : shardProgram = some w) :
    (Thing.file w "all").Has libs env 1 5 p001 0 [[98#8], [97#8]] := by
  unfold shardProgram at h
  split at h
  · rename_i f hf
    split at h
    · rename_i o ho
      split at h
      · rename_i o' b hb
        split at h
        · rename_i g hg
          split at h
          · rename_i w' hw
            obtain rfl := Option.some.inj h
            exact .save (.union (es := [[98#8]]) (.insertBytes (es := []) (.new ho) hb)
              (.load has_shardX hf) hg) (by decide +kernel) hw
          · cases h
        · cases h
      · cases h
    · cases h
  · cases h

end Sample

-- it runs, and writes the same file as `create`, `insert x`, `insert y`, but for the estimate
example : ∃ w, Sample.shardProgram = some w ∧ ∃ bs bs', w.fs "all" = some bs ∧
    Sample.shardXY.fs "out" = some bs' ∧ SameButCount bs bs' := by
  have h : Sample.shardProgram.isSome = true := by decide +kernel
  obtain ⟨w, hw⟩ := Option.isSome_iff_exists.1 h
  exact ⟨w, hw, C119_bytes Sample.env_small (Sample.shardProgram_has hw) Sample.has_shardXY
    (fun k => by simp only [List.mem_cons, List.not_mem_nil]; tauto)⟩

end Poppy
