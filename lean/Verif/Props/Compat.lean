import Verif.Lemmas.Compat
import Verif.Props.Serial
import Verif.Props.Merge
import Verif.Props.Membership
import Verif.Lemmas.Misc

/-! # Compatibility of filters (C67) and the `bloom!` macro (C68) -/

namespace Poppy

open Spec

/-! ### Helpers -/

/-! ### C67 -/

/-- Filters derived from constructors are compatible exactly when the constructors were called with
the same version, capacity and false positive probability and, for v2, the same optimisation
level; whatever happened to the filters since. -/
theorem C67_compatible (env : Env) (hs : env.Small) {v v' : U8} {c c' : U64} {p p' : F64}
    {o o' : OptLevel} {f g : Bloom} (hf : f.From env v c p o) (hg : g.From env v' c' p' o') :
    f.hasSameParams g = .ok (decide (v = v' ∧ c = c' ∧ p = p' ∧ (v = 2#8 → o = o'))) := by
  obtain ⟨f0, hf0, lf⟩ := hf.like hs
  obtain ⟨g0, hg0, lg⟩ := hg.like hs
  rcases made_cases hf0 with ⟨rfl, a, rfl, ha⟩ | ⟨rfl, a, rfl, ha⟩ <;>
    rcases made_cases hg0 with ⟨rfl, b, rfl, hb⟩ | ⟨rfl, b, rfl, hb⟩
  · cases f with
    | v2 f => exact lf.elim
    | v1 f =>
    cases g with
    | v2 g => exact lg.elim
    | v1 g =>
    obtain ⟨_, f1, f2, f3, f4, f5, f6⟩ := lf
    obtain ⟨_, g1, g2, g3, g4, g5, g6⟩ := lg
    obtain ⟨hp, _, rfl⟩ := V1.withCapacity_ok ha
    obtain ⟨hp', _, rfl⟩ := V1.withCapacity_ok hb
    show Res.ok (f.hasSameParams g) = _
    congr 1
    rw [Bool.eq_iff_iff, V1.hasSameParams_iff, decide_eq_true_iff, f1, f2, f3, f4, f5, f6, g1, g2,
      g3, g4, g5, g6]
    constructor
    · rintro ⟨-, h2, h3, -⟩
      exact ⟨rfl, h2, bits_eq_of_feq hp hp' h3, fun h => by cases h⟩
    · rintro ⟨-, rfl, rfl, -⟩
      exact ⟨rfl, rfl, feq_self hp, rfl, rfl, rfl⟩
  · cases f with
    | v2 f => exact lf.elim
    | v1 f =>
    cases g with
    | v1 g => exact lg.elim
    | v2 g => rfl
  · cases f with
    | v1 f => exact lf.elim
    | v2 f =>
    cases g with
    | v2 g => exact lg.elim
    | v1 g => rfl
  · cases f with
    | v1 f => exact lf.elim
    | v2 f =>
    cases g with
    | v1 g => exact lg.elim
    | v2 g =>
    obtain ⟨_, f1, f2, f3, f4, f5, f6⟩ := lf
    obtain ⟨_, g1, g2, g3, g4, g5, g6⟩ := lg
    obtain ⟨hp, nb, nh, cbs, hsz, _, _, rfl⟩ := V2.make_ok ha
    obtain ⟨hp', nb', nh', cbs', hsz', _, _, rfl⟩ := V2.make_ok hb
    show Res.ok (f.hasSameParams g) = _
    congr 1
    rw [Bool.eq_iff_iff, V2.hasSameParams_iff, decide_eq_true_iff, f1, f2, f3, f4, f5, f6, g1, g2,
      g3, g4, g5, g6]
    constructor
    · rintro ⟨h1, h2, _, h3, -⟩
      exact ⟨rfl, h2, bits_eq_of_feq hp hp' h3, fun _ => congrArg Flags.opt h1⟩
    · rintro ⟨-, rfl, rfl, h⟩
      obtain rfl := h rfl
      rw [hsz] at hsz'
      cases hsz'
      exact ⟨rfl, rfl, rfl, feq_self hp, rfl, rfl⟩

/-- In particular a filter derived from a constructor stays compatible with a fresh filter made by
the same call, with which it can be merged and compared without error. -/
theorem C67_fresh (env : Env) (hs : env.Small) {v : U8} {c : U64} {p : F64} {o : OptLevel}
    {f f0 : Bloom} (hf : f.From env v c p o)
    (h0 : Bloom.withVersionCapacityOpt env v c p o = .ok f0) :
    f.hasSameParams f0 = .ok true ∧ f0.hasSameParams f = .ok true ∧
      (∀ e, (f.unionMerge env f0).2 ≠ .err e) ∧ (∀ e, (f0.unionMerge env f).2 ≠ .err e) ∧
      (∀ e, f.countCommonEntries env f0 ≠ .err e) := by
  have h1 := C67_compatible env hs hf (.make h0)
  have h2 := C67_compatible env hs (.make h0) hf
  simp only [true_and, implies_true, decide_true] at h1 h2
  have key : ∀ x y : Bloom, x.hasSameParams y = .ok true →
      (∀ e, (x.unionMerge env y).2 ≠ .err e) ∧ ∀ e, x.countCommonEntries env y ≠ .err e := by
    intro x y h
    obtain ⟨a, _, b, _⟩ := C20_bloom (env := env) x y
    rw [h] at a b
    exact ⟨fun e he => (by cases a.1 ⟨e, he⟩), fun e he => (by cases b.1 ⟨e, he⟩)⟩
  exact ⟨h1, h2, (key _ _ h1).1, (key _ _ h2).1, (key _ _ h1).2⟩

/-- Two v1 filters derived from constructors have the same parameters exactly when all their header
fields agree. -/
theorem C67_v1_params {env : Env} {s o : V1} (hs : V1.Built env s) (ho : V1.Built env o) :
    s.hasSameParams o = true ↔ s.capacity = o.capacity ∧ s.fpp = o.fpp ∧ s.nHash = o.nHash ∧
      s.bitSize = o.bitSize := by
  obtain ⟨h1, h2, h3⟩ := hs.inv
  obtain ⟨g1, g2, g3⟩ := ho.inv
  rw [V1.hasSameParams_iff]
  constructor
  · rintro ⟨-, a, b, c, d, -⟩
    exact ⟨a, bits_eq_of_feq h3 g3 b, c, d⟩
  · rintro ⟨a, b, c, d⟩
    refine ⟨by rw [h2, g2], a, by rw [← b]; exact feq_self h3, c, d, ?_⟩
    have := h1.nw
    have := g1.nw
    rw [d] at *
    omega

section
open Sample

theorem from1 : (Bloom.v1 f1).From env 1#8 100 p001 .none := .make (by
  unfold Bloom.withVersionCapacityOpt
  rw [if_pos rfl, f1_make]
  rfl)

theorem from2 : (Bloom.v2 f2).From env 2#8 5000 p001 .best := .make (by
  unfold Bloom.withVersionCapacityOpt
  rw [if_neg (by decide), if_pos rfl, f2_make]
  rfl)

-- a filter with an entry is compatible with the new one, filters of different versions are not
example : (Bloom.insertBytes env (.v2 f2) [1#8]).1.hasSameParams (.v2 f2) = .ok true ∧
    (Bloom.insertBytes env (.v2 f2) [1#8]).1.hasSameParams (.v1 f1) = .ok false := by
  rw [C67_compatible env env_small (.insert _ from2) from2,
    C67_compatible env env_small (.insert _ from2) from1]
  decide

end

/-! ### C68 -/

/-- `bloom!(cap, fpp)` gives what `with_capacity` gives, and panics exactly when it fails. -/
theorem C68_new (env : Env) (cap : U64) (p : F64) :
    (∀ f, Bloom.macroNew env cap p = .ok f ↔ Bloom.withCapacity env cap p = .ok f) ∧
    (∀ e, Bloom.macroNew env cap p ≠ .err e) := by
  unfold Bloom.macroNew
  cases Bloom.withCapacity env cap p <;> simp [Res.unwrap]

/-- `bloom!(cap, fpp, [v1, v2, ...])` gives the filter filled with the values, and panics exactly
when `with_capacity` or `fill` fails. -/
theorem C68_fill (env : Env) (cap : U64) (p : F64) (vs : List (List U8)) :
    (∀ g, Bloom.macroFill env cap p vs = .ok g ↔
      ∃ f, Bloom.withCapacity env cap p = .ok f ∧ f.fill env vs = (g, .ok ())) ∧
    (∀ e, Bloom.macroFill env cap p vs ≠ .err e) := by
  obtain ⟨h1, h2⟩ := C68_new env cap p
  have e : Bloom.macroFill env cap p vs =
      (Bloom.macroNew env cap p).bind fun b => b.macroInsert env vs := rfl
  rw [e]
  cases hm : Bloom.macroNew env cap p with
  | ok f =>
    have hf := (h1 f).1 hm
    obtain ⟨a, b⟩ := Bloom.macroInsert_eq env f vs
    refine ⟨fun g => ?_, b⟩
    show f.macroInsert env vs = .ok g ↔ _
    rw [a, hf]
    constructor
    · exact fun h => ⟨f, rfl, h⟩
    · rintro ⟨f', h', h⟩; cases h'; exact h
  | err e => exact absurd hm (h2 e)
  | panic =>
    refine ⟨fun g => ⟨(by cases ·), ?_⟩, fun e => (by cases ·)⟩
    rintro ⟨f, hf, _⟩
    rw [(h1 f).2 hf] at hm
    cases hm

/-- All the values of `bloom!(cap, fpp, [v1, v2, ...])` are in the filter, which has version 2 and
the capacity and probability asked for. -/
theorem C68_contains (env : Env) (hs : env.Small) (cap : U64) (p : F64) (vs : List (List U8))
    {g : Bloom} (h : Bloom.macroFill env cap p vs = .ok g) :
    g.version = 2#8 ∧ g.capacity = cap ∧ g.fpp = p ∧
      ∀ v ∈ vs, g.containsBytes env v = .ok true := by
  obtain ⟨f, hf, hfill⟩ := ((C68_fill env cap p vs).1 g).1 h
  obtain ⟨f, hm, rfl⟩ : ∃ a, V2.withCapacity env cap p = .ok a ∧ f = .v2 a := by
    unfold Bloom.withCapacity at hf
    cases hm : V2.withCapacity env cap p with
    | ok a => rw [hm] at hf; cases hf; exact ⟨a, rfl, rfl⟩
    | err e => rw [hm] at hf; cases hf
    | panic => rw [hm] at hf; cases hf
  have hr : V2.Reach env f := .make hm
  obtain ⟨-, _, _, _, _, _, _, he⟩ := V2.make_ok hm
  have hc : f.capacity = cap ∧ f.fpp = p := by rw [he]; exact ⟨rfl, rfl⟩
  clear h hf hm he
  suffices ∃ f', g = .v2 f' ∧ f'.capacity = f.capacity ∧ f'.fpp = f.fpp ∧
      (∀ k, V2.Keeps env k f f') ∧ ∀ v ∈ vs, f'.contains env (.slice v) = .ok true by
    obtain ⟨f', rfl, h1, h2, _, h3⟩ := this
    exact ⟨rfl, h1.trans hc.1, h2.trans hc.2, h3⟩
  clear hc
  induction vs generalizing f with
  | nil => cases hfill; exact ⟨f, rfl, rfl, rfl, fun _ => .refl, by simp⟩
  | cons v vs ih =>
    unfold Bloom.fill at hfill
    have e : Bloom.insertBytes env (.v2 f) v =
      (.v2 (f.insert env (.slice v)).1, (f.insert env (.slice v)).2) := rfl
    rw [e] at hfill
    have hx := V2.insert_ext env f (.slice v)
    rcases hi : f.insert env (.slice v) with ⟨f1, b | e | _⟩ <;> rw [hi] at hfill hx
    · have hr1 : V2.Reach env f1 := by
        have : f1 = (f.insert env (.slice v)).1 := by rw [hi]
        rw [this]; exact .insertIter _ hr
      obtain ⟨f', rfl, h1, h2, h3, h4⟩ := ih f1 hfill hr1
      refine ⟨f', rfl, h1.trans hx.capacity, h2.trans hx.fpp, fun k => ?_, ?_⟩
      · have h0 : V2.Keeps env k f f1 := by
          have : f1 = (f.insert env (.slice v)).1 := by rw [hi]
          rw [this]; exact .step .refl (.insert _)
        exact h0.trans (h3 k)
      · intro x hx
        rcases List.mem_cons.1 hx with rfl | hx
        · exact C01_no_false_negative hs hr hi (h3 _)
        · exact h4 x hx
    · cases hfill
    · cases hfill

section
open Sample

example : (match Bloom.macroFill env 10 p001 [[1#8], [2#8, 3#8]] with
    | .ok g => g.countEstimate == 2
    | _ => false) = true := by decide +kernel
-- the third value is refused
example : Bloom.macroFill env 2 p001 [[1#8], [2#8, 3#8], [4#8]] = .panic := by decide +kernel

end

end Poppy
