import Verif.Props.Serial
import Verif.Props.Merge
import Verif.Props.Membership
import Verif.Lemmas.Misc

/-! # Helper lemmas for compatible filters -/

namespace Poppy

open Spec

/-- A state derived from the constructor's result `f0`: its parameters are those of `f0`. -/
def Bloom.Like (env : Env) (f0 f : Bloom) : Prop :=
  match f0, f with
  | .v1 a, .v1 b => V1.Built env b ∧ b.flags = a.flags ∧ b.capacity = a.capacity ∧ b.fpp = a.fpp ∧
      b.nHash = a.nHash ∧ b.bitSize = a.bitSize ∧ b.bitset.length = a.bitset.length
  | .v2 a, .v2 b => V2.Built env b ∧ b.flags = a.flags ∧ b.capacity = a.capacity ∧ b.fpp = a.fpp ∧
      b.nHashBuck = a.nHashBuck ∧ b.buckets.length = a.buckets.length ∧
      b.indexCache.asSlice.length = a.indexCache.asSlice.length
  | _, _ => False

theorem Bloom.Like.v1_shape {env : Env} {f0 : Bloom} {f g : V1} (h : Bloom.Like env f0 (.v1 f))
    (hb : V1.Built env g) (s : V1.Shape f g) : Bloom.Like env f0 (.v1 g) := by
  cases f0 with
  | v1 a =>
    obtain ⟨_, h1, h2, h3, h4, h5, h6⟩ := h
    exact ⟨hb, s.flags.trans h1, s.capacity.trans h2, s.fpp.trans h3, s.nHash.trans h4,
      s.bitSize.trans h5, s.len.trans h6⟩
  | v2 a => exact h.elim

theorem Bloom.Like.v2_shape {env : Env} {f0 : Bloom} {f g : V2} (h : Bloom.Like env f0 (.v2 f))
    (hb : V2.Built env g) (s : V2.Shape f g) : Bloom.Like env f0 (.v2 g) := by
  cases f0 with
  | v2 a =>
    obtain ⟨_, h1, h2, h3, h4, h5, h6⟩ := h
    exact ⟨hb, s.flags.trans h1, s.capacity.trans h2, s.fpp.trans h3, s.nHash.trans h4,
      s.blen.trans h5, s.clen.trans h6⟩
  | v1 a => exact h.elim

theorem Bloom.Like.built1 {env : Env} {f0 : Bloom} {f : V1} (h : Bloom.Like env f0 (.v1 f)) :
    V1.Built env f := by
  cases f0 with
  | v1 a => exact h.1
  | v2 a => exact h.elim

theorem Bloom.Like.built2 {env : Env} {f0 : Bloom} {f : V2} (h : Bloom.Like env f0 (.v2 f)) :
    V2.Built env f := by
  cases f0 with
  | v2 a => exact h.1
  | v1 a => exact h.elim

theorem Bloom.Like.insert {env : Env} {f0 f : Bloom} (h : Bloom.Like env f0 f) (k : List U8) :
    Bloom.Like env f0 (f.insertBytes env k).1 := by
  cases f with
  | v1 f => exact h.v1_shape (.insert k h.built1) (V1.insertBytes_ext env f k).toShape
  | v2 f =>
    have e : (Bloom.insertBytes env (.v2 f) k).1 = .v2 (f.insert env (.slice k)).1 := rfl
    rw [e]
    exact h.v2_shape (.insertIter _ h.built2) (V2.insert_ext env f (.slice k)).toShape

theorem Bloom.Like.fill {env : Env} {f0 f : Bloom} (h : Bloom.Like env f0 f)
    (ks : List (List U8)) : Bloom.Like env f0 (f.fill env ks).1 := by
  induction ks generalizing f with
  | nil => exact h
  | cons k ks ih =>
    have h' := h.insert k
    unfold Bloom.fill
    split
    · rename_i g b hg; rw [hg] at h'; exact ih h'
    · rename_i g e hg; rw [hg] at h'; exact h'
    · rename_i g hg; rw [hg] at h'; exact h'

theorem Bloom.Like.union {env : Env} {f0 f : Bloom} (h : Bloom.Like env f0 f) (o : Bloom) :
    Bloom.Like env f0 (f.unionMerge env o).1 := by
  unfold Bloom.unionMerge
  split
  · exact h
  · split
    · rename_i s t _
      have e : ∀ x : V1 × Res Unit, (match x with | (s, r) => (Bloom.v1 s, r)).1 = .v1 x.1 :=
        fun _ => rfl
      rw [e]
      exact h.v1_shape (.union t h.built1) (V1.unionMerge_ext env s t).toShape
    · rename_i s t _
      have e : ∀ x : V2 × Res Unit, (match x with | (s, r) => (Bloom.v2 s, r)).1 = .v2 x.1 :=
        fun _ => rfl
      rw [e]
      exact h.v2_shape (.union t h.built2) (V2.unionMerge_ext env s t).toShape
    · exact h
  · exact h
  · exact h

theorem made_cases {env : Env} {v : U8} {c : U64} {p : F64} {o : OptLevel} {f : Bloom}
    (h : Bloom.withVersionCapacityOpt env v c p o = .ok f) :
    (v = 1#8 ∧ ∃ a, f = .v1 a ∧ V1.withCapacity env c p = .ok a) ∨
      (v = 2#8 ∧ ∃ a, f = .v2 a ∧ V2.make env c p o = .ok a) := by
  unfold Bloom.withVersionCapacityOpt at h
  split at h
  · rename_i hv
    cases hm : V1.withCapacity env c p with
    | ok a => rw [hm] at h; cases h; exact .inl ⟨hv, a, rfl, rfl⟩
    | err e => rw [hm] at h; cases h
    | panic => rw [hm] at h; cases h
  · split at h
    · rename_i hv
      cases hm : V2.make env c p o with
      | ok a => rw [hm] at h; cases h; exact .inr ⟨hv, a, rfl, rfl⟩
      | err e => rw [hm] at h; cases h
      | panic => rw [hm] at h; cases h
    · cases h

theorem Bloom.From.like {env : Env} (hs : env.Small) {v : U8} {cap : U64} {fpp : F64}
    {opt : OptLevel} {f : Bloom} (h : Bloom.From env v cap fpp opt f) :
    ∃ f0, Bloom.withVersionCapacityOpt env v cap fpp opt = .ok f0 ∧ Bloom.Like env f0 f := by
  induction h with
  | @make f h =>
    refine ⟨f, h, ?_⟩
    rcases made_cases h with ⟨_, a, rfl, hm⟩ | ⟨_, a, rfl, hm⟩
    · exact ⟨.make hm, rfl, rfl, rfl, rfl, rfl, rfl⟩
    · exact ⟨.make hm, rfl, rfl, rfl, rfl, rfl, rfl⟩
  | insert k _ ih => obtain ⟨f0, h0, h⟩ := ih; exact ⟨f0, h0, h.insert k⟩
  | fill ks _ ih => obtain ⟨f0, h0, h⟩ := ih; exact ⟨f0, h0, h.fill ks⟩
  | insertIter it _ ih =>
    obtain ⟨f0, h0, h⟩ := ih
    exact ⟨f0, h0, h.v2_shape (.insertIter it h.built2) (V2.insertIter_ext env _ it).toShape⟩
  | union o _ ih => obtain ⟨f0, h0, h⟩ := ih; exact ⟨f0, h0, h.union o⟩
  | inter o _ ih =>
    obtain ⟨f0, h0, h⟩ := ih
    exact ⟨f0, h0, h.v2_shape (.inter o h.built2) (V2.intersectionMerge_shape env _ o)⟩
  | @clear f _ ih =>
    obtain ⟨f0, h0, h⟩ := ih
    refine ⟨f0, h0, ?_⟩
    cases f with
    | v1 f => exact h.v1_shape (.clear h.built1) (V1.clear_shape f)
    | v2 f => exact h.v2_shape (.clear h.built2) (V2.clear_shape f)
  | setData1 d _ ih =>
    obtain ⟨f0, h0, h⟩ := ih
    refine ⟨f0, h0, ?_⟩
    cases f0 with
    | v1 a => exact ⟨.setData d h.1, h.2⟩
    | v2 a => exact h.elim
  | setData2 d _ ih =>
    obtain ⟨f0, h0, h⟩ := ih
    refine ⟨f0, h0, ?_⟩
    cases f0 with
    | v2 a => exact ⟨.setData d h.1, h.2⟩
    | v1 a => exact h.elim
  | @reload f g _ hg ih =>
    obtain ⟨f0, h0, h⟩ := ih
    refine ⟨f0, h0, ?_⟩
    suffices g = f by rw [this]; exact h
    cases f with
    | v1 f =>
      obtain ⟨h1, h2, h3⟩ := h.built1.inv
      rw [Bloom.file_eq, Bloom.fromReader_ser (f := .v1 f) ⟨h1, by rw [h2]; rfl⟩ hs] at hg
      cases hg
      show Bloom.v1 f.canon = _
      rw [V1.canon_eq h2]
    | v2 f =>
      obtain ⟨h1, h2, h3⟩ := h.built2.inv hs
      rw [Bloom.file_eq, Bloom.fromReader_ser (f := .v2 f) ⟨h1, h2⟩ hs] at hg
      cases hg
      show Bloom.v2 f.canon = _
      rw [V2.Fits.canon_eq h3]

theorem Bloom.macroInsert_eq (env : Env) (f : Bloom) (vs : List (List U8)) :
    (∀ g, f.macroInsert env vs = .ok g ↔ f.fill env vs = (g, .ok ())) ∧
      ∀ e, f.macroInsert env vs ≠ .err e := by
  induction vs generalizing f with
  | nil => simp [Bloom.macroInsert, Bloom.fill]
  | cons v vs ih =>
    unfold Bloom.macroInsert Bloom.fill
    rcases f.insertBytes env v with ⟨g, b | e | _⟩
    · exact ih g
    · simp
    · simp

theorem V2.Keeps.trans {env : Env} {k : Key} {f g h : V2} (a : V2.Keeps env k f g)
    (b : V2.Keeps env k g h) : V2.Keeps env k f h := by
  induction b with
  | refl => exact a
  | step _ st ih => exact .step ih st

end Poppy
