import Verif.Lemmas.Sessions
import Verif.Props.Python
import Verif.PySpec

/-! Lemmas about Python programs. -/

namespace Poppy

open Spec Cli Py

theorem Bloom.Grows.union {env : Env} (hs : env.Small) {f o : Bloom} (hf : f.Reach env) :
    Bloom.Grows env f (f.unionMerge env o).1 := by
  have hr : (f.unionMerge env o).1.Reach env := unionMerge_reach hf
  unfold Bloom.unionMerge at hr ⊢
  cases hp : f.hasSameParams o with
  | err e => exact .refl _ _
  | panic => exact .refl _ _
  | ok b =>
    rw [hp] at hr
    cases b with
    | false => exact .refl _ _
    | true =>
      cases f with
      | v1 f =>
        cases o with
        | v2 o => exact .refl _ _
        | v1 o =>
          have e := V1.unionMerge_ext env f o
          refine ⟨rfl, e.capacity, e.fpp, ?_, fun k hk => ?_⟩
          · show f.bitSize ≠ 0 ↔ (f.unionMerge env o).1.bitSize ≠ 0
            rw [e.bitSize]
          · have hk : f.containsBytes k = .ok true := hk
            show V1.containsBytes _ _ = _
            rw [V1.contains_true_iff hs hr]
            rw [V1.contains_true_iff hs hf] at hk
            exact ⟨by rw [e.bitSize]; exact hk.1, V1.allSet_ext e hk.2⟩
      | v2 f =>
        cases o with
        | v1 o => exact .refl _ _
        | v2 o =>
          have e := V2.unionMerge_ext env f o
          refine ⟨rfl, e.capacity, e.fpp, Iff.rfl, fun k hk => ?_⟩
          have hf : V2.Reach env f := hf
          have hk : f.contains env (.slice k) = .ok true := hk
          rw [V2.contains_true_iff env hf.wf] at hk
          have h0 : V2.Has env (.slice k) f := ⟨hf, hk.1, hk.2.1, hk.2.2.2, hk.2.2.1⟩
          exact (h0.ext e hr).contains

namespace Py

/-- The objects of `st` are still in `st'`, and contain whatever they did. -/
def Store.Le (env : Env) (st st' : Store) : Prop :=
  ∀ (i : ℕ) (f : Bloom), st.objs[i]? = some f → ∃ g : Bloom, st'.objs[i]? = some g ∧ f.Grows env g

def Store.Ok (env : Env) (st : Store) : Prop := ∀ f ∈ st.objs, f.Reach env

theorem Store.alloc_ok {env : Env} {st : Store} (h : st.Ok env) {r : PyRes Bloom}
    (hr : ∀ f, r = .ok f → f.Reach env) :
    (st.alloc r).Ok env ∧ st.Le env (st.alloc r) ∧ (st.alloc r).world = st.world := by
  cases r with
  | ok f =>
    refine ⟨fun g hg => ?_, fun i g hg => ⟨g, ?_, .refl _ _⟩, rfl⟩
    · rcases List.mem_append.1 hg with hg | hg
      · exact h g hg
      · rw [List.mem_singleton.1 hg]; exact hr f rfl
    · have hi : i < st.objs.length := (List.getElem?_eq_some_iff.1 hg).1
      show (st.objs ++ [f])[i]? = _
      rw [List.getElem?_append_left hi, hg]
  | _ => exact ⟨h, fun i g hg => ⟨g, hg, .refl _ _⟩, rfl⟩

theorem Store.modify_ok {env : Env} {st : Store} (h : st.Ok env) (i : ℕ) {u : Bloom → Bloom}
    (hu : ∀ f : Bloom, f.Reach env → (u f).Reach env ∧ f.Grows env (u f)) :
    Store.Ok env { st with objs := st.objs.modify i u } ∧
      st.Le env { st with objs := st.objs.modify i u } := by
  refine ⟨fun g hg => ?_, fun j g hg => ?_⟩
  · obtain ⟨j, hj⟩ := List.mem_iff_getElem?.1 hg
    simp only [List.getElem?_modify] at hj
    cases hx : st.objs[j]? with
    | none => rw [hx] at hj; cases hj
    | some x =>
      rw [hx] at hj
      have hxr := h x (List.mem_of_getElem? hx)
      have hj : (if i = j then u x else x) = g := Option.some.inj hj
      rw [← hj]
      split
      · exact (hu x hxr).1
      · exact hxr
  · have hxr := h g (List.mem_of_getElem? hg)
    simp only [List.getElem?_modify, hg]
    by_cases hij : i = j
    · exact ⟨u g, by simp [hij], (hu g hxr).2⟩
    · exact ⟨g, by simp [hij], .refl _ _⟩

theorem ofRes_ok {α : Type} {r : Res α} {a : α} : PyRes.ofRes r = .ok a ↔ r = .ok a := by
  cases r <;> simp [PyRes.ofRes]

theorem with_reach {env : Env} {v : U8} {c : U64} {p : F64} {o : OptLevel} {f : Bloom}
    (h : Bloom.withVersionCapacityOpt env v c p o = .ok f) : f.Reach env := by
  unfold Bloom.withVersionCapacityOpt at h
  split at h
  · cases hx : V1.withCapacity env c p with
    | ok g => rw [hx] at h; cases h; exact V1.Reach.make hx
    | err e => rw [hx] at h; cases h
    | panic => rw [hx] at h; cases h
  · split at h
    · cases hx : V2.make env c p o with
      | ok g => rw [hx] at h; cases h; exact V2.Reach.make hx
      | err e => rw [hx] at h; cases h
      | panic => rw [hx] at h; cases h
    · cases h

theorem insert_grows {env : Env} (hs : env.Small) {f : Bloom} (hf : f.Reach env) (k : List U8) :
    (f.insertBytes env k).1.Reach env ∧ f.Grows env (f.insertBytes env k).1 :=
  ⟨hf.insert k, Bloom.Grows.inserts hs hf [k]⟩

theorem Store.call_ok {env : Env} (hs : env.Small) {st : Store} (h : st.Ok env) (c : Call) :
    (st.call env c).Ok env ∧ st.Le env (st.call env c) := by
  have self : st.Ok env ∧ st.Le env st := ⟨h, fun i g hg => ⟨g, hg, .refl _ _⟩⟩
  have hparams : ∀ v c p o f, Py.withParams env v c p o = .ok f → f.Reach env := by
    intro v c p o f hf
    by_cases ho : o.toNat ≤ 3
    · obtain ⟨l, _, h2⟩ := (C62_with_params env v c p o).2.1 ho
      rw [h2, ofRes_ok] at hf
      exact with_reach hf
    · rw [(C62_with_params env v c p o).1 (by omega)] at hf
      cases hf
  cases c with
  | new c p =>
    have := Store.alloc_ok h (r := Py.new env c p)
      (fun f hf => hparams 2 c p 0 f (by rw [← (C62_with_params env 2 c p 0).2.2.2]; exact hf))
    exact ⟨this.1, this.2.1⟩
  | withVersion v c p =>
    have := Store.alloc_ok h (r := Py.withVersion env v c p)
      (fun f hf => hparams v c p 0 f (by rw [← (C62_with_params env v c p 0).2.2.1]; exact hf))
    exact ⟨this.1, this.2.1⟩
  | withParams v c p o =>
    have := Store.alloc_ok h (r := Py.withParams env v c p o) (hparams v c p o)
    exact ⟨this.1, this.2.1⟩
  | load path =>
    have := Store.alloc_ok h (r := Py.load env st.world path) (fun f hf => by
      unfold Py.load at hf
      split at hf
      · rename_i ho
        obtain ⟨bs, rfl, _⟩ := open_loaded ho (ofRes_ok.1 hf)
        exact Bloom.Reach.load (ofRes_ok.1 hf)
      · cases hf
      · cases hf)
    exact ⟨this.1, this.2.1⟩
  | loads bs =>
    have := Store.alloc_ok h (r := Py.loads env bs)
      (fun f hf => Bloom.Reach.load (ofRes_ok.1 hf))
    exact ⟨this.1, this.2.1⟩
  | insertBytes i k => exact Store.modify_ok h i (fun f hf => insert_grows hs hf k)
  | insertStr i s => exact Store.modify_ok h i (fun f hf => insert_grows hs hf _)
  | unionMerge i j =>
    simp only [Store.call]
    cases hj : st.objs[j]? with
    | none => exact self
    | some o =>
      simp only
      split
      · exact self
      · exact Store.modify_ok h i (u := fun f => (Py.unionMerge env f o).1)
          (fun f hf => ⟨unionMerge_reach (o := o) hf, .union (o := o) hs hf⟩)
  | save i path =>
    simp only [Store.call]
    cases hj : st.objs[i]? with
    | none => exact self
    | some o => exact self
  | write path content => exact self

theorem Store.run_append (env : Env) (a b : List Call) (st : Store) :
    st.run env (a ++ b) = (st.run env a).run env b := by
  induction a generalizing st with
  | nil => rfl
  | cons c a ih => exact ih _

theorem Store.ok_nil (env : Env) (w : World) : Store.Ok env ⟨[], w⟩ := fun f hf => by cases hf

/-- Files not touched stay. -/
theorem Store.run_fs {env : Env} {p : Path} (st : Store) (cs : List Call)
    (h : ∀ c ∈ cs, ¬ c.Touches p) : (st.run env cs).world.fs p = st.world.fs p := by
  have ha : ∀ r : PyRes Bloom, ∀ st : Store, (st.alloc r).world = st.world := by
    intro r st; cases r <;> rfl
  induction cs generalizing st with
  | nil => rfl
  | cons c cs ih =>
    have h1 := ih (st.call env c) (fun x hx => h x (by simp [hx]))
    have hc := h c (by simp)
    suffices (st.call env c).world.fs p = st.world.fs p from h1.trans this
    cases c with
    | new c p => rw [Store.call, ha]
    | withVersion v c p => rw [Store.call, ha]
    | withParams v c p o => rw [Store.call, ha]
    | load q => rw [Store.call, ha]
    | loads bs => rw [Store.call, ha]
    | insertBytes i k => rfl
    | insertStr i k => rfl
    | unionMerge i j =>
      simp only [Store.call]
      cases st.objs[j]? with
      | none => rfl
      | some o => simp only; split <;> rfl
    | save i q =>
      have hq : q ≠ p := hc
      simp only [Store.call]
      cases st.objs[i]? with
      | none => rfl
      | some f =>
        exact (C62_save_fails st.world f q).2.2 p (Ne.symm hq)
    | write q content =>
      have hq : q ≠ p := hc
      show (if p = q then content else st.world.fs p) = _
      rw [if_neg (Ne.symm hq)]

/-- Rights and disk space are not changed by programs. -/
theorem Store.run_rights {env : Env} (st : Store) (cs : List Call) :
    (st.run env cs).world.access = st.world.access ∧
      (st.run env cs).world.disk = st.world.disk := by
  have ha : ∀ r : PyRes Bloom, ∀ st : Store, (st.alloc r).world = st.world := by
    intro r st; cases r <;> rfl
  induction cs generalizing st with
  | nil => exact ⟨rfl, rfl⟩
  | cons c cs ih =>
    obtain ⟨h1, h2⟩ := ih (st.call env c)
    suffices (st.call env c).world.access = st.world.access ∧
        (st.call env c).world.disk = st.world.disk from ⟨h1.trans this.1, h2.trans this.2⟩
    cases c with
    | new c p => rw [Store.call, ha]; exact ⟨rfl, rfl⟩
    | withVersion v c p => rw [Store.call, ha]; exact ⟨rfl, rfl⟩
    | withParams v c p o => rw [Store.call, ha]; exact ⟨rfl, rfl⟩
    | load q => rw [Store.call, ha]; exact ⟨rfl, rfl⟩
    | loads bs => rw [Store.call, ha]; exact ⟨rfl, rfl⟩
    | insertBytes i k => exact ⟨rfl, rfl⟩
    | insertStr i k => exact ⟨rfl, rfl⟩
    | unionMerge i j =>
      simp only [Store.call]
      cases st.objs[j]? with
      | none => exact ⟨rfl, rfl⟩
      | some o => simp only; split <;> exact ⟨rfl, rfl⟩
    | save i q =>
      simp only [Store.call]
      cases st.objs[i]? with
      | none => exact ⟨rfl, rfl⟩
      | some f =>
        simp only [Py.save, World.create]
        cases st.world.creatable q <;> exact ⟨rfl, rfl⟩
    | write q content => exact ⟨rfl, rfl⟩

theorem Store.run_ok {env : Env} (hs : env.Small) {st : Store} (h : st.Ok env) (cs : List Call) :
    (st.run env cs).Ok env ∧ st.Le env (st.run env cs) := by
  induction cs generalizing st with
  | nil => exact ⟨h, fun i g hg => ⟨g, hg, .refl _ _⟩⟩
  | cons c cs ih =>
    obtain ⟨h1, h2⟩ := Store.call_ok hs h c
    obtain ⟨h3, h4⟩ := ih h1
    refine ⟨h3, fun i f hf => ?_⟩
    obtain ⟨g, hg, e⟩ := h2 i f hf
    obtain ⟨g', hg', e'⟩ := h4 i g hg
    exact ⟨g', hg', e.trans e'⟩

end Py

end Poppy
