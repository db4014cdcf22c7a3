import Verif.Lemmas.PyCalls
import Verif.Lemmas.CliCommands
import Verif.Props.Constructor

/-! What calls from Python leave behind. -/

namespace Poppy
namespace Py

open Abs Cli

variable {env : Env}

theorem out_raised {α : Type} {r : Res α} {f : α → Out} (hf : ∀ a e, f a ≠ .raised e) {e : Exc}
    (h : (PyRes.ofRes r).out f = .raised e) :
    (∃ x, r = .err x ∧ e = .valueError x) ∨ e = .panicException := by
  cases r with
  | ok a => exact absurd h (hf a e)
  | err x => injection h with h; exact .inl ⟨x, rfl, h.symm⟩
  | panic => injection h with h; exact .inr h.symm

/-- Nothing is changed if anything but a panic is raised. -/
def Quiet (h : Heap Bloom) (r : Heap Bloom × Out) : Prop :=
  ∀ e, r.2 = .raised e → e ≠ .panicException → r.1 = h

theorem quiet_self (h : Heap Bloom) (o : Out) : Quiet h (h, o) := fun _ _ _ => rfl

theorem quiet_returns (h : Heap Bloom) (r : PyRes Bloom) : Quiet h (returnsObj h r) := by
  cases r with
  | ok f => intro e he; cases he
  | _ => exact quiet_self h _

theorem quiet_args {β : Type} {h : Heap Bloom} {args : Except Exc β} {f : β → Heap Bloom × Out}
    (hf : ∀ b, Quiet h (f b)) : Quiet h (withArgs h args f) := by
  cases args with
  | error e => exact quiet_self h _
  | ok b => exact hf b

theorem quiet_obj {h : Heap Bloom} {i : ℕ} {f : Bloom → Heap Bloom × Out}
    (hf : ∀ a, h.objs[i]? = some a → Quiet h (f a)) : Quiet h (onObj h i f) := by
  unfold onObj
  cases hi : h.objs[i]? with
  | none => exact quiet_self h _
  | some a => exact hf a hi

theorem quiet_changes {β : Type} {h : Heap Bloom} {i : ℕ} {a : Bloom} (ha : h.objs[i]? = some a)
    {out : β → Out} (ho : ∀ b e, out b ≠ .raised e) {b : Bloom} {r : Res β}
    (hb : ∀ e, r = .err e → b = a) : Quiet h (changes h i out (b, .ofRes r)) := by
  intro e he hp
  rcases out_raised ho he with ⟨x, hx, _⟩ | hx
  · show Heap.mk (h.objs.set i b) h.world = h
    rw [hb x hx]
    obtain ⟨hi, rfl⟩ := List.getElem?_eq_some_iff.1 ha
    rw [List.set_getElem_self]
  · exact absurd hx hp

theorem bool_ne (b : Bool) (e : Exc) : Out.bool b ≠ .raised e := by rintro ⟨⟩

theorem call_quiet (hs : env.Small) {h : Heap Bloom} (hr : h.Reach env) (c : PyCall)
    (hc : ∀ i p, c ≠ .save i p) : Quiet h (h.call env c) := by
  have ins : ∀ (i : ℕ) (a : Bloom) (k : List U8), h.objs[i]? = some a → ∀ e, (a.insertBytes env k).2 = .err e →
      (a.insertBytes env k).1 = a := by
    intro i a k hi e he
    exact (Bloom.insert_err hs (hr a (List.mem_of_getElem? hi)) (Prod.ext rfl he)).1
  cases c with
  | new args => exact quiet_args fun _ => quiet_returns h _
  | withVersion args => exact quiet_args fun _ => quiet_returns h _
  | withParams args => exact quiet_args fun _ => quiet_returns h _
  | loads args => exact quiet_args fun _ => quiet_returns h _
  | load path => exact quiet_returns h _
  | insertBytes i args =>
    exact quiet_obj fun a ha => quiet_args fun k => quiet_changes ha bool_ne (ins i a _ ha)
  | insertStr i args =>
    exact quiet_obj fun a ha => quiet_args fun k => quiet_changes ha bool_ne (ins i a _ ha)
  | containsBytes i args => exact quiet_obj fun a ha => quiet_args fun k => quiet_self h _
  | containsStr i args => exact quiet_obj fun a ha => quiet_args fun k => quiet_self h _
  | unionMerge i args =>
    refine quiet_obj fun a ha => quiet_args fun o => quiet_changes ha (by rintro _ _ ⟨⟩) ?_
    intro e he
    have he : (a.unionMerge env o).2 = .err e := he
    exact (C62_merge_fails env a o).2.2 e (by unfold Py.unionMerge; simp only [he]; rfl)
  | countCommonEntries i args => exact quiet_obj fun a ha => quiet_args fun k => quiet_self h _
  | save i p => exact absurd rfl (hc i p)
  | _ => exact quiet_obj fun a ha => quiet_self h _

/-! Objects stay and grow. -/

def Heap.Le (env : Env) (h h' : Heap Bloom) : Prop :=
  ∀ (i : ℕ) (f : Bloom), h.objs[i]? = some f → ∃ g : Bloom, h'.objs[i]? = some g ∧ f.Grows env g

theorem Heap.Le.refl (h : Heap Bloom) : h.Le env h := fun _ f hf => ⟨f, hf, .refl _ _⟩

theorem Heap.Le.trans {a b c : Heap Bloom} (h1 : a.Le env b) (h2 : b.Le env c) : a.Le env c := by
  intro i f hf
  obtain ⟨g, hg, e⟩ := h1 i f hf
  obtain ⟨g', hg', e'⟩ := h2 i g hg
  exact ⟨g', hg', e.trans e'⟩

theorem le_returns (h : Heap Bloom) (r : PyRes Bloom) : h.Le env (returnsObj h r).1 := by
  cases r with
  | ok f =>
    intro i g hg
    refine ⟨g, ?_, .refl _ _⟩
    show (h.objs ++ [f])[i]? = _
    rw [List.getElem?_append_left (List.getElem?_eq_some_iff.1 hg).1, hg]
  | _ => exact .refl h

theorem le_args {β : Type} {h : Heap Bloom} {args : Except Exc β} {f : β → Heap Bloom × Out}
    (hf : ∀ b, h.Le env (f b).1) : h.Le env (withArgs h args f).1 := by
  cases args with
  | error e => exact .refl h
  | ok b => exact hf b

theorem le_obj {h : Heap Bloom} {i : ℕ} {f : Bloom → Heap Bloom × Out}
    (hf : ∀ a, h.objs[i]? = some a → h.Le env (f a).1) : h.Le env (onObj h i f).1 := by
  unfold onObj
  cases hi : h.objs[i]? with
  | none => exact .refl h
  | some a => exact hf a hi

theorem le_changes {β : Type} {h : Heap Bloom} {i : ℕ} {a : Bloom} (ha : h.objs[i]? = some a)
    {out : β → Out} {r : Bloom × PyRes β} (hg : a.Grows env r.1) :
    h.Le env (changes h i out r).1 := by
  intro j f hf
  show ∃ g, (h.objs.set i r.1)[j]? = some g ∧ _
  by_cases hij : i = j
  · subst hij
    rw [ha] at hf
    cases hf
    exact ⟨r.1, by rw [List.getElem?_set_self (List.getElem?_eq_some_iff.1 ha).1], hg⟩
  · exact ⟨f, by rw [List.getElem?_set_ne hij, hf], .refl _ _⟩

theorem call_le (hs : env.Small) {h : Heap Bloom} (hr : h.Reach env) (c : PyCall) :
    h.Le env (h.call env c).1 := by
  cases c with
  | new args => exact le_args fun _ => le_returns h _
  | withVersion args => exact le_args fun _ => le_returns h _
  | withParams args => exact le_args fun _ => le_returns h _
  | loads args => exact le_args fun _ => le_returns h _
  | load path => exact le_returns h _
  | insertBytes i args =>
    exact le_obj fun a ha => le_args fun k => le_changes ha
      (insert_grows hs (hr a (List.mem_of_getElem? ha)) _).2
  | insertStr i args =>
    exact le_obj fun a ha => le_args fun k => le_changes ha
      (insert_grows hs (hr a (List.mem_of_getElem? ha)) _).2
  | containsBytes i args => exact le_obj fun a ha => le_args fun k => .refl h
  | containsStr i args => exact le_obj fun a ha => le_args fun k => .refl h
  | unionMerge i args =>
    exact le_obj fun a ha => le_args fun o => le_changes ha
      (.union (o := o) hs (hr a (List.mem_of_getElem? ha)))
  | countCommonEntries i args => exact le_obj fun a ha => le_args fun k => .refl h
  | save i p => exact le_obj fun a ha j f hf => ⟨f, hf, .refl _ _⟩
  | _ => exact le_obj fun a ha => .refl h

theorem run_le (hs : env.Small) {h : Heap Bloom} (hr : h.Reach env) (cs : List PyCall) :
    (h.run env cs).1.Reach env ∧ h.Le env (h.run env cs).1 := by
  induction cs generalizing h with
  | nil => exact ⟨hr, .refl h⟩
  | cons c cs ih =>
    obtain ⟨h1, h2⟩ := ih (call_agree hs hr c).1
    exact ⟨h1, (call_le hs hr c).trans h2⟩

/-! Constructors. -/

theorem natArg_int {bits : ℕ} {n : ℤ} (h0 : 0 ≤ n) (h1 : n < 2 ^ bits) :
    natArg bits (.int n) = .ok n.toNat := if_pos ⟨h0, h1⟩

theorem natArg_int_err {bits : ℕ} {n : ℤ} (h : ¬ (0 ≤ n ∧ n < 2 ^ bits)) :
    natArg bits (.int n) = .error .overflowError := if_neg h

theorem extractStr_chars (s : List Char) :
    extractStr (.str (s.map Char.toNat)) = .ok (String.ofList s) := by
  have h : chars? (s.map Char.toNat) = some s := by
    induction s with
    | nil => rfl
    | cons c s ih =>
      rw [List.map_cons]
      unfold chars?
      rw [dif_pos (show c.toNat.isValidChar from c.valid), ih]
      rfl
  show (match chars? (s.map Char.toNat) with
    | some cs => Except.ok (String.ofList cs)
    | none => Except.error Exc.unicodeEncodeError) = _
  rw [h]

end Py
end Poppy
