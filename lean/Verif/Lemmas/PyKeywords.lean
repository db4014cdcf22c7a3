import Verif.Lemmas.PyCalls
import Verif.AbstractKeywords

/-! # Keyword arguments (for C99) -/

namespace Poppy
namespace Py

open Abs

theorem idxOf?_of_mem {names : List String} {k : String} (h : k ∈ names) :
    names.idxOf? k = some (names.idxOf k) := by
  induction names with
  | nil => cases h
  | cons a l ih =>
    rw [List.idxOf?_cons, List.idxOf_cons]
    by_cases e : a = k
    · simp [e]
    · have : k ∈ l := by
        rcases List.mem_cons.1 h with h | h
        · exact absurd h.symm e
        · exact h
      simp [ih this, beq_eq_false_iff_ne.2 e]

theorem map_set_idxOf {names : List String} (hd : names.Nodup) (g : String → Option Val) {k : String}
    (h : k ∈ names) (x : Option Val) :
    (names.map g).set (names.idxOf k) x = names.map (Function.update g k x) := by
  induction names with
  | nil => cases h
  | cons a l ih =>
    rw [List.nodup_cons] at hd
    rw [List.idxOf_cons]
    by_cases e : a = k
    · subst e
      simp only [BEq.rfl, cond_true, List.map_cons, List.set_cons_zero, Function.update_self,
        List.cons.injEq, true_and]
      refine List.map_congr_left fun n hn => ?_
      rw [Function.update_of_ne]
      rintro rfl
      exact hd.1 hn
    · have hk : k ∈ l := by
        rcases List.mem_cons.1 h with h | h
        · exact absurd h.symm e
        · exact h
      simp only [beq_eq_false_iff_ne.2 e, cond_false, List.map_cons, List.set_cons_succ]
      rw [ih hd.2 hk, Function.update_of_ne e]

theorem getElem?_map_idxOf {names : List String} (g : String → Option Val) {k : String}
    (h : k ∈ names) : (names.map g)[names.idxOf k]? = some (g k) := by
  rw [List.getElem?_map, List.getElem?_eq_getElem (List.idxOf_lt_length_of_mem h)]
  simp

theorem handleKwargs_map {names : List String} (hd : names.Nodup) :
    ∀ (kw : List (String × Val)) (g : String → Option Val),
      handleKwargs names (names.map g) kw =
        if (kw.map Prod.fst).Nodup ∧ ∀ k ∈ kw.map Prod.fst, k ∈ names ∧ g k = none then
          .ok (names.map fun n => g n <|> kw.lookup n)
        else .error .typeError
  | [], g => by
    simp [handleKwargs]
  | (k, v) :: kw, g => by
    unfold handleKwargs
    by_cases hk : k ∈ names
    · rw [idxOf?_of_mem hk]
      simp only [getElem?_map_idxOf g hk]
      cases hg : g k with
      | some w =>
        rw [if_neg]
        rintro ⟨_, h⟩
        have := (h k (by simp)).2
        rw [hg] at this
        cases this
      | none =>
        simp only
        rw [map_set_idxOf hd g hk, handleKwargs_map hd kw]
        have key : ((kw.map Prod.fst).Nodup ∧ ∀ a ∈ kw.map Prod.fst,
            a ∈ names ∧ Function.update g k (some v) a = none) ↔
            (((k, v) :: kw).map Prod.fst).Nodup ∧
              ∀ a ∈ ((k, v) :: kw).map Prod.fst, a ∈ names ∧ g a = none := by
          rw [List.map_cons, List.nodup_cons]
          constructor
          · rintro ⟨h1, h2⟩
            have hn : k ∉ kw.map Prod.fst := by
              intro h
              have := (h2 k h).2
              rw [Function.update_self] at this
              cases this
            refine ⟨⟨hn, h1⟩, fun a ha => ?_⟩
            rcases List.mem_cons.1 ha with rfl | ha'
            · exact ⟨hk, hg⟩
            · have h3 := h2 a ha'
              rw [Function.update_of_ne (by rintro rfl; exact hn ha')] at h3
              exact h3
          · rintro ⟨⟨hn, h1⟩, h2⟩
            refine ⟨h1, fun a ha => ?_⟩
            rw [Function.update_of_ne (by rintro rfl; exact hn ha)]
            exact h2 a (List.mem_cons_of_mem _ ha)
        by_cases hc : (((k, v) :: kw).map Prod.fst).Nodup ∧
              ∀ a ∈ ((k, v) :: kw).map Prod.fst, a ∈ names ∧ g a = none
        · rw [if_pos hc, if_pos (key.2 hc)]
          refine congrArg _ (List.map_congr_left fun n _ => ?_)
          by_cases e : n = k
          · subst e
            rw [Function.update_self, hg]
            simp
          · rw [Function.update_of_ne e, List.lookup_cons, beq_eq_false_iff_ne.2 e]
        · rw [if_neg hc, if_neg (fun h => hc (key.1 h))]
    · have : names.idxOf? k = none := List.idxOf?_eq_none_iff.2 hk
      rw [this, if_neg]
      rintro ⟨_, h⟩
      exact hk (h k (by simp)).1

theorem ensureNoMissing_map (g : String → Option Val) : ∀ names : List String,
    ensureNoMissing (names.map g) =
      if ∀ n ∈ names, (g n).isSome then .ok (names.filterMap g) else .error .typeError
  | [] => by simp [ensureNoMissing]
  | n :: names => by
    rw [List.map_cons]
    cases hg : g n with
    | none =>
      rw [if_neg (fun h => by simpa [hg] using h n (by simp))]
      rfl
    | some v =>
      show (ensureNoMissing (names.map g) >>= fun vs => Except.ok (v :: vs)) = _
      rw [ensureNoMissing_map g names, List.filterMap_cons_some hg]
      by_cases h : ∀ n ∈ names, (g n).isSome
      · rw [if_pos h, if_pos]
        · rfl
        · intro a ha
          rcases List.mem_cons.1 ha with rfl | ha
          · rw [hg]; rfl
          · exact h a ha
      · rw [if_neg h, if_neg (fun h' => h fun a ha => h' a (List.mem_cons_of_mem _ ha))]
        rfl

/-- The positional arguments, by the names of the parameters. -/
def posOf (names : List String) (pos : List Val) (n : String) : Option Val := pos[names.idxOf n]?

theorem output_eq {names : List String} (hd : names.Nodup) {pos : List Val}
    (h : pos.length ≤ names.length) :
    pos.map some ++ List.replicate (names.length - pos.length) none
      = names.map (posOf names pos) := by
  apply List.ext_getElem
  · simp; omega
  · intro i h1 h2
    rw [List.getElem_map]
    unfold posOf
    rw [List.Nodup.idxOf_getElem hd]
    by_cases hi : i < pos.length
    · rw [List.getElem_append_left (by simpa using hi)]
      simp [hi]
    · rw [List.getElem_append_right (by simpa using hi)]
      simp [List.getElem?_eq_none (Nat.le_of_not_lt hi)]

theorem posOf_none {names : List String} (hd : names.Nodup) (pos : List Val) (k : String) :
    (k ∈ names ∧ posOf names pos k = none) ↔ k ∈ names.drop pos.length := by
  unfold posOf
  rw [List.getElem?_eq_none_iff]
  constructor
  · rintro ⟨h1, h2⟩
    have hlt := List.idxOf_lt_length_of_mem h1
    rw [List.mem_drop_iff_getElem]
    refine ⟨names.idxOf k - pos.length, by omega, ?_⟩
    simp only [show pos.length + (names.idxOf k - pos.length) = names.idxOf k by omega]
    exact List.getElem_idxOf hlt
  · intro h
    rw [List.mem_drop_iff_getElem] at h
    obtain ⟨j, hj, rfl⟩ := h
    refine ⟨List.getElem_mem _, ?_⟩
    rw [List.Nodup.idxOf_getElem hd]
    omega

theorem filterMap_posOf {names : List String} (hd : names.Nodup) {pos : List Val}
    (h : pos.length ≤ names.length) (l : String → Option Val) :
    names.filterMap (fun n => posOf names pos n <|> l n)
      = pos ++ (names.drop pos.length).filterMap l := by
  conv_lhs => rw [← List.take_append_drop pos.length names]
  rw [List.filterMap_append]
  rw [List.take_append_drop]
  congr 1
  · have : ∀ n ∈ names.take pos.length,
        (posOf names pos n <|> l n) = posOf names pos n := by
      intro n hn
      rw [List.mem_take_iff_getElem] at hn
      obtain ⟨j, hj, rfl⟩ := hn
      unfold posOf
      rw [List.Nodup.idxOf_getElem hd, List.getElem?_eq_getElem (by omega)]
      rfl
    rw [List.filterMap_congr this]
    have h2 : (names.take pos.length).map (posOf names pos) = pos.map some := by
      apply List.ext_getElem
      · simp; omega
      · intro i h1 h2
        simp only [List.length_map] at h2
        simp only [List.getElem_map, List.getElem_take]
        unfold posOf
        rw [List.Nodup.idxOf_getElem hd, List.getElem?_eq_getElem h2]
    have h3 : (names.take pos.length).filterMap (posOf names pos)
        = ((names.take pos.length).map (posOf names pos)).filterMap id := by
      rw [List.filterMap_map]; rfl
    rw [h3, h2, List.filterMap_map]
    simp
  · refine List.filterMap_congr fun n hn => ?_
    rw [((posOf_none hd pos n).2 hn).2]
    rfl

theorem isSome_lookup (kw : List (String × Val)) (n : String) :
    (kw.lookup n).isSome = true ↔ n ∈ kw.map Prod.fst := by
  induction kw with
  | nil => simp
  | cons a kw ih =>
    obtain ⟨k, v⟩ := a
    rw [List.lookup_cons]
    by_cases e : n = k
    · subst e; simp
    · rw [beq_eq_false_iff_ne.2 e]
      simp [ih, e]

/-- The arguments are put in order as the specification says. -/
theorem extractArguments_eq {names : List String} (hd : names.Nodup) (pos : List Val)
    (kw : List (String × Val)) :
    extractArguments names pos kw =
      match arranged names pos kw with
      | some args => .ok args
      | none => .error .typeError := by
  unfold extractArguments arranged
  by_cases hl : names.length < pos.length
  · rw [if_pos hl, if_neg (fun h => absurd h.1 (by omega))]
  rw [if_neg hl]
  have hl := Nat.le_of_not_lt hl
  rw [output_eq hd hl, handleKwargs_map hd]
  simp only [posOf_none hd]
  have hdd : (names.drop pos.length).Nodup := hd.sublist (List.drop_sublist _ _)
  by_cases h1 : (kw.map Prod.fst).Nodup ∧ ∀ k ∈ kw.map Prod.fst, k ∈ names.drop pos.length
  · rw [if_pos h1]
    show ensureNoMissing _ = _
    rw [ensureNoMissing_map, filterMap_posOf hd hl]
    have key : (∀ n ∈ names, (posOf names pos n <|> kw.lookup n).isSome = true) ↔
        (kw.map Prod.fst).Perm (names.drop pos.length) := by
      rw [List.perm_ext_iff_of_nodup h1.1 hdd]
      constructor
      · intro h k
        refine ⟨h1.2 k, fun hk => ?_⟩
        obtain ⟨hn, hp⟩ := (posOf_none hd pos k).2 hk
        have := h k hn
        rw [hp] at this
        exact (isSome_lookup kw k).1 this
      · intro h n hn
        cases hp : posOf names pos n with
        | some v => rfl
        | none => exact (isSome_lookup kw n).2 ((h n).2 ((posOf_none hd pos n).1 ⟨hn, hp⟩))
    by_cases h2 : (kw.map Prod.fst).Perm (names.drop pos.length)
    · rw [if_pos (key.2 h2), if_pos ⟨hl, h2⟩]
    · rw [if_neg (fun h => h2 (key.1 h)), if_neg (fun h => h2 h.2)]
  · rw [if_neg h1, if_neg]
    · rfl
    · rintro ⟨_, h⟩
      exact h1 ⟨h.nodup_iff.2 hdd, fun k hk => h.mem_iff.1 hk⟩

theorem lookup_of_mem {kw : List (String × Val)} (hd : (kw.map Prod.fst).Nodup) {k : String} {v : Val}
    (h : (k, v) ∈ kw) : kw.lookup k = some v := by
  induction kw with
  | nil => cases h
  | cons a kw ih =>
    obtain ⟨k', v'⟩ := a
    rw [List.map_cons, List.nodup_cons] at hd
    rw [List.lookup_cons]
    rcases List.mem_cons.1 h with h' | h'
    · cases h'; simp
    · have hne : k ≠ k' := by
        rintro rfl
        exact hd.1 (List.mem_map.2 ⟨(k, v), h', rfl⟩)
      rw [beq_eq_false_iff_ne.2 hne]
      exact ih hd.2 h'

theorem filterMap_zip (l : String → Option Val) : ∀ (ks : List String) (vs : List Val),
    ks.length = vs.length → (∀ a ∈ ks.zip vs, l a.1 = some a.2) → ks.filterMap l = vs
  | [], [], _, _ => rfl
  | k :: ks, v :: vs, hl, h => by
    rw [List.filterMap_cons_some (h (k, v) (by simp))]
    rw [filterMap_zip l ks vs (by simpa using hl) fun a ha => h a (by simp [ha])]

theorem zip_filterMap (l : String → Option Val) : ∀ (ks : List String),
    (∀ k ∈ ks, (l k).isSome = true) →
      ks.zip (ks.filterMap l) = ks.filterMap fun k => (l k).map fun v => (k, v)
  | [], _ => rfl
  | k :: ks, h => by
    obtain ⟨v, hv⟩ := Option.isSome_iff_exists.1 (h k (by simp))
    rw [List.filterMap_cons_some hv, List.filterMap_cons_some (b := (k, v)) (by rw [hv]; rfl),
      List.zip_cons_cons, zip_filterMap l ks fun a ha => h a (by simp [ha])]

theorem drop_zip' (n : ℕ) (ks : List String) (vs : List Val) :
    (ks.zip vs).drop n = (ks.drop n).zip (vs.drop n) := by
  unfold List.zip
  rw [List.drop_zipWith]

theorem map_fst_zip' {ks : List String} {vs : List Val} (h : vs.length = ks.length) :
    (ks.zip vs).map Prod.fst = ks := List.map_fst_zip (by omega)

theorem arranged_of_perm {names : List String} (hd : names.Nodup) {args : List Val} {n : ℕ}
    (hl : args.length = names.length) {kw : List (String × Val)}
    (h : kw.Perm ((names.zip args).drop n)) : arranged names (args.take n) kw = some args := by
  have hdd : (names.drop n).Nodup := hd.sublist (List.drop_sublist _ _)
  have hk : (kw.map Prod.fst).Perm (names.drop n) := by
    have := h.map Prod.fst
    rw [drop_zip', map_fst_zip' (by simp [hl])] at this
    exact this
  have hdrop : names.drop (args.take n).length = names.drop n := by
    rw [List.length_take, hl]
    rcases Nat.le_total n names.length with h | h
    · rw [Nat.min_eq_left h]
    · rw [Nat.min_eq_right h, List.drop_length, List.drop_eq_nil_of_le h]
  unfold arranged
  rw [hdrop, if_pos ⟨by rw [List.length_take]; omega, hk⟩]
  rw [filterMap_zip _ (names.drop n) (args.drop n) (by simp [hl]), List.take_append_drop]
  rintro ⟨k, v⟩ ha
  rw [← drop_zip'] at ha
  exact lookup_of_mem (hk.nodup_iff.2 hdd) (h.mem_iff.2 ha)

theorem arranged_some {names : List String} (hd : names.Nodup) {pos args : List Val}
    {kw : List (String × Val)} (h : arranged names pos kw = some args) :
    args.length = names.length ∧ pos = args.take pos.length ∧
      kw.Perm ((names.zip args).drop pos.length) := by
  unfold arranged at h
  split at h
  · rename_i hc
    obtain ⟨hl, hp⟩ := hc
    injection h with h
    subst h
    have hdd : (names.drop pos.length).Nodup := hd.sublist (List.drop_sublist _ _)
    have hsome : ∀ k ∈ names.drop pos.length, (kw.lookup k).isSome = true :=
      fun k hk => (isSome_lookup kw k).2 (hp.mem_iff.2 hk)
    have hkd := hp.nodup_iff.2 hdd
    have hlen : ((names.drop pos.length).filterMap fun k => kw.lookup k).length
        = names.length - pos.length := by
      have h2 : ∀ (l : String → Option Val) (ks : List String),
          (∀ k ∈ ks, (l k).isSome = true) → (ks.filterMap l).length = ks.length := by
        intro l ks
        induction ks with
        | nil => intro _; rfl
        | cons k ks ih =>
          intro h
          obtain ⟨v, hv⟩ := Option.isSome_iff_exists.1 (h k (by simp))
          rw [List.filterMap_cons_some hv, List.length_cons, List.length_cons,
            ih fun a ha => h a (by simp [ha])]
      rw [h2 _ _ hsome, List.length_drop]
    refine ⟨by rw [List.length_append, hlen]; omega, by simp, ?_⟩
    rw [drop_zip', List.drop_left, zip_filterMap _ _ hsome]
    have e : kw = (kw.map Prod.fst).filterMap fun k => (kw.lookup k).map fun v => (k, v) := by
      rw [List.filterMap_map]
      have : ∀ a ∈ kw, ((fun k => (kw.lookup k).map fun v => (k, v)) ∘ Prod.fst) a = some a := by
        rintro ⟨k, v⟩ ha
        simp only [Function.comp]
        rw [lookup_of_mem hkd ha]
        rfl
      rw [List.filterMap_congr this]
      simp
    conv_lhs => rw [e]
    exact hp.filterMap _
  · cases h

theorem params_eq (fn : Fn) : fn.params = parameters fn := by cases fn <;> rfl

theorem call_eq (fn : Fn) (l : List Val) : fn.call l = positional fn l := by cases fn <;> rfl

theorem present_eq (fn : Fn) (n : ℕ) : present n fn = fn.self?.all (· < n) := by cases fn <;> rfl

theorem params_nodup (fn : Fn) : (parameters fn).Nodup := by
  cases fn <;> simp [parameters]

variable {env : Env}

theorem kwCall_agree (hs : env.Small) {h : Heap Bloom} (hr : h.Reach env) (c : KwCall) :
    Agree env (h.kwCall env c) (Abs.kwCall (Bloom.machine env) near h.view c) := by
  have hargs : Agree env
      (withArgs h (extractArguments c.fn.params c.pos c.kw) fun args => h.call env (c.fn.call args))
      (match arranged (parameters c.fn) c.pos c.kw with
        | none => (h.view, .raised .typeError)
        | some args => pyCall (Bloom.machine env) near h.view (positional c.fn args)) := by
    rw [params_eq, extractArguments_eq (params_nodup _)]
    cases arranged (parameters c.fn) c.pos c.kw with
    | none => exact ⟨hr, rfl⟩
    | some args =>
      have := call_agree hs hr (c.fn.call args)
      conv at this => arg 3; rw [call_eq]
      exact this
  unfold Heap.kwCall Abs.kwCall
  rw [present_eq]
  cases hself : c.fn.self? with
  | none =>
    cases h1 : arranged (parameters c.fn) c.pos c.kw <;> rw [h1] at hargs <;> exact hargs
  | some i =>
    have hlen : h.view.objs.length = h.objs.length := by simp [Heap.view]
    unfold onObj
    simp only [Option.all_some, hlen]
    by_cases hi : i < h.objs.length
    · rw [List.getElem?_eq_getElem hi, decide_eq_true hi]
      cases h1 : arranged (parameters c.fn) c.pos c.kw <;> rw [h1] at hargs <;> exact hargs
    · rw [List.getElem?_eq_none (Nat.le_of_not_lt hi), decide_eq_false hi]
      exact ⟨hr, rfl⟩

end Py
end Poppy
