import Verif.AbstractPy
import Verif.Lemmas.AbstractCli
import Verif.Lemmas.PyPrograms

/-! Calls from Python on the filters of the model and on abstract filters. -/

namespace Poppy
namespace Py

open Abs Cli

/-- The `f64` nearest to a whole number. -/
def near (n : ℤ) : Option F64 :=
  match rnd (n : ℚ) with
  | .fin q => some (FVal.bits (.fin q))
  | _ => none

/-! ## Arguments -/

theorem pyNumberIndex_eq (v : Val) : pyNumberIndex v =
    match whole v with
    | some n => .ok n
    | none => .error .typeError := by
  cases v with
  | bool b => cases b <;> rfl
  | _ => rfl

theorem extractUsize_eq (v : Val) : extractUsize v = (natArg 64 v).map (BitVec.ofNat 64) := by
  unfold extractUsize natArg
  rw [pyNumberIndex_eq]
  cases whole v with
  | none => rfl
  | some n =>
    show pyLongAsUnsignedLongLong n = _
    unfold pyLongAsUnsignedLongLong
    by_cases h0 : n < 0
    · simp only [h0, if_true]
      rw [if_neg (by omega)]; rfl
    · by_cases h1 : 2 ^ 64 ≤ n
      · simp only [h0, if_false, h1, if_true]
        rw [if_neg (by omega)]; rfl
      · simp only [h0, if_false, h1]
        rw [if_pos (by omega)]
        show Except.ok _ = Except.ok _
        congr 1
        obtain ⟨k, rfl⟩ := Int.eq_ofNat_of_zero_le (by omega : 0 ≤ n)
        simp

theorem extractU8_eq (v : Val) : extractU8 v = (natArg 8 v).map (BitVec.ofNat 8) := by
  unfold extractU8 natArg
  rw [pyNumberIndex_eq]
  cases whole v with
  | none => rfl
  | some n =>
    show (pyLongAsLong n >>= fun n => if 0 ≤ n ∧ n ≤ 255 then Except.ok (BitVec.ofInt 8 n)
      else Except.error Exc.overflowError) = _
    unfold pyLongAsLong
    show _ = Except.map (BitVec.ofNat 8)
      (if 0 ≤ n ∧ n < 2 ^ 8 then Except.ok n.toNat else Except.error Exc.overflowError)
    by_cases h : 0 ≤ n ∧ n < 2 ^ 8
    · rw [if_neg (by omega), if_pos h]
      show (if 0 ≤ n ∧ n ≤ 255 then Except.ok (BitVec.ofInt 8 n) else Except.error Exc.overflowError) = _
      rw [if_pos (by omega)]
      show Except.ok _ = Except.ok _
      congr 1
      obtain ⟨k, rfl⟩ := Int.eq_ofNat_of_zero_le h.1
      simp
    · rw [if_neg h]
      split_ifs
      · rfl
      · show (if 0 ≤ n ∧ n ≤ 255 then Except.ok (BitVec.ofInt 8 n)
          else Except.error Exc.overflowError) = _
        rw [if_neg (by omega)]
        rfl

theorem pyLongAsDouble_eq (n : ℤ) : pyLongAsDouble n =
    match near n with
    | none => .error .overflowError
    | some x => .ok x := by
  unfold pyLongAsDouble near
  cases rnd (n : ℚ) <;> rfl

theorem extractF64_eq (v : Val) : extractF64 v = numArg near v := by
  cases v with
  | int n => exact pyLongAsDouble_eq n
  | bool b => cases b <;> exact pyLongAsDouble_eq _
  | _ => rfl

theorem scalar_iff (c : ℕ) : scalar c = true ↔ c.isValidChar := by
  unfold scalar Nat.isValidChar
  rw [decide_eq_true_eq]
  omega

theorem chars?_eq (s : List ℕ) : chars? s = if s.all scalar then some (s.map Char.ofNat) else none := by
  induction s with
  | nil => rfl
  | cons c s ih =>
    unfold chars?
    rw [ih, List.all_cons]
    by_cases h : c.isValidChar
    · rw [dif_pos h, (scalar_iff c).2 h, Bool.true_and]
      have : Char.ofNat c = Char.ofNatAux c h := by unfold Char.ofNat; rw [dif_pos h]
      split_ifs
      · simp [this]
      · rfl
    · rw [dif_neg h]
      have : scalar c = false := by rw [← Bool.not_eq_true, scalar_iff]; exact h
      rw [this]; rfl

theorem utf8_ofList (cs : List Char) :
    (String.ofList cs).toUTF8.data.toList.map UInt8.toBitVec = cs.flatMap Spec.utf8 := by
  rw [String.toUTF8_eq_toByteArray, String.toByteArray_ofList, List.utf8Encode,
    List.toList_data_toByteArray, List.map_flatMap]
  rfl

theorem extractStr_eq (v : Val) :
    (extractStr v).map (fun s => s.toUTF8.data.toList.map UInt8.toBitVec) = textArg v := by
  cases v with
  | str s =>
    show Except.map _ (match chars? s with
      | some cs => Except.ok (String.ofList cs)
      | none => Except.error Exc.unicodeEncodeError) = if s.all scalar then _ else _
    rw [chars?_eq]
    split_ifs
    · show Except.ok _ = Except.ok _
      congr 1
      exact (utf8_ofList _).trans (List.flatMap_map ..)
    · rfl
  | _ => rfl

theorem extractSlice_eq (v : Val) : extractSlice v = bytesArg v := by cases v <;> rfl

theorem extractItems_eq (l : List Val) :
    extractItems l = (l.mapM (natArg 8)).map (List.map (BitVec.ofNat 8)) := by
  induction l with
  | nil => rfl
  | cons v l ih =>
    rw [extractItems, extractU8_eq, ih, List.mapM_cons]
    cases natArg 8 v with
    | error e => rfl
    | ok n => cases l.mapM (natArg 8) <;> rfl

theorem extractVec_eq (v : Val) : extractVec v = seqArg v := by
  cases v with
  | list l => exact extractItems_eq l
  | _ => rfl

theorem oneArg_eq {α : Type} {f g : Val → Except Exc α} (h : ∀ v, f v = g v) (args : List Val) :
    oneArg f args = single g args := by
  match args with
  | [] => rfl
  | [v] => exact h v
  | _ :: _ :: _ => rfl

theorem oneArg_map {α β : Type} {f : Val → Except Exc α} {g : Val → Except Exc β} (t : α → β)
    (h : ∀ v, (f v).map t = g v) (args : List Val) :
    (oneArg f args).map t = single g args := by
  match args with
  | [] => rfl
  | [v] => exact h v
  | _ :: _ :: _ => rfl

/-! ## Calls -/

/-- The objects as abstract filters. -/
def Heap.view (h : Heap Bloom) : Heap F := ⟨h.objs.map Bloom.view, h.world⟩

/-- The objects come from constructors, files and calls. -/
def Heap.Reach (env : Env) (h : Heap Bloom) : Prop := ∀ f ∈ h.objs, f.Reach env

theorem out_ofRes {α : Type} (r : Res α) (f : α → Answer) (g : α → Out) (h : ∀ a, (f a).out = g a) :
    (r.answer f).out = (PyRes.ofRes r).out g := by
  cases r with
  | ok a => exact h a
  | err e => rfl
  | panic => rfl

variable {env : Env}

/-- The call has the same outcome for abstract filters. -/
def Agree (env : Env) (x : Heap Bloom × Out) (y : Heap F × Out) : Prop :=
  x.1.Reach env ∧ y = (x.1.view, x.2)

theorem agree_same {h : Heap Bloom} (hr : h.Reach env) (o : Out) : Agree env (h, o) (h.view, o) :=
  ⟨hr, rfl⟩

theorem agree_added {h : Heap Bloom} (hr : h.Reach env) {x : Res Bloom} {y : Res F}
    (hx : Sim env x y) : Agree env (returnsObj h (.ofRes x)) (added h.view y) := by
  obtain ⟨rfl, h2⟩ := hx
  cases x with
  | ok f =>
    refine ⟨?_, ?_⟩
    · intro g hg
      rcases List.mem_append.1 hg with hg | hg
      · exact hr g hg
      · rw [List.mem_singleton.1 hg]; exact h2 f rfl
    · simp [returnsObj, PyRes.ofRes, added, Res.map, Heap.view]
  | err e => exact ⟨hr, rfl⟩
  | panic => exact ⟨hr, rfl⟩

theorem agree_told {h : Heap Bloom} (hr : h.Reach env) (i : ℕ) {f : Bloom → Out} {g : F → Out}
    (hfg : ∀ a, a.Reach env → g a.view = f a) :
    Agree env (onObj h i fun a => (h, f a)) (told h.view i g) := by
  unfold onObj told
  rw [show h.view.objs = h.objs.map Bloom.view from rfl, List.getElem?_map]
  cases hi : h.objs[i]? with
  | none => exact ⟨hr, rfl⟩
  | some a =>
    refine ⟨hr, ?_⟩
    show (h.view, g a.view) = (h.view, f a)
    rw [hfg a (hr a (List.mem_of_getElem? hi))]

theorem agree_asked {α β : Type} {h : Heap Bloom} (hr : h.Reach env) (i : ℕ) {x : Except Exc α}
    {y : Except Exc β} {t : α → β} (hxy : x.map t = y) {f : Bloom → α → Out} {g : F → β → Answer}
    (hfg : ∀ a, a.Reach env → ∀ k, (g a.view (t k)).out = f a k) :
    Agree env (onObj h i fun a => withArgs h x fun k => (h, f a k)) (asked h.view i y g) := by
  subst hxy
  cases x with
  | error e => exact agree_told hr i fun a _ => rfl
  | ok k => exact agree_told hr i fun a ha => hfg a ha k

theorem agree_changed {α β γ : Type} {h : Heap Bloom} (hr : h.Reach env) (i : ℕ) {x : Except Exc α}
    {y : Except Exc β} {t : α → β} (hxy : x.map t = y) {out : γ → Out}
    {f : Bloom → α → Bloom × PyRes γ} {g : F → β → F × Answer}
    (hfg : ∀ a, a.Reach env → ∀ k, x = .ok k → (f a k).1.Reach env ∧
      (g a.view (t k)).1 = (f a k).1.view ∧ (g a.view (t k)).2.out = (f a k).2.out out) :
    Agree env (onObj h i fun a => withArgs h x fun k => changes h i out (f a k))
      (changed h.view i y g) := by
  subst hxy
  unfold onObj changed
  rw [show h.view.objs = h.objs.map Bloom.view from rfl, List.getElem?_map]
  cases hi : h.objs[i]? with
  | none => exact ⟨hr, rfl⟩
  | some a =>
    cases x with
    | error e => exact ⟨hr, rfl⟩
    | ok k =>
      obtain ⟨h1, h2, h3⟩ := hfg a (hr a (List.mem_of_getElem? hi)) k rfl
      refine ⟨?_, ?_⟩
      · intro b hb
        rcases List.mem_or_eq_of_mem_set hb with hb | rfl
        · exact hr b hb
        · exact h1
      · show (Heap.mk ((h.objs.map Bloom.view).set i (g a.view (t k)).1) h.world,
          (g a.view (t k)).2.out) = _
        rw [h2, h3, ← List.map_set]
        rfl

theorem agree_args {α : Type} {h : Heap Bloom} (hr : h.Reach env) {x : Except Exc α}
    {y : Except Exc (Res F)} {f : α → Res Bloom} (hy : y = x.map fun a => (f a).map Bloom.view)
    (hf : ∀ a b, f a = .ok b → b.Reach env) :
    Agree env (withArgs h x fun a => returnsObj h (.ofRes (f a))) (constructed h.view y) := by
  subst hy
  cases x with
  | error e => exact ⟨hr, rfl⟩
  | ok a => exact agree_added hr ⟨rfl, hf a⟩

theorem levels (n : ℕ) (hn : n < 256) : OptLevel.tryFrom (BitVec.ofNat 8 n) =
    if n < 4 then .ok (levelOf n) else .err (.optLevel (BitVec.ofNat 8 n)) := by
  revert n
  decide +kernel

theorem except_bind {α β γ : Type} (x : Except Exc α) (f : α → β) (g : β → Except Exc γ) :
    (x.map f >>= g) = (x >>= fun a => g (f a)) := by cases x <;> rfl

theorem withParams_eq (v : U8) (c : U64) (p : F64) {o : ℕ} (ho : o < 256) :
    Py.withParams env v c p (BitVec.ofNat 8 o) =
      .ofRes (if o < 4 then Bloom.withVersionCapacityOpt env v c p (levelOf o)
        else .err (.optLevel (BitVec.ofNat 8 o))) := by
  unfold Py.withParams
  rw [levels o ho]
  split_ifs <;> rfl

theorem natArg_lt {n k : ℕ} {v : Val} (h : natArg n v = .ok k) : k < 2 ^ n := by
  unfold natArg at h
  split at h
  · cases h
  · rename_i z _
    split_ifs at h with hz
    cases h
    have := hz.2
    zify
    rw [Int.toNat_of_nonneg hz.1]
    exact_mod_cast this

/-- The filter that a constructor makes. -/
def madeOf (env : Env) (v c : ℕ) (p : F64) (o : ℕ) : Res Bloom :=
  if o < 4 then Bloom.withVersionCapacityOpt env (BitVec.ofNat 8 v) (BitVec.ofNat 64 c) p (levelOf o)
  else .err (.optLevel (BitVec.ofNat 8 o))

theorem madeOf_reach {v c : ℕ} {p : F64} {o : ℕ} {f : Bloom} (h : madeOf env v c p o = .ok f) :
    f.Reach env := by
  unfold madeOf at h
  split_ifs at h
  exact Bloom.make_reach h

theorem madeOf_view (v c : ℕ) (p : F64) (o : ℕ) :
    (madeOf env v c p o).map Bloom.view =
      if o < 4 then make (Bloom.machine env) (BitVec.ofNat 8 v) (BitVec.ofNat 64 c) p (levelOf o)
      else .err (.optLevel (BitVec.ofNat 8 o)) := by
  unfold madeOf
  split_ifs
  · exact (Bloom.view_make _ _ _ _).symm
  · rfl

theorem agree_make {h : Heap Bloom} (hr : h.Reach env) (v : Except Exc ℕ) (c p : Val)
    (o : Except Exc ℕ) :
    Agree env (withArgs h (do
        let v ← v
        let c ← natArg 64 c
        let p ← extractF64 p
        let o ← o
        .ok (v, c, p, o)) fun (v, c, p, o) => returnsObj h (.ofRes (madeOf env v c p o)))
      (constructed h.view (makeArgs (Bloom.machine env) near v c p o)) := by
  refine agree_args hr ?_ fun a b hb => madeOf_reach hb
  unfold makeArgs
  rw [extractF64_eq]
  cases v with
  | error e => rfl
  | ok v =>
    cases natArg 64 c with
    | error e => rfl
    | ok c =>
      cases numArg near p with
      | error e => rfl
      | ok p =>
        cases o with
        | error e => rfl
        | ok o =>
          exact congrArg Except.ok (madeOf_view v c p o).symm

theorem new_eq (h : Heap Bloom) (c p : Val) : h.call env (.new [c, p]) = 
    withArgs h (do
        let v ← .ok 2
        let c ← natArg 64 c
        let p ← extractF64 p
        let o ← .ok 0
        .ok (v, c, p, o)) fun (v, c, p, o) => returnsObj h (.ofRes (madeOf env v c p o)) := by
  show withArgs h (extractUsize c >>= fun c => extractF64 p >>= fun p => .ok (c, p)) _ = _
  rw [extractUsize_eq]
  cases natArg 64 c with
  | error e => rfl
  | ok c =>
    show withArgs h (extractF64 p >>= fun p => .ok (BitVec.ofNat 64 c, p)) _ = withArgs h
      (extractF64 p >>= fun p => .ok (2, c, p, 0)) _
    cases extractF64 p <;> rfl

theorem withVersion_eq (h : Heap Bloom) (v c p : Val) :
    h.call env (.withVersion [v, c, p]) = 
    withArgs h (do
        let v ← natArg 8 v
        let c ← natArg 64 c
        let p ← extractF64 p
        let o ← .ok 0
        .ok (v, c, p, o)) fun (v, c, p, o) => returnsObj h (.ofRes (madeOf env v c p o)) := by
  show withArgs h (extractU8 v >>= fun v => extractUsize c >>= fun c => extractF64 p >>= fun p =>
    .ok (v, c, p)) _ = _
  rw [extractUsize_eq, extractU8_eq]
  cases natArg 8 v with
  | error e => rfl
  | ok v =>
    cases natArg 64 c with
    | error e => rfl
    | ok c =>
      show withArgs h (extractF64 p >>= fun p => .ok (BitVec.ofNat 8 v, BitVec.ofNat 64 c, p)) _ =
        withArgs h (extractF64 p >>= fun p => .ok (v, c, p, 0)) _
      cases extractF64 p <;> rfl

theorem withParams_call (h : Heap Bloom) (v c p o : Val) :
    h.call env (.withParams [v, c, p, o]) = 
    withArgs h (do
        let v ← natArg 8 v
        let c ← natArg 64 c
        let p ← extractF64 p
        let o ← natArg 8 o
        .ok (v, c, p, o)) fun (v, c, p, o) => returnsObj h (.ofRes (madeOf env v c p o)) := by
  show withArgs h (extractU8 v >>= fun v => extractUsize c >>= fun c => extractF64 p >>= fun p =>
    extractU8 o >>= fun o => .ok (v, c, p, o)) _ = _
  rw [extractUsize_eq, extractU8_eq, extractU8_eq]
  cases natArg 8 v with
  | error e => rfl
  | ok v =>
    cases natArg 64 c with
    | error e => rfl
    | ok c =>
      cases extractF64 p with
      | error e => rfl
      | ok p =>
        cases ho : natArg 8 o with
        | error e => rfl
        | ok o =>
          show returnsObj h (Py.withParams env _ _ p (BitVec.ofNat 8 o)) = _
          rw [withParams_eq _ _ _ (natArg_lt ho)]
          rfl

theorem save_eq (w : World) (f : Bloom) (p : Path) : Py.save w f p =
    ((Cli.save w p f).1, if w.creatable p = false then .osError (.ioError .other)
      else .ofRes (Cli.save w p f).2) := by
  unfold Py.save Cli.save World.create
  cases w.creatable p <;> simp

theorem otherArg_eq (h : Heap Bloom) (taken : Option ℕ) (args : List Val)
    (ht : ∀ j, args = [.filter j] → j < h.objs.length → taken ≠ some j) :
    (otherArg h taken args).map Bloom.view = single (filterArg h.view.objs) args := by
  match args with
  | [] => rfl
  | v :: _ :: _ => cases v <;> rfl
  | [v] =>
    cases v with
    | filter j =>
      show Except.map Bloom.view (match h.objs[j]? with
        | some o => if taken = some j then .error Exc.runtimeError else .ok o
        | none => .error Exc.typeError) = (match (h.objs.map Bloom.view)[j]? with
        | some a => .ok a
        | none => .error Exc.typeError)
      rw [List.getElem?_map]
      cases hj : h.objs[j]? with
      | none => rfl
      | some o =>
        show Except.map Bloom.view (if taken = some j then .error Exc.runtimeError else .ok o) = _
        rw [if_neg (ht j rfl (List.getElem?_eq_some_iff.1 hj).1)]
        rfl
    | _ => rfl

/-- One call gives the same for abstract filters. -/
theorem call_agree (hs : env.Small) {h : Heap Bloom} (hr : h.Reach env) (c : PyCall) :
    Agree env (h.call env c) (pyCall (Bloom.machine env) near h.view c) := by
  cases c with
  | new args =>
    match args with
    | [] => exact ⟨hr, rfl⟩
    | [_] => exact ⟨hr, rfl⟩
    | _ :: _ :: _ :: _ => exact ⟨hr, rfl⟩
    | [c, p] => rw [new_eq]; exact agree_make hr (.ok 2) c p (.ok 0)
  | withVersion args =>
    match args with
    | [] => exact ⟨hr, rfl⟩
    | [_] => exact ⟨hr, rfl⟩
    | [_, _] => exact ⟨hr, rfl⟩
    | _ :: _ :: _ :: _ :: _ => exact ⟨hr, rfl⟩
    | [v, c, p] => rw [withVersion_eq]; exact agree_make hr (natArg 8 v) c p (.ok 0)
  | withParams args =>
    match args with
    | [] => exact ⟨hr, rfl⟩
    | [_] => exact ⟨hr, rfl⟩
    | [_, _] => exact ⟨hr, rfl⟩
    | [_, _, _] => exact ⟨hr, rfl⟩
    | _ :: _ :: _ :: _ :: _ :: _ => exact ⟨hr, rfl⟩
    | [v, c, p, o] => rw [withParams_call]; exact agree_make hr (natArg 8 v) c p (natArg 8 o)
  | loads args =>
    refine agree_args (f := fun bs => Bloom.fromReader env (Reader.ofBytes bs)) hr ?_
      fun a b hb => Bloom.Reach.load hb
    rw [oneArg_eq extractVec_eq]
    cases single seqArg args with
    | error e => rfl
    | ok bs =>
      exact congrArg Except.ok (Bloom.view_load hs bs)
  | load path =>
    have hsim := sim_stored hs h.world path
    show Agree env (returnsObj h (Py.load env h.world path)) (match source h.world path with
      | .refused e => (h.view, .raised (.osError e))
      | s => added h.view (s.filter (Bloom.machine env)))
    unfold Py.load
    rcases open_source h.world path with ⟨e, h1, h2⟩ | ⟨bs, _, h1, h2⟩ | ⟨bs, k, _, hk, h1, h2⟩
    · rw [h1, h2]; exact ⟨hr, rfl⟩
    · rw [h1, h2] at hsim ⊢
      exact agree_added hr hsim
    · rw [h1, h2] at hsim ⊢
      exact agree_added hr hsim
  | insertBytes i args =>
    refine agree_changed (t := id) hr i (x := oneArg extractSlice args) ?_ fun a ha k _ => ?_
    · rw [oneArg_eq extractSlice_eq]; cases single bytesArg args <;> rfl
    · have := Bloom.view_insert hs ha k
      refine ⟨Bloom.insert_reach ha k, congrArg Prod.fst this, ?_⟩
      show (Abs.F.insert _ k a.view).2.out = _
      rw [congrArg Prod.snd this]
      exact out_ofRes _ _ _ fun _ => rfl
  | insertStr i args =>
    refine agree_changed hr i (oneArg_map _ extractStr_eq args) fun a ha s _ => ?_
    have := Bloom.view_insert hs ha (s.toUTF8.data.toList.map UInt8.toBitVec)
    refine ⟨Bloom.insert_reach ha _, congrArg Prod.fst this, ?_⟩
    show (Abs.F.insert _ _ a.view).2.out = _
    rw [congrArg Prod.snd this]
    exact out_ofRes _ _ _ fun _ => rfl
  | containsBytes i args =>
    refine agree_asked (t := id) hr i (x := oneArg extractSlice args) ?_ fun a ha k => ?_
    · rw [oneArg_eq extractSlice_eq]; cases single bytesArg args <;> rfl
    · show (Abs.F.contains _ k a.view).out = _
      rw [Bloom.view_contains hs ha k]
      exact out_ofRes _ _ _ fun _ => rfl
  | containsStr i args =>
    refine agree_asked hr i (oneArg_map _ extractStr_eq args) fun a ha s => ?_
    show (Abs.F.contains _ _ a.view).out = _
    rw [Bloom.view_contains hs ha _]
    exact out_ofRes _ _ _ fun _ => rfl
  | isFull i => exact agree_told hr i fun a _ => by rw [Bloom.view_isFull]; rfl
  | unionMerge i args =>
    show Agree env (onObj h i fun f => withArgs h (otherArg h (some i) args) fun o =>
      changes h i (fun _ => .none) (Py.unionMerge env f o)) _
    by_cases hself : args = [.filter i] ∧ i < h.objs.length
    · obtain ⟨rfl, hi⟩ := hself
      have h1 : h.objs[i]? = some h.objs[i] := List.getElem?_eq_getElem hi
      refine ⟨?_, ?_⟩ <;> simp only [onObj, h1, otherArg, withArgs, if_true]
      · exact hr
      · have : i < h.view.objs.length := by simpa [Heap.view] using hi
        simp [pyCall, this]
    · have hp : pyCall (Bloom.machine env) near h.view (.unionMerge i args) =
          changed h.view i (single (filterArg h.view.objs) args) fun a b =>
            a.union (Bloom.machine env) b := by
        match args with
        | [] => rfl
        | v :: _ :: _ => cases v <;> rfl
        | [v] =>
          cases v with
          | filter j =>
            show (if i = j ∧ i < h.view.objs.length then _ else _) = _
            rw [if_neg]
            · rfl
            · rintro ⟨rfl, hi⟩
              exact hself ⟨rfl, by simpa [Heap.view] using hi⟩
          | _ => rfl
      rw [hp]
      refine agree_changed hr i (x := otherArg h (some i) args) (t := Bloom.view) ?_ ?_
      · exact otherArg_eq h _ args fun j hj hl he => hself ⟨by rw [hj, Option.some.inj he], by
          rw [Option.some.inj he]; exact hl⟩
      · intro a ha o ho
        have := Bloom.view_union (env := env) a o
        refine ⟨Bloom.union_reach ha _, congrArg Prod.fst this, ?_⟩
        show (Abs.F.union _ a.view o.view).2.out = _
        rw [congrArg Prod.snd this]
        exact out_ofRes _ _ _ fun _ => rfl
  | countCommonEntries i args =>
    refine agree_asked hr i (x := otherArg h none args) (t := Bloom.view) ?_ fun a ha o => ?_
    · exact otherArg_eq h _ args fun j _ _ he => by cases he
    · show (Abs.F.common _ a.view o.view).out = _
      rw [Bloom.view_common]
      exact out_ofRes _ _ _ fun _ => rfl
  | dumps i =>
    refine agree_told hr i fun a ha => ?_
    rw [Bloom.view_file ha, Py.dumps_eq]; rfl
  | save i path =>
    show Agree env (onObj h i fun f => ({ h with world := (Py.save h.world f path).1 },
      (Py.save h.world f path).2.out fun _ => .none)) (match (h.objs.map Bloom.view)[i]? with
        | none => (h.view, .raised .nameError)
        | some a =>
          if h.world.creatable path = false then (h.view, .raised (.osError (.ioError .other)))
          else (⟨h.view.objs, (store h.world path a).1⟩,
            match (store h.world path a).2 with
            | .ok _ => .none
            | .err e => .raised (.valueError e)
            | .panic => .raised .panicException))
    unfold onObj
    rw [List.getElem?_map]
    cases hi : h.objs[i]? with
    | none => exact ⟨hr, rfl⟩
    | some a =>
      refine ⟨hr, ?_⟩
      have hst := save_stores (hr a (List.mem_of_getElem? hi)) h.world path
      simp only [Option.map_some, save_eq]
      rw [← hst]
      split_ifs with hc
      · rcases save_cases h.world path a with ⟨_, h1⟩ | ⟨hc', _⟩
        · rw [h1]; rfl
        · rw [hc] at hc'; cases hc'
      · refine Prod.ext rfl ?_
        show _ = (PyRes.ofRes (Cli.save h.world path a).2).out _
        cases (Cli.save h.world path a).2 <;> rfl
  | version i => exact agree_told hr i fun a _ => by cases a <;> rfl
  | capacity i => exact agree_told hr i fun a _ => by cases a <;> rfl
  | fpp i => exact agree_told hr i fun a _ => by cases a <;> rfl
  | countEstimate i => exact agree_told hr i fun a _ => by cases a <;> rfl
  | data i => exact agree_told hr i fun a _ => by cases a <;> rfl

end Py
end Poppy
