import Verif.Lemmas.CliInsert
import Verif.Props.Constructor

/-! # Lemmas on the commands of the tool -/

namespace Poppy

open Spec

theorem Res.map_ok {α β : Type} {r : Res α} {g : α → β} {b : β} (h : r.map g = .ok b) :
    ∃ a, r = .ok a ∧ b = g a := by
  cases r with
  | ok a => exact ⟨a, rfl, by simpa [Res.map, eq_comm] using h⟩
  | err e => simp [Res.map] at h
  | panic => simp [Res.map] at h

namespace Bloom

/-- What a new filter is like. -/
theorem new_spec {env : Env} (hs : env.Small) {v : U8} {cap : U64}
    {fpp : F64} {opt : OptLevel} {b : Bloom}
    (h : Bloom.withVersionCapacityOpt env v cap fpp opt = .ok b) :
    b.Reach env ∧ b.capacity = cap ∧ b.fpp = fpp ∧ b.countEstimate = 0 ∧
      b.hasSameParams b = .ok true ∧
      (env.libm.Spec → ∀ es : List (List U8), es.length ≤ cap.toNat → b.AllOk env es) := by
  unfold Bloom.withVersionCapacityOpt at h
  split at h
  · obtain ⟨f, hf, rfl⟩ := Res.map_ok h
    have hc := (V1.make_countOnes hf).2
    obtain ⟨hr, _, he⟩ := V1.withCapacity_ok hf
    have hcap : f.capacity = cap := by rw [he]
    have hfpp : f.fpp = fpp := by rw [he]
    refine ⟨V1.Reach.make hf, hcap, hfpp, hc, ?_, fun sp es hes => ?_⟩
    · show Res.ok (f.hasSameParams f) = _
      simp [V1.hasSameParams, hfpp, feq_self hr]
    · rw [Bloom.allOk_v1]
      apply V1.allOk_of_room sp hs (.make hf)
      rw [hc, hcap]
      simpa using hes
  · split at h
    · obtain ⟨f, hf, rfl⟩ := Res.map_ok h
      have hc := (V2.make_countOnes hf).2
      obtain ⟨hr, _, _, _, _, _, _, he⟩ := V2.make_ok hf
      have hcap : f.capacity = cap := by rw [he]
      have hfpp : f.fpp = fpp := by rw [he]
      refine ⟨V2.Reach.make hf, hcap, hfpp, hc, ?_, fun sp es hes => ?_⟩
      · show Res.ok (f.hasSameParams f) = _
        simp [V2.hasSameParams, hfpp, feq_self hr]
      · rw [Bloom.allOk_v2]
        apply V2.allOk_of_room sp hs (.make hf)
        rw [hc, hcap]
        simpa using hes
    · cases h

theorem Reach.load {env : Env} {bs : List U8} {b : Bloom}
    (h : Bloom.fromReader env (Reader.ofBytes bs) = .ok b) : b.Reach env := by
  cases b with
  | v1 f => exact V1.Reach.load (((C51_readers env bs).1 f).1 h)
  | v2 f => exact V2.Reach.load (((C51_readers env bs).2 f).1 h)

theorem write_ne_panic (f : Bloom) (d : Option ℕ) :
    (f.write ⟨[], d⟩).2 = .ok () ∨ (f.write ⟨[], d⟩).2 = .err (.ioError .other) := by
  cases d with
  | none => rw [C29_write_ok]; exact Or.inl rfl
  | some k =>
    by_cases h : (f.write ⟨[], some k⟩).2 = .ok ()
    · exact Or.inl h
    · exact Or.inr ((C29_write_fails_partial f k).2.2 h).1

end Bloom

namespace Cli

/-- The world after a file was replaced. -/
def World.written (w : World) (p : Path) (bs : List U8) : World :=
  { w with fs := fun q => if q = p then some bs else w.fs q }

theorem save_cases (w : World) (p : Path) (bf : Bloom) :
    (w.creatable p = false ∧ save w p bf = (w, .err (.ioError .other))) ∨
    (w.creatable p = true ∧ save w p bf = (w.written p (bf.write ⟨[], w.disk⟩).1.out,
      (bf.write ⟨[], w.disk⟩).2)) := by
  unfold save World.create
  cases hc : w.creatable p with
  | false => left; simp
  | true =>
    right
    refine ⟨rfl, ?_⟩
    simp only [if_true]
    congr 1
    unfold World.put World.written
    congr 1
    funext q
    by_cases hq : q = p <;> simp [hq]

theorem written_out (w : World) (bf : Bloom) :
    (bf.write ⟨[], w.disk⟩).1.out = match w.disk with
      | none => bf.file
      | some k => bf.file.take k := by
  cases w.disk with
  | none => rfl
  | some k => exact (C29_write_fails_partial bf k).1

theorem createSized_ok {env : Env} {o : Create} {cap : U64} {b : Bloom}
    (h : createSized env o cap = .ok b) : ∃ opt, OptLevel.tryFrom o.optimize = .ok opt ∧
      Bloom.withVersionCapacityOpt env o.version cap o.probability opt = .ok b := by
  unfold createSized at h
  cases ho : OptLevel.tryFrom o.optimize with
  | err e => rw [ho] at h; cases h
  | panic => rw [ho] at h; cases h
  | ok opt => rw [ho, Res.bind_ok] at h; exact ⟨opt, rfl, h⟩

theorem createFilter_ok {env : Env} {w : World} {o : Create} {jobs : ℕ} {b : Bloom}
    (h : createFilter env w o jobs = some (.ok b)) :
    ∃ cap opt, OptLevel.tryFrom o.optimize = .ok opt ∧
      Bloom.withVersionCapacityOpt env o.version cap o.probability opt = .ok b ∧
      (o.dataset = [] ∧ cap = o.capacity ∨ o.dataset ≠ [] ∧ AllRead w o.dataset ∧
        cap = BitVec.ofNat 64 (linesOf w o.dataset).length) := by
  unfold createFilter at h
  by_cases hd : o.dataset.length = 0
  · rw [if_pos hd, Option.some.injEq] at h
    obtain ⟨opt, h1, h2⟩ := createSized_ok h
    exact ⟨_, opt, h1, h2, Or.inl ⟨List.length_eq_zero_iff.1 hd, rfl⟩⟩
  · rw [if_neg hd] at h
    split at h
    · rename_i n hc
      rw [Option.some.injEq] at h
      obtain ⟨h3, rfl⟩ := countLines_iff.1 hc
      obtain ⟨opt, h1, h2⟩ := createSized_ok h
      exact ⟨_, opt, h1, h2, Or.inr ⟨fun e => hd (by rw [e]; rfl), h3, rfl⟩⟩
    · cases h
    · cases h
    · cases h

/-- Both outcomes of `create`. -/
theorem create_cases (env : Env) (w : World) (s : Schedule) (o : Create) (jobs : ℕ) :
    ((create env w s o jobs).1 = w ∧ (create env w s o jobs).2 ≠ some (.ok ())) ∨
    ∃ b bf, createGuard env w o.file = .ok () ∧ createFilter env w o jobs = some (.ok b) ∧
      parallelInsert env w s b o.dataset jobs = some (.ok bf) ∧ w.creatable o.file = true ∧
      create env w s o jobs = (w.written o.file (bf.write ⟨[], w.disk⟩).1.out,
        some (bf.write ⟨[], w.disk⟩).2) := by
  unfold create
  cases hg : createGuard env w o.file with
  | err e => left; simp
  | panic => left; simp
  | ok u =>
    rcases hf : createFilter env w o jobs with _ | b | e | _
    · left; simp
    rotate_left
    · left; simp
    · left; simp
    · simp only
      cases hp : parallelInsert env w s b o.dataset jobs with
      | none => left; simp
      | some r =>
        cases r with
        | err e => left; simp
        | panic => left; simp
        | ok bf =>
          simp only
          rcases save_cases w o.file bf with ⟨hc, hs⟩ | ⟨hc, hs⟩
          · rw [hs]; left; simp
          · rw [hs]
            exact Or.inr ⟨b, bf, by simp, by simp, hp, hc, rfl⟩

/-- The filter `insert` starts with: loaded, then filled with the lines of stdin if requested. -/
theorem insert_cases (env : Env) (w : World) (s : Schedule) (stdin : Stdin) (o : Insert)
    (jobs : ℕ) :
    ((insert env w s stdin o jobs).1 = w ∧ (insert env w s stdin o jobs).2 ≠ some (.ok ())) ∨
    ∃ bs b b' bf, w.open o.file = .ok (Reader.ofBytes bs) ∧ Bloom.fromReader env (Reader.ofBytes bs) = .ok b ∧
      (if o.stdin || o.inputs.isEmpty then insertLines env b stdin.lines else .ok b) = .ok b' ∧
      parallelInsert env w s b' o.inputs jobs = some (.ok bf) ∧ w.creatable o.file = true ∧
      insert env w s stdin o jobs = (w.written o.file (bf.write ⟨[], w.disk⟩).1.out,
        some (bf.write ⟨[], w.disk⟩).2) := by
  unfold insert
  cases ho : w.open o.file with
  | err e => left; simp
  | panic => left; simp
  | ok r =>
    cases hr : Bloom.fromReader env r with
    | err e => left; simp [hr]
    | panic => left; simp [hr]
    | ok b =>
      obtain ⟨bs, rfl, _⟩ := open_loaded ho hr
      simp only [Res.bind_ok, hr]
      cases hi : (if o.stdin || o.inputs.isEmpty then insertLines env b stdin.lines
        else .ok b) with
      | err e => left; simp
      | panic => left; simp
      | ok b' =>
        simp only
        cases hp : parallelInsert env w s b' o.inputs jobs with
        | none => left; simp
        | some r =>
          cases r with
          | err e => left; simp
          | panic => left; simp
          | ok bf =>
            simp only
            rcases save_cases w o.file bf with ⟨hc, hs⟩ | ⟨hc, hs⟩
            · rw [hs]; left; simp
            · rw [hs]
              exact Or.inr ⟨bs, b, b', bf, rfl, hr, hi, hp, hc, rfl⟩

theorem World.written_self (w : World) (p : Path) :
    w = { w with fs := fun q => if q = p then w.fs p else w.fs q } := by
  cases w
  simp only [World.mk.injEq, and_true]
  funext q
  split
  · rename_i h; rw [h]
  · rfl

theorem insert_of {env : Env} {w : World} {s : Schedule} {stdin : Stdin} {o : Insert}
    {jobs : ℕ} {bs : List U8} {b b' bf : Bloom} (h1 : w.open o.file = .ok (Reader.ofBytes bs))
    (h2 : Bloom.fromReader env (Reader.ofBytes bs) = .ok b)
    (h3 : (if o.stdin || o.inputs.isEmpty then insertLines env b stdin.lines else .ok b) = .ok b')
    (h4 : parallelInsert env w s b' o.inputs jobs = some (.ok bf)) (hc : w.creatable o.file = true) :
    insert env w s stdin o jobs = (w.written o.file (bf.write ⟨[], w.disk⟩).1.out,
        some (bf.write ⟨[], w.disk⟩).2) := by
  unfold insert
  simp only [h1, Res.bind_ok, h2, h3, h4]
  rcases save_cases w o.file bf with ⟨hc', _⟩ | ⟨_, hs⟩
  · rw [hc] at hc'; cases hc'
  · rw [hs]

theorem runWorkers_disk (env : Env) (w : World) (d : Option ℕ) (s : Schedule) (ts : List Worker) :
    runWorkers env { w with disk := d } s ts = runWorkers env w s ts := by
  have hstep : Worker.step env { w with disk := d } = Worker.step env w := by
    funext t; rfl
  induction s generalizing ts with
  | nil => rfl
  | cons i s ih => rw [runWorkers, runWorkers, ih, hstep]

theorem parallelInsert_disk (env : Env) (w : World) (d : Option ℕ) (s : Schedule) (bf : Bloom)
    (files : List Path) (jobs : ℕ) :
    parallelInsert env { w with disk := d } s bf files jobs
      = parallelInsert env w s bf files jobs := by
  unfold parallelInsert
  simp only [runWorkers_disk]
  rfl

/-! ### Checking -/

theorem checkStdin_ok {env : Env} {bf : Bloom} {o : Check} {ls : List (Res (List U8))}
    (h : (checkStdin env bf o ls).2 = .ok ()) : ∃ es, ls = es.map Res.ok ∧
      (∀ l ∈ es, ∃ b, bf.containsBytes env l = .ok b) ∧
      (checkStdin env bf o ls).1 = printed env bf o es := by
  induction ls with
  | nil => exact ⟨[], rfl, by simp, rfl⟩
  | cons l ls ih =>
    cases l with
    | err e => cases h
    | panic => cases h
    | ok line =>
      rw [checkStdin] at h ⊢
      cases hc : bf.containsBytes env line with
      | err e => rw [hc] at h; cases h
      | panic => rw [hc] at h; cases h
      | ok b =>
        rw [hc] at h
        simp only at h ⊢
        obtain ⟨es, rfl, h2, h3⟩ := ih h
        refine ⟨line :: es, rfl, ?_, ?_⟩
        · intro x hx
          rcases List.mem_cons.1 hx with rfl | hx
          · exact ⟨b, hc⟩
          · exact h2 x hx
        · rw [h3]; simp only [printed, List.flatMap_cons, hc]

theorem checkStdin_of_ok {env : Env} {bf : Bloom} {o : Check} {es : List (List U8)}
    (h : ∀ l ∈ es, ∃ b, bf.containsBytes env l = .ok b) :
    checkStdin env bf o (es.map Res.ok) = (printed env bf o es, .ok ()) := by
  induction es with
  | nil => rfl
  | cons l es ih =>
    obtain ⟨b, hb⟩ := h l (by simp)
    rw [List.map_cons, checkStdin, hb]
    simp only
    rw [ih (fun x hx => h x (by simp [hx]))]
    simp only [printed, List.flatMap_cons, hb]

theorem entries_append (a b : List (Res (List U8))) : entries (a ++ b) = entries a ++ entries b := by
  simp [entries]

theorem entries_ok (es : List (List U8)) : entries (es.map Res.ok) = es := by
  induction es with
  | nil => rfl
  | cons e es ih => simp [entries]

theorem printed_cons (env : Env) (bf : Bloom) (o : Check) (l : List U8) (es : List (List U8)) :
    printed env bf o (l :: es) = (match bf.containsBytes env l with
      | .ok b => checkPrint o l b
      | _ => []) ++ printed env bf o es := rfl

theorem checkStdin_sublist (env : Env) (bf : Bloom) (o : Check) (ls : List (Res (List U8))) :
    ((checkStdin env bf o ls).1).Sublist (printed env bf o (entries ls)) := by
  induction ls with
  | nil => exact List.Sublist.refl _
  | cons l ls ih =>
    cases l with
    | err e => exact List.nil_sublist _
    | panic => exact List.nil_sublist _
    | ok line =>
      show List.Sublist _ (printed env bf o (line :: entries ls))
      rw [checkStdin, printed_cons]
      cases bf.containsBytes env line with
      | err e => exact List.nil_sublist _
      | panic => exact List.nil_sublist _
      | ok b => exact (List.Sublist.refl _).append ih

theorem restLines_sublist (env : Env) (bf : Bloom) (o : Check) (ls : List (Res (List U8))) :
    ((restLines env bf o ls).1).Sublist (printed env bf o (entries ls)) := by
  induction ls with
  | nil => exact List.Sublist.refl _
  | cons l ls ih =>
    cases l with
    | err e => exact List.nil_sublist _
    | panic => exact List.nil_sublist _
    | ok line =>
      show List.Sublist _ (printed env bf o (line :: entries ls))
      rw [restLines, printed_cons]
      cases bf.containsBytes env line with
      | err e => exact List.nil_sublist _
      | panic => exact List.nil_sublist _
      | ok b => exact (List.Sublist.refl _).append ih

theorem restFiles_sublist (env : Env) (w : World) (bf : Bloom) (o : Check) (fs : List Path) :
    ((restFiles env w bf o fs).1).Sublist (printed env bf o (entries (linesOf w fs))) := by
  induction fs with
  | nil => exact List.Sublist.refl _
  | cons f fs ih =>
    rw [restFiles]
    cases ho : w.open f with
    | err e => exact List.nil_sublist _
    | panic => exact List.nil_sublist _
    | ok bs =>
      rw [linesOf_cons ho, entries_append, printed_append]
      have h1 := restLines_sublist env bf o (fileLines bs)
      simp only [seqOut]
      split
      · exact h1.append ih
      · exact h1.trans (List.sublist_append_left _ _)

theorem threads_ok {env : Env} {w : World} {bf : Bloom} {o : Check} {bs : List (List Path)}
    (h : ∀ b ∈ bs, (restFiles env w bf o b).2 = .ok ()) :
    AllOpen w bs.flatten ∧ ∃ es, linesOf w bs.flatten = es.map Res.ok ∧
      (bs.flatMap fun b => (restFiles env w bf o b).1) = printed env bf o es := by
  induction bs with
  | nil => exact ⟨by simp [AllOpen], [], rfl, rfl⟩
  | cons b bs ih =>
    obtain ⟨h1, es, h2, _, h3⟩ := restFiles_ok (h b (by simp))
    obtain ⟨g1, es', g2, g3⟩ := ih (fun x hx => h x (by simp [hx]))
    refine ⟨?_, es ++ es', ?_, ?_⟩
    · intro f hf
      rw [List.flatten_cons, List.mem_append] at hf
      rcases hf with hf | hf
      · exact h1 f hf
      · exact g1 f hf
    · rw [List.flatten_cons, linesOf_append, h2, g2, List.map_append]
    · rw [List.flatMap_cons, h3, g3, printed_append]

theorem threads_sublist (env : Env) (w : World) (bf : Bloom) (o : Check) (bs : List (List Path)) :
    (bs.flatMap fun b => (restFiles env w bf o b).1).Sublist
      (printed env bf o (entries (linesOf w bs.flatten))) := by
  induction bs with
  | nil => exact List.Sublist.refl _
  | cons b bs ih =>
    rw [List.flatMap_cons, List.flatten_cons, linesOf_append, entries_append, printed_append]
    exact (restFiles_sublist env w bf o b).append ih

theorem flatMap_rest (env : Env) (w : World) (bf : Bloom) (o : Check) (bs : List (List Path)) :
    ((bs.map fun b => Checker.running [] b).flatMap fun t => (t.rest env w bf o).1)
      = bs.flatMap fun b => (restFiles env w bf o b).1 := by
  rw [List.flatMap_map]; rfl

theorem map_rest (env : Env) (w : World) (bf : Bloom) (o : Check) (bs : List (List Path)) :
    ((bs.map fun b => Checker.running [] b).map fun t => (t.rest env w bf o).2)
      = bs.map fun b => (restFiles env w bf o b).2 := by
  rw [List.map_map]; rfl

/-- What `check` prints for input files. -/
theorem checkFiles_ok {env : Env} {w : World} {s : Schedule} {bf : Bloom} {o : Check} {jobs : ℕ}
    {out : List (List U8)} (h : checkFiles env w s bf o jobs = (out, some (.ok ()))) :
    ∃ es, Reads w o.inputs es ∧ out.Perm (printed env bf o es) := by
  unfold checkFiles at h
  split at h
  · rename_i he
    have : o.inputs = [] := by simpa using he
    cases h
    exact ⟨[], ⟨by simp [AllOpen, this], by rw [this]; rfl⟩, List.Perm.refl _⟩
  · cases hb : batches o.inputs jobs with
    | err e => rw [hb] at h; cases h
    | panic => rw [hb] at h; cases h
    | ok bs =>
      rw [hb] at h
      simp only [Prod.mk.injEq] at h
      obtain ⟨h1, h2⟩ := h
      have hfl := (batches_spec hb).2.1
      obtain ⟨p1, p2⟩ := runCheckers_perm env w bf o s (bs.map fun b => Checker.running [] b)
      have hdone := joinCheckers_ok h2
      rw [flatMap_rest, h1] at p1
      rw [map_rest] at p2
      have hrest : ((runCheckers env w bf o s (bs.map fun b => Checker.running [] b)).1.flatMap
          fun t => (t.rest env w bf o).1) = [] := by
        rw [List.flatMap_eq_nil_iff]
        intro t ht
        rw [hdone t ht]; rfl
      rw [hrest, List.append_nil] at p1
      have hall : ∀ b ∈ bs, (restFiles env w bf o b).2 = .ok () := by
        intro b hb
        have : (restFiles env w bf o b).2 ∈ bs.map fun b => (restFiles env w bf o b).2 :=
          List.mem_map_of_mem hb
        rw [← p2] at this
        obtain ⟨t, ht, he⟩ := List.mem_map.1 this
        rw [← he, hdone t ht]; rfl
      obtain ⟨g1, es, g2, g3⟩ := threads_ok hall
      rw [hfl] at g1 g2
      exact ⟨es, ⟨g1, g2⟩, by rw [← g3]; exact p1.symm⟩

theorem checkFiles_subperm (env : Env) (w : World) (s : Schedule) (bf : Bloom) (o : Check)
    (jobs : ℕ) : (checkFiles env w s bf o jobs).1.Subperm
      (printed env bf o (entries (linesOf w o.inputs))) := by
  unfold checkFiles
  split
  · exact List.nil_subperm
  · cases hb : batches o.inputs jobs with
    | err e => exact List.nil_subperm
    | panic => exact List.nil_subperm
    | ok bs =>
      simp only
      have hfl := (batches_spec hb).2.1
      obtain ⟨p1, _⟩ := runCheckers_perm env w bf o s (bs.map fun b => Checker.running [] b)
      rw [flatMap_rest] at p1
      have h2 := (threads_sublist env w bf o bs).subperm
      rw [hfl] at h2
      refine List.Subperm.trans ?_ h2
      exact ((List.sublist_append_left _ _).subperm).trans p1.symm.subperm

theorem checkFiles_fair {env : Env} {w : World} {bf : Bloom} {o : Check} {jobs : ℕ}
    (hj : 0 < jobs) {es : List (List U8)} (hr : Reads w o.inputs es)
    (hc : ∀ l ∈ es, ∃ b, bf.containsBytes env l = .ok b) :
    ∃ N, ∀ s : Schedule, (∀ i < o.inputs.length, N ≤ s.count i) →
      (checkFiles env w s bf o jobs).2 = some (.ok ()) := by
  unfold checkFiles
  by_cases he : o.inputs.isEmpty = true
  · exact ⟨0, fun s _ => by rw [if_pos he]⟩
  · obtain ⟨bs, hb⟩ := batches_ok o.inputs hj
    obtain ⟨_, hfl, hne, _⟩ := batches_spec hb
    have hlen := length_le_flatten hne
    rw [hfl] at hlen
    obtain ⟨N, hN⟩ := runCheckers_fair env w bf o bs
    refine ⟨N, fun s hs => ?_⟩
    obtain ⟨r, hr'⟩ := hN s (fun i hi => hs i (by omega))
    rw [if_neg he, hb]
    simp only
    rw [hr']
    congr 1
    refine joinCheckers_of_rest (env := env) (w := w) (bf := bf) (o := o) ?_ hr'
    intro t ht
    have hm : (t.rest env w bf o).2 ∈ bs.map fun b => (restFiles env w bf o b).2 := by
      rw [← map_rest, ← (runCheckers_perm env w bf o s _).2]
      exact List.mem_map_of_mem ht
    obtain ⟨b, hb', he'⟩ := List.mem_map.1 hm
    rw [← he']
    obtain ⟨x, y, rfl⟩ := List.append_of_mem hb'
    have h1 := hr.1
    have h2 := hr.2
    rw [← hfl] at h1 h2
    simp only [List.flatten_append, List.flatten_cons, linesOf_append] at h2
    obtain ⟨ea, eb, rfl, _, h4⟩ := List.map_eq_append_iff.1 h2.symm
    obtain ⟨ec, ed, rfl, h5, _⟩ := List.map_eq_append_iff.1 h4
    rw [restFiles_of_ok (fun f hf => h1 f (by simp [hf])) h5.symm
      (fun l hl => hc l (by simp [hl]))]

/-- `printed` in one formula per option. -/
theorem printed_eq (env : Env) (bf : Bloom) (o : Check) (es : List (List U8)) :
    printed env bf o es =
      if o.verify then (es.filter fun l => decide (bf.containsBytes env l = .ok false)).map (· ++ nok)
      else if o.silent then []
      else es.filter fun l => decide (bf.containsBytes env l = .ok true) := by
  induction es with
  | nil => simp [printed]
  | cons l es ih =>
    rw [printed_cons, ih]
    cases hb : bf.containsBytes env l with
    | ok b => cases hv : o.verify <;> cases hsi : o.silent <;> cases b <;> simp [checkPrint, hb, hv, hsi]
    | err e => simp [hb]
    | panic => simp [hb]

end Cli
end Poppy
