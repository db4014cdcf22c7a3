import Verif.Props.RoomLeft
import Verif.Lemmas.PyUse
import Verif.Props.CliOrder
import Verif.Props.PyPrograms

/-! # Commands of the tool as Python programs (C116) -/

namespace Poppy

open Spec Cli Py

/-- `create` without data files, for a file that does not exist or holds a filter, does what the
Python program does that makes a filter with the same parameters and saves it. -/
theorem C116_create {env : Env} {w : World} {o : Create} (hd : o.dataset = [])
    (hg : w.fs o.file = none ∨ ∃ f, Py.load env w o.file = .ok f) (s : Schedule) (jobs : ℕ) :
    ∃ r, create env w s o jobs = ((Store.run env ⟨[], w⟩
        [.withParams o.version o.capacity o.probability o.optimize, .save 0 o.file]).world, some r) ∧
      (r = .ok () ↔ Store.Through env ⟨[], w⟩
        [.withParams o.version o.capacity o.probability o.optimize, .save 0 o.file]) := by
  have hgd := createGuard_ok hg
  have hcf : createFilter env w o jobs = some (createSized env o o.capacity) := by
    unfold createFilter
    rw [if_pos (by rw [hd]; rfl)]
  have hp : ∀ b, parallelInsert env w s b o.dataset jobs = some (.ok b) := by
    intro b
    rw [hd]; rfl
  unfold create
  rw [hgd, hcf]
  simp only [Store.run, Store.Through]
  show ∃ r, _ ∧ (_ ↔ (∃ f, Py.withParams env o.version o.capacity o.probability o.optimize = .ok f) ∧ _)
  cases hb : createSized env o o.capacity with
  | ok b =>
    simp only [hp]
    have hpy := withParams_ok.2 hb
    rw [call_params hpy]
    obtain ⟨e1, e2⟩ := run_insertAndSave (env := env) b w [] o.file
    refine ⟨(Cli.save w o.file b).2, ?_, ?_⟩
    · exact congrArg (·, _) e1.symm
    · exact ⟨fun h => ⟨⟨b, hpy⟩, e2.2 ⟨trivial, h⟩⟩, fun h => (e2.1 h.2).2⟩
  | err e =>
    have hpy : ∀ f, Py.withParams env o.version o.capacity o.probability o.optimize ≠ .ok f :=
      fun f hf => by rw [withParams_ok, hb] at hf; cases hf
    have hcall : Store.call env ⟨[], w⟩ (.withParams o.version o.capacity o.probability o.optimize)
        = ⟨[], w⟩ := by
      simp only [Store.call]
      unfold Store.alloc
      split
      · rename_i f hf; exact absurd hf (hpy f)
      · rfl
    rw [hcall]
    exact ⟨.err e, rfl, fun h => (by cases h), fun h => absurd h.1.choose_spec (hpy _)⟩
  | panic =>
    have hpy : ∀ f, Py.withParams env o.version o.capacity o.probability o.optimize ≠ .ok f :=
      fun f hf => by rw [withParams_ok, hb] at hf; cases hf
    have hcall : Store.call env ⟨[], w⟩ (.withParams o.version o.capacity o.probability o.optimize)
        = ⟨[], w⟩ := by
      simp only [Store.call]
      unfold Store.alloc
      split
      · rename_i f hf; exact absurd hf (hpy f)
      · rfl
    rw [hcall]
    exact ⟨.panic, rfl, fun h => (by cases h), fun h => absurd h.1.choose_spec (hpy _)⟩

/-- `insert` with one job succeeds exactly if its lines can be read and the Python program runs
through that loads the file, inserts the lines and saves the filter.  Then both store the same. -/
theorem C116_insert {env : Env} {w w' : World} {s : Schedule} {stdin : Stdin} {o : Cli.Insert}
    {r : Res Unit} (h : Cli.insert env w s stdin o 1 = (w', some r)) :
    (r = .ok () ↔ AllOpen w o.inputs ∧ ∃ es, inputLines w stdin o.stdin o.inputs = es.map Res.ok ∧
      Store.Through env ⟨[], w⟩ (.load o.file :: insertAndSave es o.file)) ∧
    (r = .ok () → ∀ es, inputLines w stdin o.stdin o.inputs = es.map Res.ok →
      w' = (Store.run env ⟨[], w⟩ (.load o.file :: insertAndSave es o.file)).world) := by
  have hinj : Function.Injective (Res.ok (α := List U8)) := fun a b h => Res.ok.inj h
  -- what success means
  have key : (∃ b es, Py.load env w o.file = .ok b ∧ AllOpen w o.inputs ∧
      inputLines w stdin o.stdin o.inputs = es.map Res.ok ∧ b.AllOk env es ∧
      (w', r) = Cli.save w o.file (b.inserts env es)) ∨ r ≠ .ok () ∧
      ¬ ∃ b es, Py.load env w o.file = .ok b ∧ AllOpen w o.inputs ∧
      inputLines w stdin o.stdin o.inputs = es.map Res.ok ∧ b.AllOk env es := by
    unfold Cli.insert at h
    unfold Py.load
    cases ho : w.open o.file with
    | err e => rw [ho] at h; simp at h; right; simp [← h.2]
    | panic => rw [ho] at h; simp at h; right; simp [← h.2]
    | ok rd =>
      simp only [ofRes_ok]
      cases hr : Bloom.fromReader env rd with
      | err e => rw [ho] at h; simp [hr] at h; right; simp [← h.2]
      | panic => rw [ho] at h; simp [hr] at h; right; simp [← h.2]
      | ok b =>
        rw [ho] at h
        simp only [Res.bind_ok, hr] at h
        have hl : ∀ ls g, insertLines env b ls = .ok g ↔
            ∃ es, ls = es.map Res.ok ∧ b.AllOk env es ∧ g = b.inserts env es :=
          fun ls g => ⟨insertLines_ok, by
            rintro ⟨es, rfl, h2, rfl⟩
            exact insertLines_of_allOk h2⟩
        have hsplit : ∀ es : List (List U8), inputLines w stdin o.stdin o.inputs = es.map Res.ok ↔
            ∃ e1 e2 : List (List U8), es = e1 ++ e2 ∧
              (if o.stdin || o.inputs.isEmpty then stdin.lines else []) = e1.map Res.ok ∧
              linesOf w o.inputs = e2.map Res.ok := by
          intro es
          unfold inputLines
          constructor
          · intro hh
            obtain ⟨a, c, h1, h2, h3⟩ := List.append_eq_map_iff.1 hh
            exact ⟨a, c, h1, h2.symm, h3.symm⟩
          · rintro ⟨a, c, rfl, h2, h3⟩
            rw [h2, h3, List.map_append]
        have hfirst : ∀ g, (if o.stdin || o.inputs.isEmpty then insertLines env b stdin.lines
            else .ok b) = .ok g ↔ ∃ e1 : List (List U8),
              (if o.stdin || o.inputs.isEmpty then stdin.lines else []) = e1.map Res.ok ∧
              b.AllOk env e1 ∧ g = b.inserts env e1 := by
          intro g
          split
          · exact hl _ _
          · constructor
            · intro hh
              cases hh
              exact ⟨[], rfl, trivial, rfl⟩
            · rintro ⟨e1, h1, _, rfl⟩
              have : e1 = [] := by simpa using h1
              subst this
              rfl
        cases hx : (if o.stdin || o.inputs.isEmpty then insertLines env b stdin.lines
            else .ok b) with
        | ok b1 =>
          rw [hx] at h
          simp only at h
          obtain ⟨e1, a1, a2, a3⟩ := (hfirst b1).1 hx
          cases hp : parallelInsert env w s b1 o.inputs 1 with
          | none => rw [hp] at h; simp at h
          | some x =>
            rw [hp] at h
            have hxx := parallelInsert_some hp
            cases x with
            | ok g =>
              obtain ⟨e2, ⟨c0, c1⟩, c2, c3⟩ := insertFiles_one.1 hxx.symm
              left
              refine ⟨b, e1 ++ e2, rfl, c0, (hsplit _).2 ⟨e1, e2, rfl, a1, c1⟩, ?_, ?_⟩
              · rw [a3] at c2
                exact (Bloom.allOk_append ..).2 ⟨a2, c2⟩
              · rw [Bloom.inserts_append, ← a3, ← c3]
                simp only [Prod.mk.injEq, Option.some.injEq] at h
                exact Prod.ext h.1.symm h.2.symm
            | err e =>
              right
              refine ⟨by simp at h; simp [← h.2], ?_⟩
              rintro ⟨b', es, hb', c0, hes, hok⟩
              cases hb'
              obtain ⟨f1, f2, rfl, i1, i2⟩ := (hsplit _).1 hes
              obtain rfl : f1 = e1 := List.map_injective_iff.2 hinj (i1.symm.trans a1)
              have hok := ((Bloom.allOk_append ..).1 hok).2
              rw [← a3] at hok
              rw [insertFiles_one.2 ⟨f2, ⟨c0, i2⟩, hok, rfl⟩] at hxx
              cases hxx
            | panic =>
              right
              refine ⟨by simp at h; simp [← h.2], ?_⟩
              rintro ⟨b', es, hb', c0, hes, hok⟩
              cases hb'
              obtain ⟨f1, f2, rfl, i1, i2⟩ := (hsplit _).1 hes
              obtain rfl : f1 = e1 := List.map_injective_iff.2 hinj (i1.symm.trans a1)
              have hok := ((Bloom.allOk_append ..).1 hok).2
              rw [← a3] at hok
              rw [insertFiles_one.2 ⟨f2, ⟨c0, i2⟩, hok, rfl⟩] at hxx
              cases hxx
        | err e =>
          rw [hx] at h
          right
          refine ⟨by simp at h; simp [← h.2], ?_⟩
          rintro ⟨b', es, hb', c0, hes, hok⟩
          cases hb'
          obtain ⟨f1, f2, rfl, i1, i2⟩ := (hsplit _).1 hes
          rw [(hfirst _).2 ⟨f1, i1, ((Bloom.allOk_append ..).1 hok).1, rfl⟩] at hx
          cases hx
        | panic =>
          rw [hx] at h
          right
          refine ⟨by simp at h; simp [← h.2], ?_⟩
          rintro ⟨b', es, hb', c0, hes, hok⟩
          cases hb'
          obtain ⟨f1, f2, rfl, i1, i2⟩ := (hsplit _).1 hes
          rw [(hfirst _).2 ⟨f1, i1, ((Bloom.allOk_append ..).1 hok).1, rfl⟩] at hx
          cases hx
  rcases key with ⟨b, es, hb, h0, hes, hok, hsv⟩ | ⟨hn, hno⟩
  · have hr := congrArg Prod.snd hsv
    have hw := congrArg Prod.fst hsv
    simp only at hr hw
    obtain ⟨e1, e2⟩ := run_insertAndSave (env := env) b w es o.file
    have uniq : ∀ es', inputLines w stdin o.stdin o.inputs = es'.map Res.ok → es' = es :=
      fun es' he' => List.map_injective_iff.2 hinj (he'.symm.trans hes)
    refine ⟨⟨fun hh => ⟨h0, es, hes, ⟨b, hb⟩, ?_⟩, ?_⟩, fun _ es' he' => ?_⟩
    · rw [call_load hb]
      exact e2.2 ⟨hok, by rw [← hr, hh]⟩
    · rintro ⟨_, es', he', _, ht⟩
      rw [uniq es' he', call_load hb] at ht
      rw [hr]
      exact (e2.1 ht).2
    · rw [uniq es' he', hw, ← e1, Store.run, call_load hb]
  · refine ⟨⟨fun hh => absurd hh hn, ?_⟩, fun hh => absurd hh hn⟩
    rintro ⟨h0, es, hes, ⟨b, hb⟩, ht⟩
    rw [call_load hb] at ht
    exact absurd ⟨b, es, hb, h0, hes, ((run_insertAndSave b w es o.file).2.1 ht).1⟩ hno

/-- `create` with data files and one job succeeds exactly if their lines can be read and the Python
program runs through that makes a filter for as many entries as there are lines, inserts the lines
and saves the filter.  Then both store the same. -/
theorem C116_dataset {env : Env} {w w' : World} {o : Create} (hd : o.dataset ≠ [])
    (hg : w.fs o.file = none ∨ ∃ f, Py.load env w o.file = .ok f) {s : Schedule} {r : Res Unit}
    (h : create env w s o 1 = (w', some r)) :
    (r = .ok () ↔ AllRead w o.dataset ∧ ∃ es, linesOf w o.dataset = es.map Res.ok ∧
      Store.Through env ⟨[], w⟩ (.withParams o.version (BitVec.ofNat 64 es.length) o.probability
        o.optimize :: insertAndSave es o.file)) ∧
    (r = .ok () → ∀ es, linesOf w o.dataset = es.map Res.ok →
      w' = (Store.run env ⟨[], w⟩ (.withParams o.version (BitVec.ofNat 64 es.length) o.probability
        o.optimize :: insertAndSave es o.file)).world) := by
  have hinj : Function.Injective (Res.ok (α := List U8)) := fun a b h => Res.ok.inj h
  have hgd := createGuard_ok hg
  have hd0 : ¬ o.dataset.length = 0 := fun h => hd (List.length_eq_zero_iff.1 h)
  have hcf : ∀ b, createFilter env w o 1 = some (.ok b) ↔ AllRead w o.dataset ∧
      createSized env o (BitVec.ofNat 64 (linesOf w o.dataset).length) = .ok b := by
    intro b
    constructor
    · intro hh
      have hr : AllRead w o.dataset := by
        obtain ⟨_, _, _, _, h⟩ := createFilter_ok hh
        rcases h with h | h
        · exact absurd h.1 hd
        · exact h.2.1
      unfold createFilter at hh
      rw [if_neg hd0, countLines_iff.2 ⟨hr, rfl⟩] at hh
      exact ⟨hr, Option.some.inj hh⟩
    · rintro ⟨hr, hb⟩
      unfold createFilter
      rw [if_neg hd0, countLines_iff.2 ⟨hr, rfl⟩, ← hb]
  have key : (∃ b es, AllRead w o.dataset ∧ linesOf w o.dataset = es.map Res.ok ∧
      createSized env o (BitVec.ofNat 64 es.length) = .ok b ∧ b.AllOk env es ∧
      (w', r) = Cli.save w o.file (b.inserts env es)) ∨ r ≠ .ok () ∧
      ¬ ∃ b es, AllRead w o.dataset ∧ linesOf w o.dataset = es.map Res.ok ∧
      createSized env o (BitVec.ofNat 64 es.length) = .ok b ∧ b.AllOk env es := by
    have hlen : ∀ {es : List (List U8)}, linesOf w o.dataset = es.map Res.ok →
        (linesOf w o.dataset).length = es.length := fun h => by rw [h, List.length_map]
    unfold create at h
    rw [hgd] at h
    simp only at h
    have hfail : (∀ b, createFilter env w o 1 ≠ some (.ok b)) → r ≠ .ok () →
        r ≠ .ok () ∧ ¬ ∃ b es, AllRead w o.dataset ∧ linesOf w o.dataset = es.map Res.ok ∧
          createSized env o (BitVec.ofNat 64 es.length) = .ok b ∧ b.AllOk env es := by
      intro hn hr
      refine ⟨hr, ?_⟩
      rintro ⟨b, es, h1, h2, h3, _⟩
      exact hn b ((hcf b).2 ⟨h1, by rw [hlen h2]; exact h3⟩)
    rcases hx : createFilter env w o 1 with _ | b | e | _
    · rw [hx] at h; simp at h
    · rw [hx] at h
      simp only at h
      obtain ⟨hr, hb⟩ := (hcf b).1 hx
      have ho : AllOpen w o.dataset := fun f hf => let ⟨bs, hbs⟩ := hr f hf; ⟨_, hbs⟩
      cases hp : parallelInsert env w s b o.dataset 1 with
      | none => rw [hp] at h; simp at h
      | some x =>
        rw [hp] at h
        have hxx := parallelInsert_some hp
        have hno : (∀ g, x ≠ .ok g) → ¬ ∃ b es, AllRead w o.dataset ∧
            linesOf w o.dataset = es.map Res.ok ∧
            createSized env o (BitVec.ofNat 64 es.length) = .ok b ∧ b.AllOk env es := by
          rintro hn ⟨b', es, _, h2, h3, h4⟩
          rw [← hlen h2, hb] at h3
          cases h3
          exact hn _ (hxx.trans (insertFiles_one.2 ⟨es, ⟨ho, h2⟩, h4, rfl⟩))
        cases x with
        | ok g =>
          obtain ⟨es, ⟨_, c1⟩, c2, c3⟩ := insertFiles_one.1 hxx.symm
          refine Or.inl ⟨b, es, hr, c1, by rw [← hlen c1]; exact hb, c2, ?_⟩
          rw [← c3]
          simp only [Prod.mk.injEq, Option.some.injEq] at h
          exact Prod.ext h.1.symm h.2.symm
        | err e => exact Or.inr ⟨by simp at h; simp [← h.2], hno (by simp)⟩
        | panic => exact Or.inr ⟨by simp at h; simp [← h.2], hno (by simp)⟩
    · rw [hx] at h
      exact Or.inr (hfail (fun b hb => by rw [hx] at hb; cases hb) (by simp at h; simp [← h.2]))
    · rw [hx] at h
      exact Or.inr (hfail (fun b hb => by rw [hx] at hb; cases hb) (by simp at h; simp [← h.2]))
  rcases key with ⟨b, es, h0, hes, hb, hok, hsv⟩ | ⟨hn, hno⟩
  · have hr := congrArg Prod.snd hsv
    have hw := congrArg Prod.fst hsv
    simp only at hr hw
    have hpy := withParams_ok.2 hb
    obtain ⟨e1, e2⟩ := run_insertAndSave (env := env) b w es o.file
    have uniq : ∀ es', linesOf w o.dataset = es'.map Res.ok → es' = es :=
      fun es' he' => List.map_injective_iff.2 hinj (he'.symm.trans hes)
    refine ⟨⟨fun hh => ⟨h0, es, hes, ⟨b, hpy⟩, ?_⟩, ?_⟩, fun _ es' he' => ?_⟩
    · rw [call_params hpy]
      exact e2.2 ⟨hok, by rw [← hr, hh]⟩
    · rintro ⟨_, es', he', _, ht⟩
      rw [uniq es' he', call_params hpy] at ht
      rw [hr]
      exact (e2.1 ht).2
    · rw [uniq es' he', hw, ← e1, Store.run, call_params hpy]
  · refine ⟨⟨fun hh => absurd hh hn, ?_⟩, fun hh => absurd hh hn⟩
    rintro ⟨h0, es, hes, ⟨b, hb⟩, ht⟩
    rw [call_params hb] at ht
    exact absurd ⟨b, es, h0, hes, withParams_ok.1 hb,
      ((run_insertAndSave b w es o.file).2.1 ht).1⟩ hno

/-- A successful `check` with one job prints the lines for which `contains_bytes` returns `True`,
called on the filter that `load` returns, in the order of the lines. -/
theorem C116_check {env : Env} {w : World} {s : Schedule} {stdin : Stdin} {o : Check}
    {out : List (List U8)} (h : check env w s stdin o 1 = (out, some (.ok ())))
    (hv : o.verify = false) (hq : o.silent = false) :
    ∃ (f : Bloom) (es : List (List U8)), Py.load env w o.file = .ok f ∧
      inputLines w stdin o.stdin o.inputs = es.map Res.ok ∧
      out = es.filter fun l => decide (Py.containsBytes env f l = .ok true) := by
  obtain ⟨bs, f, es, h1, h2, _, h3, _⟩ := C59_printed h
  obtain ⟨bs', f', _, h1', h2', _, _, h4⟩ := C59_order h
  rw [h1] at h1'
  obtain rfl : bs = bs' := by
    have := congrArg Reader.data (Res.ok.inj h1')
    simpa [Reader.ofBytes] using this
  obtain rfl : f = f' := Res.ok.inj (h2.symm.trans h2')
  refine ⟨f, es, ?_, h3, ?_⟩
  · unfold Py.load
    rw [h1]
    exact ofRes_ok.2 h2
  · rw [h4 rfl, h3, hv, hq]
    have he : Cli.entries (es.map Res.ok) = es := by
      unfold Cli.entries
      rw [List.filterMap_map]
      exact List.filterMap_some
    rw [he]
    unfold toPrint
    simp only [Bool.false_eq_true, if_false]
    exact List.filter_congr fun l _ => by simp [Py.containsBytes, ofRes_ok]

-- a new file
example : (⟨1, 100, Sample.p001, 0, "out", []⟩ : Create).dataset = [] ∧ Sample.world.fs "out" = none ∧
    (create Sample.env Sample.world [] ⟨1, 100, Sample.p001, 0, "out", []⟩ 2).2 = some (.ok ()) :=
  ⟨rfl, by decide +kernel, by decide +kernel⟩

-- a line from stdin, and two from files
example : (Cli.insert Sample.env Sample.used [0, 0, 0, 0, 0, 0, 0, 0] ⟨[97#8], false⟩
    ⟨true, "out", ["x", "y"]⟩ 1).2 = some (.ok ()) := by decide +kernel

/-- A filter with one entry in the file `out`. -/
def Sample.usedOnce : World :=
  { twoFiles with fs := fun p =>
      if p = "out" then some ((Bloom.v1 f1).insertBytes env [97#8]).1.file else twoFiles.fs p }

-- one of two lines is contained
example : check Sample.env Sample.usedOnce [0, 0, 0, 0, 0, 0, 0, 0] ⟨[], false⟩
    ⟨false, false, false, "out", ["x", "y"]⟩ 1 = ([[97#8]], some (.ok ())) := by decide +kernel

-- two files of one line each
example : Sample.twoFiles.fs "out" = none ∧
    (create Sample.env Sample.twoFiles [0, 0, 0, 0, 0, 0, 0, 0]
      ⟨1, 100, Sample.p001, 0, "out", ["x", "y"]⟩ 1).2 = some (.ok ()) :=
  ⟨by decide +kernel, by decide +kernel⟩

end Poppy
