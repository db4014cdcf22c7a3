import Verif.Lemmas.CliCommands
import Verif.Props.Cli

/-! # The commands of the tool (C56–C61) -/

namespace Poppy

open Spec Cli

/-! ## C56 creating from a dataset -/

/-- The capacity is the number of lines. -/
theorem C56_capacity {env : Env} (hs : env.Small) {w : World} {o : Create} {jobs : ℕ} {b : Bloom}
    {es : List (List U8)} (hd : o.dataset ≠ []) (hr : Reads w o.dataset es)
    (hn : es.length < 2 ^ 64) (h : createFilter env w o jobs = some (.ok b)) :
    b.capacity.toNat = es.length ∧ b.fpp = o.probability ∧ b.version = o.version := by
  obtain ⟨cap, opt, _, h1, h2⟩ := createFilter_ok h
  rcases h2 with ⟨h2, _⟩ | ⟨_, _, h2⟩
  · exact absurd h2 hd
  · obtain ⟨_, hc, hf, _⟩ := Bloom.new_spec hs h1
    refine ⟨?_, hf, C44_version env _ _ _ _ _ h1⟩
    rw [hc, h2, hr.2, List.length_map, BitVec.toNat_ofNat, Nat.mod_eq_of_lt hn]

/-- The lines always fit: whatever the schedule, filling the filter succeeds (or, in debug builds,
panics while estimating the number of entries of a union). -/
theorem C56_fits {env : Env} (sp : env.libm.Spec) (hs : env.Small) {w : World} {s : Schedule}
    {o : Create} {jobs : ℕ} {b : Bloom} {es : List (List U8)} (hd : o.dataset ≠ [])
    (hr : Reads w o.dataset es) (hn : es.length < 2 ^ 64)
    (h : createFilter env w o jobs = some (.ok b)) {r : Res Bloom}
    (hp : parallelInsert env w s b o.dataset jobs = some r) :
    (∃ g, r = .ok g) ∨ (r = .panic ∧ env.debug = true) := by
  have hcap := (C56_capacity hs hd hr hn h).1
  obtain ⟨cap, opt, _, h1, _⟩ := createFilter_ok h
  obtain ⟨_, hc, _, _, hsame, hall⟩ := Bloom.new_spec hs h1
  rw [parallelInsert_some hp]
  refine insertFiles_of_ok hsame hr.1 hr.2 fun x hx => hall sp x ?_
  rw [← hc, hcap]
  exact hx.length_le

theorem Cli.open_ne_tooMany (w : World) (f : Path) : w.open f ≠ .err .tooManyEntries := by
  unfold World.open
  split
  · simp
  · split
    · simp
    · split <;> simp
    · simp

/-- `create` never fails with `TooManyEntries`. -/
theorem C56_no_too_many {env : Env} (sp : env.libm.Spec) (hs : env.Small) {w : World}
    {s : Schedule} {o : Create} {jobs : ℕ} {es : List (List U8)} (hd : o.dataset ≠ [])
    (hr : Reads w o.dataset es) (hn : es.length < 2 ^ 64) :
    (create env w s o jobs).2 ≠ some (.err .tooManyEntries) := by
  intro hc
  unfold create at hc
  cases hg : createGuard env w o.file with
  | err e =>
    rw [hg] at hc
    simp only [Option.some.injEq, Res.err.injEq] at hc
    subst hc
    unfold createGuard at hg
    split at hg
    · cases hg
    · split at hg
      · split at hg <;> cases hg
      · rename_i h
        cases hg
        exact open_ne_tooMany w o.file h
      · cases hg
  | panic => rw [hg] at hc; simp at hc
  | ok u =>
    rw [hg] at hc
    simp only at hc
    rcases hf : createFilter env w o jobs with _ | b | e | _
    · rw [hf] at hc; simp at hc
    rotate_left
    · rw [hf] at hc
      simp only [Option.some.injEq, Res.err.injEq] at hc
      subst hc
      unfold createFilter at hf
      rw [if_neg (fun h => hd (List.length_eq_zero_iff.1 h)),
        countLines_iff.2 ⟨hr.allRead, rfl⟩] at hf
      simp only [Option.some.injEq] at hf
      unfold createSized at hf
      cases ho : OptLevel.tryFrom o.optimize with
      | panic => rw [ho] at hf; cases hf
      | err e =>
        rw [ho] at hf
        cases hf
        by_cases hb : o.optimize.toNat ≤ 3
        · obtain ⟨_, h1, _⟩ := (optLevel_iff _).2 hb
          rw [h1] at ho; cases ho
        · rw [optLevel_err _ (by omega)] at ho; cases ho
      | ok opt =>
        rw [ho, Res.bind_ok, (C44_params ..).1] at hf
        rcases (C44_bloom ..).1 hf with ⟨_, _, h⟩ | ⟨_, h, _⟩ <;> cases h
    · rw [hf] at hc; simp at hc
    · rw [hf] at hc
      simp only at hc
      cases hp : parallelInsert env w s b o.dataset jobs with
      | none => rw [hp] at hc; cases hc
      | some r =>
        rw [hp] at hc
        rcases C56_fits sp hs hd hr hn hf hp with ⟨g, rfl⟩ | ⟨rfl, _⟩
        · simp only at hc
          rcases save_cases w o.file g with ⟨_, h⟩ | ⟨_, h⟩
          · rw [h] at hc; cases hc
          · rw [h] at hc
            simp only [Option.some.injEq] at hc
            rcases Bloom.write_ne_panic g w.disk with h | h <;> (rw [h] at hc; cases hc)
        · cases hc

/-- After a successful `create` the file holds a filter with the right parameters, which contains
every line if it has bits at all (it has in version 2). -/
theorem C56_contains_partial {env : Env} (hs : env.Small) {w w' : World} {s : Schedule} {o : Create}
    {jobs : ℕ} {es : List (List U8)} (hd : o.dataset ≠ []) (hr : Reads w o.dataset es)
    (hn : es.length < 2 ^ 64) (hdisk : w.disk = none)
    (h : create env w s o jobs = (w', some (.ok ()))) :
    ∃ bs g, w'.fs o.file = some bs ∧ Bloom.fromReader env (Reader.ofBytes bs) = .ok g ∧
      g.version = o.version ∧ g.capacity.toNat = es.length ∧ g.fpp = o.probability ∧
      (g.HasBits → ∀ k ∈ es, g.containsBytes env k = .ok true) ∧
      (o.version = 2#8 → g.HasBits) := by
  rcases create_cases env w s o jobs with ⟨_, h2⟩ | ⟨b, bf, _, hf, hp, _, he⟩
  · rw [h] at h2; exact absurd rfl h2
  · rw [h] at he
    have hw : w' = w.written o.file (bf.write ⟨[], w.disk⟩).1.out := congrArg Prod.fst he
    obtain ⟨cap, opt, _, h1, _⟩ := createFilter_ok hf
    have hb := (Bloom.new_spec hs h1).1
    have hbf : bf.Reach env := insertFiles_reach hb (parallelInsert_some hp).symm
    obtain ⟨g, hg, gv, gc, _, gcap, gfpp, _, _, gfile⟩ := C22_bloom_round_trip env hs bf hbf
    obtain ⟨c1, c2, c3⟩ := C56_capacity hs hd hr hn hf
    have hsame : bf.version = b.version ∧ bf.capacity = b.capacity ∧ bf.fpp = b.fpp ∧
        (bf.HasBits → b.HasBits) := by
      cases b with
      | v1 f =>
        obtain ⟨_, g', _, rfl, e1, e2, _, _, e5, _⟩ := C54_v1_bits hs hb hp
        exact ⟨rfl, e1, e2, fun hh => show f.bitSize ≠ 0 from e5 ▸ hh⟩
      | v2 f =>
        obtain ⟨_, g', _, rfl, e1, e2, _⟩ := C54_v2_bits hb hp
        exact ⟨rfl, e1, e2, fun _ => trivial⟩
    obtain ⟨s1, s2, s3, s4⟩ := hsame
    refine ⟨bf.file, g, ?_, hg, by rw [gv, s1, c3], by rw [gcap, s2, c1], by rw [gfpp, s3, c2],
      fun hbits k hk => ?_, fun hv => ?_⟩
    · rw [hw, written_out, hdisk]; simp [World.written]
    · rw [gc]
      refine (C54_members hs hb hp hr k).2 (s4 ?_) hk
      cases bf with
      | v2 f => trivial
      | v1 f =>
        obtain ⟨g', hg', rfl, _⟩ := C22_v1_round_trip env f hbf
        have := ((C51_readers env f.file).1 _).2 hg'
        rw [show Bloom.fromReader env (Reader.ofBytes f.file) = _ from hg] at this
        cases this
        exact hbits
    · have : g.version = 2#8 := by rw [gv, s1, c3, hv]
      cases g with
      | v1 f => exact absurd this (by simp [Bloom.version])
      | v2 f => trivial

/-- The remaining claim is false for version 1: with `--fpp 1.0` the filter has no bits, `create`
succeeds, and the file contains none of the lines. -/
theorem C56_violated : ∃ w' bs g, Reads Sample.world2 ["x"] [[97#8]] ∧
    create Sample.env Sample.world2 [0, 0, 0] ⟨1, 0, oneBits, 0, "out", ["x"]⟩ 1
      = (w', some (.ok ())) ∧ w'.fs "out" = some bs ∧
    Bloom.fromReader Sample.env (Reader.ofBytes bs) = .ok g ∧
    g.containsBytes Sample.env [97#8] = .ok false := by
  have h : (match create Sample.env Sample.world2 [0, 0, 0] ⟨1, 0, oneBits, 0, "out", ["x"]⟩ 1 with
    | (w', some (.ok ())) => match w'.fs "out" with
      | some bs => match Bloom.fromReader Sample.env (Reader.ofBytes bs) with
        | .ok g => decide (g.containsBytes Sample.env [97#8] = .ok false)
        | _ => false
      | none => false
    | _ => false) = true := by decide +kernel
  split at h
  · rename_i w' hw
    split at h
    · rename_i bs hbs
      split at h
      · rename_i g hg
        exact ⟨w', bs, g, Sample.world2_reads_x, hw, hbs, hg, of_decide_eq_true h⟩
      · exact absurd h (by decide)
    · exact absurd h (by decide)
  · exact absurd h (by decide)

-- a successful `create` from two files, as the theorems require
example : ∃ w', create Sample.env Sample.world2 Sample.turns ⟨1, 0, Sample.p001, 0, "out", ["x", "y"]⟩ 2
    = (w', some (.ok ())) ∧ Reads Sample.world2 ["x", "y"] [[97#8], [98#8]] := by
  have h : (create Sample.env Sample.world2 Sample.turns ⟨1, 0, Sample.p001, 0, "out", ["x", "y"]⟩ 2).2
    = some (.ok ()) := by decide +kernel
  exact ⟨_, by rw [← h], Sample.world2_reads⟩

/-! ## C57 failed commands -/

/-- `create` refuses to overwrite an existing file that is not a filter. -/
theorem C57_create_refuses (env : Env) (w : World) (s : Schedule) (o : Create) (jobs : ℕ)
    {bs : List U8} (he : w.fs o.file = some bs)
    (hbad : ∀ f, Bloom.fromReader env (Reader.ofBytes bs) ≠ .ok f) :
    (create env w s o jobs).1 = w ∧ (create env w s o jobs).2 ≠ some (.ok ()) := by
  rcases create_cases env w s o jobs with h | ⟨b, bf, hg, _⟩
  · exact h
  · unfold createGuard at hg
    rw [he] at hg
    simp only at hg
    split at hg
    · rename_i r h
      split at hg
      · rename_i g hg'
        obtain ⟨bs', rfl, h'⟩ := open_loaded h hg'
        rw [he] at h'
        cases h'
        exact absurd hg' (hbad g)
      · cases hg
      · cases hg
    · cases hg
    · cases hg

/-- Whatever happens, no file but the output can change, nor anything else. -/
theorem C57_create_only_output (env : Env) (w : World) (s : Schedule) (o : Create) (jobs : ℕ) :
    ∃ c, (create env w s o jobs).1
      = { w with fs := fun p => if p = o.file then c else w.fs p } := by
  rcases create_cases env w s o jobs with ⟨h, _⟩ | ⟨b, bf, _, _, _, _, h⟩
  · refine ⟨w.fs o.file, ?_⟩
    rw [h]
    exact World.written_self w o.file
  · rw [h]
    exact ⟨some (bf.write ⟨[], w.disk⟩).1.out, rfl⟩

/-- A `create` that does not succeed (or is still running) has changed nothing, unless it failed to
write the new filter completely. -/
theorem C57_create_failed (env : Env) (w : World) (s : Schedule) (o : Create) (jobs : ℕ)
    (hr : (create env w s o jobs).2 ≠ some (.ok ())) :
    (create env w s o jobs).1 = w ∨
      ((create env w s o jobs).2 = some (.err (.ioError .other)) ∧ w.disk ≠ none) := by
  rcases create_cases env w s o jobs with ⟨h, _⟩ | ⟨b, bf, _, _, _, _, h⟩
  · exact Or.inl h
  · right
    rw [h] at hr ⊢
    simp only [ne_eq, Option.some.injEq] at hr ⊢
    refine ⟨?_, fun hd => ?_⟩
    · rcases Bloom.write_ne_panic bf w.disk with h | h
      · exact absurd h hr
      · exact h
    · rw [hd, C29_write_ok] at hr
      exact hr rfl

/-- Wrong parameters and unusable datasets: nothing is written. -/
theorem C57_create_unchanged (env : Env) (w : World) (s : Schedule) (o : Create) (jobs : ℕ)
    (h : 3 < o.optimize.toNat ∨
      ¬ (2 ^ 52 ≤ o.probability.toNat ∧ o.probability.toNat ≤ 1023 * 2 ^ 52) ∨
      (o.version ≠ 1#8 ∧ o.version ≠ 2#8) ∨ ¬ AllOpen w o.dataset ∨
      (∃ e, Res.err e ∈ linesOf w o.dataset) ∨ w.creatable o.file = false) :
    (create env w s o jobs).1 = w ∧ (create env w s o jobs).2 ≠ some (.ok ()) := by
  rcases create_cases env w s o jobs with hw | ⟨b, bf, _, hf, hp, hc, _⟩
  · exact hw
  · exfalso
    obtain ⟨cap, opt, ho, hb, _⟩ := createFilter_ok hf
    obtain ⟨hop, ess, _, _, hl, _⟩ := insertFiles_ok (parallelInsert_some hp).symm
    rcases h with h | h | h | h | ⟨e, h⟩ | h
    · rw [optLevel_err _ h] at ho; cases ho
    · by_cases hv : o.version = 1#8 ∨ o.version = 2#8
      · have := (C44_bloom env o.version cap o.probability opt (.wrongFpp o.probability)).2
          (Or.inr ⟨hv, rfl, h⟩)
        rw [hb] at this; cases this
      · have := (C44_bloom env o.version cap o.probability opt (.invalidVersion o.version)).2
          (Or.inl ⟨fun e => hv (Or.inl e), fun e => hv (Or.inr e), rfl⟩)
        rw [hb] at this; cases this
    · have := (C44_bloom env o.version cap o.probability opt (.invalidVersion o.version)).2
        (Or.inl ⟨h.1, h.2, rfl⟩)
      rw [hb] at this; cases this
    · exact h hop
    · rw [hl] at h
      obtain ⟨_, _, h⟩ := List.mem_map.1 h
      cases h
    · rw [hc] at h; cases h

theorem C57_insert_only_filter (env : Env) (w : World) (s : Schedule) (stdin : Stdin) (o : Insert)
    (jobs : ℕ) :
    ∃ c, (Cli.insert env w s stdin o jobs).1
      = { w with fs := fun p => if p = o.file then c else w.fs p } := by
  rcases insert_cases env w s stdin o jobs with ⟨h, _⟩ | ⟨_, _, _, bf, _, _, _, _, _, h⟩
  · refine ⟨w.fs o.file, ?_⟩
    rw [h]
    exact World.written_self w o.file
  · rw [h]
    exact ⟨some (bf.write ⟨[], w.disk⟩).1.out, rfl⟩

/-- The same for `insert`. -/
theorem C57_insert_failed (env : Env) (w : World) (s : Schedule) (stdin : Stdin) (o : Insert)
    (jobs : ℕ) (hr : (Cli.insert env w s stdin o jobs).2 ≠ some (.ok ())) :
    (Cli.insert env w s stdin o jobs).1 = w ∨
      ((Cli.insert env w s stdin o jobs).2 = some (.err (.ioError .other)) ∧ w.disk ≠ none) := by
  rcases insert_cases env w s stdin o jobs with ⟨h, _⟩ | ⟨_, _, _, bf, _, _, _, _, _, h⟩
  · exact Or.inl h
  · right
    rw [h] at hr ⊢
    simp only [ne_eq, Option.some.injEq] at hr ⊢
    refine ⟨?_, fun hd => ?_⟩
    · rcases Bloom.write_ne_panic bf w.disk with h | h
      · exact absurd h hr
      · exact h
    · rw [hd, C29_write_ok] at hr
      exact hr rfl

/-- Unreadable or invalid filter, invalid or missing input, or more entries than fit: nothing is
written. -/
theorem C57_insert_unchanged (env : Env) (w : World) (s : Schedule) (stdin : Stdin) (o : Insert)
    (jobs : ℕ)
    (h : (∀ bs f, w.open o.file = .ok (Reader.ofBytes bs) → Bloom.fromReader env (Reader.ofBytes bs) ≠ .ok f) ∨
      ((o.stdin = true ∨ o.inputs = []) ∧ ∃ e, Res.err e ∈ stdin.lines) ∨
      ((o.stdin = true ∨ o.inputs = []) ∧ ∃ bs f es, w.open o.file = .ok (Reader.ofBytes bs) ∧
        Bloom.fromReader env (Reader.ofBytes bs) = .ok f ∧ stdin.lines = es.map Res.ok ∧
        ¬ f.AllOk env es) ∨
      (o.stdin = false ∧ optimalJobs w jobs = 1 ∧ ∃ bs f es, w.open o.file = .ok (Reader.ofBytes bs) ∧
        Bloom.fromReader env (Reader.ofBytes bs) = .ok f ∧ linesOf w o.inputs = es.map Res.ok ∧
        ¬ f.AllOk env es ∧ o.inputs ≠ []) ∨
      ¬ AllOpen w o.inputs ∨ (∃ e, Res.err e ∈ linesOf w o.inputs) ∨
      w.creatable o.file = false) :
    (Cli.insert env w s stdin o jobs).1 = w ∧
      (Cli.insert env w s stdin o jobs).2 ≠ some (.ok ()) := by
  have inj : ∀ {a b : List (List U8)}, a.map Res.ok = b.map Res.ok → a = b := fun h =>
    (List.map_injective_iff.2 (fun a b h => Res.ok.inj h)) h
  rcases insert_cases env w s stdin o jobs with hw | ⟨bs, b, b', bf, h1, h2, h3, h4, hc, _⟩
  · exact hw
  · exfalso
    obtain ⟨hop, ess, d, ds, hl, hall, hrev, _, hlen, _⟩ :=
      insertFiles_ok (parallelInsert_some h4).symm
    have hstdin : (o.stdin = true ∨ o.inputs = []) →
        ∃ es, stdin.lines = es.map Res.ok ∧ b.AllOk env es := by
      intro hh
      rw [if_pos (by rcases hh with hh | hh <;> simp [hh])] at h3
      obtain ⟨es, e1, e2, _⟩ := insertLines_ok h3
      exact ⟨es, e1, e2⟩
    rcases h with h | ⟨hh, e, h⟩ | ⟨hh, bs', f, es, g1, g2, g3, g4⟩ |
      ⟨hh, hj, bs', f, es, g1, g2, g3, g4, hne⟩ | h | ⟨e, h⟩ | h
    · exact h bs b h1 h2
    · obtain ⟨es, e1, _⟩ := hstdin hh
      rw [e1] at h
      obtain ⟨_, _, h⟩ := List.mem_map.1 h
      cases h
    · obtain ⟨es', e1, e2⟩ := hstdin hh
      rw [h1] at g1; cases g1
      rw [h2] at g2; cases g2
      rw [g3] at e1
      rw [inj e1] at g4
      exact g4 e2
    · rw [h1] at g1; cases g1
      rw [h2] at g2; cases g2
      have hne' : o.inputs.isEmpty = false := by simpa using hne
      rw [hh, hne'] at h3
      cases h3
      rw [hj] at hlen
      have hds : ds = [] := by
        have := congrArg List.length hrev
        rw [List.length_reverse, List.length_cons] at this
        rw [← List.length_eq_zero_iff]
        omega
      subst hds
      have he : ess = [d] := by
        rw [List.reverse_eq_iff] at hrev
        simpa using hrev
      subst he
      rw [g3] at hl
      have := inj hl
      simp only [List.flatten_cons, List.flatten_nil, List.append_nil] at this
      rw [this] at g4
      exact g4 (hall d (by simp))
    · exact h hop
    · rw [hl] at h
      obtain ⟨_, _, h⟩ := List.mem_map.1 h
      cases h
    · rw [hc] at h; cases h

-- `x` is not a filter, `z` is not text, 4 is not an optimization level
example (s : Schedule) (o : Create) (jobs : ℕ) (h : o.file = "x") :=
  C57_create_refuses Sample.env Sample.world s o jobs (bs := [97#8, 10#8]) (by rw [h]; rfl)
    (fun f hf => by
      have : Bloom.fromReader Sample.env (Reader.ofBytes [97#8, 10#8])
        = .err (.ioError .unexpectedEof) := by decide +kernel
      rw [this] at hf; cases hf)
example : ∃ e, Res.err e ∈ linesOf Sample.world ["x", "z"] :=
  ⟨.ioError .invalidData, by decide +kernel⟩
example : ¬ AllOpen Sample.world ["x", "missing"] := by
  intro h
  obtain ⟨b, hb⟩ := h "missing" (by simp)
  have : Sample.world.open "missing" = .err (.ioError .notFound) := rfl
  rw [this] at hb; cases hb

/-! ## C58 interrupted insertion -/

/-- If writing is cut short after `k` bytes, either nothing was written, or the file is the first
`k` bytes of the new filter: loading it fails, or gives the new filter but for missing data at its
end. -/
theorem C58_interrupted {env : Env} (hs : env.Small) {w w' : World} {s : Schedule}
    {stdin : Stdin} {o : Insert} {jobs : ℕ} {r : Option (Res Unit)} {k : ℕ}
    (hk : w.disk = some k) (h : Cli.insert env w s stdin o jobs = (w', r)) :
    (w' = w ∧ r ≠ some (.ok ())) ∨ ∃ bf : Bloom, bf.Reach env ∧
      Cli.insert env { w with disk := none } s stdin o jobs
        = ({ w with
              disk := none
              fs := fun p => if p = o.file then some bf.file else w.fs p }, some (.ok ())) ∧
      w'.fs o.file = some (bf.file.take k) ∧
      ((∃ e, Bloom.fromReader env (Reader.ofBytes (bf.file.take k)) = .err e) ∨
        ∃ g full, Bloom.fromReader env (Reader.ofBytes (bf.file.take k)) = .ok g ∧
          Bloom.fromReader env (Reader.ofBytes bf.file) = .ok full ∧
          full = g.setData (g.data ++ bf.file.drop k)) := by
  rcases insert_cases env w s stdin o jobs with hw | ⟨bs, b, b', bf, h1, h2, h3, h4, hc, he⟩
  · rw [h] at hw; exact Or.inl hw
  · right
    have hb' : b'.Reach env := by
      split at h3
      · obtain ⟨es, _, _, rfl⟩ := insertLines_ok h3
        exact (Bloom.Reach.load h2).inserts es
      · cases h3; exact Bloom.Reach.load h2
    have hbf : bf.Reach env := insertFiles_reach hb' (parallelInsert_some h4).symm
    rw [h] at he
    have hw' : w' = w.written o.file (bf.write ⟨[], w.disk⟩).1.out := congrArg Prod.fst he
    refine ⟨bf, hbf, ?_, ?_, ?_⟩
    · rw [insert_of (w := { w with disk := none }) h1 h2 h3 (by rw [parallelInsert_disk]; exact h4) hc,
        C29_write_ok]
      rfl
    · rw [hw', written_out, hk]
      simp [World.written]
    · rcases C25_truncated env hs bf hbf (bf.file.take k) (bf.file.drop k)
        (List.take_append_drop k _) with h | ⟨g, full, g1, g2, g3, _⟩
      · exact Or.inl h
      · exact Or.inr ⟨g, full, g1, g2, g3⟩

/-- The old content is lost: if nothing at all could be written, the file is left empty and no
longer loads. -/
theorem C58_lost {env : Env} {w w' : World} {s : Schedule} {stdin : Stdin} {o : Insert} {jobs : ℕ}
    {r : Option (Res Unit)} (hk : w.disk = some 0)
    (h : Cli.insert env w s stdin o jobs = (w', r)) (hw : w' ≠ w) :
    w'.fs o.file = some [] ∧ ∃ e, Bloom.fromReader env (Reader.ofBytes []) = .err e := by
  rcases insert_cases env w s stdin o jobs with ⟨h', _⟩ | ⟨bs, b, b', bf, _, _, _, _, _, he⟩
  · rw [h] at h'; exact absurd h' hw
  · rw [h] at he
    have hw' : w' = w.written o.file (bf.write ⟨[], w.disk⟩).1.out := congrArg Prod.fst he
    refine ⟨?_, .ioError .unexpectedEof, rfl⟩
    rw [hw', written_out, hk]
    simp [World.written]

namespace Sample

/-- The filter `f1` is stored in `bf`, and there is a file of two lines. -/
def world3 (disk : Option ℕ) : World where
  fs := fun p => if p = "bf" then some f1.file else if p = "x" then some [97#8, 10#8, 98#8] else none
  access := fun _ => .full
  creatable := fun _ => true
  disk := disk
  cpus := 2
  cpus_pos := by decide

end Sample

-- an insertion interrupted after 100 bytes
example : (Cli.insert Sample.env (Sample.world3 (some 100)) [0, 0, 0, 0, 0] ⟨[], false⟩ ⟨false, "bf", ["x"]⟩ 1).2
    = some (.ok ()) ∧
    ((Cli.insert Sample.env (Sample.world3 (some 100)) [0, 0, 0, 0, 0] ⟨[], false⟩
      ⟨false, "bf", ["x"]⟩ 1).1.fs "bf").map List.length = some 100 := by decide +kernel

/-! ## C59 checking -/

/-- A successful `check` printed, in some order, exactly the lines it should. -/
theorem C59_printed {env : Env} {w : World} {s : Schedule} {stdin : Stdin} {o : Check} {jobs : ℕ}
    {out : List (List U8)} (h : check env w s stdin o jobs = (out, some (.ok ()))) :
    ∃ bs bf es, w.open o.file = .ok (Reader.ofBytes bs) ∧ Bloom.fromReader env (Reader.ofBytes bs) = .ok bf ∧
      AllOpen w o.inputs ∧ inputLines w stdin o.stdin o.inputs = es.map Res.ok ∧
      out.Perm (toPrint (bf.containsBytes env) o.verify o.silent es) := by
  unfold check at h
  cases ho : w.open o.file with
  | err e => rw [ho] at h; cases h
  | panic => rw [ho] at h; cases h
  | ok r₀ =>
    rw [ho, Res.bind_ok] at h
    cases hr : Bloom.fromReader env r₀ with
    | err e => rw [hr] at h; cases h
    | panic => rw [hr] at h; cases h
    | ok bf =>
      obtain ⟨bs, rfl, _⟩ := open_loaded ho hr
      rw [hr] at h
      simp only at h
      have hin : ∃ es0, (if o.stdin || o.inputs.isEmpty then stdin.lines else []) = es0.map Res.ok ∧
          ∃ out', out = printed env bf o es0 ++ out' ∧
            checkFiles env w s bf o jobs = (out', some (.ok ())) := by
        by_cases hu : (o.stdin || o.inputs.isEmpty) = true
        · rw [if_pos hu] at h ⊢
          cases hx : checkStdin env bf o stdin.lines with
          | mk p x =>
            rw [hx] at h
            cases x with
            | err e => cases h
            | panic => cases h
            | ok u =>
              obtain ⟨es, e1, _, e3⟩ := checkStdin_ok (by rw [hx])
              rw [hx] at e3
              simp only at e3 h
              rw [e3] at h
              cases hf : checkFiles env w s bf o jobs with
              | mk out' r =>
                rw [hf] at h
                simp only [Prod.mk.injEq] at h
                exact ⟨es, e1, out', h.1.symm, by rw [h.2]⟩
        · rw [if_neg hu] at h ⊢
          simp only at h
          cases hf : checkFiles env w s bf o jobs with
          | mk out' r =>
            rw [hf] at h
            simp only [Prod.mk.injEq] at h
            exact ⟨[], rfl, out', h.1.symm, by rw [h.2]⟩
      obtain ⟨es0, e1, out', rfl, hf⟩ := hin
      obtain ⟨es, hreads, hp⟩ := checkFiles_ok hf
      refine ⟨bs, bf, es0 ++ es, rfl, hr, hreads.1, ?_, ?_⟩
      · rw [inputLines, e1, hreads.2, List.map_append]
      · have := (List.Perm.append_left (printed env bf o es0) hp)
        rw [← printed_append, printed_eq env bf o (es0 ++ es)] at this
        exact this

/-- Even when it fails, `check` prints nothing else and nothing twice: what it printed is part of
what it should print for the valid lines. -/
theorem C59_nothing_else {env : Env} {w : World} {s : Schedule} {stdin : Stdin} {o : Check}
    {jobs : ℕ} {out : List (List U8)} {r : Option (Res Unit)}
    (h : check env w s stdin o jobs = (out, r)) (hout : out ≠ []) :
    ∃ bs bf, w.open o.file = .ok (Reader.ofBytes bs) ∧ Bloom.fromReader env (Reader.ofBytes bs) = .ok bf ∧
      out.Subperm (toPrint (bf.containsBytes env) o.verify o.silent
        (entries (inputLines w stdin o.stdin o.inputs))) := by
  unfold check at h
  cases ho : w.open o.file with
  | err e => rw [ho] at h; cases h; exact absurd rfl hout
  | panic => rw [ho] at h; cases h; exact absurd rfl hout
  | ok r₀ =>
    rw [ho, Res.bind_ok] at h
    cases hr : Bloom.fromReader env r₀ with
    | err e => rw [hr] at h; cases h; exact absurd rfl hout
    | panic => rw [hr] at h; cases h; exact absurd rfl hout
    | ok bf =>
      obtain ⟨bs, rfl, _⟩ := open_loaded ho hr
      rw [hr] at h
      simp only at h
      refine ⟨bs, bf, rfl, hr, ?_⟩
      have hfiles := checkFiles_subperm env w s bf o jobs
      have goal : out.Subperm (printed env bf o (entries (inputLines w stdin o.stdin o.inputs))) := by
        rw [inputLines, entries_append, printed_append]
        by_cases hu : (o.stdin || o.inputs.isEmpty) = true
        · rw [if_pos hu] at h ⊢
          have h1 := checkStdin_sublist env bf o stdin.lines
          cases hx : checkStdin env bf o stdin.lines with
          | mk p x =>
            rw [hx] at h h1
            cases x with
            | err e => cases h; exact (h1.trans (List.sublist_append_left _ _)).subperm
            | panic => cases h; exact (h1.trans (List.sublist_append_left _ _)).subperm
            | ok u =>
              simp only [Prod.mk.injEq] at h
              rw [← h.1]
              exact h1.subperm.append hfiles
        · rw [if_neg hu] at h ⊢
          simp only [List.nil_append, Prod.mk.injEq] at h
          rw [← h.1]
          exact hfiles
      rw [printed_eq] at goal
      exact goal

/-- With at least one job, readable valid input, and a filter that answers, `check` succeeds under
every schedule that gives each thread enough steps. -/
theorem C59_total {env : Env} {w : World} {stdin : Stdin} {o : Check} {jobs : ℕ} (hj : 0 < jobs)
    {bs : List U8} {bf : Bloom} {es : List (List U8)} (ho : w.open o.file = .ok (Reader.ofBytes bs))
    (hr : Bloom.fromReader env (Reader.ofBytes bs) = .ok bf) (hop : AllOpen w o.inputs)
    (hl : inputLines w stdin o.stdin o.inputs = es.map Res.ok)
    (hc : ∀ l ∈ es, ∃ b, bf.containsBytes env l = .ok b) :
    ∃ N, ∀ s : Schedule, (∀ i < o.inputs.length, N ≤ s.count i) →
      (check env w s stdin o jobs).2 = some (.ok ()) := by
  rw [inputLines] at hl
  obtain ⟨ea, eb, rfl, h1, h2⟩ := List.map_eq_append_iff.1 hl.symm
  obtain ⟨N, hN⟩ := checkFiles_fair (env := env) (bf := bf) hj ⟨hop, h2.symm⟩
    (fun l hl => hc l (by simp [hl]))
  refine ⟨N, fun s hs => ?_⟩
  have := hN s hs
  unfold check
  rw [ho, Res.bind_ok, hr]
  simp only
  by_cases hu : (o.stdin || o.inputs.isEmpty) = true
  · rw [if_pos hu] at h1 ⊢
    rw [← h1, checkStdin_of_ok (fun l hl => hc l (by simp [hl]))]
    exact this
  · rw [if_neg hu]
    exact this

/-- With `-j 0` and input files, `check` panics. -/
theorem C59_no_jobs {env : Env} {w : World} {s : Schedule} {stdin : Stdin} {o : Check}
    {bs : List U8} {bf : Bloom} (ho : w.open o.file = .ok (Reader.ofBytes bs))
    (hr : Bloom.fromReader env (Reader.ofBytes bs) = .ok bf) (hne : o.inputs ≠ [])
    (hst : o.stdin = false) : check env w s stdin o 0 = ([], some .panic) := by
  have he : o.inputs.isEmpty = false := by simpa using hne
  unfold check checkFiles
  rw [ho, Res.bind_ok, hr]
  simp [hst, he, batches]

example : check Sample.env (Sample.world3 none) [0, 0, 0, 0, 0] ⟨[], false⟩ ⟨false, false, true, "bf", ["x"]⟩ 1
    = ([[97#8, 58#8, 32#8, 78#8, 79#8, 75#8], [98#8, 58#8, 32#8, 78#8, 79#8, 75#8]], some (.ok ())) := by
  decide +kernel

/-! ## C60 show -/

/-- What `show` prints comes from the complete filter. -/
theorem C60_show {env : Env} (hs : env.Small) (fmt : Fmt) {w : World} {file : Path} {bs : List U8}
    {f : Bloom} (ho : w.open file = .ok (Reader.ofBytes bs))
    (hf : Bloom.fromReader env (Reader.ofBytes bs) = .ok f) :
    ∃ size, f.sizeInBytes env = .ok size ∧
      Cli.show fmt env w file = .ok [
        "File: " ++ file,
        "\tversion                                  : " ++ fmt.u64 (f.version.setWidth 64),
        "\tcapacity (desired number of elements)    : " ++ fmt.u64 f.capacity,
        "\tn (estimated number of elements)         : " ++ fmt.u64 f.countEstimate,
        "\tfpp (false positive probability)         : " ++ fmt.f64 (FVal.ofBits f.fpp),
        "\tLength of data                           : " ++
          (ByteSize.fromBytes (BitVec.ofNat 64 f.data.length)).display fmt.f64Prec1,
        "\tSize of bloom filter                     : " ++
          (ByteSize.fromBytes size).display fmt.f64Prec1] := by
  obtain ⟨g, hg, h1, h2, h3, h4, _, _, h5, h6⟩ := C27_partial_metadata env bs f hf
  have hreach := Bloom.Reach.load hf
  have hsz : ∃ size, f.sizeInBytes env = .ok size := by
    cases f with
    | v1 f => exact ⟨_, (C48_v1_partial hs hreach).choose_spec.1⟩
    | v2 f => exact ⟨_, (C48_v2 hreach).choose_spec.1⟩
  obtain ⟨size, hsize⟩ := hsz
  refine ⟨size, hsize, ?_⟩
  unfold Cli.show showBfProperties
  rw [ho, Res.bind_ok, hg, Res.bind_ok, h5, hsize]
  simp only [Res.bind_ok, h1, h2, h3, h4, h6]

-- the stored filter loads
example : Bloom.fromReader Sample.env (Reader.ofBytes Sample.f1.file) = .ok (.v1 Sample.f1) := by
  decide +kernel

/-! ## C61 lines -/

open Classical in
/-- The entries of a text: its lines without line feed and one carriage return before it; an
unterminated last line, if not empty, as it is.  A line that is not UTF-8 is an error. -/
theorem C61_lines {ls : List (List U8)} {last : List U8} (h : ∀ l ∈ ls, 10#8 ∉ l)
    (hl : 10#8 ∉ last) :
    lines (unlines ls last) =
      ls.map (fun l => if IsUtf8 l then .ok (dropCr l) else .err (.ioError .invalidData)) ++
      if last = [] then []
      else [if IsUtf8 last then .ok last else .err (.ioError .invalidData)] := by
  have hu : ∀ l : List U8, IsUtf8 l ↔ validUtf8 l = true := fun l => (validUtf8_iff l).symm
  rw [lines_unlines h hl]
  congr 1
  · refine List.map_congr_left fun l _ => ?_
    rw [lineItem_terminated]
    simp only [hu]
  · rw [lineItem_last hl]
    simp only [hu]

/-- Every byte string is a text in this sense. -/
theorem C61_every_text (bs : List U8) : ∃ ls last, (∀ l ∈ ls, 10#8 ∉ l) ∧ 10#8 ∉ last ∧
    bs = unlines ls last := exists_unlines bs

/-- The number of lines, and so the capacity of a filter created from files, is the number of line
feeds, plus one if the last line is unterminated. -/
theorem C61_number {ls : List (List U8)} {last : List U8} (h : ∀ l ∈ ls, 10#8 ∉ l)
    (hl : 10#8 ∉ last) :
    (lines (unlines ls last)).length = ls.length + if last = [] then 0 else 1 := by
  rw [C61_lines h hl, List.length_append, List.length_map]
  split <;> rfl

/-- The lines counted for the capacity are the lines read (valid or not). -/
theorem C61_counted {w : World} {files : List Path} {jobs n : ℕ} :
    countLinesParallel w files jobs = some (.ok n) ↔
      AllRead w files ∧ n = (linesOf w files).length := countLines_iff

example : lines [97#8, 13#8, 10#8, 10#8, 98#8, 13#8] = [.ok [97#8], .ok [], .ok [98#8, 13#8]] := by
  decide +kernel

end Poppy
