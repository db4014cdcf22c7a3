import Verif.Lemmas.MoreRoom
import Verif.Props.Dataset
import Verif.Props.Room
import Verif.Props.Compat

/-! # How many more entries a used filter takes (C114) -/

namespace Poppy

open Spec Cli

/-- A filter derived from a constructor, however it was used, accepts entries as long as those not
yet contained fit between its estimated number of entries and its capacity: no insertion fails, the
entries are contained (unless the filter has no bits), and the estimate grows by at most the number
of new entries. -/
theorem C114_bloom {env : Env} (sp : env.libm.Spec) (hs : env.Small) {v : U8} {cap : U64} {fpp : F64}
    {opt : OptLevel} {b : Bloom} (hf : b.From env v cap fpp opt) (hc : cap ≠ 0)
    {es : List (List U8)} {new : Finset (List U8)}
    (hn : ∀ k ∈ es, b.containsBytes env k = .ok true ∨ k ∈ new)
    (hr : b.countEstimate.toNat + new.card ≤ cap.toNat) :
    b.AllOk env es ∧ ∃ g, b.fill env es = (g, .ok ()) ∧
      (b.HasBits → ∀ k ∈ es, g.containsBytes env k = .ok true) ∧
      g.countEstimate.toNat ≤ b.countEstimate.toNat + new.card := by
  obtain ⟨f0, h0, hl⟩ := hf.like hs
  have key : b.Reach env ∧ b.AllOk env es ∧
      (b.inserts env es).countEstimate.toNat ≤ b.countEstimate.toNat + new.card := by
    rcases made_cases h0 with ⟨_, a, rfl, ha⟩ | ⟨_, a, rfl, ha⟩
    · cases b with
      | v2 f => exact hl.elim
      | v1 f =>
        have hb := hl.built1
        obtain ⟨_, _, h2, _⟩ := hl
        have hcap : f.capacity = cap := by
          rw [h2]; obtain ⟨_, _, rfl⟩ := V1.withCapacity_ok ha; rfl
        have hbit : f.bitSize ≠ 0 ∨ f.nHash = 0 := by
          by_cases h : f.bitSize = 0
          · exact Or.inr ((hb.bits sp).1.1 h)
          · exact Or.inl h
        have w := hb.reach.wf hs
        rw [Bloom.allOk_v1, Bloom.inserts_v1]
        refine ⟨hb.reach, V1.allOk_room w (by rw [hcap]; exact hc) hbit (fun k hk => ?_) (by rw [hcap]; exact hr)⟩
        refine (hn k hk).imp (fun h => ?_) id
        by_cases hm : f.bitSize = 0
        · have := hbit.resolve_left (by simpa using hm)
          simp [V1.allSet, this]
        · have h : f.containsBytes k = .ok true := h
          rw [V1.containsBytes_eq w k hm] at h
          exact Res.ok.inj h
    · cases b with
      | v1 f => exact hl.elim
      | v2 f =>
        have hb := hl.built2
        obtain ⟨_, _, h2, _⟩ := hl
        have hcap : f.capacity = cap := by
          rw [h2]; obtain ⟨_, _, _, _, _, _, _, rfl⟩ := V2.make_ok ha; rfl
        have hc' : f.capacity ≠ 0 := by rw [hcap]; exact hc
        have hbk := hb.buckets hs sp hc'
        have w := hb.reach.wf
        rw [Bloom.allOk_v2, Bloom.inserts_v2]
        classical
        have hcard : (new.image Key.slice).card = new.card :=
          Finset.card_image_of_injective _ (fun a b h => by cases h; rfl)
        rw [← hcard]
        refine ⟨hb.reach, V2.allOk_room w hc' hbk (fun k hk => ?_) (by rw [hcap, hcard]; exact hr)⟩
        obtain ⟨k, hk', rfl⟩ := List.mem_map.1 hk
        refine (hn k hk').imp (fun h => ?_) (fun h => Finset.mem_image_of_mem _ h)
        have h : f.contains env (.slice k) = .ok true := h
        rw [V2.contains_eq env w _ hc' hbk] at h
        have := Res.ok.inj h
        simp only [Bool.and_eq_true] at this
        first | exact this.1 | exact this.2
  obtain ⟨hreach, hok, hcount⟩ := key
  have hfill := Bloom.fill_of_allOk hok
  exact ⟨hok, _, hfill, fun hb => C52_fill_contains hs hreach hb hfill, hcount⟩

/-- Insertion from files, with any number of jobs. -/
theorem C114_parallel {env : Env} (sp : env.libm.Spec) (hs : env.Small) {v : U8} {cap : U64} {fpp : F64}
    {opt : OptLevel} {b : Bloom} (hf : b.From env v cap fpp opt) (hc : cap ≠ 0) {w : World}
    {files : List Path} {es : List (List U8)} (hr : Reads w files es) {new : Finset (List U8)}
    (hn : ∀ k ∈ es, b.containsBytes env k = .ok true ∨ k ∈ new)
    (hroom : b.countEstimate.toNat + new.card ≤ cap.toNat) (jobs : ℕ) {s : Schedule} {r : Res Bloom}
    (hp : parallelInsert env w s b files jobs = some r) :
    (∃ g, r = .ok g ∧ (b.HasBits → ∀ k ∈ es, g.containsBytes env k = .ok true)) ∨
      r = .panic ∧ env.debug = true := by
  have hsame : b.hasSameParams b = .ok true := by
    rw [C67_compatible env hs hf hf]; simp
  have hreach : b.Reach env := by
    obtain ⟨f0, h0, hl⟩ := hf.like hs
    cases b with
    | v1 f => exact hl.built1.reach
    | v2 f => exact hl.built2.reach
  rw [parallelInsert_some hp]
  have h3 : ∀ x, x <:+: es → b.AllOk env x := fun x hx =>
    (C114_bloom sp hs hf hc (fun k hk => hn k (hx.subset hk)) hroom).1
  rcases insertFiles_of_ok (jobs := jobs) hsame hr.1 hr.2 h3 with ⟨g, hg⟩ | hg
  · refine Or.inl ⟨g, hg, fun hb k hk => ?_⟩
    exact insertFiles_contains hs hreach hg
      (Or.inr ⟨hb, by rw [hr.2]; exact List.mem_map_of_mem hk⟩)
  · exact Or.inr hg

/-- `insert` into a stored filter, from stdin and files, with any number of jobs: it succeeds, and
all lines are contained in the filter stored then. -/
theorem C114_insert {env : Env} (sp : env.libm.Spec) (hs : env.Small) {v : U8} {cap : U64} {fpp : F64}
    {opt : OptLevel} {b : Bloom} (hf : b.From env v cap fpp opt) (hc : cap ≠ 0) (hb : b.HasBits)
    {w w' : World} {o : Cli.Insert} (hw : w.open o.file = .ok (Reader.ofBytes b.file))
    (hcr : w.creatable o.file = true) (hd : w.disk = none) {stdin : Stdin}
    {es : List (List U8)} (ho : AllOpen w o.inputs)
    (he : inputLines w stdin o.stdin o.inputs = es.map Res.ok) {new : Finset (List U8)}
    (hn : ∀ k ∈ es, b.containsBytes env k = .ok true ∨ k ∈ new)
    (hroom : b.countEstimate.toNat + new.card ≤ cap.toNat) {jobs : ℕ} {s : Schedule} {r : Res Unit}
    (h : Cli.insert env w s stdin o jobs = (w', some r)) :
    (r = .ok () ∧ ∃ g, Stored env w' o.file g ∧ ∀ k ∈ es, g.containsBytes env k = .ok true) ∨
      r = .panic ∧ env.debug = true := by
  have hreach : b.Reach env := by
    obtain ⟨f0, h0, hl⟩ := hf.like hs
    cases b with
    | v1 f => exact hl.built1.reach
    | v2 f => exact hl.built2.reach
  obtain ⟨b0, hb0, gr⟩ := Bloom.Grows.reload hs hreach
  obtain ⟨b0', hb0', _, gc, _, _, _, gn, _⟩ := C22_bloom_round_trip env hs b hreach
  obtain rfl : b0' = b0 := Res.ok.inj (hb0'.symm.trans hb0)
  have hf0 : b0'.From env v cap fpp opt := .reload hf hb0
  have hbits0 : b0'.HasBits := gr.hasBits.1 hb
  have hr0 : b0'.Reach env := by
    obtain ⟨f0, h0, hl⟩ := hf0.like hs
    cases b0' with
    | v1 f => exact hl.built1.reach
    | v2 f => exact hl.built2.reach
  obtain ⟨es1, es2, rfl, e1, e2⟩ := List.append_eq_map_iff.1 he
  let new1 := new.filter (· ∈ es1)
  let new2 := new.filter (¬ · ∈ es1)
  have hcard : new1.card + new2.card = new.card := Finset.card_filter_add_card_filter_not _
  obtain ⟨a1, g1, a2, a3, a4⟩ := C114_bloom sp hs hf0 hc (es := es1) (new := new1) (fun k hk => by
    rcases hn k (List.mem_append_left _ hk) with x | x
    · exact Or.inl (by rw [gc]; exact x)
    · exact Or.inr (Finset.mem_filter.2 ⟨x, hk⟩)) (by rw [gn]; omega)
  have hg1 : g1 = b0'.inserts env es1 := (Bloom.fill_ok a2).1
  have hf1 : g1.From env v cap fpp opt := by
    have := Bloom.From.fill es1 hf0
    rwa [a2] at this
  have hgr := Bloom.Grows.inserts hs hr0 es1
  rw [← hg1] at hgr
  have hload : (do
      let r ← w.open o.file
      let bf ← Bloom.fromReader env r
      if o.stdin || o.inputs.isEmpty then insertLines env bf stdin.lines else .ok bf) = .ok g1 := by
    rw [hw]
    show (do
      let bf ← Bloom.fromReader env (Reader.ofBytes b.file)
      if o.stdin || o.inputs.isEmpty then insertLines env bf stdin.lines else .ok bf) = .ok g1
    rw [hb0]
    show (if o.stdin || o.inputs.isEmpty then insertLines env b0' stdin.lines else .ok b0') = .ok g1
    by_cases hu : (o.stdin || o.inputs.isEmpty) = true
    · rw [if_pos hu] at e1 ⊢
      rw [← e1, insertLines_of_allOk a1, hg1]
    · rw [if_neg hu] at e1 ⊢
      have : es1 = [] := by simpa using e1
      subst this
      rw [hg1]
      rfl
  unfold Cli.insert at h
  rw [hload] at h
  simp only at h
  rcases hp : parallelInsert env w s g1 o.inputs jobs with _ | x
  · rw [hp] at h; simp at h
  rcases C114_parallel sp hs hf1 hc ⟨ho, e2.symm⟩ (new := new2) (fun k hk => by
    rcases hn k (List.mem_append_right _ hk) with y | y
    · exact Or.inl (hgr.contains k (by rw [gc]; exact y))
    · by_cases hm : k ∈ es1
      · exact Or.inl (a3 hbits0 k hm)
      · exact Or.inr (Finset.mem_filter.2 ⟨y, hm⟩)) (by rw [gn] at a4; omega) jobs hp with
    ⟨g, rfl, hg⟩ | ⟨rfl, hdb⟩
  · rw [hp] at h
    simp only at h
    rcases save_cases w o.file g with ⟨k', _⟩ | ⟨_, e⟩
    · rw [hcr] at k'; cases k'
    rw [e, hd] at h
    simp only [Prod.mk.injEq, Option.some.injEq] at h
    obtain ⟨rfl, rfl⟩ := h
    refine Or.inl ⟨by rw [Bloom.write_none], ?_⟩
    have hg1r : g1.Reach env := by rw [hg1]; exact hr0.inserts es1
    have hgg := Bloom.Grows.parallel hs hg1r hp
    have hgr' : g.Reach env := insertFiles_reach hg1r (parallelInsert_some hp).symm
    obtain ⟨z, hz, gz⟩ := Bloom.Grows.reload hs hgr'
    refine ⟨z, ⟨g.file, written_at .., hz⟩, fun k hk => gz.contains k ?_⟩
    rcases List.mem_append.1 hk with hk | hk
    · exact hgg.contains k (a3 hbits0 k hk)
    · exact hg (hgr.hasBits.1 hbits0) k hk
  · rw [hp] at h
    simp only [Prod.mk.injEq, Option.some.injEq] at h
    exact Or.inr ⟨h.2.symm, hdb⟩

-- a filter for 100 entries with one entry; of three more lines, one is new
example : ((Bloom.v1 Sample.f1).insertBytes Sample.env [97#8]).1.From Sample.env 1#8 100 Sample.p001 .none ∧
    (∀ k ∈ [[97#8], [98#8], [98#8]],
      ((Bloom.v1 Sample.f1).insertBytes Sample.env [97#8]).1.containsBytes Sample.env k = .ok true ∨
        k ∈ ({[98#8]} : Finset (List U8))) ∧
    ((Bloom.v1 Sample.f1).insertBytes Sample.env [97#8]).1.countEstimate.toNat
      + ({[98#8]} : Finset (List U8)).card ≤ (100 : U64).toNat :=
  ⟨.insert _ from1, by decide +kernel, by decide +kernel⟩
/-- That filter in the file `out`, besides two files of one line each. -/
def Sample.used : World :=
  { twoFiles with fs := fun p => if p = "out" then some (Bloom.v1 f1).file else twoFiles.fs p }

-- a line from stdin, and two from files
example : Sample.used.open "out" = .ok (Reader.ofBytes (Bloom.v1 Sample.f1).file) ∧
    inputLines Sample.used ⟨[97#8], false⟩ true ["x", "y"] = [[97#8], [97#8], [98#8]].map Res.ok ∧
    (Cli.insert Sample.env Sample.used [0, 1, 0, 0, 1, 0, 1, 1, 0, 0] ⟨[97#8], false⟩
      ⟨true, "out", ["x", "y"]⟩ 2).2 = some (.ok ()) :=
  ⟨Sample.open_of (by rfl) (by decide +kernel), by decide +kernel, by decide +kernel⟩

end Poppy
