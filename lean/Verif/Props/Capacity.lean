import Verif.Props.Room
import Verif.Props.AbstractCli
import Verif.Props.Bench

/-! # Capacity and parallel insertion, exactly (more on C55), and the filter of `bench` (more on
C69) -/

namespace Poppy

open Spec Abs Cli

/-- Exactly when insertion from files succeeds (release build): the files, dealt out in consecutive
parts, can be read, and the lines of each part by itself can be inserted into the filter given.
Otherwise the command panics. -/
theorem C55_exact {env : Env} (hd : env.debug = false) {w : World} {s : Schedule} {bf : Bloom}
    (hp : bf.hasSameParams bf = .ok true) {files : List Path} {jobs : ℕ} {r : Res Bloom}
    (h : parallelInsert env w s bf files jobs = some r) :
    (∀ part ∈ deal (if jobs = 0 then w.cpus else jobs) files,
        ∃ es, Reads w part es ∧ (bf.fill env es).2 = .ok ()) ∧ (∃ g, r = .ok g) ∨
      (∃ part ∈ deal (if jobs = 0 then w.cpus else jobs) files,
        ∀ es, Reads w part es → (bf.fill env es).2 ≠ .ok ()) ∧ r = .panic := by
  have hb := batches_deal files (optimalJobs_pos w jobs)
  rw [parallelInsert_some h]
  change (∀ part ∈ deal (optimalJobs w jobs) files, _) ∧ _ ∨
    (∃ part ∈ deal (optimalJobs w jobs) files, _) ∧ _
  have one : ∀ part, (∃ es, Reads w part es ∧ (bf.fill env es).2 = .ok ()) →
      ∃ g, processFiles env w bf part = .ok g := by
    rintro part ⟨es, hr, he⟩
    exact ⟨_, processFiles_of_allOk hr.1 hr.2 (Bloom.fill_ok (Prod.ext rfl he)).2⟩
  by_cases hc : ∀ part ∈ deal (optimalJobs w jobs) files,
      ∃ es, Reads w part es ∧ (bf.fill env es).2 = .ok ()
  · refine Or.inl ⟨hc, ?_⟩
    unfold insertFiles
    split
    · exact ⟨bf, rfl⟩
    · rename_i hne
      rw [hb, Res.bind_ok]
      have : ∀ bs : List (List Path), (∀ part ∈ bs,
          ∃ es, Reads w part es ∧ (bf.fill env es).2 = .ok ()) →
          ∃ ess : List (List (List U8)), (∀ es ∈ ess, bf.AllOk env es) ∧ AllOpen w bs.flatten ∧
            bs.map (linesOf w) = ess.map (·.map Res.ok) := by
        intro bs
        induction bs with
        | nil => intro _; exact ⟨[], by simp, by simp [AllOpen], rfl⟩
        | cons b bs ih =>
          intro hc
          obtain ⟨es, hr, he⟩ := hc b (by simp)
          obtain ⟨ess, h1, h2, h3⟩ := ih (fun p hp => hc p (by simp [hp]))
          refine ⟨es :: ess, ?_, ?_, ?_⟩
          · intro x hx
            rcases List.mem_cons.1 hx with rfl | hx
            · exact (Bloom.fill_ok (Prod.ext rfl he)).2
            · exact h1 x hx
          · intro f hf
            rw [List.flatten_cons, List.mem_append] at hf
            exact hf.elim (hr.1 f) (h2 f)
          · rw [List.map_cons, List.map_cons, h3, hr.2]
      obtain ⟨ess, h1, h2, h3⟩ := this _ hc
      rw [workers_of_ok h1 h2 h3, Res.bind_ok]
      unfold reduce
      rw [← List.map_reverse]
      cases hr : ess.reverse with
      | nil =>
        exfalso
        have : ess = [] := by simpa using hr
        subst this
        have h4 : deal (optimalJobs w jobs) files = [] := by simpa using h3
        obtain ⟨_, hfl, _⟩ := batches_spec hb
        rw [h4] at hfl
        apply hne
        rw [← hfl]; rfl
      | cons d ds =>
        rcases mergeAll_total (env := env) (f := bf.inserts env d) (gs := ds.map (bf.inserts env))
          (by
            intro o ho
            obtain ⟨x, _, rfl⟩ := List.mem_map.1 ho
            exact inserts_sameParams hp d x) with ⟨g, hg⟩ | ⟨_, hg⟩
        · exact ⟨g, hg⟩
        · rw [hd] at hg; cases hg
  · push Not at hc
    refine Or.inr ⟨hc, ?_⟩
    obtain ⟨part, hm, hbad⟩ := hc
    have hne : ¬ files.isEmpty = true := by
      intro he
      have : files = [] := by simpa using he
      subst this
      simp [deal] at hm
    unfold insertFiles
    rw [if_neg hne, hb, Res.bind_ok]
    cases hj : joinEval ((deal (optimalJobs w jobs) files).map (processFiles env w bf)) with
    | ok bfs =>
      exfalso
      have := joinEval_ok hj
      have hx : processFiles env w bf part ∈ bfs.map Res.ok := by
        rw [← this]; exact List.mem_map_of_mem hm
      obtain ⟨g, _, hg⟩ := List.mem_map.1 hx
      obtain ⟨h1, es, h2, h3, _⟩ := processFiles_ok hg.symm
      exact hbad es ⟨h1, h2⟩ (by rw [Bloom.fill_of_allOk h3])
    | panic => rfl
    | err e =>
      exfalso
      rw [joinEval_eq] at hj
      split at hj <;> cases hj

/-- The violation in general: with as many jobs as files, a new filter for `cap` entries accepts up
to `cap` different lines from each file. -/
theorem C55_factor_violated {env : Env} (sp : env.libm.Spec) (hs : env.Small)
    (hd : env.debug = false) {v : U8} {cap : U64} {fpp : F64} {opt : OptLevel} {b : Bloom}
    (h : Bloom.withVersionCapacityOpt env v cap fpp opt = .ok b) (hc : cap ≠ 0) {w : World}
    {files : List Path}
    (hr : ∀ f ∈ files, ∃ es, Reads w [f] es ∧ es.dedup.length ≤ cap.toNat)
    (hf : files ≠ []) {s : Schedule} {r : Res Bloom}
    (hp : parallelInsert env w s b files files.length = some r) :
    ∃ g, r = .ok g ∧
      (b.HasBits → ∀ f ∈ files, ∀ k, Res.ok k ∈ linesOf w [f] → g.containsBytes env k = .ok true) := by
  obtain ⟨hreach, _, _, _, hsame, _⟩ := Bloom.new_spec hs h
  have hn : 0 < files.length := List.length_pos_iff.2 hf
  rcases C55_exact hd hsame hp with ⟨_, g, rfl⟩ | ⟨⟨part, hm, hbad⟩, _⟩
  · refine ⟨g, rfl, fun hb f hf k hk => ?_⟩
    refine insertFiles_contains hs hreach (parallelInsert_some hp).symm (Or.inr ⟨hb, ?_⟩)
    unfold linesOf at hk ⊢
    rw [List.flatMap_cons, List.flatMap_nil, List.append_nil] at hk
    exact List.mem_flatMap.2 ⟨f, hf, hk⟩
  · exfalso
    rw [if_neg (by omega)] at hm
    unfold deal at hm
    rw [Nat.div_self hn] at hm
    obtain ⟨i, hi, rfl⟩ := List.mem_map.1 hm
    simp only [max_self, Nat.add_sub_cancel, Nat.div_one, List.mem_range] at hi
    have e : (files.drop (i * max 1 1)).take (max 1 1) = [files[i]] := by
      rw [max_self, Nat.mul_one, List.drop_eq_getElem_cons hi]
      rfl
    rw [e] at hbad
    obtain ⟨es, h1, h2⟩ := hr files[i] (List.getElem_mem hi)
    obtain ⟨_, g, h3, _⟩ := C111_bloom sp hs h hc es h2
    exact hbad es h1 (by rw [h3])

/-- The filter made by `bench` contains every entry of the dataset if the probability is at most
3/5. -/
theorem C69_usual_partial {env : Env} (hs : env.Small) (ac : env.libm.Accurate) {w : World}
    {o : Benchmark} (hfile : o.file = none) {es : List (List U8)} {g : Bloom}
    (hn : es.length < 2 ^ 64) {p : ℚ} (hp : FVal.ofBits o.fpp = .fin p) (hp1 : p ≤ 3 / 5)
    (h : Tested env w o es g) : ∀ k ∈ es, g.containsBytes env k = .ok true := by
  intro k hk
  refine (C69_filter_partial hs hfile hn h).2.2.2.1 ?_ k hk
  cases h with
  | file h => rw [hfile] at h; cases h
  | @made lvl b _ _ ho hb hf =>
  rw [(Bloom.fill_ok hf).1]
  unfold Bloom.withVersionCapacityOpt at hb
  split at hb
  · obtain ⟨f, hf1, rfl⟩ := Res.map_ok hb
    rw [Bloom.inserts_v1]
    show (V1.inserts env f es).bitSize ≠ 0
    rw [(V1.inserts_ext env f es).bitSize]
    refine (C02_bits hs ac hf1 hp).2.2.1 ?_ hp1
    intro he
    have := congrArg BitVec.toNat he
    rw [BitVec.toNat_ofNat, Nat.mod_eq_of_lt hn] at this
    have hl := List.length_pos_of_mem hk
    simp at this
    rw [this] at hk
    cases hk
  · split at hb
    · obtain ⟨f, hf1, rfl⟩ := Res.map_ok hb
      rw [Bloom.inserts_v2]
      trivial
    · cases hb

-- two files for two jobs, a filter for one entry: each file has one line
example : ∀ f ∈ ["x", "y"], ∃ es, Reads Sample.world2 [f] es ∧ es.dedup.length ≤ (1 : U64).toNat := by
  intro f hf
  rcases List.mem_cons.1 hf with rfl | hf
  · exact ⟨[[97#8]], Sample.world2_reads_x, by decide⟩
  · rw [List.mem_singleton.1 hf]
    refine ⟨[[98#8]], ⟨?_, by decide +kernel⟩, by decide⟩
    intro f hf
    rw [List.mem_singleton.1 hf]
    exact ⟨_, rfl⟩
-- a new filter has the parameters of itself
example {f : V1} (h : V1.withCapacity Sample.env 1 Sample.p001 = .ok f) :
    (Bloom.v1 f).hasSameParams (Bloom.v1 f) = .ok true :=
  (Bloom.new_spec Sample.env_small (v := 1) (opt := .none) (by
    unfold Bloom.withVersionCapacityOpt; rw [if_pos (by decide), h]; rfl)).2.2.2.2.1

end Poppy
