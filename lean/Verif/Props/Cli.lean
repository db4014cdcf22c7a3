import Verif.Lemmas.CliInsert
import Verif.Samples

/-! # The command line tool (C53–C61) -/

namespace Poppy

open Spec Cli

/-! ## C53 work distribution -/

/-- The batches, concatenated, are the files in order; none is empty; there are at most `2j-1`, and
exactly `j` if `j` divides the number of files. -/
theorem C53_batches {α : Type} {files : List α} {jobs : ℕ} {bs : List (List α)}
    (h : batches files jobs = .ok bs) :
    bs.flatten = files ∧ (∀ b ∈ bs, b ≠ []) ∧ bs.length ≤ 2 * jobs - 1 ∧
      (files ≠ [] → jobs ∣ files.length → bs.length = jobs) := by
  obtain ⟨hj, h1, h2, h3⟩ := batches_spec h
  refine ⟨h1, h2, ?_, ?_⟩
  · by_cases hf : files = []
    · subst hf
      rw [h3]
      simp
    · rw [h3]
      exact (batches_count hj (List.length_pos_iff.2 hf) rfl).1
  · intro hf hd
    rw [h3]
    exact (batches_count hj (List.length_pos_iff.2 hf) rfl).2.1 hd

/-- Batches exist for every positive number of jobs; no job means a division by zero. -/
theorem C53_total {α : Type} (files : List α) (jobs : ℕ) :
    (0 < jobs → ∃ bs, batches files jobs = .ok bs) ∧ batches files 0 = .panic :=
  ⟨fun h => batches_ok files h, rfl⟩

/-- `create` and `insert` never divide by zero: `-j 0` stands for the number of processors. -/
theorem C53_jobs {α : Type} (w : World) (files : List α) (jobs : ℕ) :
    ∃ bs, batches files (optimalJobs w jobs) = .ok bs :=
  batches_ok files (optimalJobs_pos w jobs)

/-- The bound is attained: `2j-1` files make `2j-1` batches, so more than `j` threads run when
`j > 1`. -/
theorem C53_more_threads {α : Type} {files : List α} {jobs : ℕ} (hj : 0 < jobs)
    (hn : files.length = 2 * jobs - 1) {bs : List (List α)} (h : batches files jobs = .ok bs) :
    bs.length = 2 * jobs - 1 := by
  obtain ⟨_, _, _, h3⟩ := batches_spec h
  rw [h3, hn]
  have : (2 * jobs - 1) / jobs = 1 := by
    rw [Nat.div_eq_iff hj]; omega
  rw [this]
  simp

-- five files for three jobs
example : batches [1, 2, 3, 4, 5] 3 = .ok [[1], [2], [3], [4], [5]] := by decide
-- seven files for two jobs
example : batches [1, 2, 3, 4, 5, 6, 7] 2 = .ok [[1, 2, 3], [4, 5, 6], [7]] := by decide

/-! ## C54 insertion from files

A schedule says which thread makes the next step (opening a file, or inserting one line);
`parallelInsert … = some r` means that the command ends with the result `r` under the schedule. -/

/-- The result does not depend on the schedule. -/
theorem C54_deterministic {env : Env} {w : World} {s s' : Schedule} {bf : Bloom}
    {files : List Path} {jobs : ℕ} {r r' : Res Bloom}
    (h : parallelInsert env w s bf files jobs = some r)
    (h' : parallelInsert env w s' bf files jobs = some r') : r = r' := by
  rw [parallelInsert_some h, parallelInsert_some h']

/-- The command ends under every schedule that gives each thread enough steps. -/
theorem C54_terminates (env : Env) (w : World) (bf : Bloom) (files : List Path) (jobs : ℕ) :
    ∃ r N, ∀ s : Schedule, (∀ i < files.length, N ≤ s.count i) →
      parallelInsert env w s bf files jobs = some r :=
  ⟨_, parallelInsert_fair env w bf files jobs⟩

/-- On success, all files could be read, and exactly the bits of their lines were added
(version 2). -/
theorem C54_v2_bits {env : Env} {w : World} {s : Schedule} {f : V2} (hf : V2.Reach env f)
    {files : List Path} {jobs : ℕ} {g : Bloom}
    (h : parallelInsert env w s (.v2 f) files jobs = some (.ok g)) :
    ∃ es g', Reads w files es ∧ g = .v2 g' ∧
      g'.capacity = f.capacity ∧ g'.fpp = f.fpp ∧ g'.flags = f.flags ∧
      g'.nHashBuck = f.nHashBuck ∧ g'.data = f.data ∧ g'.buckets.length = f.buckets.length ∧
      g'.indexCache.asSlice.length = f.indexCache.asSlice.length ∧
      (∀ b i, g'.bucketBit b i = true ↔ f.bucketBit b i = true ∨
        ∃ k ∈ es, b = f.keyBucket env (.slice k) ∧
          ∃ n < f.nHashBuck.toNat, i = V2.keyProbe env (.slice k) n) ∧
      (∀ i, bitAt g'.indexCache.asSlice i = true ↔ bitAt f.indexCache.asSlice i = true ∨
        f.indexCache.asSlice ≠ [] ∧ ∃ k ∈ es, i = f.keyCache env (.slice k)) := by
  obtain ⟨h0, ess, d, ds, h1, h2, h3, hm, _⟩ := insertFiles_ok (parallelInsert_some h).symm
  rw [Bloom.inserts_v2] at hm
  have e : ds.map ((Bloom.v2 f).inserts env)
      = (ds.map fun x => V2.inserts env f (x.map Key.slice)).map Bloom.v2 := by
    rw [List.map_map]
    exact List.map_congr_left fun x _ => Bloom.inserts_v2 env f x
  rw [e] at hm
  obtain ⟨g', rfl, hu⟩ := mergeAll_v2 hm
  obtain ⟨sh, _, hb, hc⟩ := V2.unionAll_spec hu
  have sd := V2.inserts_shape env f (d.map Key.slice)
  have hok : ∀ x, x = d ∨ x ∈ ds → V2.AllOk env f (x.map Key.slice) := fun x hx =>
    (Bloom.allOk_v2 env f x).1 (h2 x ((mem_of_reverse h3 x).2 hx))
  have hall := sd.trans sh
  refine ⟨ess.flatten, g', ⟨h0, h1⟩, rfl, hall.capacity, hall.fpp, hall.flags, hall.nHash,
    hall.data, hall.blen, hall.clen, fun b i => ?_, fun i => ?_⟩
  · simp only [V2.bucketBit_eq, V2.keyBucket_eq, V2.keyProbe_eq]
    rw [hb, ((hok d (Or.inl rfl)).bits hf.wf).1]
    constructor
    · rintro ((h | ⟨k, hk, h⟩) | ⟨o, ho, h⟩)
      · exact Or.inl h
      · obtain ⟨k, hk', rfl⟩ := List.mem_map.1 hk
        exact Or.inr ⟨k, (mem_flatten_of_reverse h3 k).2 (Or.inl hk'), h⟩
      · obtain ⟨x, hx, rfl⟩ := List.mem_map.1 ho
        rw [((hok x (Or.inr hx)).bits hf.wf).1] at h
        rcases h with h | ⟨k, hk, h⟩
        · exact Or.inl h
        · obtain ⟨k, hk', rfl⟩ := List.mem_map.1 hk
          exact Or.inr ⟨k, (mem_flatten_of_reverse h3 k).2 (Or.inr ⟨x, hx, hk'⟩), h⟩
    · rintro (h | ⟨k, hk, h⟩)
      · exact Or.inl (Or.inl h)
      · rcases (mem_flatten_of_reverse h3 k).1 hk with hk | ⟨x, hx, hk⟩
        · exact Or.inl (Or.inr ⟨_, List.mem_map_of_mem hk, h⟩)
        · refine Or.inr ⟨_, List.mem_map_of_mem hx, ?_⟩
          rw [((hok x (Or.inr hx)).bits hf.wf).1]
          exact Or.inr ⟨_, List.mem_map_of_mem hk, h⟩
  · rw [hc, ((hok d (Or.inl rfl)).bits hf.wf).2]
    constructor
    · rintro ((h | ⟨hne, k, hk, h⟩) | ⟨o, ho, h⟩)
      · exact Or.inl h
      · obtain ⟨k, hk', rfl⟩ := List.mem_map.1 hk
        exact Or.inr ⟨hne, k, (mem_flatten_of_reverse h3 k).2 (Or.inl hk'), by
          rw [V2.keyCache_eq env hf.wf hne]; exact h⟩
      · obtain ⟨x, hx, rfl⟩ := List.mem_map.1 ho
        rw [((hok x (Or.inr hx)).bits hf.wf).2] at h
        rcases h with h | ⟨hne, k, hk, h⟩
        · exact Or.inl h
        · obtain ⟨k, hk', rfl⟩ := List.mem_map.1 hk
          exact Or.inr ⟨hne, k, (mem_flatten_of_reverse h3 k).2 (Or.inr ⟨x, hx, hk'⟩), by
            rw [V2.keyCache_eq env hf.wf hne]; exact h⟩
    · rintro (h | ⟨hne, k, hk, h⟩)
      · exact Or.inl (Or.inl h)
      · rw [V2.keyCache_eq env hf.wf hne] at h
        rcases (mem_flatten_of_reverse h3 k).1 hk with hk | ⟨x, hx, hk⟩
        · exact Or.inl (Or.inr ⟨hne, _, List.mem_map_of_mem hk, h⟩)
        · refine Or.inr ⟨_, List.mem_map_of_mem hx, ?_⟩
          rw [((hok x (Or.inr hx)).bits hf.wf).2]
          exact Or.inr ⟨hne, _, List.mem_map_of_mem hk, h⟩

/-- The same for version 1. -/
theorem C54_v1_bits {env : Env} (hs : env.Small) {w : World} {s : Schedule} {f : V1}
    (hf : V1.Reach env f) {files : List Path} {jobs : ℕ} {g : Bloom}
    (h : parallelInsert env w s (.v1 f) files jobs = some (.ok g)) :
    ∃ es g', Reads w files es ∧ g = .v1 g' ∧
      g'.capacity = f.capacity ∧ g'.fpp = f.fpp ∧ g'.flags = f.flags ∧ g'.nHash = f.nHash ∧
      g'.bitSize = f.bitSize ∧ g'.data = f.data ∧ g'.bitset.length = f.bitset.length ∧
      (∀ i, bitAt g'.bitset i = true ↔ bitAt f.bitset i = true ∨
        ∃ k ∈ es, ∃ n < f.nHash.toNat, i = dcsoProbe k f.bitSize.toNat n) := by
  obtain ⟨h0, ess, d, ds, h1, h2, h3, hm, _⟩ := insertFiles_ok (parallelInsert_some h).symm
  rw [Bloom.inserts_v1] at hm
  have e : ds.map ((Bloom.v1 f).inserts env) = (ds.map (V1.inserts env f)).map Bloom.v1 := by
    rw [List.map_map]
    exact List.map_congr_left fun x _ => Bloom.inserts_v1 env f x
  rw [e] at hm
  obtain ⟨g', rfl, hu⟩ := mergeAll_v1 hm
  obtain ⟨sh, _, hb⟩ := V1.unionAll_spec hu
  have hok : ∀ x, x = d ∨ x ∈ ds → V1.AllOk env f x := fun x hx =>
    (Bloom.allOk_v1 env f x).1 (h2 x ((mem_of_reverse h3 x).2 hx))
  have hall := (V1.inserts_shape env f d).trans sh
  have w' := hf.wf hs
  refine ⟨ess.flatten, g', ⟨h0, h1⟩, rfl, hall.capacity, hall.fpp, hall.flags, hall.nHash,
    hall.bitSize, hall.data, hall.len, fun i => ?_⟩
  rw [hb, (hok d (Or.inl rfl)).bits w']
  constructor
  · rintro ((h | ⟨k, hk, h⟩) | ⟨o, ho, h⟩)
    · exact Or.inl h
    · exact Or.inr ⟨k, (mem_flatten_of_reverse h3 k).2 (Or.inl hk), h⟩
    · obtain ⟨x, hx, rfl⟩ := List.mem_map.1 ho
      rw [(hok x (Or.inr hx)).bits w'] at h
      rcases h with h | ⟨k, hk, h⟩
      · exact Or.inl h
      · exact Or.inr ⟨k, (mem_flatten_of_reverse h3 k).2 (Or.inr ⟨x, hx, hk⟩), h⟩
  · rintro (h | ⟨k, hk, h⟩)
    · exact Or.inl (Or.inl h)
    · rcases (mem_flatten_of_reverse h3 k).1 hk with hk | ⟨x, hx, hk⟩
      · exact Or.inl (Or.inr ⟨_, hk, h⟩)
      · refine Or.inr ⟨_, List.mem_map_of_mem hx, ?_⟩
        rw [(hok x (Or.inr hx)).bits w']
        exact Or.inr ⟨_, hk, h⟩

/-- Every line and every previous member is contained afterwards. -/
theorem C54_members {env : Env} (hs : env.Small) {w : World} {s : Schedule} {bf g : Bloom}
    (hf : bf.Reach env) {files : List Path} {jobs : ℕ}
    (h : parallelInsert env w s bf files jobs = some (.ok g)) {es : List (List U8)}
    (hr : Reads w files es) (k : List U8) :
    (bf.containsBytes env k = .ok true → g.containsBytes env k = .ok true) ∧
    (bf.HasBits → k ∈ es → g.containsBytes env k = .ok true) :=
  ⟨fun hk => insertFiles_contains hs hf (parallelInsert_some h).symm (Or.inl hk),
    fun hb hk => insertFiles_contains hs hf (parallelInsert_some h).symm
      (Or.inr ⟨hb, by rw [hr.2]; exact List.mem_map_of_mem hk⟩)⟩

/-- If inserting all lines one after the other succeeds, parallel insertion gives the same bits:
every query has the same answer. -/
theorem C54_sequential {env : Env} (hs : env.Small) {w : World} {s : Schedule} {bf g : Bloom}
    (hf : bf.Reach env) {files : List Path} {jobs : ℕ}
    (h : parallelInsert env w s bf files jobs = some (.ok g)) {es : List (List U8)}
    (hr : Reads w files es) (hseq : bf.AllOk env es) (k : List U8) :
    g.containsBytes env k = (bf.inserts env es).containsBytes env k := by
  obtain ⟨h0, ess, d, ds, h1, h2, h3, hm, _⟩ := insertFiles_ok (parallelInsert_some h).symm
  have hes : es = ess.flatten := by
    have := hr.2.symm.trans h1
    exact (List.map_injective_iff.2 (fun a b h => Res.ok.inj h)) this
  subst hes
  cases bf with
  | v1 f =>
    rw [Bloom.inserts_v1] at hm ⊢
    have e : ds.map ((Bloom.v1 f).inserts env) = (ds.map (V1.inserts env f)).map Bloom.v1 := by
      rw [List.map_map]
      exact List.map_congr_left fun x _ => Bloom.inserts_v1 env f x
    rw [e] at hm
    obtain ⟨g', rfl, hu⟩ := mergeAll_v1 hm
    have hok : ∀ x, x = d ∨ x ∈ ds → V1.AllOk env f x := fun x hx =>
      (Bloom.allOk_v1 env f x).1 (h2 x ((mem_of_reverse h3 x).2 hx))
    exact (C18_v1 hs hf (hok d (Or.inl rfl)) (fun x hx => hok x (Or.inr hx)) hu
      ((Bloom.allOk_v1 env f _).1 hseq) (mem_flatten_of_reverse h3)).2 k
  | v2 f =>
    rw [Bloom.inserts_v2] at hm ⊢
    have e : ds.map ((Bloom.v2 f).inserts env)
        = ((ds.map (List.map Key.slice)).map (V2.inserts env f)).map Bloom.v2 := by
      rw [List.map_map, List.map_map]
      exact List.map_congr_left fun x _ => Bloom.inserts_v2 env f x
    rw [e] at hm
    obtain ⟨g', rfl, hu⟩ := mergeAll_v2 hm
    have hok : ∀ x, x = d ∨ x ∈ ds → V2.AllOk env f (x.map Key.slice) := fun x hx =>
      (Bloom.allOk_v2 env f x).1 (h2 x ((mem_of_reverse h3 x).2 hx))
    refine (C18_v2 hf (hok d (Or.inl rfl)) ?_ hu ((Bloom.allOk_v2 env f _).1 hseq) ?_).2.2 (.slice k)
    · intro x hx
      obtain ⟨y, hy, rfl⟩ := List.mem_map.1 hx
      exact hok y (Or.inr hy)
    · intro k
      constructor
      · intro hk
        obtain ⟨k, hk', rfl⟩ := List.mem_map.1 hk
        rcases (mem_flatten_of_reverse h3 k).1 hk' with hk' | ⟨x, hx, hk'⟩
        · exact Or.inl (List.mem_map_of_mem hk')
        · exact Or.inr ⟨_, List.mem_map_of_mem hx, List.mem_map_of_mem hk'⟩
      · rintro (hk | ⟨x, hx, hk⟩)
        · obtain ⟨k, hk', rfl⟩ := List.mem_map.1 hk
          exact List.mem_map_of_mem ((mem_flatten_of_reverse h3 k).2 (Or.inl hk'))
        · obtain ⟨y, hy, rfl⟩ := List.mem_map.1 hx
          obtain ⟨k, hk', rfl⟩ := List.mem_map.1 hk
          exact List.mem_map_of_mem ((mem_flatten_of_reverse h3 k).2 (Or.inr ⟨y, hy, hk'⟩))

namespace Sample

/-- Three readable files: `a\n`, `b\nc` and an invalid one. -/
def world : World where
  fs := fun p => if p = "x" then some [97#8, 10#8] else if p = "y" then some [98#8, 10#8, 99#8]
    else if p = "z" then some [255#8] else none
  access := fun _ => .full
  creatable := fun _ => true
  disk := none
  cpus := 2
  cpus_pos := by decide

theorem world_reads : Reads world ["x", "y"] [[97#8], [98#8], [99#8]] := by
  refine ⟨?_, by decide +kernel⟩
  intro f hf
  simp only [List.mem_cons, List.not_mem_nil, or_false] at hf
  rcases hf with rfl | rfl
  · exact ⟨Reader.ofBytes [97#8, 10#8], rfl⟩
  · exact ⟨Reader.ofBytes [98#8, 10#8, 99#8], rfl⟩

/-- The threads take turns. -/
def turns : Schedule := [0, 1, 0, 1, 0, 1, 0, 1, 0, 1]

/-- The second thread waits for the first one. -/
def inOrder : Schedule := [0, 0, 0, 0, 0, 1, 1, 1, 1, 1]

theorem world_insert : ∃ g, parallelInsert env world turns (.v1 f1) ["x", "y"] 2 = some (.ok g) ∧
    parallelInsert env world inOrder (.v1 f1) ["x", "y"] 2 = some (.ok g) ∧
    g.containsBytes env [97#8] = .ok true ∧ g.containsBytes env [99#8] = .ok true ∧
    g.containsBytes env [100#8] = .ok false := by
  have h : (match parallelInsert env world turns (.v1 f1) ["x", "y"] 2,
      parallelInsert env world inOrder (.v1 f1) ["x", "y"] 2 with
    | some (.ok g), some (.ok _) =>
      decide (g.containsBytes env [97#8] = .ok true ∧ g.containsBytes env [99#8] = .ok true ∧
        g.containsBytes env [100#8] = .ok false)
    | _, _ => false) = true := by decide +kernel
  split at h
  · rename_i g g' e1 e2
    cases C54_deterministic e1 e2
    exact ⟨g, e1, e2, of_decide_eq_true h⟩
  · exact absurd h (by decide)

/-- Two files of one line each. -/
def world2 : World where
  fs := fun p => if p = "x" then some [97#8, 10#8] else if p = "y" then some [98#8] else none
  access := fun _ => .full
  creatable := fun _ => true
  disk := none
  cpus := 2
  cpus_pos := by decide

theorem world2_reads : Reads world2 ["x", "y"] [[97#8], [98#8]] := by
  refine ⟨?_, by decide +kernel⟩
  intro f hf
  simp only [List.mem_cons, List.not_mem_nil, or_false] at hf
  rcases hf with rfl | rfl
  · exact ⟨Reader.ofBytes [97#8, 10#8], rfl⟩
  · exact ⟨Reader.ofBytes [98#8], rfl⟩

theorem world2_reads_x : Reads world2 ["x"] [[97#8]] :=
  ⟨fun f hf => world2_reads.1 f (by simp at hf; simp [hf]), by decide +kernel⟩

end Sample

example : ∃ g, parallelInsert Sample.env Sample.world Sample.turns (.v1 Sample.f1) ["x", "y"] 2
    = some (.ok g) ∧ (Bloom.v1 Sample.f1).Reach Sample.env ∧ (Bloom.v1 Sample.f1).HasBits :=
  ⟨_, Sample.world_insert.choose_spec.1, V1.Reach.make Sample.f1_make,
    show (958#64 : U64) ≠ 0 by decide⟩

/-! ## C55 capacity -/

/-- The code violates the property: a filter for one entry accepts two from two files, which one
after the other are refused. -/
theorem C55_violated : ∃ f g, V1.withCapacity Sample.env 1 Sample.p001 = .ok f ∧
    Reads Sample.world2 ["x", "y"] [[97#8], [98#8]] ∧
    parallelInsert Sample.env Sample.world2 Sample.turns (.v1 f) ["x", "y"] 2 = some (.ok g) ∧
    (Bloom.v1 f).containsBytes Sample.env [97#8] = .ok false ∧
    (Bloom.v1 f).containsBytes Sample.env [98#8] = .ok false ∧
    g.containsBytes Sample.env [97#8] = .ok true ∧ g.containsBytes Sample.env [98#8] = .ok true ∧
    ((Bloom.v1 f).fill Sample.env [[97#8], [98#8]]).2 = .err .tooManyEntries := by
  have h : (match V1.withCapacity Sample.env 1 Sample.p001 with
    | .ok f => match parallelInsert Sample.env Sample.world2 Sample.turns (.v1 f) ["x", "y"] 2 with
      | some (.ok g) =>
        decide ((Bloom.v1 f).containsBytes Sample.env [97#8] = .ok false ∧
          (Bloom.v1 f).containsBytes Sample.env [98#8] = .ok false ∧
          g.containsBytes Sample.env [97#8] = .ok true ∧
          g.containsBytes Sample.env [98#8] = .ok true ∧
          ((Bloom.v1 f).fill Sample.env [[97#8], [98#8]]).2 = .err .tooManyEntries)
      | _ => false
    | _ => false) = true := by decide +kernel
  split at h
  · rename_i f hf
    split at h
    · rename_i g hg
      exact ⟨f, g, hf, Sample.world2_reads, hg, of_decide_eq_true h⟩
    · exact absurd h (by decide)
  · exact absurd h (by decide)

/-- What holds: the lines are split, in order, into at most `2j-1` parts, each of which could be
inserted into the original filter without exceeding its capacity. -/
theorem C55_partial {env : Env} (hs : env.Small) {w : World} {s : Schedule} {bf g : Bloom}
    (hf : bf.Reach env) (hle : bf.countEstimate.toNat ≤ bf.capacity.toNat) {files : List Path}
    {jobs : ℕ} (h : parallelInsert env w s bf files jobs = some (.ok g)) :
    ∃ ess : List (List (List U8)), Reads w files ess.flatten ∧
      ess.length ≤ 2 * optimalJobs w jobs - 1 ∧
      ∀ es ∈ ess, (∃ g', bf.fill env es = (g', .ok ()) ∧
        g'.countEstimate.toNat ≤ bf.capacity.toNat) := by
  obtain ⟨h0, ess, d, ds, h1, h2, _, _, h3, _⟩ := insertFiles_ok (parallelInsert_some h).symm
  refine ⟨ess, ⟨h0, h1⟩, h3, fun es hes => ⟨_, Bloom.fill_of_allOk (h2 es hes), ?_⟩⟩
  cases bf with
  | v1 f => rw [Bloom.inserts_v1]; exact (C09_v1 hs hf hle es).2.1
  | v2 f => rw [Bloom.inserts_v2]; exact (C09_v2 hf hle (es.map Key.slice)).2.1

/-- With one job, or one file, the capacity is respected: it is sequential insertion. -/
theorem C55_one_job {env : Env} (hs : env.Small) {w : World} {s : Schedule} {bf g : Bloom}
    (hf : bf.Reach env) (hle : bf.countEstimate.toNat ≤ bf.capacity.toNat) {files : List Path}
    {jobs : ℕ} (h : parallelInsert env w s bf files jobs = some (.ok g))
    (h1 : optimalJobs w jobs = 1 ∨ files.length ≤ 1) :
    ∃ es, Reads w files es ∧ bf.fill env es = (g, .ok ()) ∧
      g.countEstimate.toNat ≤ bf.capacity.toNat := by
  have hcap : ∀ es, (bf.inserts env es).countEstimate.toNat ≤ bf.capacity.toNat := by
    intro es
    cases bf with
    | v1 f => rw [Bloom.inserts_v1]; exact (C09_v1 hs hf hle es).2.1
    | v2 f => rw [Bloom.inserts_v2]; exact (C09_v2 hf hle (es.map Key.slice)).2.1
  obtain ⟨h0, ess, d, ds, hl, h2, h3, hm, hlen, hlen'⟩ := insertFiles_ok (parallelInsert_some h).symm
  have hds : ds = [] := by
    have := congrArg List.length h3
    rw [List.length_reverse, List.length_cons] at this
    rw [← List.length_eq_zero_iff]
    rcases h1 with h1 | h1
    · rw [h1] at hlen; omega
    · omega
  subst hds
  rw [List.reverse_eq_iff] at h3
  have h3 : ess = [d] := by simpa using h3
  subst h3
  cases hm
  refine ⟨d, ⟨h0, by simpa using hl⟩, Bloom.fill_of_allOk (h2 d (by simp)), hcap d⟩

example : (Bloom.v1 Sample.f1).countEstimate.toNat ≤ (Bloom.v1 Sample.f1).capacity.toNat := by
  decide
example : optimalJobs Sample.world 1 = 1 := rfl

end Poppy
