import Verif.Lemmas.Room
import Verif.Props.Creation
import Verif.Props.NoBits
import Verif.Props.Misc

/-! # A new filter takes as many entries as it was made for (C111) -/

namespace Poppy

open Spec

/-- A new v2 filter accepts every sequence of keys (of any type) with at most as many different
keys as its capacity: no insertion fails. -/
theorem C111_v2 [DecidableEq Key] {env : Env} (sp : env.libm.Spec) (hs : env.Small) {cap : U64}
    {fpp : F64} {opt : OptLevel} {f : V2} (h : V2.make env cap fpp opt = .ok f) (hc : cap ≠ 0)
    (ks : List Key) (hk : ks.dedup.length ≤ cap.toNat) : V2.AllOk env f ks :=
  V2.allOk_distinct sp hs h hc ks hk

/-- A new filter of any version accepts every sequence of entries with at most as many different
entries as its capacity, and contains them all afterwards unless it has no bits. -/
theorem C111_bloom {env : Env} (sp : env.libm.Spec) (hs : env.Small) {v : U8} {cap : U64}
    {fpp : F64} {opt : OptLevel} {b : Bloom}
    (h : Bloom.withVersionCapacityOpt env v cap fpp opt = .ok b) (hc : cap ≠ 0)
    (es : List (List U8)) (he : es.dedup.length ≤ cap.toNat) :
    b.AllOk env es ∧ ∃ g, b.fill env es = (g, .ok ()) ∧
      (b.HasBits → ∀ k ∈ es, g.containsBytes env k = .ok true) := by
  have hr := (Bloom.new_spec hs h).1
  have key : b.AllOk env es := by
    unfold Bloom.withVersionCapacityOpt at h
    split at h
    · obtain ⟨f, hf, rfl⟩ := Res.map_ok h
      rw [Bloom.allOk_v1]
      exact V1.allOk_distinct sp hs hf hc es he
    · split at h
      · obtain ⟨f, hf, rfl⟩ := Res.map_ok h
        rw [Bloom.allOk_v2]
        classical
        refine V2.allOk_distinct sp hs hf hc _ ?_
        rw [List.dedup_map_of_injective (fun a b h => by cases h; rfl), List.length_map]
        exact he
      · cases h
  have hfill := Bloom.fill_of_allOk key
  exact ⟨key, _, hfill, fun hb => C52_fill_contains hs hr hb hfill⟩

/-- Insertion from files into a new filter succeeds, with any number of jobs, if the files can be
read and have at most as many different lines as the capacity; then all lines are contained unless
the filter has no bits.  (In a build with overflow checks, adding the counts of the copies may
panic.) -/
theorem C111_parallel {env : Env} (sp : env.libm.Spec) (hs : env.Small) {v : U8} {cap : U64}
    {fpp : F64} {opt : OptLevel} {b : Bloom}
    (h : Bloom.withVersionCapacityOpt env v cap fpp opt = .ok b) (hc : cap ≠ 0) {w : Cli.World}
    {files : List Cli.Path} {es : List (List U8)} (hr : Cli.Reads w files es)
    (he : es.dedup.length ≤ cap.toNat) (jobs : ℕ) {s : Cli.Schedule} {r : Res Bloom}
    (hp : Cli.parallelInsert env w s b files jobs = some r) :
    (∃ g, r = .ok g ∧ (b.HasBits → ∀ k ∈ es, g.containsBytes env k = .ok true)) ∨
      r = .panic ∧ env.debug = true := by
  obtain ⟨hreach, _, _, _, hsame, _⟩ := Bloom.new_spec hs h
  rw [Cli.parallelInsert_some hp]
  have h3 : ∀ x, x <:+: es → b.AllOk env x := by
    intro x hx
    refine (C111_bloom sp hs h hc x (le_trans ?_ he)).1
    rw [← List.card_toFinset, ← List.card_toFinset]
    exact Finset.card_le_card fun k hk => by
      rw [List.mem_toFinset] at hk ⊢
      exact hx.subset hk
  rcases Cli.insertFiles_of_ok (jobs := jobs) hsame hr.1 hr.2 h3 with ⟨g, hg⟩ | hg
  · refine Or.inl ⟨g, hg, fun hb k hk => ?_⟩
    exact Cli.insertFiles_contains hs hreach hg
      (Or.inr ⟨hb, by rw [hr.2]; exact List.mem_map_of_mem hk⟩)
  · exact Or.inr hg

/-- From the wish to the answer: with a probability of at most 3/5 and memory for `n` buckets that
by the textbook formula hold `cap` entries, a v2 filter is created, `cap` different entries can be
inserted, and all are contained. -/
theorem C111_v2_end {env : Env} (hs : env.Small) (ac : env.libm.Accurate) {cap : U64} {fpp : F64}
    {p : ℚ} (hr : 2 ^ 52 ≤ fpp.toNat ∧ fpp.toNat ≤ 1023 * 2 ^ 52) (hp : FVal.ofBits fpp = .fin p)
    (h1 : p ≤ 3 / 5) {n : ℕ}
    (hn : cap.toNat * (1 + 2 ^ (-44 : ℤ)) ≤ n * (bestCapacity 32768 p * (1 - 2 ^ (-44 : ℤ)) - 1))
    (hl : n * 4096 ≤ env.allocLimit) (hc : cap ≠ 0) {es : List (List U8)}
    (he : es.dedup.length ≤ cap.toNat) :
    ∃ b g, Bloom.withVersionCapacityOpt env 2 cap fpp .none = .ok b ∧
      b.fill env es = (g, .ok ()) ∧ ∀ k ∈ es, g.containsBytes env k = .ok true := by
  obtain ⟨f, hf, _⟩ := C110_v2 ac (opt := .none) hr hp (h1.trans (by norm_num)) hn hl
    (fun h => by cases h) (fun h => by rcases h with h | h <;> cases h)
  have hb : Bloom.withVersionCapacityOpt env 2 cap fpp .none = .ok (.v2 f) := by
    unfold Bloom.withVersionCapacityOpt
    rw [if_neg (by decide), if_pos (by decide), hf]
    rfl
  obtain ⟨_, g, h2, h3⟩ := C111_bloom ac.spec hs hb hc es he
  exact ⟨_, g, hb, h2, h3 trivial⟩

/-- The same for v1 with memory for `n` words. -/
theorem C111_v1_end {env : Env} (hs : env.Small) (ac : env.libm.Accurate) {cap : U64} {fpp : F64}
    {opt : OptLevel} {p : ℚ} (hr : 2 ^ 52 ≤ fpp.toNat ∧ fpp.toNat ≤ 1023 * 2 ^ 52)
    (hp : FVal.ofBits fpp = .fin p) (h1 : p ≤ 3 / 5) {n : ℕ}
    (hn : bestBits cap.toNat p * (1 + 2 ^ (-44 : ℤ)) ≤ 64 * n)
    (hl : n * 8 ≤ env.allocLimit) (hc : cap ≠ 0) {es : List (List U8)}
    (he : es.dedup.length ≤ cap.toNat) :
    ∃ b g, Bloom.withVersionCapacityOpt env 1 cap fpp opt = .ok b ∧
      b.fill env es = (g, .ok ()) ∧ ∀ k ∈ es, g.containsBytes env k = .ok true := by
  obtain ⟨f, hf, _⟩ := C110_v1 hs ac hr hp hn hl
  have hb : Bloom.withVersionCapacityOpt env 1 cap fpp opt = .ok (.v1 f) := by
    unfold Bloom.withVersionCapacityOpt
    rw [if_pos (by decide), hf]
    rfl
  obtain ⟨_, g, h2, h3⟩ := C111_bloom ac.spec hs hb hc es he
  exact ⟨_, g, hb, h2, h3 ((C02_bits hs ac hf hp).2.2.1 hc h1)⟩

/-- Three insertions of two different entries into a filter for 40000. -/
example : ∃ b g, Bloom.withVersionCapacityOpt (Sample.envX true) 2 40000 Sample.half .none = .ok b ∧
    b.fill (Sample.envX true) [[1], [2], [1]] = (g, .ok ()) ∧
    ∀ k ∈ [[1], [2], [1]], g.containsBytes (Sample.envX true) k = .ok true := by
  obtain ⟨c1, c2⟩ := Sample.half_capacity
  refine C111_v2_end (Sample.envX_small true) (Sample.envX_accurate true) (n := 2) (by decide)
    Sample.half_eq (by norm_num) ?_ (by show 2 * 4096 ≤ 2 ^ 20; norm_num) (by decide) (by decide)
  rw [show (40000 : U64).toNat = 40000 from by decide]
  have e44 : (2 : ℝ) ^ (-44 : ℤ) = 1 / 2 ^ 44 := by norm_num
  rw [e44]
  push_cast at c1 ⊢
  linarith

end Poppy
