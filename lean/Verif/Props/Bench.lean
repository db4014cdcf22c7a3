import Verif.Lemmas.Bench
import Verif.Model.Bench
import Verif.Lemmas.CliCommands
import Verif.Props.Constructor
import Verif.Props.CliCommands
import Verif.Props.Compat

/-! # The `bench` command (C69, C70) -/

namespace Poppy

open Spec Cli

/-! ## C69 dataset -/

/-- If `bench` succeeds, a dataset and a filter were prepared as specified by `Setup`, and only one
of each. -/
theorem C69_setup {fmt : Fmt} {env : Env} {w : World} {h : List U8 → U64}
    {mc : Measure} {rng : BenchRng} {stdin : Stdin} {o : Benchmark}
    (hlen : stdin.bytes.length < 2 ^ 64) (hv : bench fmt env w h mc rng stdin o = .ok ()) :
    ∃ es b, Setup env w h stdin o es b ∧
      ∀ es' b', Setup env w h stdin o es' b' → es' = es ∧ b' = b := by
  rw [bench_eq] at hv
  simp only [Res.bind_eq_ok] at hv
  obtain ⟨limit, h1, es, h2, b, h3, _⟩ := hv
  refine ⟨es, b, (setup_iff hlen).1 ⟨limit, h1, h2, h3⟩, fun es' b' s' => ?_⟩
  obtain ⟨l', k1, k2, k3⟩ := (setup_iff hlen).2 s'
  rw [h1] at k1
  cases k1
  rw [h2] at k2
  cases k2
  rw [h3] at k3
  cases k3
  exact ⟨rfl, rfl⟩

/-- A standard input whose reading fails makes `bench` fail, unless it stopped reading before because
of the limit. -/
theorem C69_stdin_reports {fmt : Fmt} {env : Env} {w : World} {h : List U8 → U64}
    {mc : Measure} {rng : BenchRng} {bs : List U8} {o : Benchmark} {limit : ℕ}
    (hl : sizeLimit env.debug o.sizeMb.toNat = some limit) (hb : bs.length ≤ limit) :
    bench fmt env w h mc rng ⟨bs, true⟩ o ≠ .ok () := by
  intro hv
  have hlt : bs.length < 2 ^ 64 := by
    refine lt_of_le_of_lt hb ?_
    unfold sizeLimit at hl
    rw [if_neg (fun hc => by rw [if_pos hc] at hl; cases hl)] at hl
    rw [← Option.some.inj hl]
    exact Nat.mod_lt _ (by norm_num)
  obtain ⟨es, _, ⟨⟨l', h1, pre, rest, h2, h3, h4, h5⟩, _⟩, _⟩ := C69_setup (stdin := ⟨bs, true⟩) hlt hv
  rw [hl] at h1
  cases h1
  have herr : Res.err (.ioError .other) ∈ (Stdin.mk bs true).lines := brokenLinesAux_err _ _
  have htot := total_stdin ⟨bs, true⟩
  rw [h2] at herr htot
  rcases h5 with rfl | ⟨_, h5⟩
  · rw [List.append_nil] at herr
    obtain ⟨_, _, he⟩ := List.mem_map.1 herr
    cases he
  · rw [entries_append, entries_ok] at htot
    have hsub := firsts_sublist h pre
    have : total es ≤ total pre := by
      rw [h3]
      exact ((hsub.map List.length).sum_le_sum (by simp))
    have : total (pre ++ entries rest) = total pre + total (entries rest) := by simp [total]
    simp only at htot
    omega

/-- The entries are lines of the input in order, without duplicates, and every line read has the
hash of an entry. -/
theorem C69_firsts (h : List U8 → U64) (pre : List (List U8)) :
    (firsts h pre).Sublist pre ∧ (firsts h pre).Nodup ∧ ((firsts h pre).map h).Nodup ∧
      (∀ x ∈ pre, ∃ y ∈ firsts h pre, h y = h x) ∧
      ((∀ x ∈ pre, ∀ y ∈ pre, h x = h y → x = y) → ∀ x, x ∈ firsts h pre ↔ x ∈ pre) := by
  have hs := firsts_sublist h pre
  refine ⟨hs, .of_map h (firsts_nodup h pre), firsts_nodup h pre, mem_firsts h pre,
    fun hinj x => ⟨fun hx => hs.subset hx, fun hx => ?_⟩⟩
  obtain ⟨y, hy, e⟩ := mem_firsts h pre x hx
  rw [← hinj y (hs.subset hy) x hx e]
  exact hy

/-- The entries are lines of the input, in order, without duplicates; without the last one they
are within the limit. -/
theorem C69_entries {h : List U8 → U64} {limit : ℕ} {ls : List (Res (List U8))}
    {es : List (List U8)} (hd : Dataset h limit ls es) :
    es.Sublist (entries ls) ∧ es.Nodup ∧ total es.dropLast ≤ limit := by
  obtain ⟨pre, rest, rfl, rfl, h3, _⟩ := hd
  obtain ⟨f1, f2, _⟩ := C69_firsts h pre
  refine ⟨?_, f2, total_dropLast_firsts h h3⟩
  rw [entries_append, entries_ok]
  exact f1.trans (List.sublist_append_left _ _)

/-- If the input fits in the limit, and no two different lines have the same hash, the entries are
the lines of the input. -/
theorem C69_whole_input (h : List U8 → U64) (limit : ℕ) (ls : List (List U8))
    (hl : total ls ≤ limit) (hinj : ∀ x ∈ ls, ∀ y ∈ ls, h x = h y → x = y) :
    ∃ es, (∀ es', Dataset h limit (ls.map Res.ok) es' ↔ es' = es) ∧ es.Nodup ∧ es.Sublist ls ∧
      ∀ x, x ∈ es ↔ x ∈ ls := by
  have hle : ∀ p, p <+: ls → total (firsts h p) ≤ limit := fun p hp =>
    (((C69_firsts h p).1.trans hp.sublist).map List.length |>.sum_le_sum (by simp)).trans hl
  obtain ⟨f1, f2, _, _, f5⟩ := C69_firsts h ls
  refine ⟨firsts h ls, fun es' => ⟨?_, ?_⟩, f2, f1, f5 hinj⟩
  · rintro ⟨pre, rest, h1, rfl, _, h4⟩
    have h2 : ls = pre ++ entries rest := by
      have := congrArg entries h1
      rwa [entries_ok, entries_append, entries_ok] at this
    rcases h4 with rfl | ⟨_, hlt⟩
    · rw [h2]; simp [entries]
    · have := hle pre ⟨_, h2.symm⟩
      omega
  · rintro rfl
    exact ⟨ls, [], by simp, rfl, fun p hp _ => hle p hp, .inl rfl⟩

/-- Three lines, the third is the first again. -/
example : let h : List U8 → U64 := fun l => (l.headD 0).setWidth 64
    let ls : List (List U8) := [[65#8], [66#8, 67#8], [65#8]]
    total ls ≤ 10 ∧ (∀ x ∈ ls, ∀ y ∈ ls, h x = h y → x = y) ∧
      Dataset h 10 (ls.map Res.ok) [[65#8], [66#8, 67#8]] ∧
      Dataset h 0 (ls.map Res.ok) [[65#8]] := by
  refine ⟨by decide, by decide, ⟨[[65#8], [66#8, 67#8], [65#8]], [], rfl, by decide, ?_, .inl rfl⟩,
    ⟨[[65#8]], [.ok [66#8, 67#8], .ok [65#8]], rfl, by decide, ?_, .inr ⟨⟨_, _, rfl⟩, by decide⟩⟩⟩
  · intro p hp
    have := (List.mem_inits p _).2 hp
    clear hp
    revert p
    decide
  · intro p hp
    have := (List.mem_inits p _).2 hp
    clear hp
    revert p
    decide

/-- The limit: that many megabytes.  `--size-mb 0` stands for more than 18 exabytes in release
builds. -/
theorem C69_limit_partial (debug : Bool) (mb : ℕ) :
    (mb ≠ 0 → mb < 2 ^ 44 → sizeLimit debug mb = some (mb * 2 ^ 20)) ∧
    sizeLimit false 0 = some (2 ^ 64 - 2 ^ 20) := by
  refine ⟨fun h0 hm => ?_, by decide⟩
  unfold sizeLimit
  rw [if_neg h0, if_neg (by omega), Nat.mod_eq_of_lt (by omega)]

/-- `--size-mb 0` ("full dataset size") panics in debug builds. -/
theorem C69_limit_violated (fmt : Fmt) (env : Env) (hd : env.debug = true) (w : World)
    (h : List U8 → U64) (mc : Measure) (rng : BenchRng) (stdin : Stdin)
    (o : Benchmark) (h0 : o.sizeMb = 0) : bench fmt env w h mc rng stdin o = .panic := by
  have : benchLimit env.debug o.sizeMb = .panic := by
    unfold benchLimit
    rw [if_pos h0]
    exact (C63_from_mb _ _).2.1 (by decide +kernel) hd
  rw [bench_eq]
  rw [this]
  rfl

/-- The filter made by `bench` has one place per entry, and contains every entry if it has bits at
all (it has in version 2). -/
theorem C69_filter_partial {env : Env} (hs : env.Small) {w : World} {o : Benchmark}
    (hfile : o.file = none) {es : List (List U8)} {g : Bloom} (hn : es.length < 2 ^ 64)
    (h : Tested env w o es g) :
    g.version = o.version ∧ g.capacity.toNat = es.length ∧ g.fpp = o.fpp ∧
      (g.HasBits → ∀ k ∈ es, g.containsBytes env k = .ok true) ∧
      (o.version = 2#8 → g.HasBits) := by
  cases h with
  | file h => rw [hfile] at h; cases h
  | @made lvl b _ _ ho hb hf =>
  obtain ⟨hr, hcap, hfpp, _⟩ := Bloom.new_spec hs hb
  have hv := C44_version env _ _ _ _ _ hb
  have key : g.version = b.version ∧ g.capacity = b.capacity ∧ g.fpp = b.fpp ∧
      (g.HasBits ↔ b.HasBits) := by
    rw [(Bloom.fill_ok hf).1]
    cases b with
    | v1 f =>
      rw [Bloom.inserts_v1]
      have e := V1.inserts_ext env f es
      exact ⟨rfl, e.capacity, e.fpp, by
        show (V1.inserts env f es).bitSize ≠ 0 ↔ f.bitSize ≠ 0
        rw [e.bitSize]⟩
    | v2 f =>
      rw [Bloom.inserts_v2]
      have e := V2.inserts_ext env f (es.map .slice)
      exact ⟨rfl, e.capacity, e.fpp, Iff.rfl⟩
  obtain ⟨k1, k2, k3, k4⟩ := key
  refine ⟨k1.trans hv, ?_, k3.trans hfpp, fun hg => C52_fill_contains hs hr (k4.1 hg) hf, ?_⟩
  · rw [k2, hcap, BitVec.toNat_ofNat, Nat.mod_eq_of_lt hn]
  · intro hv2
    rw [hv2] at hv
    rw [k4]
    cases b with
    | v1 f => cases hv
    | v2 f => trivial

/-- Making the filter fails only if the arguments of the constructor are refused. -/
theorem C69_filter_made {env : Env} (sp : env.libm.Spec) (hs : env.Small) {w : World}
    {o : Benchmark} (hfile : o.file = none) {lvl : OptLevel} {es : List (List U8)} {b : Bloom}
    (hn : es.length < 2 ^ 64) (ho : OptLevel.tryFrom o.opt = .ok lvl)
    (hb : Bloom.withVersionCapacityOpt env o.version (BitVec.ofNat 64 es.length) o.fpp lvl
      = .ok b) :
    ∃ g, Tested env w o es g := by
  obtain ⟨_, _, _, _, _, hall⟩ := Bloom.new_spec hs hb
  have := hall sp es (by rw [BitVec.toNat_ofNat, Nat.mod_eq_of_lt hn])
  exact ⟨_, .made hfile ho hb (Bloom.fill_of_allOk this)⟩

/-- A filter file is tested exactly if it loads and contains every entry. -/
theorem C69_file {env : Env} {w : World} {o : Benchmark} {f : Path} (hf : o.file = some f)
    {es : List (List U8)} {b : Bloom} :
    Tested env w o es b ↔
      ∃ bs, w.open f = .ok (.ofBytes bs) ∧ Bloom.fromReader env (Reader.ofBytes bs) = .ok b ∧
        ∀ e ∈ es, b.containsBytes env e = .ok true := by
  constructor
  · intro h
    cases h with
    | file h h1 h2 h3 =>
      rw [hf] at h
      cases h
      exact ⟨_, h1, h2, h3⟩
    | made h => rw [hf] at h; cases h
  · rintro ⟨bs, h1, h2, h3⟩
    exact .file hf h1 h2 h3

/-! ## C70 verdict -/

/-- The rate of a round is the share of the mutated lines that are answered true, rounded; it is NaN
when no line was mutated. -/
theorem rate_of_round {env : Env} {b : Bloom} {ls : List (Bool × List U8)} {s : Stats}
    (hn : ls.length < 2 ^ 53) (h : benchStats env b ls Stats.new = .ok s) :
    (s.fpRate = .nan ↔ mutatedOf ls = []) ∧
    (mutatedOf ls ≠ [] → ∃ q : ℚ, s.fpRate = .fin q ∧ 0 ≤ q ∧ q ≤ 1 ∧
      q = rndQ (((mutatedOf ls).countP fun l => decide (b.containsBytes env l = .ok true) : ℕ)
        / (mutatedOf ls).length : ℚ) ∧
      ((∀ l ∈ mutatedOf ls, b.containsBytes env l = .ok false) → q = 0) ∧
      ((∀ l ∈ mutatedOf ls, b.containsBytes env l = .ok true) → q = 1)) := by
  obtain ⟨rfl, _⟩ := benchStats_ok h
  have hev : benchEvents env b ls = (mutatedOf ls).map fun l =>
      if b.containsBytes env l = .ok true then .fp else .tn := by
    simp [benchEvents, mutatedOf]
  have hlen : (mutatedOf ls).length ≤ ls.length := by
    simpa [mutatedOf] using List.length_filter_le _ _
  generalize mutatedOf ls = M at hev hlen ⊢
  rw [hev]
  have hfp : ∀ M : List (List U8), (M.map fun l => if b.containsBytes env l = .ok true then
      Stats.Event.fp else .tn).count .fp
        = M.countP fun l => decide (b.containsBytes env l = .ok true) := by
    intro M
    induction M with
    | nil => rfl
    | cons l M ih =>
      by_cases hc : b.containsBytes env l = .ok true <;> simp [hc, ih]
  have htn : ∀ M : List (List U8), (M.map fun l => if b.containsBytes env l = .ok true then
      Stats.Event.fp else .tn).count .fp + (M.map fun l => if b.containsBytes env l = .ok true then
      Stats.Event.fp else .tn).count .tn = M.length := by
    intro M
    induction M with
    | nil => rfl
    | cons l M ih =>
      by_cases hc : b.containsBytes env l = .ok true <;> simp [hc] <;> omega
  obtain ⟨_, h1, h2⟩ := C64_stats (M.map fun l => if b.containsBytes env l = .ok true then
    Stats.Event.fp else .tn) (by rw [List.length_map]; omega)
  have hM := htn M
  refine ⟨?_, fun hne => ?_⟩
  · rw [h1, ← List.length_eq_zero_iff]
    omega
  · have hpos : M.length ≠ 0 := by rwa [ne_eq, List.length_eq_zero_iff]
    obtain ⟨q, q1, q2, q3, q4, q5, q6⟩ := h2 (by omega)
    refine ⟨q, q1, q2, q3, ?_, fun hall => q5 ?_, fun hall => q6 ?_⟩
    · rw [q4, ← hfp]
      congr 2
      exact_mod_cast hM
    · rw [hfp, List.countP_eq_zero]
      intro l hl
      rw [hall l hl]
      simp
    · have : M.countP (fun l => decide (b.containsBytes env l = .ok true)) = M.length := by
        rw [List.countP_eq_length]
        intro l hl
        rw [hall l hl]
        simp
      rw [hfp, this] at hM
      omega

theorem benchBloom_reach {env : Env} (hs : env.Small) {w : World} {o : Benchmark}
    {es : List (List U8)} {b : Bloom} (h : benchBloom env w o es = .ok b) : b.Reach env := by
  cases benchBloom_iff.1 h with
  | file _ _ h1 => exact Bloom.Reach.load h1
  | made _ _ hc hfill =>
    rw [(Bloom.fill_ok hfill).1]
    exact (Bloom.new_spec hs hc).1.inserts es

/-- If no mutated line is answered true, `bench` succeeds: it fails only if some mutated line is.
The filter and the tolerance must be sane: a version 1 file may hold any probability. -/
theorem C70_fails_only_partial {fmt : Fmt} {env : Env} (hs : env.Small) {w : World}
    {h : List U8 → U64} {mc : Measure} {o : Benchmark} (hmean : MeanSpec mc.mean)
    (hms : MeasureSpec mc.mean mc.stdDev mc.clock o.runs) {rng : BenchRng}
    {stdin : Stdin} {es : List (List U8)} {b : Bloom}
    (hlen : stdin.bytes.length < 2 ^ 64) (hset : Setup env w h stdin o es b) (hn : es.length < 2 ^ 53)
    (hc : ∀ k, ∃ r, b.containsBytes env k = .ok r) (hr : o.runs ≠ 0)
    (hf : 2 ^ 52 ≤ b.fpp.toNat ∧ b.fpp.toNat ≤ 1023 * 2 ^ 52) {t : ℚ}
    (ht : FVal.ofBits o.fpTol = .fin t) (h0 : 0 ≤ t) :
    bench fmt env w h mc rng stdin o = .ok () ∨
      ∃ m ∈ [10, 20, 30, 40, 50, 60, 70, 80, 90, 100],
        ∃ k ∈ mutants rng (rng.shuffle es) (o.testSize.getD es.length) m,
          b.containsBytes env k = .ok true := by
  obtain ⟨limit, hl, he, hb⟩ := (setup_iff hlen).2 hset
  by_contra hcon
  push Not at hcon
  obtain ⟨hne, hno⟩ := hcon
  apply hne
  obtain ⟨ls, hls⟩ := showBf_ok hs fmt (benchBloom_reach hs hb)
  obtain ⟨rs, h1, h2, h3⟩ := benchRounds_res (fmt := fmt) (rng := rng) (es := rng.shuffle es)
    (n := o.testSize.getD es.length) (benchmark_ok hms hr) hc mutProbs
  have hrates : ∀ r ∈ rs.map Round.rate, r = .nan ∨ r = .fin 0 := by
    intro r hr
    obtain ⟨m, hm, s, hs, rfl⟩ := h3 r hr
    have hlen : (benchLines rng (rng.shuffle es) (o.testSize.getD es.length) m).length < 2 ^ 53 :=
      lt_of_le_of_lt (benchLines_length ..) (by rwa [(rng.shuffle_perm es).length_eq])
    obtain ⟨c1, c2⟩ := rate_of_round hlen hs
    by_cases hM : mutatedOf (benchLines rng (rng.shuffle es) (o.testSize.getD es.length) m) = []
    · exact .inl (c1.2 hM)
    · obtain ⟨q, q1, _, _, _, q5, _⟩ := c2 hM
      refine .inr ?_
      rw [q1, q5]
      intro l hl
      rw [mutatedOf_benchLines] at hl
      obtain ⟨r, hr⟩ := hc l
      cases r with
      | false => exact hr
      | true => exact absurd hr (hno m hm l hl)
  have hver : benchVerdict b o.fpTol (mc.mean (rs.map Round.rate)) = .ok () := by
    unfold benchVerdict
    rw [if_neg]
    rintro ⟨hn, hg⟩
    by_cases hnan : .nan ∈ rs.map Round.rate
    · exact hn (hmean.nan _ hnan)
    · have hall : ∀ x ∈ rs.map Round.rate, x = .fin 0 := by
        intro x hx
        rcases hrates x hx with rfl | h
        · exact absurd hx hnan
        · exact h
      have hne' : rs.map Round.rate ≠ [] := by
        intro hc
        rw [List.map_eq_nil_iff.1 hc] at h2
        cases h2
      rw [hmean.const _ 0 isF_zero (le_refl _) zero_le_one hne' hall,
        threshold_nonneg ((fppInRange_iff _).2 hf) ht h0] at hg
      cases hg
  rw [bench_eq]
  rw [hl, Res.bind_ok, he, Res.bind_ok, hb, Res.bind_ok, hls, Res.bind_ok, h1, Res.bind_ok, hver]

/-- The verdict on a mean rate. -/
theorem benchVerdict_of {b : Bloom} {tol : F64} {avg : FVal} {p t : ℚ}
    (hp : FVal.ofBits b.fpp = .fin p) (hp0 : 0 ≤ p) (hp1 : p ≤ 1)
    (ht : FVal.ofBits tol = .fin t) (ht0 : 0 ≤ t) (ht1 : t ≤ 1) :
    (Above (rndQ (p + rndQ (p * t))) avg →
      benchVerdict b tol avg = .err (.other "bloom filter fp rate is not respected")) ∧
    (¬ Above (rndQ (p + rndQ (p * t))) avg → benchVerdict b tol avg = .ok ()) := by
  unfold benchVerdict
  simp only [hp, ht, threshold_eq hp0 hp1 ht0 ht1]
  generalize rndQ (p + rndQ (p * t)) = x
  cases avg with
  | nan => simp [Above]
  | pinf => simp [Above, gt, FVal.le]
  | ninf => simp [Above, gt, FVal.le]
  | fin a =>
    have hg : gt (.fin a) (.fin x) = decide (x < a) := by
      by_cases hx : x < a
      · simp [gt, FVal.le, hx, hx.le]
      · simp [gt, FVal.le, hx, not_lt.1 hx]
    by_cases hx : x < a <;> simp [Above, hg, hx]

/-- The verdict of `bench`: ten rates are measured, for the mutation rates 10, 20, ..., 100, each the
share of the mutated lines that is answered true; `bench` fails exactly if their mean is above
`fpp + fpp * tolerance` (rounded). -/
theorem C70_verdict {fmt : Fmt} {env : Env} (hs : env.Small) {w : World}
    {h : List U8 → U64} {mc : Measure} {o : Benchmark}
    (hms : MeasureSpec mc.mean mc.stdDev mc.clock o.runs)
    {rng : BenchRng} {stdin : Stdin} {es : List (List U8)} {b : Bloom}
    (hlen : stdin.bytes.length < 2 ^ 64) (hset : Setup env w h stdin o es b) (hn : es.length < 2 ^ 53)
    (hc : ∀ k, ∃ r, b.containsBytes env k = .ok r) (hr : o.runs ≠ 0) {p t : ℚ}
    (hp : FVal.ofBits b.fpp = .fin p) (hp0 : 0 ≤ p) (hp1 : p ≤ 1)
    (ht : FVal.ofBits o.fpTol = .fin t) (ht0 : 0 ≤ t) (ht1 : t ≤ 1) :
    ∃ rates, List.Forall₂ (fun m r => IsRate (b.containsBytes env)
        (mutants rng (rng.shuffle es) (o.testSize.getD es.length) m) r)
      [10, 20, 30, 40, 50, 60, 70, 80, 90, 100] rates ∧
    (Above (rndQ (p + rndQ (p * t))) (mc.mean rates) →
      bench fmt env w h mc rng stdin o = .err (.other "bloom filter fp rate is not respected")) ∧
    (¬ Above (rndQ (p + rndQ (p * t))) (mc.mean rates) →
      bench fmt env w h mc rng stdin o = .ok ()) := by
  obtain ⟨limit, hl, he, hb⟩ := (setup_iff hlen).2 hset
  obtain ⟨ls, hls⟩ := showBf_ok hs fmt (benchBloom_reach hs hb)
  obtain ⟨rs, h1, h2⟩ := benchRounds_list (fmt := fmt) (rng := rng) (es := rng.shuffle es)
    (n := o.testSize.getD es.length) (benchmark_ok hms hr) hc mutProbs
  have hbench : bench fmt env w h mc rng stdin o
      = benchVerdict b o.fpTol (mc.mean (rs.map Round.rate)) := by
    rw [bench_eq]
    rw [hl, Res.bind_ok, he, Res.bind_ok, hb, Res.bind_ok, hls, Res.bind_ok, h1, Res.bind_ok]
  refine ⟨rs.map Round.rate, List.forall₂_map_right_iff.2 (h2.imp fun m r hmr => ?_), ?_⟩
  · obtain ⟨s, hst, _, hrate, _⟩ := hmr
    rw [hrate]
    have hlen : (benchLines rng (rng.shuffle es) (o.testSize.getD es.length) m).length < 2 ^ 53 :=
      lt_of_le_of_lt (benchLines_length ..) (by rwa [(rng.shuffle_perm es).length_eq])
    obtain ⟨c1, c2⟩ := rate_of_round hlen hst
    rw [mutatedOf_benchLines] at c1 c2
    by_cases hM : mutants rng (rng.shuffle es) (o.testSize.getD es.length) m = []
    · exact .inl ⟨hM, c1.2 hM⟩
    · obtain ⟨q, q1, _, _, q4, _⟩ := c2 hM
      exact .inr ⟨hM, by rw [q1, q4]⟩
  · rw [hbench]
    exact benchVerdict_of hp hp0 hp1 ht ht0 ht1

/-- `bench` fails although every line it tests belongs to the dataset: the dataset is one empty
line, which is equal to its mutation. -/
theorem C70_violated {fmt : Fmt} {env : Env} (hs : env.Small) {w : World} (h : List U8 → U64)
    {mc : Measure} {o : Benchmark} (hmean : MeanSpec mc.mean)
    (hms : MeasureSpec mc.mean mc.stdDev mc.clock o.runs) {rng : BenchRng}
    (hrng : ∀ m i, rng.percent m i < 10) {b : Bloom}
    (hset : Setup env w h ⟨[10#8], false⟩ o [[]] b) (hfile : o.file = none)
    (htest : o.testSize = none) (hbits : b.HasBits)
    (hr : o.runs ≠ 0) {q t : ℚ} (hq : FVal.ofBits o.fpp = .fin q) (hq1 : q ≤ 1 / 2)
    (ht : FVal.ofBits o.fpTol = .fin t) (h0 : 0 ≤ t) (ht1 : t ≤ 1 / 2) :
    (∀ m, ∀ k ∈ mutants rng (rng.shuffle [[]]) 1 m, k ∈ [[]]) ∧
    bench fmt env w h mc rng ⟨[10#8], false⟩ o = .err (.other "bloom filter fp rate is not respected") := by
  obtain ⟨limit, hl, he, hbl⟩ := (setup_iff (by simp)).2 hset
  have hsh : rng.shuffle [[]] = [[]] := List.perm_singleton.1 (rng.shuffle_perm [[]])
  obtain ⟨_, _, hfpp, hin, _⟩ := C69_filter_partial hs hfile (by simp) hset.filter
  have hin' := hin hbits [] (by simp)
  have hlines : ∀ m, benchLines rng (rng.shuffle [[]]) 1 m
      = [(decide (rng.percent m 0 < m), [])] := by
    intro m
    rw [hsh]
    unfold benchLines benchMutate
    by_cases hm : rng.percent m 0 < m <;> simp [hm]
  refine ⟨fun m k hk => ?_, ?_⟩
  · rw [← mutatedOf_benchLines, hlines] at hk
    unfold mutatedOf at hk
    obtain ⟨x, hx, rfl⟩ := List.mem_map.1 hk
    rw [List.mem_singleton.1 (List.mem_filter.1 hx).1]
    simp
  obtain ⟨ls, hls⟩ := showBf_ok hs fmt (benchBloom_reach hs hbl)
  have hok : ∀ m, ∃ s, benchStats env b (benchLines rng (rng.shuffle [[]]) 1 m) Stats.new = .ok s :=
    fun m => benchStats_of Stats.new
      (by rw [hlines]; intro l hl; rw [List.mem_singleton.1 hl]; exact ⟨_, hin'⟩)
  obtain ⟨rs, hr0, hr2⟩ := benchRounds_list' (fmt := fmt) (n := 1) (benchmark_ok hms hr) mutProbs
    fun m _ => hok m
  have hr1 : (benchRounds fmt env mc rng b (rng.shuffle [[]]) 1 o.runs mutProbs).res = .ok rs := by
    rw [hr0]
  have hall : ∀ x ∈ rs.map Round.rate, x = .fin 1 := by
    intro x hx
    obtain ⟨r, hr, rfl⟩ := List.mem_map.1 hx
    obtain ⟨m, hm, s, hst, _, hrate, _⟩ := forall₂_mem_right hr2 hr
    rw [hrate]
    have hm' : rng.percent m 0 < m := by
      refine lt_of_lt_of_le (hrng m 0) ?_
      have : ∀ m ∈ mutProbs, 10 ≤ m := by decide
      exact this m hm
    have hmut : mutatedOf (benchLines rng (rng.shuffle [[]]) 1 m) = [[]] := by
      rw [hlines]
      simp [mutatedOf, hm']
    obtain ⟨_, c2⟩ := rate_of_round (by rw [hlines]; simp) hst
    rw [hmut] at c2
    obtain ⟨q, q1, _, _, _, _, q6⟩ := c2 (by simp)
    rw [q1, q6]
    intro l hl
    rw [List.mem_singleton.1 hl]
    exact hin'
  have hmean1 : mc.mean (rs.map Round.rate) = .fin 1 := by
    refine hmean.const _ 1 isF_one zero_le_one (le_refl _) ?_ hall
    intro hc
    have := hr2.length_eq
    rw [List.map_eq_nil_iff.1 hc] at this
    cases this
  have hver : benchVerdict b o.fpTol (.fin 1)
      = .err (.other "bloom filter fp rate is not respected") := by
    unfold benchVerdict
    rw [hfpp, hq, ht]
    have hq0 : 0 ≤ q := by
      obtain ⟨lvl, b0, _, hb0, _⟩ : ∃ lvl b0, OptLevel.tryFrom o.opt = .ok lvl ∧
          Bloom.withVersionCapacityOpt env o.version 1 o.fpp lvl = .ok b0 ∧ True := by
        cases hset.filter with
        | file h => rw [hfile] at h; cases h
        | made _ h1 h2 => exact ⟨_, _, h1, h2, trivial⟩
      obtain ⟨q', e, hq', _⟩ := ofBits_of_inRange (made_inRange hb0)
      rw [hq] at e
      cases e
      exact le_trans (by positivity) hq'
    have i2 : IsF (1 / 2 : ℚ) := by simpa using isF_dyadic 1 1 (by norm_num) (by norm_num)
    have i4 : IsF (3 / 4 : ℚ) := by
      have := isF_dyadic 3 2 (by norm_num) (by norm_num)
      norm_num at this
      exact this
    have l1 : (1 / 2 : ℚ) < f64Huge := lt_trans (by norm_num)
      (two_pow_lt_f64Huge (n := 0) (by norm_num))
    have l2 : (3 / 4 : ℚ) < f64Huge := lt_trans (by norm_num)
      (two_pow_lt_f64Huge (n := 0) (by norm_num))
    have i5 : IsF (1 / 4 : ℚ) := by
      have := isF_dyadic 1 2 (by norm_num) (by norm_num)
      norm_num at this ⊢
      exact this
    have l3 : (1 / 4 : ℚ) < f64Huge := lt_trans (by norm_num) l1
    obtain ⟨e1, b1⟩ := rnd_fin (K := ℚ) (x := q * t) i5 l3 (by
      rw [abs_of_nonneg (by positivity)]
      nlinarith)
    obtain ⟨e2, b2⟩ := rnd_fin (K := ℚ) (x := q + rndQ (q * t)) i4 l2 (by
      have := abs_le.1 b1
      have := le_rndQ (q * t) isF_zero (by simp; positivity)
      rw [abs_of_nonneg (by linarith)]
      linarith)
    have : FVal.add (.fin q) (FVal.mul (.fin q) (.fin t)) = .fin (rndQ (q + rndQ (q * t))) := by
      show FVal.add (.fin q) (rnd (q * t)) = _
      rw [e1]
      exact e2
    simp only [this]
    rw [if_pos]
    refine ⟨by simp, ?_⟩
    have := (abs_le.1 b2).2
    simp only [gt, FVal.le, Bool.and_eq_true, decide_eq_true_eq, Bool.not_eq_true',
      decide_eq_false_iff_not]
    constructor <;> linarith
  rw [bench_eq]
  rw [hl, Res.bind_ok, he, Res.bind_ok, hbl, Res.bind_ok, hls, Res.bind_ok, htest]
  simp only [Option.getD_none, List.length_singleton]
  rw [hr1, Res.bind_ok, hmean1, hver]

/-- `bench` without a filter file does not panic, if `--runs` is not 0, the limit is one of the
possible ones, and the constructor does not panic for the capacities that are possible. -/
theorem C70_no_panic_partial {fmt : Fmt} {env : Env} (sp : env.libm.Spec) (hs : env.Small)
    {w : World} {h : List U8 → U64} {mc : Measure} {o : Benchmark}
    (hms : MeasureSpec mc.mean mc.stdDev mc.clock o.runs) {rng : BenchRng}
    {stdin : Stdin} (hlen : stdin.bytes.length < 2 ^ 63)
    (hl : env.debug = false ∨ (o.sizeMb ≠ 0 ∧ o.sizeMb.toNat < 2 ^ 44)) (hfile : o.file = none)
    (hr : o.runs ≠ 0)
    (hmk : ∀ c lvl, c.toNat ≤ stdin.bytes.length + 1 →
      Bloom.withVersionCapacityOpt env o.version c o.fpp lvl ≠ .panic) :
    bench fmt env w h mc rng stdin o ≠ .panic := by
  have hlim : ∃ limit, benchLimit env.debug o.sizeMb = .ok limit := by
    unfold benchLimit
    rcases hl with hd | ⟨h0, h1⟩
    · split
      · obtain ⟨s, h, _⟩ := (C63_from_mb env.debug (BitVec.allOnes 64)).2.2 hd
        exact ⟨s, h⟩
      · obtain ⟨s, h, _⟩ := (C63_from_mb env.debug o.sizeMb).2.2 hd
        exact ⟨s, h⟩
    · rw [if_neg h0]
      obtain ⟨s, h, _⟩ := (C63_from_mb env.debug o.sizeMb).1 h1
      exact ⟨s, h⟩
  obtain ⟨limit, hlim⟩ := hlim
  rw [bench_eq]
  rw [hlim, Res.bind_ok]
  cases he : benchEntries h limit stdin.lines [] 0 [] with
  | err e => simp
  | panic =>
    refine absurd he (benchEntries_no_panic _ _ _ _ _ _ fun l hl => ?_)
    rcases stdin_item hl with ⟨s, rfl⟩ | ⟨e, rfl⟩ <;> simp
  | ok es =>
    rw [Res.bind_ok]
    have hn' : es.length ≤ stdin.bytes.length + 1 := by
      have h1 := benchEntries_length he
      have h2 := length_stdin stdin
      simp at h1
      omega
    have hn : es.length < 2 ^ 64 := by omega
    cases hb : benchBloom env w o es with
    | err e => simp
    | panic =>
      exfalso
      unfold benchBloom at hb
      rw [hfile] at hb
      simp only at hb
      cases ho : OptLevel.tryFrom o.opt with
      | err e => unfold benchFilter at hb; rw [ho] at hb; cases hb
      | panic => 
        revert ho
        unfold OptLevel.tryFrom
        split_ifs <;> simp
      | ok lvl =>
        cases hc : Bloom.withVersionCapacityOpt env o.version (BitVec.ofNat 64 es.length) o.fpp
            lvl with
        | err e =>
          unfold benchFilter at hb
          rw [ho, Res.bind_ok, (C44_params ..).1, hc] at hb
          cases hb
        | panic => exact hmk _ _ (by rwa [BitVec.toNat_ofNat, Nat.mod_eq_of_lt hn]) hc
        | ok c =>
          obtain ⟨g, hg⟩ := C69_filter_made (w := w) sp hs hfile hn ho hc
          have := benchBloom_iff.2 hg
          unfold benchBloom at this
          rw [hfile] at this
          simp only at this
          rw [hb] at this
          cases this
    | ok b =>
      obtain ⟨ls, hls⟩ := showBf_ok hs fmt (benchBloom_reach hs hb)
      obtain ⟨lvl, hfrom⟩ := benchBloom_from hfile hb
      obtain ⟨rs, h1, _⟩ := benchRounds_res (fmt := fmt) (rng := rng) (es := rng.shuffle es)
        (n := o.testSize.getD es.length) (benchmark_ok hms hr) (hfrom.contains_ok sp hs) mutProbs
      rw [Res.bind_ok, hls, Res.bind_ok, h1, Res.bind_ok]
      unfold benchVerdict
      simp only
      split <;> simp

/-- `bench --runs 0` panics whenever the filter could be made. -/
theorem C70_runs_violated {fmt : Fmt} {env : Env} (sp : env.libm.Spec) (hs : env.Small) {w : World}
    {h : List U8 → U64} {mc : Measure} (hmean : mc.mean [] = .nan) {rng : BenchRng}
    {stdin : Stdin} {o : Benchmark} {es : List (List U8)} {b : Bloom}
    (hlen : stdin.bytes.length < 2 ^ 64) (hset : Setup env w h stdin o es b) (hfile : o.file = none)
    (hr : o.runs = 0) :
    bench fmt env w h mc rng stdin o = .panic := by
  obtain ⟨limit, hl, he, hb⟩ := (setup_iff hlen).2 hset
  obtain ⟨ls, hls⟩ := showBf_ok hs fmt (benchBloom_reach hs hb)
  obtain ⟨lvl, hfrom⟩ := benchBloom_from hfile hb
  obtain ⟨s, hst⟩ := benchStats_of (env := env) (b := b)
    (ls := benchLines rng (rng.shuffle es) (o.testSize.getD es.length) 10) Stats.new
    fun l _ => hfrom.contains_ok sp hs _
  rw [bench_eq]
  rw [hl, Res.bind_ok, he, Res.bind_ok, hb, Res.bind_ok, hls, Res.bind_ok]
  have hp : benchmark mc o.runs 10 = .panic := by
    unfold benchmark
    rw [hr]
    simp [hmean, fromSecs]
  unfold mutProbs benchRounds benchRound
  simp only
  rw [hst, Log.lift_ok_bind, hp]
  rfl

/-! ### Samples -/

/-- Every line is mutated, by flipping no bit. -/
def Sample.rng0 : BenchRng :=
  ⟨id, fun _ => .refl _, fun _ _ => 0, fun _ _ => Nat.zero_le _, fun _ _ _ => 0⟩

/-- Every line is mutated, by flipping a bit of each byte. -/
def Sample.rng1 : BenchRng :=
  ⟨List.reverse, fun l => l.reverse_perm, fun _ _ => 0, fun _ _ => Nat.zero_le _, fun _ _ _ => 1⟩

/-- The mean of the `statrs` crate, a standard deviation that excludes no run, and runs of about a
microsecond. -/
def Sample.measure : Measure where
  mean := statrsMean
  stdDev := fun _ => .fin (2 ^ 42)
  clock := fun _ i => 1000 + i % 10

theorem Sample.measure_clock (m i : ℕ) : Sample.measure.clock m i < 2 ^ 40 * 10 ^ 9 := by
  show 1000 + i % 10 < _
  have := Nat.mod_lt i (show 0 < 10 by norm_num)
  omega

theorem Sample.measure_spec (runs : ℕ) :
    MeasureSpec Sample.measure.mean Sample.measure.stdDev Sample.measure.clock runs where
  none := rfl
  finite := statrsMean_finite
  near := by
    intro hr m l hl
    have hall : ∀ x ∈ l, IsSecs x := by
      subst hl
      intro x hx
      obtain ⟨i, _, rfl⟩ := List.mem_map.1 hx
      exact asSecs_isSecs (Sample.measure_clock m i)
    obtain ⟨x, hx⟩ : ∃ x, x ∈ l :=
      List.exists_mem_of_ne_nil l (by rintro rfl; simp at hl; omega)
    exact ⟨x, hx, near_large (hall x hx) (statrsMean_finite l (List.ne_nil_of_mem hx) hall)⟩
  clock := Sample.measure_clock

/-- `poppy bench -v 1`, with the other options at their default. -/
def Sample.benchOpts : Benchmark :=
  ⟨100, none, 50, 0x3fc999999999999a#64, 1#8, Sample.p001, 0, none⟩

/-- The filter of one place. -/
def Sample.f1one : V1 := ⟨Flags.new 1, [0], 1, Sample.p001, 7, 9, 0, [], Fingerprint.new 7 9⟩

theorem Sample.f1one_make : Bloom.withVersionCapacityOpt Sample.env 1#8 1 Sample.p001 .none
    = .ok (.v1 Sample.f1one) := by
  have : V1.withCapacity Sample.env 1 Sample.p001 = .ok Sample.f1one := by decide +kernel
  unfold Bloom.withVersionCapacityOpt
  rw [if_pos rfl, this]
  rfl

/-- The set up of a run on a line. -/
theorem Sample.bench_setup (w : World) (h : List U8 → U64) (n : ℕ) (e : List U8) (stdin : Stdin)
    (hl : stdin.lines = [.ok e]) :
    ∃ b, Setup Sample.env w h stdin { Sample.benchOpts with runs := n } [e] b ∧ b.HasBits := by
  obtain ⟨b, hb⟩ := C69_filter_made (es := [e]) (w := w)
    (o := { Sample.benchOpts with runs := n }) Sample.libm_spec Sample.env_small rfl
    (by simp) (show OptLevel.tryFrom 0 = .ok .none by decide) Sample.f1one_make
  refine ⟨b, ⟨⟨104857600, show sizeLimit false 100 = _ by decide, ?_⟩, hb⟩, ?_⟩
  · rw [hl]
    refine ⟨[e], [], rfl, by simp [firsts], fun p hp hne => ?_, .inl rfl⟩
    rcases List.prefix_cons_iff.1 hp with rfl | ⟨t, rfl, ht⟩
    · simp [firsts, total]
    · rw [List.prefix_nil.1 ht] at hne
      exact absurd rfl hne
  · cases hb with
    | file h => cases h
    | made _ ho hc hf =>
      cases (show Res.ok OptLevel.none = _ from ho)
      cases Sample.f1one_make.symm.trans hc
      rw [(Bloom.fill_ok hf).1, Bloom.inserts_v1]
      show (V1.inserts Sample.env Sample.f1one [e]).bitSize ≠ 0
      rw [(V1.inserts_ext Sample.env Sample.f1one [e]).bitSize]
      decide

theorem Sample.tol : FVal.ofBits Sample.benchOpts.fpTol = .fin (3602879701896397 / 2 ^ 54) := by
  decide +kernel

/-- `bench` fails on an input of one empty line. -/
example (fmt : Fmt) (w : World) (h : List U8 → U64) :
    bench fmt Sample.env w h Sample.measure Sample.rng0 ⟨[10#8], false⟩ Sample.benchOpts
      = .err (.other "bloom filter fp rate is not respected") := by
  obtain ⟨b, hb, hbits⟩ := Sample.bench_setup w h 50 [] ⟨[10#8], false⟩ (by decide)
  have hq' : FVal.ofBits Sample.p001 = .fin (5764607523034235 / 2 ^ 59) := by decide +kernel
  exact (C70_violated (o := Sample.benchOpts) Sample.env_small h statrsMean_spec (Sample.measure_spec _)
    (fun _ _ => Nat.zero_lt_succ _) hb rfl rfl hbits (by decide) hq' (by norm_num) Sample.tol
    (by norm_num) (by norm_num)).2

/-- A line `A`, changed to `@`. -/
example (fmt : Fmt) (w : World) (h : List U8 → U64) :
    bench fmt Sample.env w h Sample.measure Sample.rng1 ⟨[65#8, 10#8], false⟩ Sample.benchOpts ≠ .panic ∧
    bench fmt Sample.env w h Sample.measure Sample.rng1 ⟨[65#8, 10#8], false⟩ { Sample.benchOpts with runs := 0 }
      = .panic := by
  obtain ⟨b, hb, _⟩ := Sample.bench_setup w h 0 [65#8] ⟨[65#8, 10#8], false⟩ (by decide)
  refine ⟨?_, C70_runs_violated Sample.libm_spec Sample.env_small rfl (by decide) hb rfl rfl⟩
  refine C70_no_panic_partial Sample.libm_spec Sample.env_small (Sample.measure_spec _) (by decide) (.inl rfl) rfl
    (by decide) ?_
  intro c lvl hc
  have : ∀ n < 4, (match V1.withCapacity Sample.env (BitVec.ofNat 64 n) Sample.p001 with
      | .panic => false | _ => true) = true := by decide +kernel
  have hc' := this c.toNat (by simpa using Nat.lt_succ_of_le hc)
  rw [BitVec.ofNat_toNat, BitVec.setWidth_eq] at hc'
  show (V1.withCapacity Sample.env c Sample.p001).map Bloom.v1 ≠ .panic
  cases hv : V1.withCapacity Sample.env c Sample.p001 with
  | ok f => simp [Res.map]
  | err e => simp [Res.map]
  | panic => rw [hv] at hc'; cases hc'

-- a broken input: two bytes, then an error
example (fmt : Fmt) (w : World) (h : List U8 → U64) :
    bench fmt Sample.env w h Sample.measure Sample.rng1 ⟨[65#8, 10#8], true⟩ Sample.benchOpts ≠ .ok () :=
  C69_stdin_reports (limit := 104857600) (show sizeLimit false 100 = _ by decide) (by decide)

/-- The line `A` is queried as `@`, at every mutation rate. -/
example : ∀ m ∈ [10, 20, 30, 40, 50, 60, 70, 80, 90, 100],
    mutants Sample.rng1 (Sample.rng1.shuffle [[65#8]]) 1 m = [[64#8]] := by decide

/-- The hypotheses of `C70_verdict` are met by that run. -/
example (fmt : Fmt) (w : World) (h : List U8 → U64) : ∃ b rates,
    List.Forall₂ (fun m r => IsRate (Bloom.containsBytes Sample.env b)
        (mutants Sample.rng1 (Sample.rng1.shuffle [[65#8]]) 1 m) r)
      [10, 20, 30, 40, 50, 60, 70, 80, 90, 100] rates ∧
    (bench fmt Sample.env w h Sample.measure Sample.rng1 ⟨[65#8, 10#8], false⟩ Sample.benchOpts = .ok () ∨
      bench fmt Sample.env w h Sample.measure Sample.rng1 ⟨[65#8, 10#8], false⟩ Sample.benchOpts
        = .err (.other "bloom filter fp rate is not respected")) := by
  obtain ⟨b, hb, _⟩ := Sample.bench_setup w h 50 [65#8] ⟨[65#8, 10#8], false⟩ (by decide)
  obtain ⟨lvl, hfrom⟩ := benchBloom_from (o := Sample.benchOpts) rfl (benchBloom_iff.2 hb.filter)
  obtain ⟨_, _, hfpp, _⟩ := C69_filter_partial Sample.env_small rfl (by simp) hb.filter
  have hq : FVal.ofBits b.fpp = .fin (5764607523034235 / 2 ^ 59) := by
    rw [hfpp]
    decide +kernel
  obtain ⟨rates, h1, h2, h3⟩ := C70_verdict (fmt := fmt) (mc := Sample.measure)
    (rng := Sample.rng1) (o := Sample.benchOpts) Sample.env_small (Sample.measure_spec _) (by decide) hb (by simp)
    (fun k => hfrom.contains_ok Sample.libm_spec Sample.env_small k) (by decide) hq (by norm_num)
    (by norm_num) Sample.tol (by norm_num) (by norm_num)
  refine ⟨b, rates, h1, ?_⟩
  exact (Classical.em _).elim (fun ha => .inr (h2 ha)) fun ha => .inl (h3 ha)

end Poppy
