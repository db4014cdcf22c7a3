import Verif.Props.Bench
import Verif.Lemmas.BenchText

/-! # What `bench` prints (C87, C88) -/

namespace Poppy

open Spec Cli

/-! ## C87 text -/

theorem benchTitle_eq (o : Benchmark) : benchTitle o = match o.file with
    | none => "Benchmarking dataset:"
    | some f => "Benchmarking filter: " ++ f := by
  unfold benchTitle
  cases o.file <;> rfl

/-- What a run prints in which the dataset and the filter could be prepared, in terms of the ten
rounds. -/
theorem C87_text {t : Libs} {env : Env} (hs : env.Small) {w : World} {r : Run} {o : Benchmark}
    (hr : r.command = .bench o) (hout : r.stdout = none)
    (hms : MeasureSpec r.measure.mean r.measure.stdDev r.measure.clock o.runs)
    {es : List (List U8)} {b : Bloom} (hlen : r.stdin.bytes.length < 2 ^ 64)
    (hset : Setup env w t.hash r.stdin o es b) (hn : es.length < 2 ^ 53)
    (hc : ∀ k, ∃ r, b.containsBytes env k = .ok r) (hruns : o.runs ≠ 0) {p tol : ℚ}
    (hp : FVal.ofBits b.fpp = .fin p) (hp0 : 0 ≤ p) (hp1 : p ≤ 1)
    (ht : FVal.ofBits o.fpTol = .fin tol) (ht0 : 0 ≤ tol) (ht1 : tol ≤ 1) :
    ∃ info rounds, showBfProperties t.fmt env b = .ok info ∧
    List.Forall₂ (IsRound (b.containsBytes env) r.measure o.runs r.rng (r.rng.shuffle es)
        (o.testSize.getD es.length)) [10, 20, 30, 40, 50, 60, 70, 80, 90, 100] rounds ∧
    (Above (rndQ (p + rndQ (p * tol))) (r.measure.mean (rounds.map Round.rate)) →
      main t env w r = (w, .text (benchHead t.fmt o es info ++
          (List.zipWith (roundText t.fmt) [10, 20, 30, 40, 50, 60, 70, 80, 90, 100] rounds).flatten),
        some (.err (.other "bloom filter fp rate is not respected")))) ∧
    (¬ Above (rndQ (p + rndQ (p * tol))) (r.measure.mean (rounds.map Round.rate)) →
      main t env w r = (w, .text (benchHead t.fmt o es info ++
          (List.zipWith (roundText t.fmt) [10, 20, 30, 40, 50, 60, 70, 80, 90, 100] rounds).flatten ++
          ["Average queries per seconds: " ++ t.fmt.f64 (FVal.round (r.measure.mean (rounds.map
            fun r => FVal.div (FVal.ofU64 (BitVec.ofNat 64 r.lines)) (asSecs r.duration))))]),
        some (.ok ()))) := by
  rcases r with ⟨c, jobs, stdin, stdout, sched, rng, mc⟩
  have hr : c = .bench o := hr
  have hout : stdout = none := hout
  subst hr hout
  simp only at hms hlen hset ⊢
  obtain ⟨limit, hl, he, hb⟩ := (setup_iff hlen).2 hset
  obtain ⟨info, hinfo⟩ := showBf_ok hs t.fmt (benchBloom_reach hs hb)
  obtain ⟨rs, h1, h2⟩ := benchRounds_list (fmt := t.fmt) (rng := rng) (es := rng.shuffle es)
    (n := o.testSize.getD es.length) (benchmark_ok hms hruns) hc mutProbs
  have hshow : showBfPropertiesLog t.fmt env b = ⟨info, .ok ()⟩ := by
    obtain ⟨k1, k2⟩ := showBfPropertiesLog_eq t.fmt env b
    rw [hinfo] at k1
    rcases hx : showBfPropertiesLog t.fmt env b with ⟨x, y⟩
    have k3 := k2 info hinfo
    rw [hx] at k1 k3
    simp only at k1 k3
    rw [k1, k3]
    rfl
  have hlog : benchLog t.fmt env w t.hash mc rng stdin o =
      ⟨benchHead t.fmt o es info ++ ((List.zipWith (roundText t.fmt) mutProbs rs).flatten ++
        (Log.lift (benchVerdict b o.fpTol (mc.mean (rs.map Round.rate))) >>= fun _ =>
          Log.print ("Average queries per seconds: " ++
            t.fmt.f64 (FVal.round (mc.mean (rs.map Round.qps))))).out),
        benchVerdict b o.fpTol (mc.mean (rs.map Round.rate))⟩ := by
    unfold benchLog
    rw [hl, Log.lift_ok_bind, he]
    simp only [Log.lift_ok_bind, Log.print_bind, hb, hshow, h1, Log.bind_ok]
    have hres : (Log.lift (benchVerdict b o.fpTol (mc.mean (rs.map Round.rate))) >>= fun _ =>
          Log.print ("Average queries per seconds: " ++
            t.fmt.f64 (FVal.round (mc.mean (rs.map Round.qps))))).res
        = benchVerdict b o.fpTol (mc.mean (rs.map Round.rate)) := by
      rcases benchVerdict b o.fpTol (mc.mean (rs.map Round.rate)) with _ | _ | _ <;> rfl
    rw [hres]
    congr 1
    unfold benchHead
    simp only [List.append_assoc, List.cons_append, List.nil_append]
    rw [benchTitle_eq]
    rfl
  refine ⟨info, rs, hinfo, h2.imp fun m r hmr => ?_, fun ha => ?_, fun ha => ?_⟩
  · obtain ⟨s, hst, hd, hrate, hlines, hbytes⟩ := hmr
    have hlen : (benchLines rng (rng.shuffle es) (o.testSize.getD es.length) m).length < 2 ^ 53 :=
      lt_of_le_of_lt (benchLines_length ..) (by rwa [(rng.shuffle_perm es).length_eq])
    obtain ⟨c1, c2⟩ := rate_of_round hlen hst
    rw [mutatedOf_benchLines] at c1 c2
    refine ⟨?_, hbytes.trans (bytes_benchLines ..), isDuration_of hd, ?_⟩
    · rw [hlines]
      simp [benchLines]
    · rw [hrate]
      by_cases hM : mutants rng (rng.shuffle es) (o.testSize.getD es.length) m = []
      · exact .inl ⟨hM, c1.2 hM⟩
      · obtain ⟨q, q1, _, _, q4, _⟩ := c2 hM
        exact .inr ⟨hM, by rw [q1, q4]⟩
  · have hv := (benchVerdict_of hp hp0 hp1 ht ht0 ht1).1 ha
    rw [hv] at hlog
    unfold main
    simp only [hlog, Log.to_eq]
    simp [Stdout.after, Stdout.Takes, Log.lift_err_bind, mutProbs]
  · have hv := (benchVerdict_of hp hp0 hp1 ht ht0 ht1).2 ha
    rw [hv, Log.lift_ok_bind] at hlog
    unfold main
    simp only [hlog, Log.to_eq]
    simp [Stdout.after, Stdout.Takes, Log.print, mutProbs]
    rfl

/-- A run whose standard input cannot be read up to the limit prints one line and fails. -/
theorem C87_no_dataset {t : Libs} {env : Env} {w : World} {r : Run} {o : Benchmark}
    (hr : r.command = .bench o) (hout : r.stdout = none) (hlen : r.stdin.bytes.length < 2 ^ 64)
    {limit : ℕ} (hl : sizeLimit env.debug o.sizeMb.toNat = some limit)
    (h : ¬ ∃ es, Dataset t.hash limit r.stdin.lines es) :
    ∃ e, main t env w r = (w, .text ["Preparing dataset"], some (.err e)) := by
  rcases r with ⟨c, jobs, stdin, stdout, sched, rng, mc⟩
  have hr : c = .bench o := hr
  have hout : stdout = none := hout
  subst hr hout
  simp only at hlen h ⊢
  obtain ⟨l, hl', rfl⟩ := (benchLimit_iff ..).2 hl
  have hsum : total (entries stdin.lines) < 2 ^ 64 := lt_of_le_of_lt (total_stdin _) hlen
  have hlog : ∃ e, benchLog t.fmt env w t.hash mc rng stdin o = ⟨["Preparing dataset"], .err e⟩ := by
    cases he : benchEntries t.hash l stdin.lines [] 0 [] with
    | ok es => exact absurd ⟨es, (benchEntries_iff _ _ _ hsum).1 he⟩ h
    | panic =>
      refine absurd he (benchEntries_no_panic _ _ _ _ _ _ fun l hl => ?_)
      rcases stdin_item hl with ⟨s, rfl⟩ | ⟨e, rfl⟩ <;> simp
    | err e =>
      refine ⟨e, ?_⟩
      unfold benchLog
      rw [hl', Log.lift_ok_bind, he]
      rfl
  obtain ⟨e, hlog⟩ := hlog
  refine ⟨e, ?_⟩
  unfold main
  simp only [hlog, Log.to_eq]
  simp [Stdout.after, Stdout.Takes]

/-- A run that cannot prepare the filter prints two lines and does not succeed. -/
theorem C87_no_filter {t : Libs} {env : Env} {w : World} {r : Run} {o : Benchmark}
    (hr : r.command = .bench o) (hout : r.stdout = none) (hlen : r.stdin.bytes.length < 2 ^ 64)
    {limit : ℕ} (hl : sizeLimit env.debug o.sizeMb.toNat = some limit) {es : List (List U8)}
    (hd : Dataset t.hash limit r.stdin.lines es) (h : ¬ ∃ b, Tested env w o es b) :
    ∃ res, res ≠ .ok () ∧ main t env w r = (w, .text ["Preparing dataset",
      match o.file with
      | none => "Benchmarking dataset:"
      | some f => "Benchmarking filter: " ++ f], some res) := by
  rcases r with ⟨c, jobs, stdin, stdout, sched, rng, mc⟩
  have hr : c = .bench o := hr
  have hout : stdout = none := hout
  subst hr hout
  simp only at hlen hd ⊢
  obtain ⟨l, hl', rfl⟩ := (benchLimit_iff ..).2 hl
  have hsum : total (entries stdin.lines) < 2 ^ 64 := lt_of_le_of_lt (total_stdin _) hlen
  have he := (benchEntries_iff _ _ _ hsum).2 hd
  rw [← benchTitle_eq]
  have hlog : ∃ res, res ≠ .ok () ∧ benchLog t.fmt env w t.hash mc rng stdin o =
      ⟨["Preparing dataset", benchTitle o], res⟩ := by
    unfold benchLog
    rw [hl', Log.lift_ok_bind, he]
    simp only [Log.lift_ok_bind, Log.print_bind]
    cases hb : benchBloom env w o es with
    | ok b => exact absurd ⟨b, benchBloom_iff.1 hb⟩ h
    | err e => exact ⟨.err e, by simp, rfl⟩
    | panic => exact ⟨.panic, by simp, rfl⟩
  obtain ⟨res, hne, hlog⟩ := hlog
  refine ⟨res, hne, ?_⟩
  unfold main
  simp only [hlog, Log.to_eq]
  simp [Stdout.after, Stdout.Takes]

/-! ## C88 condition -/

/-- The lines that the model queries are those of the specification. -/
theorem C88_queried (rng : BenchRng) (es : List (List U8)) (n m : ℕ) :
    (benchLines rng es n m).map Prod.snd = queried rng es n m := by
  unfold benchLines queried
  rw [mapIdx_eq_range _ [], List.map_map, List.length_take]
  refine List.map_congr_left fun i hi => ?_
  have hlt := List.mem_range.1 hi
  have hg : (es.take n).getD i [] = es.getD i [] := by
    simp only [List.getD_eq_getElem?_getD, List.getElem?_take]
    rw [if_pos (by omega)]
  simp only [Function.comp_apply, benchMutate, hg]
  split
  · rw [mapIdx_eq_range _ 0]
  · rfl

/-- At the rate 100 the lines queried are the changed ones, as printed, if the random percentages are
below 100. -/
theorem C88_condition_partial (rng : BenchRng) (hrng : ∀ i, rng.percent 100 i ≠ 100)
    (es : List (List U8)) (n : ℕ) :
    queried rng es n 100 = mutants rng es n 100 := by
  have hp : ∀ i, rng.percent 100 i < 100 := fun i =>
    lt_of_le_of_ne (rng.percent_le 100 i) (hrng i)
  unfold queried mutants
  rw [List.filter_eq_self.2 fun i _ => by simpa using hp i]
  exact List.map_congr_left fun i _ => if_pos (hp i)

/-- The random percentages can be 100 (`gen_range(0..=100)`): then no line is changed at the rate 100,
and all those queried are in the filter, while the line printed says that none is. -/
theorem C88_condition_violated {t : Libs} {env : Env} (hs : env.Small) {w : World} {r : Run}
    {o : Benchmark} (hr : r.command = .bench o) (hout : r.stdout = none)
    (hms : MeasureSpec r.measure.mean r.measure.stdDev r.measure.clock o.runs)
    {es : List (List U8)} {b : Bloom} (hlen : r.stdin.bytes.length < 2 ^ 64)
    (hset : Setup env w t.hash r.stdin o es b) (hn : es.length < 2 ^ 53)
    (hc : ∀ k, ∃ r, b.containsBytes env k = .ok r) (hruns : o.runs ≠ 0) {p tol : ℚ}
    (hp : FVal.ofBits b.fpp = .fin p) (hp0 : 0 ≤ p) (hp1 : p ≤ 1)
    (ht : FVal.ofBits o.fpTol = .fin tol) (ht0 : 0 ≤ tol) (ht1 : tol ≤ 1)
    (hin : ∀ e ∈ es, b.containsBytes env e = .ok true)
    (hrng : ∀ i, r.rng.percent 100 i = 100) :
    (∃ text res, main t env w r = (w, .text text, some res) ∧
      "\tcondition: " ++ t.fmt.u64 0 ++ "% of queried values are in filter" ∈ text) ∧
    ∀ k ∈ queried r.rng (r.rng.shuffle es) (o.testSize.getD es.length) 100,
      b.containsBytes env k = .ok true := by
  constructor
  · obtain ⟨info, rounds, _, h1, h2, h3⟩ := C87_text (t := t) hs hr hout hms hlen hset hn hc hruns hp
      hp0 hp1 ht ht0 ht1
    have hmem : "\tcondition: " ++ t.fmt.u64 0 ++ "% of queried values are in filter" ∈
        (List.zipWith (roundText t.fmt) [10, 20, 30, 40, 50, 60, 70, 80, 90, 100] rounds).flatten := by
      have hl := h1.length_eq
      have hlast : 9 < rounds.length := by rw [← hl]; decide
      refine List.mem_flatten.2 ⟨roundText t.fmt 100 rounds[9], ?_, by simp [roundText]⟩
      refine List.mem_iff_getElem.2 ⟨9, by simp only [List.length_zipWith]; simp; omega, ?_⟩
      simp
    by_cases ha : Above (rndQ (p + rndQ (p * tol))) (r.measure.mean (rounds.map Round.rate))
    · exact ⟨_, _, h2 ha, List.mem_append_right _ hmem⟩
    · exact ⟨_, _, h3 ha, List.mem_append_left _ (List.mem_append_right _ hmem)⟩
  · intro k hk
    obtain ⟨i, hi, rfl⟩ := List.mem_map.1 hk
    have hi' := List.mem_range.1 hi
    have hlt : i < (r.rng.shuffle es).length := by omega
    rw [if_neg (by rw [hrng]; omega), List.getD_eq_getElem?_getD,
      List.getElem?_eq_getElem hlt]
    exact hin _ ((r.rng.shuffle_perm es).mem_iff.1 (List.getElem_mem hlt))

/-! ### Samples -/

namespace Sample

/-- The percentages are all 100: nothing is changed. -/
def rng2 : BenchRng :=
  ⟨id, fun _ => .refl _, fun _ _ => 100, fun _ _ => le_refl _, fun _ _ _ => 1⟩

/-- Formatting that shows the numbers which are whole. -/
def libs2 : Libs where
  fmt := ⟨fun n => toString n.toNat, fun x => if x = .fin 0 then "0" else if x = .fin 1 then "1" else "?",
    fun _ => "?", fun x => if x = .fin 0 then "0" else if x = .fin 1 then "1" else "?",
    fun n => toString n ++ "ns"⟩
  hash := fun l => (l.headD 0).setWidth 64

/-- `bench --runs 1` on the line `A`. -/
def benchRun (rng : BenchRng) : Run :=
  ⟨.bench { benchOpts with runs := 1 }, 1, ⟨[65#8, 10#8], false⟩, none, [], rng, measure⟩

def benchResult (r : Run) : List String × Option (Res Unit) :=
  match main libs2 env world2 r with
  | (_, .text ls, x) => (ls, x)
  | (_, _, x) => ([], x)

end Sample

-- the text of the round at rate 100: nothing mutated was found
example : ((Sample.benchResult (Sample.benchRun Sample.rng1)).1.drop 57 =
      ["\tcondition: 0% of queried values are in filter", "\tquery duration: 1000ns",
        "\tquery speed: ? queries/s -> ? MB/s", "\tfp rate = 0", "",
        "Average queries per seconds: ?"]) ∧
    (Sample.benchResult (Sample.benchRun Sample.rng1)).2 = some (.ok ()) := by
  decide +kernel

-- the filter does not exist: two lines
example : Sample.benchResult { Sample.benchRun Sample.rng1 with
      command := .bench { Sample.benchOpts with file := some "nofile" } } =
    (["Preparing dataset", "Benchmarking filter: nofile"], some (.err (.ioError .notFound))) := by
  decide +kernel

-- the standard input fails: one line
example : Sample.benchResult { Sample.benchRun Sample.rng1 with stdin := ⟨[65#8], true⟩ } =
    (["Preparing dataset"], some (.err (.ioError .other))) := by
  decide +kernel

-- the standard output takes three lines
example : Sample.benchResult { Sample.benchRun Sample.rng1 with stdout := some 3 } =
    (["Preparing dataset", "Benchmarking dataset:", "\tversion                                  : 1"],
      some .panic) := by
  decide +kernel

-- a run that meets the hypotheses of `C87_text` and of `C88_condition_violated`
example : ∃ b, Setup Sample.env Sample.world2 Sample.libs2.hash (Sample.benchRun Sample.rng2).stdin
      { Sample.benchOpts with runs := 1 } [[65#8]] b ∧
    (∀ e ∈ [[65#8]], b.containsBytes Sample.env e = .ok true) ∧
    "\tcondition: 0% of queried values are in filter" ∈
      (Sample.benchResult (Sample.benchRun Sample.rng2)).1 ∧
    (∀ k ∈ queried Sample.rng2 [[65#8]] 1 100, b.containsBytes Sample.env k = .ok true) := by
  obtain ⟨b, hb, hbits⟩ := Sample.bench_setup Sample.world2 Sample.libs2.hash 1 [65#8]
    ⟨[65#8, 10#8], false⟩ (by decide)
  obtain ⟨lvl, hfrom⟩ := benchBloom_from (o := { Sample.benchOpts with runs := 1 }) rfl
    (benchBloom_iff.2 hb.filter)
  obtain ⟨_, _, hfpp, hin, _⟩ := C69_filter_partial Sample.env_small rfl (by simp) hb.filter
  have hq : FVal.ofBits b.fpp = .fin (5764607523034235 / 2 ^ 59) := by
    rw [hfpp]
    decide +kernel
  refine ⟨b, hb, hin hbits, ?_⟩
  obtain ⟨⟨text, res, h1, h2⟩, h3⟩ := C88_condition_violated (t := Sample.libs2)
    (r := Sample.benchRun Sample.rng2) Sample.env_small rfl rfl (Sample.measure_spec _) (by decide) hb
    (by simp) (fun k => hfrom.contains_ok Sample.libm_spec Sample.env_small k) (by decide) hq
    (by norm_num) (by norm_num) Sample.tol (by norm_num) (by norm_num) (hin hbits) fun _ => rfl
  refine ⟨?_, h3⟩
  unfold Sample.benchResult
  rw [h1]
  exact h2

end Poppy
