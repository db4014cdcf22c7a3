import Verif.Lemmas.Measure
import Verif.Props.Bench

/-! # Measuring the time a function takes (C95)

`s i` is the state after `i` calls of the function measured, `clock i` the time of the call with
number `i` in nanoseconds.  The mean and the standard deviation are those of the `statrs` crate, in
floating point arithmetic. -/

namespace Poppy

open Spec Cli

variable {σ : Type} {clock : ℕ → ℕ} {f : σ → σ × Res Unit} {s : ℕ → σ} {run : ℕ}

/-- The function is called as many times as asked for. -/
theorem C95_calls (h : ∀ i < run, f (s i) = (s (i + 1), .ok ())) :
    (benchmarkFn clock f run (s 0)).1 = s run := by
  rw [benchmarkFn_ok clock f s run h]

/-- The first call that panics ends it. -/
theorem C95_panic {k : ℕ} {x : σ} (hk : k < run) (h : ∀ i < k, f (s i) = (s (i + 1), .ok ()))
    (hp : f (s k) = (x, .panic)) : benchmarkFn clock f run (s 0) = (x, .panic) := by
  obtain ⟨m, rfl⟩ : ∃ m, run = k + 1 + m := ⟨run - k - 1, by omega⟩
  unfold benchmarkFn
  rw [timeRuns_panic clock f s x k m 0 (by simpa using h) (by simpa using hp)]

/-- One run is reported to the nanosecond, up to 48 days. -/
theorem C95_once {s₀ s₁ : σ} (h : f s₀ = (s₁, .ok ())) (hc : clock 0 < 2 ^ 22 * 10 ^ 9) :
    timeItOnce clock f s₀ = (s₁, .ok (clock 0)) := by
  unfold timeItOnce benchmarkFn
  simp only [timeRuns, h]
  unfold summary
  rw [if_pos rfl]
  simp only
  rw [fromSecs_asSecs hc]

/-- The time reported is not below the shortest and not above the longest run; if all runs take the
same time then it is that time.  Missing: runs of longer times (`C95_long_violated`). -/
theorem C95_between_partial (h : ∀ i < run, f (s i) = (s (i + 1), .ok ())) (h1 : 1 ≤ run)
    (h24 : run ≤ 2 ^ 24) {a b : ℕ} (hab : ∀ i < run, a ≤ clock i ∧ clock i ≤ b)
    (hb : run ^ 2 * b ≤ 2 ^ 17 * 10 ^ 9) :
    ∃ d, (benchmarkFn clock f run (s 0)).2 = .ok d ∧ a ≤ d ∧ d ≤ b := by
  rcases Nat.lt_or_ge 1 run with h2 | h2
  · rw [benchmarkFn_ok clock f s run h]
    have hR := runs_of h2 h24 (fun i hi => (hab i hi).2) hb
    obtain ⟨l, d, hne, hl, hd, hm⟩ := hR.summary (le_refl _)
    refine ⟨d, hd, mean_between hne ?_ hm⟩
    intro x hx
    rw [hl] at hx
    obtain ⟨i, hi, rfl⟩ := List.mem_map.1 (List.mem_filter.1 hx).1
    exact hab i (List.mem_range.1 hi)
  · obtain rfl : run = 1 := by omega
    obtain ⟨b1, b2⟩ := hab 0 Nat.one_pos
    have := C95_once (clock := clock) (h 0 Nat.one_pos) (by omega)
    unfold timeItOnce at this
    exact ⟨clock 0, by rw [this], b1, b2⟩

/-- Up to ten runs: the time reported is the mean of all of them, to the nanosecond. -/
theorem C95_few (h : ∀ i < run, f (s i) = (s (i + 1), .ok ())) (h2 : 2 ≤ run) (h10 : run ≤ 10) {t : ℕ}
    (hc : ∀ i < run, clock i ≤ t) (ht : run ^ 2 * t ≤ 2 ^ 13 * 10 ^ 9) :
    ∃ d : ℕ, (benchmarkFn clock f run (s 0)).2 = .ok d ∧
      |(d : ℚ) - ((((List.range run).map clock).sum : ℕ) : ℚ) / run| < 1 := by
  rw [benchmarkFn_ok clock f s run h]
  have hR := runs_of h2 (by omega) hc ht
  obtain ⟨l, d, _, hl, hd, hm⟩ := hR.summary (by norm_num)
  rw [List.filter_eq_self.2 (hR.all_kept h10)] at hl
  rw [hl, List.length_map, List.length_range] at hm
  exact ⟨d, hd, lt_of_le_of_lt hm (by norm_num)⟩

/-- From fifteen runs on, one run that takes much longer or much shorter than all the others has no
influence: the time reported is not below the shortest and not above the longest of the others. -/
theorem C95_outlier (h : ∀ i < run, f (s i) = (s (i + 1), .ok ())) (h15 : 15 ≤ run)
    (h24 : run ≤ 2 ^ 24) {a b k : ℕ} (hk : k < run)
    (hab : ∀ i < run, i ≠ k → a ≤ clock i ∧ clock i ≤ b)
    (hz : b + 100 * (b - a) + 100 ≤ clock k ∨ clock k + 100 * (b - a) + 100 ≤ a)
    (hb : run ^ 2 * b ≤ 2 ^ 17 * 10 ^ 9) (ht : run ^ 2 * clock k ≤ 2 ^ 17 * 10 ^ 9) :
    ∃ d, (benchmarkFn clock f run (s 0)).2 = .ok d ∧ a ≤ d ∧ d ≤ b := by
  rw [benchmarkFn_ok clock f s run h]
  have hR := runs_of (t := max b (clock k)) (c := 2 ^ 17) (clock := clock) (run := run) (by omega) h24
    (fun i hi => by
      rcases eq_or_ne i k with rfl | hne
      · exact le_max_right _ _
      · exact le_trans (hab i hi hne).2 (le_max_left _ _))
    (by rcases max_choice b (clock k) with h1 | h1 <;> rw [h1] <;> assumption)
  have hle : a ≤ b := by
    obtain ⟨i, hi, hne⟩ : ∃ i < run, i ≠ k := by
      rcases eq_or_ne k 0 with rfl | h0
      · exact ⟨1, by omega, by omega⟩
      · exact ⟨0, by omega, by omega⟩
    have := hab i hi hne
    omega
  obtain ⟨r₁, r₂, hr⟩ := List.append_of_mem (List.mem_range.2 hk)
  have hnd : (r₁ ++ k :: r₂).Nodup := by rw [← hr]; exact List.nodup_range
  have hcs : (List.range run).map clock = r₁.map clock ++ clock k :: r₂.map clock := by
    rw [hr, List.map_append, List.map_cons]
  have hR' := hR
  rw [hcs] at hR'
  have hout := hR'.outlier h15 (a := a) (b := b) (by
    intro x hx
    rw [← List.map_append] at hx
    obtain ⟨i, hi, rfl⟩ := List.mem_map.1 hx
    refine hab i ?_ ?_
    · have : i ∈ List.range run := by
        rw [hr]
        rcases List.mem_append.1 hi with h1 | h1
        · exact List.mem_append_left _ h1
        · exact List.mem_append_right _ (List.mem_cons_of_mem _ h1)
      exact List.mem_range.1 this
    · rintro rfl
      exact (List.nodup_middle.1 hnd).notMem hi) hle hz
  rw [← hcs] at hout
  obtain ⟨l, d, hne, hl, hd, hm⟩ := hR.summary (le_refl _)
  refine ⟨d, hd, mean_between hne ?_ hm⟩
  intro x hx
  rw [hl] at hx
  obtain ⟨hx1, hx2⟩ := List.mem_filter.1 hx
  obtain ⟨i, hi, rfl⟩ := List.mem_map.1 hx1
  refine hab i (List.mem_range.1 hi) ?_
  rintro rfl
  rw [hout] at hx2
  exact absurd hx2 (by simp)

/-- Without runs there is no time to report: panic. -/
theorem C95_zero_violated (s₀ : σ) : benchmarkFn clock f 0 s₀ = (s₀, .panic) := by
  unfold benchmarkFn
  simp only [timeRuns, summary]
  rfl

/-- With up to ten runs, one that took longer than all the others by any amount is not left out: a
tenth of it at least is in the time reported. -/
theorem C95_outlier_violated (h : ∀ i < run, f (s i) = (s (i + 1), .ok ())) (h2 : 2 ≤ run)
    (h10 : run ≤ 10) {a z k : ℕ} (hk : k < run) (hck : clock k = z)
    (hc : ∀ i < run, i ≠ k → clock i = a) (haz : a ≤ z) (ht : run ^ 2 * z ≤ 2 ^ 13 * 10 ^ 9) :
    ∃ d : ℕ, (benchmarkFn clock f run (s 0)).2 = .ok d ∧ a + (z - a) / 10 ≤ d + 1 := by
  obtain ⟨d, hd, hm⟩ := C95_few (clock := clock) h h2 h10 (t := z) (fun i hi => by
    rcases eq_or_ne i k with rfl | hne
    · rw [hck]
    · rw [hc i hi hne]; exact haz) ht
  refine ⟨d, hd, ?_⟩
  obtain ⟨r₁, r₂, hr⟩ := List.append_of_mem (List.mem_range.2 hk)
  have hnd : (r₁ ++ k :: r₂).Nodup := by rw [← hr]; exact List.nodup_range
  have hlen : (r₁ ++ r₂).length = run - 1 := by
    have := congrArg List.length hr
    simp only [List.length_range, List.length_append, List.length_cons] at this ⊢
    omega
  have hsum : ((List.range run).map clock).sum = z + (run - 1) * a := by
    have h1 : (r₁ ++ r₂).map clock = List.replicate (run - 1) a := by
      rw [List.eq_replicate_iff, List.length_map, hlen]
      refine ⟨rfl, ?_⟩
      intro x hx
      obtain ⟨i, hi, rfl⟩ := List.mem_map.1 hx
      refine hc i ?_ ?_
      · have : i ∈ List.range run := by
          rw [hr]
          rcases List.mem_append.1 hi with h1 | h1
          · exact List.mem_append_left _ h1
          · exact List.mem_append_right _ (List.mem_cons_of_mem _ h1)
        exact List.mem_range.1 this
      · rintro rfl
        exact (List.nodup_middle.1 hnd).notMem hi
    have h2 : ((r₁ ++ r₂).map clock).sum = (run - 1) * a := by rw [h1]; simp
    rw [hr]
    simp only [List.map_append, List.map_cons, List.sum_append, List.sum_cons] at h2 ⊢
    omega
  rw [hsum] at hm
  have hrun : (0 : ℚ) < run := by exact_mod_cast (by omega : 0 < run)
  have h10q : (run : ℚ) ≤ 10 := by exact_mod_cast h10
  have hcast : (((z + (run - 1) * a : ℕ) : ℕ) : ℚ) = z + (run - 1) * a := by
    rw [Nat.cast_add, Nat.cast_mul, Nat.cast_sub (by omega)]; norm_num
  rw [hcast] at hm
  have hazq : (a : ℚ) ≤ z := by exact_mod_cast haz
  have e : ((z : ℚ) + (run - 1) * a) / run = a + (z - a) / run := by field_simp; ring
  rw [e] at hm
  have h3 : ((z : ℚ) - a) / 10 ≤ (z - a) / run := by
    rw [div_le_div_iff₀ (by norm_num) hrun]
    exact mul_le_mul_of_nonneg_left h10q (by linarith only [hazq])
  have h4 : (((z - a) / 10 : ℕ) : ℚ) ≤ ((z : ℚ) - a) / 10 := by
    have := Nat.cast_div_le (α := ℚ) (m := z - a) (n := 10)
    rw [Nat.cast_sub haz] at this
    exact_mod_cast this
  have h5 : ((a + (z - a) / 10 : ℕ) : ℚ) ≤ ((d + 1 : ℕ) : ℚ) := by
    push_cast
    have := (abs_lt.1 hm).1
    linarith only [this, h3, h4]
  exact_mod_cast h5

/-- The times of three runs of 85 days. -/
def Sample.longClock (i : ℕ) : ℕ := 7340032 * 10 ^ 9 + if i = 2 then 2 else 4

/-- Runs of a very long time: the standard deviation is computed to be 0, no run has exactly the mean
time, none is kept, and the mean of no run cannot be made a duration: panic. -/
theorem C95_long_violated : ∃ clock : ℕ → ℕ, (∀ i, clock i < 7340033 * 10 ^ 9) ∧
    ∀ (f : σ → σ × Res Unit) (s : ℕ → σ), (∀ i < 3, f (s i) = (s (i + 1), .ok ())) →
      benchmarkFn clock f 3 (s 0) = (s 3, .panic) := by
  refine ⟨Sample.longClock, fun i => ?_, fun f s h => ?_⟩
  · unfold Sample.longClock; split <;> omega
  rw [benchmarkFn_ok _ f s 3 h]
  have hv : statrsVariance (((List.range 3).map Sample.longClock).map asSecs) = .fin 0 := by
    decide +kernel
  have hsd : statrsStdDev (((List.range 3).map Sample.longClock).map asSecs) = .fin 0 := by
    unfold statrsStdDev
    rw [hv]
    show (if (0 : ℚ) < 0 then FVal.nan else rnd (Real.sqrt ((0 : ℚ) : ℝ))) = _
    rw [if_neg (lt_irrefl _), Rat.cast_zero, Real.sqrt_zero]
    have h0 : rndQ (0 : ℝ) = 0 := by simp [rndQ, rneInt]
    unfold rnd
    simp only [h0]
    decide +kernel
  have hs : Cli.summary 3 (((List.range 3).map Sample.longClock).map asSecs) = .panic := by
    unfold Cli.summary
    rw [if_neg (by norm_num), hsd]
    decide +kernel
  rw [hs]

/-- `bench` measures in this way. -/
theorem C95_bench {clock : ℕ → ℕ → ℕ} (m : ℕ) (h : ∀ i < run, f (s i) = (s (i + 1), .ok ())) :
    benchmark ⟨statrsMean, statrsStdDev, clock⟩ run m = (benchmarkFn (clock m) f run (s 0)).2 := by
  rw [benchmarkFn_ok (clock m) f s run h]
  unfold benchmark Cli.summary
  simp only [List.map_map]
  split
  · next h1 => subst h1; rfl
  · rfl

/-- `bench` does not panic in measuring. -/
theorem C95_bench_no_panic_partial {fmt : Fmt} {env : Env} (sp : env.libm.Spec) (hs : env.Small)
    {w : World} {h : List U8 → U64} {clock : ℕ → ℕ → ℕ} {o : Benchmark} {rng : BenchRng}
    {stdin : Stdin} (hlen : stdin.bytes.length < 2 ^ 63)
    (hl : env.debug = false ∨ (o.sizeMb ≠ 0 ∧ o.sizeMb.toNat < 2 ^ 44)) (hfile : o.file = none)
    (hr : o.runs ≠ 0) (hr' : o.runs ≤ 2 ^ 24) {t : ℕ} (ht : ∀ m i, clock m i ≤ t)
    (hrt : o.runs ^ 2 * t ≤ 2 ^ 17 * 10 ^ 9)
    (hmk : ∀ c lvl, c.toNat ≤ stdin.bytes.length + 1 →
      Bloom.withVersionCapacityOpt env o.version c o.fpp lvl ≠ .panic) :
    bench fmt env w h ⟨statrsMean, statrsStdDev, clock⟩ rng stdin o ≠ .panic :=
  C70_no_panic_partial sp hs (statrs_measureSpec ht hr hr' hrt) hlen hl hfile hr hmk

/-! ## Instances -/

/-- A function that counts its calls, and panics on call number `p`. -/
def Sample.count (p : ℕ) (n : ℕ) : ℕ × Res Unit := (n + 1, if n = p then .panic else .ok ())

example : (benchmarkFn (fun i => 1000 + i) (Sample.count 50) 50 0).1 = 50 :=
  C95_calls (s := id) fun i hi => by
    simp only [Sample.count, id]; rw [if_neg (by omega)]

example : benchmarkFn (fun i => 1000 + i) (Sample.count 7) 50 0 = (8, .panic) :=
  C95_panic (s := id) (k := 7) (by norm_num) (fun i hi => by
    simp only [Sample.count, id]; rw [if_neg (by omega)]) (by simp [Sample.count])

example : timeItOnce (fun _ => 1234567012345678) (Sample.count 7) 0 = (1, .ok 1234567012345678) :=
  C95_once (by simp [Sample.count]) (by norm_num)

/-- Fifty runs between one and two seconds. -/
example : ∃ d, (benchmarkFn (fun i => 10 ^ 9 + 10 ^ 7 * i) (Sample.count 50) 50 0).2 = .ok d ∧
    10 ^ 9 ≤ d ∧ d ≤ 2 * 10 ^ 9 :=
  C95_between_partial (s := id) (fun i hi => by
    simp only [Sample.count, id]; rw [if_neg (by omega)]) (by norm_num) (by norm_num)
    (fun i hi => by constructor <;> omega) (by norm_num)

/-- Fifty runs of the same time. -/
example : (benchmarkFn (fun _ => 1234567) (Sample.count 50) 50 0).2 = .ok 1234567 := by
  obtain ⟨d, hd, h1, h2⟩ := C95_between_partial (clock := fun _ => 1234567) (f := Sample.count 50) (run := 50)
    (s := id) (fun i hi => by simp only [Sample.count, id]; rw [if_neg (by omega)]) (by norm_num)
    (by norm_num) (fun _ _ => ⟨le_refl _, le_refl _⟩) (by norm_num)
  obtain rfl : d = 1234567 := by omega
  exact hd

/-- Three runs: the mean of 1, 2 and 6 seconds. -/
example : ∃ d : ℕ, (benchmarkFn (fun i => [1, 2, 6].getD i 0 * 10 ^ 9) (Sample.count 50) 3 0).2 = .ok d ∧
    |(d : ℚ) - 3 * 10 ^ 9| < 1 := by
  obtain ⟨d, hd, hm⟩ := C95_few (clock := fun i => [1, 2, 6].getD i 0 * 10 ^ 9) (f := Sample.count 50)
    (run := 3) (s := id) (fun i hi => by simp only [Sample.count, id]; rw [if_neg (by omega)])
    (by norm_num) (by norm_num) (t := 6 * 10 ^ 9)
    (fun i hi => by interval_cases i <;> norm_num) (by norm_num)
  refine ⟨d, hd, ?_⟩
  norm_num [List.range_succ] at hm ⊢
  exact hm

/-- Fifty runs of about a millisecond, one of ten seconds. -/
example : ∃ d, (benchmarkFn (fun i => if i = 20 then 10 ^ 10 else 10 ^ 6 + i) (Sample.count 50) 50 0).2
    = .ok d ∧ 10 ^ 6 ≤ d ∧ d ≤ 10 ^ 6 + 50 :=
  C95_outlier (s := id) (k := 20) (fun i hi => by
    simp only [Sample.count, id]; rw [if_neg (by omega)]) (by norm_num) (by norm_num) (by norm_num)
    (fun i hi hne => by simp only [if_neg hne]; omega) (by norm_num) (by norm_num) (by norm_num)

/-- Fifteen runs of about a second, one of a millisecond. -/
example : ∃ d, (benchmarkFn (fun i => if i = 0 then 10 ^ 6 else 10 ^ 9 + 10 ^ 4 * i) (Sample.count 50) 15 0).2
    = .ok d ∧ 10 ^ 9 ≤ d ∧ d ≤ 10 ^ 9 + 10 ^ 6 :=
  C95_outlier (s := id) (k := 0) (fun i hi => by
    simp only [Sample.count, id]; rw [if_neg (by omega)]) (by norm_num) (by norm_num) (by norm_num)
    (fun i hi hne => by simp only [if_neg hne]; omega) (by norm_num) (by norm_num) (by norm_num)

/-- Ten runs, nine of a millisecond, one of ten seconds: a second is reported. -/
example : ∃ d, (benchmarkFn (fun i => if i = 4 then 10 ^ 10 else 10 ^ 6) (Sample.count 50) 10 0).2
    = .ok d ∧ 10 ^ 9 ≤ d := by
  obtain ⟨d, hd, h1⟩ := C95_outlier_violated (clock := fun i => if i = 4 then 10 ^ 10 else 10 ^ 6)
    (f := Sample.count 50) (run := 10) (s := id) (k := 4) (a := 10 ^ 6) (z := 10 ^ 10)
    (fun i hi => by simp only [Sample.count, id]; rw [if_neg (by omega)])
    (by norm_num) (by norm_num) (by norm_num) rfl (fun i hi hne => if_neg hne) (by norm_num) (by norm_num)
  exact ⟨d, hd, by norm_num at h1; omega⟩

example : benchmark ⟨statrsMean, statrsStdDev, fun _ _ => 1000⟩ 50 10 =
    (benchmarkFn (fun _ => 1000) (Sample.count 50) 50 0).2 :=
  C95_bench (s := id) (clock := fun _ _ => 1000) 10 fun i hi => by
    simp only [Sample.count, id]; rw [if_neg (by omega)]

-- `bench` on a line `A`, with runs of a millisecond
example (fmt : Fmt) (w : World) (h : List U8 → U64) :
    bench fmt Sample.env w h ⟨statrsMean, statrsStdDev, fun m i => 10 ^ 6 + (m + i) % 100⟩ Sample.rng1
      ⟨[65#8, 10#8], false⟩ Sample.benchOpts ≠ .panic := by
  refine C95_bench_no_panic_partial Sample.libm_spec Sample.env_small (by decide) (.inl rfl) rfl
    (by decide) (by decide) (t := 10 ^ 6 + 100) (fun m i => by omega) (by decide) ?_
  intro c lvl hc
  have : ∀ n < 4, (match V1.withCapacity Sample.env (BitVec.ofNat 64 n) Sample.p001 with
      | .panic => false | _ => true) = true := by decide +kernel
  have hc' := this c.toNat (by simpa using Nat.lt_succ_of_le hc)
  rw [BitVec.ofNat_toNat, BitVec.setWidth_eq] at hc'
  show (V1.withCapacity Sample.env c Sample.p001).map Bloom.v1 ≠ .panic
  cases hv : V1.withCapacity Sample.env c Sample.p001 with
  | ok f => simp [Res.map]
  | err e => simp [Res.map]
  | panic => rw [hv] at hc'; cases hc'

end Poppy
