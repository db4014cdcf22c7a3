import Verif.Lemmas.AbstractMain
import Verif.Props.Sessions

/-!
# C89 Complete behaviour of the tool

`Verif/AbstractMain.lean` says what a run of the tool does, in terms of files, abstract filters and
lines, without threads.  Every run of the model does this.  It follows that the files and the outcomes
of a sequence of runs do not depend on the interleaving of the threads.
-/

namespace Poppy

open Spec Abs Cli

/-- A run that ends has done what `Does` says. -/
theorem C89_run {t : Libs} {env : Env} (hs : env.Small) {w : World} {r : Run}
    (hstdin : ∀ o, r.command = .bench o → r.stdin.bytes.length < 2 ^ 52)
    (hfile : ∀ f bs, r.command = .show f → w.fs f = some bs → bs.length < 2 ^ 50)
    {w' : World} {p : Printed} {x : Res Unit} (h : main t env w r = (w', p, some x)) :
    Does t (Bloom.machine env) env.debug w r w' p x := by
  unfold main at h
  unfold Does
  rcases hr : r.command with o | o | o | o | file
  · simp only [hr] at h ⊢
    rcases create_abstract hs w o r.jobs r.sched with h1 | ⟨w1, x1, y, h1, h2, h3⟩
    · rw [h1] at h; cases h
    · rw [h1] at h
      cases h
      exact ⟨rfl, y, h2, h3⟩
  · simp only [hr] at h ⊢
    rcases insert_abstract hs w r.stdin o r.jobs r.sched with h1 | ⟨w1, x1, h1, h2⟩
    · rw [h1] at h; cases h
    · rw [h1] at h
      cases h
      exact ⟨rfl, h2⟩
  · simp only [hr] at h ⊢
    obtain ⟨c1, c2, c3⟩ := checkTo_eq env w r.sched r.stdin o r.jobs ⟨[], r.stdout⟩
    obtain ⟨N, hN⟩ := C85_check hs w r.stdin o r.jobs
    obtain ⟨d1, d2, d3⟩ := hN r.sched
    rcases hc : checkTo env w r.sched r.stdin o r.jobs ⟨[], r.stdout⟩ with ⟨s, y⟩
    rw [hc] at c1 c2 c3 h
    simp only at c1 c2 c3 h
    cases h
    generalize check env w r.sched r.stdin o r.jobs = c at c1 c2 c3 d1 d2 d3
    subst c1
    by_cases hT : (⟨[], r.stdout⟩ : Stdout (List U8)).Takes c.1
    · have hl : ((⟨[], r.stdout⟩ : Stdout (List U8)).after c.1).lines = c.1 := by
        rcases hn : r.stdout with _ | n
        · simp [Stdout.after]
        · rw [hn] at hT
          have : c.1.length ≤ n := hT
          simp [Stdout.after, this]
      have hx := c2 hT
      refine ⟨rfl, _, rfl, by rw [hl]; exact d1, fun n hn => ?_, fun hok => ?_, .inl ?_⟩
      · rw [hl]
        rw [hn] at hT
        exact hT
      · rw [hl]
        exact d3 (by rw [← hx, hok])
      · rcases d2 with ⟨h, _⟩ | h
        · rw [h] at hx; cases hx
        · rw [h] at hx; exact Option.some.inj hx
    · obtain ⟨e1, e2⟩ := c3 hT
      obtain ⟨n, hn⟩ : ∃ n, r.stdout = some n := by
        rcases hn : r.stdout with _ | n
        · rw [hn] at hT; exact absurd trivial hT
        · exact ⟨n, rfl⟩
      rw [hn] at hT
      have hlt : n < c.1.length := by
        have : ¬ c.1.length ≤ n := hT
        omega
      have hl : ((⟨[], r.stdout⟩ : Stdout (List U8)).after c.1).lines = c.1.take n := by
        rw [hn]; simp [Stdout.after]
      refine ⟨rfl, _, rfl, ?_, fun m hm => ?_, fun hok => absurd (by rw [hok]) e1, ?_⟩
      · rw [hl]
        exact (List.take_sublist ..).subperm.trans d1
      · rw [hl, List.length_take]
        rw [hn] at hm
        cases hm
        omega
      · rcases e2 with h | h
        · refine .inr ⟨?_, ?_, Option.some.inj h⟩
          · rw [hl, hn, List.length_take, Nat.min_eq_left hlt.le]
          · rw [hl, List.length_take]
            have := d1.length_le
            omega
        · rcases d2 with ⟨g, _⟩ | g
          · rw [g] at h; cases h
          · rw [g] at h; exact .inl (Option.some.inj h)
  · simp only [hr] at h ⊢
    rw [printed_abstract (benchLog t.fmt env w t.hash r.measure r.rng r.stdin o), bench_abstract t hs w r.measure r.rng r.stdin o (hstdin o hr)] at h
    cases h
    exact ⟨rfl, rfl⟩
  · simp only [hr] at h ⊢
    rw [printed_abstract (showLog t.fmt env w file), showLog_abstract t.fmt env w file (fun bs hb => hfile file bs hr hb)] at h
    cases h
    exact ⟨rfl, rfl⟩

/-- As long as a run has not ended no file is changed. -/
theorem C89_running {t : Libs} {env : Env} (hs : env.Small) {w : World} {r : Run}
    (h : (main t env w r).2.2 = none) : (main t env w r).1 = w := by
  unfold main at h ⊢
  rcases hr : r.command with o | o | o | o | file
  · simp only [hr] at h ⊢
    rcases create_abstract hs w o r.jobs r.sched with h1 | ⟨w1, x1, y, h1, h2, h3⟩
    · rw [h1]
    · rw [h1] at h; cases h
  · simp only [hr] at h ⊢
    rcases insert_abstract hs w r.stdin o r.jobs r.sched with h1 | ⟨w1, x1, h1, h2⟩
    · rw [h1]
    · rw [h1] at h; cases h
  · rfl
  · rfl
  · rfl

/-- A run ends once every thread made enough steps, unless it is a `create` that never does. -/
theorem C89_ends {t : Libs} {env : Env} (hs : env.Small) {w : World} {r : Run} :
    (Ends (Bloom.machine env) w r → ∃ N, ∀ s, Fair (threads r) N s →
      (main t env w { r with sched := s }).2.2 ≠ none) ∧
    (¬ Ends (Bloom.machine env) w r → ∀ s, main t env w { r with sched := s } = (w, .none, none)) := by
  constructor
  · intro he
    unfold main threads
    rcases hr : r.command with o | o | o | o | file
    · simp only
      obtain ⟨N, hN⟩ := create_ends hs (he o hr)
      exact ⟨N, hN⟩
    · simp only
      obtain ⟨N, hN⟩ := C84_insert_ends env w r.stdin o r.jobs
      exact ⟨N, hN⟩
    · simp only
      obtain ⟨N, hN⟩ := C84_check_ends env w r.stdin o r.jobs
      refine ⟨N, fun s hf => ?_⟩
      obtain ⟨c1, c2, c3⟩ := checkTo_eq env w s r.stdin o r.jobs ⟨[], r.stdout⟩
      by_cases hT : (⟨[], r.stdout⟩ : Stdout (List U8)).Takes (check env w s r.stdin o r.jobs).1
      · rw [c2 hT]
        exact hN s hf
      · rcases (c3 hT).2 with h | h
        · rw [h]; simp
        · rw [h]; exact hN s hf
    · exact ⟨0, fun s _ => by simp⟩
    · exact ⟨0, fun s _ => by simp⟩
  · intro he s
    unfold Ends at he
    push Not at he
    obtain ⟨o, hr, hc⟩ := he
    have := C85_create hs w o r.jobs
    rw [hc] at this
    unfold main
    simp only [hr, this s]

/-- Two runs that differ in the interleaving of their threads only, and that end. -/
theorem C89_same {t : Libs} {env : Env} (hs : env.Small) {w : World} {r r' : Run} (h : SameRun r r')
    (he : (main t env w r).2.2 ≠ none) (he' : (main t env w r').2.2 ≠ none) :
    (main t env w r).1 = (main t env w r').1 ∧
    ((main t env w r).2.2 = some (.ok ()) ↔ (main t env w r').2.2 = some (.ok ())) ∧
    ((main t env w r).2.2 = some (.ok ()) →
      (main t env w r).2.1.Same (main t env w r').2.1) ∧
    (r.stdout = none → (main t env w r).2.2 = (main t env w r').2.2) := by
  obtain ⟨s', rfl⟩ := h
  have text : (∃ o, r.command = .bench o) ∨ (∃ file, r.command = .show file) →
      ∃ w' ls x, main t env w r = (w', .text ls, x) ∧
        main t env w { r with sched := s' } = (w', .text ls, x) := by
    rintro (⟨o, hr⟩ | ⟨file, hr⟩)
    all_goals
      unfold main
      simp only [hr]
      exact ⟨_, _, _, rfl, rfl⟩
  have same : (∃ w' ls x, main t env w r = (w', .text ls, x) ∧
        main t env w { r with sched := s' } = (w', .text ls, x)) →
      (main t env w r).1 = (main t env w { r with sched := s' }).1 ∧
      ((main t env w r).2.2 = some (.ok ()) ↔
        (main t env w { r with sched := s' }).2.2 = some (.ok ())) ∧
      ((main t env w r).2.2 = some (.ok ()) →
        (main t env w r).2.1.Same (main t env w { r with sched := s' }).2.1) ∧
      (r.stdout = none → (main t env w r).2.2 = (main t env w { r with sched := s' }).2.2) := by
    rintro ⟨w', ls, x, h1, h2⟩
    rw [h1, h2]
    exact ⟨rfl, Iff.rfl, fun _ => rfl, fun _ => rfl⟩
  obtain ⟨w1, p1, x1, h1⟩ : ∃ w1 p1 x1, main t env w r = (w1, p1, some x1) := by
    rcases hm : main t env w r with ⟨a, b, _ | c⟩
    · rw [hm] at he; exact absurd rfl he
    · exact ⟨a, b, c, rfl⟩
  obtain ⟨w2, p2, x2, h2⟩ : ∃ w2 p2 x2, main t env w { r with sched := s' } = (w2, p2, some x2) := by
    rcases hm : main t env w { r with sched := s' } with ⟨a, b, _ | c⟩
    · rw [hm] at he'; exact absurd rfl he'
    · exact ⟨a, b, c, rfl⟩
  obtain ⟨c, hr⟩ : ∃ c, r.command = c := ⟨_, rfl⟩
  rcases c with o | o | o | o | file
  case bench => exact same (text (.inl ⟨o, hr⟩))
  case «show» => exact same (text (.inr ⟨file, hr⟩))
  all_goals
    have d1 := C89_run hs (by simp [hr]) (by simp [hr]) h1
    have d2 := C89_run hs (by simp [hr]) (by simp [hr]) h2
    rw [h1, h2]
    unfold Does at d1 d2
    simp only [hr] at d1 d2
  · obtain ⟨rfl, y1, e1, f1⟩ := d1
    obtain ⟨rfl, y2, e2, f2⟩ := d2
    rw [e1] at e2
    cases e2
    rw [← f1] at f2
    cases f2
    exact ⟨rfl, Iff.rfl, fun _ => trivial, fun _ => rfl⟩
  · obtain ⟨rfl, f1⟩ := d1
    obtain ⟨rfl, f2⟩ := d2
    rw [← f1] at f2
    cases f2
    exact ⟨rfl, Iff.rfl, fun _ => trivial, fun _ => rfl⟩
  · obtain ⟨rfl, l1, rfl, a1, b1, c1, g1⟩ := d1
    obtain ⟨rfl, l2, rfl, a2, b2, c2, g2⟩ := d2
    have key : ∀ {x y : Res Unit} {l l' : List (List U8)},
        (x = .ok () → l.Perm (checkPrints (Bloom.machine env) w2 r.stdin o)) →
        (∀ n, r.stdout = some n → l.length ≤ n) →
        (x = checkCmd (Bloom.machine env) w2 r.stdin o r.jobs ∨ (r.stdout = some l.length ∧
          l.length < (checkPrints (Bloom.machine env) w2 r.stdin o).length ∧ x = .panic)) →
        (y = checkCmd (Bloom.machine env) w2 r.stdin o r.jobs ∨ (r.stdout = some l'.length ∧
          l'.length < (checkPrints (Bloom.machine env) w2 r.stdin o).length ∧ y = .panic)) →
        x = .ok () → y = .ok () := by
      intro x y l l' c b g g' hx
      rcases g with h | ⟨_, _, h⟩
      · rcases g' with h' | ⟨k1, k2, _⟩
        · rw [h', ← h, hx]
        · have := (c hx).length_eq
          have := b _ k1
          omega
      · rw [hx] at h; cases h
    refine ⟨rfl, ⟨fun h => ?_, fun h => ?_⟩, fun h => ?_, fun h => ?_⟩
    · rw [key c1 b1 g1 g2 (Option.some.inj h)]
    · rw [key c2 b2 g2 g1 (Option.some.inj h)]
    · exact (c1 (Option.some.inj h)).trans (c2 (key c1 b1 g1 g2 (Option.some.inj h))).symm
    · rcases g1 with g1 | ⟨k, _⟩
      · rcases g2 with g2 | ⟨k, _⟩
        · rw [g1, g2]
        · rw [h] at k; cases k
      · rw [h] at k; cases k

/-- The files after a sequence of runs that all end do not depend on the interleaving of the threads,
nor does which of them succeed, nor, but for the order of the lines, what the successful ones print;
where the standard output takes all lines the outcomes are the same. -/
theorem C89_session {t : Libs} {env : Env} (hs : env.Small) {w : World} {rs rs' : List Run}
    (h : List.Forall₂ SameRun rs rs') (he : ∀ x ∈ (session t env w rs).2, x.2 ≠ none)
    (he' : ∀ x ∈ (session t env w rs').2, x.2 ≠ none) :
    (session t env w rs).1 = (session t env w rs').1 ∧
    List.Forall₂ (fun a b => (a.2 = some (.ok ()) ↔ b.2 = some (.ok ())) ∧
      (a.2 = some (.ok ()) → a.1.Same b.1)) (session t env w rs).2 (session t env w rs').2 ∧
    ((∀ r ∈ rs, r.stdout = none) →
      (session t env w rs).2.map (·.2) = (session t env w rs').2.map (·.2)) := by
  induction h generalizing w with
  | nil => exact ⟨rfl, .nil, fun _ => rfl⟩
  | @cons r r' rs rs' hr _ ih =>
    simp only [session, List.forall_mem_cons] at he he'
    obtain ⟨h1, h2, h3, h4⟩ := C89_same hs hr he.1 he'.1
    have i := @ih (main t env w r).1 he.2 (by rw [h1]; exact he'.2)
    simp only [session]
    rw [← h1]
    refine ⟨i.1, .cons ⟨h2, h3⟩ i.2.1, fun hn => ?_⟩
    rw [List.map_cons, List.map_cons, h4 (hn r (by simp)),
      i.2.2 fun r hr => hn r (List.mem_cons_of_mem _ hr)]

/-! ### Samples -/

-- what the specification says about a `bench`: the last round finds nothing
example : ∃ text, benchCmd Sample.libs2 (Bloom.machine Sample.env) false Sample.world2 Sample.measure
      Sample.rng1 ⟨[65#8, 10#8], false⟩ { Sample.benchOpts with runs := 1 } = (text, .ok ()) ∧
    text.drop 57 = ["\tcondition: 0% of queried values are in filter", "\tquery duration: 1000ns",
        "\tquery speed: ? queries/s -> ? MB/s", "\tfp rate = 0", "",
        "Average queries per seconds: ?"] := by
  have h := bench_abstract Sample.libs2 Sample.env_small Sample.world2 Sample.measure
    Sample.rng1 ⟨[65#8, 10#8], false⟩ { Sample.benchOpts with runs := 1 } (by decide)
  refine ⟨_, Prod.ext rfl ((congrArg Log.res h).symm.trans ?_), ?_⟩
  · decide +kernel
  · refine (congrArg (List.drop 57) (congrArg Log.out h)).symm.trans ?_
    decide +kernel

namespace Sample

/-- `create -c 10 out`, `insert out x y`, then `check out x y` by two threads, with two orders of the
threads. -/
def twoRuns (a b : Schedule) : List Run :=
  [⟨.create ⟨2, 10, p001, 0, "out", []⟩, 1, ⟨[], false⟩, none, [], rng, measure⟩,
   ⟨.insert ⟨false, "out", ["x", "y"]⟩, 1, ⟨[], false⟩, none, a, rng, measure⟩,
   ⟨.check ⟨false, false, false, "out", ["x", "y"]⟩, 2, ⟨[], false⟩, none, b, rng, measure⟩]

def results (rs : List Run) : List (List (List U8) × Option (Res Unit)) :=
  (Cli.session libs env world2 rs).2.map fun x =>
    match x with
    | (.bytes ls, x) => (ls, x)
    | (_, x) => ([], x)

end Sample

-- the order in which the lines are printed depends on the threads
example : Sample.results (Sample.twoRuns [0, 0, 0, 0, 0] [0, 0, 0, 0, 1, 1, 1, 1]) =
      [([], some (.ok ())), ([], some (.ok ())), ([[97#8], [98#8]], some (.ok ()))] ∧
    Sample.results (Sample.twoRuns [1, 0, 0, 0, 0, 0] [1, 1, 1, 1, 0, 0, 0, 0]) =
      [([], some (.ok ())), ([], some (.ok ())), ([[98#8], [97#8]], some (.ok ()))] := by
  decide +kernel

-- the files do not
example : (session Sample.libs Sample.env Sample.world2
      (Sample.twoRuns [0, 0, 0, 0, 0] [0, 0, 0, 0, 1, 1, 1, 1])).1
    = (session Sample.libs Sample.env Sample.world2
      (Sample.twoRuns [1, 0, 0, 0, 0, 0] [1, 1, 1, 1, 0, 0, 0, 0])).1 :=
  (C89_session Sample.env_small (.cons ⟨_, rfl⟩ (.cons ⟨_, rfl⟩ (.cons ⟨_, rfl⟩ .nil))) (by
    have : ((session Sample.libs Sample.env Sample.world2 (Sample.twoRuns [0, 0, 0, 0, 0]
        [0, 0, 0, 0, 1, 1, 1, 1])).2.all fun x => x.2.isSome) = true := by decide +kernel
    intro x hx h
    have := List.all_eq_true.1 this x hx
    rw [h] at this
    cases this) (by
    have : ((session Sample.libs Sample.env Sample.world2 (Sample.twoRuns [1, 0, 0, 0, 0, 0]
        [1, 1, 1, 1, 0, 0, 0, 0])).2.all fun x => x.2.isSome) = true := by decide +kernel
    intro x hx h
    have := List.all_eq_true.1 this x hx
    rw [h] at this
    cases this)).1

end Poppy
