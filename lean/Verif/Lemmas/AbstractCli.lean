import Verif.AbstractCli
import Verif.Lemmas.RefineBloom
import Verif.Lemmas.Failing
import Verif.Lemmas.Write
import Verif.Props.Reading
import Verif.Props.Peek

/-! The commands of the model against `Verif/AbstractCli.lean`. -/

namespace Poppy
namespace Cli

open Spec Abs

/-! ## Reading -/

theorem splitLines_spec (bs : List U8) : (∀ l ∈ (splitLines bs).1, LF ∉ l) ∧ LF ∉ (splitLines bs).2 ∧
    unlines (splitLines bs).1 (splitLines bs).2 = bs := by
  induction bs with
  | nil => simp [splitLines, unlines]
  | cons b bs ih =>
    obtain ⟨h1, h2, h3⟩ := ih
    rw [splitLines]
    by_cases hb : b = 10#8
    · rw [if_pos hb]
      subst hb
      refine ⟨by simpa using h1, h2, ?_⟩
      show 10#8 :: unlines (splitLines bs).1 (splitLines bs).2 = _
      rw [h3]
    · rw [if_neg hb]
      have hb' : LF ≠ b := fun h => hb h.symm
      rcases hs : splitLines bs with ⟨ls, last⟩
      rw [hs] at h1 h2 h3
      cases ls with
      | nil =>
        refine ⟨by simp, by simp only [List.mem_cons, not_or]; exact ⟨hb', h2⟩, ?_⟩
        rw [← h3]; rfl
      | cons l ls =>
        refine ⟨?_, h2, ?_⟩
        · intro x hx
          rcases List.mem_cons.1 hx with rfl | hx
          · simp only [List.mem_cons, not_or]
            exact ⟨hb', h1 l (by simp)⟩
          · exact h1 x (by simp [hx])
        · rw [← h3]; rfl

theorem item_terminated (l : List U8) : lineItem (l ++ [LF]) = item l (dropCr l) := by
  rw [lineItem_terminated, item]
  have := validUtf8_iff l
  by_cases h : IsUtf8 l
  · rw [if_pos h, if_pos (this.2 h)]
  · rw [if_neg h, if_neg (fun x => h (this.1 x))]

theorem item_last {l : List U8} (hl : LF ∉ l) : lineItem l = item l l := by
  rw [lineItem_last hl, item]
  have := validUtf8_iff l
  by_cases h : IsUtf8 l
  · rw [if_pos h, if_pos (this.2 h)]
  · rw [if_neg h, if_neg (fun x => h (this.1 x))]

theorem lines_eq (bs : List U8) : lines bs = textLines bs := by
  obtain ⟨h1, h2, h3⟩ := splitLines_spec bs
  conv_lhs => rw [← h3]
  rw [lines_unlines h1 h2, textLines, completeLines, item_last h2]
  congr 1
  exact List.map_congr_left fun l _ => item_terminated l

theorem brokenLines_eq (bs : List U8) {fuel : ℕ} (hf : bs.length < fuel) :
    brokenLinesAux fuel bs = completeLines bs ++ [.err (.ioError .other)] := by
  obtain ⟨h1, h2, h3⟩ := splitLines_spec bs
  have hlen := length_unlines (splitLines bs).1 (splitLines bs).2
  rw [h3] at hlen
  conv_lhs => rw [← h3]
  rw [brokenLinesAux_unlines h1 h2 (by omega), completeLines]
  congr 1
  exact List.map_congr_left fun l _ => item_terminated l

/-- The three ways of opening a file. -/
theorem open_source (w : World) (f : Path) :
    (∃ e, source w f = .refused e ∧ w.open f = .err e) ∨
    (∃ bs, w.fs f = some bs ∧ source w f = .whole bs ∧ w.open f = .ok (Reader.ofBytes bs)) ∨
    (∃ bs k, w.fs f = some bs ∧ k ≤ bs.length ∧ source w f = .broken (bs.take k) ∧
      w.open f = .ok ⟨bs, 0, some k⟩) := by
  unfold source World.open
  cases hf : w.fs f with
  | none => exact .inl ⟨_, rfl, rfl⟩
  | some bs =>
    cases ha : w.access f with
    | denied => exact .inl ⟨_, rfl, rfl⟩
    | full => exact .inr (.inl ⟨bs, rfl, rfl, rfl⟩)
    | upTo k =>
      by_cases hk : k ≤ bs.length
      · simp only [if_pos hk]
        exact .inr (.inr ⟨bs, k, rfl, hk, rfl, rfl⟩)
      · simp only [if_neg hk]
        exact .inr (.inl ⟨bs, rfl, rfl, rfl⟩)

theorem open_items (w : World) (f : Path) :
    (source w f).items = match w.open f with
      | .ok r => fileLines r
      | .err e => [.err e]
      | .panic => [.panic] := by
  rcases open_source w f with ⟨e, h1, h2⟩ | ⟨bs, _, h1, h2⟩ | ⟨bs, k, _, hk, h1, h2⟩
  · rw [h1, h2]; rfl
  · rw [h1, h2]
    exact (lines_eq bs).symm
  · rw [h1, h2]
    show _ = brokenLinesAux (k + 1) (bs.take k)
    rw [brokenLines_eq _ (by rw [List.length_take]; omega)]
    rfl

theorem stdin_items (stdin : Stdin) : stdin.lines
    = (if stdin.fails then Source.broken stdin.bytes else Source.whole stdin.bytes).items := by
  unfold Stdin.lines
  split_ifs
  · rw [brokenLines_eq _ (Nat.lt_succ_self _)]; rfl
  · exact lines_eq _

/-! ## Filters -/

/-- The abstract outcome of an outcome of the model; filters of the model have a history. -/
def Sim (env : Env) (x : Res Bloom) (y : Res F) : Prop :=
  y = x.map Bloom.view ∧ ∀ f, x = .ok f → f.Reach env

theorem failing_ok {α : Type} {r : Res α} {a : α} : failing r ≠ .ok a := by
  unfold failing
  split
  · simp
  · simp
  · rename_i h _
    intro hr
    exact h a hr

theorem sim_stored {env : Env} (hs : env.Small) (w : World) (f : Path) :
    Sim env (w.open f >>= Bloom.fromReader env) ((source w f).filter (Bloom.machine env)) := by
  rcases open_source w f with ⟨e, h1, h2⟩ | ⟨bs, _, h1, h2⟩ | ⟨bs, k, _, hk, h1, h2⟩
  · rw [h1, h2]
    exact ⟨rfl, fun f h => by cases h⟩
  · rw [h1, h2, Res.bind_ok]
    exact ⟨Bloom.view_load hs bs, fun f h => Bloom.Reach.load h⟩
  · rw [h1, h2, Res.bind_ok, show Bloom.fromReader env ⟨bs, 0, some k⟩ = _ from
      LocalEnd.bloom env false bs k 0 hk]
    refine ⟨?_, fun f h => absurd h failing_ok⟩
    show failing (loaded (load env.allocLimit (bs.take k))) = _
    rw [Bloom.view_load hs (bs.take k), failing_map]
    rfl

theorem sim_feed {env : Env} (hs : env.Small) {bf : Bloom} (h : bf.Reach env) (ls : List Item) :
    Sim env (insertLines env bf ls) (bf.view.feed (Bloom.machine env) ls) := by
  induction ls generalizing bf with
  | nil => exact ⟨rfl, fun f hf => by cases hf; exact h⟩
  | cons l ls ih =>
    cases l with
    | err e => exact ⟨rfl, fun f hf => by cases hf⟩
    | panic => exact ⟨rfl, fun f hf => by cases hf⟩
    | ok l =>
      rw [insertLines, F.feed, Bloom.view_insert hs h l]
      have hr := Bloom.insert_reach h l
      rcases hi : bf.insertBytes env l with ⟨g, r⟩
      rw [hi] at hr
      cases r with
      | err e => exact ⟨rfl, fun f hf => by cases hf⟩
      | panic => exact ⟨rfl, fun f hf => by cases hf⟩
      | ok b => exact ih hr

theorem insertLines_append (env : Env) (bf : Bloom) (a b : List Item) :
    insertLines env bf (a ++ b) = insertLines env bf a >>= fun g => insertLines env g b := by
  induction a generalizing bf with
  | nil => rfl
  | cons l ls ih =>
    cases l with
    | err e => rfl
    | panic => rfl
    | ok l =>
      rw [List.cons_append, insertLines, insertLines]
      rcases bf.insertBytes env l with ⟨g, r⟩
      cases r with
      | err e => rfl
      | panic => rfl
      | ok b => exact ih g

theorem processFiles_eq (env : Env) (w : World) (bf : Bloom) (fs : List Path) :
    processFiles env w bf fs = insertLines env bf (fs.flatMap fun f => (source w f).items) := by
  induction fs generalizing bf with
  | nil => rfl
  | cons f fs ih =>
    rw [processFiles, List.flatMap_cons, insertLines_append, open_items]
    cases ho : w.open f with
    | err e => rfl
    | panic => rfl
    | ok r =>
      rw [Res.bind_ok]
      cases hi : insertLines env bf (fileLines r) with
      | err e => rfl
      | panic => rfl
      | ok g => rw [Res.bind_ok, ih]; rfl

theorem chunksAux_eq {α : Type} {k : ℕ} (hk : 0 < k) (fuel : ℕ) (l : List α) (h : l.length ≤ fuel) :
    chunksAux k fuel l = (List.range ((l.length + k - 1) / k)).map fun i => (l.drop (i * k)).take k := by
  induction fuel generalizing l with
  | zero =>
    have : l = [] := List.length_eq_zero_iff.1 (by omega)
    subst this
    rw [show (([] : List α).length + k - 1) / k = 0 from Nat.div_eq_of_lt (by simp; omega)]
    rfl
  | succ n ih =>
    cases l with
    | nil =>
      rw [show (([] : List α).length + k - 1) / k = 0 from Nat.div_eq_of_lt (by simp; omega)]
      rfl
    | cons a l =>
      rw [chunksAux, ih _ (by rw [List.length_drop]; simp at h ⊢; omega)]
      have hn : ((a :: l).length + k - 1) / k = (((a :: l).drop k).length + k - 1) / k + 1 := by
        rw [List.length_drop]
        by_cases hl : k ≤ (a :: l).length
        · rw [← Nat.add_div_right _ hk]
          congr 1
          omega
        · rw [show (a :: l).length - k + k - 1 = k - 1 by omega, Nat.div_eq_of_lt (by omega : k - 1 < k)]
          rw [show (a :: l).length + k - 1 = l.length + k by simp, Nat.add_div_right _ hk,
            Nat.div_eq_of_lt (by simp at hl; omega)]
      rw [hn, List.range_succ_eq_map, List.map_cons, List.map_map]
      congr 1
      · simp
      · refine List.map_congr_left fun i _ => ?_
        simp only [Function.comp_apply, List.drop_drop]
        congr 2
        rw [Nat.succ_mul, Nat.add_comm]

theorem batches_deal (files : List Path) {jobs : ℕ} (hj : 0 < jobs) :
    batches files jobs = .ok (deal jobs files) := by
  unfold batches chunks
  rw [if_neg (by omega), if_neg (by omega), chunksAux_eq (by omega) _ _ le_rfl]
  rfl

theorem joinEval_eq (rs : List (Res Bloom)) : joinEval rs = match allOk rs with
    | some bfs => .ok bfs
    | none => .panic := by
  induction rs with
  | nil => rfl
  | cons r rs ih =>
    cases r with
    | err e => rfl
    | panic => rfl
    | ok bf =>
      rw [joinEval, allOk, ih]
      cases allOk rs <;> rfl

theorem sim_allOk {env : Env} {xs : List (Res Bloom)} {ys : List (Res F)}
    (h : List.Forall₂ (Sim env) xs ys) :
    allOk ys = (allOk xs).map (List.map Bloom.view) ∧
    ∀ bfs, allOk xs = some bfs → ∀ f ∈ bfs, f.Reach env := by
  induction h with
  | nil => exact ⟨rfl, fun bfs hb => by cases hb; simp⟩
  | @cons x y xs ys hxy _ ih =>
    obtain ⟨h1, h2⟩ := ih
    obtain ⟨rfl, h3⟩ := hxy
    cases x with
    | err e => exact ⟨rfl, fun bfs hb => by cases hb⟩
    | panic => exact ⟨rfl, fun bfs hb => by cases hb⟩
    | ok f =>
      refine ⟨?_, ?_⟩
      · show (allOk ys).map (f.view :: ·) = ((allOk xs).map (f :: ·)).map (List.map Bloom.view)
        rw [h1]
        cases allOk xs <;> rfl
      · intro bfs hb
        rw [allOk] at hb
        obtain ⟨bfs', hb', rfl⟩ := Option.map_eq_some_iff.1 hb
        intro g hg
        rcases List.mem_cons.1 hg with rfl | hg
        · exact h3 _ rfl
        · exact h2 _ hb' g hg

theorem sim_unite {env : Env} {out : Bloom} (h : out.Reach env) (bfs : List Bloom) :
    Sim env (mergeAll env out bfs) (out.view.unite (Bloom.machine env) (bfs.map Bloom.view)) := by
  induction bfs generalizing out with
  | nil => exact ⟨rfl, fun f hf => by cases hf; exact h⟩
  | cons b bfs ih =>
    rw [mergeAll, List.map_cons, F.unite, Bloom.view_union]
    have hr := Bloom.union_reach h b
    rcases hi : out.unionMerge env b with ⟨g, r⟩
    rw [hi] at hr
    cases r with
    | err e => exact ⟨rfl, fun f hf => by cases hf⟩
    | panic => exact ⟨rfl, fun f hf => by cases hf⟩
    | ok u => exact ih hr

theorem sim_feedFiles {env : Env} (hs : env.Small) {bf : Bloom} (h : bf.Reach env) (w : World)
    (jobs : ℕ) (files : List Path) :
    Sim env (insertFiles env bf w files jobs) (bf.view.feedFiles (Bloom.machine env) w jobs files) := by
  unfold insertFiles F.feedFiles
  by_cases hf : files = []
  · subst hf
    exact ⟨rfl, fun f hf => by cases hf; exact h⟩
  · rw [if_neg hf, if_neg (by simpa using hf), batches_deal _ (optimalJobs_pos w jobs), Res.bind_ok,
      joinEval_eq]
    have hsim : List.Forall₂ (Sim env) ((deal (optimalJobs w jobs) files).map (processFiles env w bf))
        ((deal (optimalJobs w jobs) files).map fun part =>
          bf.view.feed (Bloom.machine env) (part.flatMap fun f => (source w f).items)) := by
      rw [List.forall₂_map_left_iff, List.forall₂_map_right_iff]
      refine List.forall₂_same.2 fun part _ => ?_
      rw [processFiles_eq]
      exact sim_feed hs h _
    obtain ⟨h1, h2⟩ := sim_allOk hsim
    rw [show (if jobs = 0 then w.cpus else jobs) = optimalJobs w jobs from rfl, h1]
    cases ha : allOk ((deal (optimalJobs w jobs) files).map (processFiles env w bf)) with
    | none => exact ⟨rfl, fun f hf => by cases hf⟩
    | some bfs =>
      simp only [Option.map_some, Res.bind_ok, reduce, ← List.map_reverse]
      have h3 := h2 bfs ha
      cases hr : bfs.reverse with
      | nil => exact ⟨rfl, fun f hf => by cases hf⟩
      | cons b bs =>
        have hb : b ∈ bfs := by rw [← List.mem_reverse, hr]; simp
        exact sim_unite (h3 b hb) bs

/-! ## Storing -/

theorem view_pieces (bf : Bloom) (k : ℕ) :
    (bf.write ⟨[], some k⟩).2
      = if handed 0 bf.view.pieces ≤ k then .ok () else .err (.ioError .other) := by
  cases bf with
  | v1 f => exact V1.write_result f [] k
  | v2 f => exact V2.write_result f [] k

theorem save_stores {env : Env} {bf : Bloom} (h : bf.Reach env) (w : World) (p : Path) :
    save w p bf = store w p bf.view := by
  unfold store fitting noticed
  rw [Bloom.view_file h]
  rcases save_cases w p bf with ⟨hc, h1⟩ | ⟨hc, h1⟩
  · rw [hc, h1]; rfl
  · rw [if_pos hc, h1, written_out]
    refine Prod.ext rfl ?_
    cases hd : w.disk with
    | none => show (bf.write ⟨[], none⟩).2 = _; rw [C29_write_ok]; rfl
    | some k =>
      show (bf.write ⟨[], some k⟩).2 = _
      rw [view_pieces]
      by_cases hk : handed 0 bf.view.pieces ≤ k
      · simp [hk]
      · simp [hk, Nat.not_le.1 hk]

/-- The rest of a command, once the filter to store is known. -/
def finish (w : World) (p : Path) : Res Bloom → World × Res Unit
  | .ok bf => save w p bf
  | .err e => (w, .err e)
  | .panic => (w, .panic)

theorem ends_of_sim {env : Env} {x : Res Bloom} {y : Res F} (h : Sim env x y) (w : World) (p : Path) :
    finish w p x = ended w p y := by
  obtain ⟨rfl, h2⟩ := h
  cases x with
  | ok bf => exact save_stores (h2 bf rfl) w p
  | err e => exact rfl
  | panic => exact rfl

theorem ended_ok {w w' : World} {p : Path} {x : Res F} (h : (w', .ok ()) = ended w p x) :
    ∃ a, x = .ok a := by
  cases x with
  | ok a => exact ⟨a, rfl⟩
  | err e => cases h
  | panic => cases h

/-! ## Commands -/

/-- The filter `insert` inserts the files into. -/
theorem sim_insertStart {env : Env} (hs : env.Small) (w : World) (stdin : Stdin) (o : Insert) :
    Sim env (do
        let r ← w.open o.file
        let bf ← Bloom.fromReader env r
        if o.stdin || o.inputs.isEmpty then insertLines env bf stdin.lines else .ok bf)
      (match (source w o.file).filter (Bloom.machine env) with
        | .err e => .err e
        | .panic => .panic
        | .ok a => a.feed (Bloom.machine env) (stdinItems stdin o.stdin o.inputs)) := by
  obtain ⟨h1, h2⟩ := sim_stored hs w o.file
  rw [h1]
  cases ho : w.open o.file with
  | err e => exact ⟨rfl, fun f hf => by cases hf⟩
  | panic => exact ⟨rfl, fun f hf => by cases hf⟩
  | ok r =>
    rw [ho, Res.bind_ok] at h2
    rw [Res.bind_ok, Res.bind_ok]
    cases hr : Bloom.fromReader env r with
    | err e => exact ⟨rfl, fun f hf => by cases hf⟩
    | panic => exact ⟨rfl, fun f hf => by cases hf⟩
    | ok bf =>
      have hb := h2 bf hr
      rw [Res.bind_ok]
      show Sim env _ (bf.view.feed (Bloom.machine env) (stdinItems stdin o.stdin o.inputs))
      unfold stdinItems
      by_cases hu : o.stdin = true ∨ o.inputs = []
      · rw [if_pos hu, if_pos (by simpa using hu), stdin_items]
        exact sim_feed hs hb _
      · rw [if_neg hu, if_neg (by simpa using hu)]
        exact sim_feed hs hb []

theorem insert_abstract {env : Env} (hs : env.Small) (w : World) (stdin : Stdin) (o : Insert)
    (jobs : ℕ) (s : Schedule) :
    Cli.insert env w s stdin o jobs = (w, none) ∨
    ∃ w' r, Cli.insert env w s stdin o jobs = (w', some r) ∧
      (w', r) = ended w o.file (insertCmd (Bloom.machine env) w stdin o jobs) := by
  have h := sim_insertStart hs w stdin o
  unfold Cli.insert insertCmd
  obtain ⟨h1, h2⟩ := h
  generalize hx : (do
        let r ← w.open o.file
        let bf ← Bloom.fromReader env r
        if o.stdin || o.inputs.isEmpty then insertLines env bf stdin.lines else .ok bf) = x at h1 h2
  generalize (source w o.file).filter (Bloom.machine env) = y at h1
  cases x with
  | err e =>
    refine .inr ⟨w, .err e, rfl, ?_⟩
    cases y with
    | err e' => cases h1; exact rfl
    | panic => cases h1
    | ok a => simp only [Res.map] at h1; simp only [h1]; exact rfl
  | panic =>
    refine .inr ⟨w, .panic, rfl, ?_⟩
    cases y with
    | err e' => cases h1
    | panic => exact rfl
    | ok a => simp only [Res.map] at h1; simp only [h1]; exact rfl
  | ok bf =>
    cases y with
    | err e' => cases h1
    | panic => cases h1
    | ok a =>
      simp only [Res.map] at h1
      simp only [h1]
      cases hp : parallelInsert env w s bf o.inputs jobs with
      | none => exact .inl rfl
      | some r =>
        refine .inr ?_
        rw [parallelInsert_some hp]
        have he := ends_of_sim (sim_feedFiles hs (h2 bf rfl) w jobs o.inputs) w o.file
        cases hi : insertFiles env bf w o.inputs jobs with
        | err e => rw [hi] at he; exact ⟨_, _, rfl, he⟩
        | panic => rw [hi] at he; exact ⟨_, _, rfl, he⟩
        | ok g => rw [hi] at he; exact ⟨_, _, rfl, he⟩

theorem insert_ok {env : Env} (hs : env.Small) {w : World} {stdin : Stdin} {o : Insert}
    {jobs : ℕ} {s : Schedule} (h : (Cli.insert env w s stdin o jobs).2 = some (.ok ())) :
    ∃ a, insertCmd (Bloom.machine env) w stdin o jobs = .ok a := by
  rcases insert_abstract hs w stdin o jobs s with h1 | ⟨w', r, h1, h2⟩
  · rw [h1] at h; cases h
  · rw [h1] at h
    cases h
    exact ended_ok h2

theorem guard_abstract {env : Env} (hs : env.Small) (w : World) (file : Path) :
    guardCmd (Bloom.machine env) w file = createGuard env w file := by
  obtain ⟨h1, -⟩ := sim_stored hs w file
  unfold guardCmd createGuard
  cases hf : w.fs file with
  | none => rfl
  | some bs =>
    simp only [reduceCtorEq, if_false]
    rcases open_source w file with ⟨e, h3, h2⟩ | ⟨bs, _, h3, h2⟩ | ⟨bs, k, _, hk, h3, h2⟩
    · rw [h3, h2]
    all_goals
      rw [h3] at h1
      rw [h3, h2]
      rw [h2, Res.bind_ok] at h1
      simp only [h1]
      rcases Bloom.fromReader env _ with _ | _ | _ <;> rfl

theorem level_abstract (n : U8) : levelNo n = OptLevel.tryFrom n := by
  revert n
  decide +kernel

theorem count_abstract (w : World) (fs : List Path) : Abs.count w fs = countBatch w fs := by
  induction fs with
  | nil => rfl
  | cons f fs ih =>
    rw [Abs.count, countBatch]
    rcases open_source w f with ⟨e, h3, h2⟩ | ⟨bs, _, h3, h2⟩ | ⟨bs, k, _, hk, h3, h2⟩
    · rw [h3, h2]
    · rw [h3, h2, ih]
      simp only [countLines, Reader.ofBytes, lines_eq]
      rcases countBatch w fs with _ | _ | _ | _ <;> rfl
    · rw [h3, h2]
      rfl

theorem sim_start (env : Env) (o : Create) (cap : U64) :
    Sim env (createSized env o cap) (startCmd (Bloom.machine env) o cap) := by
  unfold createSized startCmd
  rw [level_abstract]
  cases OptLevel.tryFrom o.optimize with
  | err e => exact ⟨rfl, fun f hf => by cases hf⟩
  | panic => exact ⟨rfl, fun f hf => by cases hf⟩
  | ok opt =>
    rw [Res.bind_ok]
    exact ⟨Bloom.view_make _ _ _ _, fun f hf => Bloom.make_reach hf⟩

theorem create_abstract {env : Env} (hs : env.Small) (w : World) (o : Create) (jobs : ℕ)
    (s : Schedule) :
    Cli.create env w s o jobs = (w, none) ∨
    ∃ w' r x, Cli.create env w s o jobs = (w', some r) ∧
      createCmd (Bloom.machine env) w o jobs = some x ∧ (w', r) = ended w o.file x := by
  unfold Cli.create createCmd
  rw [guard_abstract hs]
  cases createGuard env w o.file with
  | err e => exact .inr ⟨_, _, _, rfl, rfl, rfl⟩
  | panic => exact .inr ⟨_, _, _, rfl, rfl, rfl⟩
  | ok u =>
    simp only
    unfold createFilter
    by_cases hd : o.dataset = []
    · rw [if_pos hd, if_pos (by rw [hd]; rfl)]
      have hst := sim_start env o o.capacity
      have he := ends_of_sim hst w o.file
      rw [hd]
      cases hc : createSized env o o.capacity with
      | err e => rw [hc] at he; exact .inr ⟨_, _, _, rfl, rfl, he⟩
      | panic => rw [hc] at he; exact .inr ⟨_, _, _, rfl, rfl, he⟩
      | ok g => rw [hc] at he; exact .inr ⟨_, _, _, rfl, rfl, he⟩
    · rw [if_neg hd, if_neg (by simpa using hd), countLinesParallel_eq, count_abstract]
      rcases countBatch w o.dataset with _ | n | e | _
      · exact .inl rfl
      · simp only [Option.map_some]
        obtain ⟨h1, h2⟩ := sim_start env o (BitVec.ofNat 64 n)
        rw [h1]
        cases hc : createSized env o (BitVec.ofNat 64 n) with
        | err e => exact .inr ⟨_, _, _, rfl, rfl, rfl⟩
        | panic => exact .inr ⟨_, _, _, rfl, rfl, rfl⟩
        | ok b =>
          simp only [Res.map]
          cases hp : parallelInsert env w s b o.dataset jobs with
          | none => exact .inl rfl
          | some r =>
            refine .inr ?_
            rw [parallelInsert_some hp]
            have he := ends_of_sim (sim_feedFiles hs (h2 b hc) w jobs o.dataset) w o.file
            cases hi : insertFiles env b w o.dataset jobs with
            | err e => rw [hi] at he; exact ⟨_, _, _, rfl, rfl, he⟩
            | panic => rw [hi] at he; exact ⟨_, _, _, rfl, rfl, he⟩
            | ok g => rw [hi] at he; exact ⟨_, _, _, rfl, rfl, he⟩
      · exact .inr ⟨_, _, _, rfl, rfl, rfl⟩
      · exact .inr ⟨_, _, _, rfl, rfl, rfl⟩

theorem create_ends {env : Env} (hs : env.Small) {w : World} {o : Create} {jobs : ℕ}
    (h : createCmd (Bloom.machine env) w o jobs ≠ none) :
    ∃ N, ∀ s, Fair o.dataset.length N s → (create env w s o jobs).2 ≠ none := by
  unfold createCmd at h
  rw [guard_abstract hs] at h
  unfold create
  split
  · rename_i hg
    rw [hg] at h
    split
    · rename_i b _
      obtain ⟨N, hN⟩ := parallelInsert_fair env w b o.dataset jobs
      refine ⟨N, fun s hs => ?_⟩
      rw [hN s hs]
      rcases insertFiles env b w o.dataset jobs with g | e | _ <;> simp
    · exact ⟨0, by simp⟩
    · exact ⟨0, by simp⟩
    · rename_i hn
      exfalso
      unfold createFilter at hn
      split at hn
      · cases hn
      · rename_i hd
        split at hn
        · cases hn
        · cases hn
        · cases hn
        · rename_i hc
          rw [countLinesParallel_eq, ← count_abstract] at hc
          simp only at h
          rw [if_neg (by simpa using hd), hc] at h
          exact h rfl
  · exact ⟨0, by simp⟩
  · exact ⟨0, by simp⟩

/-! ## Checking -/

theorem firstFailure_append {α : Type} (a b : List (Res α)) :
    firstFailure (a ++ b) = match firstFailure a with
      | .ok _ => firstFailure b
      | r => r := by
  induction a with
  | nil => rfl
  | cons x xs ih =>
    cases x with
    | ok v => exact ih
    | err e => rfl
    | panic => rfl

theorem ask_ok {env : Env} (hs : env.Small) {bf : Bloom} (h : bf.Reach env) (l : List U8) :
    bf.view.ask (Bloom.machine env) (.ok l) = match bf.containsBytes env l with
      | .ok b => .ok b
      | _ => .panic := by
  rw [F.ask, Bloom.view_contains hs h l]
  cases bf.containsBytes env l <;> rfl

theorem restLines_abstract {env : Env} (hs : env.Small) {bf : Bloom} (h : bf.Reach env) (o : Check)
    (ls : List Item) :
    (restLines env bf o ls).2 = firstFailure (ls.map (bf.view.ask (Bloom.machine env))) := by
  induction ls with
  | nil => rfl
  | cons l ls ih =>
    cases l with
    | err e => rfl
    | panic => rfl
    | ok l =>
      rw [restLines, List.map_cons, ask_ok hs h]
      cases bf.containsBytes env l with
      | ok b => exact ih
      | err e => rfl
      | panic => rfl

theorem restFiles_abstract {env : Env} (hs : env.Small) {bf : Bloom} (h : bf.Reach env) (w : World)
    (o : Check) (fs : List Path) :
    (restFiles env w bf o fs).2 = firstFailure
      ((fs.flatMap fun f => (source w f).items).map (bf.view.ask (Bloom.machine env))) := by
  induction fs with
  | nil => rfl
  | cons f fs ih =>
    rw [restFiles, List.flatMap_cons, List.map_append, firstFailure_append, open_items]
    cases w.open f with
    | err e => rfl
    | panic => rfl
    | ok r =>
      simp only
      rw [← restLines_abstract hs h o, ← ih]
      rcases restLines env bf o (fileLines r) with ⟨p, _ | _ | _⟩ <;> rfl

theorem firstFailure_flatten {α : Type} (xss : List (List (Res α))) :
    firstFailure xss.flatten = firstFailure (xss.map firstFailure) := by
  induction xss with
  | nil => rfl
  | cons xs xss ih =>
    rw [List.flatten_cons, firstFailure_append, ih, List.map_cons]
    cases firstFailure xs <;> rfl

theorem joinCheckers_first {env : Env} {w : World} {bf : Bloom} {o : Check} {ts : List Checker}
    {r : Res Unit} (h : joinCheckers ts = some r) :
    r = firstFailure (ts.map fun t => (t.rest env w bf o).2) := by
  induction ts with
  | nil => cases h; rfl
  | cons t ts ih =>
    cases t with
    | running ls fs => cases h
    | done x =>
      cases x with
      | ok u => exact ih h
      | err e => cases h; rfl
      | panic => cases h; rfl

theorem checkFiles_abstract {env : Env} (hs : env.Small) {bf : Bloom} (h : bf.Reach env) (w : World)
    (s : Schedule) (o : Check) (jobs : ℕ) {r : Res Unit}
    (hr : (checkFiles env w s bf o jobs).2 = some r) :
    r = if o.inputs = [] then .ok ()
      else if jobs = 0 then .panic
      else firstFailure ((o.inputs.flatMap fun f => (source w f).items).map
        (bf.view.ask (Bloom.machine env))) := by
  unfold checkFiles at hr
  by_cases hi : o.inputs = []
  · rw [if_pos hi]
    rw [if_pos (by simpa using hi)] at hr
    cases hr; rfl
  · rw [if_neg hi]
    rw [if_neg (by simpa using hi)] at hr
    by_cases hj : jobs = 0
    · rw [if_pos hj]
      rw [hj] at hr
      simp only [batches, if_true] at hr
      cases hr; rfl
    · rw [if_neg hj]
      rw [batches_deal _ (by omega)] at hr
      simp only at hr
      rw [joinCheckers_first (env := env) (w := w) (bf := bf) (o := o) hr,
        (runCheckers_perm env w bf o s _).2, map_rest]
      have hfl := (batches_spec (batches_deal o.inputs (by omega : 0 < jobs))).2.1
      conv_rhs => rw [← hfl]
      rw [show ((deal jobs o.inputs).flatten.flatMap fun f => (source w f).items).map
          (bf.view.ask (Bloom.machine env))
        = ((deal jobs o.inputs).map fun b => (b.flatMap fun f => (source w f).items).map
          (bf.view.ask (Bloom.machine env))).flatten from ?_]
      · rw [firstFailure_flatten, List.map_map]
        congr 1
        refine List.map_congr_left fun b _ => ?_
        exact restFiles_abstract hs h w o b
      · induction deal jobs o.inputs with
        | nil => rfl
        | cons b bs ih =>
          rw [List.flatten_cons, List.flatMap_append, List.map_append, List.map_cons,
            List.flatten_cons, ih]

theorem checkStdin_abstract {env : Env} (hs : env.Small) {bf : Bloom} (h : bf.Reach env) (o : Check)
    (ls : List Item) :
    (checkStdin env bf o ls).2
      = match firstFailure (ls.map (bf.view.ask (Bloom.machine env))) with
        | .ok _ => .ok ()
        | _ => .panic := by
  induction ls with
  | nil => rfl
  | cons l ls ih =>
    cases l with
    | err e => rfl
    | panic => rfl
    | ok l =>
      rw [checkStdin, List.map_cons, ask_ok hs h]
      cases bf.containsBytes env l with
      | ok b => exact ih
      | err e => rfl
      | panic => rfl

theorem check_abstract {env : Env} (hs : env.Small) (w : World) (s : Schedule) (stdin : Stdin)
    (o : Check) (jobs : ℕ) {r : Res Unit} (hr : (check env w s stdin o jobs).2 = some r) :
    r = checkCmd (Bloom.machine env) w stdin o jobs := by
  obtain ⟨h1, h2⟩ := sim_stored hs w o.file
  unfold check at hr
  unfold checkCmd
  rw [h1]
  generalize hx : (w.open o.file >>= Bloom.fromReader env) = x at h2 hr
  cases x with
  | err e => cases hr; rfl
  | panic => cases hr; rfl
  | ok bf =>
    have hb := h2 bf rfl
    simp only [Res.map]
    simp only at hr
    unfold stdinItems
    by_cases hu : o.stdin = true ∨ o.inputs = []
    · rw [if_pos hu]
      rw [if_pos (by simpa using hu), stdin_items] at hr
      generalize (if stdin.fails then Source.broken stdin.bytes else Source.whole stdin.bytes).items
        = ls at hr ⊢
      have hst := checkStdin_abstract hs hb o ls
      rcases hc : checkStdin env bf o ls with ⟨p, x⟩
      rw [hc] at hr hst
      simp only at hst
      subst hst
      cases hf : firstFailure (ls.map (bf.view.ask (Bloom.machine env))) with
      | ok u => rw [hf] at hr; exact checkFiles_abstract hs hb w s o jobs hr
      | err e => rw [hf] at hr; cases hr; rfl
      | panic => rw [hf] at hr; cases hr; rfl
    · rw [if_neg hu]
      rw [if_neg (by simpa using hu)] at hr
      exact checkFiles_abstract hs hb w s o jobs hr

/-- The lines of the files, without those that cannot be opened. -/
theorem entries_items (w : World) (fs : List Path) :
    entries (fs.flatMap fun f => (source w f).items) = entries (linesOf w fs) := by
  induction fs with
  | nil => rfl
  | cons f fs ih =>
    rw [List.flatMap_cons, entries_append, ih, show linesOf w (f :: fs) = linesIn w f ++ linesOf w fs from
      List.flatMap_cons, entries_append, open_items]
    congr 1
    unfold linesIn
    cases w.open f <;> rfl

theorem toPrint_abstract {env : Env} (hs : env.Small) {bf : Bloom} (h : bf.Reach env) (o : Check)
    (ls : List Item) :
    ls.flatMap (bf.view.toPrint (Bloom.machine env) o)
      = toPrint (bf.containsBytes env) o.verify o.silent (entries ls) := by
  rw [show toPrint (bf.containsBytes env) o.verify o.silent (entries ls)
    = printed env bf o (entries ls) from (printed_eq env bf o _).symm]
  induction ls with
  | nil => rfl
  | cons l ls ih =>
    rw [List.flatMap_cons, ih]
    cases l with
    | err e => rfl
    | panic => rfl
    | ok l =>
      rw [show entries (Res.ok l :: ls) = [l] ++ entries ls from rfl, printed_append]
      congr 1
      rw [F.toPrint, Bloom.view_contains hs h l, printed_eq]
      rcases hc : bf.containsBytes env l with b | e | _
      · cases b <;> cases o.verify <;> cases o.silent <;> simp [hc, Res.answer, nok]
      · cases o.verify <;> cases o.silent <;> simp [hc, Res.answer, nok]
      · cases o.verify <;> cases o.silent <;> simp [hc, Res.answer, nok]

theorem checkPrints_eq {env : Env} (hs : env.Small) {w : World} {stdin : Stdin} {o : Check}
    {bs : List U8} {bf : Bloom} (ho : w.open o.file = .ok (Reader.ofBytes bs))
    (hr : Bloom.fromReader env (Reader.ofBytes bs) = .ok bf) :
    checkPrints (Bloom.machine env) w stdin o = toPrint (bf.containsBytes env) o.verify o.silent
      (entries (inputLines w stdin o.stdin o.inputs)) := by
  obtain ⟨h1, h2⟩ := sim_stored hs w o.file
  rw [ho, Res.bind_ok, hr] at h1 h2
  unfold checkPrints
  rw [h1]
  show List.flatMap (bf.view.toPrint (Bloom.machine env) o) _ = _
  rw [toPrint_abstract hs (h2 bf rfl), entries_append, entries_items, inputLines, entries_append]
  congr 3
  unfold stdinItems
  by_cases hu : o.stdin = true ∨ o.inputs = []
  · rw [if_pos hu, ← stdin_items, if_pos (by simpa using hu)]
  · rw [if_neg hu, if_neg (by simpa using hu)]

/-! ## Showing -/

theorem size_abstract (env : Env) (b : Bloom) : b.sizeInBytes env
    = if env.debug = true ∧ 2 ^ 64 ≤ (shown b.peek).size then .panic
      else .ok (BitVec.ofNat 64 (shown b.peek).size) := by
  cases b with
  | v1 f =>
    show mulU64 env.debug f.bitSize 8#64 = _
    unfold mulU64
    show (if (env.debug && decide (2 ^ 64 ≤ f.bitSize.toNat * 8)) = true then _ else _)
      = if env.debug = true ∧ 2 ^ 64 ≤ f.bitSize.toNat * 8 then _ else Res.ok (BitVec.ofNat 64 (f.bitSize.toNat * 8))
    by_cases h : env.debug = true ∧ 2 ^ 64 ≤ f.bitSize.toNat * 8
    · rw [if_pos h, if_pos (by simpa using h)]
    · rw [if_neg h, if_neg (by simpa using h)]
      congr 1
  | v2 f =>
    show V2.sizeInBytes env f = if env.debug = true ∧ 2 ^ 64 ≤ f.nBuckets.toNat * 4096 +
      f.cacheByteSize.toNat then _ else Res.ok (BitVec.ofNat 64 (f.nBuckets.toNat * 4096 + f.cacheByteSize.toNat))
    have h4096 : (BitVec.ofNat 64 (BitSet.byteSize BUCKET_SIZE)).toNat = 4096 := by decide
    unfold V2.sizeInBytes mulU64
    rw [h4096]
    by_cases h1 : env.debug = true ∧ 2 ^ 64 ≤ f.nBuckets.toNat * 4096
    · rw [if_pos (by simpa using h1), if_pos ⟨h1.1, by omega⟩]
      rfl
    · rw [if_neg (by simpa using h1), Res.bind_ok, addU64, BitVec.toNat_mul, h4096]
      by_cases hd : env.debug = true
      · have hlt : f.nBuckets.toNat * 4096 < 2 ^ 64 := by
          by_contra hn
          exact h1 ⟨hd, by omega⟩
        rw [Nat.mod_eq_of_lt hlt]
        by_cases h : 2 ^ 64 ≤ f.nBuckets.toNat * 4096 + f.cacheByteSize.toNat
        · rw [if_pos (by rw [hd, decide_eq_true h]; rfl), if_pos ⟨hd, h⟩]
        · rw [if_neg (by rw [decide_eq_false h]; simp), if_neg (fun x => h x.2)]
          congr 1
          apply BitVec.eq_of_toNat_eq
          rw [BitVec.toNat_add, BitVec.toNat_mul, h4096, BitVec.toNat_ofNat, Nat.mod_eq_of_lt hlt]
      · rw [if_neg (by simp [hd]), if_neg (fun x => hd x.1)]
        congr 1
        apply BitVec.eq_of_toNat_eq
        rw [BitVec.toNat_add, BitVec.toNat_mul, h4096, BitVec.toNat_ofNat]
        omega

theorem showBf_abstract (fmt : Fmt) (env : Env) (b : Bloom) (file : Path) :
    (do let ls ← showBfProperties fmt env b; Res.ok (("File: " ++ file) :: ls))
      = if env.debug = true ∧ 2 ^ 64 ≤ (shown b.peek).size then .panic
        else .ok ((shown b.peek).text fmt file) := by
  unfold showBfProperties
  rw [size_abstract]
  by_cases h : env.debug = true ∧ 2 ^ 64 ≤ (shown b.peek).size
  · rw [if_pos h, if_pos h]; rfl
  · rw [if_neg h, if_neg h]
    simp only [Res.bind_ok, Shown.text]
    cases b with
    | v1 f => simp [shown, Bloom.peek, V1.content, Bloom.version, Bloom.capacity, Bloom.countEstimate,
        V1.countEstimate, Bloom.fpp, Bloom.data]
    | v2 f => simp [shown, Bloom.peek, V2.content, Bloom.version, Bloom.capacity, Bloom.countEstimate,
        V2.countEstimate, Bloom.fpp, Bloom.data]

theorem metadata_abstract (env : Env) (w : World) (file : Path)
    (hb : ∀ bs, w.fs file = some bs → bs.length < 2 ^ 50) :
    (w.open file >>= Bloom.partialFromReader env).map Bloom.peek
      = (source w file).metadata env.debug := by
  rcases open_source w file with ⟨e, h1, h2⟩ | ⟨bs, hf, h1, h2⟩ | ⟨bs, k, hf, hk, h1, h2⟩
  · rw [h1, h2]; rfl
  · rw [h1, h2, Res.bind_ok]
    exact C80_peek env (hb bs hf)
  · rw [h1, h2, Res.bind_ok, show Bloom.partialFromReader env ⟨bs, 0, some k⟩ = _ from
      LocalEnd.bloom env true bs k 0 hk, ← failing_map]
    have hl := hb bs hf
    have := C80_peek env (bs := bs.take k) (by rw [List.length_take]; omega)
    exact congrArg failing this

theorem show_abstract (fmt : Fmt) (env : Env) (w : World) (file : Path)
    (hb : ∀ bs, w.fs file = some bs → bs.length < 2 ^ 50) :
    Cli.show fmt env w file = showCmd fmt env.debug w file := by
  unfold showCmd
  rw [← metadata_abstract env w file hb]
  unfold Cli.show
  cases ho : w.open file with
  | err e => rfl
  | panic => rfl
  | ok r =>
    rw [Res.bind_ok, Res.bind_ok]
    cases hr : Bloom.partialFromReader env r with
    | err e => rfl
    | panic => rfl
    | ok b =>
      rw [Res.bind_ok]
      exact showBf_abstract fmt env b file

end Cli
end Poppy
