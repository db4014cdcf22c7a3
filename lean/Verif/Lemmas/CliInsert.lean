import Verif.Lemmas.Cli
import Verif.Props.Misc
import Verif.Props.Merge

/-! Lemmas on the command line tool: merging the filters of the workers. -/

namespace Poppy
namespace Cli

open Spec

theorem unionMerge_v2 {env : Env} {f : V2} {o g : Bloom}
    (h : (Bloom.v2 f).unionMerge env o = (g, .ok ())) :
    ∃ o' g', o = .v2 o' ∧ g = .v2 g' ∧ f.unionMerge env o' = (g', .ok ()) := by
  cases o with
  | v1 o => simp [Bloom.unionMerge, Bloom.hasSameParams, Bloom.version] at h
  | v2 o =>
    cases hp : f.hasSameParams o with
    | false => simp [Bloom.unionMerge, Bloom.hasSameParams, Bloom.version, hp] at h
    | true =>
      simp only [Bloom.unionMerge, Bloom.hasSameParams, Bloom.version, hp, ne_eq, not_true,
        if_false, Prod.mk.injEq] at h
      exact ⟨o, _, rfl, h.1.symm, Prod.ext rfl h.2⟩

theorem unionMerge_v1 {env : Env} {f : V1} {o g : Bloom}
    (h : (Bloom.v1 f).unionMerge env o = (g, .ok ())) :
    ∃ o' g', o = .v1 o' ∧ g = .v1 g' ∧ f.unionMerge env o' = (g', .ok ()) := by
  cases o with
  | v2 o => simp [Bloom.unionMerge, Bloom.hasSameParams, Bloom.version] at h
  | v1 o =>
    cases hp : f.hasSameParams o with
    | false => simp [Bloom.unionMerge, Bloom.hasSameParams, Bloom.version, hp] at h
    | true =>
      simp only [Bloom.unionMerge, Bloom.hasSameParams, Bloom.version, hp, ne_eq, not_true,
        if_false, Prod.mk.injEq] at h
      exact ⟨o, _, rfl, h.1.symm, Prod.ext rfl h.2⟩

theorem mergeAll_cons_ok {env : Env} {out g : Bloom} {bf : Bloom} {bfs : List Bloom}
    (h : mergeAll env out (bf :: bfs) = .ok g) :
    ∃ m, out.unionMerge env bf = (m, .ok ()) ∧ mergeAll env m bfs = .ok g := by
  rw [mergeAll] at h
  split at h
  · rename_i m he; exact ⟨m, he, h⟩
  · cases h
  · cases h

theorem mergeAll_v2 {env : Env} {f : V2} {gs : List V2} {g : Bloom}
    (h : mergeAll env (.v2 f) (gs.map .v2) = .ok g) :
    ∃ g', g = .v2 g' ∧ V2.unionAll env f gs = (g', .ok ()) := by
  induction gs generalizing f with
  | nil => cases h; exact ⟨f, rfl, rfl⟩
  | cons o gs ih =>
    obtain ⟨m, h1, h2⟩ := mergeAll_cons_ok h
    obtain ⟨o', m', ho, rfl, h3⟩ := unionMerge_v2 h1
    cases ho
    obtain ⟨g', rfl, h4⟩ := ih h2
    exact ⟨g', rfl, by rw [V2.unionAll, h3]; exact h4⟩

theorem mergeAll_v1 {env : Env} {f : V1} {gs : List V1} {g : Bloom}
    (h : mergeAll env (.v1 f) (gs.map .v1) = .ok g) :
    ∃ g', g = .v1 g' ∧ V1.unionAll env f gs = (g', .ok ()) := by
  induction gs generalizing f with
  | nil => cases h; exact ⟨f, rfl, rfl⟩
  | cons o gs ih =>
    obtain ⟨m, h1, h2⟩ := mergeAll_cons_ok h
    obtain ⟨o', m', ho, rfl, h3⟩ := unionMerge_v1 h1
    cases ho
    obtain ⟨g', rfl, h4⟩ := ih h2
    exact ⟨g', rfl, by rw [V1.unionAll, h3]; exact h4⟩

/-- All workers succeeded: their lines, and the merge of their filters. -/
theorem workers_ok {env : Env} {w : World} {bf : Bloom} {bs : List (List Path)}
    {bfs : List Bloom} (h : joinEval (bs.map (processFiles env w bf)) = .ok bfs) :
    ∃ ess : List (List (List U8)), bfs = ess.map (bf.inserts env) ∧
      (∀ es ∈ ess, bf.AllOk env es) ∧ AllOpen w bs.flatten ∧
      bs.map (linesOf w) = ess.map (·.map Res.ok) := by
  have hj := joinEval_ok h
  clear h
  induction bs generalizing bfs with
  | nil =>
    have : bfs = [] := by simpa using hj
    subst this
    exact ⟨[], rfl, by simp, by simp [AllOpen], rfl⟩
  | cons b bs ih =>
    cases bfs with
    | nil => simp at hj
    | cons x bfs =>
      simp only [List.map_cons, List.cons.injEq] at hj
      obtain ⟨ess, rfl, h2, h3, h4⟩ := ih hj.2
      obtain ⟨h5, es, h6, h7, rfl⟩ := processFiles_ok hj.1
      refine ⟨es :: ess, rfl, ?_, ?_, ?_⟩
      · intro x hx
        rcases List.mem_cons.1 hx with rfl | hx
        · exact h7
        · exact h2 x hx
      · intro f hf
        rw [List.flatten_cons, List.mem_append] at hf
        rcases hf with hf | hf
        · exact h5 f hf
        · exact h3 f hf
      · simp only [List.map_cons, h6, h4]

theorem workers_of_ok {env : Env} {w : World} {bf : Bloom} {bs : List (List Path)}
    {ess : List (List (List U8))} (h1 : ∀ es ∈ ess, bf.AllOk env es)
    (h2 : AllOpen w bs.flatten)
    (h3 : bs.map (linesOf w) = ess.map (·.map Res.ok)) :
    joinEval (bs.map (processFiles env w bf)) = .ok (ess.map (bf.inserts env)) := by
  have : bs.map (processFiles env w bf) = (ess.map (bf.inserts env)).map Res.ok := by
    induction bs generalizing ess with
    | nil =>
      have : ess = [] := by simpa using h3
      subst this; rfl
    | cons b bs ih =>
      cases ess with
      | nil => simp at h3
      | cons es ess =>
        simp only [List.map_cons, List.cons.injEq] at h3 ⊢
        refine ⟨processFiles_of_allOk (fun f hf => h2 f ?_) h3.1 (h1 es (by simp)),
          ih (fun x hx => h1 x (by simp [hx])) (fun f hf => h2 f ?_) h3.2⟩
        · rw [List.flatten_cons]; exact List.mem_append_left _ hf
        · rw [List.flatten_cons]; exact List.mem_append_right _ hf
  rw [this, joinEval_of_ok]

theorem flatten_lines {w : World} {bs : List (List Path)} {ess : List (List (List U8))}
    (h : bs.map (linesOf w) = ess.map (·.map Res.ok)) :
    linesOf w bs.flatten = ess.flatten.map Res.ok := by
  rw [linesOf_flatten, ← List.flatMap_def, List.flatMap_def, h, List.map_flatten]

theorem length_le_flatten {α : Type} {bs : List (List α)} (h : ∀ b ∈ bs, b ≠ []) :
    bs.length ≤ bs.flatten.length := by
  rw [List.length_flatten]
  induction bs with
  | nil => simp
  | cons b bs ih =>
    have h1 := List.length_pos_iff.2 (h b (by simp))
    have h2 := ih (fun x hx => h x (by simp [hx]))
    simp only [List.map_cons, List.sum_cons, List.length_cons]
    omega

/-- A successful insertion from files: what the workers did. -/
theorem insertFiles_ok {env : Env} {bf g : Bloom} {w : World} {files : List Path} {jobs : ℕ}
    (h : insertFiles env bf w files jobs = .ok g) :
    AllOpen w files ∧
    ∃ (ess : List (List (List U8))) (d : List (List U8)) (ds : List (List (List U8))),
      linesOf w files = ess.flatten.map Res.ok ∧ (∀ es ∈ ess, bf.AllOk env es) ∧
      ess.reverse = d :: ds ∧ mergeAll env (bf.inserts env d) (ds.map (bf.inserts env)) = .ok g ∧
      ess.length ≤ 2 * optimalJobs w jobs - 1 ∧ ess.length ≤ max files.length 1 := by
  have hpos := optimalJobs_pos w jobs
  unfold insertFiles at h
  split at h
  · rename_i he
    have : files = [] := by simpa using he
    subst this
    cases h
    exact ⟨by simp [AllOpen], [[]], [], [], rfl, by simp [Bloom.AllOk], rfl, rfl, by
      show 1 ≤ _; omega, by simp⟩
  · rename_i hne
    cases hb : batches files (optimalJobs w jobs) with
    | err e => rw [hb] at h; cases h
    | panic => rw [hb] at h; cases h
    | ok bs =>
      rw [hb, Res.bind_ok] at h
      obtain ⟨_, hfl, hbne, hcnt⟩ := batches_spec hb
      cases hj : joinEval (bs.map (processFiles env w bf)) with
      | err e => rw [hj] at h; cases h
      | panic => rw [hj] at h; cases h
      | ok bfs =>
        rw [hj, Res.bind_ok] at h
        obtain ⟨ess, rfl, h2, h3, h4⟩ := workers_ok hj
        have h5 := flatten_lines h4
        rw [hfl] at h3 h5
        refine ⟨h3, ess, ?_⟩
        unfold reduce at h
        rw [← List.map_reverse] at h
        cases hr : ess.reverse with
        | nil => rw [hr] at h; cases h
        | cons d ds =>
          rw [hr] at h
          refine ⟨d, ds, h5, h2, rfl, h, ?_, ?_⟩
          · have hl := congrArg List.length h4
            rw [List.length_map, List.length_map] at hl
            rw [← hl, hcnt]
            refine (batches_count hpos ?_ rfl).1
            rw [List.length_pos_iff]
            intro hf
            exact hne (by rw [hf]; rfl)
          · have hl := congrArg List.length h4
            rw [List.length_map, List.length_map] at hl
            have := length_le_flatten hbne
            rw [hfl] at this
            omega

theorem mem_of_reverse {ess : List (List (List U8))} {d : List (List U8)}
    {ds : List (List (List U8))} (h : ess.reverse = d :: ds) (es : List (List U8)) :
    es ∈ ess ↔ es = d ∨ es ∈ ds := by
  rw [← List.mem_reverse, h, List.mem_cons]

theorem mem_flatten_of_reverse {ess : List (List (List U8))} {d : List (List U8)}
    {ds : List (List (List U8))} (h : ess.reverse = d :: ds) (k : List U8) :
    k ∈ ess.flatten ↔ k ∈ d ∨ ∃ x ∈ ds, k ∈ x := by
  rw [List.mem_flatten]
  constructor
  · rintro ⟨x, hx, hk⟩
    rcases (mem_of_reverse h x).1 hx with rfl | hx
    · exact Or.inl hk
    · exact Or.inr ⟨x, hx, hk⟩
  · rintro (hk | ⟨x, hx, hk⟩)
    · exact ⟨d, (mem_of_reverse h d).2 (Or.inl rfl), hk⟩
    · exact ⟨x, (mem_of_reverse h x).2 (Or.inr hx), hk⟩

theorem unionMerge_reach {env : Env} {f o : Bloom} (hf : f.Reach env) :
    (f.unionMerge env o).1.Reach env := by
  unfold Bloom.unionMerge
  split
  · exact hf
  · cases f <;> cases o
    · exact V1.Reach.union _ hf
    · exact hf
    · exact hf
    · exact V2.Reach.union _ hf
  · exact hf
  · exact hf

theorem mergeAll_reach {env : Env} {f g : Bloom} {gs : List Bloom} (hf : f.Reach env)
    (h : mergeAll env f gs = .ok g) : g.Reach env := by
  induction gs generalizing f with
  | nil => cases h; exact hf
  | cons o gs ih =>
    obtain ⟨m, h1, h2⟩ := mergeAll_cons_ok h
    refine ih ?_ h2
    have : m = (f.unionMerge env o).1 := by rw [h1]
    rw [this]; exact unionMerge_reach hf

/-- Merging keeps what any of the filters contains. -/
theorem mergeAll_contains {env : Env} (hs : env.Small) {f g : Bloom} {gs : List Bloom}
    (hf : f.Reach env) (hgs : ∀ o ∈ gs, o.Reach env) (h : mergeAll env f gs = .ok g) {k : List U8}
    (hk : f.containsBytes env k = .ok true ∨ ∃ o ∈ gs, o.containsBytes env k = .ok true) :
    g.containsBytes env k = .ok true := by
  induction gs generalizing f with
  | nil =>
    cases h
    rcases hk with hk | ⟨o, ho, _⟩
    · exact hk
    · simp at ho
  | cons o gs ih =>
    obtain ⟨m, h1, h2⟩ := mergeAll_cons_ok h
    have hm : m.Reach env := by
      have : m = (f.unionMerge env o).1 := by rw [h1]
      rw [this]; exact unionMerge_reach hf
    refine ih hm (fun x hx => hgs x (by simp [hx])) h2 ?_
    have key : f.containsBytes env k = .ok true ∨ o.containsBytes env k = .ok true →
        m.containsBytes env k = .ok true := by
      intro hk
      have ho := hgs o (by simp)
      cases f with
      | v1 f =>
        obtain ⟨o', m', rfl, rfl, h3⟩ := unionMerge_v1 h1
        exact C16_v1 hs hf ho h3 k hk
      | v2 f =>
        obtain ⟨o', m', rfl, rfl, h3⟩ := unionMerge_v2 h1
        exact C16_v2 hf h3 (.slice k) hk
    rcases hk with hk | ⟨x, hx, hk⟩
    · exact Or.inl (key (Or.inl hk))
    · rcases List.mem_cons.1 hx with rfl | hx
      · exact Or.inl (key (Or.inr hk))
      · exact Or.inr ⟨x, hx, hk⟩

/-- Inserting keeps what the filter contains. -/
theorem inserts_contains {env : Env} (hs : env.Small) {f : Bloom} (hf : f.Reach env)
    {ks : List (List U8)} {k : List U8} (hk : f.containsBytes env k = .ok true) :
    (f.inserts env ks).containsBytes env k = .ok true := by
  have hr := Bloom.Reach.inserts hf ks
  cases f with
  | v1 f =>
    rw [Bloom.inserts_v1] at hr ⊢
    have hf : V1.Reach env f := hf
    have hr : V1.Reach env (V1.inserts env f ks) := hr
    have hk : f.containsBytes k = .ok true := hk
    have e := V1.inserts_ext env f ks
    show V1.containsBytes _ _ = _
    rw [V1.contains_true_iff hs hr]
    rw [V1.contains_true_iff hs hf] at hk
    exact ⟨by rw [e.bitSize]; exact hk.1, V1.allSet_ext e hk.2⟩
  | v2 f =>
    rw [Bloom.inserts_v2] at hr ⊢
    have hf : V2.Reach env f := hf
    have hk : f.contains env (.slice k) = .ok true := hk
    rw [V2.contains_true_iff env hf.wf] at hk
    have h0 : V2.Has env (.slice k) f := ⟨hf, hk.1, hk.2.1, hk.2.2.2, hk.2.2.1⟩
    exact (h0.ext (V2.inserts_ext env f _) hr).contains

theorem insertFiles_reach {env : Env} {bf g : Bloom} {w : World} {files : List Path} {jobs : ℕ}
    (hf : bf.Reach env) (h : insertFiles env bf w files jobs = .ok g) : g.Reach env := by
  obtain ⟨_, ess, d, ds, _, _, _, hm, _⟩ := insertFiles_ok h
  exact mergeAll_reach (hf.inserts d) hm

theorem insertFiles_contains {env : Env} (hs : env.Small) {bf g : Bloom} {w : World}
    {files : List Path} {jobs : ℕ} (hf : bf.Reach env)
    (h : insertFiles env bf w files jobs = .ok g) {k : List U8}
    (hk : bf.containsBytes env k = .ok true ∨ bf.HasBits ∧ Res.ok k ∈ linesOf w files) :
    g.containsBytes env k = .ok true := by
  obtain ⟨_, ess, d, ds, h1, h2, h3, hm, _⟩ := insertFiles_ok h
  have hgs : ∀ o ∈ ds.map (bf.inserts env), o.Reach env := by
    intro o ho
    obtain ⟨x, _, rfl⟩ := List.mem_map.1 ho
    exact hf.inserts x
  apply mergeAll_contains hs (hf.inserts d) hgs hm
  rcases hk with hk | ⟨hb, hk⟩
  · exact Or.inl (inserts_contains hs hf hk)
  · rw [h1] at hk
    obtain ⟨x, hx, hxk⟩ := List.mem_map.1 hk
    cases hxk
    have key : ∀ es ∈ ess, k ∈ es → (bf.inserts env es).containsBytes env k = .ok true :=
      fun es hes hk => C52_fill_contains hs hf hb (Bloom.fill_of_allOk (h2 es hes)) k hk
    rcases (mem_flatten_of_reverse h3 k).1 hx with hd | ⟨x, hx, hkx⟩
    · exact Or.inl (key d ((mem_of_reverse h3 d).2 (Or.inl rfl)) hd)
    · exact Or.inr ⟨_, List.mem_map_of_mem hx, key x ((mem_of_reverse h3 x).2 (Or.inr hx)) hkx⟩

/-! ### Outcomes -/

/-- Merging filters with the same parameters fails only by an overflow of the sum of estimates in
a debug build. -/
theorem unionMerge_total {env : Env} {f o : Bloom} (h : f.hasSameParams o = .ok true) :
    ((∃ g, f.unionMerge env o = (g, .ok ()) ∧ ∀ p, g.hasSameParams p = f.hasSameParams p)) ∨
      (f.unionMerge env o).2 = .panic ∧ env.debug = true := by
  cases f with
  | v1 f =>
    cases o with
    | v2 o => simp [Bloom.hasSameParams, Bloom.version] at h
    | v1 o =>
      have hp : f.hasSameParams o = true := by
        simpa [Bloom.hasSameParams, Bloom.version] using h
      left
      refine ⟨.v1 ((V1.orBits f o).updateCount env), ?_, ?_⟩
      · have := V1.unionMerge_eq env f o
        rw [if_pos hp] at this
        unfold Bloom.unionMerge
        rw [h]
        simp only [this]
      · intro p
        cases p with
        | v2 p => rfl
        | v1 p =>
          have hsh := V1.orBits_shape hp
          show (if _ then _ else Res.ok _) = (if _ then _ else Res.ok _)
          congr 2
          rw [Bool.eq_iff_iff, V1.hasSameParams_iff, V1.hasSameParams_iff]
          have hl : ((V1.orBits f o).updateCount env).bitset.length = f.bitset.length := hsh.len
          rw [hl]
          rfl
  | v2 f =>
    cases o with
    | v1 o => simp [Bloom.hasSameParams, Bloom.version] at h
    | v2 o =>
      have hp : f.hasSameParams o = true := by
        simpa [Bloom.hasSameParams, Bloom.version] using h
      have hu := V2.unionMerge_eq env f o
      rw [if_pos hp, V2.updateCount_eq] at hu
      have hb : (Bloom.v2 f).unionMerge env (.v2 o)
          = (.v2 (f.unionMerge env o).1, (f.unionMerge env o).2) := by
        unfold Bloom.unionMerge
        rw [h]
      cases he : V2.estimate env (V2.orBits f o) with
      | ok c =>
        rw [he] at hu
        left
        refine ⟨.v2 { V2.orBits f o with count := c }, by rw [hb, hu], ?_⟩
        intro p
        cases p with
        | v1 p => rfl
        | v2 p =>
          have hsh := V2.orBits_shape hp
          show (if _ then _ else Res.ok _) = (if _ then _ else Res.ok _)
          congr 2
          rw [Bool.eq_iff_iff, V2.hasSameParams_iff, V2.hasSameParams_iff]
          show _ ∧ _ ∧ (V2.orBits f o).indexCache.asSlice.length = _ ∧ _ ∧ _ ∧
            (V2.orBits f o).buckets.length = _ ↔ _
          rw [hsh.blen, hsh.clen]
          rfl
      | err e => exact absurd he (V2.sumU64_ne_err _ _ _)
      | panic =>
        right
        refine ⟨by rw [hb, hu, he], ?_⟩
        unfold V2.estimate at he
        rw [V2.sumU64_eq] at he
        split at he
        · rename_i hx; exact hx.1
        · cases he

theorem mergeAll_total {env : Env} {f : Bloom} {gs : List Bloom}
    (h : ∀ o ∈ gs, f.hasSameParams o = .ok true) :
    (∃ g, mergeAll env f gs = .ok g) ∨ mergeAll env f gs = .panic ∧ env.debug = true := by
  induction gs generalizing f with
  | nil => exact Or.inl ⟨f, rfl⟩
  | cons o gs ih =>
    rcases unionMerge_total (env := env) (h o (by simp)) with ⟨g, h1, h2⟩ | ⟨h1, h2⟩
    · rw [mergeAll, h1]
      exact ih (fun p hp => by rw [h2]; exact h p (by simp [hp]))
    · right
      refine ⟨?_, h2⟩
      rw [mergeAll]
      generalize f.unionMerge env o = x at h1
      obtain ⟨x, r⟩ := x
      subst h1
      rfl

theorem inserts_sameParams {env : Env} {f : Bloom} (h : f.hasSameParams f = .ok true)
    (a b : List (List U8)) : (f.inserts env a).hasSameParams (f.inserts env b) = .ok true := by
  cases f with
  | v1 f =>
    have hp : f.hasSameParams f = true := by simpa [Bloom.hasSameParams, Bloom.version] using h
    rw [Bloom.inserts_v1, Bloom.inserts_v1]
    have e1 := V1.inserts_shape env f a
    have e2 := V1.inserts_shape env f b
    suffices (V1.inserts env f a).hasSameParams (V1.inserts env f b) = true by
      simp [Bloom.hasSameParams, Bloom.version, this]
    rw [V1.hasSameParams_iff] at hp ⊢
    rw [e1.flags, e2.flags, e1.capacity, e2.capacity, e1.fpp, e2.fpp, e1.nHash, e2.nHash,
      e1.bitSize, e2.bitSize, e1.len, e2.len]
    exact hp
  | v2 f =>
    have hp : f.hasSameParams f = true := by simpa [Bloom.hasSameParams, Bloom.version] using h
    rw [Bloom.inserts_v2, Bloom.inserts_v2]
    have e1 := V2.inserts_shape env f (a.map Key.slice)
    have e2 := V2.inserts_shape env f (b.map Key.slice)
    suffices V2.hasSameParams (V2.inserts env f (a.map Key.slice))
        (V2.inserts env f (b.map Key.slice)) = true by
      simp [Bloom.hasSameParams, Bloom.version, this]
    rw [V2.hasSameParams_iff] at hp ⊢
    rw [e1.flags, e2.flags, e1.capacity, e2.capacity, e1.fpp, e2.fpp, e1.nHash, e2.nHash,
      e1.blen, e2.blen, e1.clen, e2.clen]
    exact hp

/-- Insertion from files succeeds if the files can be read, their lines are valid, and any
consecutive lines could be inserted. -/
theorem insertFiles_of_ok {env : Env} {bf : Bloom} {w : World} {files : List Path} {jobs : ℕ}
    (hp : bf.hasSameParams bf = .ok true) (h1 : AllOpen w files)
    {es : List (List U8)} (h2 : linesOf w files = es.map Res.ok)
    (h3 : ∀ x, x <:+: es → bf.AllOk env x) :
    (∃ g, insertFiles env bf w files jobs = .ok g) ∨
      insertFiles env bf w files jobs = .panic ∧ env.debug = true := by
  unfold insertFiles
  split
  · exact Or.inl ⟨bf, rfl⟩
  · rename_i hne
    obtain ⟨bs, hb⟩ := batches_ok files (optimalJobs_pos w jobs)
    obtain ⟨_, hfl, hbne, _⟩ := batches_spec hb
    have key : ∀ (bs : List (List Path)) (es : List (List U8)),
        linesOf w bs.flatten = es.map Res.ok →
        ∃ ess : List (List (List U8)), bs.map (linesOf w) = ess.map (·.map Res.ok) ∧
          ess.flatten = es := by
      intro bs
      induction bs with
      | nil =>
        intro es he
        have : es = [] := by simpa [linesOf] using he
        subst this
        exact ⟨[], rfl, rfl⟩
      | cons b bs ih =>
        intro es he
        rw [List.flatten_cons, linesOf_append] at he
        obtain ⟨e1, e2, rfl, h4, h5⟩ := List.map_eq_append_iff.1 he.symm
        obtain ⟨ess, h6, h7⟩ := ih e2 h5.symm
        exact ⟨e1 :: ess, by simp only [List.map_cons, h6, h4], by rw [List.flatten_cons, h7]⟩
    rw [hb, Res.bind_ok]
    obtain ⟨ess, h4, h5⟩ := key bs es (by rw [hfl]; exact h2)
    have h6 : ∀ x ∈ ess, bf.AllOk env x := by
      intro x hx
      apply h3
      rw [← h5]
      obtain ⟨a, b, rfl⟩ := List.append_of_mem hx
      exact ⟨a.flatten, b.flatten, by simp⟩
    rw [workers_of_ok h6 (by rw [hfl]; exact h1) h4, Res.bind_ok]
    unfold reduce
    rw [← List.map_reverse]
    cases hr : ess.reverse with
    | nil =>
      exfalso
      have : ess = [] := by simpa using hr
      subst this
      have : bs = [] := by simpa using h4
      subst this
      apply hne
      rw [← hfl]; rfl
    | cons d ds =>
      apply mergeAll_total
      intro o ho
      obtain ⟨x, _, rfl⟩ := List.mem_map.1 ho
      exact inserts_sameParams hp d x

end Cli

/-- As long as the estimate leaves room, insertions succeed. -/
theorem V2.allOk_of_room {env : Env} (sp : env.libm.Spec) (hs : env.Small) {f : V2}
    (hf : V2.Built env f) {ks : List Key}
    (h : f.count.toNat + ks.length ≤ f.capacity.toNat) : V2.AllOk env f ks := by
  induction ks generalizing f with
  | nil => trivial
  | cons k ks ih =>
    rw [List.length_cons] at h
    have hb : V2.Built env (f.insert env k).1 := .insertIter _ hf
    rcases V2.insert_step env hf.reach.wf (by omega) k with ⟨h1, h2⟩ | ⟨h1, hc, h2⟩ | ⟨h1, hc, h2, h3⟩
    · exfalso
      rcases h2 with h2 | ⟨_, _, h2, _⟩
      · rw [h2] at h; simp at h
      · rw [h2] at h; omega
    · exact absurd h2 (hf.buckets hs sp hc)
    · refine ⟨⟨_, by rw [h1]⟩, ih hb ?_⟩
      rw [h1]
      have hcap : (V2.added env f (k.hashPop env.wy)).capacity = f.capacity := rfl
      rw [hcap]
      cases ha : V2.allSet env f (k.hashPop env.wy) with
      | true => rw [V2.added_count_of_member env ha]; omega
      | false => rw [V2.added_count_of_new env (by omega) ha]; omega

theorem V1.allOk_of_room {env : Env} (sp : env.libm.Spec) (hs : env.Small) {f : V1}
    (hf : V1.Built env f) {ks : List (List U8)}
    (h : f.count.toNat + ks.length ≤ f.capacity.toNat) : V1.AllOk env f ks := by
  induction ks generalizing f with
  | nil => trivial
  | cons k ks ih =>
    rw [List.length_cons] at h
    have hb : V1.Built env (f.insertBytes env k).1 := .insert _ hf
    rcases V1.insert_step env (hf.reach.wf hs) k with
      ⟨h1, h2⟩ | ⟨h1, hc, hm, hk⟩ | ⟨h1, hc, h2, h3⟩
    · exfalso
      rcases h2 with h2 | ⟨_, _, h2, _⟩
      · rw [h2] at h; simp at h
      · rw [BitVec.le_def] at h2; omega
    · exact absurd ((hf.bits sp).1.1 hm) hk
    · refine ⟨⟨_, by rw [h1]⟩, ih hb ?_⟩
      rw [h1]
      have hcap : (f.added k).capacity = f.capacity := rfl
      rw [hcap]
      cases ha : f.allSet k with
      | true => rw [V1.added_self ha]; show f.count.toNat + _ ≤ _; omega
      | false => rw [V1.added_count_of_new (by omega) ha]; omega

namespace Cli

/-! ### Checking -/

/-- First one, then the other if it succeeded. -/
def seqOut (a b : List (List U8) × Res Unit) : List (List U8) × Res Unit :=
  match a.2 with
  | .ok () => (a.1 ++ b.1, b.2)
  | _ => a

/-- What a thread still prints for the lines of the current file, and whether it gets through. -/
def restLines (env : Env) (bf : Bloom) (o : Check) :
    List (Res (List U8)) → List (List U8) × Res Unit
  | [] => ([], .ok ())
  | .ok line :: ls =>
    match bf.containsBytes env line with
    | .ok ok => (checkPrint o line ok ++ (restLines env bf o ls).1, (restLines env bf o ls).2)
    | _ => ([], .panic)
  | .err e :: _ => ([], .err e)
  | .panic :: _ => ([], .panic)

def restFiles (env : Env) (w : World) (bf : Bloom) (o : Check) :
    List Path → List (List U8) × Res Unit
  | [] => ([], .ok ())
  | f :: fs =>
    match w.open f with
    | .ok r => seqOut (restLines env bf o (fileLines r)) (restFiles env w bf o fs)
    | .err e => ([], .err e)
    | .panic => ([], .panic)

/-- What a thread still prints. -/
def Checker.rest (env : Env) (w : World) (bf : Bloom) (o : Check) :
    Checker → List (List U8) × Res Unit
  | .running ls fs => seqOut (restLines env bf o ls) (restFiles env w bf o fs)
  | .done r => ([], r)

theorem seqOut_cons (p : List (List U8)) (a b : List (List U8) × Res Unit) :
    seqOut (p ++ a.1, a.2) b = (p ++ (seqOut a b).1, (seqOut a b).2) := by
  obtain ⟨x, r⟩ := a
  cases r <;> simp [seqOut]

theorem Checker.rest_step (env : Env) (w : World) (bf : Bloom) (o : Check) (t : Checker) :
    t.rest env w bf o = ((t.step env w bf o).2 ++ ((t.step env w bf o).1.rest env w bf o).1,
      ((t.step env w bf o).1.rest env w bf o).2) := by
  cases t with
  | done r => rfl
  | running ls fs =>
    cases ls with
    | nil =>
      cases fs with
      | nil => rfl
      | cons f fs =>
        show seqOut ([], .ok ()) (restFiles env w bf o (f :: fs)) = _
        rw [restFiles, Checker.step]
        cases w.open f <;> rfl
    | cons l ls =>
      cases l with
      | err e => rfl
      | panic => rfl
      | ok line =>
        show seqOut (restLines env bf o (.ok line :: ls)) (restFiles env w bf o fs) = _
        rw [restLines, Checker.step]
        cases bf.containsBytes env line with
        | ok b => exact seqOut_cons _ _ _
        | err e => rfl
        | panic => rfl

/-- Printed so far and still to be printed, in some order. -/
theorem runCheckers_perm (env : Env) (w : World) (bf : Bloom) (o : Check) (sched : Schedule)
    (ts : List Checker) :
    (ts.flatMap fun t => (t.rest env w bf o).1).Perm
      ((runCheckers env w bf o sched ts).2 ++
        (runCheckers env w bf o sched ts).1.flatMap fun t => (t.rest env w bf o).1) ∧
    (runCheckers env w bf o sched ts).1.map (fun t => (t.rest env w bf o).2)
      = ts.map (fun t => (t.rest env w bf o).2) := by
  induction sched generalizing ts with
  | nil => exact ⟨List.Perm.refl _, rfl⟩
  | cons i sched ih =>
    rw [runCheckers]
    cases hi : ts[i]? with
    | none => exact ih ts
    | some t =>
      simp only
      obtain ⟨h1, h2⟩ := ih (ts.set i (t.step env w bf o).1)
      have hlt : i < ts.length := by
        by_contra hc
        rw [List.getElem?_eq_none (by omega)] at hi
        cases hi
      have ht : ts[i] = t := by
        rw [List.getElem?_eq_getElem hlt] at hi
        exact Option.some.inj hi
      have hsplit : ts = ts.take i ++ t :: ts.drop (i + 1) := by
        rw [← ht, ← List.drop_eq_getElem_cons hlt, List.take_append_drop]
      have hset : ts.set i (t.step env w bf o).1
          = ts.take i ++ (t.step env w bf o).1 :: ts.drop (i + 1) := by
        rw [List.set_eq_take_append_cons_drop, if_pos hlt]
      have hr := Checker.rest_step env w bf o t
      constructor
      · rw [List.append_assoc]
        refine List.Perm.trans ?_ (h1.append_left _)
        rw [hset]
        conv_lhs => rw [hsplit]
        rw [List.flatMap_append, List.flatMap_append, List.flatMap_cons, List.flatMap_cons, hr]
        simp only [List.append_assoc]
        exact List.perm_append_comm_assoc _ _ _
      · rw [h2, hset]
        conv_rhs => rw [hsplit]
        rw [List.map_append, List.map_append, List.map_cons, List.map_cons]
        congr 2
        rw [hr]

theorem joinCheckers_ok {ts : List Checker} (h : joinCheckers ts = some (.ok ())) :
    ∀ t ∈ ts, t = .done (.ok ()) := by
  induction ts with
  | nil => simp
  | cons t ts ih =>
    cases t with
    | running ls fs => cases h
    | done r =>
      cases r with
      | err e => cases h
      | panic => cases h
      | ok u =>
        intro x hx
        rcases List.mem_cons.1 hx with rfl | hx
        · rfl
        · exact ih h x hx

/-- What is printed for valid lines. -/
def printed (env : Env) (bf : Bloom) (o : Check) (es : List (List U8)) : List (List U8) :=
  es.flatMap fun l => match bf.containsBytes env l with
    | .ok b => checkPrint o l b
    | _ => []

theorem restLines_ok {env : Env} {bf : Bloom} {o : Check} {ls : List (Res (List U8))}
    (h : (restLines env bf o ls).2 = .ok ()) : ∃ es, ls = es.map Res.ok ∧
      (∀ l ∈ es, ∃ b, bf.containsBytes env l = .ok b) ∧
      (restLines env bf o ls).1 = printed env bf o es := by
  induction ls with
  | nil => exact ⟨[], rfl, by simp, rfl⟩
  | cons l ls ih =>
    cases l with
    | err e => cases h
    | panic => cases h
    | ok line =>
      rw [restLines] at h ⊢
      cases hc : bf.containsBytes env line with
      | err e => rw [hc] at h; cases h
      | panic => rw [hc] at h; cases h
      | ok b =>
        rw [hc] at h
        obtain ⟨es, h1, h2, h3⟩ := ih h
        refine ⟨line :: es, by rw [h1]; rfl, ?_, ?_⟩
        · intro x hx
          rcases List.mem_cons.1 hx with rfl | hx
          · exact ⟨b, hc⟩
          · exact h2 x hx
        · simp only [h3, printed, List.flatMap_cons, hc]

theorem restLines_of_ok {env : Env} {bf : Bloom} {o : Check} {es : List (List U8)}
    (h : ∀ l ∈ es, ∃ b, bf.containsBytes env l = .ok b) :
    restLines env bf o (es.map Res.ok) = (printed env bf o es, .ok ()) := by
  induction es with
  | nil => rfl
  | cons l es ih =>
    obtain ⟨b, hb⟩ := h l (by simp)
    rw [List.map_cons, restLines, hb]
    simp only
    rw [ih (fun x hx => h x (by simp [hx]))]
    simp only [printed, List.flatMap_cons, hb]

theorem printed_append (env : Env) (bf : Bloom) (o : Check) (a b : List (List U8)) :
    printed env bf o (a ++ b) = printed env bf o a ++ printed env bf o b := by
  simp [printed]

theorem seqOut_ok {a b : List (List U8) × Res Unit} (h : (seqOut a b).2 = .ok ()) :
    a.2 = .ok () ∧ b.2 = .ok () ∧ (seqOut a b).1 = a.1 ++ b.1 := by
  obtain ⟨x, r⟩ := a
  cases r with
  | ok u => exact ⟨rfl, h, rfl⟩
  | err e => cases h
  | panic => cases h

theorem restFiles_ok {env : Env} {w : World} {bf : Bloom} {o : Check} {fs : List Path}
    (h : (restFiles env w bf o fs).2 = .ok ()) : AllOpen w fs ∧
      ∃ es, linesOf w fs = es.map Res.ok ∧
      (∀ l ∈ es, ∃ b, bf.containsBytes env l = .ok b) ∧
      (restFiles env w bf o fs).1 = printed env bf o es := by
  induction fs with
  | nil => exact ⟨by simp [AllOpen], [], rfl, by simp, rfl⟩
  | cons f fs ih =>
    rw [restFiles] at h ⊢
    cases ho : w.open f with
    | err e => rw [ho] at h; cases h
    | panic => rw [ho] at h; cases h
    | ok bs =>
      rw [ho] at h
      simp only at h ⊢
      obtain ⟨h1, h2, h3⟩ := seqOut_ok h
      obtain ⟨es, e1, e2, e3⟩ := restLines_ok h1
      obtain ⟨g1, es', g2, g3, g4⟩ := ih h2
      refine ⟨?_, es ++ es', ?_, ?_, ?_⟩
      · intro x hx
        rcases List.mem_cons.1 hx with rfl | hx
        · exact ⟨bs, ho⟩
        · exact g1 x hx
      · rw [List.map_append, ← e1, ← g2, linesOf_cons ho]
      · intro l hl
        rcases List.mem_append.1 hl with hl | hl
        · exact e2 l hl
        · exact g3 l hl
      · rw [h3, e3, g4, printed_append]

theorem restFiles_of_ok {env : Env} {w : World} {bf : Bloom} {o : Check} {fs : List Path}
    {es : List (List U8)} (h1 : AllOpen w fs)
    (h2 : linesOf w fs = es.map Res.ok) (h3 : ∀ l ∈ es, ∃ b, bf.containsBytes env l = .ok b) :
    restFiles env w bf o fs = (printed env bf o es, .ok ()) := by
  induction fs generalizing es with
  | nil =>
    have : es = [] := by simpa [linesOf] using h2
    subst this; rfl
  | cons f fs ih =>
    obtain ⟨bs, ho⟩ := h1 f (by simp)
    have h2' : fileLines bs ++ linesOf w fs = es.map Res.ok := by
      rw [← h2, linesOf_cons ho]
    obtain ⟨e1, e2, rfl, h4, h5⟩ := List.map_eq_append_iff.1 h2'.symm
    rw [restFiles, ho]
    simp only
    rw [← h4, restLines_of_ok (fun l hl => h3 l (by simp [hl])),
      ih (fun x hx => h1 x (by simp [hx])) h5.symm (fun l hl => h3 l (by simp [hl])),
      printed_append]
    rfl

/-- Steps left. -/
def Checker.work (w : World) : Checker → ℕ
  | .running ls fs => 1 + ls.length + (fs.map fun f => 1 + (linesIn w f).length).sum
  | .done _ => 0

theorem Checker.work_step (env : Env) (w : World) (bf : Bloom) (o : Check) (t : Checker) (n : ℕ)
    (h : t.work w ≤ n + 1) : (t.step env w bf o).1.work w ≤ n := by
  cases t with
  | done r => exact Nat.zero_le _
  | running ls fs =>
    cases ls with
    | nil =>
      cases fs with
      | nil => exact Nat.zero_le _
      | cons f fs =>
        rw [Checker.step]
        cases ho : w.open f with
        | err e => exact Nat.zero_le _
        | panic => exact Nat.zero_le _
        | ok bs =>
          simp only [Checker.work, List.map_cons, List.sum_cons, linesIn, ho,
            List.length_nil] at h ⊢
          omega
    | cons l ls =>
      cases l with
      | err e => exact Nat.zero_le _
      | panic => exact Nat.zero_le _
      | ok line =>
        rw [Checker.step]
        cases bf.containsBytes env line with
        | err e => exact Nat.zero_le _
        | panic => exact Nat.zero_le _
        | ok b =>
          simp only [Checker.work, List.length_cons] at h ⊢
          omega

theorem runCheckers_get (env : Env) (w : World) (bf : Bloom) (o : Check) (sched : Schedule)
    (ts : List Checker) (i : ℕ) : (runCheckers env w bf o sched ts).1[i]?
      = ts[i]?.map (fun t => (fun t => (Checker.step env w bf o t).1)^[sched.count i] t) := by
  induction sched generalizing ts with
  | nil => cases h : ts[i]? <;> simp [runCheckers, h]
  | cons j sched ih =>
    rw [runCheckers]
    cases hj : ts[j]? with
    | none =>
      simp only
      rw [ih, List.count_cons]
      by_cases hij : j = i
      · subst hij; rw [hj]; rfl
      · simp [hij]
    | some t =>
      simp only
      rw [ih, List.count_cons, List.getElem?_set]
      by_cases hij : j = i
      · subst hij
        have hlt : j < ts.length := by
          by_contra hc
          rw [List.getElem?_eq_none (by omega)] at hj
          cases hj
        rw [if_pos rfl, if_pos hlt, hj, Option.map_some, Option.map_some]
        simp only [beq_self_eq_true, if_true, Function.iterate_succ, Function.comp_apply]
      · rw [if_neg hij]; simp [hij]

theorem Checker.work_iterate (env : Env) (w : World) (bf : Bloom) (o : Check) (t : Checker) (n : ℕ)
    (h : t.work w ≤ n) : ((fun t => (Checker.step env w bf o t).1)^[n] t).work w = 0 := by
  induction n generalizing t with
  | zero => simpa using h
  | succ n ih => exact ih _ (Checker.work_step env w bf o t n h)

theorem joinCheckers_done {w : World} {ts : List Checker} (h : ∀ t ∈ ts, t.work w = 0) :
    ∃ r, joinCheckers ts = some r := by
  induction ts with
  | nil => exact ⟨_, rfl⟩
  | cons t ts ih =>
    have h0 := h t (by simp)
    cases t with
    | running ls fs => simp only [Checker.work] at h0; omega
    | done r =>
      cases r with
      | ok u => exact ih (fun t ht => h t (by simp [ht]))
      | err e => exact ⟨_, rfl⟩
      | panic => exact ⟨_, rfl⟩

/-- Under schedules giving every thread enough steps, the command ends. -/
theorem runCheckers_fair (env : Env) (w : World) (bf : Bloom) (o : Check) (bs : List (List Path)) :
    ∃ N, ∀ sched : Schedule, (∀ i < bs.length, N ≤ sched.count i) →
      ∃ r, joinCheckers (runCheckers env w bf o sched
        (bs.map fun b => Checker.running [] b)).1 = some r := by
  refine ⟨((bs.map fun b => Checker.running [] b).map (Checker.work w)).sum, fun sched hs => ?_⟩
  apply joinCheckers_done (w := w)
  intro t ht
  obtain ⟨i, hi, rfl⟩ := List.mem_iff_getElem.1 ht
  have hg := runCheckers_get env w bf o sched (bs.map fun b => Checker.running [] b) i
  rw [List.getElem?_eq_getElem hi] at hg
  cases hb : (bs.map fun b => Checker.running [] b)[i]? with
  | none => rw [hb] at hg; cases hg
  | some t =>
    rw [hb, Option.map_some, Option.some.injEq] at hg
    rw [hg]
    have hmem := List.mem_of_getElem? hb
    have hlt : i < bs.length := by
      by_contra hc
      rw [List.getElem?_eq_none (by simpa using hc)] at hb
      cases hb
    apply Checker.work_iterate
    refine le_trans ?_ (hs i hlt)
    exact List.single_le_sum (fun _ _ => Nat.zero_le _) _ (List.mem_map_of_mem hmem)

/-- Joining threads that all get through. -/
theorem joinCheckers_of_rest {env : Env} {w : World} {bf : Bloom} {o : Check} {ts : List Checker}
    {r : Res Unit} (h : ∀ t ∈ ts, (t.rest env w bf o).2 = .ok ()) (hj : joinCheckers ts = some r) :
    r = .ok () := by
  induction ts with
  | nil => cases hj; rfl
  | cons t ts ih =>
    have h0 := h t (by simp)
    cases t with
    | running ls fs => cases hj
    | done x =>
      cases x with
      | ok u => exact ih (fun t ht => h t (by simp [ht])) hj
      | err e => cases h0
      | panic => cases h0

end Cli
end Poppy
