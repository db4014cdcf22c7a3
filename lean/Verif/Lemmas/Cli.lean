import Verif.CliSpec
import Verif.Lemmas.Utf8
import Verif.Lemmas.Misc
import Verif.Lemmas.Partial
import Mathlib.Tactic.Linarith

/-! Lemmas on the command line tool: lines, batches, threads. -/

namespace Poppy
namespace Cli

open Spec

/-! ### Lines -/

theorem readUntilLf_seg {s : List U8} (h : LF ∉ s) (rest : List U8) :
    readUntilLf (s ++ [LF] ++ rest) = (s ++ [LF], rest) := by
  induction s with
  | nil => simp [readUntilLf]
  | cons b s ih =>
    simp only [List.mem_cons, not_or] at h
    rw [List.cons_append, List.cons_append, readUntilLf, if_neg (fun e => h.1 e.symm), ih h.2]

theorem readUntilLf_last {s : List U8} (h : LF ∉ s) : readUntilLf s = (s, []) := by
  induction s with
  | nil => rfl
  | cons b s ih =>
    simp only [List.mem_cons, not_or] at h
    rw [readUntilLf, if_neg (fun e => h.1 e.symm), ih h.2]

theorem linesAux_unlines {ls : List (List U8)} {last : List U8} (h : ∀ l ∈ ls, LF ∉ l)
    (hl : LF ∉ last) {fuel : ℕ} (hf : ls.length < fuel) :
    linesAux fuel (unlines ls last) = ls.map (fun l => lineItem (l ++ [LF]))
      ++ if last = [] then [] else [lineItem last] := by
  induction ls generalizing fuel with
  | nil =>
    obtain ⟨fuel, rfl⟩ : ∃ n, fuel = n + 1 := ⟨fuel - 1, by simp at hf; omega⟩
    have hu : unlines [] last = last := rfl
    rw [hu, linesAux, readUntilLf_last hl]
    by_cases he : last = []
    · subst he; rfl
    · rw [if_neg he]
      cases last with
      | nil => exact absurd rfl he
      | cons b bs =>
        simp only [List.map_nil, List.nil_append]
        congr 1
        cases fuel <;> rfl
  | cons l ls ih =>
    obtain ⟨fuel, rfl⟩ : ∃ n, fuel = n + 1 := ⟨fuel - 1, by simp at hf; omega⟩
    have hu : unlines (l :: ls) last = l ++ [LF] ++ unlines ls last := by
      unfold unlines; rw [List.flatMap_cons, List.append_assoc]; rfl
    rw [hu, linesAux, readUntilLf_seg (h l (by simp))]
    have hne : ∃ b bs, l ++ [LF] = b :: bs := by cases l <;> simp
    obtain ⟨b, bs, he⟩ := hne
    simp only [he]
    rw [ih (fun x hx => h x (by simp [hx])) (by simpa using hf), List.map_cons, he]
    rfl

theorem length_unlines (ls : List (List U8)) (last : List U8) :
    ls.length ≤ (unlines ls last).length := by
  unfold unlines
  rw [List.length_append]
  induction ls with
  | nil => simp
  | cons l ls ih => simp only [List.flatMap_cons, List.length_append, List.length_cons] at ih ⊢; omega

theorem lineItem_terminated (l : List U8) :
    lineItem (l ++ [LF]) = if validUtf8 l then .ok (dropCr l) else .err (.ioError .invalidData) := by
  unfold lineItem
  rw [validUtf8_snoc l (by decide)]
  unfold stripEol
  rw [List.getLast?_append, List.getLast?_singleton, Option.some_or, if_pos rfl]
  simp only [List.dropLast_concat]
  rfl

theorem lineItem_last {l : List U8} (h : LF ∉ l) :
    lineItem l = if validUtf8 l then .ok l else .err (.ioError .invalidData) := by
  have hs : stripEol l = l := by
    unfold stripEol
    rw [if_neg]
    intro hl
    exact h (List.mem_of_getLast? hl)
  unfold lineItem
  rw [hs]

theorem lines_unlines {ls : List (List U8)} {last : List U8} (h : ∀ l ∈ ls, LF ∉ l)
    (hl : LF ∉ last) :
    lines (unlines ls last) = ls.map (fun l => lineItem (l ++ [LF]))
      ++ if last = [] then [] else [lineItem last] := by
  have := length_unlines ls last
  exact linesAux_unlines h hl (by omega)

theorem exists_unlines (bs : List U8) : ∃ ls last, (∀ l ∈ ls, LF ∉ l) ∧ LF ∉ last ∧
    bs = unlines ls last := by
  induction bs with
  | nil => exact ⟨[], [], by simp, by simp, rfl⟩
  | cons b bs ih =>
    obtain ⟨ls, last, h1, h2, rfl⟩ := ih
    by_cases hb : b = LF
    · subst hb
      exact ⟨[] :: ls, last, by simpa using h1, h2, rfl⟩
    · cases ls with
      | nil =>
        refine ⟨[], b :: last, by simp, ?_, rfl⟩
        simp only [List.mem_cons, not_or]
        exact ⟨fun e => hb e.symm, h2⟩
      | cons l ls =>
        refine ⟨(b :: l) :: ls, last, ?_, h2, rfl⟩
        intro x hx
        rcases List.mem_cons.1 hx with rfl | hx
        · simp only [List.mem_cons, not_or]
          exact ⟨fun e => hb e.symm, h1 l (by simp)⟩
        · exact h1 x (by simp [hx])

/-- An item is an entry or an invalid line, never a panic. -/
theorem lines_item {bs : List U8} {l : Res (List U8)} (h : l ∈ lines bs) :
    (∃ s, l = .ok s ∧ validUtf8 s = true) ∨ l = .err (.ioError .invalidData) := by
  obtain ⟨ls, last, h1, h2, rfl⟩ := exists_unlines bs
  rw [lines_unlines h1 h2, List.mem_append] at h
  have hcr : ∀ s, validUtf8 s = true → validUtf8 (dropCr s) = true := by
    intro s hs
    unfold dropCr
    split
    · rename_i hg
      have hne : s ≠ [] := by rintro rfl; simp at hg
      have hs' : s = s.dropLast ++ [13#8] := by
        conv_lhs => rw [← List.dropLast_append_getLast hne]
        rw [List.getLast?_eq_getLast_of_ne_nil hne] at hg
        rw [Option.some.inj hg]
      rw [hs', validUtf8_snoc _ (by decide)] at hs
      exact hs
    · exact hs
  rcases h with h | h
  · obtain ⟨s, _, rfl⟩ := List.mem_map.1 h
    rw [lineItem_terminated]
    split
    · rename_i hv
      exact Or.inl ⟨_, rfl, hcr _ hv⟩
    · exact Or.inr rfl
  · split at h
    · cases h
    · rw [List.mem_singleton] at h
      subst h
      rw [lineItem_last h2]
      split
      · rename_i hv
        exact Or.inl ⟨_, rfl, hv⟩
      · exact Or.inr rfl

/-! ### Batches -/

theorem chunksAux_spec {α : Type} {k : ℕ} (hk : 0 < k) :
    ∀ (fuel : ℕ) (l : List α), l.length ≤ fuel →
      (chunksAux k fuel l).flatten = l ∧ (∀ b ∈ chunksAux k fuel l, b ≠ [] ∧ b.length ≤ k) ∧
      (chunksAux k fuel l).length = (l.length + k - 1) / k := by
  intro fuel
  induction fuel with
  | zero =>
    intro l hl
    have : l = [] := List.length_eq_zero_iff.1 (by omega)
    subst this
    refine ⟨rfl, by simp [chunksAux], ?_⟩
    rw [List.length_nil, Nat.zero_add, Nat.div_eq_of_lt (by omega)]; rfl
  | succ fuel ih =>
    intro l hl
    cases l with
    | nil =>
      refine ⟨rfl, by simp [chunksAux], ?_⟩
      rw [List.length_nil, Nat.zero_add, Nat.div_eq_of_lt (by omega)]; rfl
    | cons a l =>
      have hd : ((a :: l).drop k).length ≤ fuel := by
        rw [List.length_drop, List.length_cons] at *; omega
      obtain ⟨h1, h2, h3⟩ := ih _ hd
      rw [chunksAux]
      refine ⟨?_, ?_, ?_⟩
      · rw [List.flatten_cons, h1, List.take_append_drop]
      · intro b hb
        rcases List.mem_cons.1 hb with rfl | hb
        · refine ⟨?_, by rw [List.length_take]; omega⟩
          rw [← List.length_pos_iff, List.length_take, List.length_cons]; omega
        · exact h2 b hb
      · rw [List.length_cons, h3, List.length_drop, List.length_cons]
        by_cases hlt : l.length + 1 ≤ k
        · rw [show l.length + 1 - k + k - 1 = k - 1 by omega, Nat.div_eq_of_lt (by omega)]
          symm
          rw [Nat.div_eq_iff hk]
          omega
        · rw [show l.length + 1 + k - 1 = (l.length + 1 - k + k - 1) + k by omega,
            Nat.add_div_right _ hk]

theorem batches_spec {α : Type} {files : List α} {jobs : ℕ} {bs : List (List α)}
    (h : batches files jobs = .ok bs) :
    0 < jobs ∧ bs.flatten = files ∧ (∀ b ∈ bs, b ≠ []) ∧
    bs.length = (files.length + max (files.length / jobs) 1 - 1) / max (files.length / jobs) 1 := by
  unfold batches at h
  split at h
  · cases h
  · rename_i hj
    unfold chunks at h
    rw [if_neg (by omega)] at h
    cases h
    obtain ⟨h1, h2, h3⟩ := chunksAux_spec (k := max (files.length / jobs) 1) (by omega)
      files.length files (le_refl _)
    exact ⟨by omega, h1, fun b hb => (h2 b hb).1, h3⟩

theorem batches_ok {α : Type} (files : List α) {jobs : ℕ} (hj : 0 < jobs) :
    ∃ bs, batches files jobs = .ok bs := by
  unfold batches chunks
  rw [if_neg (by omega), if_neg (by omega)]
  exact ⟨_, rfl⟩

theorem optimalJobs_pos (w : World) (jobs : ℕ) : 0 < optimalJobs w jobs := by
  unfold optimalJobs
  split
  · exact w.cpus_pos
  · omega

theorem batches_count {n j k : ℕ} (hj : 0 < j) (hn : 0 < n) (hk : k = max (n / j) 1) :
    (n + k - 1) / k ≤ 2 * j - 1 ∧ (j ∣ n → (n + k - 1) / k = j) ∧ 0 < (n + k - 1) / k := by
  have hk0 : 0 < k := by omega
  refine ⟨?_, ?_, ?_⟩
  · rw [Nat.le_iff_lt_add_one, Nat.div_lt_iff_lt_mul hk0]
    rcases Nat.lt_or_ge n j with h | h
    · have : k = 1 := by rw [hk, Nat.div_eq_of_lt h]; rfl
      subst this; omega
    · have hq : 1 ≤ n / j := (Nat.one_le_div_iff hj).2 h
      have hkq : k = n / j := by omega
      have hm := Nat.div_add_mod n j
      have hr := Nat.mod_lt n hj
      rw [← hkq] at hm
      have : j - 1 ≤ k * (j - 1) := Nat.le_mul_of_pos_left _ hk0
      have e1 : k * (j - 1) = k * j - k := by rw [Nat.mul_sub, Nat.mul_one]
      have e2 : (2 * j - 1 + 1) * k = 2 * (k * j) := by
        rw [show 2 * j - 1 + 1 = 2 * j by omega]; ring
      have e3 : j * k = k * j := Nat.mul_comm _ _
      have e4 : k ≤ k * j := Nat.le_mul_of_pos_right _ hj
      rw [e2]
      omega
  · rintro ⟨q, rfl⟩
    have hq : 0 < q := Nat.pos_of_mul_pos_left hn |> fun _ => by
      rcases Nat.eq_zero_or_pos q with h | h
      · subst h; simp at hn
      · exact h
    rw [Nat.mul_div_cancel_left q hj] at hk
    have : k = q := by omega
    subst this
    rw [Nat.div_eq_iff hk0, Nat.mul_comm j k]
    have : k * j = j * k := Nat.mul_comm _ _
    omega
  · exact Nat.div_pos (by omega) hk0

/-! ### Counting -/

theorem open_cases {w : World} {f : Path} {r : Reader} (h : w.open f = .ok r) :
    ∃ bs, w.fs f = some bs ∧ (r = Reader.ofBytes bs ∨ ∃ k ≤ bs.length, r = ⟨bs, 0, some k⟩) := by
  unfold World.open at h
  split at h
  · cases h
  · rename_i bs hfs
    refine ⟨bs, hfs, ?_⟩
    split at h
    · cases h
    · split at h
      · cases h; rename_i k _ hk; exact Or.inr ⟨k, hk, rfl⟩
      · cases h; exact Or.inl rfl
    · cases h; exact Or.inl rfl

theorem open_ok {w : World} {f : Path} {bs : List U8} (h : w.open f = .ok (Reader.ofBytes bs)) :
    w.fs f = some bs := by
  obtain ⟨bs', h1, h2 | ⟨k, _, h2⟩⟩ := open_cases h
  · rw [h1]; exact congrArg some (congrArg Reader.data h2).symm
  · cases h2

/-- A filter is only ever loaded from a file that can be read to its end. -/
theorem open_loaded {env : Env} {w : World} {f : Path} {r : Reader} {b : Bloom} {p : Bool}
    (h : w.open f = .ok r) (hb : Bloom.fromReaderAux env p r = .ok b) :
    ∃ bs, r = Reader.ofBytes bs ∧ w.fs f = some bs := by
  obtain ⟨bs, h1, h2 | ⟨k, hk, h2⟩⟩ := open_cases h
  · exact ⟨bs, h2, h1⟩
  · exact absurd hb (Bloom.fromReaderAux_faulty ⟨k, by rw [h2], by rw [h2]; exact hk⟩)

theorem open_ne_panic (w : World) (f : Path) : w.open f ≠ .panic := by
  unfold World.open
  split
  · simp
  · split
    · simp
    · split <;> simp
    · simp

theorem linesOf_cons {w : World} {f : Path} {r : Reader} (h : w.open f = .ok r) (fs : List Path) :
    linesOf w (f :: fs) = fileLines r ++ linesOf w fs := by
  unfold linesOf
  rw [List.flatMap_cons]
  unfold linesIn
  rw [h]

theorem fileLines_ofBytes (bs : List U8) : fileLines (Reader.ofBytes bs) = lines bs := rfl

theorem brokenLinesAux_err (fuel : ℕ) (bs : List U8) :
    Res.err (.ioError .other) ∈ brokenLinesAux fuel bs := by
  induction fuel generalizing bs with
  | zero => simp [brokenLinesAux]
  | succ n ih =>
    rw [brokenLinesAux]
    split
    · exact List.mem_cons_of_mem _ (ih _)
    · simp

theorem fileLines_broken (bs : List U8) (k : ℕ) :
    Res.err (.ioError .other) ∈ fileLines ⟨bs, 0, some k⟩ := brokenLinesAux_err _ _

/-- Files all of whose lines are valid can be read to their end. -/
theorem Reads.allRead {w : World} {fs : List Path} {es : List (List U8)} (h : Reads w fs es) :
    AllRead w fs := by
  intro f hf
  obtain ⟨r, hr⟩ := h.1 f hf
  obtain ⟨bs, _, rfl | ⟨k, _, rfl⟩⟩ := open_cases hr
  · exact ⟨bs, hr⟩
  · exfalso
    have : Res.err (.ioError .other) ∈ linesOf w fs := by
      unfold linesOf
      refine List.mem_flatMap.2 ⟨f, hf, ?_⟩
      unfold linesIn
      rw [hr]
      exact fileLines_broken bs k
    rw [h.2] at this
    obtain ⟨_, _, h⟩ := List.mem_map.1 this
    cases h

theorem AllRead.allOpen {w : World} {fs : List Path} (h : AllRead w fs) : AllOpen w fs := by
  intro f hf
  obtain ⟨bs, h⟩ := h f hf
  exact ⟨_, h⟩

theorem countBatch_ok {w : World} {fs : List Path} {n : ℕ} (h : countBatch w fs = some (.ok n)) :
    AllRead w fs ∧ n = (linesOf w fs).length := by
  induction fs generalizing n with
  | nil => cases h; exact ⟨by simp [AllRead], rfl⟩
  | cons f fs ih =>
    rw [countBatch] at h
    cases ho : w.open f with
    | err e => rw [ho] at h; cases h
    | panic => rw [ho] at h; cases h
    | ok r =>
      rw [ho] at h
      obtain ⟨bs, _, rfl | ⟨k, _, rfl⟩⟩ := open_cases ho
      · simp only [countLines, Reader.ofBytes] at h
        cases hc : countBatch w fs with
        | none => rw [hc] at h; cases h
        | some x =>
          rw [hc] at h
          cases x with
          | err e => cases h
          | panic => cases h
          | ok m =>
            cases h
            obtain ⟨h1, rfl⟩ := ih hc
            refine ⟨?_, ?_⟩
            · intro x hx
              rcases List.mem_cons.1 hx with rfl | hx
              · exact ⟨bs, ho⟩
              · exact h1 x hx
            · rw [linesOf_cons ho, List.length_append]
              rfl
      · cases h

theorem countBatch_of_open {w : World} {fs : List Path} (h : AllRead w fs) :
    countBatch w fs = some (.ok (linesOf w fs).length) := by
  induction fs with
  | nil => rfl
  | cons f fs ih =>
    obtain ⟨bs, ho⟩ := h f (by simp)
    rw [countBatch, ho, linesOf_cons ho, List.length_append, ih (fun x hx => h x (by simp [hx]))]
    rfl

theorem linesOf_append (w : World) (a b : List Path) :
    linesOf w (a ++ b) = linesOf w a ++ linesOf w b := by
  unfold linesOf; rw [List.flatMap_append]

theorem linesOf_flatten (w : World) (bs : List (List Path)) :
    linesOf w bs.flatten = (bs.map (linesOf w)).flatten := by
  induction bs with
  | nil => rfl
  | cons b bs ih => rw [List.flatten_cons, linesOf_append, ih]; rfl

theorem sumBatches_ok {w : World} {bs : List (List Path)} {n : ℕ}
    (h : sumBatches (bs.map (countBatch w)) = some (.ok n)) :
    AllRead w bs.flatten ∧ n = (linesOf w bs.flatten).length := by
  induction bs generalizing n with
  | nil => cases h; exact ⟨by simp [AllRead], rfl⟩
  | cons b bs ih =>
    rw [List.map_cons] at h
    cases hb : countBatch w b with
    | none => rw [hb] at h; cases h
    | some x =>
      cases x with
      | err e => rw [hb] at h; cases h
      | panic => rw [hb] at h; cases h
      | ok m =>
        rw [hb, sumBatches] at h
        cases hs : sumBatches (bs.map (countBatch w)) with
        | none => rw [hs] at h; cases h
        | some x =>
          rw [hs] at h
          cases x with
          | err e => cases h
          | panic => cases h
          | ok m' =>
            cases h
            obtain ⟨a1, rfl⟩ := countBatch_ok hb
            obtain ⟨a2, rfl⟩ := ih hs
            refine ⟨?_, by rw [List.flatten_cons, linesOf_append, List.length_append]⟩
            intro f hf
            rw [List.flatten_cons, List.mem_append] at hf
            exact hf.elim (a1 f) (a2 f)

theorem sumBatches_of_open {w : World} {bs : List (List Path)} (h : AllRead w bs.flatten) :
    sumBatches (bs.map (countBatch w)) = some (.ok (linesOf w bs.flatten).length) := by
  induction bs with
  | nil => rfl
  | cons b bs ih =>
    rw [List.flatten_cons] at h ⊢
    rw [List.map_cons, countBatch_of_open (fun f hf => h f (by simp [hf])), sumBatches,
      ih (fun f hf => h f (List.mem_append.2 (Or.inr hf))), linesOf_append, List.length_append]

/-- `count_lines_parallel` succeeds exactly when all files can be read, and counts their lines. -/
theorem countLines_iff {w : World} {files : List Path} {jobs n : ℕ} :
    countLinesParallel w files jobs = some (.ok n) ↔
      AllRead w files ∧ n = (linesOf w files).length := by
  obtain ⟨bs, hb⟩ := batches_ok files (optimalJobs_pos w jobs)
  have hfl := (batches_spec hb).2.1
  unfold countLinesParallel
  rw [hb]
  constructor
  · intro h
    have := sumBatches_ok h
    rwa [hfl] at this
  · rintro ⟨h1, rfl⟩
    rw [← hfl] at h1
    simp only
    rw [sumBatches_of_open h1, hfl]

/-! ### Inserting -/

theorem insertLines_cons (env : Env) (bf : Bloom) (line : List U8) (ls : List (Res (List U8))) :
    insertLines env bf (.ok line :: ls) = match bf.insertBytes env line with
      | (bf, .ok _) => insertLines env bf ls
      | (_, .err e) => .err e
      | (_, .panic) => .panic := rfl

theorem insertLines_ok {env : Env} {bf g : Bloom} {ls : List (Res (List U8))}
    (h : insertLines env bf ls = .ok g) :
    ∃ es, ls = es.map Res.ok ∧ bf.AllOk env es ∧ g = bf.inserts env es := by
  induction ls generalizing bf with
  | nil => cases h; exact ⟨[], rfl, trivial, rfl⟩
  | cons l ls ih =>
    cases l with
    | err e => cases h
    | panic => cases h
    | ok line =>
      rw [insertLines_cons] at h
      split at h
      · rename_i bf' b he
        obtain ⟨es, h1, h2, h3⟩ := ih h
        refine ⟨line :: es, by rw [h1]; rfl, ⟨⟨b, by rw [he]⟩, by rw [he]; exact h2⟩, ?_⟩
        show g = Bloom.inserts env (bf.insertBytes env line).1 es
        rw [he]; exact h3
      · cases h
      · cases h

theorem insertLines_of_allOk {env : Env} {bf : Bloom} {es : List (List U8)}
    (h : bf.AllOk env es) : insertLines env bf (es.map Res.ok) = .ok (bf.inserts env es) := by
  induction es generalizing bf with
  | nil => rfl
  | cons e es ih =>
    obtain ⟨⟨b, hb⟩, h2⟩ := h
    rw [List.map_cons, insertLines_cons]
    rw [show bf.insertBytes env e = ((bf.insertBytes env e).1, .ok b) by rw [← hb]]
    exact ih h2

/-- Insert all lines of the files, one file after the other. -/
def processFiles (env : Env) (w : World) (bf : Bloom) : List Path → Res Bloom
  | [] => .ok bf
  | f :: fs => do
    let r ← w.open f
    let bf ← insertLines env bf (fileLines r)
    processFiles env w bf fs

theorem processFiles_ok {env : Env} {w : World} {bf g : Bloom} {fs : List Path}
    (h : processFiles env w bf fs = .ok g) :
    AllOpen w fs ∧
    ∃ es, linesOf w fs = es.map Res.ok ∧ bf.AllOk env es ∧ g = bf.inserts env es := by
  induction fs generalizing bf with
  | nil => cases h; exact ⟨by simp [AllOpen], [], rfl, trivial, rfl⟩
  | cons f fs ih =>
    rw [processFiles] at h
    cases ho : w.open f with
    | err e => rw [ho] at h; cases h
    | panic => rw [ho] at h; cases h
    | ok bs =>
      rw [ho, Res.bind_ok] at h
      cases hi : insertLines env bf (fileLines bs) with
      | err e => rw [hi] at h; cases h
      | panic => rw [hi] at h; cases h
      | ok bf' =>
        rw [hi, Res.bind_ok] at h
        obtain ⟨es, a1, a2, rfl⟩ := insertLines_ok hi
        obtain ⟨b1, es', b2, b3, b4⟩ := ih h
        refine ⟨?_, es ++ es', ?_, ?_, ?_⟩
        · intro x hx
          rcases List.mem_cons.1 hx with rfl | hx
          · exact ⟨bs, ho⟩
          · exact b1 x hx
        · rw [List.map_append, ← a1, ← b2, linesOf_cons ho]
        · exact (Bloom.allOk_append env bf es es').2 ⟨a2, b3⟩
        · rw [Bloom.inserts_append]; exact b4

theorem processFiles_of_allOk {env : Env} {w : World} {bf : Bloom} {fs : List Path}
    {es : List (List U8)} (h1 : AllOpen w fs)
    (h2 : linesOf w fs = es.map Res.ok) (h3 : bf.AllOk env es) :
    processFiles env w bf fs = .ok (bf.inserts env es) := by
  induction fs generalizing bf es with
  | nil =>
    have : es = [] := by simpa [linesOf] using h2
    subst this; rfl
  | cons f fs ih =>
    obtain ⟨bs, ho⟩ := h1 f (by simp)
    have h2' : fileLines bs ++ linesOf w fs = es.map Res.ok := by
      rw [← h2, linesOf_cons ho]
    obtain ⟨a, b, rfl, ha, hb⟩ := List.append_eq_map_iff.1 h2'
    obtain ⟨c1, c2⟩ := (Bloom.allOk_append env bf a b).1 h3
    rw [processFiles, ho, Res.bind_ok, ← ha, insertLines_of_allOk c1, Res.bind_ok,
      Bloom.inserts_append]
    exact ih (fun x hx => h1 x (by simp [hx])) hb.symm c2

/-! ### Threads -/

/-- What a worker returns in the end. -/
def Worker.eval (env : Env) (w : World) : Worker → Res Bloom
  | .done r => r
  | .running bf ls fs => do
    let bf ← insertLines env bf ls
    processFiles env w bf fs

theorem Worker.eval_step (env : Env) (w : World) (t : Worker) :
    (t.step env w).eval env w = t.eval env w := by
  cases t with
  | done r => rfl
  | running bf ls fs =>
    cases ls with
    | nil =>
      cases fs with
      | nil => rfl
      | cons f fs =>
        show Worker.eval env w (match w.open f with
          | .ok r => .running bf (fileLines r) fs
          | .err e => .done (.err e)
          | .panic => .done .panic) = _
        show _ = processFiles env w bf (f :: fs)
        rw [processFiles]
        cases w.open f <;> rfl
    | cons l ls =>
      cases l with
      | err e => rfl
      | panic => rfl
      | ok line =>
        show Worker.eval env w (match bf.insertBytes env line with
          | (bf, .ok _) => .running bf ls fs
          | (_, .err e) => .done (.err e)
          | (_, .panic) => .done .panic) = (insertLines env bf (.ok line :: ls)).bind _
        rw [insertLines_cons]
        rcases bf.insertBytes env line with ⟨g, b | e | _⟩ <;> rfl

/-- Number of steps a worker still makes (at most). -/
def Worker.work (w : World) : Worker → ℕ
  | .done _ => 0
  | .running _ ls fs => ls.length + (fs.map fun f => (linesIn w f).length + 1).sum + 1

theorem Worker.work_step (env : Env) (w : World) (t : Worker) (n : ℕ) (h : t.work w ≤ n + 1) :
    (t.step env w).work w ≤ n := by
  cases t with
  | done r => exact Nat.zero_le _
  | running bf ls fs =>
    cases ls with
    | nil =>
      cases fs with
      | nil => exact Nat.zero_le _
      | cons f fs =>
        show Worker.work w (match w.open f with
          | .ok r => .running bf (fileLines r) fs
          | .err e => .done (.err e)
          | .panic => .done .panic) ≤ n
        cases ho : w.open f with
        | err e => exact Nat.zero_le _
        | panic => exact Nat.zero_le _
        | ok bs =>
          simp only [Worker.work, List.map_cons, List.sum_cons, linesIn, ho,
            List.length_nil] at h ⊢
          omega
    | cons l ls =>
      cases l with
      | err e => exact Nat.zero_le _
      | panic => exact Nat.zero_le _
      | ok line =>
        show Worker.work w (match bf.insertBytes env line with
          | (bf, .ok _) => .running bf ls fs
          | (_, .err e) => .done (.err e)
          | (_, .panic) => .done .panic) ≤ n
        rcases bf.insertBytes env line with ⟨g, b | e | _⟩
        · simp only [Worker.work, List.length_cons] at h ⊢
          omega
        · exact Nat.zero_le _
        · exact Nat.zero_le _

theorem Worker.done_of_work {w : World} {t : Worker} (h : t.work w = 0) : ∃ r, t = .done r := by
  cases t with
  | done r => exact ⟨r, rfl⟩
  | running bf ls fs => simp [Worker.work] at h

theorem runWorkers_length (env : Env) (w : World) (sched : Schedule) (ts : List Worker) :
    (runWorkers env w sched ts).length = ts.length := by
  induction sched generalizing ts with
  | nil => rfl
  | cons i sched ih => rw [runWorkers, ih, List.length_modify]

/-- Workers do not influence each other. -/
theorem runWorkers_get (env : Env) (w : World) (sched : Schedule) (ts : List Worker) (i : ℕ) :
    (runWorkers env w sched ts)[i]? = ts[i]?.map (Worker.step env w)^[sched.count i] := by
  induction sched generalizing ts with
  | nil => simp [runWorkers]
  | cons j sched ih =>
    rw [runWorkers, ih, List.getElem?_modify, List.count_cons]
    by_cases hj : j = i
    · subst hj
      simp only [if_true, beq_self_eq_true, Function.iterate_add, Function.iterate_one]
      cases ts[j]? <;> rfl
    · simp [hj]

theorem Worker.eval_iterate (env : Env) (w : World) (t : Worker) (n : ℕ) :
    ((Worker.step env w)^[n] t).eval env w = t.eval env w := by
  induction n generalizing t with
  | zero => rfl
  | succ n ih => rw [Function.iterate_succ_apply, ih, eval_step]

theorem Worker.work_iterate (env : Env) (w : World) (t : Worker) (n : ℕ) (h : t.work w ≤ n) :
    ((Worker.step env w)^[n] t).work w = 0 := by
  induction n generalizing t with
  | zero => exact Nat.le_zero.1 h
  | succ n ih => rw [Function.iterate_succ_apply]; exact ih _ (work_step env w t n h)

theorem eval_runWorkers (env : Env) (w : World) (sched : Schedule) (ts : List Worker) :
    (runWorkers env w sched ts).map (Worker.eval env w) = ts.map (Worker.eval env w) := by
  apply List.ext_getElem?
  intro i
  rw [List.getElem?_map, List.getElem?_map, runWorkers_get, Option.map_map]
  congr 1
  funext t
  exact Worker.eval_iterate env w t _

/-- Join the results of all workers. -/
def joinEval : List (Res Bloom) → Res (List Bloom)
  | [] => .ok []
  | .ok bf :: rs =>
    match joinEval rs with
    | .ok bfs => .ok (bf :: bfs)
    | r => r
  | _ :: _ => .panic

theorem joinWorkers_some {env : Env} {w : World} {ts : List Worker} {r : Res (List Bloom)}
    (h : joinWorkers ts = some r) : r = joinEval (ts.map (Worker.eval env w)) := by
  induction ts generalizing r with
  | nil => cases h; rfl
  | cons t ts ih =>
    cases t with
    | running bf ls fs => cases h
    | done x =>
      cases x with
      | err e => cases h; rfl
      | panic => cases h; rfl
      | ok bf =>
        rw [joinWorkers] at h
        show r = match joinEval (ts.map (Worker.eval env w)) with
          | .ok bfs => .ok (bf :: bfs)
          | r => r
        cases hj : joinWorkers ts with
        | none => rw [hj] at h; cases h
        | some r' =>
          rw [hj] at h
          rw [← ih hj]
          cases r' <;> (cases h; rfl)

theorem joinWorkers_done {w : World} {ts : List Worker} (h : ∀ t ∈ ts, t.work w = 0) :
    ∃ r, joinWorkers ts = some r := by
  induction ts with
  | nil => exact ⟨_, rfl⟩
  | cons t ts ih =>
    obtain ⟨x, rfl⟩ := Worker.done_of_work (h t (by simp))
    cases x with
    | err e => exact ⟨_, rfl⟩
    | panic => exact ⟨_, rfl⟩
    | ok bf =>
      obtain ⟨r, hr⟩ := ih (fun t ht => h t (by simp [ht]))
      rw [joinWorkers, hr]
      cases r <;> exact ⟨_, rfl⟩

theorem joinEval_ok {rs : List (Res Bloom)} {bfs : List Bloom} (h : joinEval rs = .ok bfs) :
    rs = bfs.map Res.ok := by
  induction rs generalizing bfs with
  | nil => cases h; rfl
  | cons x rs ih =>
    cases x with
    | err e => cases h
    | panic => cases h
    | ok bf =>
      rw [joinEval] at h
      cases hj : joinEval rs with
      | err e => rw [hj] at h; cases h
      | panic => rw [hj] at h; cases h
      | ok bfs' =>
        rw [hj] at h
        cases h
        rw [ih hj]; rfl

theorem joinEval_of_ok (bfs : List Bloom) : joinEval (bfs.map Res.ok) = .ok bfs := by
  induction bfs with
  | nil => rfl
  | cons b bfs ih => rw [List.map_cons, joinEval, ih]

theorem joinEval_ne_err (rs : List (Res Bloom)) (e : Error) : joinEval rs ≠ .err e := by
  induction rs with
  | nil => simp [joinEval]
  | cons x rs ih =>
    cases x with
    | err e => simp [joinEval]
    | panic => simp [joinEval]
    | ok bf =>
      rw [joinEval]
      cases hj : joinEval rs with
      | err e' => rw [hj] at ih; intro hc; cases hc; exact ih rfl
      | panic => simp
      | ok bfs' => simp

theorem startWorkers_replicate (bf : Bloom) : ∀ (bs : List (List Path)) (m : ℕ), bs.length ≤ m →
    startWorkers bs (List.replicate m bf) = .ok (bs.map fun b => Worker.running bf [] b)
  | [], _, _ => rfl
  | b :: bs, 0, h => by simp at h
  | b :: bs, m + 1, h => by
    have hl : (List.replicate (m + 1) bf).getLast? = some bf := by
      rw [List.getLast?_replicate]; simp
    rw [startWorkers, hl]
    simp only [List.dropLast_replicate, Nat.add_sub_cancel]
    rw [startWorkers_replicate bf bs m (by simpa using h)]
    rfl

theorem copies_eq (bf : Bloom) (n : ℕ) : copies bf n = List.replicate (n - 1 + 1) bf := by
  unfold copies
  rw [List.replicate_succ']

/-- Every worker starts from a copy of the filter. -/
theorem startWorkers_copies (bf : Bloom) (bs : List (List Path)) :
    startWorkers bs (copies bf bs.length) = .ok (bs.map fun b => Worker.running bf [] b) := by
  rw [copies_eq]
  exact startWorkers_replicate bf bs _ (by omega)

/-- The outcome of `parallel_insert`, whatever the schedule. -/
def insertFiles (env : Env) (bf : Bloom) (w : World) (files : List Path) (jobs : ℕ) : Res Bloom :=
  if files.isEmpty then .ok bf
  else do
    let bs ← batches files (optimalJobs w jobs)
    let bfs ← joinEval (bs.map (processFiles env w bf))
    reduce env bfs

theorem parallelInsert_some {env : Env} {w : World} {sched : Schedule} {bf : Bloom}
    {files : List Path} {jobs : ℕ} {r : Res Bloom}
    (h : parallelInsert env w sched bf files jobs = some r) :
    r = insertFiles env bf w files jobs := by
  unfold parallelInsert at h
  unfold insertFiles
  split at h
  · rename_i he; rw [if_pos he]; cases h; rfl
  · rename_i he
    rw [if_neg he]
    cases hb : batches files (optimalJobs w jobs) with
    | err e => rw [hb] at h; cases h; rfl
    | panic => rw [hb] at h; cases h; rfl
    | ok bs =>
      rw [hb] at h
      simp only [startWorkers_copies] at h
      cases hj : joinWorkers (runWorkers env w sched (bs.map fun b => Worker.running bf [] b)) with
      | none => rw [hj] at h; cases h
      | some x =>
        rw [hj] at h
        have hx := joinWorkers_some (env := env) (w := w) hj
        rw [eval_runWorkers, List.map_map] at hx
        have he : (Worker.eval env w ∘ fun b => Worker.running bf [] b) = processFiles env w bf := by
          funext b; rfl
        rw [he] at hx
        rw [Res.bind_ok, ← hx]
        cases x <;> (cases h; rfl)

theorem parallelInsert_fair (env : Env) (w : World) (bf : Bloom) (files : List Path) (jobs : ℕ) :
    ∃ N, ∀ sched : Schedule, (∀ i < files.length, N ≤ sched.count i) →
      parallelInsert env w sched bf files jobs = some (insertFiles env bf w files jobs) := by
  obtain ⟨bs, hb⟩ := batches_ok files (optimalJobs_pos w jobs)
  obtain ⟨_, hfl, hne, hcnt⟩ := batches_spec hb
  have hlen : bs.length ≤ files.length := by
    rw [← hfl, List.length_flatten]
    clear hb hfl hcnt
    induction bs with
    | nil => simp
    | cons b bs ih =>
      have h1 := List.length_pos_iff.2 (hne b (by simp))
      have h2 := ih (fun x hx => hne x (by simp [hx]))
      simp only [List.map_cons, List.sum_cons, List.length_cons]
      omega
  refine ⟨((bs.map fun b => Worker.running bf [] b).map (Worker.work w)).sum, fun sched hs => ?_⟩
  suffices ∃ r, parallelInsert env w sched bf files jobs = some r by
    obtain ⟨r, hr⟩ := this
    rw [hr, parallelInsert_some hr]
  unfold parallelInsert
  split
  · exact ⟨_, rfl⟩
  · rw [hb]
    simp only [startWorkers_copies]
    have : ∀ t ∈ runWorkers env w sched (bs.map fun b => Worker.running bf [] b), t.work w = 0 := by
      intro t ht
      obtain ⟨i, hi, rfl⟩ := List.mem_iff_getElem.1 ht
      have hi' : i < (bs.map fun b => Worker.running bf [] b).length := by
        rw [runWorkers_length] at hi; exact hi
      have hg := runWorkers_get env w sched (bs.map fun b => Worker.running bf [] b) i
      rw [List.getElem?_eq_getElem hi, List.getElem?_eq_getElem hi', Option.map_some,
        Option.some.injEq] at hg
      rw [hg]
      apply Worker.work_iterate
      refine le_trans ?_ (hs i (by rw [List.length_map] at hi'; omega))
      exact List.single_le_sum (fun _ _ => Nat.zero_le _) _
        (List.mem_map_of_mem (List.getElem_mem hi'))
    obtain ⟨r, hr⟩ := joinWorkers_done this
    rw [hr]
    cases r <;> exact ⟨_, rfl⟩

end Cli
end Poppy
