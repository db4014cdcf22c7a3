import Verif.Lemmas.OnFile

/-! Merging, intersecting and clearing in terms of the bits of files. -/

namespace Abs

open Poppy (U8)
open Spec

variable {Key : Type} {c : Cfg Key}

/-- The effect of changing bits of a v2 filter on its file. -/
theorem file2_map {a a' : F2} (h1 : a'.flags = a.flags) (h2 : a'.cap = a.cap)
    (h3 : a'.fpp = a.fpp) (h4 : a'.hashes = a.hashes) (h5 : a'.buckets = a.buckets)
    (h6 : a'.cacheBytes = a.cacheBytes) (h7 : a'.data = a.data) {g : ℕ → Bool → Bool}
    (hg : ∀ o x, ¬ (384 ≤ o ∧ o < 384 + 8 * a.cacheBytes ∨
      8 * (56 + a.cacheBytes) ≤ o ∧ o < 8 * (56 + a.cacheBytes) + 32768 * a.buckets) → g o x = x)
    (hc : ∀ i < 8 * a.cacheBytes, a'.cache i = g (384 + i) (a.cache i))
    (hb : ∀ j i, j < a.buckets → i < 32768 →
      a'.bits j i = g (8 * (56 + a.cacheBytes) + 32768 * j + i) (a.bits j i))
    {o : ℕ} (ho : o < 256 ∨ 320 ≤ o) : bitAt a'.file o = g o (bitAt a.file o) := by
  have eh : head2 a' = head2 a := by unfold head2; rw [h1, h2, h3, h4]
  rw [file2_bit, file2_bit, eh, h5, h6, h7]
  by_cases c1 : o < 256
  · rw [if_pos c1, if_pos c1, hg _ _ (by omega)]
  have c1' : ¬ o < 320 := by omega
  rw [if_neg c1, if_neg c1, if_neg c1', if_neg c1']
  by_cases c2 : o < 384
  · rw [if_pos c2, if_pos c2, hg _ _ (by omega)]
  rw [if_neg c2, if_neg c2]
  by_cases c3 : o < 384 + 8 * a.cacheBytes
  · rw [if_pos c3, if_pos c3, hc _ (by omega), show 384 + (o - 384) = o by omega]
  rw [if_neg c3, if_neg c3]
  by_cases c4 : o < 8 * (56 + a.cacheBytes)
  · rw [if_pos c4, if_pos c4, hg _ _ (by omega)]
  rw [if_neg c4, if_neg c4]
  by_cases c5 : o < 8 * (56 + a.cacheBytes) + 32768 * a.buckets
  · rw [if_pos c5, if_pos c5, hb _ _ (by omega) (by omega), show 8 * (56 + a.cacheBytes) +
      32768 * ((o - 8 * (56 + a.cacheBytes)) / 32768) + (o - 8 * (56 + a.cacheBytes)) % 32768 = o by
        omega]
  rw [if_neg c5, if_neg c5, hg _ _ (by omega)]

/-- The effect of changing bits of a v1 filter on its file. -/
theorem file1_map {a a' : F1} (h2 : a'.cap = a.cap) (h3 : a'.fpp = a.fpp)
    (h4 : a'.hashes = a.hashes) (h5 : a'.size = a.size) (h6 : a'.words = a.words)
    (h7 : a'.data = a.data) {g : ℕ → Bool → Bool}
    (hg : ∀ o x, ¬ (384 ≤ o ∧ o < 384 + 64 * a.words) → g o x = x)
    (hb : ∀ i < 64 * a.words, a'.bits i = g (384 + i) (a.bits i))
    {o : ℕ} (ho : o < 320 ∨ 384 ≤ o) : bitAt a'.file o = g o (bitAt a.file o) := by
  have eh : head1 a' = head1 a := by unfold head1; rw [h2, h3, h4, h5]
  rw [file1_bit, file1_bit, eh, h6, h7]
  by_cases c1 : o < 320
  · rw [if_pos c1, if_pos c1, hg _ _ (by omega)]
  have c1' : ¬ o < 384 := by omega
  rw [if_neg c1, if_neg c1, if_neg c1', if_neg c1']
  by_cases c3 : o < 384 + 64 * a.words
  · rw [if_pos c3, if_pos c3, hb _ (by omega), show 384 + (o - 384) = o by omega]
  rw [if_neg c3, if_neg c3, hg _ _ (by omega)]

theorem cache_in_file (a : F2) {i : ℕ} (h : i < 8 * a.cacheBytes) :
    bitAt a.file (384 + i) = a.cache i := by
  rw [file2_bit, if_neg (by omega), if_neg (by omega), if_neg (by omega), if_pos (by omega)]
  exact congrArg _ (by omega)

theorem bits_in_file (a : F2) {j i : ℕ} (hj : j < a.buckets) (h : i < 32768) :
    bitAt a.file (8 * (56 + a.cacheBytes) + 32768 * j + i) = a.bits j i := by
  rw [file2_bit, if_neg (by omega), if_neg (by omega), if_neg (by omega), if_neg (by omega),
    if_neg (by omega), if_pos (by omega)]
  rw [show (8 * (56 + a.cacheBytes) + 32768 * j + i - 8 * (56 + a.cacheBytes)) / 32768 = j by omega,
    show (8 * (56 + a.cacheBytes) + 32768 * j + i - 8 * (56 + a.cacheBytes)) % 32768 = i by omega]

theorem words_in_file (a : F1) {i : ℕ} (h : i < 64 * a.words) :
    bitAt a.file (384 + i) = a.bits i := by
  rw [file1_bit, if_neg (by omega), if_neg (by omega), if_pos (by omega)]
  exact congrArg _ (by omega)

theorem stored2_iff {a : F2} (w : In2 a.file a) (o : ℕ) : CachePart a.file o ∨ BitPart a.file o ↔
    (384 ≤ o ∧ o < 384 + 8 * a.cacheBytes ∨
      8 * (56 + a.cacheBytes) ≤ o ∧ o < 8 * (56 + a.cacheBytes) + 32768 * a.buckets) := by
  have n1 : ¬ a.file.getD 0 0 = 1#8 := by rw [w.version]; decide
  unfold CachePart BitPart
  rw [if_neg n1, ← w.cacheBytes, ← w.buckets]
  constructor
  · rintro (h | h)
    · exact .inl (by omega)
    · exact .inr h
  · rintro (h | h)
    · exact .inl ⟨n1, by omega⟩
    · exact .inr h

theorem bitPart2_iff {a : F2} (w : In2 a.file a) (o : ℕ) : BitPart a.file o ↔
    8 * (56 + a.cacheBytes) ≤ o ∧ o < 8 * (56 + a.cacheBytes) + 32768 * a.buckets := by
  have n1 : ¬ a.file.getD 0 0 = 1#8 := by rw [w.version]; decide
  unfold BitPart
  rw [if_neg n1, ← w.cacheBytes, ← w.buckets]

theorem stored1_iff {a : F1} (w : In1 a.file a) (hw : a.words = (a.size + 63) / 64) (o : ℕ) :
    CachePart a.file o ∨ BitPart a.file o ↔ 384 ≤ o ∧ o < 384 + 64 * a.words := by
  unfold CachePart BitPart
  rw [if_pos w.version, ← w.size, hw]
  exact ⟨fun h => h.elim (fun h => absurd w.version h.1) id, .inr⟩

theorem bitPart1_iff {a : F1} (w : In1 a.file a) (hw : a.words = (a.size + 63) / 64) (o : ℕ) :
    BitPart a.file o ↔ 384 ≤ o ∧ o < 384 + 64 * a.words := by
  unfold BitPart
  rw [if_pos w.version, ← w.size, hw]

/-- The bits of `b` join those of `a`, on files. -/
theorem or2_file {a a' b : F2} (w : In2 a.file a) (h1 : a'.flags = a.flags) (h2 : a'.cap = a.cap)
    (h3 : a'.fpp = a.fpp) (h4 : a'.hashes = a.hashes) (h5 : a'.buckets = a.buckets)
    (h6 : a'.cacheBytes = a.cacheBytes) (h7 : a'.data = a.data) (e1 : b.buckets = a.buckets)
    (e2 : b.cacheBytes = a.cacheBytes) (hc : ∀ i, a'.cache i = (a.cache i || b.cache i))
    (hb : ∀ j i, a'.bits j i = (a.bits j i || b.bits j i)) :
    a'.file.length = a.file.length ∧ ∀ o, (o < 256 ∨ 320 ≤ o) →
      (bitAt a'.file o = true ↔ bitAt a.file o = true ∨
        (CachePart a.file o ∨ BitPart a.file o) ∧ bitAt b.file o = true) := by
  classical
  refine ⟨by rw [length_file2, length_file2, h5, h6, h7], fun o ho => ?_⟩
  rw [stored2_iff w]
  have := file2_map (a := a) (a' := a') (g := fun o x => x || (decide (384 ≤ o ∧
      o < 384 + 8 * a.cacheBytes ∨ 8 * (56 + a.cacheBytes) ≤ o ∧
      o < 8 * (56 + a.cacheBytes) + 32768 * a.buckets) && bitAt b.file o)) h1 h2 h3 h4 h5 h6 h7
    (fun o x hn => by simp only [decide_eq_false hn, Bool.false_and, Bool.or_false])
    (fun i hi => by
      rw [decide_eq_true (.inl ⟨by omega, by omega⟩), Bool.true_and,
        cache_in_file b (by rw [e2]; exact hi), hc])
    (fun j i hj hi => by
      rw [decide_eq_true (.inr ⟨by omega, by omega⟩), Bool.true_and, ← e2,
        bits_in_file b (by rw [e1]; exact hj) hi, hb]) ho
  rw [this]
  simp only [Bool.or_eq_true, Bool.and_eq_true, decide_eq_true_eq]

/-- Only common bits stay, on files. -/
theorem and2_file {a a' b : F2} (w : In2 a.file a) (h1 : a'.flags = a.flags) (h2 : a'.cap = a.cap)
    (h3 : a'.fpp = a.fpp) (h4 : a'.hashes = a.hashes) (h5 : a'.buckets = a.buckets)
    (h6 : a'.cacheBytes = a.cacheBytes) (h7 : a'.data = a.data) (e1 : b.buckets = a.buckets)
    (e2 : b.cacheBytes = a.cacheBytes) (hc : ∀ i, a'.cache i = (a.cache i && b.cache i))
    (hb : ∀ j i, a'.bits j i = (a.bits j i && b.bits j i)) :
    a'.file.length = a.file.length ∧ ∀ o, (o < 256 ∨ 320 ≤ o) →
      (bitAt a'.file o = true ↔ bitAt a.file o = true ∧
        (CachePart a.file o ∨ BitPart a.file o → bitAt b.file o = true)) := by
  classical
  refine ⟨by rw [length_file2, length_file2, h5, h6, h7], fun o ho => ?_⟩
  rw [stored2_iff w]
  have := file2_map (a := a) (a' := a') (g := fun o x => x && (!decide (384 ≤ o ∧
      o < 384 + 8 * a.cacheBytes ∨ 8 * (56 + a.cacheBytes) ≤ o ∧
      o < 8 * (56 + a.cacheBytes) + 32768 * a.buckets) || bitAt b.file o)) h1 h2 h3 h4 h5 h6 h7
    (fun o x hn => by simp only [decide_eq_false hn, Bool.not_false, Bool.true_or, Bool.and_true])
    (fun i hi => by
      rw [decide_eq_true (.inl ⟨by omega, by omega⟩), Bool.not_true, Bool.false_or,
        cache_in_file b (by rw [e2]; exact hi), hc])
    (fun j i hj hi => by
      rw [decide_eq_true (.inr ⟨by omega, by omega⟩), Bool.not_true, Bool.false_or, ← e2,
        bits_in_file b (by rw [e1]; exact hj) hi, hb]) ho
  rw [this]
  simp only [Bool.or_eq_true, Bool.and_eq_true, Bool.not_eq_true', decide_eq_false_iff_not]
  exact and_congr_right fun _ => imp_iff_not_or.symm

/-- The bits of `b` join those of `a`, on v1 files. -/
theorem or1_file {a a' b : F1} (w : In1 a.file a) (hw : a.words = (a.size + 63) / 64)
    (h2 : a'.cap = a.cap) (h3 : a'.fpp = a.fpp) (h4 : a'.hashes = a.hashes) (h5 : a'.size = a.size)
    (h6 : a'.words = a.words) (h7 : a'.data = a.data) (e1 : b.words = a.words)
    (hb : ∀ i, a'.bits i = (a.bits i || b.bits i)) :
    a'.file.length = a.file.length ∧ ∀ o, (o < 320 ∨ 384 ≤ o) →
      (bitAt a'.file o = true ↔ bitAt a.file o = true ∨
        (CachePart a.file o ∨ BitPart a.file o) ∧ bitAt b.file o = true) := by
  classical
  refine ⟨by rw [length_file1, length_file1, h6, h7], fun o ho => ?_⟩
  rw [stored1_iff w hw]
  have := file1_map (a := a) (a' := a') (g := fun o x => x || (decide (384 ≤ o ∧
      o < 384 + 64 * a.words) && bitAt b.file o)) h2 h3 h4 h5 h6 h7
    (fun o x hn => by simp only [decide_eq_false hn, Bool.false_and, Bool.or_false])
    (fun i hi => by
      rw [decide_eq_true ⟨by omega, by omega⟩, Bool.true_and,
        words_in_file b (by rw [e1]; exact hi), hb]) ho
  rw [this]
  simp only [Bool.or_eq_true, Bool.and_eq_true, decide_eq_true_eq]

/-- Clearing, on v2 files. -/
theorem clear2_file {a : F2} (w : In2 a.file a) :
    a.clear.file.length = a.file.length ∧ num a.clear.file 32 = 0 ∧
    ∀ o, (o < 256 ∨ 320 ≤ o) → (bitAt a.clear.file o = true ↔
      bitAt a.file o = true ∧ ¬ BitPart a.file o) := by
  classical
  refine ⟨by rw [length_file2, length_file2]; rfl, by rw [num_count2]; rfl, fun o ho => ?_⟩
  rw [bitPart2_iff w]
  have := file2_map (a := a) (a' := a.clear) (g := fun o x => x && !decide (
      8 * (56 + a.cacheBytes) ≤ o ∧
      o < 8 * (56 + a.cacheBytes) + 32768 * a.buckets)) rfl rfl rfl rfl rfl rfl rfl
    (fun o x hn => by
      rw [decide_eq_false (fun h => hn (.inr h)), Bool.not_false, Bool.and_true])
    (fun i hi => by
      rw [decide_eq_false (by omega), Bool.not_false, Bool.and_true]
      rfl)
    (fun j i hj hi => by
      rw [decide_eq_true ⟨by omega, by omega⟩, Bool.not_true, Bool.and_false]
      rfl) ho
  rw [this]
  simp only [Bool.and_eq_true, Bool.not_eq_true', decide_eq_false_iff_not]

/-- Clearing, on v1 files. -/
theorem clear1_file {a : F1} (w : In1 a.file a) (hw : a.words = (a.size + 63) / 64) :
    a.clear.file.length = a.file.length ∧ num a.clear.file 40 = 0 ∧
    ∀ o, (o < 320 ∨ 384 ≤ o) → (bitAt a.clear.file o = true ↔
      bitAt a.file o = true ∧ ¬ BitPart a.file o) := by
  classical
  refine ⟨by rw [length_file1, length_file1]; rfl, by rw [num_count1]; rfl, fun o ho => ?_⟩
  rw [bitPart1_iff w hw]
  have := file1_map (a := a) (a' := a.clear) (g := fun o x => x && !decide (384 ≤ o ∧
      o < 384 + 64 * a.words)) rfl rfl rfl rfl rfl rfl
    (fun o x hn => by
      rw [decide_eq_false hn, Bool.not_false, Bool.and_true])
    (fun i hi => by
      rw [decide_eq_true ⟨by omega, by omega⟩, Bool.not_true, Bool.and_false]
      rfl) ho
  rw [this]
  simp only [Bool.and_eq_true, Bool.not_eq_true', decide_eq_false_iff_not]

theorem recount_cases {c : Cfg Key} {a a' : F2} (h : a.recount c = (a', .done)) :
    a' = { a with count := a'.count } := by
  unfold F2.recount at h
  split at h
  · exact absurd (congrArg Prod.snd h) (by simp)
  · have := (congrArg Prod.fst h).symm
    simp only at this
    rw [this]

theorem same2 {a b : F2} (h : a.same b = true) :
    b.buckets = a.buckets ∧ b.cacheBytes = a.cacheBytes := by
  have := of_decide_eq_true h
  exact ⟨this.2.2.2.2.2.symm, this.2.2.1.symm⟩

theorem same1 {a b : F1} (h : a.same b = true) : b.words = a.words :=
  (of_decide_eq_true h).2.2.2.2.2.symm

end Abs

namespace Abs

open Poppy (U8)
open Spec

variable {Key : Type} {c : Cfg Key}

theorem union2_file {a a' b : F2} (w : In2 a.file a) (h : a.union c b = (a', .done)) :
    a'.file.length = a.file.length ∧ ∀ o, (o < 256 ∨ 320 ≤ o) →
      (bitAt a'.file o = true ↔ bitAt a.file o = true ∨
        (CachePart a.file o ∨ BitPart a.file o) ∧ bitAt b.file o = true) := by
  unfold F2.union at h
  split at h
  · rename_i hs
    have e := recount_cases h
    exact or2_file (a' := a') w (by rw [e]) (by rw [e]) (by rw [e]) (by rw [e]) (by rw [e]) (by rw [e])
      (by rw [e]) (same2 hs).1 (same2 hs).2 (fun i => by rw [e]) (fun j i => by rw [e])
  · exact absurd (congrArg Prod.snd h) (by simp)

theorem union1_file {c : Cfg (List U8)} {a a' b : F1} (w : In1 a.file a)
    (hw : a.words = (a.size + 63) / 64) (hs : a.same b = true) (h : (a.union c b).1 = a') :
    a'.file.length = a.file.length ∧ ∀ o, (o < 320 ∨ 384 ≤ o) →
      (bitAt a'.file o = true ↔ bitAt a.file o = true ∨
        (CachePart a.file o ∨ BitPart a.file o) ∧ bitAt b.file o = true) := by
  unfold F1.union at h
  rw [if_pos hs] at h
  have e : a' = { a with bits := fun i => a.bits i || b.bits i, count := a'.count } := by rw [← h]
  exact or1_file (a' := a') w hw (by rw [e]) (by rw [e]) (by rw [e]) (by rw [e]) (by rw [e])
    (by rw [e]) (same1 hs) (fun i => by rw [e])

theorem inter2_file {a a' b : F2} (w : In2 a.file a) (h : a.inter c b = (a', .done)) :
    a'.file.length = a.file.length ∧ ∀ o, (o < 256 ∨ 320 ≤ o) →
      (bitAt a'.file o = true ↔ bitAt a.file o = true ∧
        (CachePart a.file o ∨ BitPart a.file o → bitAt b.file o = true)) := by
  unfold F2.inter at h
  split at h
  · rename_i hs
    have e := recount_cases h
    exact and2_file (a' := a') w (by rw [e]) (by rw [e]) (by rw [e]) (by rw [e]) (by rw [e]) (by rw [e])
      (by rw [e]) (same2 hs).1 (same2 hs).2 (fun i => by rw [e]) (fun j i => by rw [e])
  · exact absurd (congrArg Prod.snd h) (by simp)

end Abs

namespace Poppy

open Spec Abs

theorem Bloom.file_in {env : Env} (hs : env.Small) {f : Bloom} (hf : f.Reach env) :
    In f.file f.view := by
  obtain ⟨X, A, h1, h2, h3⟩ := Bloom.load_file hs hf
  have hi := in_of_load h1 h2
  cases f with
  | v1 f =>
    cases A with
    | v1 A => exact In1.of_rel h3 hi
    | v2 A => exact absurd h3 id
  | v2 f =>
    cases A with
    | v1 A => exact absurd h3 id
    | v2 A => exact In2.of_rel h3 hi

end Poppy
