import Verif.Lemmas.Bytes
import Verif.Lemmas.Sizing
import Verif.Model.V2

/-! Readers over byte strings and the buffered writer. -/

namespace Poppy

/-! ### Readers -/

/-- A never failing reader that consumed `pre` and has `rest` left. -/
def rd (pre rest : List U8) : Reader := ⟨pre ++ rest, pre.length, none⟩

theorem ofBytes_eq (bs : List U8) : Reader.ofBytes bs = rd [] bs := rfl

theorem readExact_rd (n : ℕ) (pre rest : List U8) :
    readExact n (rd pre rest) =
      if n ≤ rest.length then .ok (rest.take n, rd (pre ++ rest.take n) (rest.drop n))
      else .err (.ioError .unexpectedEof) := by
  unfold readExact rd Reader.failsBefore
  rcases Nat.eq_zero_or_pos n with h0 | hpos
  · subst h0; simp
  · rw [if_neg (by omega)]
    simp only [Bool.false_eq_true, if_false, List.length_append, Nat.add_le_add_iff_left]
    by_cases h : n ≤ rest.length
    · rw [if_pos h, if_pos h]
      simp [h]
    · rw [if_neg h, if_neg h]

theorem readExact_append {n : ℕ} {bs : List U8} (h : bs.length = n) (pre rest : List U8) :
    readExact n (rd pre (bs ++ rest)) = .ok (bs, rd (pre ++ bs) rest) := by
  rw [readExact_rd, if_pos (by simp; omega), List.take_left' h, List.drop_left' h]

theorem readExact_inv {n : ℕ} {pre rest bs : List U8} {r : Reader}
    (h : readExact n (rd pre rest) = .ok (bs, r)) :
    bs.length = n ∧ ∃ rest', rest = bs ++ rest' ∧ r = rd (pre ++ bs) rest' := by
  rw [readExact_rd] at h
  split at h
  · rename_i hle
    simp only [Res.ok.injEq, Prod.mk.injEq] at h
    obtain ⟨rfl, rfl⟩ := h
    exact ⟨by simp; omega, rest.drop n, by simp, rfl⟩
  · simp at h

theorem readToEnd_rd (pre rest : List U8) :
    readToEnd (rd pre rest) = .ok (rest, rd (pre ++ rest) []) := by
  unfold readToEnd rd Reader.failsBefore
  simp

theorem readLeU64_append (x : U64) (pre rest : List U8) :
    readLeU64 (rd pre (u64ToLe x ++ rest)) = .ok (x, rd (pre ++ u64ToLe x) rest) := by
  unfold readLeU64
  rw [readExact_append (length_u64ToLe x)]
  simp only [u64OfLe_u64ToLe]

theorem readLeU64_inv {pre rest : List U8} {x : U64} {r : Reader}
    (h : readLeU64 (rd pre rest) = .ok (x, r)) :
    ∃ rest', rest = u64ToLe x ++ rest' ∧ r = rd (pre ++ u64ToLe x) rest' := by
  unfold readLeU64 at h
  cases hr : readExact 8 (rd pre rest) with
  | ok v =>
    obtain ⟨bs, r'⟩ := v
    rw [hr] at h
    simp only [Res.ok.injEq, Prod.mk.injEq] at h
    obtain ⟨rfl, rfl⟩ := h
    obtain ⟨hl, rest', hrest, hr'⟩ := readExact_inv hr
    rw [u64ToLe_u64OfLe hl]
    exact ⟨rest', hrest, hr'⟩
  | err e => rw [hr] at h; simp at h
  | panic => rw [hr] at h; simp at h

theorem readLeU64_short {pre rest : List U8} (h : rest.length < 8) :
    readLeU64 (rd pre rest) = .err (.ioError .unexpectedEof) := by
  unfold readLeU64
  rw [readExact_rd, if_neg (by omega)]

/-- Reading either fails for lack of data, or succeeds. -/
theorem readLeU64_cases (pre rest : List U8) :
    readLeU64 (rd pre rest) = .err (.ioError .unexpectedEof) ∧ rest.length < 8 ∨
    ∃ x rest', rest = u64ToLe x ++ rest' ∧
      readLeU64 (rd pre rest) = .ok (x, rd (pre ++ u64ToLe x) rest') := by
  by_cases h : rest.length < 8
  · exact Or.inl ⟨readLeU64_short h, h⟩
  · right
    have hl : (rest.take 8).length = 8 := by simp; omega
    refine ⟨u64OfLe (rest.take 8), rest.drop 8, ?_, ?_⟩
    · rw [u64ToLe_u64OfLe hl]; simp
    · rw [u64ToLe_u64OfLe hl]
      unfold readLeU64
      rw [readExact_rd, if_pos (by omega)]

/-! ### Behaviour on longer input -/

/-- Reading from a longer input gives the same result, unless the shorter one was an error. -/
def PrefixMono {α : Type} (m : ReadM α) : Prop :=
  ∀ pre rest extra, (∃ e, m (rd pre rest) = .err e) ∨
    (∃ a pre' rest', m (rd pre rest) = .ok (a, rd pre' rest') ∧
      m (rd pre (rest ++ extra)) = .ok (a, rd pre' (rest' ++ extra))) ∨
    (m (rd pre rest) = .panic ∧ m (rd pre (rest ++ extra)) = .panic)

theorem readExact_mono (n : ℕ) : PrefixMono (readExact n) := by
  intro pre rest extra
  by_cases h : n ≤ rest.length
  · right; left
    refine ⟨rest.take n, pre ++ rest.take n, rest.drop n, ?_, ?_⟩
    · rw [readExact_rd, if_pos h]
    · rw [readExact_rd, if_pos (by simp; omega), List.take_append_of_le_length h,
        List.drop_append_of_le_length h]
  · left
    exact ⟨_, by rw [readExact_rd, if_neg h]⟩

theorem PrefixMono.map {α β : Type} {m : ReadM α} (h : PrefixMono m) (g : α → Res β)
    {m' : ReadM β}
    (hm : ∀ r, m' r = match m r with
      | .ok (a, r) => (match g a with | .ok b => .ok (b, r) | .err e => .err e | .panic => .panic)
      | .err e => .err e
      | .panic => .panic) : PrefixMono m' := by
  intro pre rest extra
  rw [hm, hm]
  rcases h pre rest extra with ⟨e, h1⟩ | ⟨a, pre', rest', h1, h2⟩ | ⟨h1, h2⟩
  · left; exact ⟨e, by rw [h1]⟩
  · rw [h1, h2]
    simp only
    cases hg : g a with
    | ok b => right; left; exact ⟨b, pre', rest', rfl, rfl⟩
    | err e => left; exact ⟨e, rfl⟩
    | panic => right; right; exact ⟨rfl, rfl⟩
  · right; right; rw [h1, h2]; exact ⟨rfl, rfl⟩

theorem readLeU64_mono : PrefixMono readLeU64 :=
  (readExact_mono 8).map (fun bs => .ok (u64OfLe bs)) (fun r => by
    unfold readLeU64; cases readExact 8 r <;> rfl)

theorem readFlags_mono : PrefixMono readFlags :=
  (readExact_mono 8).map Flags.fromBytes (fun r => by
    unfold readFlags
    cases readExact 8 r with
    | ok v => obtain ⟨a, r⟩ := v; simp only; cases Flags.fromBytes a <;> rfl
    | err e => rfl
    | panic => rfl)

theorem PrefixMono.pure {α : Type} (a : α) : PrefixMono (fun r => .ok (a, r)) := by
  intro pre rest extra
  right; left; exact ⟨a, pre, rest, rfl, rfl⟩

theorem PrefixMono.bind {α β : Type} {m : ReadM α} (h : PrefixMono m) {g : α → ReadM β}
    (hg : ∀ a, PrefixMono (g a)) {m' : ReadM β}
    (hm : ∀ r, m' r = match m r with
      | .ok (a, r) => g a r
      | .err e => .err e
      | .panic => .panic) : PrefixMono m' := by
  intro pre rest extra
  rw [hm, hm]
  rcases h pre rest extra with ⟨e, h1⟩ | ⟨a, pre', rest', h1, h2⟩ | ⟨h1, h2⟩
  · left; exact ⟨e, by rw [h1]⟩
  · rw [h1, h2]; exact hg a pre' rest' extra
  · right; right; rw [h1, h2]; exact ⟨rfl, rfl⟩

theorem PrefixMono.guard {α : Type} {m : ReadM α} (h : PrefixMono m) (c : Res Unit)
    {m' : ReadM α}
    (hm : ∀ r, m' r = match c with
      | .ok () => m r
      | .err e => .err e
      | .panic => .panic) : PrefixMono m' := by
  intro pre rest extra
  rw [hm, hm]
  cases c with
  | ok _ => exact h pre rest extra
  | err e => left; exact ⟨e, rfl⟩
  | panic => right; right; exact ⟨rfl, rfl⟩

/-! ### Buffered writer -/

/-- What a sink with budget `k` holds after receiving `t`. -/
def accept (k : Option ℕ) (t : List U8) : List U8 :=
  match k with
  | none => t
  | some k => t.take k

/-- Budget left after receiving `t`. -/
def leftover (k : Option ℕ) (t : List U8) : Option ℕ := k.map (· - t.length)

/-- Does all of `t` fit? -/
def fits (k : Option ℕ) (t : List U8) : Prop :=
  match k with
  | none => True
  | some k => t.length ≤ k

instance (k : Option ℕ) (t : List U8) : Decidable (fits k t) := by
  unfold fits; split <;> infer_instance

theorem Sink.writeAll_eq (s : Sink) (bs : List U8) :
    s.writeAll bs = (⟨s.out ++ accept s.budget bs, leftover s.budget bs⟩,
      if fits s.budget bs then .ok () else .err (.ioError .other)) := by
  obtain ⟨out, budget⟩ := s
  unfold Sink.writeAll
  cases budget with
  | none => simp [accept, leftover, fits]
  | some k =>
    simp only [accept, leftover, fits]
    by_cases h : bs.length ≤ k
    · simp [h]
    · simp only [h, if_false]
      simp
      omega

theorem BufWriter.flushBuf_eq (w : BufWriter) :
    w.flushBuf = (⟨if fits w.sink.budget w.buf then [] else
        w.buf.drop (accept w.sink.budget w.buf).length,
        ⟨w.sink.out ++ accept w.sink.budget w.buf, leftover w.sink.budget w.buf⟩⟩,
      if fits w.sink.budget w.buf then .ok () else .err (.ioError .other)) := by
  unfold BufWriter.flushBuf
  rw [Sink.writeAll_eq]
  by_cases h : fits w.sink.budget w.buf
  · simp [h]
  · simp [h]

theorem accept_append (k : Option ℕ) (a b : List U8) :
    accept k (a ++ b) = accept k a ++ accept (leftover k a) b := by
  cases k with
  | none => rfl
  | some k => simp [accept, leftover, List.take_append]

theorem leftover_append (k : Option ℕ) (a b : List U8) :
    leftover k (a ++ b) = leftover (leftover k a) b := by
  cases k with
  | none => rfl
  | some k => simp [leftover]; omega

theorem fits_append (k : Option ℕ) (a b : List U8) :
    fits k (a ++ b) ↔ fits k a ∧ fits (leftover k a) b := by
  cases k with
  | none => simp [fits, leftover]
  | some k => simp [leftover, fits]; omega

theorem accept_of_fits {k : Option ℕ} {a : List U8} (h : fits k a) : accept k a = a := by
  cases k with
  | none => rfl
  | some k => exact List.take_of_length_le h

theorem accept_not_fits {k : Option ℕ} {a : List U8} (h : ¬ fits k a) (b : List U8) :
    accept k (a ++ b) = accept k a ∧ ¬ fits k (a ++ b) := by
  refine ⟨?_, fun hf => h ((fits_append k a b).1 hf).1⟩
  cases k with
  | none => exact absurd trivial h
  | some k =>
    simp only [fits, not_le] at h
    exact List.take_append_of_le_length (by omega)

/-- State of a buffered writer on a sink of budget `k` that received `t` so far, all accepted:
`n` bytes went to the sink, at most `bufCap` are still in the buffer. -/
structure BufWriter.Good (out0 : List U8) (k : Option ℕ) (t : List U8) (w : BufWriter) : Prop where
  out : ∃ a, t = a ++ w.buf ∧ fits k a ∧ w.sink = ⟨out0 ++ a, leftover k a⟩
  buf : w.buf.length ≤ bufCap

/-- State after an error while `t` was to be written. -/
structure BufWriter.Bad (out0 : List U8) (k : Option ℕ) (t : List U8) (w : BufWriter) : Prop where
  nfits : ¬ fits k t
  out : w.sink = ⟨out0 ++ accept k t, some 0⟩

theorem leftover_not_fits {k : Option ℕ} {a : List U8} (h : ¬ fits k a) : leftover k a = some 0 := by
  cases k with
  | none => exact absurd trivial h
  | some k => simp only [fits, not_le] at h; simp [leftover]; omega

theorem BufWriter.writeAll_good {out0 : List U8} {k : Option ℕ} {t : List U8} {w : BufWriter}
    (g : Good out0 k t w) (c : List U8) :
    ((w.writeAll c).2 = .ok () ∧ Good out0 k (t ++ c) (w.writeAll c).1) ∨
    ((w.writeAll c).2 = .err (.ioError .other) ∧ Bad out0 k (t ++ c) (w.writeAll c).1) := by
  obtain ⟨⟨a, hta, hfa, hs⟩, hb⟩ := g
  obtain ⟨buf, sink⟩ := w
  simp only at hta hs hb
  subst hs hta
  unfold BufWriter.writeAll
  simp only
  by_cases h1 : c.length < bufCap - buf.length
  · rw [if_pos h1]
    left
    refine ⟨rfl, ⟨a, by simp, hfa, rfl⟩, ?_⟩
    simp; omega
  · rw [if_neg h1]
    by_cases h2 : bufCap - buf.length < c.length
    · rw [if_pos h2, BufWriter.flushBuf_eq]
      simp only
      by_cases hf : fits (leftover k a) buf
      · simp only [if_pos hf, accept_of_fits hf]
        by_cases h3 : bufCap ≤ c.length
        · rw [if_pos h3, Sink.writeAll_eq]
          simp only
          have hfab : fits k (a ++ buf) := (fits_append k a buf).2 ⟨hfa, hf⟩
          by_cases hfc : fits (leftover (leftover k a) buf) c
          · left
            rw [if_pos hfc]
            refine ⟨rfl, ⟨a ++ buf ++ c, by simp, ?_, ?_⟩, by simp⟩
            · rw [fits_append, fits_append, leftover_append]; exact ⟨⟨hfa, hf⟩, hfc⟩
            · rw [accept_of_fits hfc, leftover_append, leftover_append]; simp
          · right
            rw [if_neg hfc]
            refine ⟨rfl, ?_, ?_⟩
            · rw [fits_append, leftover_append]; exact fun h => hfc h.2
            · simp only
              rw [leftover_not_fits hfc, accept_append, leftover_append, accept_of_fits hfab]
              simp
        · rw [if_neg h3]
          left
          refine ⟨rfl, ⟨a ++ buf, by simp, (fits_append k a buf).2 ⟨hfa, hf⟩, ?_⟩, ?_⟩
          · simp [leftover_append]
          · simp; omega
      · simp only [if_neg hf]
        right
        have hn : ¬ fits k (a ++ buf) := fun h => hf ((fits_append k a buf).1 h).2
        have := accept_not_fits hn c
        refine ⟨trivial, this.2, ?_⟩
        simp only
        rw [this.1, accept_append, accept_of_fits hfa, leftover_not_fits hf]
        simp
    · rw [if_neg h2]
      simp only
      by_cases h3 : bufCap ≤ c.length
      · have hb0 : buf = [] := by
          rw [← List.length_eq_zero_iff]; omega
        subst hb0
        rw [if_pos h3, Sink.writeAll_eq]
        simp only
        by_cases hfc : fits (leftover k a) c
        · left
          rw [if_pos hfc]
          refine ⟨rfl, ⟨a ++ c, by simp, (fits_append k a c).2 ⟨hfa, hfc⟩, ?_⟩, by simp⟩
          rw [accept_of_fits hfc, leftover_append]; simp
        · right
          rw [if_neg hfc]
          refine ⟨rfl, ?_, ?_⟩
          · simp only [List.append_nil]
            rw [fits_append]; exact fun h => hfc h.2
          · simp only [List.append_nil]
            rw [leftover_not_fits hfc, accept_append, accept_of_fits hfa]
            simp
      · rw [if_neg h3]
        left
        refine ⟨rfl, ⟨a, by simp, hfa, rfl⟩, ?_⟩
        simp; omega

theorem BufWriter.writeChunks_good {out0 : List U8} {k : Option ℕ} (cs : List (List U8)) :
    ∀ {t : List U8} {w : BufWriter}, Good out0 k t w →
    ((w.writeChunks cs).2 = .ok () ∧ Good out0 k (t ++ cs.flatten) (w.writeChunks cs).1) ∨
    ((w.writeChunks cs).2 = .err (.ioError .other) ∧
      Bad out0 k (t ++ cs.flatten) (w.writeChunks cs).1) := by
  induction cs with
  | nil => intro t w g; left; simpa [BufWriter.writeChunks] using g
  | cons c cs ih =>
    intro t w g
    simp only [BufWriter.writeChunks]
    rcases BufWriter.writeAll_good g c with ⟨h1, h2⟩ | ⟨h1, h2⟩
    · obtain ⟨⟨w', r⟩, hw⟩ : ∃ p, w.writeAll c = p := ⟨_, rfl⟩
      rw [hw] at h1 h2
      simp only at h1 h2
      subst h1
      rw [hw]
      simp only
      have := ih h2
      simpa [List.flatten_cons, List.append_assoc] using this
    · obtain ⟨⟨w', r⟩, hw⟩ : ∃ p, w.writeAll c = p := ⟨_, rfl⟩
      rw [hw] at h1 h2
      simp only at h1 h2
      subst h1
      rw [hw]
      right
      refine ⟨rfl, ?_⟩
      have := accept_not_fits h2.nfits cs.flatten
      refine ⟨?_, ?_⟩
      · rw [List.flatten_cons, ← List.append_assoc]; exact this.2
      · rw [List.flatten_cons, ← List.append_assoc, this.1]; exact h2.out

/-- Complete behaviour of a series of writes followed by dropping the buffered writer. -/
theorem BufWriter.run (s : Sink) (cs : List (List U8)) :
    ((BufWriter.new s).writeChunks cs).1.drop =
        ⟨s.out ++ accept s.budget cs.flatten, leftover s.budget cs.flatten⟩ ∧
    ((((BufWriter.new s).writeChunks cs).2 = .ok () ∧
        ∃ a b, cs.flatten = a ++ b ∧ fits s.budget a ∧ b.length ≤ bufCap) ∨
      (((BufWriter.new s).writeChunks cs).2 = .err (.ioError .other) ∧
        ¬ fits s.budget cs.flatten)) := by
  have g0 : Good s.out s.budget [] (BufWriter.new s) := by
    refine ⟨⟨[], rfl, ?_, ?_⟩, by simp [BufWriter.new]⟩
    · cases s.budget <;> simp [fits]
    · cases s with
      | mk o b => cases b <;> simp [BufWriter.new, leftover]
  rcases BufWriter.writeChunks_good cs g0 with ⟨h1, ⟨a, hta, hfa, hs⟩, hb⟩ | ⟨h1, hn, ho⟩
  · simp only [List.nil_append] at hta
    refine ⟨?_, Or.inl ⟨h1, a, _, hta, hfa, hb⟩⟩
    unfold BufWriter.drop
    rw [BufWriter.flushBuf_eq]
    simp only
    rw [hs]
    simp only
    rw [hta, accept_append, leftover_append, accept_of_fits hfa]
    simp
  · simp only [List.nil_append] at hn ho
    refine ⟨?_, Or.inr ⟨h1, hn⟩⟩
    unfold BufWriter.drop
    rw [BufWriter.flushBuf_eq]
    simp only
    rw [ho, leftover_not_fits hn]
    simp [accept, leftover]

theorem BufWriter.run_none (out : List U8) (cs : List (List U8)) :
    ((BufWriter.new ⟨out, none⟩).writeChunks cs).1.drop = ⟨out ++ cs.flatten, none⟩ ∧
    ((BufWriter.new ⟨out, none⟩).writeChunks cs).2 = .ok () := by
  have := BufWriter.run ⟨out, none⟩ cs
  simp only [accept, leftover, fits, not_true_eq_false, and_false, or_false] at this
  exact ⟨this.1, this.2.1⟩

end Poppy
