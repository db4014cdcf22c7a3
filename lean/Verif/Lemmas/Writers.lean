import Verif.Model.Writers
import Mathlib.Tactic.Ring

/-!
# Writers that take their data in pieces: lemmas
-/

namespace Poppy.Pieces

/-- How many of `n` bytes the sink takes. -/
def room (s : Sink) (n : Nat) : Nat :=
  match s.budget with
  | none => n
  | some k => min n k

theorem writeAll_room (s : Sink) (bs : List U8) : s.writeAll bs =
    (⟨s.out ++ bs.take (room s bs.length), s.budget.map (· - room s bs.length)⟩,
      if room s bs.length = bs.length then .ok () else .err (.ioError .other)) := by
  obtain ⟨out, budget⟩ := s
  unfold Sink.writeAll room
  cases budget with
  | none => simp
  | some k =>
    dsimp only
    by_cases h : bs.length ≤ k
    · have e : min bs.length k = bs.length := min_eq_left h
      rw [if_pos h]
      simp [e]
    · have e : min bs.length k = k := min_eq_right (by omega)
      have e2 : k ≠ bs.length := by omega
      rw [if_neg h]
      simp [e, e2]

theorem Slow.take_spec {n : Nat} (hn : 0 < n) {bs : List U8} (hb : bs ≠ []) (s : Slow) :
    match s.take n bs with
    | .taken m s' => 0 < m ∧ m ≤ room s.sink bs.length ∧ m ≤ bs.length ∧ s'.events = s.events ∧
        s'.sink = ⟨s.sink.out ++ bs.take m, s.sink.budget.map (· - m)⟩
    | .interrupted _ => False
    | .error k s' => k = .other ∧ room s.sink bs.length = 0 ∧ s' = s := by
  have hl := List.length_pos_iff.2 hb
  obtain ⟨⟨out, budget⟩, es⟩ := s
  unfold Slow.take room
  cases budget with
  | none =>
    refine ⟨by omega, by simp only; omega, by omega, rfl, ?_⟩
    simp [← List.take_eq_take_min]
  | some k =>
    cases k with
    | zero => exact ⟨rfl, by simp, rfl⟩
    | succ k =>
      refine ⟨by omega, by simp only; omega, by omega, rfl, ?_⟩
      simp

theorem Slow.writeLoop_spec (fuel : Nat) : ∀ (bs : List U8) (s : Slow), s.fuel bs ≤ fuel →
    (s.writeLoop fuel bs).1.sink = (s.sink.writeAll bs).1 ∧
      (s.writeLoop fuel bs).2.1 = bs.drop (room s.sink bs.length) ∧
      (s.writeLoop fuel bs).2.2 = (s.sink.writeAll bs).2 := by
  induction fuel with
  | zero =>
    intro bs s h
    have : bs = [] := List.length_eq_zero_iff.1 (by unfold Slow.fuel at h; omega)
    subst this
    rw [writeAll_room]
    obtain ⟨⟨out, budget⟩, es⟩ := s
    cases budget <;> simp [Slow.writeLoop, room]
  | succ fuel ih =>
    intro bs s h
    cases hb : bs with
    | nil =>
      rw [writeAll_room]
      obtain ⟨⟨out, budget⟩, es⟩ := s
      cases budget <;> simp [Slow.writeLoop, room]
    | cons c t =>
      rw [← hb]
      have hne : bs ≠ [] := by rw [hb]; simp
      have hstep : s.writeLoop (fuel + 1) bs = match s.write bs with
          | .error k s => (s, bs, .err (.ioError k))
          | .interrupted s => writeLoop fuel bs s
          | .taken 0 s => (s, bs, .err (.ioError .other))
          | .taken n s => writeLoop fuel (bs.drop n) s := by
        rw [hb]; rfl
      rw [hstep]
      have hw : ∀ (n : Nat) (s' : Slow), 0 < n → s'.sink = s.sink → s'.fuel bs ≤ fuel + 1 →
          let x : Slow × List U8 × Res Unit := (match s'.take n bs with
            | .error k s => (s, bs, .err (.ioError k))
            | .interrupted s => writeLoop fuel bs s
            | .taken 0 s => (s, bs, .err (.ioError .other))
            | .taken n s => writeLoop fuel (bs.drop n) s)
          x.1.sink = (s.sink.writeAll bs).1 ∧ x.2.1 = bs.drop (room s.sink bs.length) ∧
            x.2.2 = (s.sink.writeAll bs).2 := by
        intro n s' hn hs hf
        have ht := Slow.take_spec hn hne s'
        revert ht
        cases s'.take n bs with
        | interrupted s2 => exact False.elim
        | error k s2 =>
          rintro ⟨rfl, h1, rfl⟩
          dsimp only
          rw [hs] at h1
          rw [writeAll_room, h1, hs]
          have hl := List.length_pos_iff.2 hne
          refine ⟨?_, by simp, by rw [if_neg (by omega)]⟩
          obtain ⟨⟨out, budget⟩, es⟩ := s
          cases budget <;> simp
        | taken m s2 =>
          rintro ⟨h1, h2, h3, h4, h5⟩
          obtain ⟨m, rfl⟩ : ∃ m', m = m' + 1 := ⟨m - 1, by omega⟩
          dsimp only
          have hfu : s2.fuel (bs.drop (m + 1)) ≤ fuel := by
            unfold Slow.fuel at *
            rw [h4, List.length_drop]
            omega
          obtain ⟨i1, i2, i3⟩ := ih (bs.drop (m + 1)) s2 hfu
          rw [hs] at h2 h5
          have hroom : room s2.sink (bs.drop (m + 1)).length = room s.sink bs.length - (m + 1) := by
            rw [h5, List.length_drop]
            revert h2
            unfold room
            cases s.sink.budget with
            | none => intro _; rfl
            | some k => dsimp only [Option.map]; omega
          have hrl : room s.sink bs.length ≤ bs.length := by
            unfold room
            cases s.sink.budget with
            | none => exact le_refl _
            | some k => exact min_le_left _ _
          show (writeLoop fuel (bs.drop (m + 1)) s2).1.sink = _ ∧ (writeLoop fuel (bs.drop (m + 1)) s2).2.1 = _ ∧
            (writeLoop fuel (bs.drop (m + 1)) s2).2.2 = _
          rw [i1, i2, i3, writeAll_room, writeAll_room, hroom, h5]
          refine ⟨?_, ?_, ?_⟩
          · simp only [Sink.mk.injEq]
            constructor
            · rw [List.append_assoc]
              congr 1
              rw [← List.take_add]
              congr 1
              omega
            · cases s.sink.budget with
              | none => rfl
              | some k => simp only [Option.map, Option.some.injEq]; omega
          · rw [List.drop_drop]
            congr 1
            omega
          · simp only [List.length_drop]
            by_cases he : room s.sink bs.length = bs.length
            · rw [if_pos (by omega), if_pos he]
            · rw [if_neg (by omega), if_neg he]
      unfold Slow.write
      cases he : s.events with
      | nil =>
        dsimp only
        exact hw bs.length s (List.length_pos_iff.2 hne) rfl h
      | cons e es =>
        have hf : bs.length + es.length ≤ fuel := by
          unfold Slow.fuel at h
          rw [he, List.length_cons] at h
          omega
        cases e with
        | interrupt =>
          dsimp only
          exact ih bs { s with events := es } hf
        | atMost m =>
          dsimp only
          exact hw (m + 1) { s with events := es } (by omega) rfl (by unfold Slow.fuel; simp only; omega)

/-- The same `BufWriter` around the sink. -/
def SlowBuf.view (w : SlowBuf) : BufWriter := ⟨w.buf, w.sink.sink⟩

theorem SlowBuf.flushBuf_view (w : SlowBuf) : (w.flushBuf.1.view, w.flushBuf.2) = w.view.flushBuf := by
  obtain ⟨h1, h2, h3⟩ := Slow.writeLoop_spec _ w.buf w.sink (le_refl _)
  unfold SlowBuf.flushBuf BufWriter.flushBuf SlowBuf.view
  dsimp only
  generalize w.sink.writeLoop (w.sink.fuel w.buf) w.buf = x at *
  obtain ⟨s, rest, r⟩ := x
  simp only at h1 h2 h3 ⊢
  rw [writeAll_room] at h1 h3 ⊢
  rw [h1, h2, h3]
  have hrl : room w.sink.sink w.buf.length ≤ w.buf.length := by
    unfold room
    cases w.sink.sink.budget with
    | none => exact le_refl _
    | some k => exact min_le_left _ _
  by_cases h : room w.sink.sink w.buf.length = w.buf.length
  · rw [if_pos h]
    simp [h]
  · rw [if_neg h]
    simp [hrl]

theorem SlowBuf.writeAll_view (w : SlowBuf) (bs : List U8) :
    ((w.writeAll bs).1.view, (w.writeAll bs).2) = w.view.writeAll bs := by
  have hfl := SlowBuf.flushBuf_view w
  unfold SlowBuf.writeAll BufWriter.writeAll
  have hbuf : w.view.buf = w.buf := rfl
  rw [hbuf]
  by_cases h1 : bs.length < bufCap - w.buf.length
  · rw [if_pos h1, if_pos h1]
    rfl
  · rw [if_neg h1, if_neg h1]
    have key : ∀ w' : SlowBuf, ((if bufCap ≤ bs.length then
          (⟨w'.buf, (w'.sink.writeLoop (w'.sink.fuel bs) bs).1⟩,
            (w'.sink.writeLoop (w'.sink.fuel bs) bs).2.2)
        else ((⟨w'.buf ++ bs, w'.sink⟩ : SlowBuf), Res.ok ())).1.view,
        (if bufCap ≤ bs.length then
          (⟨w'.buf, (w'.sink.writeLoop (w'.sink.fuel bs) bs).1⟩,
            (w'.sink.writeLoop (w'.sink.fuel bs) bs).2.2)
        else ((⟨w'.buf ++ bs, w'.sink⟩ : SlowBuf), Res.ok ())).2) =
        (if bufCap ≤ bs.length then
          (⟨w'.view.buf, (w'.view.sink.writeAll bs).1⟩, (w'.view.sink.writeAll bs).2)
        else ((⟨w'.view.buf ++ bs, w'.view.sink⟩ : BufWriter), Res.ok ())) := by
      intro w'
      obtain ⟨g1, _, g3⟩ := Slow.writeLoop_spec _ bs w'.sink (le_refl _)
      split
      · show ((⟨w'.buf, (w'.sink.writeLoop (w'.sink.fuel bs) bs).1.sink⟩ : BufWriter),
          (w'.sink.writeLoop (w'.sink.fuel bs) bs).2.2) = _
        rw [g1, g3]
        rfl
      · rfl
    by_cases h2 : bufCap - w.buf.length < bs.length
    · rw [if_pos h2, if_pos h2, ← hfl]
      generalize w.flushBuf = x
      obtain ⟨w', r⟩ := x
      cases r with
      | ok u => exact key w'
      | err e => rfl
      | panic => rfl
    · rw [if_neg h2, if_neg h2]
      exact key w

theorem SlowBuf.writeChunks_view (cs : List (List U8)) : ∀ w : SlowBuf,
    ((w.writeChunks cs).1.view, (w.writeChunks cs).2) = w.view.writeChunks cs := by
  induction cs with
  | nil => intro w; rfl
  | cons c cs ih =>
    intro w
    unfold SlowBuf.writeChunks BufWriter.writeChunks
    rw [← SlowBuf.writeAll_view]
    generalize w.writeAll c = x
    obtain ⟨w', r⟩ := x
    cases r with
    | ok u => exact ih w'
    | err e => rfl
    | panic => rfl

theorem writeAllChunks_view (cs : List (List U8)) (s : Slow) :
    ((writeAllChunks cs s).1.sink, (writeAllChunks cs s).2) =
      (match (BufWriter.new s.sink).writeChunks cs with | (w, r) => (w.drop, r)) := by
  have h := SlowBuf.writeChunks_view cs (SlowBuf.new s)
  have e : (SlowBuf.new s).view = BufWriter.new s.sink := rfl
  rw [e] at h
  unfold writeAllChunks
  rw [← h]
  generalize (SlowBuf.new s).writeChunks cs = x
  obtain ⟨w, r⟩ := x
  dsimp only
  have := SlowBuf.flushBuf_view w
  unfold SlowBuf.drop BufWriter.drop
  rw [← this]
  rfl

theorem write_view (f : Bloom) (s : Slow) :
    ((write f s).1.sink, (write f s).2) = f.write s.sink := by
  cases f with
  | v1 b => exact writeAllChunks_view b.chunks s
  | v2 b => exact writeAllChunks_view b.chunks s

end Poppy.Pieces
