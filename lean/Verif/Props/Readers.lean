import Verif.Lemmas.Readers
import Verif.Lemmas.Writers
import Verif.Props.Serial

/-!
# C105, C106, C107: data that comes and goes in pieces

`Read::read` may give fewer bytes than asked for and may be interrupted, `Write::write` may take fewer
bytes than given and may be interrupted.  None of this can be observed.
-/

namespace Poppy

open Pieces

/-! ## C105: loading -/

/-- Loading from a reader that follows any script, with any buffer sizes in `read_to_end`, gives what
loading from the bytes at once gives: the same filter, the same error, or a panic in both cases. -/
theorem C105_load (sizes : ℕ → ℕ) (env : Env) (s : Script) :
    (fromReaderAux (scripted sizes) env false s).map Prod.fst = Bloom.fromReader env s.reader ∧
    (fromReaderAux (scripted sizes) env true s).map Prod.fst = Bloom.partialFromReader env s.reader :=
  ⟨fromReaderAux_eq (lawful_scripted sizes) env false s trivial,
    fromReaderAux_eq (lawful_scripted sizes) env true s trivial⟩

/-- The readers of the two versions. -/
theorem C105_versions (sizes : ℕ → ℕ) (env : Env) (partialRead : Bool) (s : Script) :
    (v1FromReader' (scripted sizes) env partialRead s).map Prod.fst = V1.fromReader' env partialRead s.reader ∧
    (v2FromReader' (scripted sizes) env partialRead s).map Prod.fst = V2.fromReader' env partialRead s.reader :=
  ⟨v1FromReader'_eq (lawful_scripted sizes) env partialRead s trivial,
    v2FromReader'_eq (lawful_scripted sizes) env partialRead s trivial⟩

/-- So only the data matters. -/
theorem C105_same (sizes sizes' : ℕ → ℕ) (env : Env) (partialRead : Bool) {s s' : Script}
    (h : s.reader = s'.reader) :
    (fromReaderAux (scripted sizes) env partialRead s).map Prod.fst =
      (fromReaderAux (scripted sizes') env partialRead s').map Prod.fst := by
  rw [fromReaderAux_eq (lawful_scripted sizes) env partialRead s trivial,
    fromReaderAux_eq (lawful_scripted sizes') env partialRead s' trivial]
  exact congrArg _ h

/-- The same for any number of `BufReader`s around the reader (`BloomFilter::from_reader` is often given
a `BufReader`, and wraps it into two more). -/
theorem C105_buffered (sizes : ℕ → ℕ) (env : Env) (partialRead : Bool) (s : Script) :
    (fromReaderAux (buffered (scripted sizes)) env partialRead (Buf.new s)).map Prod.fst =
      (fromReaderAux (scripted sizes) env partialRead s).map Prod.fst ∧
    (fromReaderAux (buffered (buffered (scripted sizes))) env partialRead
        (Buf.new (Buf.new s))).map Prod.fst =
      (fromReaderAux (scripted sizes) env partialRead s).map Prod.fst := by
  have h1 := lawful_buffered (lawful_scripted sizes)
  have h2 := lawful_buffered h1
  have i1 : Buf.Inv Script.view (fun _ => True) (Buf.new s) := Buf.inv_empty trivial
  have i2 : Buf.Inv (Buf.view Script.view) (Buf.Inv Script.view fun _ => True) (Buf.new (Buf.new s)) :=
    Buf.inv_empty i1
  have e1 : Buf.view Script.view (Buf.new s) = s.reader := Buf.view_empty s
  have e2 : Buf.view (Buf.view Script.view) (Buf.new (Buf.new s)) = s.reader :=
    (Buf.view_empty _).trans e1
  rw [fromReaderAux_eq h1 env partialRead _ i1, fromReaderAux_eq h2 env partialRead _ i2,
    fromReaderAux_eq (lawful_scripted sizes) env partialRead s trivial, e1, e2]
  exact ⟨rfl, rfl⟩

/-! ## C107: saving -/

/-- Saving to a writer that follows any script writes the same bytes and reports the same result as
saving to one that takes everything at once. -/
theorem C107_save (f : Bloom) (s : Slow) :
    (Pieces.write f s).1.sink = (f.write s.sink).1 ∧ (Pieces.write f s).2 = (f.write s.sink).2 :=
  ⟨congrArg Prod.fst (write_view f s), congrArg Prod.snd (write_view f s)⟩

/-- A writer without limit gets the whole file, whatever the pieces. -/
theorem C107_file (f : Bloom) (out : List U8) (es : List Event) :
    (Pieces.write f ⟨⟨out, none⟩, es⟩).1.sink.out = out ++ f.file ∧
      (Pieces.write f ⟨⟨out, none⟩, es⟩).2 = .ok () := by
  obtain ⟨h1, h2⟩ := C107_save f ⟨⟨out, none⟩, es⟩
  have := C29_write_ok f out
  rw [h1, h2, this]
  exact ⟨rfl, rfl⟩

/-- Saved in any pieces and loaded in any pieces, a filter answers as before. -/
theorem C107_round_trip (sizes : ℕ → ℕ) (env : Env) (hs : env.Small) (f : Bloom) (hf : f.Reach env)
    (es es' : List Event) :
    ∃ g b, fromReaderAux (scripted sizes) env false
        { reader := Reader.ofBytes (Pieces.write f ⟨⟨[], none⟩, es⟩).1.sink.out, events := es' } =
          .ok (g, b) ∧
      (∀ k, g.containsBytes env k = f.containsBytes env k) ∧
      (∀ k, (g.insertBytes env k).2 = (f.insertBytes env k).2) ∧ g.data = f.data := by
  obtain ⟨g, h1, _, h2, h3, _, _, _, h4, _⟩ := C22_bloom_round_trip env hs f hf
  have hl := (C105_load sizes env
    { reader := Reader.ofBytes (Pieces.write f ⟨⟨[], none⟩, es⟩).1.sink.out, events := es' }).1
  rw [(C107_file f [] es).1] at hl ⊢
  rw [show Bloom.fromReader env (Reader.ofBytes ([] ++ f.file)) = .ok g from h1] at hl
  revert hl
  cases fromReaderAux (scripted sizes) env false { reader := Reader.ofBytes ([] ++ f.file), events := es' } with
  | ok x =>
    intro hl
    obtain ⟨g', b⟩ := x
    have : g' = g := by injection hl
    subst this
    exact ⟨g', b, rfl, h2, h3, h4⟩
  | err e => intro hl; cases hl
  | panic => intro hl; cases hl

/-! ## C106: lines -/

/-- The lines of a file (`BufReader::new(file).lines()`), whatever the pieces; `perLine` and `fuel` only
have to be large enough. -/
theorem C106_files (sizes : ℕ → ℕ) (w : Cli.World) (p : Cli.Path) {r : Reader} (h : w.open p = .ok r)
    (es : List Event) {perLine fuel : ℕ} (hp : r.data.length + es.length < perLine)
    (hf : r.data.length < fuel) :
    linesLoop (scripted sizes) perLine fuel (Buf.new { reader := r, events := es }) = Cli.fileLines r := by
  have hr : r.pos = 0 ∧ ∀ k, r.failAt = some k → k ≤ r.data.length := by
    unfold Cli.World.open at h
    split at h
    · simp at h
    · split at h
      · simp at h
      · split at h
        · rename_i hk
          cases h
          exact ⟨rfl, fun k he => by cases he; exact hk⟩
        · cases h; exact ⟨rfl, fun k he => by cases he⟩
      · cases h; exact ⟨rfl, fun k he => by cases he⟩
  obtain ⟨data, pos, failAt⟩ := r
  obtain ⟨rfl, hk⟩ := hr
  exact lines_of_lawful (lawful_scripted sizes) (s := { reader := ⟨data, 0, failAt⟩, events := es }) trivial rfl hk hp hf

/-- The lines of the standard input, read through the buffer of `io::stdin()`, and through one more
(`BufReader::new(io::stdin())`). -/
theorem C106_stdin (sizes : ℕ → ℕ) (i : Cli.Stdin) (es : List Event) {perLine fuel : ℕ}
    (hp : i.bytes.length + es.length < perLine) (hf : i.bytes.length < fuel) :
    let s : Script :=
      { reader := ⟨i.bytes, 0, if i.fails then some i.bytes.length else none⟩, events := es }
    linesLoop (scripted sizes) perLine fuel (Buf.new s) = i.lines ∧
    linesLoop (buffered (scripted sizes)) perLine fuel (Buf.new (Buf.new s)) = i.lines := by
  intro s
  have hk : ∀ k, (if i.fails then some i.bytes.length else none) = some k → k ≤ i.bytes.length := by
    intro k
    split
    · intro h; cases h; exact le_refl _
    · intro h; cases h
  have hl : i.lines = Cli.fileLines s.reader := by
    unfold Cli.Stdin.lines Cli.fileLines
    cases hfa : i.fails <;> simp [s, hfa]
  rw [hl]
  have h1 := lines_of_lawful (lawful_scripted sizes) (s := s) trivial rfl hk hp hf
  refine ⟨h1, ?_⟩
  exact lines_of_lawful (lawful_buffered (lawful_scripted sizes)) (s := Buf.new s)
    (Buf.inv_empty trivial) (Buf.view_empty s) hk hp hf

/-! ## Concrete cases -/

-- a script matters for single reads: one byte, an interruption, then everything
example : Script.read 3 ⟨Reader.ofBytes [1, 2, 3], [.atMost 0, .interrupt], 0⟩ =
    .data [1] ⟨⟨[1, 2, 3], 1, none⟩, [.interrupt], 1⟩ := rfl
example : Script.read 3 ⟨⟨[1, 2, 3], 1, none⟩, [.interrupt], 1⟩ =
    .interrupted ⟨⟨[1, 2, 3], 1, none⟩, [], 1⟩ := rfl
example : Script.read 3 ⟨⟨[1, 2, 3], 1, none⟩, [], 1⟩ =
    .data [2, 3] ⟨⟨[1, 2, 3], 3, none⟩, [], 3⟩ := rfl

-- a filter loaded in small pieces, with interruptions
example : (fromReaderAux (scripted fun i => i) Sample.env false
    { reader := Reader.ofBytes (Bloom.v1 Sample.f1).file
      events := [.atMost 0, .interrupt, .interrupt, .atMost 2, .atMost 50, .interrupt, .atMost 7] }).map
        Prod.fst = .ok (.v1 Sample.f1) := by decide +kernel

-- saved in pieces
example : (Pieces.write (.v1 Sample.f1) ⟨⟨[], none⟩, [.interrupt, .atMost 10, .interrupt, .atMost 0]⟩).1.sink.out =
    (Bloom.v1 Sample.f1).file := by decide +kernel
example : (Pieces.write (.v1 Sample.f1) ⟨⟨[], some 20⟩, [.interrupt, .atMost 10, .interrupt, .atMost 0]⟩).1.sink.out =
    (Bloom.v1 Sample.f1).file.take 20 := by decide +kernel

-- lines that come in pieces, and from a reader that fails: "a\nb\r\nc"
example : linesLoop (scripted fun _ => 0) 20 20 (Buf.new
    { reader := ⟨[97, 10, 98, 13, 10, 99], 0, none⟩
      events := [.atMost 1, .interrupt, .atMost 1, .atMost 0] }) =
      [.ok [97], .ok [98], .ok [99]] := by decide
example : linesLoop (scripted fun _ => 0) 20 20 (Buf.new
    { reader := ⟨[97, 10, 98, 13, 10, 99], 0, some 6⟩
      events := [.atMost 1, .interrupt, .atMost 1, .atMost 0] }) =
      [.ok [97], .ok [98], .err (.ioError .other)] := by decide

end Poppy
