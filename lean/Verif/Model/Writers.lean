import Verif.Model.Readers

/-!
# Writers that take their data in pieces

The counterpart of `Verif/Model/Readers.lean`: one call of `Write::write` may take fewer bytes than it is
given, or be interrupted.  `write_all`, `std::io::BufWriter` and the saving functions of the code are
modelled on top of that.
-/

namespace Poppy.Pieces

/-- A writer: what it received and accepts, and what happens at the next calls of `write`.  When the
script has ended, it takes as many bytes as possible. -/
structure Slow where
  sink : Sink
  events : List Event

/-- What one call of `Write::write` gives: the number of bytes taken, an error of kind `Interrupted`, or
another error. -/
inductive WriteOut where
  | taken (n : Nat) (s : Slow)
  | interrupted (s : Slow)
  | error (k : IoKind) (s : Slow)

/-- Takes at most `n` bytes, within the budget; fails when the budget is exhausted. -/
def Slow.take (n : Nat) (bs : List U8) (s : Slow) : WriteOut :=
  match s.sink.budget with
  | none => .taken (min n bs.length) { s with sink := { s.sink with out := s.sink.out ++ bs.take n } }
  | some 0 => .error .other s
  | some k =>
    let m := min (min n k) bs.length
    .taken m { s with sink := ⟨s.sink.out ++ bs.take m, some (k - m)⟩ }

/-- `Write::write` -/
def Slow.write (bs : List U8) (s : Slow) : WriteOut :=
  match s.events with
  | [] => s.take bs.length bs
  | .interrupt :: es => .interrupted { s with events := es }
  | .atMost m :: es => Slow.take (m + 1) bs { s with events := es }

/-- The loop of `Write::write_all` and of `BufWriter::flush_buf`: calls `write` until everything is
written, ignoring interruptions; taking nothing is an error.  Gives what was not written as well.  `fuel`
bounds the number of calls. -/
def Slow.writeLoop : Nat → List U8 → Slow → Slow × List U8 × Res Unit
  | _, [], s => (s, [], .ok ())
  | 0, bs, s => (s, bs, .panic)
  | fuel + 1, bs, s =>
    match s.write bs with
    | .error k s => (s, bs, .err (.ioError k))
    | .interrupted s => writeLoop fuel bs s
    | .taken 0 s => (s, bs, .err (.ioError .other))
    | .taken n s => writeLoop fuel (bs.drop n) s

/-- Enough calls for the given bytes. -/
def Slow.fuel (bs : List U8) (s : Slow) : Nat := bs.length + s.events.length

/-- `io::BufWriter` around such a writer. -/
structure SlowBuf where
  buf : List U8
  sink : Slow

/-- `BufWriter::new` -/
def SlowBuf.new (s : Slow) : SlowBuf := ⟨[], s⟩

/-- `BufWriter::flush_buf`: what was written is removed from the buffer. -/
def SlowBuf.flushBuf (w : SlowBuf) : SlowBuf × Res Unit :=
  match w.sink.writeLoop (w.sink.fuel w.buf) w.buf with
  | (s, rest, r) => (⟨rest, s⟩, r)

/-- `BufWriter::write_all`, see `BufWriter.writeAll` in `Verif/Model/Io.lean`. -/
def SlowBuf.writeAll (w : SlowBuf) (bs : List U8) : SlowBuf × Res Unit :=
  if bs.length < bufCap - w.buf.length then (⟨w.buf ++ bs, w.sink⟩, .ok ())
  else
    match (if bufCap - w.buf.length < bs.length then w.flushBuf else (w, .ok ())) with
    | (w, .ok ()) =>
      if bufCap ≤ bs.length then
        match w.sink.writeLoop (w.sink.fuel bs) bs with
        | (s, _, r) => (⟨w.buf, s⟩, r)
      else (⟨w.buf ++ bs, w.sink⟩, .ok ())
    | (w, r) => (w, r)

/-- Successive `w.write_all(chunk)?` calls. -/
def SlowBuf.writeChunks (w : SlowBuf) : List (List U8) → SlowBuf × Res Unit
  | [] => (w, .ok ())
  | c :: cs =>
    match w.writeAll c with
    | (w, .ok ()) => w.writeChunks cs
    | (w, r) => (w, r)

/-- Dropping a `BufWriter`: flush, ignoring the result. -/
def SlowBuf.drop (w : SlowBuf) : Slow := w.flushBuf.1.sink

/-- `v1.rs:215-233`, `v2.rs:253-279`: `write_all` calls on a `BufWriter` that is dropped at the end. -/
def writeAllChunks (cs : List (List U8)) (s : Slow) : Slow × Res Unit :=
  match (SlowBuf.new s).writeChunks cs with
  | (w, r) => (w.drop, r)

/-- `bloom.rs:295-300` `write` -/
def write (f : Bloom) (s : Slow) : Slow × Res Unit :=
  match f with
  | .v1 b => writeAllChunks b.chunks s
  | .v2 b => writeAllChunks b.chunks s

end Poppy.Pieces
