import Verif.Model.Basic

/-!
# Model of the readers and writers used by the code

`io::BufReader` over `R: Read + Seek` is transparent: its observable behaviour is that of the
byte string below.  `io::BufWriter` is modelled with its buffer, because the code never calls
`flush` and the flush made by `Drop` ignores errors.
-/

namespace Poppy

/-- A `Read + Seek` source: its content, the current position, and an optional position from
which the underlying source reports an I/O error instead of data. -/
structure Reader where
  data : List U8
  pos : Nat
  failAt : Option Nat

/-- A source holding `data`, at position 0, that never fails. -/
def Reader.ofBytes (data : List U8) : Reader := ⟨data, 0, none⟩

/-- A reading action: on error the reader is dropped. -/
abbrev ReadM (α : Type) := Reader → Res (α × Reader)

/-- Does reading up to position `upTo` touch the failing position? -/
def Reader.failsBefore (r : Reader) (upTo : Nat) : Bool :=
  match r.failAt with
  | none => false
  | some k => decide (k < upTo) && decide (k ≤ r.data.length)

/-- `Read::read_exact` on a buffer of `n` bytes. -/
def readExact (n : Nat) : ReadM (List U8) := fun r =>
  if n = 0 then .ok ([], r)
  else if r.failsBefore (r.pos + n) then .err (.ioError .other)
  else if r.pos + n ≤ r.data.length then
    .ok ((r.data.drop r.pos).take n, { r with pos := r.pos + n })
  else .err (.ioError .unexpectedEof)

/-- `Read::read_to_end`. -/
def readToEnd : ReadM (List U8) := fun r =>
  if r.failsBefore (max r.pos r.data.length + 1) then .err (.ioError .other)
  else .ok (r.data.drop r.pos, { r with pos := max r.pos r.data.length })

/-- `BufReader::seek_relative(off as i64)`: `off` is reinterpreted as a signed offset.
Seeking past the end is allowed, seeking before the start is an error. -/
def seekRelative (off : U64) : ReadM Unit := fun r =>
  let p : Int := (r.pos : Int) + off.toInt
  if p < 0 then .err (.ioError .invalidInput) else .ok ((), { r with pos := p.toNat })

/-- `utils.rs:9-13` `read_le_u64`, `utils.rs:15-19` `read_le_f64` (on raw bits)
(`poppy/src/utils.rs`). -/
def readLeU64 : ReadM U64 := fun r =>
  match readExact 8 r with
  | .ok (bs, r) => .ok (u64OfLe bs, r)
  | .err e => .err e
  | .panic => .panic

/-- A `Write` sink: what it received so far and how many more bytes it accepts before every
further write fails (`none`: never fails). -/
structure Sink where
  out : List U8
  budget : Option Nat

/-- `Write::write_all` on the sink: bytes are accepted until the budget is exhausted. -/
def Sink.writeAll (s : Sink) (bs : List U8) : Sink × Res Unit :=
  match s.budget with
  | none => ({ s with out := s.out ++ bs }, .ok ())
  | some k =>
    if bs.length ≤ k then (⟨s.out ++ bs, some (k - bs.length)⟩, .ok ())
    else (⟨s.out ++ bs.take k, some 0⟩, .err (.ioError .other))

/-- `std::io::BufWriter` with the default capacity of 8 KiB. -/
structure BufWriter where
  buf : List U8
  sink : Sink

/-- Default `BufWriter` capacity. -/
def bufCap : Nat := 8192

/-- `BufWriter::new` -/
def BufWriter.new (s : Sink) : BufWriter := ⟨[], s⟩

/-- `BufWriter::flush_buf`: write the buffer out; on error only the accepted part is removed
from the buffer. -/
def BufWriter.flushBuf (w : BufWriter) : BufWriter × Res Unit :=
  match w.sink.writeAll w.buf with
  | (s, .ok ()) => (⟨[], s⟩, .ok ())
  | (s, r) => (⟨w.buf.drop (s.out.length - w.sink.out.length), s⟩, r)

/-- `BufWriter::write_all`: append to the buffer if it fits (strictly), otherwise flush first
if it does not fit, and bypass the buffer for data of at least the buffer's capacity. -/
def BufWriter.writeAll (w : BufWriter) (bs : List U8) : BufWriter × Res Unit :=
  if bs.length < bufCap - w.buf.length then (⟨w.buf ++ bs, w.sink⟩, .ok ())
  else
    match (if bufCap - w.buf.length < bs.length then w.flushBuf else (w, .ok ())) with
    | (w, .ok ()) =>
      if bufCap ≤ bs.length then
        match w.sink.writeAll bs with
        | (s, r) => (⟨w.buf, s⟩, r)
      else (⟨w.buf ++ bs, w.sink⟩, .ok ())
    | (w, r) => (w, r)

/-- Successive `w.write_all(chunk)?` calls. -/
def BufWriter.writeChunks (w : BufWriter) : List (List U8) → BufWriter × Res Unit
  | [] => (w, .ok ())
  | c :: cs =>
    match w.writeAll c with
    | (w, .ok ()) => w.writeChunks cs
    | (w, r) => (w, r)

/-- Dropping a `BufWriter`: flush, ignoring the result. -/
def BufWriter.drop (w : BufWriter) : Sink := w.flushBuf.1.sink

end Poppy
