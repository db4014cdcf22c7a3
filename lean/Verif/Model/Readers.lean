import Verif.Model.Bloom
import Verif.Model.Cli

/-!
# Readers that deliver their data in pieces

`Verif/Model/Io.lean` treats a reader as a byte string with a position.  Here `Read` and `Seek` are
modelled call by call: one `read` may give fewer bytes than asked for, or fail with
`ErrorKind::Interrupted` and succeed when it is called again.  `std::io::BufReader` (with its buffer),
`read_exact`, `read_to_end`, `seek_relative` and `lines` are modelled as in the standard library on top
of that, and the loading functions of the code on top of these, with one `BufReader` around the other
where the code has it.  `Verif/Props/Readers.lean` proves that nothing of this can be observed.
-/

namespace Poppy.Pieces

/-- What one call of `Read::read` gives: some bytes (none at the end of the data), an error of kind
`Interrupted`, or another error. -/
inductive ReadOut (σ : Type) where
  | data (bs : List U8) (s : σ)
  | interrupted (s : σ)
  | error (k : IoKind)

/-- A value of a type `R: Read + Seek`: its state `σ` and its methods `read` (into a buffer of the given
length), `read_to_end` and `seek(SeekFrom::Current(_))`.  `interrupts` is not part of the program: it
bounds how often `read` can still be interrupted, so that the loops below end. -/
structure Source (σ : Type) where
  read : Nat → σ → ReadOut σ
  readToEnd : σ → Res (List U8 × σ)
  seek : Int → σ → Res σ
  interrupts : σ → Nat

/-! ## A reader that follows a script -/

/-- What happens at one call of `read`. -/
inductive Event where
  /-- it is interrupted -/
  | interrupt
  /-- it gives no more than `n + 1` bytes -/
  | atMost (n : Nat)

/-- A reader: its data, the position, the position from which it fails, and what happens at the next
calls of `read`.  When the script has ended, as many bytes as possible are given.  `given` counts the
bytes that calls of `read` have given so far. -/
structure Script where
  reader : Reader
  events : List Event
  given : Nat := 0

/-- The bytes that one call of `read` gives: at most `n`, and none from the failing position on. -/
def Script.deliver (n : Nat) (s : Script) : ReadOut Script :=
  let r := s.reader
  match r.failAt with
  | some k =>
    if k ≤ r.data.length then
      if k ≤ r.pos then .error .other
      else
        let bs := (r.data.drop r.pos).take (min n (k - r.pos))
        .data bs { s with reader := { r with pos := r.pos + bs.length }, given := s.given + bs.length }
    else
      let bs := (r.data.drop r.pos).take n
      .data bs { s with reader := { r with pos := r.pos + bs.length }, given := s.given + bs.length }
  | none =>
    let bs := (r.data.drop r.pos).take n
    .data bs { s with reader := { r with pos := r.pos + bs.length }, given := s.given + bs.length }

/-- `Read::read` with a buffer of `n` bytes. -/
def Script.read (n : Nat) (s : Script) : ReadOut Script :=
  match s.events with
  | [] => s.deliver n
  | .interrupt :: es => .interrupted { s with events := es }
  | .atMost m :: es => Script.deliver (min n (m + 1)) { s with events := es }

/-- `io::default_read_to_end`: calls `read` until it gives nothing, ignoring interruptions.  The sizes
of the buffers depend on the capacity of the vector and adapt to the reader, here they are arbitrary
(`sizes i + 1` for call `i`).  `fuel` bounds the number of calls. -/
def Script.readToEndLoop (sizes : Nat → Nat) : Nat → Nat → Script → Res (List U8 × Script)
  | 0, _, _ => .panic
  | fuel + 1, i, s =>
    match s.read (sizes i + 1) with
    | .error k => .err (.ioError k)
    | .interrupted s => readToEndLoop sizes fuel (i + 1) s
    | .data [] s => .ok ([], s)
    | .data bs s =>
      match readToEndLoop sizes fuel (i + 1) s with
      | .ok (rest, s) => .ok (bs ++ rest, s)
      | .err e => .err e
      | .panic => .panic

/-- `Seek::seek(SeekFrom::Current(d))`, as for `Cursor` and files: a position before the start is an
error, a position after the end is not. -/
def Script.seek (d : Int) (s : Script) : Res Script :=
  let p : Int := (s.reader.pos : Int) + d
  if p < 0 then .err (.ioError .invalidInput)
  else .ok { s with reader := { s.reader with pos := p.toNat } }

/-- The reader as a source. -/
def scripted (sizes : Nat → Nat) : Source Script where
  read := Script.read
  readToEnd := fun s =>
    s.readToEndLoop sizes (s.events.length + (s.reader.data.length - s.reader.pos) + 1) 0
  seek := Script.seek
  interrupts := fun s => s.events.length

/-! ## `io::BufReader` -/

/-- `io::BufReader`: the inner reader, the filled part of the buffer, and how much of it was consumed. -/
structure Buf (σ : Type) where
  inner : σ
  buf : List U8
  pos : Nat

/-- `BufReader::new` -/
def Buf.new {σ : Type} (s : σ) : Buf σ := ⟨s, [], 0⟩

/-- `BufReader::buffer`: what was read from the inner reader and not yet consumed. -/
def Buf.rest {σ : Type} (b : Buf σ) : List U8 := b.buf.drop b.pos

/-- `BufReader::fill_buf`: reads from the inner reader if the buffer has been consumed.  The result is
the new state; the buffer is empty afterwards only at the end of the data. -/
def Buf.fill {σ : Type} (S : Source σ) (b : Buf σ) : ReadOut (Buf σ) :=
  if b.buf.length ≤ b.pos then
    match S.read bufCap b.inner with
    | .data bs s => .data bs ⟨s, bs, 0⟩
    | .interrupted s => .interrupted ⟨s, [], 0⟩
    | .error k => .error k
  else .data b.rest b

/-- `BufReader::read`: large reads bypass an empty buffer. -/
def Buf.read {σ : Type} (S : Source σ) (n : Nat) (b : Buf σ) : ReadOut (Buf σ) :=
  if b.pos = b.buf.length ∧ bufCap ≤ n then
    match S.read n b.inner with
    | .data bs s => .data bs ⟨s, [], 0⟩
    | .interrupted s => .interrupted ⟨s, [], 0⟩
    | .error k => .error k
  else
    match b.fill S with
    | .data bs b => .data (bs.take n) { b with pos := b.pos + min n bs.length }
    | .interrupted b => .interrupted b
    | .error k => .error k

/-- `BufReader::read_to_end`: what is in the buffer, then what the inner reader still gives. -/
def Buf.readToEnd {σ : Type} (S : Source σ) (b : Buf σ) : Res (List U8 × Buf σ) :=
  match S.readToEnd b.inner with
  | .ok (bs, s) => .ok (b.rest ++ bs, ⟨s, [], 0⟩)
  | .err e => .err e
  | .panic => .panic

/-- `BufReader::seek(SeekFrom::Current(d))`: the inner reader is ahead by what is in the buffer.  In two
steps if the difference does not fit into an `i64`.  The buffer is dropped. -/
def Buf.seek {σ : Type} (S : Source σ) (d : Int) (b : Buf σ) : Res (Buf σ) :=
  let ahead : Int := b.rest.length
  if -2 ^ 63 ≤ d - ahead then
    match S.seek (d - ahead) b.inner with
    | .ok s => .ok ⟨s, [], 0⟩
    | .err e => .err e
    | .panic => .panic
  else
    match S.seek (-ahead) b.inner with
    | .ok s =>
      match S.seek d s with
      | .ok s => .ok ⟨s, [], 0⟩
      | .err e => .err e
      | .panic => .panic
    | .err e => .err e
    | .panic => .panic

/-- A `BufReader` is a reader again. -/
def buffered {σ : Type} (S : Source σ) : Source (Buf σ) where
  read := Buf.read S
  readToEnd := Buf.readToEnd S
  seek := Buf.seek S
  interrupts := fun b => S.interrupts b.inner

/-- `BufReader::seek_relative(d)`: moves within the buffer if possible. -/
def Buf.seekRelative {σ : Type} (S : Source σ) (off : U64) (b : Buf σ) : Res (Unit × Buf σ) :=
  let d := off.toInt
  if 0 ≤ (b.pos : Int) + d ∧ (b.pos : Int) + d ≤ b.buf.length then
    .ok ((), { b with pos := ((b.pos : Int) + d).toNat })
  else
    match b.seek S d with
    | .ok b => .ok ((), b)
    | .err e => .err e
    | .panic => .panic

/-- `io::default_read_exact`: calls `read` until the buffer is full, ignoring interruptions; nothing
read means that the data has ended.  `fuel` bounds the number of calls. -/
def readExactLoop {σ : Type} (S : Source σ) : Nat → Nat → σ → Res (List U8 × σ)
  | _, 0, s => .ok ([], s)
  | 0, _ + 1, _ => .panic
  | fuel + 1, n + 1, s =>
    match S.read (n + 1) s with
    | .error k => .err (.ioError k)
    | .interrupted s => readExactLoop S fuel (n + 1) s
    | .data [] _ => .err (.ioError .unexpectedEof)
    | .data bs s =>
      match readExactLoop S fuel (n + 1 - bs.length) s with
      | .ok (rest, s) => .ok (bs ++ rest, s)
      | .err e => .err e
      | .panic => .panic

/-- `BufReader::read_exact`: from the buffer if it has enough. -/
def Buf.readExact {σ : Type} (S : Source σ) (n : Nat) (b : Buf σ) : Res (List U8 × Buf σ) :=
  if n ≤ b.rest.length then .ok (b.rest.take n, { b with pos := b.pos + n })
  else readExactLoop (buffered S) (n + S.interrupts b.inner) n b

/-! ## Loading, over any reader

As in `Verif/Model/Flags.lean`, `V1.lean`, `V2.lean` and `Bloom.lean`, but with the methods of a
`BufReader` around an arbitrary reader.  The result contains the state of the readers at the end. -/

section
variable {σ : Type} (S : Source σ) (env : Env)

/-- `utils.rs:9-13` `read_le_u64`, `utils.rs:15-19` `read_le_f64` -/
def readLeU64 (b : Buf σ) : Res (U64 × Buf σ) :=
  match b.readExact S 8 with
  | .ok (bs, b) => .ok (u64OfLe bs, b)
  | .err e => .err e
  | .panic => .panic

/-- `bloom.rs:20-24` `read_flags` -/
def readFlags (b : Buf σ) : Res (Flags × Buf σ) := do
  let (bs, b) ← b.readExact S 8
  let f ← Flags.fromBytes bs
  .ok (f, b)

/-- loop `v1.rs:186-188` -/
def readWords : Nat → Buf σ → Res (List U64 × Buf σ)
  | 0, b => .ok ([], b)
  | n + 1, b => do
    let (w, b) ← readLeU64 S b
    let (ws, b) ← readWords n b
    .ok (w :: ws, b)

/-- `v1.rs:177-191` -/
def readBitset (bitSize : U64) (partialRead : Bool) (b : Buf σ) : Res (List U64 × Buf σ) := do
  let u64Size := u64SizeFor bitSize
  if partialRead then
    let off ← mulU64 env.debug u64Size 8#64
    let ((), b) ← b.seekRelative S off
    .ok ([], b)
  else
    let () ← env.alloc u64Size.toNat 8
    readWords S u64Size.toNat b

/-- `v1.rs:163-212` `from_reader_with_flags` -/
def v1FromReaderWithFlags (flags : Flags) (partialRead : Bool) (s : σ) : Res (V1 × Buf σ) := do
  let b := Buf.new s
  let (cap, b) ← readLeU64 S b
  let (p, b) ← readLeU64 S b
  let (nHash, b) ← readLeU64 S b
  let (bitSize, b) ← readLeU64 S b
  let (count, b) ← readLeU64 S b
  let (bitset, b) ← readBitset S env bitSize partialRead b
  let (data, b) ← b.readToEnd S
  .ok ({ flags := flags
         bitset := bitset
         capacity := cap
         fpp := p
         nHash := nHash
         bitSize := bitSize
         count := count
         data := data
         fingerprint := Fingerprint.new nHash bitSize }, b)

/-- `v1.rs:151-160` `_from_reader` -/
def v1FromReader' (partialRead : Bool) (s : σ) : Res (V1 × Buf (Buf σ)) := do
  let b := Buf.new s
  let (flags, b) ← readFlags S b
  if flags.version ≠ 1#8 then .err (.invalidVersion flags.version)
  else v1FromReaderWithFlags (buffered S) env flags partialRead b

/-- loop `v2.rs:227-229` -/
def readBuckets : Nat → Buf σ → Res (List Bucket × Buf σ)
  | 0, b => .ok ([], b)
  | n + 1, b => do
    let (bs, b) ← b.readExact S BUCKET_SIZE
    let (rest, b) ← readBuckets n b
    if h : bs.length = BUCKET_SIZE then .ok (⟨⟨bs.toArray, by simpa using h⟩⟩ :: rest, b)
    else .panic

/-- `v2.rs:206-215` -/
def readCache (cacheBitSize : U64) (partialRead : Bool) (b : Buf σ) : Res (VecBitSet × Buf σ) := do
  let cacheByteSize := byteCapFromBitCap cacheBitSize
  if partialRead then
    let ((), b) ← b.seekRelative S cacheByteSize
    .ok (VecBitSet.withBitCapacity 0, b)
  else
    let () ← env.alloc (byteCapFromBitCap cacheBitSize).toNat 1
    let ic := VecBitSet.withBitCapacity cacheBitSize
    let (bs, b) ← b.readExact S ic.byteLen
    .ok (⟨bs⟩, b)

/-- `v2.rs:220-232` -/
def readAllBuckets (nBuckets : U64) (partialRead : Bool) (b : Buf σ) : Res (List Bucket × Buf σ) := do
  if partialRead then
    let off ← mulU64 env.debug nBuckets (BitVec.ofNat 64 BUCKET_SIZE)
    let ((), b) ← b.seekRelative S off
    .ok ([], b)
  else
    let () ← env.alloc nBuckets.toNat BUCKET_SIZE
    readBuckets S nBuckets.toNat b

/-- `v2.rs:185-250` `from_reader_with_flags` -/
def v2FromReaderWithFlags (flags : Flags) (partialRead : Bool) (s : σ) : Res (V2 × Buf σ) := do
  let b := Buf.new s
  let (capacity, b) ← readLeU64 S b
  let (fpp, b) ← readLeU64 S b
  if !fppInRange fpp then .err (.wrongFpp fpp)
  else do
    let (nHashBuck, b) ← readLeU64 S b
    let (count, b) ← readLeU64 S b
    let (cacheBitSize, b) ← readLeU64 S b
    let cacheByteSize := byteCapFromBitCap cacheBitSize
    let (indexCache, b) ← readCache S env cacheBitSize partialRead b
    let (nBuckets, b) ← readLeU64 S b
    let (buckets, b) ← readAllBuckets S env nBuckets partialRead b
    let (data, b) ← b.readToEnd S
    .ok ({ flags := flags
           indexCache := indexCache
           nBuckets := nBuckets
           cacheByteSize := cacheByteSize
           capacity := capacity
           fpp := fpp
           nHashBuck := nHashBuck
           count := count
           buckets := buckets
           data := data }, b)

/-- `v2.rs:171-182` `_from_reader` -/
def v2FromReader' (partialRead : Bool) (s : σ) : Res (V2 × Buf (Buf σ)) := do
  let b := Buf.new s
  let (flags, b) ← readFlags S b
  if flags.version ≠ 2#8 then .err (.invalidVersion flags.version)
  else v2FromReaderWithFlags (buffered S) env flags partialRead b

/-- `bloom.rs:239-251` and `bloom.rs:260-272`: the body of both readers. -/
def fromReaderAux (partialRead : Bool) (s : σ) : Res (Bloom × Buf (Buf σ)) := do
  let b := Buf.new s
  let (flags, b) ← readFlags S b
  if flags.version = 1#8 then
    let (f, b) ← v1FromReaderWithFlags (buffered S) env flags partialRead b
    .ok (.v1 f, b)
  else if flags.version = 2#8 then
    let (f, b) ← v2FromReaderWithFlags (buffered S) env flags partialRead b
    .ok (.v2 f, b)
  else .err (.invalidVersion flags.version)

end

/-! ## Lines -/

/-- `BufRead::read_until(b'\n')`: takes what is in the buffer up to a newline, fills the buffer again if
there is none, until nothing comes any more.  `fuel` bounds the number of rounds. -/
def readUntil {σ : Type} (S : Source σ) : Nat → Buf σ → Res (List U8 × Buf σ)
  | 0, _ => .panic
  | fuel + 1, b =>
    match b.fill S with
    | .error k => .err (.ioError k)
    | .interrupted b => readUntil S fuel b
    | .data bs b =>
      if Cli.LF ∈ bs then
        let used := bs.idxOf Cli.LF + 1
        .ok (bs.take used, { b with pos := b.pos + used })
      else if bs = [] then .ok ([], b)
      else
        match readUntil S fuel { b with pos := b.pos + bs.length } with
        | .ok (rest, b) => .ok (bs ++ rest, b)
        | .err e => .err e
        | .panic => .panic

/-- The items of `lines()` of a `BufReader`, up to the first failing read (`poppy.rs:224`, `poppy.rs:326`,
`poppy.rs:346`, `poppy.rs:384`, `poppy.rs:423`).  `perLine` bounds the rounds for one line, `fuel` the
number of lines. -/
def linesLoop {σ : Type} (S : Source σ) (perLine : Nat) : Nat → Buf σ → List (Res (List U8))
  | 0, _ => [.panic]
  | fuel + 1, b =>
    match readUntil S perLine b with
    | .err e => [.err e]
    | .panic => [.panic]
    | .ok ([], _) => []
    | .ok (l, b) => Cli.lineItem l :: linesLoop S perLine fuel b

end Poppy.Pieces
