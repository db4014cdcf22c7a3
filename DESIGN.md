# Formal model of hashlookup/poppy in Lean 4 — design

## 1. Approach

The Rust code is translated by hand, function by function, into total Lean
functions (`lean/Verif/Model/*.lean`).  Every definition cites the lines it
models.  Properties (`properties.jsonl`) are theorems about that model
(`lean/Verif/Props/*.lean`), stated with a small, separate vocabulary.

| Where | What |
|-------|------|
| `Verif/Model/` | the translation of the code |
| `Verif/Spec.lean`, `SpecReal.lean`, `CliSpec.lean`, `BenchSpec.lean`, `LoadSpec.lean`, `LoadView.lean`, `WriteSpec.lean`, `SessionSpec.lean`, `StdoutSpec.lean`, `PySpec.lean`, `PyUseSpec.lean`, `SpecArgs.lean`, `JobsSpec.lean`, `OverlapSpec.lean`, `InteropSpec.lean`, `PartialSpec.lean`, `SpecDecimal.lean`, `FillSpec.lean`, `ShardSpec.lean`, `BuildSpec.lean`, `AppendSpec.lean`, `GrowSpec.lean`, `OnFileSpec.lean`, `CompareSpec.lean`, `LevelsSpec.lean` | vocabulary of the statements: bit arrays, FNV-1, probe sequences, file layouts, UTF-8, textbook formulas, sequences of commands, command lines; the first two use no function of the model |
| `Verif/History.lean` | histories: the filters obtained by constructing, inserting, merging, clearing, writing and reading back |
| `Verif/Abstract.lean`, `AbstractBloom.lean`, `AbstractCli.lean`, `AbstractMain.lean`, `AbstractPy.lean`, `AbstractKeywords.lean`, `Refine.lean`, `RefineBloom.lean` | abstract filters (sets of bits), what they stand for, and the commands on them: the reference of C78, C81, C85, C89, C97 and C99 |
| `Verif/Assumptions.lean` | every assumption a theorem may make about the machine or the floating point library |
| `Verif/Samples.lean` | concrete filters for the examples beside the theorems |
| `Verif/Lemmas/` | helper lemmas |
| `Verif/Props/` | the property theorems, `C<nn>_...`, each followed by an `example` meeting its hypotheses |
| `Verif/Conformance.lean` | tests of the model, not proofs: the repository's unit tests replayed on it, including the file made by the Go implementation |
| `Verif/Audit.lean` | `#print axioms` of every theorem of the manifest (generated) |
| `tools/gen_manifest.py` | writes `MANIFEST.json` and `Audit.lean` from the theorem names and `tools/notes.json` |
| `tools/mutate.py` | tests the theorems against wrong programs, results in `seeded/LOG.jsonl` |

### Modelling decisions

* `u8`, `u64`, `usize` are `BitVec 8`, `BitVec 64` (64-bit platform), so that
  wrapping, masking and modulo behave as in Rust.
* `Result`/panic: `Res α = ok a | err e | panic`.  A `&mut self` method returns
  the new state together with the `Res`, so the state after an error is visible.
* Overflow checks (`debug` profile) and the allocator's limit are parameters of
  the environment `Env`; theorems hold for both profiles and every limit.
* WyHash (external crate) is a parameter: an arbitrary function from the
  sequence of `write` calls to a `u64`.  All theorems quantify over it.
* `f64`: stored values are raw 64-bit patterns (serialization, validation and
  comparison are exact).  Arithmetic is IEEE-754 binary64
  round-to-nearest-even, defined exactly on rationals (`FVal`, `rnd`);
  `u64 as f64`, `f64 as u64` (saturating), `ceil`, `round`, `abs` are exact.
  The sign of zero is not represented: the only place it could be observed is
  the divisor `ln(proba)`, whose quotient goes through `abs`.
* `ln`, `exp`, `powf` are parameters (`Libm`).
* Readers are byte strings with a position and an optional failure point;
  writers are sinks with an optional byte budget behind a model of
  `std::io::BufWriter` (8192 bytes, flush on drop with the error ignored).
  That this loses nothing is proved: `Model/Readers.lean` and `Model/Writers.lean`
  model `Read`, `Seek` and `Write` call by call, with short reads and writes and
  interruptions, and `BufReader`, `BufWriter`, `read_exact`, `read_to_end`,
  `seek_relative` and `lines` on top of them (C105 to C107).
* The tool (`poppy/src/bin/poppy.rs`) is modelled over a file system
  `Path → Option bytes` with permissions, positions where reading fails (a
  directory fails at once), and free space; worker threads are
  small-step processes run under an arbitrary schedule, each step being one
  opened file or one inserted or checked line.
* `poppy bench`: the random numbers and the shuffling (`BenchRng`) are
  parameters, and so are the measured times and the mean and standard deviation
  of `statrs` (`Measure`), with `MeanSpec` and `MeasureSpec`.  Both are proved
  for the formulas of `statrs` 0.16 in `f64` arithmetic (`statrsMean_spec`,
  `statrs_measureSpec`), the second for runs that are not too many and too long.
  What it prints is a list of lines, as for `show`.
* The standard input is a byte string with or without a failing read at its end;
  the standard output takes all lines or only a number of them, after which
  `println!` panics (a line is written completely or not at all).
* `main` is modelled as a function from a run (command, jobs, stdin, lines taken
  by stdout, schedule, random numbers, measured times) and the files to the files, the output and the outcome.
* The command line (`clap`, an external crate) is modelled from the declarations
  in `poppy.rs` as a function from words (texts) to arguments, a request for help
  or a usage error; the exit code is added to the outcome of `main`.
* The Python bindings are modelled as functions with the result type
  `ok | exception | panic` (`Model/Python.lean`), and as calls with Python values
  as arguments, converted as PyO3 0.20 does (`Model/PyCalls.lean`).

## 2. Trusted base

* The Lean 4.33.0 kernel.  Axioms: at most `propext`, `Classical.choice`,
  `Quot.sound` for every theorem; `Verif/Audit.lean` prints them one by one.
  No axiom is declared, no proof is left open, no theorem rests on anything
  evaluated by compiled code (only the tests of `Verif/Conformance.lean` run
  the interpreter).
* The hand translation from Rust, cited line by line.
* Behaviour assumed of std: `BufReader`/`BufWriter`/`seek_relative` (as in
  `Model/Readers.lean` and `Model/Writers.lean`, a `seek` to the present position
  and a reader that does not return more than asked for),
  `chunks`, `chunks_exact`, `lines`, `thread::spawn`/`join`, integer
  `Hash` impls writing their little-endian bytes once, `Option`'s `Hash` writing
  the discriminant as an `isize` first; exit codes of a `main` that returns a
  `Result`.  Seeking past the end of a file never fails in the model; a real
  file system refuses positions beyond its largest file size.
* Behaviour assumed of `clap` for the declared arguments: `Verif/Model/Args.lean`.
* Assumptions of individual theorems, always visible as hypotheses and all
  but one defined in `Verif/Assumptions.lean`:
  * `Env.Small`: allocations beyond 2^50 bytes fail.  Needed where a size goes
    through `f64` (v1 sizes, see C43 and C46), exact only below 2^53.
  * `Libm.Spec`: rough bounds on `ln` and on the square of `ln 2`.
  * `Libm.LnSpec`: `ln 1 = 0`, `ln` monotone on [0, 1].
  * `Libm.Accurate`: `ln` on [0, 1] and at 2, and the square of `ln 2`, accurate
    to 2 units in the last place.
  * `Libm.AccurateExp`: `exp` on [-2, 0], and first and second powers of numbers
    in [1/4, 1], accurate to 2 units in the last place (sizes with index cache).
  * `Libm.AccuratePow`: powers up to 400 of numbers in [1/4, 1], accurate to 2
    units in the last place (`estimated_p`, C103 only).
  * `MeanSpec`: the mean of equal numbers is that number, NaN is kept.
  * `Spec.Line.ReadSpec` (in `Verif/SpecArgs.lean`): reading 0.01, 0.2 and 0.001
    as `f64` gives the nearest `f64` (`C96_defaults` proves it for the model of
    `f64::from_str`).
  * `MeasureSpec`: the mean of no values is NaN; that of durations is finite and
    not negative; one of the measured times, if there are several, is within
    three standard deviations of their mean; the clock measures less than 35 000
    years.  `statrs_measureSpec` proves it for `statrs` if the square of the
    number of runs times the longest run is at most 131 072 s.

  The correctly rounded functions (`Libm.exact`) are proved to meet the four
  `Libm` assumptions, so none is vacuous.
* Behaviour assumed of std when it prints and reads numbers:
  `Verif/Model/Decimal.lean`.  Only C96 and C101 use it; elsewhere the printed texts are
  parameters.
* Behaviour assumed of PyO3 and CPython when they convert arguments:
  `Verif/Model/PyCalls.lean` and `Verif/Model/PyKeywords.lean`.  Only C97 and C99 use it.  User defined
  classes, the conversion of paths and the texts of exceptions other than `ValueError` are left out.
* Not modelled: wyhash's internals, real memory and time, the text of help and usage
  messages, command line words that are not UTF-8,
  the random number generator of `bench`, stderr, trivial
  getters, `as_mut_slice`, the registration of the Python module, aborts caused by
  allocation failure are not told apart from panics.
* Seeking past the end is always allowed, as for `Cursor`; a real file system
  refuses positions beyond its maximum file size (this matters only for the
  partial reader on corrupt files).
* `check` and `show` write no file by construction of the model: they get the
  file system and do not return it.

## 3. Places where the code does not do what the property says

Each is proved as a theorem with a concrete witness (`..._violated`, or
`..._violation`), next to the strongest version that holds (`..._partial`).

| Id | Finding |
|----|---------|
| C02 | v1, fpp = 1.0, or one entry and fpp from 5/8 on: the filter has no bits, `insert` returns Ok and the key is not contained |
| C04 | v2, Best, capacity above 2^63, release build: the computation of the size wraps and the new filter contains every key |
| C05, C06 | v2: `clear` leaves the index cache as it is; with no hash function the keys stay members |
| C14 | v2: after a union the count can exceed the capacity; the test is `==`, so the filter accepts keys for ever; with an index cache, a full filter answers Ok(false) for keys it does not contain and contains them from then on |
| C22 | v2 files with non-zero reserved bytes, and v1 files with a non-zero level or a NaN probability: the reloaded copy does not have the same parameters as the original |
| C29 | errors while flushing are lost: every filter smaller than 8192 bytes is reported as written whatever the disk does |
| C31 | a 56-byte file makes the reader panic by asking for too much memory |
| C41 | `unset_nth_bit` never unsets anything and returns true |
| C48 | v1: `size_in_bytes` reports 8 times the number of bits |
| C55 | parallel insertion can accept more entries than the capacity |
| C56 | `create` from a dataset with fpp = 1.0 and version 1: the lines are not contained (C02) |
| C69 | `bench --size-mb 0` panics in debug builds |
| C70 | `bench`: a dataset of one empty line fails although there is no false positive; `--runs 0` panics |
| C72 | a completely full bucket saturates the estimate; the union of filters with two full buckets panics in debug builds, and reports 2^64-2 entries in release builds |
| C76 | levels `Best` and `Speed` multiply the number of hash functions by the false positive probability of the index cache: far too few for small probabilities (12 instead of 30 for `2^-30`, more than 10 times the requested probability; at most p^(4/5) in any case) |
| C88 | `bench` draws the percentage from 0 to 100 inclusive: at the rate 100 it announces that 0% of the queried values are in the filter, but each line stays unchanged, so in the filter, with probability 1/101 |
| C84 | `create` never ends if a directory is among the dataset: `lines().count()` counts the same read error for ever |
| C91 | `check` with files and `-j 0` panics (division by zero), though 0 is documented to mean the optimal number; whether `insert` succeeds depends on the number of jobs; the stored estimate of two lines is 2 with one job and 2^64-1 with two |
| C92 | nothing locks the filter file: of two `insert` runs that load before either saves, the lines of one are lost though both succeed; while two of them write at the same moment the file can be loaded with a hole of zeros, and members of the old filter are missing |
| C93 | keys inserted in Python that contain a line feed, or are not UTF-8, cannot be asked for with the tool: `check` given such a text splits it and succeeds without finding it |
| C94 | a partially loaded v1 filter denies every member; a v2 one, written again, gives a file that loads as a filter without buckets; a v1 one with data attached gives a file in which the data is taken for the bits; merging two gives count 0 |
| C95 | `benchmark` with 0 runs panics; with up to ten runs no outlier is left out, however far; three runs of 85 days panic, as the computed standard deviation is 0 and no run is kept |
| C101 | a probability above 0 and below 2^-1022 is in ]0;1], but refused with a message that says it is not |
| C103 | `estimated_p` of a v1 filter uses the number of hash functions that would be best for the entries counted, not the number the filter uses: a half full filter reports less than half of its false positive probability |
| C104 | with more files than jobs, and not a multiple of the jobs, a parallel insertion holds more filters than there are jobs, up to 2N-1 |
| C109 | the sizes announced in a file are allocated before the data is read: a file of 56 bytes can make loading ask for any amount of memory (and abort) |
| C112 | a file without final line feed, piped together with others, loses its last line: it is joined with the first line of the next file |
| C117 | `poppy create help` makes a filter in a file `help` instead of showing help; `poppy -j 0 check F A…`, as in the README, panics |
| C122 | in release builds a filter with index cache for more than 2^63 entries has no cache, so it can be shorter than one for fewer entries |

## 4. Properties

Per property: what is modelled → how it is proved.

| Id | Model | Proof plan |
|----|-------|-----------|
| C01 | v2 insert/contains/union/intersection/clear/reload | characterise insert/contains by bit positions; induction over histories |
| C02 | v1 same | same, hypothesis bit_size > 0 (shown to be necessary, C02_exact; which filters meet it follows from the sizes, C71); negation by witness |
| C03 | v1, v2 | exact set of bits = union of probes of members; induction |
| C04 | constructors + contains | all bits zero; n_hash ≥ 1 or cache non-empty from sizing lemmas; exact condition C04_v2_exact |
| C05 | clear | as C04; negation by witness for n_hash = 0; exact condition C05_v2_exact |
| C06 | clear, write | equality of states; negation by witness; exact condition C06_v2_exact |
| C07 | insert/contains with capacity 0 | case analysis |
| C08 | insert, contains | from characterisations |
| C09 | insert histories | induction |
| C10 | insert | loop invariant: before the error only already-set bits were set |
| C11 | insert twice | monotonicity of bits |
| C12 | insert lists | bits = union over list; permutation invariance |
| C13 | insert, count_ones | number of changed positions; induction |
| C14 | insert, union | v1 proved, v2 partial + negation; exact conditions of a refusal C14_v1_exact, C14_v2_exact |
| C15 | is_full | from C09, C10 |
| C16 | union | pointwise or |
| C17 | union | pointwise algebra |
| C18 | insert lists, union | from exact bit characterisation |
| C19 | intersection | pointwise and |
| C20 | has_same_params, merges | case analysis |
| C21 | count_common_entries | same estimate on the and-ed bits |
| C22 | write, from_reader | parser/printer inversion |
| C23 | write | explicit layout |
| C24 | from_reader, write | printer/parser inversion |
| C25 | from_reader on prefixes | parser on truncated input |
| C26 | header | case analysis |
| C27 | partial reader | relate both parsers |
| C28 | partial reader + contains | evaluation |
| C29 | BufWriter | invariant on (sink, buffer); exact outcome against `Verif/WriteSpec.lean` by induction on the pieces |
| C30 | fpp check | bit-pattern interval |
| C31 | from_reader | no panic besides allocation; negation by witness; exact condition C79_panics |
| C32 | insert/contains on loaded | in-bounds lemmas |
| C33 | FNV | chunk induction |
| C34 | Fingerprint | induction on iterator |
| C35 | hash of short slices | little-endian injectivity |
| C36 | xorshift_star | explicit inverse |
| C37 | IndexIterator | closed form by induction |
| C38 | hash_pop impls | equality of functions |
| C39 | insert_iter | case analysis |
| C40 | bitsets | bit lemmas; the size of a new `VecBitSet` by exactness of the `f64` division up to 2^53 |
| C41 | bitsets | negation for every bitset |
| C42 | bitsets | popcount lemmas |
| C43 | VecBitSet | exactness of f64 below 2^53 |
| C44 | constructors | bit-pattern interval |
| C45 | v2 make | f64 rounding monotonicity + Libm.Spec |
| C46 | v1 with_capacity | same |
| C47 | all | well-formedness invariant over histories |
| C48 | size_in_bytes | v2 proved, v1 negation |
| C49 | count_ones/zeros/bits | popcount lemmas |
| C50 | update_count | f64 monotonicity + Libm.Spec |
| C51 | wrapper | equalities |
| C52 | fill | induction |
| C53 | chunks | arithmetic |
| C54 | parallel_insert under schedules | confluence of independent threads + C18 |
| C55 | parallel_insert | negation by witness |
| C56 | create | C54 + C09; C02_bits for the usual probabilities |
| C57 | commands over FS | case analysis |
| C58 | insert with failing disk | C25 + C29 |
| C59 | check under schedules | permutation of outputs |
| C60 | show | C27 |
| C61 | lines | induction |
| C62 | python wrappers | corollaries |
| C63 | ByteSize | arithmetic |
| C64 | Stats | f64 exactness |
| C65 | counting probe tuples | cardinality of function spaces |
| C66 | readers with a failure point | every reading step either stops at the failure or does not reach it; induction over the reads; the exact outcome by showing that every reading step depends only on the bytes before the failure (`Lemmas/Failing.lean`) |
| C67 | constructors, has_same_params | injectivity of the parameters in the construction data; relation preserved over histories |
| C68 | bloom! macro | unfolding to constructors and `fill`, C01 |
| C69 | bench's dataset, size limit, filter | induction over the entries taken; C01/C02 for membership |
| C70 | bench's rounds, mean, verdict | invariant of `Stats` over the tested lines; exact f64 comparison |
| C71 | sizing formulas | relative error calculus (`Near`) over rounded operations, compared with the real formulas |
| C72 | update_count, count_common_entries | same, bucket by bucket, plus the error of the sum and of rounding down |
| C73 | v1 filters with 2^j bits | the multiplications of the probe chain commute with taking low bits unless reduced by the modulus; counting the hashes that are reduced |
| C74 | `main`, sequences of runs | what `insert` and `create` do to the file (C54, C22), induction over the sequence, C59 |
| C75 | Python programs: calls on any number of filter objects and files (`PySpec.lean`) | insertions and merges only add members (C01, C02, C16), induction over the calls; C62 for saving and loading |
| C76 | with_capacity, make and the textbook formula (1-e^(-kn/m))^k | from C71; the cost of rounding k up is bounded with a derivative; the witness bounds every rounded operation; with index cache the exponent is bounded by tangents of the logarithm |
| C77 | the positions probed by IndexIterator | 32768 divides 2^64, so only the low 15 bits of both hashes matter; C03 for the bits of the inserted keys; the first two probes determine the class |
| C78 | all operations of both filters, as programs on numbered filters | simulation: each operation commutes with the abstraction function (`Verif/Refine.lean`) to the abstract machines of `Verif/Abstract.lean`; induction over programs. Not constrained here: v2 key hashes, constructor sizes and the estimate formula, which the machine takes from the model as parameters (`V2.cfg`, `V1.cfg`) |
| C79 | the three `from_reader` functions on arbitrary bytes | specification by offsets in `Verif/LoadSpec.lean`, which uses no function of the model; each reading step is rewritten to a place in the byte string, loops by induction. Memory failure is a panic in the model; a real allocator may abort the process |
| C80 | `partial_from_reader` on arbitrary bytes, with `seek_relative` on a signed offset | as C79, with `Spec.peek`; sources are modelled like `io::Cursor`: positions beyond the end are allowed, positions before the start are an error |
| C81 | the `BloomFilter` enum: dispatch, cross-version cases, loading arbitrary bytes | simulation as in C78, with `Verif/AbstractBloom.lean` and `Verif/RefineBloom.lean`; loading through C79 |
| C82 | the hash of eight-byte keys, `xorshift_star`, choice of bucket, index cache bit and first bit | counting: `xorshift_star` is a bijection; a second bijection carries bucket and first bit to disjoint groups of bits (`Verif/Lemmas/Spread.lean`) |
| C83 | sequences of insertions into a new filter of either format | double counting over draws, then the inequality of power means (`Verif/Lemmas/Average.lean`) |
| C84 | files whose reading fails at a position, the three commands with threads, `show` | lines of the readable part; a measure of the steps left decreases; a failing reader never loads a filter (C66); the count of lines does not depend on the batches, so the first file that cannot be read decides; negation by witness |
| C85 | `create`, `insert`, `check`, `show` with threads, file system, disk space | specification without threads on bytes and abstract filters in `Verif/AbstractCli.lean`; simulation of every step (reading, dealing out, inserting, uniting, storing) with C79–C81, C66 and the schedule independence of C54 and C59 |
| C86 | `check`, `show` and `bench` writing to a standard output of limited room, `main` | the run without limit with the same schedule: invariant that each thread is the same or has panicked and that the output is full after the first refusal |
| C87 | everything `bench` prints, `benchmark`, `Duration` to seconds and back | the text is carried along in a writer monad and computed by rewriting; error of `as_secs_f64` bounded by half a unit in the last place; induction over the rounds |
| C88 | the lines that `bench` queries | the model's lines equal those of `Verif/BenchSpec.lean`; negation by witness |
| C89 | the whole of `main` | `Verif/AbstractMain.lean` extends the specification of C85 by `bench` and by the standard output; equation of the printed text and the outcome by rewriting through the writer monad, induction over dataset, rounds and lines; sequences of runs by induction |
| C90 | the command line: declarations, scanning of words, reading of integers, help, exit codes | grammar and meaning in `Verif/SpecArgs.lean`, without a parser; the scanner consumes one item of the grammar at a time, both directions by induction over the words; numbers by `Nat.ofDigits`; the last part from C74 |
| C91 | `main` with two numbers of jobs | bits from C54, equality of files from the abstract filters of C81; `check` from C89; negations by witness |
| C92 | `insert` and `check` on a file that other processes change; single write operations (`Model/FileOps.lean`) | the bits of a file compared place by place (`Lemmas/FileBits.lean`), kept by inserting and by mixing; induction over interleavings, from the last time the file was emptied; negations by witness |
| C93 | runs of `main` and Python programs on one file | induction over histories from C74 and C75; the lines that can be read, by induction over the input; negation by witness |
| C94 | operations on what `partial_from_reader` returned, its file loaded again | invariant (no bits, parameters kept) over all sequences of operations; reading back the written file; negations general in the file, with witnesses |
| C95 | `benchmark` and `time_it_once` with the mean and standard deviation of `statrs`, in `f64` | error bounds of the running mean and the running variance, by induction over the runs; a value is at most `√((n-1)/n)` of the sum of squares away from the mean; the outlier bound from the minimality of the mean |
| C96 | printing of integers, `f64` (`{}`, `{:.1}`, `{:3}`) and `Duration`, `f64::from_str`, in `show`, `create` and `bench` | decimal texts in `Verif/SpecDecimal.lean`; the gap between neighbouring `f64` gives that 17 digits suffice, monotonicity of rounding that no shorter number is read as the same; bits of values by arithmetic; C60, C74 and C90 for the tool |
| C97 | calls from Python with arguments of every built-in type: the wrappers of PyO3 around `python/src/lib.rs` | refinement call by call to `Verif/AbstractPy.lean`, from that of C81; rounding of integers for `C97_near`; C01, C44, C62 and C75 for the consequences |
| C98 | the loads of the buckets of `V2` when keys are drawn at random; textbook probability within a bucket | the logarithm of the probability is below its tangent at the even load, and the average of an exponential of the load over all draws is a binomial sum; C82 for the keys of eight bytes, C76 for the even load; C03 and C65 for what the load of a bucket does to its bits and answers |
| C99 | calls from Python with keyword arguments: the wrappers of PyO3 around `python/src/lib.rs` | the places filled are a map over the names of the parameters, by induction over the keyword arguments; then C97 |
| C100 | probes of `V2` (`IndexIterator::next`), insertion into a new filter, membership | two equal probes are a linear congruence for the second hash; for up to 32 probes all equal pairs have the same value of i²+ij+j², taken for at most three j (all pairs are tried); averages over sets of bits by counting supersets |
| C101 | texts of errors (`Verif/Model/Messages.lean`), calls from Python | the errors of each call are known from C44, C62, C20 and C79; the texts by cases; the number in the text by C96; texts differ in their first ten characters or in what follows |
| C102 | `V1.insertBytes`, `V1.containsBytes`, FNV-1 and the chain of the format (`Spec`) | both operations use the hash modulo the constant only; FNV-1 and the chain map 0 to 0; multiplication by an odd number modulo 2^64 is a bijection, reductions are counted as in C73 |
| C103 | `V1.estimatedP`, `V1.nHashFn`, `V1.nBits`, `estimateP` | error analysis as for C71; the best number of hash functions is bounded by log u log (1-u) <= (log 2)^2 (concavity); full filters by C76 |
| C104 | `Cli.copies`, `Cli.startWorkers`, `Cli.batches` | arithmetic of `chunks` (C53); the storage of a filter is defined from its bit arrays |
| C105 | `Pieces.fromReaderAux`, `Pieces.scripted`, `Pieces.buffered` (`Model/Readers.lean`) | a source is lawful if each call agrees with a byte string and a position (simulation); scripts are lawful, a `BufReader` around a lawful source is lawful, loading from a lawful source is loading from its bytes |
| C106 | `Pieces.readUntil`, `Pieces.linesLoop` | induction on the remaining bytes, from the same simulation |
| C107 | `Pieces.write`, `Pieces.Slow`, `Pieces.SlowBuf` (`Model/Writers.lean`) | simulation of the byte-string writer; round trip from C22 |
| C108 | `Pieces.fromReaderAux` with the counter `Script.given` | invariant on the bytes given minus the bytes still buffered; a skip costs at most two fillings per level |
| C109 | `Bloom.fromReader` with `Env.allocLimit`; `Spec.memory` (numbers at fixed offsets) | from the exact specification of loading (C79); witnesses for all sizes |
| C110 | `V2.make`, `V1.withCapacity`; `Spec.bestCapacity`, `Spec.bestBits` (real numbers) | relative error of the float computations (C71), then integer arithmetic |
| C111 | `V2.insertKey`, `V1.insertBytes`, `Cli.parallelInsert` | the count is at most the number of different keys inserted so far, by induction; C110 for creation |
| C112 | `Cli.lines`, `Cli.insert`, `Cli.check` | unique decomposition of a text into lines (C61); then the complete behaviour of the commands (C85) with equal lists of lines, and C91 for more jobs |
| C113 | `Cli.create`, `Cli.insert`, `createFilter`, `parallelInsert` | a new filter is the same after saving and loading (C22); insertion sees only the data files; C91 for different numbers of jobs |
| C114 | `V1.insertBytes`, `V2.insert`, `Bloom.fill`, `Cli.insert` | induction on the entries: an insertion that raises the estimate uses up one of the new entries, one that does not leaves the filter as it is |
| C115 | `Py.new`, `Py.withVersion`, `Py.withParams`, `Py.insertBytes`, `Py.insertStr` | induction on the calls: the object has exactly the entries of the program inserted; then C114 |
| C116 | `Cli.create`, `Cli.insert`, `Py.withParams`, `Py.load`, `Py.insertBytes`, `Py.save` | with one job there is one batch and nothing to merge; both sides are unfolded to inserting line by line and saving |
| C117 | `Cli.tool` (words to exit code), `Cli.parseArgs`, `Cli.create`, `Cli.show` | the meaning of the words (C90), then C60, C74, C91, C96, C110 |
| C118 | `Cli.create`, `Cli.insert`, `Cli.parallelInsert`, `Cli.check`, `Bloom.fromReader` | invariant of the runs: the stored filter is the new one with the bits of exactly these lines, whatever the count; what is written and answered depends on these only |
| C119 | `Cli.create`, `Cli.insert`, `Py.withParams`, `Py.load`, `Py.loads`, `Py.insertBytes`, `Py.insertStr`, `Py.unionMerge`, `Py.save`, `Py.dumps` | the invariant of C118 for files and objects, kept by merging; the flags stay as written, so the parameters stay equal |
| C120 | every operation, `Cli.main`, `Heap.run`, with two environments | "panics, or is the same" is kept by sequencing, loops and threads; each overflow check, assertion and allocation has it |
| C121 | every operation, `Cli.main` on a world and on the same with a longer file | operations commute with replacing the data; threads, merging and printing keep "the same but for the data"; for sequences: what is written loads again |
| C122 | `Bloom.withVersionCapacityOpt`, `V2.make`, `V1.withCapacity`; `Wish`, `Wish.Exceeds`, `OptLevel.rank` (`GrowSpec.lean`) | rounding, division, ceiling and absolute value are monotone on the signs that occur; powers of two are monotone up to 2^63; then the layout of the files (C23) |
| C123 | `from_reader` of any bytes, `contains_bytes`, `insert_bytes`, written files | the abstract filter of a file is given by its single bits (`load_v1`, `load_v2`, C79, C85); bits of concatenations and packed bits |
| C124 | `union_merge`, `intersection_merge`, `clear`, written files | as C123: the bits of the written file of an abstract filter are those of its parts |
| C125 | the derived `PartialEq`, `PartialOrd` of `Params` and `OptLevel`, `try_into` | case analysis on the four fields; `==` floats have the same bits or are zeros |
| C126 | `with_version_capacity_opt` with every level, `insert_bytes`, `write`, `union_merge` | the flags are carried along by insertions; sizes from C45 and the lemmas of C122 |

No property was found inexpressible; what is not modelled is listed in section 2.

## 5. Mutation tests

`tools/mutate.py` copies `lean/` outside the repository, applies an edit of the
model that imitates a realistic bug, and rebuilds.  Declarations whose proof no
longer goes through get a hole (in the copy only), so that all the others are
still checked; a property theorem counts as failed if its own proof, or
statement, or a lemma it uses fails.  `seeded/LOG.jsonl` has one line per wrong
program, with the claim it breaks, the theorems that failed and, where no
theorem about that claim failed, the theorems added or tightened afterwards.

Limits of this evidence:

* A theorem that uses a broken lemma counts as failed even if its statement is
  still true of the wrong program; the proof stopped working, nothing more.
  `broken_declarations` lists where it stopped.
* Lines whose note begins with "automatic" come from generated edits of single
  tokens.  Those runs stop at the first broken declaration, so
  `theorems_failed` is empty when that is a helper lemma, and no claim was
  written down beforehand.  Edits that do not typecheck are left out.
* A surviving edit that no program can observe is noted as "equivalent", with
  the reason.
