import Verif.Model.Bloom
import Verif.Model.Utils

/-!
# The unit tests of the repository replayed on the model

These are **tests of the model, not proofs**: they run the definitions of `Verif/Model` on the
inputs of the unit tests in `/repo` and compare with the outputs asserted there, to catch a model
that says something else than the code.  The small ones are evaluated by the kernel (`decide`),
the others by the interpreter (`#guard`, which adds nothing to the environment).  No theorem
depends on this file.

What is not replayed: the tests that measure false positive rates or time (`test_bitset_fpp`,
`test_fpps`, `test_show_bug_in_v1`, `test_pow_2`, the benchmarks and `test_fnv_collisions`) and
`wyhash.rs:45-48`, since the wyhash crate is a parameter of the model.
-/

namespace Poppy.Conformance

/-! ## A floating point library and a hash function to run the model with -/

/-- Fixed point numbers with 100 fraction bits: `atanh t` for `0 ≤ t ≤ 1/3` by its series. -/
def atanhFix (t : ℤ) : ℤ :=
  ((List.range 40).foldl (fun (acc : ℤ × ℤ) i =>
    (acc.1 + acc.2 / (2 * i + 1), acc.2 * t / 2 ^ 100 * t / 2 ^ 100)) (0, t)).1

/-- `ln 2` -/
def ln2Fix : ℤ := 2 * atanhFix (2 ^ 100 / 3)

/-- `ln q` for `0 < q` -/
def lnFix (q : ℚ) : ℤ :=
  let k := Int.log 2 q
  let x := q / 2 ^ k
  k * ln2Fix + 2 * atanhFix ⌊(x - 1) / (x + 1) * 2 ^ 100⌋

/-- `exp` of a fixed point number, by the series after taking out the power of two. -/
def expFix (y : ℤ) : ℚ :=
  let k := y / ln2Fix
  let r := y - k * ln2Fix
  let s := ((List.range 40).foldl (fun (acc : ℤ × ℤ) i =>
    (acc.1 + acc.2, acc.2 * r / 2 ^ 100 / (i + 1))) (0, 2 ^ 100)).1
  (s : ℚ) / 2 ^ 100 * 2 ^ k

/-- The real functions, rounded to `f64`. -/
def libm : Libm where
  ln
    | .fin q => if 0 < q then rnd ((lnFix q : ℚ) / 2 ^ 100) else if q = 0 then .ninf else .nan
    | .pinf => .pinf
    | _ => .nan
  exp
    | .fin q => rnd (expFix ⌊q * 2 ^ 100⌋)
    | .pinf => .pinf
    | .ninf => .fin 0
    | .nan => .nan
  powf
    | .fin x, .fin y =>
      if y = 2 then rnd (x * x)
      else if 0 < x then rnd (expFix ⌊y * lnFix x⌋) else if x = 0 then .fin 0 else .nan
    | _, _ => .nan

/-- The Wy hash is replaced by FNV with a final mix. -/
def env (debug : Bool) : Env :=
  ⟨libm, fun ws =>
      let h := fnvHash ws.flatten
      let h := (h ^^^ (h >>> 33)) * 0xff51afd7ed558ccd#64
      h ^^^ (h >>> 29), debug, 2 ^ 30, by norm_num⟩

/-- UTF-8 bytes of a string literal. -/
def b (s : String) : List U8 := s.toUTF8.toList.map (fun c => BitVec.ofNat 8 c.toNat)

/-- `0.1f64`, `0.01f64`, `0.001f64`, `0.0001f64` -/
def p1 : F64 := 0x3FB999999999999A#64
def p2 : F64 := 0x3F847AE147AE147B#64
def p3 : F64 := 0x3F50624DD2F1A9FC#64
def p4 : F64 := 0x3F1A36E2EB1C432D#64

/-- The value of a call that must succeed. -/
def get {α β : Type} (r : α × Res β) : Option α := match r with
  | (a, .ok _) => some a
  | _ => none

def val {α : Type} : Res α → Option α
  | .ok a => some a
  | _ => none

/-! ## `hash/fnv.rs` -/

-- fnv.rs:72-78 `test_fnv`
example : fnvHash [72, 101, 108, 108, 111, 44, 32, 87, 111, 114, 108, 100, 33]
    = 8889723880822884486#64 := by decide +kernel
#guard fnvHash (b "Hello, World!") = 8889723880822884486#64
#guard fnvHash (b "Let's rustify all this") = 13581150826273240441#64
-- fnv.rs:81-86 `test_fnv_update`
#guard fnvWrite (fnvWrite FNV_OFFSET (b "Hello, ")) (b "World!") = 8889723880822884486#64

/-! ## `bloom/v1.rs` -/

/-- All values of a fingerprint iterator, then the `None`. -/
def drain : Nat → Fingerprint → List (Res (Option U64))
  | 0, _ => []
  | n + 1, f => f.next.1 :: drain n f.next.2

-- v1.rs:457-470 `test_fingerprint` (values of the Go implementation)
example : drain 8 ((Fingerprint.new 7 958505).fingerprint [98, 97, 114]) =
    [.ok (some 20311), .ok (some 36825), .ok (some 412501), .ok (some 835777),
     .ok (some 658914), .ok (some 853361), .ok (some 307361), .ok none] := by decide +kernel

/-- The test module's `bloom!` macro (`v1.rs:443-455`) -/
def mk1 (d : Bool) (cap : U64) (p : F64) (vs : List String) : Option V1 := do
  let f ← val (V1.withCapacity (env d) cap p)
  vs.foldlM (fun f v => get (f.insertBytes (env d) (b v))) f

def has1 (f : V1) (v : String) : Bool := f.containsBytes (b v) = .ok true
def hasNot1 (f : V1) (v : String) : Bool := f.containsBytes (b v) = .ok false

-- v1.rs:473-480 `test_bloom`
#guard [true, false].all fun d =>
  (mk1 d 100000 p3 []).any (hasNot1 · "value") &&
  (mk1 d 100000 p3 ["value"]).any fun f => has1 f "value" && f.count == 1 && hasNot1 f "unknown"

-- v1.rs:483-487 `test_macro`
#guard (mk1 true 1000 p4 ["hello", "world"]).any fun f => has1 f "hello" && has1 f "world"

/-- Bytes `0..255` (`v1.rs:492`) -/
def blob (n : Nat) : List U8 := (List.range n).map (BitVec.ofNat 8)

/-- What `write` puts into an empty growing cursor. -/
def written1 (f : V1) : Option (List U8) := (get (f.write ⟨[], none⟩)).map (·.out)

-- v1.rs:490-505 `test_serialization`
#guard ((mk1 true 1000 p4 ["deserialization", "test"]).bind fun f =>
    (written1 { f with data := blob 255 }).bind fun bytes =>
      val (V1.fromReader (env true) (Reader.ofBytes bytes))).any fun f =>
  f.fpp == p4 && has1 f "deserialization" && has1 f "test" && hasNot1 f "hello" &&
    hasNot1 f "world" && f.data == blob 255

-- v1.rs:508-521 `test_partial_deserialization`
#guard ((mk1 true 1000 p4 ["deserialization", "test"]).bind fun f =>
    (written1 { f with data := blob 255 }).bind fun bytes =>
      val (V1.fromReader' (env true) true (Reader.ofBytes bytes))).any fun f =>
  f.fpp == p4 && f.capacity == 1000 && f.count == 2 && f.data == blob 255

/-- The file `poppy/src/data/test.bloom`, made by the Go implementation: 1504 little-endian
words, here those that are not zero. -/
def goFile : List U8 :=
  let words : List (Nat × U64) :=
    [(0, 0x1), (1, 0x2710), (2, 0x3f847ae147ae147b), (3, 0x7), (4, 0x1766a), (5, 0x2),
     (30, 0x8000000), (267, 0x200000), (297, 0x2), (584, 0x8), (610, 0x20000), (751, 0x2000),
     (796, 0x80000), (899, 0x2000), (976, 0x2), (1087, 0x20000), (1102, 0x8000000), (1202, 0x2),
     (1239, 0x20000000000), (1499, 0x8000000000000000)]
  (List.range 1504).flatMap fun i => u64ToLe ((words.lookup i).getD 0)

-- v1.rs:524-538 `test_deserialization`
#guard (val (V1.fromReader (env true) (Reader.ofBytes goFile))).any fun f =>
  (mk1 true 10000 p2 []).any (fun pb => pb.hasSameParams f) && has1 f "hello" && has1 f "world" &&
    hasNot1 f "hello world" && hasNot1 f "this" && hasNot1 f "that"
-- more: the model makes the very same file from the two entries
#guard (mk1 true 10000 p2 ["hello", "world"]).bind written1 = some goFile

/-- `union_merge` of two filters made with the macro -/
def union1 (c1 c2 : U64) : Option (V1 × Res Unit) := do
  let f ← mk1 true c1 p4 ["hello", "world"]
  let o ← mk1 true c2 p4 ["union", "test"]
  some (f.unionMerge (env true) o)

-- v1.rs:541-555 `test_union`
#guard ((union1 1000 1000).bind get).any fun f =>
  ["hello", "world", "union", "test"].all (has1 f) && f.countEstimate == 4
-- v1.rs:558-563 `test_union_failure`
#guard (union1 1000 100).any fun r => (val r.2).isNone && r.2 != .panic
-- v1.rs:566-574 `test_clear`
#guard (mk1 true 1000 p4 ["hello", "world"]).any fun f => f.countEstimate == 2 &&
  hasNot1 f.clear "hello" && hasNot1 f.clear "world" && f.clear.countEstimate == 0
-- v1.rs:577-585 `test_too_many_entries`
#guard (mk1 true 5 p4 ["hello", "world", "toasting", "bloom", "filter"]).any fun f =>
  f.countEstimate == 5 &&
  (f.insertBytes (env true) (b "everything should explode, OMG !")).2 == .err .tooManyEntries
-- v1.rs:603-630 `test_show_bug_in_v1`: only the size of the bit vector
#guard isPowerOfTwo (bitSizeFor libm 109397 (FVal.ofBits p2))
-- v1.rs:633-636 `test_contains_on_empty`
#guard (mk1 true 0 p3 []).any (hasNot1 · "42")

/-! ## `bloom/v2.rs` -/

-- v2.rs:702-714 `test_bitset` (the first and the last 64 bits)
#guard ((List.range 64 ++ (List.range 64).map (32704 + ·)).foldl (fun (s : BitSet 4096 × Bool) i =>
    let i := BitVec.ofNat 64 i
    let r1 := s.1.setNthBit i
    let r2 := r1.1.setNthBit i
    (r2.1, s.2 && decide (r1.2 = Res.ok false ∧ r2.2 = Res.ok true ∧ r2.1.getNthBit i = Res.ok true)))
  (BitSet.new 4096, true)).2

/-- The test module's `bloom!` macro (`v2.rs:688-699`): keys are inserted as `&str`. -/
def mk2 (d : Bool) (cap : U64) (p : F64) (vs : List String) : Option V2 := do
  let f ← val (V2.withCapacity (env d) cap p)
  vs.foldlM (fun f v => get (f.insert (env d) (.str (b v)))) f

def has2 (f : V2) (v : String) : Bool := f.containsBytes (env true) (b v) = .ok true
def hasKey2 (f : V2) (v : String) : Bool := f.contains (env true) (.str (b v)) = .ok true
def hasOld2 (f : V2) (v : String) : Bool := f.containsBytesOld (env true) (b v) = .ok true

-- v2.rs:752-761 `test_bloom`
#guard (mk2 true 10000 p3 []).any fun f => !hasOld2 f "hello" &&
  (get (f.insertBytes (env true) (b "hello"))).any fun f =>
    hasOld2 f "hello" && hasKey2 f "hello" && has2 f "hello" && f.count == 1 &&
      decide (f.contains (env true) (.str (b "unknown")) = .ok false)

-- v2.rs:764-780 `test_poppy_hash_compatibility`
#guard (do
    let f ← mk2 true 10000 p3 ["hello"]
    let f ← get (f.insert (env true) (.string (b "some string")))
    get (f.insertBytesOld (env true) (b "some old string"))).any fun f =>
  ["hello", "some string", "some old string"].all (fun v => hasOld2 f v && hasKey2 f v) &&
    !hasKey2 f "unknown"

-- v2.rs:783-794 `test_insert_contains_by_iter` (20 entries)
#guard ((List.range 20).foldlM (fun (f : V2) (i : Nat) => do
    let it := V2.buildIndexIter (env true) (.int .i32 i)
    let f ← get (f.insertIter (env true) it)
    if f.containsIter (env true) it = .ok true then some f else none)
  =<< mk2 true 10000 p3 []).isSome

-- v2.rs:797-811 `test_union`
#guard (do
    let f ← mk2 true 1000 p4 ["hello", "world"]
    let o ← mk2 true 1000 p4 ["union", "test"]
    get (f.unionMerge (env true) o)).any fun (f : V2) =>
  f.countEstimate == 4 && ["hello", "world", "union", "test"].all (has2 f)

-- v2.rs:814-836 `test_intersection`
#guard (do
    let f ← mk2 true 1000 p4 ["hello", "world", "testing", "bloom", "filters"]
    let o ← mk2 true 1000 p4 ["hello", "from", "intersecting", "two", "filters"]
    let n ← val (f.countCommonEntries (env true) o)
    let f ← val (f.intersection (env true) o)
    some (n, f)).any fun (r : U64 × V2) =>
  r.1 == 2 && r.2.countEstimate == 2 && ["hello", "filters"].all (has2 r.2)

def written2 (f : V2) : Option (List U8) := (get (f.write ⟨[], none⟩)).map (·.out)

-- v2.rs:1013-1032 `test_serialization`
#guard ((mk2 true 1000 p4 ["deserialization", "test"]).bind fun f =>
    (written2 { f with data := blob 256 }).bind fun bytes =>
      val (V2.fromReader (env true) (Reader.ofBytes bytes))).any fun f =>
  f.fpp == p4 && has2 f "deserialization" && has2 f "test" && !has2 f "hello" &&
    !has2 f "world" && f.data == blob 256

-- v2.rs:1035-1055 `test_partial_deserialization`
#guard (do
    let f ← val (((Params.new 1000 p4).withOpt .best).tryIntoV2 (env true))
    let f ← get (f.insert (env true) (.str (b "hello")))
    let f ← get (f.insert (env true) (.str (b "world")))
    let f := { f with data := blob 256 }
    let bytes ← written2 f
    let g ← val (V2.fromReader' (env true) true (Reader.ofBytes bytes))
    some (f, g)).any fun (r : V2 × V2) =>
  r.2.fpp == p4 && r.2.capacity == 1000 && r.2.count == 2 && r.2.data == blob 256 &&
    decide (r.2.sizeInBytes (env true) = r.1.sizeInBytes (env true))

-- v2.rs:1058-1061 `test_contains_on_empty`
#guard (mk2 true 0 p3 []).any fun f => !has2 f "toto"

/-! ## `bloom.rs` -/

-- bloom.rs:467-472 `test_opt_level`
example : OptLevel.tryFrom 0#8 = .ok .none ∧ OptLevel.tryFrom 1#8 = .ok .space ∧
    OptLevel.tryFrom 2#8 = .ok .speed ∧ OptLevel.tryFrom 3#8 = .ok .best := by decide

-- bloom.rs:475-482 `test_is_full`
#guard (val (Bloom.macroNew (env true) 10 p3)).any fun f => !f.isFull &&
  ((List.range 10).foldlM (fun f (i : Nat) =>
    get (f.insertBytes (env true) (IntTy.bytes .i32 i))) f).any (·.isFull)

-- bloom.rs:430-446 documentation of the macro
#guard (val (Bloom.macroFill (env true) 100 p1 [b "hello", b "world"])).any fun f =>
  decide (f.containsBytes (env true) (b "hello") = .ok true ∧
    f.containsBytes (env true) (b "world") = .ok true)

end Poppy.Conformance
