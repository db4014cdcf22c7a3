/-!
# Basic vocabulary of the model

Machine integers, results, environment.  All line numbers refer to the pinned
sources under `/repo`.  `poppy/src/bloom.rs` is abbreviated `bloom.rs`,
`poppy/src/bloom/v1.rs` is `v1.rs`, and so on.
-/

namespace Poppy

/-- Rust `u8`. -/
abbrev U8 := BitVec 8
/-- Rust `u64`, and `usize` (the model fixes a 64-bit platform). -/
abbrev U64 := BitVec 64
/-- A stored Rust `f64`: its raw 64 bits (what `to_le_bytes`/`from_le_bytes` move around). -/
abbrev F64 := BitVec 64

/-- `std::io::ErrorKind`, only the kinds the modelled code can meet. -/
inductive IoKind where
  /-- `read_exact` hit the end of the input -/
  | unexpectedEof
  /-- seek to a negative position -/
  | invalidInput
  /-- invalid UTF-8 met by `BufRead::lines` -/
  | invalidData
  /-- `File::open` on a missing path -/
  | notFound
  /-- any other operating system error reported by the underlying reader or writer -/
  | other
  deriving DecidableEq, Repr

/-- `bloom.rs:98-114` `enum Error` (with `OptLevelError::Invalid`, `bloom.rs:79-83`, inlined).
The last constructor stands for the `anyhow!` errors of the binary
(`bin/poppy.rs:294`). -/
inductive Error where
  | wrongFpp (fpp : F64)
  | ioError (k : IoKind)
  | invalidVersion (v : U8)
  | merge (msg : String)
  | optLevel (v : U8)
  | tooManyEntries
  | uninitIter
  | other (msg : String)
  deriving DecidableEq, Repr

/-- Outcome of a Rust function returning `Result<α, Error>` that may also panic.
`panic` stands for any panic or allocation abort. -/
inductive Res (α : Type) where
  | ok (a : α)
  | err (e : Error)
  | panic
  deriving DecidableEq, Repr

namespace Res

/-- `?` operator / sequencing. -/
@[simp] def bind {α β : Type} (x : Res α) (f : α → Res β) : Res β :=
  match x with
  | ok a => f a
  | err e => err e
  | panic => panic

instance : Monad Res where
  pure := ok
  bind := bind

@[simp] theorem pure_def {α : Type} (a : α) : (pure a : Res α) = ok a := rfl
@[simp] theorem bind_ok {α β : Type} (a : α) (f : α → Res β) : (ok a >>= f) = f a := rfl
@[simp] theorem bind_err {α β : Type} (e : Error) (f : α → Res β) : (err e >>= f) = err e := rfl
@[simp] theorem bind_panic {α β : Type} (f : α → Res β) : ((panic : Res α) >>= f) = panic := rfl

/-- `Result::unwrap`: an error becomes a panic. -/
def unwrap {α : Type} : Res α → Res α
  | ok a => ok a
  | err _ => panic
  | panic => panic

/-- Apply a function to the `Ok` value. -/
def map {α β : Type} (f : α → β) : Res α → Res β
  | ok a => ok (f a)
  | err e => err e
  | panic => panic

end Res

/-- Checked `usize`/`u64` addition: with overflow checks (debug profile) an
overflow panics, otherwise it wraps. -/
def addU64 (debug : Bool) (a b : U64) : Res U64 :=
  if debug && decide (2 ^ 64 ≤ a.toNat + b.toNat) then .panic else .ok (a + b)

/-- Checked `usize`/`u64` multiplication, see `addU64`. -/
def mulU64 (debug : Bool) (a b : U64) : Res U64 :=
  if debug && decide (2 ^ 64 ≤ a.toNat * b.toNat) then .panic else .ok (a * b)

/-- `count_ones` of a machine integer: number of bits set. -/
def countOnes {w : Nat} (x : BitVec w) : Nat := (List.range w).countP (fun i => x.getLsbD i)

/-- `count_zeros` of a machine integer. -/
def countZeros {w : Nat} (x : BitVec w) : Nat := w - countOnes x

/-- `u64::is_power_of_two` / `usize::is_power_of_two`: std computes `count_ones() == 1`. -/
def isPowerOfTwo (x : U64) : Bool := countOnes x == 1

/-- `u64::next_power_of_two`.  std: `1` for `0` and `1`, otherwise one more than
`MAX >> leading_zeros(x-1)`; the final `+ 1` overflows for `x > 2^63`: panic with overflow
checks, `0` otherwise. -/
def nextPowerOfTwo (debug : Bool) (x : U64) : Res U64 :=
  if x.toNat ≤ 1 then .ok 1
  else
    let p := 2 ^ (Nat.log2 (x.toNat - 1) + 1)
    if p < 2 ^ 64 then .ok (BitVec.ofNat 64 p)
    else if debug then .panic else .ok 0

/-- Little-endian bytes of a number on `n` bytes (`to_le_bytes`). -/
def natToLe : Nat → Nat → List U8
  | 0, _ => []
  | n + 1, x => BitVec.ofNat 8 (x % 256) :: natToLe n (x / 256)

/-- Value of a little-endian byte string (`from_le_bytes`). -/
def leToNat : List U8 → Nat
  | [] => 0
  | b :: bs => b.toNat + 256 * leToNat bs

/-- `u64::to_le_bytes` and, on the raw bits, `f64::to_le_bytes`. -/
def u64ToLe (x : U64) : List U8 := natToLe 8 x.toNat

/-- `u64::to_be_bytes`. -/
def u64ToBe (x : U64) : List U8 := (u64ToLe x).reverse

/-- `u64::from_le_bytes` and, on the raw bits, `f64::from_le_bytes`. -/
def u64OfLe (bs : List U8) : U64 := BitVec.ofNat 64 (leToNat bs)

end Poppy
