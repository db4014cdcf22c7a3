import Mathlib.Data.Nat.Choose.Basic
import Verif.Model.Basic

/-!
# Specification vocabulary

Small definitions the properties are stated with.  They do not use the model's functions
(only its byte and word types), so that a property does not merely restate the code.
-/

namespace Spec

open Poppy (U8 U64)

/-- Bit number `i` of a bit array stored in blocks of `w` bits, least significant bit first;
`false` beyond the end. -/
def bitAt {w : ℕ} (l : List (BitVec w)) (i : ℕ) : Bool := (l.getD (i / w) 0).getLsbD (i % w)

/-- Number of indexes below `n` satisfying `p`. -/
def countBelow (n : ℕ) (p : ℕ → Bool) : ℕ := (List.range n).countP p

/-- 64-bit FNV-1 (http://www.isthe.com/chongo/tech/comp/fnv/): for each octet, multiply by the
prime, then xor the octet. -/
def fnv1 (bytes : List U8) : ℕ :=
  bytes.foldl (fun h b => Nat.xor (h * 0x100000001B3 % 2 ^ 64) b.toNat) 0xcbf29ce484222325

/-- DCSO format: the chain of 64-bit values from which the probes of a key are taken.
Modulus and multiplier are the constants of the DCSO bloom filter. -/
def dcsoChain (h : ℕ) : ℕ → ℕ
  | 0 => h % 18446744073709551557
  | n + 1 => (dcsoChain h n * 18446744073709550147) % 2 ^ 64 % 18446744073709551557

/-- DCSO format: `n`-th (from 0) probed bit of a key in a filter of `m` bits. -/
def dcsoProbe (key : List U8) (m n : ℕ) : ℕ := dcsoChain (fnv1 key) (n + 1) % m

/-- The multiplier of the DCSO format. -/
def dcsoMul : ℕ := 18446744073709550147

/-- The first `n` products of the hash with powers of the multiplier stay below the modulus of the
DCSO format. -/
def Unreduced (h n : ℕ) : Prop := ∀ i ≤ n, h * dcsoMul ^ i % 2 ^ 64 < 18446744073709551557

instance (h n : ℕ) : Decidable (Unreduced h n) :=
  inferInstanceAs (Decidable (∀ i ≤ n, h * dcsoMul ^ i % 2 ^ 64 < 18446744073709551557))

/-- Poppy format: `n`-th (from 0) probed bit, in a bucket of 32768 bits, of a key whose 64-bit
hash is `h`, where `H` is the second hash (triangular double hashing). -/
def poppyProbe (h H n : ℕ) : ℕ := (h + n * H + Nat.choose (n + 1) 3) % 2 ^ 64 % 32768

/-- Poppy format: mixing of a key hash to choose its bucket and index cache bit (xorshift* with the
shifts 12, 25, 27). -/
def xorshift (h : ℕ) : ℕ :=
  let a := Nat.xor h (h * 2 ^ 12 % 2 ^ 64)
  let b := Nat.xor a (a / 2 ^ 25)
  let c := Nat.xor b (b * 2 ^ 27 % 2 ^ 64)
  c * 2685821657736338717 % 2 ^ 64

/-- Little-endian digits of `x` on `n` bytes. -/
def le (n x : ℕ) : List U8 := (List.range n).map (fun i => BitVec.ofNat 8 (x / 256 ^ i % 256))

/-- Value of a byte string read as a little-endian number. -/
def leVal : List U8 → ℕ
  | [] => 0
  | b :: bs => b.toNat + 256 * leVal bs

/-- File layout of the poppy format (version 2). -/
def v2Bytes (opt capacity fppBits nHash count : ℕ) (cache : List U8) (buckets : List (List U8))
    (data : List U8) : List U8 :=
  [2, BitVec.ofNat 8 opt, 0, 0, 0, 0, 0, 0] ++ le 8 capacity ++ le 8 fppBits ++ le 8 nHash
    ++ le 8 count ++ le 8 (cache.length * 8) ++ cache ++ le 8 buckets.length
    ++ buckets.flatten ++ data

/-- File layout of the DCSO format (version 1). -/
def v1Bytes (capacity fppBits nHash bitSize count : ℕ) (words : List ℕ) (data : List U8) :
    List U8 :=
  [1, 0, 0, 0, 0, 0, 0, 0] ++ le 8 capacity ++ le 8 fppBits ++ le 8 nHash ++ le 8 bitSize
    ++ le 8 count ++ (words.map (le 8)).flatten ++ data

/-- UTF-8 encoding of a Unicode scalar value (Lean's own encoder, as bit vectors). -/
def utf8 (c : Char) : List U8 := (String.utf8EncodeChar c).map UInt8.toBitVec

/-- The bytes are the UTF-8 encoding of some text. -/
def IsUtf8 (bs : List U8) : Prop := ∃ cs : List Char, bs = cs.flatMap utf8

/-- A line without its line feed, and without one carriage return at its end. -/
def dropCr (l : List U8) : List U8 := if l.getLast? = some 13#8 then l.dropLast else l

/-- The text made of lines, each followed by a line feed, and an unterminated last one. -/
def unlines (ls : List (List U8)) (last : List U8) : List U8 := ls.flatMap (· ++ [10#8]) ++ last

end Spec
