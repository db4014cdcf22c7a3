import Verif.Model.F64

/-!
# Model of `poppy/src/bloom/utils.rs` (sizing formulas) and of the environment
-/

namespace Poppy

/-- `1.0` -/
def FVal.one : FVal := .fin 1
/-- `2.0` -/
def FVal.two : FVal := .fin 2

/-- `utils.rs:1-4` `k`: `ceil(ln(2.0) * bit_size as f64 / (cap as f64)) as u64` -/
def kHash (lm : Libm) (bitSize cap : U64) : U64 :=
  FVal.toU64 (FVal.ceil
    (FVal.div (FVal.mul (lm.ln .two) (FVal.ofU64 bitSize)) (FVal.ofU64 cap)))

/-- `utils.rs:6-11` `bit_size`:
`abs(ceil((cap as f64) * ln(proba) / ln(2.0).powf(2.0))) as u64` -/
def bitSizeFor (lm : Libm) (cap : U64) (proba : FVal) : U64 :=
  FVal.toU64 (FVal.abs (FVal.ceil
    (FVal.div (FVal.mul (FVal.ofU64 cap) (lm.ln proba)) (lm.powf (lm.ln .two) .two))))

/-- `utils.rs:13-19` `estimate_p` -/
def estimateP (lm : Libm) (n bitSize : U64) : FVal :=
  let k := FVal.ofU64 (kHash lm bitSize n)
  lm.powf
    (FVal.sub .one
      (lm.exp (FVal.div (FVal.mul (FVal.neg k) (FVal.ofU64 n)) (FVal.ofU64 bitSize)))) k

/-- `utils.rs:21-24` `cap_from_bit_size`:
`abs(bit_size as f64 * ln(2.0).powf(2.0) / ln(proba)) as u64` -/
def capFromBitSize (lm : Libm) (bitSize : U64) (proba : FVal) : U64 :=
  FVal.toU64 (FVal.abs
    (FVal.div (FVal.mul (FVal.ofU64 bitSize) (lm.powf (lm.ln .two) .two)) (lm.ln proba)))

/-- The estimate shared by `update_count` and `count_common_entries`
(`v1.rs:331-333`, `v1.rs:403-405`, `v2.rs:567-569`, `v2.rs:582-584`):
`(-(bits as f64 * ln(1.0 - (ones as f64 / bits as f64))) / n_hash as f64) as u64` -/
def estimateCount (lm : Libm) (bits ones nHash : U64) : U64 :=
  FVal.toU64 (FVal.div
    (FVal.neg (FVal.mul (FVal.ofU64 bits)
      (lm.ln (FVal.sub .one (FVal.div (FVal.ofU64 ones) (FVal.ofU64 bits))))))
    (FVal.ofU64 nHash))

/-- What the code depends on besides its inputs. -/
structure Env where
  /-- floating point library -/
  libm : Libm
  /-- behaviour of the external WyHash hasher -/
  wy : List (List U8) → U64
  /-- built with overflow checks and debug assertions -/
  debug : Bool
  /-- allocations of more bytes than this fail (panic or abort) -/
  allocLimit : Nat
  /-- address spaces of 64-bit machines are smaller than this (at most `2^57` bytes today) -/
  allocLimit_lt : allocLimit < 2 ^ 60

/-- `vec![_; n]` with elements of `size` bytes: fails beyond the allocation limit. -/
def Env.alloc (env : Env) (n size : Nat) : Res Unit :=
  if n * size ≤ env.allocLimit then .ok () else .panic

end Poppy
