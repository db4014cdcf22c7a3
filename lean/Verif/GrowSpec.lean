import Verif.Model.Bloom

/-! # Vocabulary of C122: parameters that ask for more -/

namespace Poppy

/-- How much a level asks for: buckets only, buckets and an index cache, or also powers of two
(`v2.rs:297-312`). -/
def OptLevel.rank : OptLevel → ℕ
  | .none => 0
  | .space => 0
  | .best => 1
  | .speed => 2

/-- What a filter is created from, besides the version. -/
structure Wish where
  capacity : U64
  fpp : F64
  opt : OptLevel

/-- The filter asked for. -/
def Wish.grant (w : Wish) (env : Env) (version : U8) : Res Bloom :=
  Bloom.withVersionCapacityOpt env version w.capacity w.fpp w.opt

/-- At least as many entries, a probability at least as small, a level that asks for at least as
much.  The probabilities are at most 1. -/
structure Wish.Exceeds (big small : Wish) : Prop where
  capacity : small.capacity.toNat ≤ big.capacity.toNat
  fpp : FVal.le (FVal.ofBits big.fpp) (FVal.ofBits small.fpp) = true
  fpp_le : FVal.le (FVal.ofBits small.fpp) (.fin 1) = true
  opt : small.opt.rank ≤ big.opt.rank

end Poppy
