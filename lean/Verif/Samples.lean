import Verif.Lemmas.V2Ops
import Verif.Lemmas.Fpp
import Verif.Lemmas.Libm

/-!
# Concrete objects

Used beside the theorems to show that their hypotheses can be met by non-trivial filters.  They
are tests of the statements, not part of any proof.
-/

namespace Poppy.Sample

/-- Enough of a floating point library: `ln 0.01`, `ln 2` and the square of `ln 2` are the values
of the real functions rounded to `f64`. -/
def libm : Libm where
  ln := fun x => if x = .fin 1 then .fin 0 else if x = .fin 2 then .fin (6243314768165359 / 2 ^ 53)
    else .fin (-5185014223283463 / 2 ^ 50)
  exp := fun _ => .fin (1 / 4)
  powf := fun _ _ => .fin (8655073435229077 / 2 ^ 54)

/-- An environment: 1 MiB of memory, release build, a toy hash function. -/
def env : Env :=
  ⟨libm, fun ws => BitVec.ofNat 64 (leToNat ws.flatten * 2654435761 + 12345), false, 2 ^ 20, by norm_num⟩

/-- Same in a debug build. -/
def envDebug : Env := { env with debug := true }

/-- `0.01f64` -/
def p001 : F64 := 0x3F847AE147AE147B#64

theorem env_small : env.Small := by unfold Env.Small env; norm_num

/-- It meets the accuracy assumptions. -/
theorem libm_spec : env.libm.Spec where
  ln_one := rfl
  ln_below_one := by
    intro q _ _ h
    refine ⟨-5185014223283463 / 2 ^ 50, ?_, by norm_num, by norm_num⟩
    show (if (FVal.fin q) = .fin 1 then FVal.fin 0 else if (FVal.fin q) = .fin 2 then
      .fin (6243314768165359 / 2 ^ 53) else .fin (-5185014223283463 / 2 ^ 50)) = _
    rw [if_neg, if_neg]
    · intro hq; cases hq; norm_num at h
    · intro hq; cases hq; norm_num at h
  ln_two := ⟨6243314768165359 / 2 ^ 53, by decide +kernel, by norm_num, by norm_num⟩
  ln_two_sq := ⟨8655073435229077 / 2 ^ 54, by decide +kernel, by norm_num, by norm_num⟩

theorem p001_inRange : fppInRange p001 = true := (fppInRange_iff _).2 (by decide)

/-- Two buckets, a cache of 1024 bytes, four hash functions. -/
def f2 : V2 :=
  { flags := (Flags.new 2#8).withOpt .best
    indexCache := VecBitSet.withBitCapacity 8192
    nBuckets := 2
    cacheByteSize := BitVec.ofNat 64 (VecBitSet.withBitCapacity 8192).byteLen
    buckets := List.replicate 2 (BitSet.new BUCKET_SIZE)
    capacity := 5000
    fpp := p001
    nHashBuck := 4
    count := 0
    data := [] }

theorem f2_make : V2.make env 5000 p001 .best = .ok f2 := by
  have hs : V2.sizes Sample.env 5000 Sample.p001 .best = .ok (2, 4, 8192) := by decide +kernel
  have hc : (byteCapFromBitCap 8192).toNat = 1024 := by decide +kernel
  unfold V2.make
  rw [p001_inRange, hs]
  simp only [Bool.not_true, Bool.false_eq_true, if_false, Res.bind_ok]
  rw [Env.alloc_of_le (by rw [hc]; unfold Sample.env; norm_num)]
  simp only [Res.bind_ok]
  rw [Env.alloc_of_le (by decide)]
  rfl

/-- A v1 filter: 100 entries, 15 words. -/
def f1 : V1 := ⟨Flags.new 1, List.replicate 15 0, 100, p001, 7, 958, 0, [], Fingerprint.new 7 958⟩

theorem f1_make : V1.withCapacity env 100 p001 = .ok f1 := by decide +kernel

end Poppy.Sample
