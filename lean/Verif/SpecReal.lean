import Mathlib.Analysis.SpecialFunctions.Log.Base

/-! # Textbook formulas

The formulas of Bloom filters with real numbers.  They use nothing of the model. -/

namespace Spec

/-- Number of bits of the best Bloom filter for `n` entries and false positive probability `p`. -/
noncomputable def bestBits (n p : ℝ) : ℝ := n * -Real.log p / Real.log 2 ^ 2

/-- Best number of hash functions for `m` bits and `n` entries. -/
noncomputable def bestHashes (m n : ℝ) : ℝ := m / n * Real.log 2

/-- Number of entries that fit in `m` bits with false positive probability `p`. -/
noncomputable def bestCapacity (m p : ℝ) : ℝ := m * Real.log 2 ^ 2 / -Real.log p

/-- Estimate of the number of entries in `m` bits with `k` hash functions and `x` bits set. -/
noncomputable def entries (m k x : ℝ) : ℝ := -(m / k) * Real.log (1 - x / m)

/-- Probability that `k` independent probes of `m` bits all hit set bits, after `n` insertions. -/
noncomputable def falsePos (m : ℝ) (k : ℕ) (n : ℝ) : ℝ := (1 - Real.exp (-(k * n / m))) ^ k

end Spec
