import Mathlib.Analysis.SpecialFunctions.Log.Basic
import Verif.Model.Utils

/-!
# Assumptions

Everything theorems assume about the machine and about external numeric code.  Theorems take these
as hypotheses; the correctly rounded functions are shown to meet them (`Libm.exact_spec`,
`Libm.exact_lnSpec`, `Libm.exact_accurate`, `Libm.exact_accurateExp`,
`Libm.exact_accuratePow`, `statrsMean_spec`, `statrs_measureSpec`).
-/

namespace Poppy

/-- Allocations stay below 1 PiB, so that all sizes are exact as `f64`. -/
def Env.Small (env : Env) : Prop := env.allocLimit < 2 ^ 50

/-- Finite binary64 numbers, without upper exponent limit. -/
def IsF (q : ℚ) : Prop := ∃ m e : ℤ, |m| ≤ 2 ^ 53 ∧ -1074 ≤ e ∧ q = m * (2 : ℚ) ^ e

/-- What is assumed of `ln` and `powf`: rough bounds, far weaker than the usual accuracy of one
unit in the last place. -/
structure Libm.Spec (lm : Libm) : Prop where
  ln_one : lm.ln (.fin 1) = .fin 0
  ln_below_one : ∀ q, IsF q → 2 ^ (-1022 : ℤ) ≤ q → q < 1 →
    ∃ r, lm.ln (.fin q) = .fin r ∧ -709 ≤ r ∧ r < 0
  ln_two : ∃ r, lm.ln (.fin 2) = .fin r ∧ 69 / 100 ≤ r ∧ r ≤ 70 / 100
  ln_two_sq : ∃ r, lm.powf (lm.ln (.fin 2)) (.fin 2) = .fin r ∧ 48 / 100 ≤ r ∧ r ≤ 481 / 1000

/-- What the estimate needs of the logarithm. -/
structure Libm.LnSpec (lm : Libm) : Prop where
  ln_one : lm.ln (.fin 1) = .fin 0
  ln_nan : lm.ln .nan = .nan
  mono : ∀ p q, IsF p → IsF q → 0 ≤ p → p ≤ q → q ≤ 1 →
    FVal.le (lm.ln (.fin p)) (lm.ln (.fin q)) = true

/-- Half a unit in the last place. -/
noncomputable def halfUlp : ℝ := 2 ^ (-53 : ℤ)

/-- The functions of the floating point library are accurate to 2 units in the last place. -/
structure Libm.Accurate (lm : Libm) : Prop where
  ln : ∀ q : ℚ, IsF q → 2 ^ (-1022 : ℤ) ≤ q → q ≤ 1 ∨ q = 2 →
    ∃ r : ℚ, lm.ln (.fin q) = .fin r ∧ |(r : ℝ) - Real.log q| ≤ 4 * halfUlp * |Real.log q|
  sq : ∀ r : ℚ, lm.ln (.fin 2) = .fin r →
    ∃ s : ℚ, lm.powf (.fin r) (.fin 2) = .fin s ∧ |(s : ℝ) - r ^ 2| ≤ 4 * halfUlp * r ^ 2

/-- The functions used to estimate the probability of the index cache are accurate to 2 units in the
last place, for the arguments that occur there. -/
structure Libm.AccurateExp (lm : Libm) : Prop where
  exp : ∀ q : ℚ, IsF q → -2 ≤ q → q ≤ 0 →
    ∃ r : ℚ, lm.exp (.fin q) = .fin r ∧ |(r : ℝ) - Real.exp q| ≤ 4 * halfUlp * Real.exp q
  pow : ∀ x : ℚ, IsF x → 1 / 4 ≤ x → x ≤ 1 → ∀ k : ℕ, k = 1 ∨ k = 2 →
    ∃ s : ℚ, lm.powf (.fin x) (.fin k) = .fin s ∧ |(s : ℝ) - x ^ k| ≤ 4 * halfUlp * x ^ k

/-- Powers as used by `estimate_p` are accurate to 2 units in the last place. -/
def Libm.AccuratePow (lm : Libm) : Prop :=
  ∀ x : ℚ, IsF x → 1 / 4 ≤ x → x ≤ 1 → ∀ k : ℕ, k ≤ 400 →
    ∃ s : ℚ, lm.powf (.fin x) (.fin k) = .fin s ∧ |(s : ℝ) - x ^ k| ≤ 4 * halfUlp * x ^ k

/-- What is assumed of the mean. -/
structure Cli.MeanSpec (mean : List FVal → FVal) : Prop where
  nan : ∀ l, .nan ∈ l → mean l = .nan
  const : ∀ l q, IsF q → 0 ≤ q → q ≤ 1 → l ≠ [] → (∀ x ∈ l, x = .fin q) → mean l = .fin q

/-- A duration in seconds: less than 35 000 years. -/
def Cli.IsSecs (x : FVal) : Prop := ∃ q : ℚ, x = .fin q ∧ IsF q ∧ 0 ≤ q ∧ q ≤ 2 ^ 40

/-- What is assumed of measuring: the mean of no values is NaN, that of durations is finite and not
negative; one of the measured times, if there are several, is within three times their standard
deviation of their mean.  `statrs_measureSpec` shows it for the functions of `statrs` and runs that
are not too long. -/
structure Cli.MeasureSpec (mean stdDev : List FVal → FVal) (clock : ℕ → ℕ → ℕ) (runs : ℕ) :
    Prop where
  none : mean [] = .nan
  finite : ∀ l, l ≠ [] → (∀ x ∈ l, IsSecs x) → ∃ q : ℚ, mean l = .fin q ∧ 0 ≤ q ∧ q ≤ 2 ^ 41
  near : 2 ≤ runs → ∀ m l, l = (List.range runs).map (fun i => asSecs (clock m i)) → ∃ x ∈ l,
    FVal.le (FVal.abs (FVal.sub x (mean l))) (FVal.mul (.fin 3) (stdDev l)) = true
  clock : ∀ m i, clock m i < 2 ^ 40 * 10 ^ 9

end Poppy
