import Mathlib.Analysis.Calculus.Deriv.MeanValue
import Mathlib.Analysis.SpecialFunctions.Log.Deriv
import Mathlib.Analysis.SpecialFunctions.Pow.Real
import Verif.Lemmas.AccuracySizes
import Verif.SpecReal

/-! # The textbook false positive probability -/

namespace Poppy

open Spec

/-- Entropy is below a parabola on the left half of the unit interval. -/
theorem neg_mul_log_le {u : ℝ} (h0 : 0 < u) (h1 : u ≤ 1 / 2) :
    -(u * Real.log u) ≤ (1 - u) * (1 / 4 + u) := by
  have hl := log_two_bounds
  have tangent : ∀ a : ℝ, 0 < a → -(u * Real.log u) ≤ a - u - u * Real.log a := by
    intro a ha
    have h := Real.log_le_sub_one_of_pos (div_pos ha h0)
    rw [Real.log_div ha.ne' h0.ne'] at h
    have h2 := mul_le_mul_of_nonneg_left h h0.le
    have h3 : u * (a / u - 1) = a - u := by field_simp
    rw [h3] at h2
    linarith
  rcases le_total u (36 / 100) with hu | hu
  · have := tangent (1 / 4) (by norm_num)
    rw [show Real.log (1 / 4) = -(2 * Real.log 2) by
      rw [one_div, Real.log_inv, show (4 : ℝ) = 2 ^ 2 by norm_num, Real.log_pow]; push_cast; ring] at this
    nlinarith
  · have := tangent (1 / 2) (by norm_num)
    rw [show Real.log (1 / 2) = -Real.log 2 by rw [one_div, Real.log_inv]] at this
    nlinarith

/-- Rounding the number of hash functions up costs little. -/
theorem log_fill_le {t : ℝ} (ht : 1 ≤ t) :
    t * Real.log (1 - Real.exp (-(t * Real.log 2))) ≤ (t - 1) / 4 - Real.log 2 := by
  have hl := log_two_bounds
  have hl0 : 0 < Real.log 2 := by linarith
  set L := Real.log 2 with hL
  have e1 : Real.exp (-(1 * L)) = 1 / 2 := by
    rw [one_mul, Real.exp_neg, hL, Real.exp_log (by norm_num)]; norm_num
  have hu : ∀ s : ℝ, 1 ≤ s → 0 < Real.exp (-(s * L)) ∧ Real.exp (-(s * L)) ≤ 1 / 2 := by
    intro s hs
    refine ⟨Real.exp_pos _, ?_⟩
    rw [← e1]
    apply Real.exp_le_exp.2
    nlinarith
  have hd : ∀ s : ℝ, 1 ≤ s → HasDerivAt
      (fun x : ℝ => (x - 1) / 4 - L - x * Real.log (1 - Real.exp (-(x * L))))
      (1 / 4 - (1 * Real.log (1 - Real.exp (-(s * L))) +
        s * (-(Real.exp (-(s * L)) * -(1 * L)) / (1 - Real.exp (-(s * L)))))) s := by
    intro s hs
    have h1 := hu s hs
    have a := ((((hasDerivAt_id s).mul_const L).neg.exp).const_sub 1).log
      (by simp only [id, Pi.neg_apply]; linarith [h1.2])
    have b := (hasDerivAt_id s).mul a
    have c := ((((hasDerivAt_id s).sub_const 1).div_const 4).sub_const L).sub b
    exact c.congr_deriv (by simp)
  have hmono : MonotoneOn
      (fun x : ℝ => (x - 1) / 4 - L - x * Real.log (1 - Real.exp (-(x * L)))) (Set.Ici 1) := by
    apply monotoneOn_of_deriv_nonneg (convex_Ici 1)
    · exact fun s hs => (hd s hs).continuousAt.continuousWithinAt
    · intro s hs
      rw [interior_Ici] at hs
      exact (hd s hs.le).differentiableAt.differentiableWithinAt
    · intro s hs
      rw [interior_Ici] at hs
      have hs1 : 1 ≤ s := hs.le
      rw [(hd s hs1).deriv]
      obtain ⟨u0, u1⟩ := hu s hs1
      have hlog : Real.log (Real.exp (-(s * L))) = -(s * L) := Real.log_exp _
      have h1 := Real.log_le_sub_one_of_pos (show 0 < 1 - Real.exp (-(s * L)) by linarith)
      have h2 := neg_mul_log_le u0 u1
      rw [hlog] at h2
      generalize Real.exp (-(s * L)) = u at *
      have h3 : s * (-(u * -(1 * L)) / (1 - u)) ≤ 1 / 4 + u := by
        rw [mul_div_assoc', div_le_iff₀ (by linarith)]
        linarith
      linarith
  have := hmono (Set.mem_Ici.2 le_rfl) (Set.mem_Ici.2 ht) ht
  simp only [e1] at this
  rw [show (1 : ℝ) - 1 / 2 = 2⁻¹ by norm_num, Real.log_inv, ← hL] at this
  linarith

theorem falsePos_mono {m : ℝ} (hm : 0 ≤ m) (k : ℕ) {a b : ℝ} (ha : 0 ≤ a) (h : a ≤ b) :
    falsePos m k a ≤ falsePos m k b := by
  unfold falsePos
  have h1 : (k : ℝ) * a / m ≤ k * b / m :=
    div_le_div_of_nonneg_right (mul_le_mul_of_nonneg_left h (Nat.cast_nonneg _)) hm
  have h2 : 0 ≤ (k : ℝ) * a / m := by positivity
  refine pow_le_pow_left₀ ?_ ?_ _
  · have := Real.exp_le_one_iff.2 (neg_nonpos.2 h2)
    linarith
  · have := Real.exp_le_exp.2 (neg_le_neg h1)
    linarith

/-- With nearly the best number `x` of hash functions, the probability is nearly `2 ^ -x`. -/
theorem falsePos_le {m n : ℝ} {k : ℕ} (hm : 0 ≤ m) (hn : 0 < n) {e : ℝ} (e0 : 0 ≤ e) (e1 : e < 1)
    (h1 : bestHashes m n * (1 - e) ≤ k) (h2 : k < bestHashes m n * (1 + e) + 1) :
    falsePos m k n ≤ Real.exp (1 / 4 - bestHashes m n * Real.log 2 * (1 - e)) := by
  have hl := log_two_bounds
  have hl0 : 0 < Real.log 2 := by linarith
  rcases hm.eq_or_lt with rfl | hm
  · have : k = 0 := by
      have : (k : ℝ) < 1 := by simpa [bestHashes] using h2
      exact_mod_cast Nat.lt_one_iff.1 (by exact_mod_cast this)
    subst this
    simp [falsePos, bestHashes]
  have hx : 0 < bestHashes m n := by unfold bestHashes; positivity
  have hkx : (k : ℝ) * n / m = k / bestHashes m n * Real.log 2 := by
    unfold bestHashes; field_simp
  have hk : 0 < (k : ℝ) := lt_of_lt_of_le (mul_pos hx (by linarith)) h1
  unfold falsePos
  rw [hkx]
  generalize bestHashes m n = x at *
  have ht : 0 < (k : ℝ) / x := div_pos hk hx
  have hb : 0 < 1 - Real.exp (-(k / x * Real.log 2)) := by
    have : Real.exp (-(k / x * Real.log 2)) < 1 := Real.exp_lt_one_iff.2 (by
      have := mul_pos ht hl0; linarith)
    linarith
  rw [← Real.log_le_iff_le_exp (pow_pos hb _), Real.log_pow]
  rcases le_total 1 ((k : ℝ) / x) with h | h
  · have a := mul_le_mul_of_nonneg_left (log_fill_le h) hx.le
    rw [← mul_assoc, mul_div_cancel₀ _ hx.ne'] at a
    have b : x * (((k : ℝ) / x - 1) / 4 - Real.log 2) = (k - x) / 4 - x * Real.log 2 := by
      field_simp
    rw [b] at a
    nlinarith [mul_nonneg hx.le e0]
  · have a : 1 - Real.exp (-(k / x * Real.log 2)) ≤ 2⁻¹ := by
      have : Real.exp (-Real.log 2) ≤ Real.exp (-(k / x * Real.log 2)) :=
        Real.exp_le_exp.2 (by nlinarith)
      rw [Real.exp_neg, Real.exp_log (by norm_num)] at this
      linarith
    have b := Real.log_le_log hb a
    rw [Real.log_inv] at b
    have c := mul_le_mul_of_nonneg_left b hk.le
    have d := mul_le_mul_of_nonneg_right h1 hl0.le
    nlinarith

/-- The exponent of the bound. -/
theorem exp_rpow_le {p : ℝ} (h0 : 0 < p) (h1 : p ≤ 1) {a c d e : ℝ} (ha : a ≤ c + d * Real.log p)
    (hd : e ≤ d) : Real.exp a ≤ Real.exp c * p ^ e := by
  rw [Real.rpow_def_of_pos h0, ← Real.exp_add]
  apply Real.exp_le_exp.2
  have := Real.log_nonpos h0.le h1
  nlinarith

end Poppy
