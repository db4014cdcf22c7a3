import Verif.Lemmas.FalsePos
import Mathlib.Algebra.BigOperators.Ring.Finset
import Mathlib.Analysis.Complex.Exponential

/-! # Loads drawn at random (for C98) -/

namespace Poppy

open Spec Finset

/-- The share of bits set stays below its tangent, on a logarithmic scale. -/
theorem fill_le_tangent {u v : ℝ} (hu : 0 < u) :
    1 - Real.exp (-v) ≤ (1 - Real.exp (-u)) * Real.exp ((v - u) / (Real.exp u - 1)) := by
  have h1 : Real.exp (-u) < 1 := by
    rw [← Real.exp_zero]; exact Real.exp_lt_exp.2 (by linarith)
  have h2 : 0 < Real.exp (-u) := Real.exp_pos _
  have h3 : 0 < 1 - Real.exp (-u) := by linarith
  have hm : Real.exp u * Real.exp (-u) = 1 := by rw [← Real.exp_add]; simp
  have h4 : 0 < Real.exp u - 1 := by linarith [Real.add_one_lt_exp hu.ne']
  have e1 : Real.exp (-v) = Real.exp (-u) * Real.exp (-(v - u)) := by
    rw [← Real.exp_add]; ring_nf
  have h5 : 1 - (v - u) ≤ Real.exp (-(v - u)) := by linarith [Real.add_one_le_exp (-(v - u))]
  have h6 : 1 - Real.exp (-v) ≤ (1 - Real.exp (-u)) * (1 + (v - u) / (Real.exp u - 1)) := by
    have e2 : (1 - Real.exp (-u)) * (1 + (v - u) / (Real.exp u - 1))
        = 1 - Real.exp (-u) + Real.exp (-u) * (v - u) := by
      have : (1 - Real.exp (-u)) = Real.exp (-u) * (Real.exp u - 1) := by linarith
      rw [mul_add, mul_one, this]
      field_simp
    rw [e2, e1]
    nlinarith
  refine h6.trans (mul_le_mul_of_nonneg_left ?_ h3.le)
  linarith [Real.add_one_le_exp ((v - u) / (Real.exp u - 1))]

/-- Slope of that tangent at the load `x`. -/
noncomputable def loadSlope (m : ℝ) (k : ℕ) (x : ℝ) : ℝ :=
  k * ((k / m) / (Real.exp (k * x / m) - 1))

theorem loadSlope_nonneg {m x : ℝ} (k : ℕ) (hm : 0 < m) (hx : 0 < x) : 0 ≤ loadSlope m k x := by
  unfold loadSlope
  have : (1 : ℝ) ≤ Real.exp (k * x / m) := Real.one_le_exp (by positivity)
  have h2 : 0 ≤ Real.exp (k * x / m) - 1 := by linarith
  positivity

theorem loadSlope_le {m x : ℝ} (k : ℕ) (hm : 0 < m) (hx : 0 < x) : loadSlope m k x ≤ k / x := by
  unfold loadSlope
  rcases Nat.eq_zero_or_pos k with rfl | hk
  · simp
  have hk : (0 : ℝ) < k := by exact_mod_cast hk
  have h := Real.add_one_le_exp (k * x / m)
  rw [← mul_one_div (k : ℝ) x]
  refine mul_le_mul_of_nonneg_left ?_ hk.le
  have h0 : 0 < k * x / m := by positivity
  rw [div_le_div_iff₀ (by linarith) hx]
  have : k / m * x = k * x / m := by ring
  rw [this]
  linarith

theorem falsePos_le_tangent {m x y : ℝ} (k : ℕ) (hm : 0 < m) (hx : 0 < x) (hy : 0 ≤ y) :
    falsePos m k y ≤ falsePos m k x * Real.exp (loadSlope m k x * (y - x)) := by
  unfold falsePos loadSlope
  rcases Nat.eq_zero_or_pos k with rfl | hk
  · simp
  have hk : (0 : ℝ) < k := by exact_mod_cast hk
  have hu : 0 < k * x / m := by positivity
  have h := fill_le_tangent (v := k * y / m) hu
  have h0 : 0 ≤ 1 - Real.exp (-(k * y / m)) := by
    have : Real.exp (-(k * y / m)) ≤ 1 := Real.exp_le_one_iff.2 (neg_nonpos.2 (by positivity))
    linarith
  refine (pow_le_pow_left₀ h0 h k).trans (le_of_eq ?_)
  rw [mul_pow, ← Real.exp_nat_mul]
  congr 2
  ring

/-- Over the `N^n` draws of `n` keys, the number of draws in a set of `W` keys. -/
theorem sum_exp_load {N n : ℕ} (p : Fin N → Prop) [DecidablePred p] (s : ℝ) :
    ∑ t : Fin n → Fin N, Real.exp (s * ((univ : Finset (Fin n)).filter fun j => p (t j)).card)
      = (N + ((univ : Finset (Fin N)).filter p).card * (Real.exp s - 1)) ^ n := by
  have e : ∀ t : Fin n → Fin N,
      Real.exp (s * ((univ : Finset (Fin n)).filter fun j => p (t j)).card)
        = ∏ j, (if p (t j) then Real.exp s else 1) := by
    intro t
    rw [prod_ite, prod_const, prod_const_one, mul_one, mul_comm, Real.exp_nat_mul]
  simp only [e]
  rw [← Fintype.sum_pow (fun x => if p x then Real.exp s else 1) n]
  congr 1
  have : ∀ x : Fin N, (if p x then Real.exp s else 1) = 1 + (if p x then Real.exp s - 1 else 0) := by
    intro x; split <;> ring
  simp only [this]
  rw [sum_add_distrib, ← sum_filter, sum_const, sum_const, card_univ, Fintype.card_fin]
  simp

/-- The average of the probability over the draws, for one bucket holding at most the share
`(1 + δ) / B` of the keys. -/
theorem average_load_le {N n c B k W : ℕ} {m δ : ℝ} (hm : 0 < m) (hB : 0 < B) (hN : 0 < N)
    (hc : 0 < c) (hk : k * B ≤ c) (hn : n ≤ c) (hδ : 0 ≤ δ) (p : Fin N → Prop) [DecidablePred p]
    (hW : ((univ : Finset (Fin N)).filter p).card = W) (hw : (W : ℝ) * B ≤ N * (1 + δ)) :
    (∑ t : Fin n → Fin N, falsePos m k ((univ : Finset (Fin n)).filter fun j => p (t j)).card)
        / N ^ n
      ≤ Real.exp (k ^ 2 * B / c + 2 * k * δ) * falsePos m k (c / B) := by
  have hBR : (0 : ℝ) < B := by exact_mod_cast hB
  have hNR : (0 : ℝ) < N := by exact_mod_cast hN
  have hcR : (0 : ℝ) < c := by exact_mod_cast hc
  set x : ℝ := c / B with hx
  have hx0 : 0 < x := by positivity
  set s := loadSlope m k x with hs
  have s0 : 0 ≤ s := loadSlope_nonneg k hm hx0
  have s1 : s ≤ k / x := loadSlope_le k hm hx0
  have hkx : (k : ℝ) ≤ x := by
    rw [hx, le_div_iff₀ hBR]
    exact_mod_cast hk
  have s2 : s ≤ 1 := s1.trans ((div_le_one hx0).2 hkx)
  have f0 : 0 ≤ falsePos m k x := by
    unfold falsePos
    refine pow_nonneg ?_ k
    have : Real.exp (-(k * x / m)) ≤ 1 := Real.exp_le_one_iff.2 (neg_nonpos.2 (by positivity))
    linarith
  have hsum : ∑ t : Fin n → Fin N, falsePos m k ((univ : Finset (Fin n)).filter fun j => p (t j)).card
      ≤ falsePos m k x * Real.exp (-(s * x)) * (N + W * (Real.exp s - 1)) ^ n := by
    rw [← hW, ← sum_exp_load p s, mul_sum]
    refine sum_le_sum fun t _ => (falsePos_le_tangent k hm hx0 (Nat.cast_nonneg _)).trans
      (le_of_eq ?_)
    rw [mul_assoc, ← Real.exp_add, ← hs]
    congr 2
    ring
  have e1 := Real.add_one_le_exp s
  have e2 : Real.exp s - 1 - s ≤ s ^ 2 := by
    have := Real.abs_exp_sub_one_sub_id_le (x := s) (by rw [abs_of_nonneg s0]; exact s2)
    exact (le_abs_self _).trans this
  have e3 : Real.exp s - 1 ≤ 2 * s := by nlinarith
  have hpow : (N + W * (Real.exp s - 1)) ^ n / (N : ℝ) ^ n
      ≤ Real.exp (x * (1 + δ) * (Real.exp s - 1)) := by
    rw [← div_pow]
    have h1 : (N + W * (Real.exp s - 1)) / N ≤ Real.exp ((1 + δ) / B * (Real.exp s - 1)) := by
      have : (N + W * (Real.exp s - 1)) / N = W / N * (Real.exp s - 1) + 1 := by
        field_simp
        ring
      rw [this]
      refine (Real.add_one_le_exp _).trans (Real.exp_le_exp.2 ?_)
      refine mul_le_mul_of_nonneg_right ?_ (by linarith)
      rw [div_le_div_iff₀ hNR hBR]
      linarith
    have h0 : 0 ≤ (N + W * (Real.exp s - 1)) / N := by
      have : 0 ≤ Real.exp s - 1 := by linarith
      positivity
    refine (pow_le_pow_left₀ h0 h1 n).trans ?_
    rw [← Real.exp_nat_mul]
    refine Real.exp_le_exp.2 ?_
    have h2 : (n : ℝ) ≤ c := by exact_mod_cast hn
    have h3 : 0 ≤ (1 + δ) / B * (Real.exp s - 1) := mul_nonneg (by positivity) (by linarith)
    refine (mul_le_mul_of_nonneg_right h2 h3).trans (le_of_eq ?_)
    rw [hx]
    field_simp
  refine (div_le_div_of_nonneg_right hsum (by positivity)).trans ?_
  rw [mul_div_assoc]
  refine (mul_le_mul_of_nonneg_left hpow (by positivity)).trans ?_
  rw [mul_assoc, ← Real.exp_add, mul_comm]
  refine mul_le_mul_of_nonneg_right (Real.exp_le_exp.2 ?_) f0
  have hsx : s * x ≤ k := by
    have := mul_le_mul_of_nonneg_right s1 hx0.le
    rwa [div_mul_cancel₀ _ hx0.ne'] at this
  have h1 : x * (Real.exp s - 1 - s) ≤ k ^ 2 * B / c := by
    have h2 : x * (Real.exp s - 1 - s) ≤ x * s ^ 2 := mul_le_mul_of_nonneg_left e2 hx0.le
    have h3 : x * s ^ 2 = s * x * s := by ring
    have h4 : s * x * s ≤ k * (k / x) :=
      mul_le_mul hsx s1 s0 (Nat.cast_nonneg _)
    have h5 : (k : ℝ) * (k / x) = k ^ 2 * B / c := by
      rw [hx]; field_simp
    linarith
  have h6 : x * δ * (Real.exp s - 1) ≤ 2 * k * δ := by
    have h7 : x * δ * (Real.exp s - 1) ≤ x * δ * (2 * s) :=
      mul_le_mul_of_nonneg_left e3 (by positivity)
    have h8 : x * δ * (2 * s) = 2 * (s * x) * δ := by ring
    have h9 : 2 * (s * x) * δ ≤ 2 * k * δ := mul_le_mul_of_nonneg_right (by linarith) hδ
    linarith
  have : -(s * x) + x * (1 + δ) * (Real.exp s - 1)
      = x * (Real.exp s - 1 - s) + x * δ * (Real.exp s - 1) := by ring
  linarith

end Poppy
