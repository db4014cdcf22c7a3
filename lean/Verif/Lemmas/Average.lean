import Mathlib.Analysis.MeanInequalitiesPow
import Mathlib.Algebra.BigOperators.Field
import Mathlib.Data.Fintype.BigOperators
import Verif.Spec

/-! Average number of cells hit by `n` draws, each hitting some of the cells. -/

namespace Poppy
open Finset

/-- Number of draws that miss a cell. -/
theorem card_miss {N n : ℕ} (p : Fin N → Prop) [DecidablePred p] :
    ((univ : Finset (Fin n → Fin N)).filter fun t => ∀ j, ¬ p (t j)).card
      = (N - ((univ : Finset (Fin N)).filter p).card) ^ n := by
  have e : ((univ : Finset (Fin n → Fin N)).filter fun t => ∀ j, ¬ p (t j))
      = Fintype.piFinset fun _ : Fin n => (univ : Finset (Fin N)).filter fun x => ¬ p x := by
    ext t
    simp [Fintype.mem_piFinset]
  have h := card_filter_add_card_filter_not (s := (univ : Finset (Fin N))) p
  rw [card_univ, Fintype.card_fin] at h
  rw [e, Fintype.card_piFinset_const]
  congr 1
  omega

/-- Total number of cells hit, over all draws. -/
theorem sum_hit {C : Type} (cells : Finset C) {N : ℕ} (n : ℕ) (hit : Fin N → C → Prop)
    [∀ x c, Decidable (hit x c)] :
    ∑ t : Fin n → Fin N, (cells.filter fun c => ∃ j, hit (t j) c).card
      = ∑ c ∈ cells, (N ^ n - (N - ((univ : Finset (Fin N)).filter (hit · c)).card) ^ n) := by
  have h1 : ∀ t : Fin n → Fin N, (cells.filter fun c => ∃ j, hit (t j) c).card
      = ∑ c ∈ cells, if ∃ j, hit (t j) c then 1 else 0 := fun t => card_filter _ _
  simp only [h1]
  rw [sum_comm]
  apply sum_congr rfl
  intro c _
  rw [← card_filter]
  have h := card_filter_add_card_filter_not (s := (univ : Finset (Fin n → Fin N)))
    (fun t => ∃ j, hit (t j) c)
  rw [card_univ, Fintype.card_fun, Fintype.card_fin, Fintype.card_fin] at h
  simp only [not_exists] at h
  rw [card_miss (fun x => hit x c)] at h
  omega

/-- If the shares `x` of `m` cells sum up to at most `s`, the chances of being hit by `n` draws sum up
to at most those of equal shares. -/
theorem sum_chance_le {C : Type} (cells : Finset C) {m : ℕ} (hm : cells.card = m) (h0 : 0 < m)
    (x : C → ℝ) (hx1 : ∀ c ∈ cells, x c ≤ 1) {s : ℝ}
    (hs : ∑ c ∈ cells, x c ≤ s) (hsm : s ≤ m) (n : ℕ) :
    ∑ c ∈ cells, (1 - (1 - x c) ^ n) ≤ m * (1 - (1 - s / m) ^ n) := by
  have hmR : (0 : ℝ) < m := by exact_mod_cast h0
  have hj := Real.pow_arith_mean_le_arith_mean_pow cells (fun _ => (1 / m : ℝ)) (fun c => 1 - x c)
    (fun _ _ => by positivity) (by rw [sum_const, hm, nsmul_eq_mul]; field_simp)
    (fun c hc => by linarith [hx1 c hc]) n
  rw [← mul_sum, ← mul_sum, sum_sub_distrib, sum_const, hm, nsmul_eq_mul, mul_one] at hj
  rw [sum_sub_distrib, sum_const, hm, nsmul_eq_mul, mul_one]
  have h1 : (1 - s / m : ℝ) ^ n ≤ (1 / m * (m - ∑ c ∈ cells, x c)) ^ n := by
    apply pow_le_pow_left₀
    · rw [sub_nonneg, div_le_one hmR]; exact hsm
    · have : (1 : ℝ) / m * (m - ∑ c ∈ cells, x c) = 1 - (∑ c ∈ cells, x c) / m := by field_simp
      rw [this]
      have : (∑ c ∈ cells, x c) / m ≤ s / m := div_le_div_of_nonneg_right hs hmR.le
      linarith
  have h2 := mul_le_mul_of_nonneg_left (h1.trans hj) hmR.le
  have h3 : (m : ℝ) * (1 / m * ∑ c ∈ cells, (1 - x c) ^ n) = ∑ c ∈ cells, (1 - x c) ^ n := by
    field_simp
  rw [h3] at h2
  linarith

/-- On average over the `N^n` draws at most `m (1 - (1 - k/m)^n)` of `m` cells are hit, if each item
hits at most `k` cells. -/
theorem average_hit_le {C : Type} (cells : Finset C) {m : ℕ} (hm : cells.card = m) (h0 : 0 < m)
    {N : ℕ} (hN : 0 < N) (n : ℕ) (hit : Fin N → C → Prop) [∀ x c, Decidable (hit x c)] {k : ℕ}
    (hk : ∀ x, (cells.filter (hit x)).card ≤ k) (hkm : k ≤ m) :
    (∑ t : Fin n → Fin N, ((cells.filter fun c => ∃ j, hit (t j) c).card : ℝ)) / N ^ n
      ≤ m * (1 - (1 - k / m : ℝ) ^ n) := by
  have hNR : (0 : ℝ) < N := by exact_mod_cast hN
  set a : C → ℕ := fun c => ((univ : Finset (Fin N)).filter (hit · c)).card with ha
  have haN : ∀ c, a c ≤ N := fun c => (card_filter_le _ _).trans (by simp)
  have hsum : ∑ c ∈ cells, a c ≤ N * k := by
    have : ∑ c ∈ cells, a c = ∑ x : Fin N, (cells.filter (hit x)).card := by
      simp only [ha, card_filter]
      rw [sum_comm]
    rw [this]
    calc _ ≤ ∑ _x : Fin N, k := sum_le_sum fun x _ => hk x
      _ = N * k := by simp
  have h := sum_hit cells n hit
  have h' : (∑ t : Fin n → Fin N, ((cells.filter fun c => ∃ j, hit (t j) c).card : ℝ))
      = ∑ c ∈ cells, ((N : ℝ) ^ n - (N - a c) ^ n) := by
    have := congrArg (fun z : ℕ => (z : ℝ)) h
    simp only [Nat.cast_sum] at this
    rw [this]
    apply sum_congr rfl
    intro c _
    rw [Nat.cast_sub (Nat.pow_le_pow_left (Nat.sub_le _ _) n), Nat.cast_pow, Nat.cast_pow,
      Nat.cast_sub (haN c)]
  rw [h', sum_div]
  have h2 : ∀ c ∈ cells, ((N : ℝ) ^ n - (N - a c) ^ n) / N ^ n = 1 - (1 - a c / N) ^ n := by
    intro c _
    rw [sub_div, div_self (by positivity), ← div_pow, sub_div, div_self hNR.ne']
  rw [sum_congr rfl h2]
  apply sum_chance_le cells hm h0
  · intro c _
    rw [div_le_one hNR]
    exact_mod_cast haN c
  · rw [← sum_div, div_le_iff₀ hNR]
    have : ((∑ c ∈ cells, a c : ℕ) : ℝ) ≤ ((N * k : ℕ) : ℝ) := by exact_mod_cast hsum
    rw [Nat.cast_sum, Nat.cast_mul] at this
    linarith
  · exact_mod_cast hkm

end Poppy
