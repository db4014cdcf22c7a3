import Verif.Lemmas.F64Bits
import Verif.Lemmas.BenchText

/-! Of two nearest `f64`, rounding takes the one whose last bit is zero. -/

namespace Poppy

theorem ulp_le_abs {q : ℚ} (h0 : 0 < q) (h : ulpExp q ≠ -1074) : (2 : ℚ) ^ (ulpExp q + 52) ≤ q := by
  have hlog : ulpExp q = Int.log 2 q - 52 := by
    unfold ulpExp at h ⊢
    rw [abs_of_pos h0] at h ⊢
    omega
  have h1 := Int.zpow_log_le_self (b := 2) (by norm_num) h0
  rw [show Int.log 2 q = ulpExp q + 52 by omega] at h1
  exact_mod_cast h1

theorem rneInt_tie {y : ℚ} (h : |y - rneInt y| = 1 / 2) : rneInt y % 2 = 0 := by
  have h1 := Int.floor_le y
  have h2 := Int.lt_floor_add_one y
  unfold rneInt at h ⊢
  simp only at h ⊢
  split_ifs at h ⊢ with a b c
  · rw [abs_of_nonneg (by linarith)] at h; linarith
  · push_cast at h
    rw [abs_of_nonpos (by linarith)] at h; linarith
  · exact c
  · omega

/-- Ties are halfway between multiples of the last place. -/
theorem rndQ_tie {q y : ℚ} (h0 : 0 < q) (hy : IsF y) (hne : y ≠ rndQ q) (h : |q - y| = |q - rndQ q|) :
    rneInt (q / 2 ^ ulpExp q) % 2 = 0 := by
  apply rneInt_tie
  refine le_antisymm (rneInt_half _) ?_
  by_contra hlt
  push Not at hlt
  have hp := two_zpow_pos (K := ℚ) (ulpExp q)
  have hx : rndQ q = rneInt (q / 2 ^ ulpExp q) * 2 ^ ulpExp q := rfl
  have hscale : ∀ k : ℤ, |q - k * 2 ^ ulpExp q| = |q / 2 ^ ulpExp q - k| * 2 ^ ulpExp q := by
    intro k
    rw [← abs_of_pos hp, ← abs_mul, abs_of_pos hp, sub_mul, div_mul_cancel₀ _ hp.ne']
  by_cases hu : ulpExp q ≤ ulpExp y
  · obtain ⟨k, hk⟩ := Cli.isF_multiple hy hu
    rw [hk, hx, hscale, hscale] at h
    have h1 := mul_right_cancel₀ hp.ne' h
    have h2 : |(k : ℚ) - rneInt (q / 2 ^ ulpExp q)| < 1 := by
      calc |(k : ℚ) - rneInt (q / 2 ^ ulpExp q)|
          ≤ |(k : ℚ) - q / 2 ^ ulpExp q| + |q / 2 ^ ulpExp q - rneInt (q / 2 ^ ulpExp q)| :=
            abs_sub_le _ _ _
        _ < 1 := by rw [abs_sub_comm (k : ℚ), h1]; linarith
    have h3 : |k - rneInt (q / 2 ^ ulpExp q)| < 1 := by exact_mod_cast h2
    have h4 : k = rneInt (q / 2 ^ ulpExp q) := by
      rw [Int.abs_lt_one_iff] at h3; omega
    exact hne (by rw [hk, hx, h4])
  · have hg := ulpExp_ge y
    have hq := ulp_le_abs h0 (by omega)
    have hF : IsF ((2 : ℚ) ^ (ulpExp q + 52)) := isF_two_zpow (by omega)
    have hn := nearest q hF
    rw [Rat.cast_id, Rat.cast_id, ← h, abs_of_nonneg (sub_nonneg.2 hq)] at hn
    have hy1 := abs_lt_ulp y
    have hy2 : (2 : ℚ) ^ (ulpExp y + 53) ≤ 2 ^ (ulpExp q + 52) :=
      zpow_le_zpow_right₀ (by norm_num) (by omega)
    have hy3 := (abs_lt.1 hy1).2
    have hy4 := le_abs_self (q - y)
    linarith

theorem rndQ_even {q : ℚ} (h0 : 0 < q) (h : rneInt (q / 2 ^ ulpExp q) % 2 = 0) :
    (FVal.bits (.fin (rndQ q))).toNat % 2 = 0 := by
  have hp := two_zpow_pos (K := ℚ) (ulpExp q)
  have hx : rndQ q = rneInt (q / 2 ^ ulpExp q) * 2 ^ ulpExp q := rfl
  have hx0 : 0 ≤ rndQ q := le_rndQ q isF_zero (by simpa using h0.le)
  rcases eq_or_lt_of_le hx0 with hz | hpos
  · rw [← hz]; decide +kernel
  · unfold FVal.bits
    simp only
    rw [if_neg hpos.ne', if_neg (not_lt.2 hx0), abs_of_pos hpos]
    have hge := ulpExp_ge (rndQ q)
    have hge' := ulpExp_ge q
    have hlo : ulpExp q ≤ ulpExp (rndQ q) := by
      by_cases hu : ulpExp q = -1074
      · omega
      · have h1 : (2 : ℚ) ^ (ulpExp q + 52) ≤ rndQ q :=
          le_rndQ q (isF_two_zpow (by omega)) (by rw [Rat.cast_id]; exact ulp_le_abs h0 hu)
        have h2 := (le_abs_self _).trans_lt (abs_lt_ulp (rndQ q))
        have h3 := (zpow_lt_zpow_iff_right₀ (by norm_num : (1 : ℚ) < 2)).1 (h1.trans_lt h2)
        omega
    have hhi : rndQ q ≤ 2 ^ (ulpExp q + 53) :=
      rndQ_le q (isF_two_zpow (by omega)) (by
        rw [Rat.cast_id]
        exact (le_abs_self _).trans (abs_lt_ulp q).le)
    have hfl : ⌊rndQ q / 2 ^ ulpExp (rndQ q)⌋ % 2 = 0 := by
      rcases eq_or_lt_of_le hlo with he | hlt
      · rw [← he, hx, mul_div_cancel_right₀ _ hp.ne', Int.floor_intCast]
        exact h
      · have h1 := ulp_le_abs hpos (by omega)
        have h2 := (zpow_le_zpow_iff_right₀ (by norm_num : (1 : ℚ) < 2)).1 (h1.trans hhi)
        have he : ulpExp (rndQ q) = ulpExp q + 1 := by omega
        rw [he, show ulpExp q + 1 + 52 = ulpExp q + 53 by ring] at h1
        rw [he]
        have h3 : rndQ q / 2 ^ (ulpExp q + 1) = ((2 ^ 52 : ℤ) : ℚ) := by
          rw [le_antisymm hhi h1, ← zpow_sub₀ (by norm_num)]
          rw [show ulpExp q + 53 - (ulpExp q + 1) = (52 : ℕ) by push_cast; ring, zpow_natCast]
          push_cast; rfl
        rw [h3, Int.floor_intCast]
        decide
    rw [BitVec.toNat_ofNat]
    have hf0 : 0 ≤ ⌊rndQ q / 2 ^ ulpExp (rndQ q)⌋ :=
      Int.floor_nonneg.2 (div_nonneg hx0 (by positivity))
    generalize ⌊rndQ q / 2 ^ ulpExp (rndQ q)⌋ = f at *
    generalize (ulpExp (rndQ q) + 1074).toNat = e at *
    omega

end Poppy
