import Mathlib.Analysis.SpecialFunctions.Pow.Real
import Mathlib.Analysis.Complex.ExponentialBounds
import Verif.Lemmas.Fpp
import Verif.Lemmas.Sizing

/-! Assumptions on the floating point library, shown to hold for correctly rounded functions, and
their consequences for the sizing formulas. -/

namespace Poppy

/-- Correctly rounded functions. -/
noncomputable def Libm.exact : Libm where
  ln := fun x => match x with
    | .fin q => if 0 < q then rnd (Real.log (q : ℝ)) else if q = 0 then .ninf else .nan
    | .pinf => .pinf
    | _ => .nan
  exp := fun x => match x with
    | .fin q => rnd (Real.exp (q : ℝ))
    | .pinf => .pinf
    | .ninf => .fin 0
    | .nan => .nan
  powf := fun x y => match x, y with
    | .fin a, .fin b => if 0 ≤ a then rnd ((a : ℝ) ^ (b : ℝ)) else .nan
    | _, _ => .nan

theorem Libm.exact_ln {q : ℚ} (h : 0 < q) : Libm.exact.ln (.fin q) = rnd (Real.log (q : ℝ)) :=
  if_pos h

theorem Libm.exact_powf {a b : ℚ} (h : 0 ≤ a) :
    Libm.exact.powf (.fin a) (.fin b) = rnd ((a : ℝ) ^ (b : ℝ)) := if_pos h

theorem rndQ_le' {x : ℝ} {y : ℚ} (hy : IsF y) (h : x ≤ ((y : ℚ) : ℝ)) : rndQ x ≤ y := rndQ_le x hy h

theorem isF_dyadic (m : ℤ) (e : ℕ) (h : |m| ≤ 2 ^ 53) (he : e ≤ 1074) :
    IsF ((m : ℚ) / 2 ^ e) :=
  ⟨m, -e, h, by omega, by rw [zpow_neg, zpow_natCast, div_eq_mul_inv]⟩

theorem rnd_between {x : ℝ} {a b : ℚ} (ha : IsF a) (hb : IsF b) (h1 : ((a : ℚ) : ℝ) ≤ x)
    (h2 : x ≤ ((b : ℚ) : ℝ)) (hA : -f64Huge < a) (hB : b < f64Huge) :
    ∃ r, rnd x = .fin r ∧ a ≤ r ∧ r ≤ b ∧ r = rndQ x := by
  have l1 := le_rndQ x ha h1
  have l2 := rndQ_le x hb h2
  refine ⟨rndQ x, ?_, l1, l2, rfl⟩
  unfold rnd
  simp only
  rw [if_neg (by linarith), if_neg (by linarith)]

theorem small_lt_huge {q : ℚ} (h : q ≤ 2 ^ 64) : q < f64Huge :=
  lt_of_le_of_lt h (two_pow_lt_f64Huge (by norm_num))

theorem neg_huge_lt {q : ℚ} (h : -(2 ^ 64) ≤ q) : -f64Huge < q := by
  have : (2 : ℚ) ^ 64 < f64Huge := two_pow_lt_f64Huge (by norm_num)
  linarith

/-- The assumptions hold for correctly rounded functions. -/
theorem Libm.exact_spec : Libm.exact.Spec := by
  have hl1 := Real.log_two_gt_d9
  have hl2 := Real.log_two_lt_d9
  have two : ∃ r : ℚ, Libm.exact.ln (.fin 2) = .fin r ∧ 5677 / 2 ^ 13 ≤ r ∧ r ≤ 5679 / 2 ^ 13 := by
    have ha : IsF (5677 / 2 ^ 13) := by
      have := isF_dyadic 5677 13 (by norm_num) (by norm_num); simpa using this
    have hb : IsF (5679 / 2 ^ 13) := by
      have := isF_dyadic 5679 13 (by norm_num) (by norm_num); simpa using this
    obtain ⟨r, h, h1, h2, _⟩ := rnd_between (x := Real.log 2) ha hb
      (by push_cast; norm_num; linarith) (by push_cast; norm_num; linarith)
      (neg_huge_lt (by norm_num)) (small_lt_huge (by norm_num))
    refine ⟨r, ?_, h1, h2⟩
    rw [Libm.exact_ln (by norm_num)]
    simpa using h
  refine ⟨?_, ?_, ?_, ?_⟩
  · rw [Libm.exact_ln (by norm_num)]
    have := rnd_of_isF (K := ℝ) isF_zero (by rw [abs_zero]; exact f64Huge_pos)
    simpa using this
  · intro q hq h1 h2
    have hq0 : 0 < q := lt_of_lt_of_le (two_zpow_pos _) h1
    have hq0' : (0 : ℝ) < (q : ℝ) := by exact_mod_cast hq0
    have hlow : (((-709 : ℤ) : ℚ) : ℝ) ≤ Real.log (q : ℝ) := by
      have h3 : Real.log ((2 : ℝ) ^ (-1022 : ℤ)) ≤ Real.log (q : ℝ) := by
        apply Real.log_le_log (zpow_pos (by norm_num) _)
        have : (((2 : ℚ) ^ (-1022 : ℤ) : ℚ) : ℝ) ≤ (q : ℝ) := by exact_mod_cast h1
        rwa [Rat.cast_zpow] at this
      rw [Real.log_zpow] at h3
      refine le_trans ?_ h3
      push_cast
      nlinarith
    -- `q` is a binary64 number below 1, so it is at most `1 - 2^-53`
    have hgap : Real.log (q : ℝ) ≤ (((-1 : ℤ) / 2 ^ 100 : ℚ) : ℝ) := by
      have hq1 : q ≤ 1 - 1 / 2 ^ 100 := by
        obtain ⟨m, e, hm, he, rfl⟩ := hq
        rcases le_or_gt 0 e with h0 | h0
        · exfalso
          have : (1 : ℚ) ≤ 2 ^ e := one_le_zpow₀ (by norm_num) h0
          have hm1 : (1 : ℚ) ≤ m := by
            have : 0 < (m : ℚ) := by
              by_contra hc
              have : (m : ℚ) * 2 ^ e ≤ 0 := mul_nonpos_of_nonpos_of_nonneg (by linarith)
                (le_of_lt (two_zpow_pos _))
              linarith
            exact_mod_cast this
          nlinarith
        · -- m < 2^-e, both integers
          obtain ⟨k, hk⟩ : ∃ k : ℕ, e = -k := ⟨e.natAbs, by omega⟩
          subst hk
          rw [zpow_neg, zpow_natCast, ← div_eq_mul_inv] at h2 ⊢
          have hp : (0 : ℚ) < 2 ^ k := by positivity
          rw [div_lt_one hp] at h2
          have hm2 : m + 1 ≤ 2 ^ k := by
            have : m < 2 ^ k := by exact_mod_cast h2
            omega
          have hm3 : (m : ℚ) ≤ 2 ^ k - 1 := by
            have : ((m + 1 : ℤ) : ℚ) ≤ 2 ^ k := by exact_mod_cast hm2
            push_cast at this; linarith
          rcases le_or_gt k 100 with hk | hk
          · rw [div_le_iff₀ hp]
            have : (2 : ℚ) ^ k / 2 ^ 100 ≤ 1 := by
              rw [div_le_one (by positivity)]
              exact pow_le_pow_right₀ (by norm_num) hk
            have h5 : (1 - 1 / 2 ^ 100 : ℚ) * 2 ^ k = 2 ^ k - 2 ^ k / 2 ^ 100 := by ring
            rw [h5]; linarith
          · have : (m : ℚ) / 2 ^ k ≤ 2 ^ 53 / 2 ^ 100 := by
              apply div_le_div₀ (by positivity)
              · have := (abs_le.1 hm).2
                exact_mod_cast this
              · positivity
              · exact pow_le_pow_right₀ (by norm_num) (by omega)
            refine this.trans ?_
            rw [div_le_iff₀ (by positivity), sub_mul, one_mul, div_mul_cancel₀ _ (by positivity)]
            have : (2 : ℚ) ^ 53 + 1 ≤ 2 ^ 100 := by
              have : (2 : ℚ) ^ 54 ≤ 2 ^ 100 := pow_le_pow_right₀ (by norm_num) (by norm_num)
              refine le_trans (by norm_num) this
            linarith
      have h3 := Real.log_le_sub_one_of_pos hq0'
      have h4 : (q : ℝ) ≤ ((1 - 1 / 2 ^ 100 : ℚ) : ℝ) := by exact_mod_cast hq1
      have h5 : (((-1 : ℤ) / 2 ^ 100 : ℚ) : ℝ) = ((1 - 1 / 2 ^ 100 : ℚ) : ℝ) - 1 := by
        push_cast; ring
      rw [h5]; linarith
    obtain ⟨r, h, h3, h4, _⟩ := rnd_between (isF_int (m := -709) (by norm_num))
      (isF_dyadic (-1) 100 (by norm_num) (by norm_num)) hlow hgap
      (neg_huge_lt (by norm_num)) (small_lt_huge (by norm_num))
    refine ⟨r, ?_, by exact_mod_cast h3, lt_of_le_of_lt h4 ?_⟩
    · rw [Libm.exact_ln hq0]; exact h
    · apply div_neg_of_neg_of_pos <;> [norm_num; positivity]
  · obtain ⟨r, h, h1, h2⟩ := two
    exact ⟨r, h, by linarith, by linarith⟩
  · obtain ⟨r, h, h1, h2⟩ := two
    rw [h]
    have hr0 : 0 ≤ r := by linarith
    have e1 : (r : ℝ) ^ (2 : ℝ) = ((r ^ 2 : ℚ) : ℝ) := by
      rw [show (2 : ℝ) = ((2 : ℕ) : ℝ) by norm_num, Real.rpow_natCast]; push_cast; rfl
    have ha : IsF (3933 / 2 ^ 13) := by
      have := isF_dyadic 3933 13 (by norm_num) (by norm_num); simpa using this
    have hb : IsF (3938 / 2 ^ 13) := by
      have := isF_dyadic 3938 13 (by norm_num) (by norm_num); simpa using this
    have q1 : (3933 / 2 ^ 13 : ℚ) ≤ r ^ 2 := by nlinarith
    have q2 : r ^ 2 ≤ (3938 / 2 ^ 13 : ℚ) := by nlinarith
    obtain ⟨s, hs, h3, h4, _⟩ := rnd_between (x := ((r ^ 2 : ℚ) : ℝ)) ha hb
      (by exact_mod_cast q1) (by exact_mod_cast q2)
      (neg_huge_lt (by norm_num)) (small_lt_huge (by norm_num))
    refine ⟨s, ?_, by linarith, by linarith⟩
    rw [Libm.exact_powf hr0, show (((2 : ℚ)) : ℝ) = (2 : ℝ) by norm_num, e1]
    exact hs

end Poppy
