import Verif.Lemmas.Float

/-! The accepted false positive probabilities, as bit patterns. -/

namespace Poppy

theorem zpow52 (a b : ℤ) (h : a = b + 52) : (2 : ℚ) ^ a = 2 ^ 52 * 2 ^ b := by
  rw [h, zpow_add₀ (by norm_num)]
  have : (2 : ℚ) ^ (52 : ℤ) = 2 ^ 52 := by norm_num
  rw [this]; ring

theorem ofBits_minPositive : FVal.ofBits minPositiveBits = .fin (2 ^ (-1022 : ℤ)) := by
  have h1 : minPositiveBits.getLsbD 63 = false := by decide
  have h2 : minPositiveBits.toNat = 2 ^ 52 := by decide
  have h3 : 2 ^ 52 / 2 ^ 52 % 2048 = 1 := by norm_num
  have h4 : 2 ^ 52 % 2 ^ 52 = 0 := by norm_num
  unfold FVal.ofBits
  simp only [h1, h2, h3, h4]
  rw [if_neg (by norm_num), if_neg (by norm_num), if_neg (by simp), zpow52 (-1022) (-1074) (by norm_num)]
  have : ((1 : ℕ) : ℤ) - 1075 = -1074 := by norm_num
  rw [this, Nat.add_zero, Nat.cast_pow]
  rfl

theorem ofBits_one : FVal.ofBits oneBits = .fin 1 := by
  have h1 : oneBits.getLsbD 63 = false := by decide
  have h2 : oneBits.toNat = 1023 * 2 ^ 52 := by decide
  unfold FVal.ofBits
  simp only [h1, h2]
  norm_num

theorem getLsbD_63 (b : F64) : b.getLsbD 63 = decide (2 ^ 63 ≤ b.toNat) := by
  have := b.isLt
  rw [BitVec.getLsbD, Nat.testBit_eq_decide_div_mod_eq]
  by_cases h : 2 ^ 63 ≤ b.toNat
  · have : b.toNat / 2 ^ 63 = 1 := by omega
    simp only [this]; simpa using h
  · have : b.toNat / 2 ^ 63 = 0 := by omega
    simp only [this]; simpa using h

/-- Value of a non-negative normal number. -/
theorem ofBits_normal {b : F64} (h1 : 2 ^ 52 ≤ b.toNat) (h2 : b.toNat < 2047 * 2 ^ 52) :
    FVal.ofBits b = .fin (((2 ^ 52 + b.toNat % 2 ^ 52 : ℕ) : ℚ) *
      2 ^ (((b.toNat / 2 ^ 52 : ℕ) : ℤ) - 1075)) := by
  have hneg : b.getLsbD 63 = false := by
    rw [getLsbD_63]; simp; omega
  have he : b.toNat / 2 ^ 52 % 2048 = b.toNat / 2 ^ 52 := Nat.mod_eq_of_lt (by omega)
  unfold FVal.ofBits
  have hc1 : ¬ b.toNat / 2 ^ 52 = 2047 := by omega
  have hc2 : ¬ b.toNat / 2 ^ 52 = 0 := by omega
  simp only [hneg, he, hc1, hc2, if_false, Bool.false_eq_true]

theorem fppInRange_iff (b : F64) :
    fppInRange b = true ↔ 2 ^ 52 ≤ b.toNat ∧ b.toNat ≤ 1023 * 2 ^ 52 := by
  unfold fppInRange
  rw [ofBits_minPositive, ofBits_one]
  by_cases hneg : 2 ^ 63 ≤ b.toNat
  · -- negative numbers
    have h1 : b.getLsbD 63 = true := by rw [getLsbD_63]; simpa using hneg
    constructor
    swap
    · intro h; omega
    intro h
    exfalso
    unfold FVal.ofBits at h
    simp only [h1, if_true] at h
    split at h
    · split at h <;> simp [FVal.le] at h
    · simp only [FVal.le, Bool.and_eq_true, decide_eq_true_eq] at h
      have hpos : (0 : ℚ) < 2 ^ (-1022 : ℤ) := two_zpow_pos _
      have hnn : (0 : ℚ) ≤ if b.toNat / 2 ^ 52 % 2048 = 0 then
          ((b.toNat % 2 ^ 52 : ℕ) : ℚ) * 2 ^ (-1074 : ℤ)
          else ((2 ^ 52 + b.toNat % 2 ^ 52 : ℕ) : ℚ) *
            2 ^ (((b.toNat / 2 ^ 52 % 2048 : ℕ) : ℤ) - 1075) := by
        split
        · exact mul_nonneg (by positivity) (two_zpow_pos _).le
        · exact mul_nonneg (by positivity) (two_zpow_pos _).le
      linarith [h.1]
  · have h1 : b.getLsbD 63 = false := by rw [getLsbD_63]; simpa using hneg
    by_cases hsub : b.toNat < 2 ^ 52
    · constructor
      swap
      · intro h; omega
      intro h
      exfalso
      have he : b.toNat / 2 ^ 52 % 2048 = 0 := by omega
      unfold FVal.ofBits at h
      simp only [h1, he] at h
      rw [if_neg (by norm_num), if_pos trivial] at h
      simp only [Bool.false_eq_true, if_false, FVal.le, Bool.and_eq_true, decide_eq_true_eq] at h
      have h3 := h.1
      rw [zpow52 (-1022) (-1074) (by norm_num), mul_le_mul_iff_left₀ (two_zpow_pos _)] at h3
      have : 2 ^ 52 ≤ b.toNat % 2 ^ 52 := by exact_mod_cast h3
      omega
    · by_cases hinf : 2047 * 2 ^ 52 ≤ b.toNat
      · constructor
        swap
        · intro h; omega
        intro h
        exfalso
        have he : b.toNat / 2 ^ 52 % 2048 = 2047 := by omega
        unfold FVal.ofBits at h
        simp only [h1, he, if_true] at h
        split at h <;> simp [FVal.le] at h
      · rw [ofBits_normal (by omega) (by omega)]
        simp only [FVal.le, Bool.and_eq_true, decide_eq_true_eq]
        generalize he : b.toNat / 2 ^ 52 = e
        generalize hm : b.toNat % 2 ^ 52 = m
        have hb : b.toNat = 2 ^ 52 * e + m := by omega
        have hml : m < 2 ^ 52 := by omega
        have he1 : 1 ≤ e := by omega
        have hval : ((2 ^ 52 + m : ℕ) : ℚ) * 2 ^ ((e : ℤ) - 1075)
            = (1 + m / 2 ^ 52) * 2 ^ ((e : ℤ) - 1023) := by
          have : (e : ℤ) - 1075 = ((e : ℤ) - 1023) - 52 := by ring
          rw [this, zpow_sub₀ (by norm_num)]
          push_cast
          norm_num
          ring
        have hm0 : (0 : ℚ) ≤ m / 2 ^ 52 := by positivity
        have hm1 : (m : ℚ) / 2 ^ 52 < 1 := by
          rw [div_lt_one (by positivity)]
          exact_mod_cast hml
        rw [hval]
        constructor
        · rintro ⟨_, h⟩
          refine ⟨by omega, ?_⟩
          by_contra hc
          have : 1023 < e ∨ (e = 1023 ∧ 0 < m) := by omega
          rcases this with h2 | ⟨h2, h3⟩
          · have : (2 : ℚ) ^ (1 : ℤ) ≤ 2 ^ ((e : ℤ) - 1023) :=
              zpow_le_zpow_right₀ (by norm_num) (by omega)
            norm_num at this
            nlinarith
          · subst h2
            have h4 : (0 : ℚ) < m / 2 ^ 52 := by
              have : (0 : ℚ) < m := by exact_mod_cast h3
              positivity
            have h5 : ((1023 : ℕ) : ℤ) - 1023 = 0 := by norm_num
            rw [h5, zpow_zero] at h
            linarith
        · rintro ⟨_, h⟩
          constructor
          · have : (2 : ℚ) ^ (-1022 : ℤ) ≤ 2 ^ ((e : ℤ) - 1023) :=
              zpow_le_zpow_right₀ (by norm_num) (by omega)
            have hp : (0 : ℚ) < 2 ^ ((e : ℤ) - 1023) := two_zpow_pos _
            nlinarith
          · have : e < 1023 ∨ (e = 1023 ∧ m = 0) := by omega
            rcases this with h2 | ⟨h2, h3⟩
            · have : (2 : ℚ) ^ ((e : ℤ) - 1023) ≤ 2 ^ (-1 : ℤ) :=
                zpow_le_zpow_right₀ (by norm_num) (by omega)
              have hp : (0 : ℚ) < 2 ^ ((e : ℤ) - 1023) := two_zpow_pos _
              norm_num at this
              nlinarith
            · subst h2 h3
              norm_num

/-- An accepted probability is a finite number in `[2^-1022, 1]`. -/
theorem ofBits_of_inRange {b : F64} (h : fppInRange b = true) :
    ∃ q : ℚ, FVal.ofBits b = .fin q ∧ 2 ^ (-1022 : ℤ) ≤ q ∧ q ≤ 1 ∧ IsF q := by
  have hb := (fppInRange_iff b).1 h
  have hv := ofBits_normal hb.1 (by omega)
  refine ⟨_, hv, ?_, ?_, ?_⟩
  · unfold fppInRange at h
    rw [ofBits_minPositive, hv] at h
    simp only [FVal.le, Bool.and_eq_true, decide_eq_true_eq] at h
    exact h.1
  · unfold fppInRange at h
    rw [ofBits_one, hv] at h
    simp only [FVal.le, Bool.and_eq_true, decide_eq_true_eq] at h
    exact h.2
  · refine ⟨((2 ^ 52 + b.toNat % 2 ^ 52 : ℕ) : ℤ), _, ?_, ?_, by push_cast; rfl⟩
    · rw [abs_of_nonneg (by positivity)]
      have : 2 ^ 52 + b.toNat % 2 ^ 52 ≤ 2 ^ 53 := by omega
      exact_mod_cast this
    · omega

end Poppy
