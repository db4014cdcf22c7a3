import Verif.Lemmas.DecimalText

/-! Bits of rounded numbers of either sign. -/

namespace Poppy

open Cli

theorem ofBits_neg {b : F64} {q : ℚ} (hb : b.toNat < 2 ^ 63) (h : FVal.ofBits b = .fin q) :
    FVal.ofBits (b ||| 0x8000000000000000#64) = .fin (-q) := by
  have h2 : (0x8000000000000000#64).toNat = 2 ^ 63 * 1 := rfl
  have ht : (b ||| 0x8000000000000000#64).toNat = b.toNat + 2 ^ 63 := by
    rw [BitVec.toNat_or, h2, Nat.or_comm, ← Nat.two_pow_add_eq_or_of_lt hb]
    omega
  rw [ofBits_eq, toNat_sign] at h
  rw [ofBits_eq, toNat_sign, ht]
  have e1 : (b.toNat + 2 ^ 63) / 2 ^ 52 % 2048 = b.toNat / 2 ^ 52 % 2048 := by omega
  have e2 : (b.toNat + 2 ^ 63) % 2 ^ 52 = b.toNat % 2 ^ 52 := by omega
  have d1 : decide (2 ^ 63 ≤ b.toNat) = false := decide_eq_false (by omega)
  have d2 : decide (2 ^ 63 ≤ b.toNat + 2 ^ 63) = true := decide_eq_true (by omega)
  rw [d1] at h
  rw [e1, e2, d2]
  clear e1 e2 d1 d2 ht h2 hb
  generalize b.toNat / 2 ^ 52 % 2048 = E at *
  generalize b.toNat % 2 ^ 52 = M at *
  by_cases h1 : E = 2047
  · rw [if_pos h1] at h
    split_ifs at h
  · rw [if_neg h1, if_neg Bool.false_ne_true] at h
    rw [if_neg h1, if_pos rfl]
    injection h with h
    rw [h]

theorem ofBits_bits_of_isF {q : ℚ} (hq : IsF q) (hh : |q| < f64Huge) :
    FVal.ofBits (FVal.bits (.fin q)) = .fin q := by
  rcases le_or_gt 0 q with h0 | h0
  · rw [abs_of_nonneg h0] at hh
    exact ofBits_bits h0 hq hh
  · rw [abs_of_neg h0] at hh
    obtain ⟨b, hb, hlt⟩ := toNat_magBits (by linarith) (isF_neg hq) hh
    have hbits := bits_ofBits hb (by rintro rfl; exact absurd hlt (by decide))
    rw [← neg_neg q, bits_neg (by linarith), hbits]
    exact ofBits_neg hlt hb

theorem rndQ_lt_huge {q : ℚ} (h : q < 2 ^ 1024 - 2 ^ 970) : rndQ q < f64Huge := by
  by_contra hc
  push Not at hc
  have hF : IsF (f64Huge - 2 ^ 971) := by
    refine ⟨2 ^ 53 - 1, 971, by norm_num, by norm_num, ?_⟩
    have e1 : f64Huge = 2 ^ 53 * 2 ^ 971 := pow_add 2 53 971
    have e2 : (2 : ℚ) ^ (971 : ℤ) = 2 ^ 971 := zpow_natCast 2 971
    rw [e1, e2]
    generalize (2 : ℚ) ^ 971 = t
    norm_num
    ring
  have hn := nearest q hF
  rw [Rat.cast_id, Rat.cast_id] at hn
  have e : (2 : ℚ) ^ 971 = 2 * 2 ^ 970 := pow_succ' 2 970
  have hp : (0 : ℚ) < 2 ^ 970 := by positivity
  unfold f64Huge at hc hn
  rw [e] at hn
  clear e hF
  generalize (2 : ℚ) ^ 970 = t at *
  generalize (2 : ℚ) ^ 1024 = u at *
  generalize rndQ q = r at *
  rw [abs_of_nonpos (by linarith)] at hn
  rcases abs_cases (q - (u - 2 * t)) with ⟨h1, _⟩ | ⟨h1, _⟩ <;> rw [h1] at hn <;> linarith

theorem neg_huge_lt_rndQ {q : ℚ} (h : -(2 ^ 1024 - 2 ^ 970) < q) : -f64Huge < rndQ q := by
  by_contra hc
  push Not at hc
  have hF : IsF (-(f64Huge - 2 ^ 971)) := by
    apply isF_neg
    refine ⟨2 ^ 53 - 1, 971, by norm_num, by norm_num, ?_⟩
    have e1 : f64Huge = 2 ^ 53 * 2 ^ 971 := pow_add 2 53 971
    have e2 : (2 : ℚ) ^ (971 : ℤ) = 2 ^ 971 := zpow_natCast 2 971
    rw [e1, e2]
    generalize (2 : ℚ) ^ 971 = t
    norm_num
    ring
  have hn := nearest q hF
  rw [Rat.cast_id, Rat.cast_id] at hn
  have e : (2 : ℚ) ^ 971 = 2 * 2 ^ 970 := pow_succ' 2 970
  have hp : (0 : ℚ) < 2 ^ 970 := by positivity
  unfold f64Huge at hc hn
  rw [e] at hn
  clear e hF
  generalize (2 : ℚ) ^ 970 = t at *
  generalize (2 : ℚ) ^ 1024 = u at *
  generalize rndQ q = r at *
  rw [abs_of_nonneg (by linarith)] at hn
  rcases abs_cases (q - -(u - 2 * t)) with ⟨h1, _⟩ | ⟨h1, _⟩ <;> rw [h1] at hn <;> linarith

theorem rnd_finite {q : ℚ} (h : |q| < 2 ^ 1024 - 2 ^ 970) :
    rnd q = .fin (rndQ q) ∧ IsF (rndQ q) ∧ |rndQ q| < f64Huge := by
  have h' := abs_lt.1 h
  have hh : |rndQ q| < f64Huge := abs_lt.2 ⟨neg_huge_lt_rndQ h'.1, rndQ_lt_huge h'.2⟩
  exact ⟨rnd_of_rndQ rfl hh, isF_rndQ q, hh⟩

theorem rnd_pinf {q : ℚ} (h : 2 ^ 1024 - 2 ^ 970 ≤ q) : rnd q = .pinf := by
  unfold rnd
  have h2 : f64Huge ≤ rndQ ((2 : ℚ) ^ 1024 - 2 ^ 970) := by decide +kernel
  have : f64Huge ≤ rndQ q := h2.trans (rndQ_mono h)
  simp only
  rw [if_pos this]

theorem rnd_ninf {q : ℚ} (h : q ≤ -(2 ^ 1024 - 2 ^ 970)) : rnd q = .ninf := by
  unfold rnd
  have h2 : rndQ (-((2 : ℚ) ^ 1024 - 2 ^ 970)) ≤ -f64Huge := by decide +kernel
  have h3 : rndQ q ≤ -f64Huge := (rndQ_mono h).trans h2
  have h4 : (0 : ℚ) < f64Huge := by unfold f64Huge; positivity
  simp only
  rw [if_neg (by linarith), if_pos h3]

end Poppy
