import Mathlib.Tactic.Linarith
import Mathlib.Tactic.Positivity
import Mathlib.Tactic.FieldSimp
import Mathlib.Tactic.Ring
import Mathlib.Tactic.NormNum
import Mathlib.Algebra.Order.Floor.Ring
import Verif.Assumptions

/-! Rounding to binary64: nearest value, monotonicity, exactness. -/

namespace Poppy



section
variable {K : Type} [Field K] [LinearOrder K] [IsStrictOrderedRing K] [FloorRing K]

theorem rneInt_nearest (y : K) (k : ℤ) : |y - rneInt y| ≤ |y - k| := by
  unfold rneInt
  have h1 := Int.floor_le y
  have h2 := Int.lt_floor_add_one y
  have hd : |y - (⌊y⌋ : K)| = y - ⌊y⌋ := abs_of_nonneg (by linarith)
  have hd' : |y - ((⌊y⌋ + 1 : ℤ) : K)| = ⌊y⌋ + 1 - y := by
    rw [abs_of_nonpos (by push_cast; linarith)]; push_cast; ring
  have hk : |y - (⌊y⌋ : K)| ≤ |y - k| ∨ |y - ((⌊y⌋ + 1 : ℤ) : K)| ≤ |y - k| := by
    rcases le_or_gt k ⌊y⌋ with hk | hk
    · left
      have : (k : K) ≤ ⌊y⌋ := by exact_mod_cast hk
      rw [hd, abs_of_nonneg (by linarith)]; linarith
    · right
      have : ((⌊y⌋ : K) + 1) ≤ k := by exact_mod_cast hk
      rw [hd', abs_of_nonpos (by linarith)]; linarith
  simp only
  split_ifs with ha hb hc
  · rcases hk with h | h
    · exact h
    · rw [hd'] at h; rw [hd]; linarith
  · rcases hk with h | h
    · rw [hd] at h; rw [hd']; linarith
    · exact h
  · rcases hk with h | h
    · exact h
    · rw [hd'] at h; rw [hd]; linarith
  · rcases hk with h | h
    · rw [hd] at h; rw [hd']; linarith
    · exact h

theorem abs_lt_ulp (x : K) : |x| < (2 : K) ^ (ulpExp x + 53) := by
  have h := Int.lt_zpow_succ_log_self (b := 2) (by norm_num) |x|
  have : Int.log 2 |x| + 1 ≤ ulpExp x + 53 := by unfold ulpExp; omega
  exact h.trans_le (by
    have := zpow_le_zpow_right₀ (a := (2 : K)) (by norm_num) this
    exact_mod_cast this)

omit [IsStrictOrderedRing K] in
theorem ulpExp_ge (x : K) : -1074 ≤ ulpExp x := by unfold ulpExp; omega

theorem rneInt_abs_le (y : K) (n : ℤ) (h : |y| ≤ n) : |rneInt y| ≤ n := by
  rw [abs_le] at h ⊢
  constructor
  · by_contra hc
    push Not at hc
    have h1 := rneInt_nearest y (-n)
    have hlt : ((rneInt y : ℤ) : K) < -n := by exact_mod_cast hc
    rw [abs_of_nonneg (by linarith), abs_of_nonneg (by push_cast; linarith)] at h1
    push_cast at h1
    linarith
  · by_contra hc
    push Not at hc
    have h1 := rneInt_nearest y n
    have hlt : (n : K) < rneInt y := by exact_mod_cast hc
    rw [abs_of_nonpos (by linarith), abs_of_nonpos (by linarith)] at h1
    linarith

theorem two_zpow_pos (e : ℤ) : (0 : K) < 2 ^ e := zpow_pos (by norm_num) e

omit [IsStrictOrderedRing K] in
theorem cast_rndQ (x : K) :
    ((rndQ x : ℚ) : K) = (rneInt (x / (2 : K) ^ ulpExp x) : K) * (2 : K) ^ ulpExp x := by
  unfold rndQ; push_cast; rfl

theorem isF_rndQ (x : K) : IsF (rndQ x) := by
  refine ⟨rneInt (x / (2 : K) ^ ulpExp x), ulpExp x, ?_, ulpExp_ge x, rfl⟩
  apply rneInt_abs_le
  have hu := two_zpow_pos (K := K) (ulpExp x)
  rw [abs_div, abs_of_pos hu, div_le_iff₀ hu]
  have := abs_lt_ulp x
  rw [zpow_add₀ (by norm_num)] at this
  push_cast
  rw [mul_comm]
  exact_mod_cast this.le

/-- Distance to a multiple of the unit in the last place. -/
theorem nearest_multiple (x : K) (k : ℤ) :
    |x - (rndQ x : K)| ≤ |x - k * (2 : K) ^ ulpExp x| := by
  have hu := two_zpow_pos (K := K) (ulpExp x)
  have h := rneInt_nearest (x / (2 : K) ^ ulpExp x) k
  rw [cast_rndQ]
  have e1 : ∀ z : ℤ, |x - z * (2 : K) ^ ulpExp x| = |x / (2 : K) ^ ulpExp x - z| * 2 ^ ulpExp x := by
    intro z
    have h2 : |(2 : K) ^ ulpExp x| = 2 ^ ulpExp x := abs_of_pos hu
    rw [← h2, ← abs_mul, h2, sub_mul, div_mul_cancel₀ _ hu.ne']
  rw [e1, e1]
  exact mul_le_mul_of_nonneg_right h hu.le

theorem nearest (x : K) {y : ℚ} (hy : IsF y) : |x - (rndQ x : K)| ≤ |x - (y : K)| := by
  obtain ⟨m, e, hm, he, rfl⟩ := hy
  have hmul : ulpExp x ≤ e → |x - (rndQ x : K)| ≤ |x - (((m : ℚ) * 2 ^ e : ℚ) : K)| := by
    intro hle
    obtain ⟨d, hd⟩ : ∃ d : ℕ, e = ulpExp x + d := ⟨(e - ulpExp x).toNat, by omega⟩
    have := nearest_multiple x (m * 2 ^ d)
    have h2 : (((m * 2 ^ d : ℤ) : K)) * 2 ^ ulpExp x = (((m : ℚ) * 2 ^ e : ℚ) : K) := by
      push_cast
      rw [hd, zpow_add₀ (by norm_num), zpow_natCast]
      ring
    rwa [h2] at this
  rcases le_or_gt (ulpExp x) e with hle | hgt
  · exact hmul hle
  -- `y` has a smaller exponent, so it is no larger than the start of the binade of `x`
  have hlog : ulpExp x = Int.log 2 |x| - 52 := by unfold ulpExp at hgt ⊢; omega
  rcases eq_or_ne x 0 with hx0 | hx0
  · subst hx0
    have : rndQ (0 : K) = 0 := by
      unfold rndQ rneInt
      simp
    rw [this]; simp only [Rat.cast_zero, sub_self, abs_zero]; exact abs_nonneg _
  have hxpos : 0 < |x| := abs_pos.2 hx0
  have hbx : (2 : K) ^ (ulpExp x + 52) ≤ |x| := by
    have := Int.zpow_log_le_self (b := 2) (by norm_num) hxpos
    rw [hlog]
    simpa using this
  have hby : |(((m : ℚ) * 2 ^ e : ℚ) : K)| ≤ (2 : K) ^ (ulpExp x + 52) := by
    push_cast
    rw [abs_mul, abs_of_pos (two_zpow_pos (K := K) e)]
    have h1 : |(m : K)| ≤ 2 ^ (53 : ℤ) := by
      have h0 : ((|m| : ℤ) : K) ≤ ((2 ^ 53 : ℤ) : K) := Int.cast_le.2 hm
      rw [Int.cast_abs] at h0
      refine h0.trans (le_of_eq ?_)
      norm_num
    calc |(m : K)| * 2 ^ e ≤ 2 ^ (53 : ℤ) * 2 ^ e :=
          mul_le_mul_of_nonneg_right h1 (two_zpow_pos (K := K) e).le
      _ = 2 ^ (53 + e) := by rw [← zpow_add₀ (by norm_num)]
      _ ≤ 2 ^ (ulpExp x + 52) := zpow_le_zpow_right₀ (by norm_num) (by omega)
  have hb : ∀ s : ℤ, (s = 1 ∨ s = -1) →
      |x - (rndQ x : K)| ≤ |x - s * (2 : K) ^ (ulpExp x + 52)| := by
    intro s _
    have := nearest_multiple x (s * 2 ^ 52)
    have h2 : (((s * 2 ^ 52 : ℤ) : K)) * 2 ^ ulpExp x = s * (2 : K) ^ (ulpExp x + 52) := by
      rw [zpow_add₀ (by norm_num)]
      push_cast
      norm_num
      ring
    rwa [h2] at this
  rw [abs_le] at hby
  rcases lt_or_gt_of_ne hx0 with hneg | hpos
  · have := hb (-1) (Or.inr rfl)
    refine this.trans ?_
    rw [abs_of_neg hneg] at hbx
    push_cast
    rw [abs_of_nonpos (by linarith), abs_of_nonpos (by push_cast at hby; linarith [hby.1])]
    push_cast at hby
    linarith [hby.1]
  · have := hb 1 (Or.inl rfl)
    refine this.trans ?_
    rw [abs_of_pos hpos] at hbx
    push_cast
    rw [abs_of_nonneg (by linarith), abs_of_nonneg (by push_cast at hby; linarith [hby.2])]
    push_cast at hby
    linarith [hby.2]

theorem rndQ_le (x : K) {y : ℚ} (hy : IsF y) (h : x ≤ y) : rndQ x ≤ y := by
  by_contra hc
  push Not at hc
  have h1 := nearest x hy
  have h2 : (y : K) < (rndQ x : K) := by exact_mod_cast hc
  rw [abs_of_nonpos (by linarith), abs_of_nonpos (by linarith)] at h1
  linarith

theorem le_rndQ (x : K) {y : ℚ} (hy : IsF y) (h : (y : K) ≤ x) : y ≤ rndQ x := by
  by_contra hc
  push Not at hc
  have h1 := nearest x hy
  have h2 : (rndQ x : K) < (y : K) := by exact_mod_cast hc
  rw [abs_of_nonneg (by linarith), abs_of_nonneg (by linarith)] at h1
  linarith

theorem rndQ_of_isF {y : ℚ} (hy : IsF y) : rndQ ((y : ℚ) : K) = y :=
  le_antisymm (rndQ_le _ hy le_rfl) (le_rndQ _ hy le_rfl)

theorem rndQ_mono {x x' : K} (h : x ≤ x') : rndQ x ≤ rndQ x' := by
  by_contra hc
  push Not at hc
  have hv := isF_rndQ x
  have hv' := isF_rndQ x'
  have h1 : (rndQ x' : K) < x := by
    by_contra hh
    push Not at hh
    exact absurd (rndQ_le x hv' hh) (not_le.2 hc)
  have h2 : x' < (rndQ x : K) := by
    by_contra hh
    push Not at hh
    exact absurd (le_rndQ x' hv hh) (not_le.2 hc)
  have n1 := nearest x hv'
  have n2 := nearest x' hv
  rw [abs_of_neg (by linarith), abs_of_pos (by linarith)] at n1
  rw [abs_of_pos (by linarith), abs_of_neg (by linarith)] at n2
  have : x = x' := by linarith
  rw [this] at hc
  exact lt_irrefl _ hc

end

theorem isF_int {m : ℤ} (h : |m| ≤ 2 ^ 53) : IsF (m : ℚ) := ⟨m, 0, h, by norm_num, by simp⟩

theorem isF_nat {m : ℕ} (h : m ≤ 2 ^ 53) : IsF (m : ℚ) := by
  have := isF_int (m := (m : ℤ)) (by rw [abs_of_nonneg (by positivity)]; exact_mod_cast h)
  exact_mod_cast this

theorem isF_zero : IsF 0 := by simpa using isF_nat (m := 0) (by norm_num)
theorem isF_one : IsF 1 := by simpa using isF_nat (m := 1) (by norm_num)

theorem isF_two_zpow {e : ℤ} (h : -1074 ≤ e) : IsF ((2 : ℚ) ^ e) := ⟨1, e, by norm_num, h, by simp⟩

theorem isF_mul_two_zpow {q : ℚ} {d : ℕ} (h : IsF q) : IsF (q * 2 ^ d) := by
  obtain ⟨m, e, hm, he, rfl⟩ := h
  refine ⟨m, e + d, hm, by omega, ?_⟩
  rw [zpow_add₀ (by norm_num), zpow_natCast]; ring

theorem isF_neg {q : ℚ} (h : IsF q) : IsF (-q) := by
  obtain ⟨m, e, hm, he, rfl⟩ := h
  exact ⟨-m, e, by rwa [abs_neg], he, by push_cast; ring⟩

/-- Rounding an exactly representable number of normal magnitude. -/
theorem rnd_of_isF {K : Type} [Field K] [LinearOrder K] [IsStrictOrderedRing K] [FloorRing K]
    {y : ℚ} (hy : IsF y) (h : |y| < f64Huge) : rnd ((y : ℚ) : K) = .fin y := by
  rw [abs_lt] at h
  unfold rnd
  simp only [rndQ_of_isF hy]
  rw [if_neg (not_le.2 h.2), if_neg (not_le.2 h.1)]

theorem f64Huge_pos : (0 : ℚ) < f64Huge := by unfold f64Huge; positivity

theorem two_pow_lt_f64Huge {n : ℕ} (h : n < 1024) : (2 : ℚ) ^ n < f64Huge := by
  unfold f64Huge
  exact pow_lt_pow_right₀ (by norm_num) h

theorem isF_f64Huge : IsF f64Huge := ⟨1, 1024, by norm_num, by norm_num, by unfold f64Huge; norm_num⟩

/-- Exact results up to `2^53`. -/
theorem rnd_nat {m : ℕ} (h : m ≤ 2 ^ 53) : rnd ((m : ℕ) : ℚ) = .fin m := by
  have := rnd_of_isF (K := ℚ) (isF_nat h) (by
    rw [abs_of_nonneg (by positivity)]
    have : ((m : ℕ) : ℚ) ≤ 2 ^ 53 := by exact_mod_cast h
    exact this.trans_lt (two_pow_lt_f64Huge (by norm_num)))
  simpa using this

theorem ofU64_exact {x : U64} (h : x.toNat ≤ 2 ^ 53) : FVal.ofU64 x = .fin x.toNat := rnd_nat h

/-- A bounded finite value rounds to a finite value. -/
theorem rnd_fin {K : Type} [Field K] [LinearOrder K] [IsStrictOrderedRing K] [FloorRing K]
    {x : K} {b : ℚ} (hb : IsF b) (hlt : b < f64Huge) (h : |x| ≤ b) :
    rnd x = .fin (rndQ x) ∧ |rndQ x| ≤ b := by
  rw [abs_le] at h
  have h1 : rndQ x ≤ b := rndQ_le x hb h.2
  have h2 : -b ≤ rndQ x := le_rndQ x (isF_neg hb) (by push_cast; exact h.1)
  refine ⟨?_, abs_le.2 ⟨h2, h1⟩⟩
  unfold rnd
  rw [if_neg (not_le.2 (h1.trans_lt hlt)), if_neg (not_le.2 (by linarith))]

end Poppy
