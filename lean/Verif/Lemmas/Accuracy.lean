import Mathlib.Analysis.SpecialFunctions.Log.Basic
import Verif.Lemmas.Sizes

/-! Relative error of the sizing formulas. -/

namespace Poppy

section
variable {K : Type} [Field K] [LinearOrder K] [IsStrictOrderedRing K] [FloorRing K]

/-- Rounding of a normal number changes it by at most half a unit in the last place. -/
theorem rndQ_rel (x : K) (h : (2 : K) ^ (-1022 : ℤ) ≤ |x|) :
    |(rndQ x : K) - x| ≤ 2 ^ (-53 : ℤ) * |x| := by
  have hx : 0 < |x| := lt_of_lt_of_le (two_zpow_pos _) h
  have hlog : -1022 ≤ Int.log 2 |x| := by
    rw [← Int.zpow_le_iff_le_log (by norm_num) hx]
    exact_mod_cast h
  have hu : ulpExp x = Int.log 2 |x| - 52 := by unfold ulpExp; rw [max_eq_left hlog]
  have hle : (2 : K) ^ (Int.log 2 |x|) ≤ |x| := by
    have := Int.zpow_log_le_self (b := 2) (by norm_num) hx
    exact_mod_cast this
  have hpos := two_zpow_pos (K := K) (ulpExp x)
  -- distance to the nearest multiple
  have hd : |x - (rndQ x : K)| ≤ (2 : K) ^ ulpExp x / 2 := by
    set y := x / (2 : K) ^ ulpExp x with hy
    have hxy : x = y * (2 : K) ^ ulpExp x := by rw [hy, div_mul_cancel₀ _ hpos.ne']
    have h1 := nearest_multiple x ⌊y⌋
    have h2 := nearest_multiple x (⌊y⌋ + 1)
    have e1 : |x - (⌊y⌋ : K) * (2 : K) ^ ulpExp x| = (y - ⌊y⌋) * 2 ^ ulpExp x := by
      have : x - (⌊y⌋ : K) * (2 : K) ^ ulpExp x = (y - ⌊y⌋) * 2 ^ ulpExp x := by
        rw [sub_mul, ← hxy]
      rw [this, abs_of_nonneg (mul_nonneg (by linarith [Int.floor_le y]) hpos.le)]
    have e2 : |x - ((⌊y⌋ + 1 : ℤ) : K) * (2 : K) ^ ulpExp x|
        = (⌊y⌋ + 1 - y) * 2 ^ ulpExp x := by
      have : x - ((⌊y⌋ + 1 : ℤ) : K) * (2 : K) ^ ulpExp x
          = -((⌊y⌋ + 1 - y) * 2 ^ ulpExp x) := by
        push_cast
        have : (↑⌊y⌋ + 1 - y) * (2 : K) ^ ulpExp x
            = (↑⌊y⌋ + 1) * (2 : K) ^ ulpExp x - y * (2 : K) ^ ulpExp x := sub_mul _ _ _
        rw [this, ← hxy]
        ring
      rw [this, abs_neg, abs_of_nonneg (mul_nonneg (by linarith [Int.lt_floor_add_one y]) hpos.le)]
    rw [e1] at h1
    rw [e2] at h2
    rcases le_total (y - ⌊y⌋) (1 / 2) with hy2 | hy2
    · calc _ ≤ _ := h1
        _ ≤ 1 / 2 * 2 ^ ulpExp x := mul_le_mul_of_nonneg_right hy2 hpos.le
        _ = _ := by ring
    · calc _ ≤ _ := h2
        _ ≤ 1 / 2 * 2 ^ ulpExp x := mul_le_mul_of_nonneg_right (by linarith) hpos.le
        _ = _ := by ring
  rw [abs_sub_comm]
  refine hd.trans ?_
  rw [hu, zpow_sub₀ (by norm_num)]
  have : (2 : K) ^ (-53 : ℤ) = 1 / (2 ^ (52 : ℤ)) / 2 := by norm_num
  rw [this]
  calc (2 : K) ^ Int.log 2 |x| / 2 ^ (52 : ℤ) / 2
      = 1 / 2 ^ (52 : ℤ) / 2 * (2 : K) ^ Int.log 2 |x| := by ring
    _ ≤ _ := mul_le_mul_of_nonneg_left hle (by positivity)

end

/-- `v` is `x` up to a relative error of `e`. -/
def Near (e v x : ℝ) : Prop := x * (1 - e) ≤ v ∧ v ≤ x * (1 + e)

namespace Near

theorem of_abs {e v x : ℝ} (hx : 0 ≤ x) (h : |v - x| ≤ e * |x|) : Near e v x := by
  rw [abs_of_nonneg hx, abs_le] at h
  constructor <;> nlinarith [h.1, h.2]

theorem refl {e : ℝ} (he : 0 ≤ e) {x : ℝ} (hx : 0 ≤ x) : Near e x x := by
  constructor <;> nlinarith

theorem mono {e e' v x : ℝ} (hx : 0 ≤ x) (he : e ≤ e') (h : Near e v x) : Near e' v x := by
  obtain ⟨h1, h2⟩ := h
  constructor
  · exact le_trans (mul_le_mul_of_nonneg_left (by linarith) hx) h1
  · exact le_trans h2 (mul_le_mul_of_nonneg_left (by linarith) hx)

theorem nonneg {e v x : ℝ} (hx : 0 ≤ x) (he : e ≤ 1) (h : Near e v x) : 0 ≤ v :=
  le_trans (mul_nonneg hx (by linarith)) h.1

theorem pos {e v x : ℝ} (hx : 0 < x) (he : e < 1) (h : Near e v x) : 0 < v :=
  lt_of_lt_of_le (mul_pos hx (by linarith)) h.1

theorem trans {a b u v x : ℝ} (hx : 0 ≤ x) (ha : 0 ≤ a) (hb : 0 ≤ b) (ha1 : a ≤ 1) (hb1 : b ≤ 1)
    (h : Near a u v) (h' : Near b v x) : Near (a + 2 * b) u x := by
  have hv := h'.nonneg hx hb1
  obtain ⟨h1, h2⟩ := h
  obtain ⟨h3, h4⟩ := h'
  constructor
  · calc x * (1 - (a + 2 * b)) ≤ x * ((1 - b) * (1 - a)) :=
        mul_le_mul_of_nonneg_left (by nlinarith) hx
      _ = x * (1 - b) * (1 - a) := by ring
      _ ≤ v * (1 - a) := mul_le_mul_of_nonneg_right h3 (by linarith)
      _ ≤ u := h1
  · calc u ≤ v * (1 + a) := h2
      _ ≤ x * (1 + b) * (1 + a) := mul_le_mul_of_nonneg_right h4 (by linarith)
      _ = x * ((1 + b) * (1 + a)) := by ring
      _ ≤ _ := mul_le_mul_of_nonneg_left (by nlinarith) hx

theorem mul {a b u v x y : ℝ} (hx : 0 ≤ x) (hy : 0 ≤ y) (ha : 0 ≤ a) (hb : 0 ≤ b) (ha1 : a ≤ 1)
    (hb1 : b ≤ 1) (h : Near a u x) (h' : Near b v y) : Near (a + 2 * b) (u * v) (x * y) := by
  have hu := h.nonneg hx ha1
  have hv := h'.nonneg hy hb1
  obtain ⟨h1, h2⟩ := h
  obtain ⟨h3, h4⟩ := h'
  have hxy := mul_nonneg hx hy
  constructor
  · calc x * y * (1 - (a + 2 * b)) ≤ x * y * ((1 - a) * (1 - b)) :=
        mul_le_mul_of_nonneg_left (by nlinarith) hxy
      _ = (x * (1 - a)) * (y * (1 - b)) := by ring
      _ ≤ u * v := mul_le_mul h1 h3 (mul_nonneg hy (by linarith)) hu
  · calc u * v ≤ (x * (1 + a)) * (y * (1 + b)) :=
        mul_le_mul h2 h4 hv (mul_nonneg hx (by linarith))
      _ = x * y * ((1 + a) * (1 + b)) := by ring
      _ ≤ _ := mul_le_mul_of_nonneg_left (by nlinarith) hxy

theorem inv {b v y : ℝ} (hy : 0 < y) (hb : 0 ≤ b) (hb1 : b ≤ 1 / 2) (h : Near b v y) :
    Near (2 * b) v⁻¹ y⁻¹ := by
  have hv := h.pos hy (by linarith)
  obtain ⟨h3, h4⟩ := h
  rw [Near, inv_mul_eq_div, inv_mul_eq_div, inv_eq_one_div v]
  constructor
  · rw [div_le_div_iff₀ hy hv]
    nlinarith [mul_le_mul_of_nonneg_right h4 (show (0 : ℝ) ≤ 1 by norm_num),
      mul_nonneg hy.le hb, mul_nonneg (mul_nonneg hy.le hb) hb]
  · rw [div_le_div_iff₀ hv hy]
    nlinarith [mul_nonneg hy.le hb, mul_nonneg (mul_nonneg hy.le hb) hb]

theorem div {a b u v x y : ℝ} (hx : 0 ≤ x) (hy : 0 < y) (ha : 0 ≤ a) (hb : 0 ≤ b) (ha1 : a ≤ 1)
    (hb1 : b ≤ 1 / 2) (h : Near a u x) (h' : Near b v y) : Near (a + 4 * b) (u / v) (x / y) := by
  rw [div_eq_mul_inv, div_eq_mul_inv]
  have := h.mul hx (inv_nonneg.2 hy.le) ha (by linarith) ha1 (by linarith) (h'.inv hy hb hb1)
  rwa [← mul_assoc, show (2 : ℝ) * 2 = 4 by norm_num] at this

end Near



theorem near_rndQ {x : ℚ} (h : (2 : ℚ) ^ (-1022 : ℤ) ≤ x) : Near halfUlp (rndQ x : ℚ) (x : ℝ) := by
  have hx : 0 < x := lt_of_lt_of_le (two_zpow_pos _) h
  have h1 := rndQ_rel x (by rwa [abs_of_pos hx])
  apply Near.of_abs (by exact_mod_cast hx.le)
  have h2 : ((|(rndQ x : ℚ) - x| : ℚ) : ℝ) ≤ ((2 ^ (-53 : ℤ) * |x| : ℚ) : ℝ) := by exact_mod_cast h1
  push_cast at h2
  exact h2

theorem near_ofU64 (x : U64) : ∃ q : ℚ, FVal.ofU64 x = .fin q ∧ 0 ≤ q ∧ IsF q ∧
    Near halfUlp (q : ℝ) (x.toNat : ℝ) ∧ (x ≠ 0 → 1 ≤ q) ∧ q ≤ 2 ^ 64 := by
  by_cases h0 : x = 0
  · subst h0
    refine ⟨0, ofU64_zero, le_refl _, isF_zero, ?_, fun h => absurd rfl h, by norm_num⟩
    have : (0 : U64).toNat = 0 := rfl
    rw [this]
    simp [Near]
  · obtain ⟨q, hq, hF, h1, h2⟩ := ofU64_bounds h0
    refine ⟨q, hq, by linarith, hF, ?_, fun _ => h1, h2⟩
    rw [rnd_fin_u64] at hq
    cases hq
    have hx : 1 ≤ x.toNat := by
      rcases Nat.eq_zero_or_pos x.toNat with h | h
      · exact absurd (BitVec.eq_of_toNat_eq h) h0
      · exact h
    have := near_rndQ (x := ((x.toNat : ℕ) : ℚ)) (by
      have : (1 : ℚ) ≤ (x.toNat : ℕ) := by exact_mod_cast hx
      exact le_trans (zpow_le_one_of_nonpos₀ one_le_two (by norm_num)) this)
    simpa using this

theorem halfUlp_pos : 0 < halfUlp := by unfold halfUlp; positivity

theorem halfUlp_lt : halfUlp < 1 / 2 ^ 52 := by unfold halfUlp; norm_num

theorem log_two_bounds : 693147 / 1000000 < Real.log 2 ∧ Real.log 2 < 693148 / 1000000 := by
  have h1 := Real.log_two_gt_d9
  have h2 := Real.log_two_lt_d9
  constructor <;> linarith

/-- The smallest accepted probability. -/
theorem log_ge {q : ℚ} (h : 2 ^ (-1022 : ℤ) ≤ q) : -7085 / 10 ≤ Real.log (q : ℝ) := by
  have h3 : Real.log ((2 : ℝ) ^ (-1022 : ℤ)) ≤ Real.log (q : ℝ) := by
    apply Real.log_le_log (zpow_pos (by norm_num) _)
    have : (((2 : ℚ) ^ (-1022 : ℤ) : ℚ) : ℝ) ≤ (q : ℝ) := by exact_mod_cast h
    rwa [Rat.cast_zpow] at this
  rw [Real.log_zpow] at h3
  refine le_trans ?_ h3
  have := log_two_bounds.2
  push_cast
  nlinarith

/-- A binary64 number below 1 is not too close to 1. -/
theorem isF_gap {q : ℚ} (hq : IsF q) (h0 : 0 < q) (h1 : q < 1) : q ≤ 1 - 1 / 2 ^ 53 := by
  obtain ⟨m, e, hm, he, rfl⟩ := hq
  have he0 : e < 0 := by
    by_contra hc
    push Not at hc
    have h2 : (1 : ℚ) ≤ 2 ^ e := one_le_zpow₀ (by norm_num) hc
    have hm0 : 0 < (m : ℚ) := (mul_pos_iff_of_pos_right (two_zpow_pos _)).1 h0
    have hm1 : (1 : ℚ) ≤ m := by exact_mod_cast (by exact_mod_cast hm0 : (0 : ℤ) < m)
    nlinarith
  have hm' : m ≤ 2 ^ 53 := (abs_le.1 hm).2
  by_cases h53 : e < -53
  · have h2 : (2 : ℚ) ^ e ≤ 2 ^ (-54 : ℤ) := zpow_le_zpow_right₀ (by norm_num) (by omega)
    have h3 : (m : ℚ) ≤ 2 ^ 53 := by exact_mod_cast hm'
    have h4 : (m : ℚ) * 2 ^ e ≤ 2 ^ 53 * 2 ^ (-54 : ℤ) :=
      mul_le_mul h3 h2 (two_zpow_pos _).le (by positivity)
    refine h4.trans ?_
    norm_num
  · -- `1` is a multiple of `2^e`
    obtain ⟨d, rfl⟩ : ∃ d : ℕ, e = -(d : ℤ) := ⟨e.natAbs, by omega⟩
    have hd : d ≤ 53 := by omega
    have hp : (0 : ℚ) < 2 ^ d := by positivity
    rw [zpow_neg, zpow_natCast, ← div_eq_mul_inv] at h1 ⊢
    rw [div_lt_one hp] at h1
    have hlt : m < 2 ^ d := by exact_mod_cast h1
    have hle : (m : ℚ) ≤ 2 ^ d - 1 := by
      have : m ≤ 2 ^ d - 1 := by omega
      exact_mod_cast this
    rw [div_le_iff₀ hp]
    have : (2 : ℚ) ^ d ≤ 2 ^ 53 := pow_le_pow_right₀ (by norm_num) hd
    have h5 : (1 : ℚ) / 2 ^ 53 * 2 ^ d ≤ 1 := by
      rw [div_mul_eq_mul_div, one_mul, div_le_one (by positivity)]
      exact this
    linarith

theorem log_gap {q : ℚ} (hq : IsF q) (h0 : 0 < q) (h1 : q < 1) :
    Real.log (q : ℝ) ≤ -(1 / 2 ^ 53) := by
  have h2 : (q : ℝ) ≤ 1 - 1 / 2 ^ 53 := by
    have : (q : ℝ) ≤ ((1 - 1 / 2 ^ 53 : ℚ) : ℝ) := by exact_mod_cast isF_gap hq h0 h1
    push_cast at this
    exact this
  have := Real.log_le_sub_one_of_pos (show (0 : ℝ) < q by exact_mod_cast h0)
  linarith

theorem Libm.Accurate.ln_two {lm : Libm} (ac : lm.Accurate) : ∃ r : ℚ, lm.ln (.fin 2) = .fin r ∧
    Near (4 * halfUlp) r (Real.log 2) := by
  obtain ⟨r, h1, h2⟩ := ac.ln 2 (by simpa using isF_nat (m := 2) (by norm_num))
    (le_trans (zpow_le_one_of_nonpos₀ one_le_two (by norm_num)) one_le_two) (.inr rfl)
  refine ⟨r, h1, Near.of_abs (Real.log_nonneg one_le_two) ?_⟩
  simpa using h2

theorem Libm.Accurate.ln_two_sq {lm : Libm} (ac : lm.Accurate) : ∃ s : ℚ,
    lm.powf (lm.ln (.fin 2)) (.fin 2) = .fin s ∧
    Near (28 * halfUlp) s (Real.log 2 ^ 2) := by
  obtain ⟨r, h1, h2⟩ := ac.ln_two
  obtain ⟨s, h3, h4⟩ := ac.sq r h1
  have hl : 0 ≤ Real.log 2 := Real.log_nonneg one_le_two
  have hu := halfUlp_pos
  have hu' := halfUlp_lt
  have hn : Near (4 * halfUlp) s ((r : ℝ) ^ 2) :=
    Near.of_abs (sq_nonneg _) (by rwa [abs_of_nonneg (sq_nonneg (r : ℝ))])
  have hm := h2.mul hl hl (by linarith) (by linarith) (by linarith) (by linarith) h2
  rw [← pow_two, ← pow_two] at hm
  refine ⟨s, by rw [h1, h3], ?_⟩
  have := hn.trans (sq_nonneg _) (by linarith) (by linarith) (by linarith) (by linarith) hm
  exact this.mono (sq_nonneg _) (by linarith)

theorem Libm.Accurate.ln_fpp {lm : Libm} (ac : lm.Accurate) {fpp : F64}
    (h : fppInRange fpp = true) : ∃ q r : ℚ, FVal.ofBits fpp = .fin q ∧ 0 < q ∧ q ≤ 1 ∧
    2 ^ (-1022 : ℤ) ≤ q ∧ IsF q ∧ lm.ln (.fin q) = .fin (-r) ∧
    Near (4 * halfUlp) r (-Real.log q) := by
  obtain ⟨q, hq, hq1, hq2, hqF⟩ := ofBits_of_inRange h
  have h0 : 0 < q := lt_of_lt_of_le (two_zpow_pos _) hq1
  obtain ⟨r, h1, h2⟩ := ac.ln q hqF hq1 (.inl hq2)
  have hl : Real.log (q : ℝ) ≤ 0 :=
    Real.log_nonpos (by exact_mod_cast h0.le) (by exact_mod_cast hq2)
  refine ⟨q, -r, hq, h0, hq2, hq1, hqF, by rw [neg_neg, h1], Near.of_abs (by linarith) ?_⟩
  push_cast
  rw [abs_neg, show -(r : ℝ) - -Real.log (q : ℝ) = -((r : ℝ) - Real.log (q : ℝ)) by ring, abs_neg]
  exact h2

theorem Libm.Accurate.spec {lm : Libm} (ac : lm.Accurate) : lm.Spec := by
  have hu := halfUlp_pos
  have hu' := halfUlp_lt
  obtain ⟨hl1, hl2⟩ := log_two_bounds
  refine ⟨?_, ?_, ?_, ?_⟩
  · obtain ⟨r, h1, h2⟩ := ac.ln 1 isF_one (zpow_le_one_of_nonpos₀ one_le_two (by norm_num))
      (.inl le_rfl)
    simp only [Rat.cast_one, Real.log_one, sub_zero, abs_zero, mul_zero] at h2
    have : (r : ℝ) = 0 := abs_nonpos_iff.1 h2
    rw [h1, show r = 0 by exact_mod_cast this]
  · intro q hq h1 h2
    have h0 : 0 < q := lt_of_lt_of_le (two_zpow_pos _) h1
    obtain ⟨r, e1, e2⟩ := ac.ln q hq h1 (.inl h2.le)
    have hlo := log_ge h1
    have hhi := log_gap hq h0 h2
    have hneg : Real.log (q : ℝ) < 0 := lt_of_le_of_lt hhi (by norm_num)
    rw [abs_of_neg hneg, abs_le] at e2
    refine ⟨r, e1, ?_, ?_⟩
    · have : (-709 : ℝ) ≤ r := by nlinarith [e2.1]
      exact_mod_cast this
    · have : (r : ℝ) < 0 := by nlinarith [e2.2]
      exact_mod_cast this
  · obtain ⟨r, e1, e2, e3⟩ := ac.ln_two
    refine ⟨r, e1, ?_, ?_⟩
    · have : ((69 / 100 : ℚ) : ℝ) ≤ r := by push_cast; nlinarith
      exact_mod_cast this
    · have : (r : ℝ) ≤ ((70 / 100 : ℚ) : ℝ) := by push_cast; nlinarith
      exact_mod_cast this
  · obtain ⟨s, e1, e2, e3⟩ := ac.ln_two_sq
    have q1 : 48045 / 100000 ≤ Real.log 2 ^ 2 := by nlinarith
    have q2 : Real.log 2 ^ 2 ≤ 48046 / 100000 := by nlinarith
    refine ⟨s, e1, ?_, ?_⟩
    · have : ((48 / 100 : ℚ) : ℝ) ≤ s := by push_cast; nlinarith
      exact_mod_cast this
    · have : (s : ℝ) ≤ ((481 / 1000 : ℚ) : ℝ) := by push_cast; nlinarith
      exact_mod_cast this

/-- Correctly rounded functions are accurate. -/
theorem Libm.exact_accurate : Libm.exact.Accurate := by
  have hu := halfUlp_pos
  have key : ∀ x : ℝ, 1 / 2 ^ 60 ≤ |x| → |x| ≤ 2 ^ 20 →
      ∃ r : ℚ, rnd x = .fin r ∧ |(r : ℝ) - x| ≤ 4 * halfUlp * |x| := by
    intro x h1 h2
    have h20 : IsF ((2 : ℚ) ^ 20) := by
      have := isF_two_zpow (e := 20) (by norm_num); exact_mod_cast this
    obtain ⟨e, _⟩ := rnd_fin (x := x) h20 (two_pow_lt_f64Huge (by norm_num)) (by
      push_cast; exact h2)
    refine ⟨_, e, ?_⟩
    have hn : (2 : ℝ) ^ (-1022 : ℤ) ≤ |x| := by
      refine le_trans ?_ h1
      rw [show (1 : ℝ) / 2 ^ 60 = 2 ^ (-60 : ℤ) by norm_num]
      exact zpow_le_zpow_right₀ (by norm_num) (by norm_num)
    have := rndQ_rel x hn
    have hh : (2 : ℝ) ^ (-53 : ℤ) * |x| ≤ 4 * halfUlp * |x| :=
      mul_le_mul_of_nonneg_right (by unfold halfUlp; norm_num) (abs_nonneg _)
    exact this.trans hh
  obtain ⟨hl1, hl2⟩ := log_two_bounds
  constructor
  · intro q hq h1 h2
    have h0 : 0 < q := lt_of_lt_of_le (two_zpow_pos _) h1
    rw [Libm.exact_ln h0]
    rcases h2 with h2 | rfl
    · rcases h2.lt_or_eq with h2 | rfl
      · have hlo := log_ge h1
        have hhi := log_gap hq h0 h2
        apply key
        · rw [abs_of_neg (lt_of_le_of_lt hhi (by norm_num))]
          refine le_trans ?_ (neg_le_neg hhi)
          norm_num
        · rw [abs_of_neg (lt_of_le_of_lt hhi (by norm_num))]
          have : (7085 / 10 : ℝ) ≤ 2 ^ 20 := by norm_num
          linarith
      · refine ⟨0, ?_, by simp⟩
        have := rnd_of_isF (K := ℝ) isF_zero (by rw [abs_zero]; exact f64Huge_pos)
        simpa using this
    · push_cast
      apply key
      · rw [abs_of_pos (by linarith)]
        refine le_trans (by norm_num) hl1.le
      · rw [abs_of_pos (by linarith)]
        exact le_trans hl2.le (by norm_num)
  · intro r hr
    obtain ⟨r', e1, e2, e3⟩ := Libm.exact_spec.ln_two
    rw [hr] at e1
    cases e1
    have hr0 : 0 ≤ r := by linarith
    have e2' : (69 / 100 : ℝ) ≤ r := by
      have : ((69 / 100 : ℚ) : ℝ) ≤ r := by exact_mod_cast e2
      push_cast at this; exact this
    have e3' : (r : ℝ) ≤ 70 / 100 := by
      have : (r : ℝ) ≤ ((70 / 100 : ℚ) : ℝ) := by exact_mod_cast e3
      push_cast at this; exact this
    rw [Libm.exact_powf hr0]
    have : ((r : ℝ)) ^ ((2 : ℚ) : ℝ) = (r : ℝ) ^ 2 := by
      rw [show ((2 : ℚ) : ℝ) = ((2 : ℕ) : ℝ) by norm_num, Real.rpow_natCast]
    rw [this]
    have hk := key ((r : ℝ) ^ 2) (by
      rw [abs_of_nonneg (sq_nonneg _)]
      have : (1 : ℝ) / 2 ^ 60 ≤ 4 / 10 := by norm_num
      nlinarith) (by
      rw [abs_of_nonneg (sq_nonneg _)]
      have : (1 : ℝ) ≤ 2 ^ 20 := by norm_num
      nlinarith)
    rwa [abs_of_nonneg (sq_nonneg (r : ℝ))] at hk

theorem near_rndQ_neg {x : ℚ} (h : (2 : ℚ) ^ (-1022 : ℤ) ≤ x) :
    Near halfUlp (-(rndQ (-x) : ℚ) : ℝ) (x : ℝ) := by
  have hx : 0 < x := lt_of_lt_of_le (two_zpow_pos _) h
  have h1 := rndQ_rel (-x) (by rwa [abs_neg, abs_of_pos hx])
  apply Near.of_abs (by exact_mod_cast hx.le)
  have h2 : ((|(rndQ (-x) : ℚ) - (-x)| : ℚ) : ℝ) ≤ ((2 ^ (-53 : ℤ) * |-x| : ℚ) : ℝ) := by
    exact_mod_cast h1
  push_cast at h2
  rw [show -(rndQ (-x) : ℝ) - (x : ℝ) = -((rndQ (-x) : ℝ) - (-(x : ℝ))) by ring, abs_neg]
  rw [abs_neg] at h2
  exact h2

theorem tiny_le {x : ℚ} (h : 1 / 2 ^ 200 ≤ x) : (2 : ℚ) ^ (-1022 : ℤ) ≤ x := by
  refine le_trans ?_ h
  rw [show (1 : ℚ) / 2 ^ 200 = 2 ^ (-200 : ℤ) by norm_num]
  exact zpow_le_zpow_right₀ (by norm_num) (by norm_num)

/-- The number of bits before it is made an integer. -/
theorem bitSizeFor_near {lm : Libm} (ac : lm.Accurate) {fpp : F64} (h : fppInRange fpp = true)
    {q : ℚ} (hq : FVal.ofBits fpp = .fin q) (cap : U64) : ∃ v : ℚ, 0 ≤ v ∧
      bitSizeFor lm cap (FVal.ofBits fpp) = FVal.toU64 (.fin (⌊v⌋ : ℤ)) ∧
      Near (263 * halfUlp) v (cap.toNat * -Real.log q / Real.log 2 ^ 2) := by
  have hu := halfUlp_pos
  have hu' := halfUlp_lt
  obtain ⟨v, hv0, hv, hb, hc0⟩ := bitSizeFor_eq ac.spec h cap
  refine ⟨v, hv0, hb, ?_⟩
  obtain ⟨q', r, e, q0, q1, qm, qF, hr, nr⟩ := ac.ln_fpp h
  rw [hq] at e
  cases e
  obtain ⟨s, hs, ns⟩ := ac.ln_two_sq
  obtain ⟨c, hc, c0, _, nc, c1, c64⟩ := near_ofU64 cap
  obtain ⟨s', hs', s1, s2⟩ := ac.spec.ln_two_sq
  rw [hs] at hs'
  cases hs'
  by_cases hcz : cap = 0
  · rw [hc0 hcz, hcz]
    simp [Near]
  rcases q1.lt_or_eq with q1 | rfl
  · have hl := log_gap qF q0 q1
    have hlp : 0 < -Real.log (q : ℝ) := by
      have : (0 : ℝ) < 1 / 2 ^ 53 := by norm_num
      linarith
    have hlog2 : 0 < Real.log 2 := Real.log_pos one_lt_two
    have c1 := c1 hcz
    -- `r` is not too small
    have hr0 : (1 : ℚ) / 2 ^ 54 ≤ r := by
      have h1 : ((1 / 2 ^ 54 : ℚ) : ℝ) ≤ r := by
        push_cast
        refine le_trans ?_ nr.1
        have : (1 : ℝ) / 2 ^ 53 * (1 / 2) ≤ -Real.log q * (1 - 4 * halfUlp) :=
          mul_le_mul (by linarith) (by linarith) (by norm_num) hlp.le
        refine le_trans (by norm_num) this
      exact_mod_cast h1
    have hr1 : r ≤ 709 := by
      obtain ⟨r', h1, h2, _⟩ := ac.spec.ln_below_one q qF qm q1
      rw [hr] at h1
      cases h1
      linarith
    have hrp : 0 < r := lt_of_lt_of_le (by norm_num) hr0
    -- the product
    have hcr : (1 : ℚ) / 2 ^ 54 ≤ c * r := by nlinarith
    have hcr2 : c * r ≤ 2 ^ 80 := by nlinarith
    have hF80 : IsF ((2 : ℚ) ^ 80) := by
      have := isF_two_zpow (e := 80) (by norm_num); exact_mod_cast this
    obtain ⟨g1, g2⟩ := rnd_fin (K := ℚ) (x := c * -r) hF80 (two_pow_lt_f64Huge (by norm_num)) (by
      rw [mul_neg, abs_neg, abs_of_nonneg (by positivity)]; exact hcr2)
    have n1 := near_rndQ_neg (x := c * r) (tiny_le (le_trans (by norm_num) hcr))
    rw [← mul_neg] at n1
    push_cast at n1
    have n2 := nc.mul (Nat.cast_nonneg _) hlp.le hu.le (by linarith) (by linarith) (by linarith) nr
    have hx2 : 0 ≤ (cap.toNat : ℝ) * -Real.log q := mul_nonneg (Nat.cast_nonneg _) hlp.le
    have n3 := n1.trans hx2 hu.le (by linarith) (by linarith) (by linarith) n2
    -- the quotient
    set p : ℚ := -rndQ (c * -r) with hp
    have hp0 : (1 : ℚ) / 2 ^ 54 ≤ p := by
      have h54 : IsF (-(1 / 2 ^ 54)) := isF_neg (by
        simpa using isF_dyadic 1 54 (by norm_num) (by norm_num))
      have := rndQ_le (c * -r) h54 (by push_cast; linarith)
      linarith
    have hp1 : p ≤ 2 ^ 80 := by
      have := (abs_le.1 g2).1
      linarith
    have hpp : 0 < p := lt_of_lt_of_le (by norm_num) hp0
    have hsp : 0 < s := by linarith
    have hps : (1 : ℚ) / 2 ^ 54 ≤ p / s := by
      rw [le_div_iff₀ hsp]
      nlinarith
    have hps2 : p / s ≤ 2 ^ 128 := by
      rw [div_le_iff₀ hsp]
      nlinarith
    obtain ⟨g4, _⟩ := rnd_fin (K := ℚ) (x := -(p / s)) isF_big (two_pow_lt_f64Huge (by norm_num))
      (by rw [abs_neg, abs_of_nonneg (by positivity)]; exact hps2)
    have hve : v = -rndQ (-(p / s)) := by
      have : FVal.div (FVal.mul (FVal.ofU64 cap) (lm.ln (FVal.ofBits fpp)))
          (lm.powf (lm.ln (.fin 2)) (.fin 2)) = .fin (rndQ (-(p / s))) := by
        rw [hc, hq, hr, hs]
        show FVal.div (rnd (c * -r)) (.fin s) = _
        rw [g1]
        show (if s = 0 then _ else rnd _) = _
        rw [if_neg hsp.ne', ← g4, hp, neg_div, neg_neg]
      rw [hv] at this
      have := FVal.fin.inj this
      linarith
    have n4 : Near (1 * halfUlp + 2 * (1 * halfUlp + 2 * (4 * halfUlp))) (p : ℝ)
        (cap.toNat * -Real.log q) := by
      rw [hp]
      push_cast
      exact n3.mono hx2 (by linarith)
    have hl2 : 0 < Real.log 2 ^ 2 := by positivity
    have n5 := n4.div hx2 hl2 (by linarith) (by linarith) (by linarith) (by linarith) ns
    have n6 := near_rndQ_neg (x := p / s) (tiny_le (le_trans (by norm_num) hps))
    push_cast at n6
    have hx3 : 0 ≤ (cap.toNat : ℝ) * -Real.log q / Real.log 2 ^ 2 := div_nonneg hx2 hl2.le
    have n7 := n6.trans hx3 hu.le (by linarith) (by linarith) (by linarith) n5
    rw [hve]
    push_cast
    exact n7.mono hx3 (by linarith)
  · have : v = 0 := by
      have h1 := ac.spec.ln_one
      rw [hq, h1, hc, hs] at hv
      have h2 : FVal.mul (.fin c) (.fin 0) = .fin 0 := by
        show rnd (c * 0) = _
        rw [mul_zero, rnd_zero]
      rw [h2] at hv
      have h3 : FVal.div (.fin 0) (.fin s) = .fin 0 := by
        show (if s = 0 then _ else rnd (0 / s)) = _
        rw [if_neg (by linarith), zero_div, rnd_zero]
      rw [h3] at hv
      have := FVal.fin.inj hv
      linarith
    rw [this]
    simp [Near]

/-- The number of hash functions before it is made an integer. -/
theorem kHash_near {lm : Libm} (ac : lm.Accurate) {bits cap : U64} (hc : cap ≠ 0) :
    ∃ v : ℚ, 0 ≤ v ∧ v ≤ 2 ^ 70 ∧
      kHash lm bits cap = FVal.toU64 (.fin (⌈v⌉ : ℤ)) ∧
      Near (35 * halfUlp) v (Real.log 2 * bits.toNat / cap.toNat) := by
  have hu := halfUlp_pos
  have hu' := halfUlp_lt
  have hlog2 : 0 < Real.log 2 := Real.log_pos one_lt_two
  obtain ⟨l, hl, nl⟩ := ac.ln_two
  obtain ⟨l', hl', l1, l2⟩ := ac.spec.ln_two
  rw [hl] at hl'
  cases hl'
  obtain ⟨b, hb, b0, _, nb, b1, b64⟩ := near_ofU64 bits
  obtain ⟨c, hcc, c0, _, nc, c1, c64⟩ := near_ofU64 cap
  have c1 := c1 hc
  have hcn : 0 < (cap.toNat : ℝ) := by
    have : 0 < cap.toNat := by
      rcases Nat.eq_zero_or_pos cap.toNat with h | h
      · exact absurd (BitVec.eq_of_toNat_eq h) hc
      · exact h
    exact_mod_cast this
  by_cases hbz : bits = 0
  · refine ⟨0, le_rfl, by norm_num, ?_, ?_⟩
    · rw [hbz, kHash_zero ac.spec]
      simp [FVal.toU64]
    · rw [hbz]
      simp [Near]
  have b1 := b1 hbz
  have hlb : (1 : ℚ) / 2 ≤ l * b := by nlinarith
  have hlb2 : l * b ≤ 2 ^ 64 := by nlinarith
  obtain ⟨g1, g2⟩ := rnd_pos (x := l * b) (le_trans (by norm_num) hlb)
    (le_trans hlb2 (by norm_num))
  have n1 := near_rndQ (x := l * b) (tiny_le (le_trans (by norm_num) hlb))
  push_cast at n1
  have n2 := nl.mul hlog2.le (Nat.cast_nonneg _) (by linarith) hu.le (by linarith) (by linarith) nb
  have hx2 : 0 ≤ Real.log 2 * (bits.toNat : ℝ) := mul_nonneg hlog2.le (Nat.cast_nonneg _)
  have n3 := n1.trans hx2 hu.le (by linarith) (by linarith) (by linarith) n2
  set p : ℚ := rndQ (l * b) with hp
  have h2F : IsF (1 / 2 : ℚ) := by simpa using isF_dyadic 1 1 (by norm_num) (by norm_num)
  have h64F : IsF ((2 : ℚ) ^ 64) := by
    have := isF_two_zpow (e := 64) (by norm_num); exact_mod_cast this
  have hp0 : (1 : ℚ) / 2 ≤ p := le_rndQ _ h2F (by simpa using hlb)
  have hp1 : p ≤ 2 ^ 64 := rndQ_le _ h64F (by simpa using hlb2)
  have hpc : (1 : ℚ) / 2 ^ 65 ≤ p / c := by
    rw [le_div_iff₀ (by linarith)]
    have : (1 : ℚ) / 2 ^ 65 * c ≤ 1 / 2 ^ 65 * 2 ^ 64 := mul_le_mul_of_nonneg_left c64 (by positivity)
    refine this.trans (le_trans (by norm_num) hp0)
  have hpc2 : p / c ≤ 2 ^ 64 := by
    rw [div_le_iff₀ (by linarith)]
    nlinarith
  obtain ⟨g3, g4⟩ := rnd_fin (K := ℚ) (x := p / c) h64F (two_pow_lt_f64Huge (by norm_num)) (by
    rw [abs_of_nonneg (by positivity)]; exact hpc2)
  have n4 := n3.div hx2 hcn (by linarith) (by linarith) (by linarith) (by linarith) nc
  have n5 := near_rndQ (x := p / c) (tiny_le (le_trans (by norm_num) hpc))
  push_cast at n5
  have hx3 : 0 ≤ Real.log 2 * (bits.toNat : ℝ) / cap.toNat := div_nonneg hx2 hcn.le
  have n6 := n5.trans hx3 hu.le (by linarith) (by linarith) (by linarith) n4
  refine ⟨rndQ (p / c), le_rndQ _ isF_zero (by simp; positivity),
    le_trans (abs_le.1 g4).2 (by norm_num), ?_, n6.mono hx3 (by linarith)⟩
  unfold kHash
  rw [show FVal.two = .fin 2 from rfl, hl, hb, hcc]
  have e1 : FVal.mul (.fin l) (.fin b) = .fin p := g1
  have e2 : FVal.div (.fin p) (.fin c) = .fin (rndQ (p / c)) := by
    show (if c = 0 then _ else rnd _) = _
    rw [if_neg (by linarith), g3]
  rw [e1, e2]
  rfl

/-- The capacity of a bucket before it is made an integer. -/
theorem bucketCap_near {lm : Libm} (ac : lm.Accurate) {fpp : F64} (h : fppInRange fpp = true)
    {q : ℚ} (hq : FVal.ofBits fpp = .fin q) (h1 : q < 1) : ∃ v : ℚ, 0 ≤ v ∧
      capFromBitSize lm V2.bucketBitSize (FVal.ofBits fpp) = FVal.toU64 (.fin v) ∧
      Near (260 * halfUlp) v (32768 * Real.log 2 ^ 2 / -Real.log q) := by
  have hu := halfUlp_pos
  have hu' := halfUlp_lt
  obtain ⟨q', r, e, q0, q1, qm, qF, hr, nr⟩ := ac.ln_fpp h
  rw [hq] at e
  cases e
  obtain ⟨s, hs, ns⟩ := ac.ln_two_sq
  obtain ⟨s', hs', s1, s2⟩ := ac.spec.ln_two_sq
  rw [hs] at hs'
  cases hs'
  have hl := log_gap qF q0 h1
  have hlp : 0 < -Real.log (q : ℝ) := by
    have : (0 : ℝ) < 1 / 2 ^ 53 := by norm_num
    linarith
  have hlog2 : 0 < Real.log 2 := Real.log_pos one_lt_two
  have hr0 : (1 : ℚ) / 2 ^ 54 ≤ r := by
    have h1 : ((1 / 2 ^ 54 : ℚ) : ℝ) ≤ r := by
      push_cast
      refine le_trans ?_ nr.1
      have : (1 : ℝ) / 2 ^ 53 * (1 / 2) ≤ -Real.log q * (1 - 4 * halfUlp) :=
        mul_le_mul (by linarith) (by linarith) (by norm_num) hlp.le
      refine le_trans (by norm_num) this
    exact_mod_cast h1
  have hr1 : r ≤ 709 := by
    obtain ⟨r', h2, h3, _⟩ := ac.spec.ln_below_one q qF qm h1
    rw [hr] at h2
    cases h2
    linarith
  have hrp : 0 < r := lt_of_lt_of_le (by norm_num) hr0
  have hbs : (1 : ℚ) / 2 ≤ 32768 * s := by linarith
  have hbs2 : 32768 * s ≤ 2 ^ 15 := by linarith
  obtain ⟨g1, _⟩ := rnd_pos (x := 32768 * s) (le_trans (by norm_num) hbs)
    (le_trans hbs2 (by norm_num))
  have n1 := near_rndQ (x := 32768 * s) (tiny_le (le_trans (by norm_num) hbs))
  push_cast at n1
  have hx1 : 0 ≤ 32768 * Real.log 2 ^ 2 := by positivity
  have n2 : Near (56 * halfUlp) (32768 * (s : ℝ)) (32768 * Real.log 2 ^ 2) := by
    have := (Near.refl (e := 0) le_rfl (show (0 : ℝ) ≤ 32768 by norm_num)).mul (by norm_num)
      (sq_nonneg (Real.log 2)) le_rfl (by linarith) (by norm_num) (by linarith) ns
    exact this.mono hx1 (by linarith)
  have n3 := n1.trans hx1 hu.le (by linarith) (by linarith) (by linarith) n2
  set p : ℚ := rndQ (32768 * s) with hp
  have h2F : IsF (1 / 2 : ℚ) := by simpa using isF_dyadic 1 1 (by norm_num) (by norm_num)
  have h15F : IsF ((2 : ℚ) ^ 15) := by
    have := isF_two_zpow (e := 15) (by norm_num); exact_mod_cast this
  have hp0 : (1 : ℚ) / 2 ≤ p := le_rndQ _ h2F (by simpa using hbs)
  have hp1 : p ≤ 2 ^ 15 := rndQ_le _ h15F (by simpa using hbs2)
  have hpr : (1 : ℚ) / 2 ^ 20 ≤ p / r := by
    rw [le_div_iff₀ hrp]
    linarith
  have hpr2 : p / r ≤ 2 ^ 128 := by
    rw [div_le_iff₀ hrp]
    calc p ≤ 2 ^ 15 := hp1
      _ ≤ 2 ^ 128 * (1 / 2 ^ 54) := by norm_num
      _ ≤ 2 ^ 128 * r := mul_le_mul_of_nonneg_left hr0 (by norm_num)
  obtain ⟨g3, _⟩ := rnd_fin (K := ℚ) (x := -(p / r)) isF_big (two_pow_lt_f64Huge (by norm_num)) (by
    rw [abs_neg, abs_of_nonneg (by positivity)]; exact hpr2)
  have n4 := n3.div hx1 hlp (by linarith) (by linarith) (by linarith) (by linarith) nr
  have n5 := near_rndQ_neg (x := p / r) (tiny_le (le_trans (by norm_num) hpr))
  push_cast at n5
  have hx3 : 0 ≤ 32768 * Real.log 2 ^ 2 / -Real.log q := div_nonneg hx1 hlp.le
  have n6 := n5.trans hx3 hu.le (by linarith) (by linarith) (by linarith) n4
  have hneg : rndQ (-(p / r)) ≤ 0 := rndQ_le _ isF_zero (by
    simp only [Rat.cast_zero]
    have : 0 < p / r := lt_of_lt_of_le (by norm_num) hpr
    linarith)
  refine ⟨-rndQ (-(p / r)), by linarith, ?_, ?_⟩
  · unfold capFromBitSize
    rw [ofU64_bucketBitSize, show FVal.two = .fin 2 from rfl, hs, hq, hr]
    have e1 : FVal.mul (.fin 32768) (.fin s) = .fin p := g1
    have e2 : FVal.div (.fin p) (.fin (-r)) = .fin (rndQ (-(p / r))) := by
      show (if -r = 0 then _ else rnd _) = _
      rw [if_neg (by linarith), div_neg, g3]
    rw [e1, e2]
    show FVal.toU64 (.fin |_|) = _
    rw [abs_of_nonpos hneg]
  · push_cast
    exact n6.mono hx3 (by linarith)

/-- The quotient of two machine integers. -/
theorem div_near {a b : U64} (ha : a ≠ 0) (hb : b ≠ 0) : ∃ v : ℚ, 0 < v ∧ v ≤ 2 ^ 64 ∧
    FVal.div (FVal.ofU64 a) (FVal.ofU64 b) = .fin v ∧
    Near (11 * halfUlp) v ((a.toNat : ℝ) / b.toNat) := by
  have hu := halfUlp_pos
  have hu' := halfUlp_lt
  obtain ⟨qa, qb, h1, h2, h3, h4, h5, h6, h7, h8⟩ := div_ofU64 ha hb
  obtain ⟨qa', e1, _, _, na, _⟩ := near_ofU64 a
  obtain ⟨qb', e2, _, _, nb, _⟩ := near_ofU64 b
  rw [h1] at e1
  rw [h2] at e2
  cases e1
  cases e2
  have hbn : 0 < (b.toNat : ℝ) := by
    have : 0 < b.toNat := by
      rcases Nat.eq_zero_or_pos b.toNat with h | h
      · exact absurd (BitVec.eq_of_toNat_eq h) hb
      · exact h
    exact_mod_cast this
  have hb0 : (0 : ℚ) < qb := by linarith
  have hq : (1 : ℚ) / 2 ^ 64 ≤ qa / qb := by
    rw [le_div_iff₀ hb0]
    calc (1 : ℚ) / 2 ^ 64 * qb ≤ 1 / 2 ^ 64 * 2 ^ 64 := mul_le_mul_of_nonneg_left h6 (by positivity)
      _ = 1 := by norm_num
      _ ≤ qa := h3
  have n1 := na.div (Nat.cast_nonneg _) hbn hu.le hu.le (by linarith) (by linarith) nb
  have n2 := near_rndQ (x := qa / qb) (tiny_le (le_trans (by norm_num) hq))
  push_cast at n2
  have hx : 0 ≤ (a.toNat : ℝ) / b.toNat := by positivity
  have n3 := n2.trans hx hu.le (by linarith) (by linarith) (by linarith) n1
  have h64F : IsF ((2 : ℚ) ^ 64) := by
    have := isF_two_zpow (e := 64) (by norm_num); exact_mod_cast this
  refine ⟨_, h8, rndQ_le _ h64F ?_, h7, n3.mono hx (by linarith)⟩
  simp only [Rat.cast_id]
  rw [div_le_iff₀ hb0]
  nlinarith

/-- The estimate before it is made an integer. -/
theorem estimateCount_near {lm : Libm} (ac : lm.Accurate) {bits ones nHash : U64} (hb : bits ≠ 0)
    (hn : nHash ≠ 0) {a : ℚ} (haF : IsF a) (ha0 : 2 ^ (-1022 : ℤ) ≤ a) (ha1 : a ≤ 1)
    (ha : FVal.sub .one (FVal.div (FVal.ofU64 ones) (FVal.ofU64 bits)) = .fin a) :
    ∃ v : ℚ, 0 ≤ v ∧ estimateCount lm bits ones nHash = FVal.toU64 (.fin v) ∧
      Near (47 * halfUlp) v (bits.toNat * -Real.log a / nHash.toNat) := by
  have hu := halfUlp_pos
  have hu' := halfUlp_lt
  obtain ⟨r, hr, nr⟩ := ac.ln a haF ha0 (.inl ha1)
  obtain ⟨m, hm, m0, _, nm, m1, m64⟩ := near_ofU64 bits
  obtain ⟨k, hk, k0, _, nk, k1, k64⟩ := near_ofU64 nHash
  have m1 := m1 hb
  have k1 := k1 hn
  have a0 : 0 < a := lt_of_lt_of_le (two_zpow_pos _) ha0
  rcases ha1.lt_or_eq with ha1 | rfl
  swap
  · have hr0 : r = 0 := by
      simp only [Rat.cast_one, Real.log_one, sub_zero, abs_zero, mul_zero] at nr
      have : (r : ℝ) = 0 := abs_nonpos_iff.1 nr
      exact_mod_cast this
    subst hr0
    refine ⟨0, le_rfl, ?_, by simp [Near]⟩
    unfold estimateCount
    rw [ha, hr, hm, hk]
    have e1 : FVal.mul (.fin m) (.fin 0) = .fin 0 := by
      show rnd (m * 0) = _
      rw [mul_zero, rnd_zero]
    have e2 : FVal.div (.fin (-0)) (.fin k) = .fin 0 := by
      show (if k = 0 then _ else rnd (-0 / k)) = _
      rw [if_neg (by linarith), neg_zero, zero_div, rnd_zero]
    rw [e1]
    show FVal.toU64 (FVal.div (.fin (-0)) (.fin k)) = _
    rw [e2]
  have hl := log_gap haF a0 ha1
  have hlo := log_ge ha0
  have hlp : 0 < -Real.log (a : ℝ) := by
    have : (0 : ℝ) < 1 / 2 ^ 53 := by norm_num
    linarith
  have nr' : Near (4 * halfUlp) (((-r : ℚ)) : ℝ) (-Real.log a) := by
    refine Near.of_abs hlp.le ?_
    push_cast
    rw [abs_neg, show -(r : ℝ) - -Real.log (a : ℝ) = -((r : ℝ) - Real.log (a : ℝ)) by ring, abs_neg]
    exact nr
  obtain ⟨r', rfl⟩ : ∃ r', r = -r' := ⟨-r, by ring⟩
  rw [neg_neg] at nr'
  have hr0 : (1 : ℚ) / 2 ^ 54 ≤ r' := by
    have h1 : ((1 / 2 ^ 54 : ℚ) : ℝ) ≤ r' := by
      push_cast
      refine le_trans ?_ nr'.1
      have : (1 : ℝ) / 2 ^ 53 * (1 / 2) ≤ -Real.log a * (1 - 4 * halfUlp) :=
        mul_le_mul (by linarith) (by linarith) (by norm_num) hlp.le
      refine le_trans (by norm_num) this
    exact_mod_cast h1
  have hr1 : r' ≤ 709 := by
    obtain ⟨r1, h1, h2, _⟩ := ac.spec.ln_below_one a haF ha0 ha1
    rw [hr] at h1
    cases h1
    linarith
  have hrp : 0 < r' := lt_of_lt_of_le (by norm_num) hr0
  have hmr : (1 : ℚ) / 2 ^ 54 ≤ m * r' := by nlinarith
  have hmr2 : m * r' ≤ 2 ^ 80 := by nlinarith
  have hF80 : IsF ((2 : ℚ) ^ 80) := by
    have := isF_two_zpow (e := 80) (by norm_num); exact_mod_cast this
  obtain ⟨g1, g2⟩ := rnd_fin (K := ℚ) (x := m * -r') hF80 (two_pow_lt_f64Huge (by norm_num)) (by
    rw [mul_neg, abs_neg, abs_of_nonneg (by positivity)]; exact hmr2)
  have n1 := near_rndQ_neg (x := m * r') (tiny_le (le_trans (by norm_num) hmr))
  rw [← mul_neg] at n1
  push_cast at n1
  have n2 := nm.mul (Nat.cast_nonneg _) hlp.le hu.le (by linarith) (by linarith) (by linarith) nr'
  have hx2 : 0 ≤ (bits.toNat : ℝ) * -Real.log a := mul_nonneg (Nat.cast_nonneg _) hlp.le
  have n3 := n1.trans hx2 hu.le (by linarith) (by linarith) (by linarith) n2
  set p : ℚ := -rndQ (m * -r') with hp
  have hp0 : (1 : ℚ) / 2 ^ 54 ≤ p := by
    have h54 : IsF (-(1 / 2 ^ 54)) := isF_neg (by
      simpa using isF_dyadic 1 54 (by norm_num) (by norm_num))
    have := rndQ_le (m * -r') h54 (by push_cast; linarith)
    linarith
  have hp1 : p ≤ 2 ^ 80 := by
    have := (abs_le.1 g2).1
    linarith
  have hpp : 0 < p := lt_of_lt_of_le (by norm_num) hp0
  have hkp : 0 < k := by linarith
  have hpk : (1 : ℚ) / 2 ^ 120 ≤ p / k := by
    rw [le_div_iff₀ hkp]
    calc (1 : ℚ) / 2 ^ 120 * k ≤ 1 / 2 ^ 120 * 2 ^ 64 := mul_le_mul_of_nonneg_left k64 (by positivity)
      _ ≤ 1 / 2 ^ 54 := by norm_num
      _ ≤ p := hp0
  have hpk2 : p / k ≤ 2 ^ 80 := by
    rw [div_le_iff₀ hkp]
    nlinarith
  obtain ⟨g4, _⟩ := rnd_fin (K := ℚ) (x := p / k) hF80 (two_pow_lt_f64Huge (by norm_num))
    (by rw [abs_of_nonneg (by positivity)]; exact hpk2)
  have hkn : 0 < (nHash.toNat : ℝ) := by
    have : 0 < nHash.toNat := by
      rcases Nat.eq_zero_or_pos nHash.toNat with h | h
      · exact absurd (BitVec.eq_of_toNat_eq h) hn
      · exact h
    exact_mod_cast this
  have n4 : Near (19 * halfUlp) (p : ℝ) (bits.toNat * -Real.log a) := by
    rw [hp]
    push_cast
    exact n3.mono hx2 (by linarith)
  have n5 := n4.div hx2 hkn (by linarith) (by linarith) (by linarith) (by linarith) nk
  have n6 := near_rndQ (x := p / k) (tiny_le (le_trans (by norm_num) hpk))
  push_cast at n6
  have hx3 : 0 ≤ (bits.toNat : ℝ) * -Real.log a / nHash.toNat := div_nonneg hx2 hkn.le
  have n7 := n6.trans hx3 hu.le (by linarith) (by linarith) (by linarith) n5
  refine ⟨rndQ (p / k), le_rndQ _ isF_zero (by simp; positivity), ?_, n7.mono hx3 (by linarith)⟩
  unfold estimateCount
  rw [ha, hr, hm, hk]
  have e1 : FVal.neg (FVal.mul (.fin m) (.fin (-r'))) = .fin p := by
    show FVal.neg (rnd (m * -r')) = _
    rw [g1]
    rfl
  have e2 : FVal.div (.fin p) (.fin k) = .fin (rndQ (p / k)) := by
    show (if k = 0 then _ else rnd _) = _
    rw [if_neg hkp.ne', g4]
  rw [e1, e2]

end Poppy
