import Verif.Lemmas.BenchText
import Verif.Model.Statrs

/-! Rounding errors of the mean and the standard deviation computed by `statrs`. -/

namespace Poppy
namespace Cli

/-- The relative error of rounding. -/
abbrev eps : ℚ := 2 ^ (-53 : ℤ)

theorem zpow_200 {K : Type} [DivisionRing K] : (2 : K) ^ (-200 : ℤ) = 1 / 2 ^ 200 := by
  rw [zpow_neg, one_div]
  congr 1
  exact_mod_cast zpow_natCast (2 : K) 200

theorem rndQ_err {x B : ℚ} (h : |x| ≤ B) (hB : (2 : ℚ) ^ (-1022 : ℤ) ≤ B) :
    |rndQ x - x| ≤ eps * B := by
  have he : (0 : ℚ) < eps := two_zpow_pos _
  rcases eq_or_ne x 0 with rfl | h0
  · rw [show rndQ (0 : ℚ) = 0 by simpa using rndQ_of_isF (K := ℚ) isF_zero]
    simp only [sub_self, abs_zero]
    exact mul_nonneg he.le (le_trans (two_zpow_pos _).le hB)
  rcases le_or_gt ((2 : ℚ) ^ (-1022 : ℤ)) |x| with hx | hx
  · have := rndQ_rel x hx
    simp only [Rat.cast_id] at this
    exact le_trans this (mul_le_mul_of_nonneg_left h he.le)
  · have hu : ulpExp x = -1074 := by
      unfold ulpExp
      rw [max_eq_right]
      · norm_num
      · have h1 : Int.log 2 |x| < -1022 := by
          rw [← Int.lt_zpow_iff_log_lt (by norm_num) (abs_pos.2 h0)]
          exact_mod_cast hx
        omega
    have hp := two_zpow_pos (K := ℚ) (-1074)
    have hr : rndQ x - x = -((x / 2 ^ (-1074 : ℤ) - rneInt (x / 2 ^ (-1074 : ℤ))) * 2 ^ (-1074 : ℤ)) := by
      unfold rndQ
      rw [hu, sub_mul, div_mul_cancel₀ _ hp.ne']
      ring
    rw [hr, abs_neg, abs_mul, abs_of_pos hp]
    have h1 := rneInt_half (x / 2 ^ (-1074 : ℤ))
    have e1 : (1 / 2 : ℚ) * 2 ^ (-1074 : ℤ) = eps * 2 ^ (-1022 : ℤ) := by
      rw [show (1 / 2 : ℚ) = 2 ^ (-1 : ℤ) by norm_num, ← zpow_add₀ (by norm_num),
        ← zpow_add₀ (by norm_num)]
      rfl
    calc _ ≤ (1 / 2 : ℚ) * 2 ^ (-1074 : ℤ) := mul_le_mul_of_nonneg_right h1 hp.le
      _ = eps * 2 ^ (-1022 : ℤ) := e1
      _ ≤ eps * B := mul_le_mul_of_nonneg_left hB he.le

/-- What rounding may lose of a number that is not negative. -/
theorem rndQ_lower {y : ℚ} (h : 0 ≤ y) : (1 - eps) * y - eps * 2 ^ (-1022 : ℤ) ≤ rndQ y := by
  have hp := two_zpow_pos (K := ℚ) (-1022)
  have := rndQ_err (x := y) (B := y + 2 ^ (-1022 : ℤ)) (by rw [abs_of_nonneg h]; linarith) (by linarith)
  have := (abs_le.1 this).1
  linarith

/-- What rounding may add to a number that is not negative. -/
theorem rndQ_more {y : ℚ} (h : 0 ≤ y) : rndQ y ≤ (1 + eps) * y + eps * 2 ^ (-1022 : ℤ) := by
  have hp := two_zpow_pos (K := ℚ) (-1022)
  have := rndQ_err (x := y) (B := y + 2 ^ (-1022 : ℤ)) (by rw [abs_of_nonneg h]; linarith) (by linarith)
  have := (abs_le.1 this).2
  linarith

theorem rndQ_nonneg {y : ℚ} (h : 0 ≤ y) : 0 ≤ rndQ y := le_rndQ y isF_zero (by simpa using h)

theorem rndQ_upper {y : ℚ} (n : ℕ) (h : y ≤ 2 ^ n) : rndQ y ≤ 2 ^ n :=
  rndQ_le y (by simpa using isF_two_zpow (e := n) (by omega)) (by simpa using h)

theorem rnd_big {x : ℚ} (h : |x| ≤ 2 ^ 100) : rnd x = .fin (rndQ x) := by
  have hi : IsF ((2 : ℚ) ^ 100) := by
    have := isF_two_zpow (e := 100) (by norm_num)
    rwa [show ((100 : ℤ)) = ((100 : ℕ) : ℤ) from rfl, zpow_natCast] at this
  exact (rnd_fin (K := ℚ) hi (two_pow_lt_f64Huge (by norm_num)) (by simpa using h)).1

theorem add_fin {a b : ℚ} (h : |a + b| ≤ 2 ^ 100) :
    FVal.add (.fin a) (.fin b) = .fin (rndQ (a + b)) := rnd_big h
theorem sub_fin {a b : ℚ} (h : |a + -b| ≤ 2 ^ 100) :
    FVal.sub (.fin a) (.fin b) = .fin (rndQ (a + -b)) := rnd_big h
theorem mul_fin {a b : ℚ} (h : |a * b| ≤ 2 ^ 100) :
    FVal.mul (.fin a) (.fin b) = .fin (rndQ (a * b)) := rnd_big h
theorem div_fin {a b : ℚ} (hb : b ≠ 0) (h : |a / b| ≤ 2 ^ 100) :
    FVal.div (.fin a) (.fin b) = .fin (rndQ (a / b)) := by
  show (if b = 0 then _ else rnd _) = _
  rw [if_neg hb, rnd_big h]

theorem rndQ_natCast {m : ℕ} (h : m ≤ 2 ^ 53) : rndQ ((m : ℕ) : ℚ) = m := by
  simpa using rndQ_of_isF (K := ℚ) (isF_nat h)

variable {n : ℕ} {T : ℚ}

/-- The runs are not too many and not too long: `n` of at most `T` seconds. -/
structure Short (n : ℕ) (T : ℚ) : Prop where
  two : 2 ≤ n
  le : n ≤ 2 ^ 24
  pos : 2 ^ (-100 : ℤ) ≤ T
  prod : (n : ℚ) ^ 2 * T ≤ 2 ^ 18

namespace Short
variable (h : Short n T)
include h
theorem T0 : 0 < T := lt_of_lt_of_le (two_zpow_pos _) h.pos
theorem N2 : (2 : ℚ) ≤ n := by exact_mod_cast h.two
theorem N24 : (n : ℚ) ≤ 2 ^ 24 := by exact_mod_cast h.le
theorem NT : (n : ℚ) * T ≤ 2 ^ 17 := by
  have := h.prod; have := h.N2; have := h.T0
  nlinarith [mul_pos (show (0:ℚ) < n by linarith) h.T0]
theorem NTle : (n : ℚ) * T ≤ (n : ℚ) ^ 2 * T / 2 := by
  have := h.N2; have := h.T0
  nlinarith [mul_pos (show (0:ℚ) < n by linarith) h.T0]
theorem T16 : T ≤ 2 ^ 16 := by have := h.NT; have := h.N2; have := h.T0; nlinarith
theorem tiny {c : ℚ} (hc : 1 ≤ c) : (2 : ℚ) ^ (-1022 : ℤ) ≤ c * (n * T) := by
  have h1 := h.N2; have h2 := h.pos
  have h3 : (2 : ℚ) ^ (-1022 : ℤ) ≤ 2 ^ (-100 : ℤ) := zpow_le_zpow_right₀ (by norm_num) (by norm_num)
  have h4 : T ≤ n * T := by nlinarith [h.T0]
  nlinarith [h.T0]
end Short

theorem eps_val : eps = 1 / 9007199254740992 := by norm_num [eps]

/-- The difference computed in one step. -/
theorem variance_diff (h : Short n T) {k : ℕ} (hk : 1 ≤ k) (hkn : k + 1 ≤ n) {S s y : ℚ}
    (hy : 0 ≤ y ∧ y ≤ T) (hS : 0 ≤ S ∧ S ≤ k * T)
    (hs : |s - S| ≤ (k - 1) * (eps * (2 * (n * T)))) :
    |s + y| ≤ 2 * (n * T) ∧ |((k : ℚ) + 1) * y| ≤ 1 * (n * T) ∧
    |rndQ (((k : ℚ) + 1) * y) + -rndQ (s + y)| ≤ 3 * (n * T) ∧
    |rndQ (s + y) - (S + y)| ≤ k * (eps * (2 * (n * T))) ∧
    |rndQ (rndQ (((k : ℚ) + 1) * y) + -rndQ (s + y)) - (k * y - S)| ≤ 4 * eps * ((n : ℚ) ^ 2 * T) ∧
    |rndQ (rndQ (((k : ℚ) + 1) * y) + -rndQ (s + y))| ≤ 4 * (n * T) := by
  have hT := h.T0
  have hN2 := h.N2
  have hN24 := h.N24
  have hk1 : (1 : ℚ) ≤ k := by exact_mod_cast hk
  have hkN : (k : ℚ) + 1 ≤ n := by exact_mod_cast hkn
  have he := eps_val
  have err : ∀ {x c : ℚ}, 1 ≤ c → |x| ≤ c * (n * T) → |rndQ x - x| ≤ eps * (c * (n * T)) :=
    fun hc hx => rndQ_err hx (h.tiny hc)
  clear h
  have hN : (n : ℚ) ^ 2 * T = n * (n * T) := by ring
  rw [hN]
  obtain ⟨M, hM⟩ : ∃ M : ℚ, M = n * T := ⟨_, rfl⟩
  have hM0 : 0 < M := by rw [hM]; positivity
  have hm1 : (k : ℚ) * T + T ≤ M := by rw [hM]; nlinarith only [hkN, hT]
  have hyk : ((k : ℚ) + 1) * y ≤ M := by nlinarith only [hy.1, hy.2, hm1, hk1]
  have hyk0 : 0 ≤ ((k : ℚ) + 1) * y := by have := hy.1; positivity
  rw [← hM] at hs ⊢
  simp only [← hM] at err
  generalize hε : eps = ε at *
  subst he
  obtain ⟨ε, hε⟩ : ∃ ε : ℚ, ε = 1 / 9007199254740992 := ⟨_, rfl⟩
  rw [← hε] at hs err ⊢
  obtain ⟨Δ, hΔ⟩ : ∃ Δ : ℚ, Δ = ε * M := ⟨_, rfl⟩
  have hΔ0 : 0 < Δ := by rw [hΔ, hε]; positivity
  have hΔM : 2 ^ 26 * Δ ≤ M := by rw [hΔ, hε]; linarith only [hM0]
  have hs' : |s - S| ≤ (k - 1) * (2 * Δ) := by rw [hΔ]; linarith only [hs]
  have hkΔ : (k : ℚ) * Δ ≤ M / 4 := by
    have : (k : ℚ) ≤ 2 ^ 24 := by linarith only [hkN, hN24]
    have : (k : ℚ) * Δ ≤ 2 ^ 24 * Δ := mul_le_mul_of_nonneg_right this hΔ0.le
    linarith only [this, hΔM]
  have hkN' : (k : ℚ) * Δ + Δ ≤ n * Δ := by nlinarith only [hkN, hΔ0]
  have h2N : 2 * Δ ≤ n * Δ := mul_le_mul_of_nonneg_right hN2 hΔ0.le
  obtain ⟨hs1, hs2⟩ := abs_le.1 hs'
  obtain ⟨y0, y1⟩ := hy
  obtain ⟨S0, S1⟩ := hS
  have a1 : |s + y| ≤ 2 * M := by
    rw [abs_le]; constructor <;> linarith only [hs1, hs2, y0, y1, S0, S1, hm1, hkΔ, hM0, hΔ0]
  have b1 := err (by norm_num) a1
  have c1 : |rndQ (s + y) - (S + y)| ≤ k * (2 * Δ) := by
    obtain ⟨b11, b12⟩ := abs_le.1 b1
    rw [abs_le]; constructor <;> linarith only [b11, b12, hs1, hs2, hΔ]
  have a2 : |((k : ℚ) + 1) * y| ≤ 1 * M := by
    rw [abs_of_nonneg hyk0]; linarith only [hyk]
  have b2 := err (by norm_num) a2
  obtain ⟨b11, b12⟩ := abs_le.1 c1
  obtain ⟨b21, b22⟩ := abs_le.1 b2
  have a3 : |rndQ (((k : ℚ) + 1) * y) + -rndQ (s + y)| ≤ 3 * M := by
    rw [abs_le]; constructor <;>
      linarith only [b11, b12, b21, b22, hyk, hyk0, y0, y1, S0, S1, hm1, hkΔ, hM0, hΔ0, hΔM, hΔ]
  have b3 := err (by norm_num) a3
  obtain ⟨b31, b32⟩ := abs_le.1 b3
  obtain ⟨a31, a32⟩ := abs_le.1 a3
  refine ⟨a1, a2, a3, ?_, ?_, ?_⟩
  · rw [show ε * (2 * M) = 2 * Δ by rw [hΔ]; ring]; exact c1
  · rw [show 4 * ε * (n * M) = 4 * (n * Δ) by rw [hΔ]; ring]
    rw [abs_le]; constructor <;>
      linarith only [b11, b12, b21, b22, b31, b32, hΔ, hkN', h2N]
  · rw [abs_le]; constructor <;> linarith only [b31, b32, a31, a32, hΔ, hΔM, hM0, hΔ0]

/-- What is added to the variance in one step. -/
theorem variance_term {d c : ℚ} (hc : 1 ≤ c) (hd : |d| ≤ 2 ^ 20) :
    d * d ≤ 2 ^ 40 ∧ 0 ≤ rndQ (d * d) / c ∧ rndQ (d * d) / c ≤ 2 ^ 40 ∧
    0 ≤ rndQ (rndQ (d * d) / c) ∧ rndQ (rndQ (d * d) / c) ≤ 2 ^ 40 ∧
    (1 - 2 * eps) * (d ^ 2 / c) - 2 * (eps * 2 ^ (-1022 : ℤ)) ≤ rndQ (rndQ (d * d) / c) ∧
    rndQ (rndQ (d * d) / c) ≤ (1 + 3 * eps) * (d ^ 2 / c) + 3 * (eps * 2 ^ (-1022 : ℤ)) := by
  have d2 : d * d ≤ 2 ^ 40 := by
    rw [← abs_mul_abs_self d]; nlinarith only [abs_nonneg d, hd]
  have dd0 : 0 ≤ d * d := mul_self_nonneg d
  have q0 := rndQ_nonneg dd0
  have q1 := rndQ_upper 40 d2
  have q2 := rndQ_lower dd0
  have q3 := rndQ_more dd0
  generalize rndQ (d * d) = q at q0 q1 q2 q3 ⊢
  have t0 : 0 ≤ q / c := div_nonneg q0 (by linarith only [hc])
  have t1 : q / c ≤ 2 ^ 40 := le_trans (div_le_self q0 hc) q1
  refine ⟨d2, t0, t1, rndQ_nonneg t0, rndQ_upper 40 t1, le_trans ?_ (rndQ_lower t0),
    le_trans (rndQ_more t0) ?_⟩ <;> clear q0 q1 t0 t1
  · have hη0 : (0 : ℚ) < eps * 2 ^ (-1022 : ℤ) := mul_pos (two_zpow_pos _) (two_zpow_pos _)
    clear q3
    generalize eps * 2 ^ (-1022 : ℤ) = η at q2 hη0 ⊢
    have hε0 : (0 : ℚ) < eps := two_zpow_pos _
    have hε1 : eps ≤ 1 := by rw [eps_val]; norm_num
    generalize eps = ε at q2 hε0 hε1 ⊢
    have h1 : ((1 - ε) * (d * d) - η) / c ≤ q / c :=
      div_le_div_of_nonneg_right q2 (by linarith only [hc])
    have h2 : ((1 - ε) * (d * d) - η) / c = (1 - ε) * (d ^ 2 / c) - η / c := by ring
    have h3 : η / c ≤ η := div_le_self hη0.le hc
    have h4 : 0 ≤ d ^ 2 / c := div_nonneg (sq_nonneg d) (by linarith only [hc])
    have h5 : (1 - ε) * ((1 - ε) * (d ^ 2 / c) - η) ≤ (1 - ε) * (q / c) := by
      apply mul_le_mul_of_nonneg_left _ (by linarith only [hε1]); linarith only [h1, h2, h3]
    nlinarith only [h5, mul_nonneg (mul_nonneg hε0.le hε0.le) h4, mul_pos hε0 hη0]
  · have hη0 : (0 : ℚ) < eps * 2 ^ (-1022 : ℤ) := mul_pos (two_zpow_pos _) (two_zpow_pos _)
    clear q2
    generalize eps * 2 ^ (-1022 : ℤ) = η at q3 hη0 ⊢
    have hε0 : (0 : ℚ) < eps := two_zpow_pos _
    have hε1 : eps ≤ 1 := by rw [eps_val]; norm_num
    generalize eps = ε at q3 hε0 hε1 ⊢
    have h1 : q / c ≤ ((1 + ε) * (d * d) + η) / c :=
      div_le_div_of_nonneg_right q3 (by linarith only [hc])
    have h2 : ((1 + ε) * (d * d) + η) / c = (1 + ε) * (d ^ 2 / c) + η / c := by ring
    have h3 : η / c ≤ η := div_le_self hη0.le hc
    have h4 : 0 ≤ d ^ 2 / c := div_nonneg (sq_nonneg d) (by linarith only [hc])
    have h5 : (1 + ε) * (q / c) ≤ (1 + ε) * ((1 + ε) * (d ^ 2 / c) + η) := by
      apply mul_le_mul_of_nonneg_left _ (by linarith only [hε0]); linarith only [h1, h2, h3]
    nlinarith only [h5, mul_nonneg (mul_nonneg hε0.le (sub_nonneg.2 hε1)) h4,
      mul_nonneg (sub_nonneg.2 hε1) hη0.le]

/-- One step of the variance in floating point. -/
theorem variance_step (h : Short n T) {k : ℕ} (hk : 1 ≤ k) (hkn : k + 1 ≤ n) {S s y v : ℚ}
    (hy : 0 ≤ y ∧ y ≤ T) (hS : 0 ≤ S ∧ S ≤ k * T)
    (hs : |s - S| ≤ (k - 1) * (eps * (2 * (n * T))))
    (hv : 0 ≤ v ∧ v ≤ k * 2 ^ 41) :
    ∃ s' v' d : ℚ, statrsVarStep (.fin k, .fin s, .fin v) (.fin y) = (.fin (k + 1), .fin s', .fin v') ∧
      |s' - (S + y)| ≤ k * (eps * (2 * (n * T))) ∧
      |d - (k * y - S)| ≤ 4 * eps * ((n : ℚ) ^ 2 * T) ∧
      (0 ≤ v' ∧ v' ≤ (k + 1) * 2 ^ 41) ∧
      (1 - eps) * (v + ((1 - 2 * eps) * (d ^ 2 / ((k + 1) * k)) - 2 * (eps * 2 ^ (-1022 : ℤ))))
        - eps * 2 ^ (-1022 : ℤ) ≤ v' ∧
      v' ≤ (1 + eps) *
        (v + ((1 + 3 * eps) * (d ^ 2 / ((k + 1) * k)) + 3 * (eps * 2 ^ (-1022 : ℤ))))
        + eps * 2 ^ (-1022 : ℤ) := by
  obtain ⟨a1, a2, a3, c1, c3, d0⟩ := variance_diff h hk hkn hy hS hs
  have hNT := h.NT
  have hT0 := h.T0
  have hk1 : (1 : ℚ) ≤ k := by exact_mod_cast hk
  have k24 : k + 1 ≤ 2 ^ 24 := le_trans hkn h.le
  have hk24 : (k : ℚ) + 1 ≤ 2 ^ 24 := by exact_mod_cast k24
  have hc : (1 : ℚ) ≤ (k + 1) * k := by nlinarith only [hk1]
  obtain ⟨e1, e2, e3, e4, e5, e6, e7⟩ := variance_term (d := rndQ (rndQ (((k : ℚ) + 1) * y) + -rndQ (s + y)))
    hc (by linarith only [d0, hNT])
  generalize hd : rndQ (rndQ (((k : ℚ) + 1) * y) + -rndQ (s + y)) = d at *
  generalize hq : rndQ (d * d) = q at *
  generalize ht : rndQ (q / (((k : ℚ) + 1) * k)) = t at *
  have vt0 : 0 ≤ v + t := by linarith only [hv.1, e4]
  have vt1 : |v + t| ≤ 2 ^ 66 := by rw [abs_of_nonneg vt0]; linarith only [hv.2, e5, hk24]
  have w1 := rndQ_err vt1 (by
    refine le_trans (b := (2 : ℚ) ^ (0 : ℤ)) (zpow_le_zpow_right₀ (by norm_num) (by norm_num)) ?_
    norm_num)
  have w2 := rndQ_lower vt0
  have w3 := rndQ_more vt0
  have kk : rndQ ((k : ℚ) + 1) = k + 1 := by
    have := rndQ_natCast (m := k + 1) (le_trans k24 (by norm_num))
    push_cast at this; exact this
  have kk' : rndQ ((k : ℚ) + 1 + -1) = k := by
    have := rndQ_natCast (m := k) (le_trans (Nat.le_of_succ_le k24) (by norm_num))
    rw [show (k : ℚ) + 1 + -1 = k by ring]; exact this
  have kc : rndQ (((k : ℚ) + 1) * k) = (k + 1) * k := by
    have := rndQ_natCast (m := (k + 1) * k) (by
      calc (k + 1) * k ≤ 2 ^ 24 * 2 ^ 24 := Nat.mul_le_mul k24 (Nat.le_of_succ_le k24)
        _ ≤ 2 ^ 53 := by norm_num)
    push_cast at this; exact this
  refine ⟨rndQ (s + y), rndQ (v + t), d, ?_, c1, c3, ⟨rndQ_nonneg vt0, ?_⟩, ?_, ?_⟩
  · have small : ∀ {x B : ℚ}, |x| ≤ B → B ≤ 2 ^ 100 → |x| ≤ 2 ^ 100 :=
      fun h1 h2 => le_trans h1 h2
    have f1 : FVal.add (.fin k) .one = .fin ((k : ℚ) + 1) := by
      show FVal.add (.fin k) (.fin 1) = _
      rw [add_fin (small (B := 2 ^ 25) (by rw [abs_of_nonneg (by positivity)]; linarith only [hk24])
        (by norm_num)), kk]
    have f2 : FVal.sub (.fin ((k : ℚ) + 1)) .one = .fin (k : ℚ) := by
      show FVal.sub (.fin _) (.fin 1) = _
      rw [sub_fin (small (B := 2 ^ 25) (by
        rw [abs_of_nonneg (by linarith only [hk1])]; linarith only [hk24]) (by norm_num)), kk']
    have f3 : FVal.mul (.fin ((k : ℚ) + 1)) (.fin (k : ℚ)) = .fin (((k : ℚ) + 1) * k) := by
      rw [mul_fin (small (B := 2 ^ 50) (by
        rw [abs_of_nonneg (by linarith only [hc])]; nlinarith only [hk24, hk1]) (by norm_num)), kc]
    unfold statrsVarStep
    simp only [f1, f2, f3]
    rw [add_fin (small a1 (by linarith only [hNT])), mul_fin (small a2 (by linarith only [hNT])),
      sub_fin (small a3 (by linarith only [hNT])), hd,
      mul_fin (small (B := 2 ^ 40) (by rw [abs_of_nonneg (mul_self_nonneg d)]; exact e1)
        (by norm_num)), hq,
      div_fin (by linarith only [hc]) (small (B := 2 ^ 40) (by rw [abs_of_nonneg e2]; exact e3)
        (by norm_num)), ht, add_fin (small vt1 (by norm_num))]
  · have := (abs_le.1 w1).2
    rw [eps_val] at this
    linarith only [this, hv.2, e5]
  · refine le_trans (sub_le_sub_right (mul_le_mul_of_nonneg_left ?_ ?_) _) w2
    · linarith only [e6]
    · rw [eps_val]; norm_num
  · refine le_trans w3 (add_le_add_left (mul_le_mul_of_nonneg_left ?_ ?_) _)
    · linarith only [e7]
    · rw [eps_val]; norm_num

/-- Sum of the squares of the values. -/
def sqSum (l : List ℚ) : ℚ := (l.map (· ^ 2)).sum

theorem sum_bounds {l : List ℚ} (h : ∀ y ∈ l, 0 ≤ y ∧ y ≤ T) : 0 ≤ l.sum ∧ l.sum ≤ l.length * T := by
  induction l with
  | nil => simp
  | cons x l ih =>
    obtain ⟨i1, i2⟩ := ih fun y hy => h y (List.mem_cons_of_mem _ hy)
    obtain ⟨x1, x2⟩ := h x (List.mem_cons_self ..)
    simp only [List.sum_cons, List.length_cons]
    push_cast
    constructor <;> linarith

/-- What the loop of `Statistics::variance` computes: `w` stands for the sum without the rounding
errors of adding up. -/
theorem variance_loop (h : Short n T) {x : ℚ} {xs : List ℚ} (hx : ∀ y ∈ x :: xs, 0 ≤ y ∧ y ≤ T)
    (hlen : xs.length + 1 ≤ n) :
    ∃ s v w : ℚ, (xs.map FVal.fin).foldl statrsVarStep (.one, .fin x, .fin 0) =
        (.fin (xs.length + 1), .fin s, .fin v) ∧
      |s - (x + xs.sum)| ≤ xs.length * (eps * (2 * (n * T))) ∧
      (0 ≤ v ∧ v ≤ (xs.length + 1) * 2 ^ 41) ∧ 0 ≤ w ∧
      (1 - 3 * xs.length * eps) * w - 3 * xs.length * (eps * 2 ^ (-1022 : ℤ)) ≤ v ∧
      v ≤ (1 + 5 * xs.length * eps) * w + 5 * xs.length * (eps * 2 ^ (-1022 : ℤ)) ∧
      ∀ τ : ℚ, 0 < τ → τ < 1 →
        (1 - τ) * (x ^ 2 + sqSum xs - (x + xs.sum) ^ 2 / (xs.length + 1)) -
          (1 / τ - 1) * (4 * eps * ((n : ℚ) ^ 2 * T)) ^ 2 * (1 - 1 / (xs.length + 1)) ≤ w ∧
        w ≤ (1 + τ) * (x ^ 2 + sqSum xs - (x + xs.sum) ^ 2 / (xs.length + 1)) +
          (1 / τ + 1) * (4 * eps * ((n : ℚ) ^ 2 * T)) ^ 2 * (1 - 1 / (xs.length + 1)) := by
  induction xs using List.reverseRecOn with
  | nil =>
    refine ⟨x, 0, 0, ?_, by simp, ⟨le_refl _, by norm_num⟩, le_refl _, by simp, by simp, ?_⟩
    · simp [FVal.one]
    · intro τ _ _; simp [sqSum]
  | append_singleton xs y ih =>
    rw [List.length_append, List.length_singleton] at hlen
    obtain ⟨s, v, w, hf, hs, hv, hw, hwv, hvw, hQ⟩ := ih (fun z hz => hx z (by
      rcases List.mem_cons.1 hz with rfl | hz
      · exact List.mem_cons_self ..
      · exact List.mem_cons_of_mem _ (List.mem_append_left _ hz))) (by omega)
    have hy := hx y (by simp)
    have hS : 0 ≤ x + xs.sum ∧ x + xs.sum ≤ ((xs.length + 1 : ℕ) : ℚ) * T := by
      have := sum_bounds (T := T) (l := x :: xs) (fun z hz => hx z (by
        rcases List.mem_cons.1 hz with rfl | hz
        · exact List.mem_cons_self ..
        · exact List.mem_cons_of_mem _ (List.mem_append_left _ hz)))
      simpa using this
    obtain ⟨s', v', d, st, hs', hd, hv', hlow, hupp⟩ := variance_step h (k := xs.length + 1) (by omega) hlen
      hy hS (s := s) (v := v) (by push_cast; simpa using hs) (by push_cast; exact hv)
    push_cast at st hs' hd hv'
    simp only [Nat.cast_add, Nat.cast_one] at hlow hupp
    refine ⟨s', v', w + d ^ 2 / ((xs.length + 1 + 1) * (xs.length + 1)), ?_, ?_, ?_, ?_, ?_, ?_, ?_⟩
    · rw [List.map_append, List.foldl_append, hf]
      simp only [List.map_cons, List.map_nil, List.foldl_cons, List.foldl_nil, List.length_append,
        List.length_singleton]
      push_cast
      exact st
    · simp only [List.sum_append, List.sum_singleton, List.length_append, List.length_singleton]
      push_cast
      rw [← add_assoc]
      exact hs'
    · simp only [List.length_append, List.length_singleton]
      push_cast
      exact hv'
    · positivity
    · simp only [List.length_append, List.length_singleton, Nat.cast_add, Nat.cast_one]
      refine le_trans ?_ hlow
      have hη0 : (0 : ℚ) < eps * 2 ^ (-1022 : ℤ) := mul_pos (two_zpow_pos _) (two_zpow_pos _)
      have hz : (0 : ℚ) ≤ d ^ 2 / ((xs.length + 1 + 1) * (xs.length + 1)) := by positivity
      have hε0 : (0 : ℚ) < eps := two_zpow_pos _
      have hε1 : eps ≤ 1 := by rw [eps_val]; norm_num
      generalize d ^ 2 / (((xs.length : ℚ) + 1 + 1) * (xs.length + 1)) = z at hz ⊢
      generalize eps * 2 ^ (-1022 : ℤ) = η at hη0 hwv ⊢
      generalize eps = ε at hε0 hε1 hwv ⊢
      have hj : (0 : ℚ) ≤ xs.length := Nat.cast_nonneg _
      generalize (xs.length : ℚ) = j at hj hwv ⊢
      have h1 : (1 - ε) * ((1 - 3 * j * ε) * w - 3 * j * η) ≤ (1 - ε) * v :=
        mul_le_mul_of_nonneg_left hwv (by linarith only [hε1])
      have h2 : 0 ≤ j * ε * ε * w := by positivity
      have h3 : 0 ≤ ε * ε * z := by positivity
      have h4 : 0 ≤ j * ε * η := by positivity
      have h5 : 0 ≤ ε * η := by positivity
      have h6 : 0 ≤ ε * w := by positivity
      have h7 : 0 ≤ j * ε * z := by positivity
      nlinarith only [h1, h2, h3, h4, h5, h6, h7]
    · simp only [List.length_append, List.length_singleton, Nat.cast_add, Nat.cast_one]
      refine le_trans hupp ?_
      clear hupp hlow hwv hQ st hf
      have hη0 : (0 : ℚ) < eps * 2 ^ (-1022 : ℤ) := mul_pos (two_zpow_pos _) (two_zpow_pos _)
      have hz : (0 : ℚ) ≤ d ^ 2 / ((xs.length + 1 + 1) * (xs.length + 1)) := by positivity
      have hε0 : (0 : ℚ) < eps := two_zpow_pos _
      have hj24 : ((xs.length : ℚ) + 1) * eps ≤ 1 / 10 := by
        have h1 : (xs.length : ℚ) + 1 + 1 ≤ 2 ^ 24 := by exact_mod_cast le_trans hlen h.le
        rw [eps_val]
        linarith only [h1]
      have hε1 : eps ≤ 1 / 10 := by rw [eps_val]; norm_num
      generalize d ^ 2 / (((xs.length : ℚ) + 1 + 1) * (xs.length + 1)) = z at hz ⊢
      generalize eps * 2 ^ (-1022 : ℤ) = η at hη0 hvw ⊢
      generalize eps = ε at hε0 hε1 hvw hj24 ⊢
      have hj : (0 : ℚ) ≤ xs.length := Nat.cast_nonneg _
      generalize (xs.length : ℚ) = j at hj hvw hj24 ⊢
      have h1 : (1 + ε) * v ≤ (1 + ε) * ((1 + 5 * j * ε) * w + 5 * j * η) :=
        mul_le_mul_of_nonneg_left hvw (by linarith only [hε0])
      have h2 : 0 ≤ (1 / 10 - (j + 1) * ε) * (ε * w) :=
        mul_nonneg (sub_nonneg.2 hj24) (mul_nonneg hε0.le hw)
      have h3 : 0 ≤ (1 / 10 - ε) * (ε * z) :=
        mul_nonneg (sub_nonneg.2 hε1) (mul_nonneg hε0.le hz)
      have h4 : 0 ≤ (1 / 10 - (j + 1) * ε) * η := mul_nonneg (sub_nonneg.2 hj24) hη0.le
      have h5 : 0 ≤ ε * η := by positivity
      have h6 : 0 ≤ ε * w := mul_nonneg hε0.le hw
      have h7 : 0 ≤ j * (ε * z) := mul_nonneg hj (mul_nonneg hε0.le hz)
      have h8 : 0 ≤ ε * z := mul_nonneg hε0.le hz
      nlinarith only [h1, h2, h3, h4, h5, h6, h7, h8, hη0]
    · intro τ τ0 τ1
      obtain ⟨hQ1, hQ2⟩ := hQ τ τ0 τ1
      clear hQ
      have hc : (0 : ℚ) < (xs.length + 1 + 1) * (xs.length + 1) := by positivity
      have hj : (0 : ℚ) ≤ xs.length := Nat.cast_nonneg _
      simp only [sqSum, List.map_append, List.map_cons, List.map_nil, List.sum_append,
        List.sum_singleton, List.length_append, List.length_singleton] at hQ1 hQ2 ⊢
      push_cast
      generalize 4 * eps * ((n : ℚ) ^ 2 * T) = e at hQ1 hQ2 hd ⊢
      generalize (xs.map (· ^ 2)).sum = R at hQ1 hQ2 ⊢
      generalize xs.sum = S at hQ1 hQ2 hd ⊢
      generalize (xs.length : ℚ) = j at hj hc hQ1 hQ2 hd ⊢
      obtain ⟨D, hD⟩ : ∃ D : ℚ, D = (j + 1) * y - (x + S) := ⟨_, rfl⟩
      rw [← hD] at hd
      have h1 : (D - d) ^ 2 ≤ e ^ 2 := by
        have : |D - d| ≤ e := by rw [abs_sub_comm]; exact hd
        exact sq_le_sq' (by linarith only [abs_le.1 this]) (abs_le.1 this).2
      have h2 : (1 - τ) * D ^ 2 - (1 / τ - 1) * e ^ 2 ≤ d ^ 2 := by
        have h0 : (1 / τ - 1) * (D - d) ^ 2 ≤ (1 / τ - 1) * e ^ 2 :=
          mul_le_mul_of_nonneg_left h1 (sub_nonneg.2 ((one_le_div τ0).2 τ1.le))
        have e0 : d ^ 2 - ((1 - τ) * D ^ 2 - (1 / τ - 1) * (D - d) ^ 2) =
            ((1 - τ) * D - d) ^ 2 / τ := by
          have := τ0.ne'
          field_simp
          ring
        have : 0 ≤ ((1 - τ) * D - d) ^ 2 / τ := div_nonneg (sq_nonneg _) τ0.le
        linarith only [h0, e0, this]
      have h2' : d ^ 2 ≤ (1 + τ) * D ^ 2 + (1 / τ + 1) * e ^ 2 := by
        have h0 : (1 / τ + 1) * (D - d) ^ 2 ≤ (1 / τ + 1) * e ^ 2 :=
          mul_le_mul_of_nonneg_left h1 (by positivity)
        have e0 : (1 + τ) * D ^ 2 + (1 / τ + 1) * (D - d) ^ 2 - d ^ 2 =
            ((1 + τ) * D - d) ^ 2 / τ := by
          have := τ0.ne'
          field_simp
          ring
        have : 0 ≤ ((1 + τ) * D - d) ^ 2 / τ := div_nonneg (sq_nonneg _) τ0.le
        linarith only [h0, e0, this]
      have h3 := div_le_div_of_nonneg_right h2 hc.le
      have h3' := div_le_div_of_nonneg_right h2' hc.le
      have h4 : (x ^ 2 + (R + y ^ 2) - (x + (S + y)) ^ 2 / (j + 1 + 1)) =
          (x ^ 2 + R - (x + S) ^ 2 / (j + 1)) + D ^ 2 / ((j + 1 + 1) * (j + 1)) := by
        have : j + 1 ≠ 0 := by linarith only [hj]
        have : j + 1 + 1 ≠ 0 := by linarith only [hj]
        rw [hD]
        field_simp
        ring
      have h5 : 1 - 1 / (j + 1 + 1) = (1 - 1 / (j + 1)) + 1 / ((j + 1 + 1) * (j + 1)) := by
        have : j + 1 ≠ 0 := by linarith only [hj]
        have : j + 1 + 1 ≠ 0 := by linarith only [hj]
        field_simp
        ring
      rw [h4, h5]
      have h6 : ((1 - τ) * D ^ 2 - (1 / τ - 1) * e ^ 2) / ((j + 1 + 1) * (j + 1)) =
        (1 - τ) * (D ^ 2 / ((j + 1 + 1) * (j + 1))) -
          (1 / τ - 1) * e ^ 2 * (1 / ((j + 1 + 1) * (j + 1))) := by ring
      have h6' : ((1 + τ) * D ^ 2 + (1 / τ + 1) * e ^ 2) / ((j + 1 + 1) * (j + 1)) =
        (1 + τ) * (D ^ 2 / ((j + 1 + 1) * (j + 1))) +
          (1 / τ + 1) * e ^ 2 * (1 / ((j + 1 + 1) * (j + 1))) := by ring
      constructor
      · linarith only [hQ1, h3, h6]
      · linarith only [hQ2, h3', h6']

/-- The running mean, in floating point and exactly. -/
theorem mean_loop (h : Short n T) {xs : List ℚ} (hx : ∀ y ∈ xs, 0 ≤ y ∧ y ≤ T)
    (hlen : xs.length ≤ n) :
    ∃ m : ℚ, (xs.map FVal.fin).foldl (fun (s : FVal × FVal) x =>
        (FVal.add s.1 .one, FVal.add s.2 (FVal.div (FVal.sub x s.2) (FVal.add s.1 .one))))
        (.fin 0, .fin 0) = (.fin xs.length, .fin m) ∧
      |m - xs.sum / xs.length| ≤ 10 * xs.length * (eps * T) := by
  induction xs using List.reverseRecOn with
  | nil => exact ⟨0, by simp, by simp⟩
  | append_singleton xs y ih =>
    rw [List.length_append, List.length_singleton] at hlen
    have hx' : ∀ z ∈ xs, 0 ≤ z ∧ z ≤ T := fun z hz => hx z (List.mem_append_left _ hz)
    obtain ⟨m, hf, hm⟩ := ih hx' (by omega)
    obtain ⟨y0, y1⟩ := hx y (by simp)
    obtain ⟨S0, S1⟩ := sum_bounds hx'
    have hT := h.T0
    have hT16 := h.T16
    have k24 : xs.length + 1 ≤ 2 ^ 24 := le_trans hlen h.le
    have hk24 : (xs.length : ℚ) + 1 ≤ 2 ^ 24 := by exact_mod_cast k24
    have kk : rndQ ((xs.length : ℚ) + 1) = xs.length + 1 := by
      have := rndQ_natCast (m := xs.length + 1) (le_trans k24 (by norm_num))
      push_cast at this; exact this
    have err : ∀ {x c : ℚ}, 1 ≤ c → |x| ≤ c * T → |rndQ x - x| ≤ c * (eps * T) := by
      intro x c hc hx
      have h3 : (2 : ℚ) ^ (-1022 : ℤ) ≤ 2 ^ (-100 : ℤ) :=
        zpow_le_zpow_right₀ (by norm_num) (by norm_num)
      have := rndQ_err hx (le_trans h3 (le_trans h.pos (by nlinarith only [hc, hT])))
      linarith only [this]
    have hj : (0 : ℚ) ≤ xs.length := Nat.cast_nonneg _
    have hu0 : 0 ≤ xs.sum / xs.length := div_nonneg S0 hj
    have hu1 : xs.sum / xs.length ≤ T := div_le_of_le_mul₀ hj hT.le (by linarith only [S1])
    have hexact : (xs.sum + y) / (xs.length + 1) =
        xs.sum / xs.length + (y - xs.sum / xs.length) / (xs.length + 1) := by
      rcases Nat.eq_zero_or_pos xs.length with h0 | h0
      · rw [List.length_eq_zero_iff.1 h0]; simp
      · have : (xs.length : ℚ) ≠ 0 := by exact_mod_cast h0.ne'
        have : (xs.length : ℚ) + 1 ≠ 0 := by linarith only [hj]
        field_simp
        ring
    have small : ∀ {x c : ℚ}, c ≤ 2 ^ 20 → |x| ≤ c * T → |x| ≤ 2 ^ 100 := fun hc hx =>
      le_trans hx (le_trans (b := (2 : ℚ) ^ 40) (by nlinarith only [hc, hT, hT16])
        (pow_le_pow_right₀ (by norm_num) (by norm_num)))
    have hε : eps * T = T / 2 ^ 53 := by rw [eps_val]; ring
    rw [hε] at hm
    rw [List.map_append, List.foldl_append, hf]
    simp only [List.map_cons, List.map_nil, List.foldl_cons, List.foldl_nil, List.length_append,
      List.length_singleton, List.sum_append, List.sum_singleton]
    push_cast
    have f1 : FVal.add (.fin (xs.length : ℚ)) .one = .fin ((xs.length : ℚ) + 1) := by
      show FVal.add (.fin _) (.fin 1) = _
      rw [add_fin (le_trans (b := (2 : ℚ) ^ 25) (by
        rw [abs_of_nonneg (by positivity)]; linarith only [hk24])
        (pow_le_pow_right₀ (by norm_num) (by norm_num))), kk]
    rw [f1, hexact, hε]
    simp only [hε] at err
    generalize xs.sum / xs.length = u at hm hu0 hu1 ⊢
    generalize (xs.length : ℚ) = j at hm hj hk24 ⊢
    have hj1 : (1 : ℚ) ≤ j + 1 := by linarith only [hj]
    have hj0 : (0 : ℚ) < j + 1 := by linarith only [hj]
    obtain ⟨Δ, hΔ⟩ : ∃ Δ : ℚ, Δ = T / 2 ^ 53 := ⟨_, rfl⟩
    have hΔ0 : 0 < Δ := by rw [hΔ]; positivity
    have hΔT : T = 2 ^ 53 * Δ := by rw [hΔ]; ring
    simp only [← hΔ] at hm err ⊢
    have hjΔ : 10 * j * Δ ≤ T / 2 := by rw [hΔT]; nlinarith only [hk24, hΔ0]
    obtain ⟨m1, m2⟩ := abs_le.1 hm
    have a1 : |y + -m| ≤ 2 * T := by
      rw [abs_le]; constructor <;> linarith only [m1, m2, hu0, hu1, hjΔ, y0, y1, hT]
    have b1 := err (by norm_num) a1
    obtain ⟨b11, b12⟩ := abs_le.1 b1
    obtain ⟨a11, a12⟩ := abs_le.1 a1
    rw [sub_fin (small (by norm_num) a1)]
    generalize rndQ (y + -m) = a at b1 b11 b12 ⊢
    have a2' : |a| ≤ 3 * T := by
      rw [abs_le]; constructor <;> linarith only [b11, b12, a11, a12, hΔT, hΔ0]
    have a2 : |a / (j + 1)| ≤ 3 * T := by
      rw [abs_div, abs_of_pos hj0]
      exact le_trans (div_le_self (abs_nonneg _) hj1) a2'
    have b2 := err (by norm_num) a2
    obtain ⟨b21, b22⟩ := abs_le.1 b2
    obtain ⟨a21, a22⟩ := abs_le.1 a2
    rw [div_fin hj0.ne' (small (by norm_num) a2)]
    generalize rndQ (a / (j + 1)) = b at b21 b22 ⊢
    have a3 : |m + b| ≤ 5 * T := by
      rw [abs_le]; constructor <;>
        linarith only [b21, b22, a21, a22, m1, m2, hu0, hu1, hjΔ, hΔT, hΔ0]
    have b3 := err (by norm_num) a3
    obtain ⟨b31, b32⟩ := abs_le.1 b3
    rw [add_fin (small (by norm_num) a3)]
    refine ⟨_, rfl, ?_⟩
    generalize rndQ (m + b) = c at b31 b32 ⊢
    -- the error made by the division
    have e1 : |a / (j + 1) - (y - u) / (j + 1) + (m - u) / (j + 1)| ≤ 2 * Δ := by
      rw [show a / (j + 1) - (y - u) / (j + 1) + (m - u) / (j + 1) = (a - (y + -m)) / (j + 1) by ring,
        abs_div, abs_of_pos hj0]
      exact le_trans (div_le_self (abs_nonneg _) hj1) b1
    have e2 : |(m - u) - (m - u) / (j + 1)| ≤ 10 * j * Δ := by
      have : (m - u) - (m - u) / (j + 1) = (m - u) * (j / (j + 1)) := by
        have := hj0.ne'
        field_simp
        ring
      rw [this, abs_mul, abs_of_nonneg (div_nonneg hj hj0.le)]
      have h1 : j / (j + 1) ≤ 1 := (div_le_one hj0).2 (by linarith only)
      calc |m - u| * (j / (j + 1)) ≤ |m - u| * 1 := mul_le_mul_of_nonneg_left h1 (abs_nonneg _)
        _ ≤ _ := by rw [mul_one]; exact hm
    obtain ⟨e11, e12⟩ := abs_le.1 e1
    obtain ⟨e21, e22⟩ := abs_le.1 e2
    rw [abs_le]; constructor <;> linarith only [e11, e12, e21, e22, b21, b22, b31, b32]

/-- Sum of the squares of the distances from `m`. -/
def devSum (m : ℚ) (l : List ℚ) : ℚ := (l.map fun x => (x - m) ^ 2).sum

theorem devSum_eq (m : ℚ) (l : List ℚ) :
    devSum m l = sqSum l - 2 * m * l.sum + l.length * m ^ 2 := by
  induction l with
  | nil => simp [devSum, sqSum]
  | cons x l ih =>
    simp only [devSum, sqSum, List.map_cons, List.sum_cons, List.length_cons] at ih ⊢
    push_cast
    linarith

theorem devSum_mem {m x : ℚ} {l : List ℚ} (h : x ∈ l) : (x - m) ^ 2 ≤ devSum m l := by
  refine List.single_le_sum ?_ _ (List.mem_map.2 ⟨x, h, rfl⟩)
  intro z hz
  obtain ⟨y, _, rfl⟩ := List.mem_map.1 hz
  exact sq_nonneg _

/-- Some value is not farther from `m` than the others on average. -/
theorem devSum_small (m : ℚ) {l : List ℚ} (h : l ≠ []) :
    ∃ x ∈ l, l.length * (x - m) ^ 2 ≤ devSum m l := by
  by_contra hc
  push Not at hc
  obtain ⟨c, hcdef⟩ : ∃ c, c = devSum m l / l.length := ⟨_, rfl⟩
  have hl : (0 : ℚ) < l.length := by exact_mod_cast List.length_pos_iff.2 h
  have hc' : ∀ x ∈ l, c < (x - m) ^ 2 := by
    intro x hx
    rw [hcdef, div_lt_iff₀ hl, mul_comm]
    exact hc x hx
  have key : ∀ l : List ℚ, l ≠ [] → (∀ x ∈ l, c < (x - m) ^ 2) → l.length * c < devSum m l := by
    intro l
    induction l with
    | nil => intro h; exact absurd rfl h
    | cons x l ih =>
      intro _ h
      have hx := h x (List.mem_cons_self ..)
      simp only [devSum, List.map_cons, List.sum_cons, List.length_cons] at ih ⊢
      push_cast
      rcases eq_or_ne l [] with rfl | hne
      · simp; linarith
      · have := ih hne fun y hy => h y (List.mem_cons_of_mem _ hy)
        linarith
  have := key l h hc'
  rw [hcdef, mul_div_cancel₀ _ hl.ne'] at this
  exact lt_irrefl _ this

/-- `Statistics::variance` in floating point, against the exact sum of squares. -/
theorem variance_bounds (h : Short n T) {x : ℚ} {xs : List ℚ} (hx : ∀ y ∈ x :: xs, 0 ≤ y ∧ y ≤ T)
    (hlen : xs.length + 1 = n) :
    ∃ q : ℚ, statrsVariance ((x :: xs).map FVal.fin) = .fin q ∧ 0 ≤ q ∧ q ≤ 2 ^ 66 ∧
      ∀ V E τ : ℚ, V = devSum ((x + xs.sum) / n) (x :: xs) → E = (4 * eps * ((n : ℚ) ^ 2 * T)) ^ 2 →
        0 < τ → τ < 1 →
        (1 - 1 / 2 ^ 26) * ((1 - τ) * V - (1 / τ - 1) * E) - 1 / 2 ^ 200 ≤ (n - 1) * q ∧
        (n - 1) * q ≤ (1 + 1 / 2 ^ 26) * ((1 + τ) * V + (1 / τ + 1) * E) + 1 / 2 ^ 200 := by
  obtain ⟨s, v, w, hf, _, ⟨v0, v1⟩, hw, hwv, hvw, hQ⟩ := variance_loop h hx hlen.le
  have hnl : (xs.length : ℚ) + 1 = n := by exact_mod_cast hlen
  have hxl : (xs.length : ℚ) = n - 1 := by linarith only [hnl]
  rw [hnl] at hf v1 hQ
  have hN2 := h.N2
  have hN24 := h.N24
  have hn1 : (1 : ℚ) ≤ n - 1 := by linarith only [hN2]
  have hn0 : (0 : ℚ) < n - 1 := by linarith only [hN2]
  have nn : rndQ ((n : ℚ) + -1) = n - 1 := by
    have := rndQ_natCast (m := n - 1) (le_trans (Nat.sub_le _ _) (le_trans h.le (by norm_num)))
    rw [Nat.cast_sub (by have := h.two; omega)] at this
    push_cast at this
    rw [← sub_eq_add_neg]
    exact this
  have f1 : FVal.sub (.fin (n : ℚ)) .one = .fin ((n : ℚ) - 1) := by
    show FVal.sub (.fin _) (.fin 1) = _
    rw [sub_fin (by rw [abs_of_nonneg (by linarith only [hN2])]; linarith only [hN24]), nn]
  have q0 : 0 ≤ v / (n - 1) := div_nonneg v0 hn0.le
  have q1 : v / (n - 1) ≤ 2 ^ 66 := le_trans (div_le_self v0 hn1) (by linarith only [v1, hN24])
  refine ⟨rndQ (v / (n - 1)), ?_, rndQ_nonneg q0, rndQ_upper 66 q1, ?_⟩
  · unfold statrsVariance
    simp only [List.map_cons]
    rw [hf]
    simp only [f1]
    rw [div_fin hn0.ne' (by rw [abs_of_nonneg q0]; exact le_trans q1 (by norm_num))]
    rw [if_neg]
    show ¬ (decide ((n : ℚ) ≤ 1) = true)
    rw [decide_eq_true_eq, not_le]
    linarith only [hN2]
  · intro V E τ hV hE τ0 τ1
    have hVeq : x ^ 2 + sqSum xs - (x + xs.sum) ^ 2 / n = V := by
      rw [hV, devSum_eq]
      simp only [sqSum, List.map_cons, List.sum_cons, List.length_cons]
      push_cast
      rw [hnl]
      have : (n : ℚ) ≠ 0 := by linarith only [hN2]
      field_simp
      ring
    obtain ⟨hQ1, hQ2⟩ := hQ τ τ0 τ1
    clear hQ
    rw [hVeq, ← hE] at hQ1 hQ2
    rw [hxl] at hwv hvw
    have hlow := rndQ_lower q0
    have hupp := rndQ_more q0
    have hη : 2 ^ 30 * (eps * 2 ^ (-1022 : ℤ)) ≤ 1 / 2 ^ 200 := by
      have h1 : (2 : ℚ) ^ 30 * (eps * 2 ^ (-1022 : ℤ)) ≤ 2 ^ (-200 : ℤ) := by
        unfold eps
        rw [← zpow_add₀ (by norm_num), ← zpow_natCast, ← zpow_add₀ (by norm_num)]
        exact zpow_le_zpow_right₀ (by norm_num) (by norm_num)
      rwa [zpow_200] at h1
    have hη0 : (0 : ℚ) < eps * 2 ^ (-1022 : ℤ) := mul_pos (two_zpow_pos _) (two_zpow_pos _)
    generalize eps * 2 ^ (-1022 : ℤ) = η at hη hη0 hlow hupp hwv hvw
    have hE0 : 0 ≤ E := by rw [hE]; exact sq_nonneg _
    have hn : 0 ≤ 1 / (n : ℚ) := by positivity
    have hn' : 1 / (n : ℚ) ≤ 1 := by rw [div_le_one (by linarith only [hN2])]; linarith only [hN2]
    have hτ : 0 ≤ 1 / τ - 1 := sub_nonneg.2 ((one_le_div τ0).2 τ1.le)
    have hw1 : (1 - τ) * V - (1 / τ - 1) * E ≤ w := by
      nlinarith only [hQ1, mul_nonneg (mul_nonneg hτ hE0) hn]
    have hw2 : w ≤ (1 + τ) * V + (1 / τ + 1) * E := by
      nlinarith only [hQ2, mul_nonneg (mul_nonneg (show (0 : ℚ) ≤ 1 / τ + 1 by positivity) hE0) hn]
    rw [eps_val] at hwv hvw hlow hupp
    have h3 : (n - 1) * (v / (n - 1)) = v := mul_div_cancel₀ _ hn0.ne'
    have h5 : (n - 1) * η ≤ 2 ^ 24 * η := by
      apply mul_le_mul_of_nonneg_right _ hη0.le; linarith only [hN24]
    have h6 : (n - 1) * w ≤ 2 ^ 24 * w := by
      apply mul_le_mul_of_nonneg_right _ hw; linarith only [hN24]
    have h4 : (n - 1) * ((1 - 1 / 9007199254740992) * (v / (n - 1)) - η) ≤
        (n - 1) * rndQ (v / (n - 1)) := mul_le_mul_of_nonneg_left hlow hn0.le
    have h4' : (n - 1) * rndQ (v / (n - 1)) ≤
        (n - 1) * ((1 + 1 / 9007199254740992) * (v / (n - 1)) + η) :=
      mul_le_mul_of_nonneg_left hupp hn0.le
    have h7 : (1 - 1 / 2 ^ 26) * ((1 - τ) * V - (1 / τ - 1) * E) ≤ (1 - 1 / 2 ^ 26) * w :=
      mul_le_mul_of_nonneg_left hw1 (by norm_num)
    have h7' : (1 + 1 / 2 ^ 26) * w ≤ (1 + 1 / 2 ^ 26) * ((1 + τ) * V + (1 / τ + 1) * E) :=
      mul_le_mul_of_nonneg_left hw2 (by norm_num)
    generalize rndQ (v / (n - 1)) = r at h4 h4' ⊢
    generalize v / ((n : ℚ) - 1) = z at h3 h4 h4'
    constructor
    · refine le_trans (sub_le_sub h7 hη) ?_
      linarith only [h3, h4, h5, h6, hwv, hw, hη0, v0]
    · refine le_trans ?_ (add_le_add h7' hη)
      linarith only [h3, h4', h5, h6, hvw, hw, hη0, v0]

/-- The threshold is not smaller than a number whose square is small against the variance. -/
theorem threshold_le {a q : ℚ} (ha : IsF a) (ha0 : 0 ≤ a) (hq0 : 0 ≤ q) (hq1 : q ≤ 2 ^ 66)
    (hq : a ^ 2 ≤ 88 / 10 * q) (hpos : a = 0 ∨ 2 ^ (-200 : ℤ) ≤ q) :
    FVal.le (.fin a) (FVal.mul (.fin 3) (FVal.sqrt (.fin q))) = true := by
  have hq0' : (0 : ℝ) ≤ q := by exact_mod_cast hq0
  have s0 : 0 ≤ Real.sqrt q := Real.sqrt_nonneg _
  have s1 : Real.sqrt q ≤ 2 ^ 33 := by
    rw [Real.sqrt_le_left (by positivity)]
    have : (q : ℝ) ≤ 2 ^ 66 := by exact_mod_cast hq1
    linarith
  have i33 : IsF ((2 : ℚ) ^ 33) := by simpa using isF_two_zpow (e := 33) (by norm_num)
  obtain ⟨r1, r2⟩ := rnd_fin (K := ℝ) (x := Real.sqrt q) i33 (two_pow_lt_f64Huge (by norm_num)) (by
    rw [abs_of_nonneg s0]; push_cast; exact s1)
  have r0 := le_rndQ (Real.sqrt q) isF_zero (by simp)
  have e : FVal.sqrt (.fin q) = .fin (rndQ (Real.sqrt q)) := by
    show (if q < 0 then _ else _) = _
    rw [if_neg (not_lt.2 hq0), r1]
  rw [e, mul_fin (by
    rw [abs_mul]
    calc |(3 : ℚ)| * |rndQ (Real.sqrt q)| ≤ 3 * 2 ^ 33 := by
          rw [abs_of_nonneg (by norm_num : (0 : ℚ) ≤ 3)]; linarith
      _ ≤ 2 ^ 100 := by norm_num)]
  show decide (_ ≤ _) = true
  rw [decide_eq_true_eq]
  refine le_rndQ _ ha ?_
  rw [Rat.cast_id]
  rcases hpos with rfl | hpos
  · linarith
  have hrel := rndQ_rel (Real.sqrt q) (by
    rw [abs_of_nonneg s0]
    refine Real.le_sqrt_of_sq_le ?_
    have h1 : ((2 : ℝ) ^ (-200 : ℤ)) ≤ q := by
      have := Rat.cast_le (K := ℝ).2 hpos
      rwa [Rat.cast_zpow, Rat.cast_ofNat] at this
    refine le_trans ?_ h1
    rw [← zpow_natCast, ← zpow_mul]
    exact zpow_le_zpow_right₀ (by norm_num) (by norm_num))
  have h2 := (abs_le.1 hrel).1
  rw [abs_of_nonneg s0] at h2
  have h3 : (2 : ℝ) ^ (-53 : ℤ) ≤ 1 / 100 := by norm_num
  have h4 : (a : ℝ) ≤ 297 / 100 * Real.sqrt q := by
    refine abs_le_of_sq_le_sq' ?_ (by positivity) |>.2
    rw [mul_pow, Real.sq_sqrt hq0']
    have : (a : ℝ) ^ 2 ≤ 88 / 10 * q := by
      have := Rat.cast_le (K := ℝ).2 hq
      push_cast at this
      exact this
    linarith
  have h6 : (2 : ℝ) ^ (-53 : ℤ) * Real.sqrt q ≤ 1 / 100 * Real.sqrt q :=
    mul_le_mul_of_nonneg_right h3 s0
  have h5 : (a : ℝ) ≤ ((3 * rndQ (Real.sqrt q) : ℚ) : ℝ) := by
    rw [Rat.cast_mul, Rat.cast_ofNat]
    have h7 := le_trans (neg_le_neg h6) h2
    generalize ((rndQ (Real.sqrt q) : ℚ) : ℝ) = r at h7 ⊢
    linarith only [h7, h4]
  exact_mod_cast h5

/-- The threshold is smaller than a number whose square is large against the variance. -/
theorem threshold_lt {a q : ℚ} (hq0 : 0 ≤ q) (hq1 : q ≤ 2 ^ 66) (ha0 : 1 / 2 ^ 100 ≤ a)
    (hq : 91 / 10 * q ≤ a ^ 2) :
    FVal.le (.fin a) (FVal.mul (.fin 3) (FVal.sqrt (.fin q))) = false := by
  have hq0' : (0 : ℝ) ≤ q := by exact_mod_cast hq0
  have s0 : 0 ≤ Real.sqrt q := Real.sqrt_nonneg _
  have s1 : Real.sqrt q ≤ 2 ^ 33 := by
    rw [Real.sqrt_le_left (by positivity)]
    have : (q : ℝ) ≤ 2 ^ 66 := by exact_mod_cast hq1
    linarith
  have i33 : IsF ((2 : ℚ) ^ 33) := by simpa using isF_two_zpow (e := 33) (by norm_num)
  obtain ⟨r1, r2⟩ := rnd_fin (K := ℝ) (x := Real.sqrt q) i33 (two_pow_lt_f64Huge (by norm_num)) (by
    rw [abs_of_nonneg s0]; push_cast; exact s1)
  have r0 := le_rndQ (Real.sqrt q) isF_zero (by simp)
  have e : FVal.sqrt (.fin q) = .fin (rndQ (Real.sqrt q)) := by
    show (if q < 0 then _ else _) = _
    rw [if_neg (not_lt.2 hq0), r1]
  rw [e, mul_fin (by
    rw [abs_mul]
    calc |(3 : ℚ)| * |rndQ (Real.sqrt q)| ≤ 3 * 2 ^ 33 := by
          rw [abs_of_nonneg (by norm_num : (0 : ℚ) ≤ 3)]; linarith
      _ ≤ 2 ^ 100 := by norm_num)]
  show decide (_ ≤ _) = false
  rw [decide_eq_false_iff_not, not_le]
  have i200 : IsF ((2 : ℚ) ^ (-200 : ℤ)) := isF_two_zpow (by norm_num)
  have hr : (rndQ (Real.sqrt q) : ℝ) ≤ 1001 / 1000 * Real.sqrt q + (2 : ℝ) ^ (-200 : ℤ) := by
    rcases le_or_gt ((2 : ℝ) ^ (-200 : ℤ)) (Real.sqrt q) with hs | hs
    · have hrel := rndQ_rel (Real.sqrt q) (by
        rw [abs_of_nonneg s0]
        exact le_trans (zpow_le_zpow_right₀ (by norm_num) (by norm_num)) hs)
      have h2 := (abs_le.1 hrel).2
      rw [abs_of_nonneg s0] at h2
      have h3 : (2 : ℝ) ^ (-53 : ℤ) ≤ 1 / 1000 := by norm_num
      have h6 := mul_le_mul_of_nonneg_right h3 s0
      have h7 := le_trans h2 h6
      have h8 : (0 : ℝ) < 2 ^ (-200 : ℤ) := two_zpow_pos _
      generalize (2 : ℝ) ^ (-200 : ℤ) = z at h8 ⊢
      linarith only [h7, h8]
    · have := rndQ_le (Real.sqrt q) i200 (by rw [Rat.cast_zpow, Rat.cast_ofNat]; exact hs.le)
      have h1 := Rat.cast_le (K := ℝ).2 this
      rw [Rat.cast_zpow, Rat.cast_ofNat] at h1
      exact le_trans h1 (le_add_of_nonneg_left (mul_nonneg (by norm_num) s0))
  have h4 : 301 / 100 * Real.sqrt q ≤ a := by
    have ha : (0 : ℝ) ≤ a := by
      have : (0 : ℚ) ≤ a := le_trans (by norm_num) ha0
      exact_mod_cast this
    refine abs_le_of_sq_le_sq' ?_ ha |>.2
    rw [mul_pow, Real.sq_sqrt hq0']
    have : 91 / 10 * (q : ℝ) ≤ (a : ℝ) ^ 2 := by
      have := Rat.cast_le (K := ℝ).2 hq
      push_cast at this
      exact this
    linarith
  have h5 : 3 * rndQ (Real.sqrt q) ≤ 999 / 1000 * a + 3 / 2 ^ 200 := by
    have h6 : ((3 * rndQ (Real.sqrt q) : ℚ) : ℝ) ≤ ((999 / 1000 * a + 3 / 2 ^ 200 : ℚ) : ℝ) := by
      push_cast
      rw [zpow_200] at hr
      linarith only [hr, h4, s0]
    exact_mod_cast h6
  have h6 := rndQ_more (y := 3 * rndQ (Real.sqrt q)) (by linarith only [r0])
  have hη : eps * 2 ^ (-1022 : ℤ) ≤ 1 / 2 ^ 200 := by
    have h1 : (eps * 2 ^ (-1022 : ℤ)) ≤ 2 ^ (-200 : ℤ) := by
      unfold eps
      rw [← zpow_add₀ (by norm_num)]
      exact zpow_le_zpow_right₀ (by norm_num) (by norm_num)
    rwa [zpow_200] at h1
  refine lt_of_le_of_lt (le_trans h6 (add_le_add_right hη _)) ?_
  rw [eps_val]
  linarith only [h5, r0, ha0]

/-- The running mean of equal values is this value. -/
theorem mean_same {c : ℚ} (hc : IsF c) (hc0 : 0 ≤ c) (hc1 : c ≤ 2 ^ 100) {xs : List ℚ}
    (hx : ∀ y ∈ xs, y = c) (hlen : xs.length ≤ 2 ^ 53) :
    (xs.map FVal.fin).foldl (fun (s : FVal × FVal) x =>
        (FVal.add s.1 .one, FVal.add s.2 (FVal.div (FVal.sub x s.2) (FVal.add s.1 .one))))
        (.fin 0, .fin 0) = (.fin xs.length, .fin (if xs = [] then 0 else c)) := by
  induction xs using List.reverseRecOn with
  | nil => simp
  | append_singleton xs y ih =>
    rw [List.length_append, List.length_singleton] at hlen
    have ih := ih (fun z hz => hx z (List.mem_append_left _ hz)) (by omega)
    rw [hx y (by simp), List.map_append, List.foldl_append, ih]
    have kk : rndQ ((xs.length : ℚ) + 1) = xs.length + 1 := by
      have := rndQ_natCast (m := xs.length + 1) hlen
      push_cast at this; exact this
    have f1 : FVal.add (.fin (xs.length : ℚ)) .one = .fin ((xs.length : ℚ) + 1) := by
      show FVal.add (.fin _) (.fin 1) = _
      have : (xs.length : ℚ) + 1 ≤ 2 ^ 53 := by exact_mod_cast hlen
      rw [add_fin (by
        rw [abs_of_nonneg (by positivity)]; linarith only [this]), kk]
    have r0 : rndQ (0 : ℚ) = 0 := by simpa using rndQ_natCast (m := 0) (by norm_num)
    have rc : rndQ c = c := by simpa using rndQ_of_isF (K := ℚ) hc
    simp only [List.map_cons, List.map_nil, List.foldl_cons, List.foldl_nil, List.length_append,
      List.length_singleton]
    push_cast
    rw [f1, if_neg (show ¬ (xs ++ [c] = []) by simp)]
    congr 1
    have cb : |c| ≤ 2 ^ 100 := by rw [abs_of_nonneg hc0]; exact hc1
    by_cases h0 : xs = []
    · subst h0
      simp only [List.length_nil, Nat.cast_zero, zero_add, if_true]
      rw [sub_fin (by simpa using cb), div_fin (by norm_num) (by simp [rc, cb]),
        add_fin (by simp [rc, cb])]
      simp [rc]
    · rw [if_neg h0, sub_fin (by simp), add_neg_cancel, r0,
        div_fin (by positivity) (by simp), zero_div, r0, add_fin (by simpa using cb), add_zero, rc]

/-- One of the values is within three times the standard deviation of the mean. -/
theorem near_list (h : Short n T) {l : List ℚ} (hl : l.length = n)
    (hx : ∀ y ∈ l, 0 ≤ y ∧ y ≤ T) (hF : ∀ y ∈ l, IsF y)
    (hdist : ∀ y ∈ l, ∀ z ∈ l, y = z ∨ 2 ^ (-30 : ℤ) ≤ |y - z|) :
    ∃ x ∈ l, FVal.le (FVal.abs (FVal.sub (.fin x) (statrsMean (l.map .fin))))
      (FVal.mul (.fin 3) (statrsStdDev (l.map .fin))) = true := by
  obtain ⟨x₀, xs, rfl⟩ : ∃ x xs, l = x :: xs := by
    cases l with
    | nil => have := h.two; simp at hl; omega
    | cons x xs => exact ⟨x, xs, rfl⟩
  have hlen : xs.length + 1 = n := by simpa using hl
  obtain ⟨q, hq, q0, q1, hvar⟩ := variance_bounds h hx hlen
  obtain ⟨μ, hμ, hμe⟩ := mean_loop h hx hl.le
  have hsd : statrsStdDev ((x₀ :: xs).map .fin) = FVal.sqrt (.fin q) := by
    unfold statrsStdDev; rw [hq]
  have hmean : statrsMean ((x₀ :: xs).map .fin) = .fin μ := by
    unfold statrsMean
    rw [if_neg (by simp), hμ]
  have hT := h.T0
  have hT16 := h.T16
  rw [hsd, hmean]
  by_cases hsame : ∀ y ∈ x₀ :: xs, y = x₀
  · have hx0 := hx x₀ (List.mem_cons_self ..)
    have hm := mean_same (hF x₀ (List.mem_cons_self ..)) hx0.1
      (by linarith only [hx0.2, hT16]) hsame (by rw [hl]; exact le_trans h.le (by norm_num))
    rw [hμ, if_neg (by simp)] at hm
    have hμx : μ = x₀ := by simpa using hm
    refine ⟨x₀, List.mem_cons_self .., ?_⟩
    rw [hμx, sub_fin (by simp), add_neg_cancel,
      show rndQ (0 : ℚ) = 0 by simpa using rndQ_natCast (m := 0) (by norm_num)]
    show FVal.le (.fin |0|) _ = true
    rw [abs_zero]
    exact threshold_le isF_zero (le_refl _) q0 q1 (by linarith only [q0]) (Or.inl rfl)
  · push Not at hsame
    obtain ⟨y, hy, hne⟩ := hsame
    obtain ⟨V, hV⟩ : ∃ V, V = devSum ((x₀ + xs.sum) / n) (x₀ :: xs) := ⟨_, rfl⟩
    have hg := (hdist y hy x₀ (List.mem_cons_self ..)).resolve_left hne
    have hgV : ((2 : ℚ) ^ (-30 : ℤ)) ^ 2 ≤ 4 * V := by
      have h1 : ((2 : ℚ) ^ (-30 : ℤ)) ^ 2 ≤ (y - x₀) ^ 2 := by
        rw [← sq_abs (y - x₀)]
        exact pow_le_pow_left₀ (two_zpow_pos _).le hg 2
      have h2 := devSum_mem (m := (x₀ + xs.sum) / n) hy
      have h3 := devSum_mem (m := (x₀ + xs.sum) / n) (List.mem_cons_self (a := x₀) (l := xs))
      rw [← hV] at h2 h3
      generalize (x₀ + xs.sum) / (n : ℚ) = m at h2 h3
      nlinarith only [h1, h2, h3, sq_nonneg (y - m + (x₀ - m))]
    have hprod := h.prod
    have hN2 := h.N2
    have hgT : 30 * (eps * ((n : ℚ) ^ 2 * T)) ≤ 2 ^ (-30 : ℤ) := by
      rw [eps_val]
      have : (2 : ℚ) ^ (-30 : ℤ) = 1 / 1073741824 := by norm_num
      rw [this]
      linarith only [hprod]
    have hvq : 41 / 100 * V ≤ (n - 1) * q := by
      have h1 := (hvar V _ (1 / 2) hV rfl (by norm_num) (by norm_num)).1
      have h0 : 0 ≤ eps * ((n : ℚ) ^ 2 * T) :=
        mul_nonneg (two_zpow_pos _).le (by positivity)
      have h2 : (30 * (eps * ((n : ℚ) ^ 2 * T))) ^ 2 ≤ (2 ^ (-30 : ℤ)) ^ 2 :=
        pow_le_pow_left₀ (by linarith only [h0]) hgT 2
      have h3 : ((2 : ℚ) ^ (-30 : ℤ)) ^ 2 = 1 / 2 ^ 60 := by norm_num
      have h4 := hgV
      rw [show 4 * eps * ((n : ℚ) ^ 2 * T) = 4 * (eps * ((n : ℚ) ^ 2 * T)) by ring] at h1
      rw [h3] at h2 h4
      generalize eps * ((n : ℚ) ^ 2 * T) = e at h1 h2
      linarith only [h1, h2, h4]
    obtain ⟨x, hxl, hxV⟩ := devSum_small ((x₀ + xs.sum) / n) (l := x₀ :: xs) (by simp)
    rw [← hV, hl] at hxV
    refine ⟨x, hxl, ?_⟩
    obtain ⟨x0, x1⟩ := hx x hxl
    obtain ⟨S0, S1⟩ := sum_bounds hx
    rw [hl] at hμe S1
    rw [List.sum_cons] at hμe S0 S1
    have hn0 : (0 : ℚ) < n := by linarith only [hN2]
    have hm0 : 0 ≤ (x₀ + xs.sum) / n := div_nonneg S0 hn0.le
    have hm1 : (x₀ + xs.sum) / n ≤ T := by
      rw [div_le_iff₀ hn0]; linarith only [S1]
    generalize (x₀ + xs.sum) / (n : ℚ) = m at hμe hm0 hm1 hxV
    obtain ⟨μ1, μ2⟩ := abs_le.1 hμe
    have hN24 := h.N24
    have hεT0 : 0 < eps * T := mul_pos (two_zpow_pos _) hT
    have hεT : 2 ^ 29 * (eps * T) ≤ T := by rw [eps_val]; linarith only [hT]
    have hnε : 10 * n * (eps * T) ≤ T := by
      have : n * (eps * T) ≤ 2 ^ 24 * (eps * T) := mul_le_mul_of_nonneg_right hN24 hεT0.le
      linarith only [this, hεT, hεT0]
    have a1 : |x + -μ| ≤ 3 * T := by
      rw [abs_le]; constructor <;> linarith only [μ1, μ2, hm0, hm1, hnε, x0, x1]
    have b1 := rndQ_err a1 (by
      have h3 : (2 : ℚ) ^ (-1022 : ℤ) ≤ 2 ^ (-100 : ℤ) :=
        zpow_le_zpow_right₀ (by norm_num) (by norm_num)
      have := h.pos
      linarith only [h3, this, hT])
    rw [sub_fin (le_trans a1 (by linarith only [hT16]))]
    have hV0 : 0 < V := by
      have : (0 : ℚ) < ((2 : ℚ) ^ (-30 : ℤ)) ^ 2 := pow_pos (two_zpow_pos _) 2
      linarith only [this, hgV]
    have hFa : IsF |rndQ (x + -μ)| := by
      rcases abs_choice (rndQ (x + -μ)) with hh | hh
      · rw [hh]; exact isF_rndQ _
      · rw [hh]; exact isF_neg (isF_rndQ _)
    show FVal.le (.fin |rndQ (x + -μ)|) _ = true
    -- the distance computed, against the exact one
    have hd : |rndQ (x + -μ)| ≤ |x - m| + 12 * n * (eps * T) := by
      have e1 : rndQ (x + -μ) = (rndQ (x + -μ) - (x + -μ)) + (x - m) + (m - μ) := by ring
      rw [e1]
      refine le_trans (abs_add_le _ _) (le_trans (add_le_add_left (abs_add_le _ _) _) ?_)
      have e2 : |m - μ| ≤ 10 * n * (eps * T) := by rw [abs_sub_comm]; exact hμe
      have e3 : 2 * (eps * T) ≤ n * (eps * T) := mul_le_mul_of_nonneg_right hN2 hεT0.le
      linarith only [e2, e3, b1, hεT0]
    have hsq : n * |rndQ (x + -μ)| ^ 2 ≤ 264 / 100 * V := by
      have e0 : 12 * n * (eps * T) ≤ 4 / 10 * (2 ^ (-30 : ℤ) / n) := by
        have : n * (12 * n * (eps * T)) ≤ 4 / 10 * 2 ^ (-30 : ℤ) := by
          rw [show n * (12 * n * (eps * T)) = 4 / 10 * (30 * (eps * ((n : ℚ) ^ 2 * T))) by ring]
          exact mul_le_mul_of_nonneg_left hgT (by norm_num)
        rw [← mul_div_assoc, le_div_iff₀ hn0]
        linarith only [this]
      have e1 : |rndQ (x + -μ)| ≤ |x - m| + 4 / 10 * (2 ^ (-30 : ℤ) / n) := le_trans hd (by linarith only [e0])
      obtain ⟨γ, hγ⟩ : ∃ γ : ℚ, γ = 2 ^ (-30 : ℤ) / n := ⟨_, rfl⟩
      have hγ0 : 0 ≤ γ := by rw [hγ]; exact div_nonneg (two_zpow_pos _).le hn0.le
      have hγV : n * γ ^ 2 ≤ 2 * V := by
        have e3 : (n * γ) ^ 2 ≤ 4 * V := by rw [hγ, mul_div_cancel₀ _ hn0.ne']; exact hgV
        have e4 : 2 * (n * γ ^ 2) ≤ n * (n * γ ^ 2) :=
          mul_le_mul_of_nonneg_right hN2 (by positivity)
        nlinarith only [e3, e4]
      rw [← hγ] at e1
      have e2 : |rndQ (x + -μ)| ^ 2 ≤ 2 * (x - m) ^ 2 + 2 * (4 / 10 * γ) ^ 2 := by
        have := pow_le_pow_left₀ (abs_nonneg _) e1 2
        rw [← sq_abs (x - m)]
        nlinarith only [this, sq_nonneg (|x - m| - 4 / 10 * γ)]
      have e5 : n * |rndQ (x + -μ)| ^ 2 ≤ n * (2 * (x - m) ^ 2 + 2 * (4 / 10 * γ) ^ 2) :=
        mul_le_mul_of_nonneg_left e2 hn0.le
      linarith only [e5, hγV, hxV]
    refine threshold_le hFa (abs_nonneg _) q0 q1 ?_ (Or.inr ?_)
    · generalize |rndQ (x + -μ)| ^ 2 = a at hsq
      have : (n : ℚ) * a ≤ n * (88 / 10 * q) := by nlinarith only [hsq, hvq, q0, hV0, hN2]
      exact le_of_mul_le_mul_left this hn0
    · have e1 : (n - 1) * q ≤ 2 ^ 24 * q := mul_le_mul_of_nonneg_right (by linarith only [hN24]) q0
      have e2 : ((2 : ℚ) ^ (-30 : ℤ)) ^ 2 = 1 / 2 ^ 60 := by norm_num
      have e3 : (2 : ℚ) ^ (-200 : ℤ) ≤ 1 / 2 ^ 100 := by norm_num
      rw [e2] at hgV
      refine le_trans e3 ?_
      linarith only [e1, hgV, hvq]

/-- A duration in seconds as `f64`. -/
theorem secs_err {ns : ℕ} (h : ns < 2 ^ 15 * 10 ^ 9 + 1) :
    ∃ q : ℚ, asSecs ns = .fin q ∧ IsF q ∧ 0 ≤ q ∧ |q - ns / 10 ^ 9| ≤ 2 ^ (-36 : ℤ) := by
  have e : ∀ k : ℕ, k ≤ 2 ^ 53 → FVal.ofU64 (BitVec.ofNat 64 k) = .fin (k : ℚ) := by
    intro k hk
    rw [rnd_fin_u64, BitVec.toNat_ofNat, Nat.mod_eq_of_lt (by omega)]
    have h2 := rndQ_of_isF (K := ℚ) (isF_nat hk)
    simp only [Rat.cast_id] at h2
    rw [h2]
  have tiny : (2 : ℚ) ^ (-1022 : ℤ) ≤ 1 := by
    rw [show (1 : ℚ) = 2 ^ (0 : ℤ) by norm_num]
    exact zpow_le_zpow_right₀ (by norm_num) (by norm_num)
  have hsplit : (ns : ℚ) / 10 ^ 9 = ((ns / 10 ^ 9 : ℕ) : ℚ) + ((ns % 10 ^ 9 : ℕ) : ℚ) / 10 ^ 9 := by
    have : (ns : ℚ) = ((10 ^ 9 * (ns / 10 ^ 9) + ns % 10 ^ 9 : ℕ) : ℚ) := by rw [Nat.div_add_mod]
    rw [this]
    push_cast
    ring
  have ha : ns / 10 ^ 9 ≤ 2 ^ 15 := by omega
  have hb : ns % 10 ^ 9 ≤ 10 ^ 9 := by omega
  unfold asSecs
  rw [e _ (by omega), e _ (by omega), hsplit]
  generalize ns / 10 ^ 9 = a at ha ⊢
  generalize ns % 10 ^ 9 = b at hb ⊢
  have ha' : (a : ℚ) ≤ 2 ^ 15 := by exact_mod_cast ha
  have hb' : (b : ℚ) ≤ 10 ^ 9 := by exact_mod_cast hb
  have ha0 : (0 : ℚ) ≤ a := Nat.cast_nonneg _
  have d0 : 0 ≤ (b : ℚ) / 10 ^ 9 := by positivity
  have d1 : (b : ℚ) / 10 ^ 9 ≤ 1 := by rw [div_le_one (by norm_num)]; exact hb'
  have r1 := rndQ_err (x := (b : ℚ) / 10 ^ 9) (B := 1) (by rw [abs_of_nonneg d0]; exact d1) tiny
  have r0 := rndQ_nonneg d0
  rw [div_fin (by norm_num) (by rw [abs_of_nonneg d0]; linarith only [d1])]
  generalize rndQ ((b : ℚ) / 10 ^ 9) = r at r0 r1 ⊢
  obtain ⟨r2, r3⟩ := abs_le.1 r1
  rw [eps_val] at r2 r3
  have s0 : 0 ≤ (a : ℚ) + r := by linarith only [ha0, r0]
  have s1 : (a : ℚ) + r ≤ 2 ^ 16 := by linarith only [ha', r3, d1]
  have s2 := rndQ_err (x := (a : ℚ) + r) (B := 2 ^ 16) (by rw [abs_of_nonneg s0]; exact s1)
    (le_trans tiny (by norm_num))
  refine ⟨rndQ (a + r), add_fin (by rw [abs_of_nonneg s0]; linarith only [s1]), isF_rndQ _,
    rndQ_nonneg s0, ?_⟩
  obtain ⟨s3, s4⟩ := abs_le.1 s2
  rw [eps_val] at s3 s4
  have h36 : (2 : ℚ) ^ (-36 : ℤ) = 1 / 68719476736 := by norm_num
  rw [h36, abs_le]
  constructor <;> linarith only [s3, s4, r2, r3]

/-- What is assumed of measuring holds for the functions of `statrs`, if the runs are not too many
and too long: for five runs, if none takes longer than 5 242 seconds. -/
theorem statrs_measureSpec {clock : ℕ → ℕ → ℕ} {runs t : ℕ} (hc : ∀ m i, clock m i ≤ t)
    (h0 : runs ≠ 0) (h1 : runs ≤ 2 ^ 24) (h2 : runs ^ 2 * t ≤ 2 ^ 17 * 10 ^ 9) :
    MeasureSpec statrsMean statrsStdDev clock runs where
  none := rfl
  finite := statrsMean_finite
  near := by
    intro hr m l hl
    subst hl
    have ht : t ≤ 2 ^ 15 * 10 ^ 9 := by
      have : 2 ^ 2 * t ≤ runs ^ 2 * t := Nat.mul_le_mul_right _ (Nat.pow_le_pow_left hr 2)
      omega
    have hs : ∀ i, ∃ q : ℚ, asSecs (clock m i) = .fin q ∧ IsF q ∧ 0 ≤ q ∧
        |q - clock m i / 10 ^ 9| ≤ 2 ^ (-36 : ℤ) := fun i => secs_err (by have := hc m i; omega)
    choose f hf using hs
    have e : (List.range runs).map (fun i => asSecs (clock m i)) =
        ((List.range runs).map f).map .fin := by
      rw [List.map_map]
      exact List.map_congr_left fun i _ => (hf i).1
    have h36 : (2 : ℚ) ^ (-36 : ℤ) = 1 / 68719476736 := by norm_num
    have hshort : Short runs ((t : ℚ) / 10 ^ 9 + 2 ^ (-36 : ℤ)) := by
      refine ⟨hr, h1, ?_, ?_⟩
      · have : (2 : ℚ) ^ (-100 : ℤ) ≤ 2 ^ (-36 : ℤ) := zpow_le_zpow_right₀ (by norm_num) (by norm_num)
        have : (0 : ℚ) ≤ (t : ℚ) / 10 ^ 9 := by positivity
        linarith
      · have e1 : (runs : ℚ) ^ 2 * t ≤ 2 ^ 17 * 10 ^ 9 := by exact_mod_cast h2
        have e2 : (runs : ℚ) ^ 2 ≤ (2 ^ 24) ^ 2 :=
          pow_le_pow_left₀ (Nat.cast_nonneg _) (by exact_mod_cast h1) 2
        rw [h36]
        linarith only [e1, e2]
    rw [e]
    obtain ⟨x, hx, hle⟩ := near_list hshort (l := (List.range runs).map f) (by simp) (by
        intro y hy
        obtain ⟨i, _, rfl⟩ := List.mem_map.1 hy
        obtain ⟨_, _, f0, f1⟩ := hf i
        have hci : (clock m i : ℚ) ≤ t := by exact_mod_cast hc m i
        refine ⟨f0, ?_⟩
        have := (abs_le.1 f1).2
        linarith) (by
        intro y hy
        obtain ⟨i, _, rfl⟩ := List.mem_map.1 hy
        exact (hf i).2.1) (by
        intro y hy z hz
        obtain ⟨i, _, rfl⟩ := List.mem_map.1 hy
        obtain ⟨j, _, rfl⟩ := List.mem_map.1 hz
        obtain ⟨fi, _, _, f1⟩ := hf i
        obtain ⟨fj, _, _, f2⟩ := hf j
        by_cases hij : clock m i = clock m j
        · left
          rw [hij, fj] at fi
          simpa using fi.symm
        · right
          have : (1 : ℚ) ≤ |(clock m i : ℚ) - clock m j| := by
            have h1 : (1 : ℤ) ≤ |(clock m i : ℤ) - clock m j| :=
              Int.one_le_abs (sub_ne_zero.2 (by exact_mod_cast hij))
            exact_mod_cast h1
          have e1 : |(clock m i : ℚ) - clock m j| ≤
              10 ^ 9 * (|f i - f j| + 2 * 2 ^ (-36 : ℤ)) := by
            obtain ⟨f11, f12⟩ := abs_le.1 f1
            obtain ⟨f21, f22⟩ := abs_le.1 f2
            rw [h36] at f11 f12 f21 f22 ⊢
            have := neg_abs_le (f i - f j)
            have := le_abs_self (f i - f j)
            rw [abs_le]; constructor <;> linarith
          have h30 : (2 : ℚ) ^ (-30 : ℤ) = 1 / 1073741824 := by norm_num
          rw [h36] at e1
          rw [h30]
          linarith)
    exact ⟨.fin x, List.mem_map.2 ⟨x, hx, rfl⟩, hle⟩
  clock := by
    intro m i
    have := hc m i
    have : 1 * t ≤ runs ^ 2 * t := Nat.mul_le_mul_right _ (Nat.one_le_pow _ _ (Nat.pos_of_ne_zero h0))
    omega

end Cli
end Poppy
