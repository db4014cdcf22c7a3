import Verif.Lemmas.Statrs

/-! Helper lemmas for `utils::benchmark`. -/

namespace Poppy
namespace Cli

variable {n : ℕ} {T : ℚ}

/-- The number of seconds as computed. -/
def secQ (ns : ℕ) : ℚ := match asSecs ns with
  | .fin q => q
  | _ => 0

theorem secQ_spec {ns : ℕ} (h : ns ≤ 2 ^ 15 * 10 ^ 9) :
    asSecs ns = .fin (secQ ns) ∧ IsF (secQ ns) ∧ 0 ≤ secQ ns ∧
      |secQ ns - ns / 10 ^ 9| ≤ 1 / 68719476736 := by
  obtain ⟨q, h1, h2⟩ := secs_err (Nat.lt_succ_of_le h)
  have : secQ ns = q := by unfold secQ; rw [h1]
  rw [this]
  refine ⟨h1, h2.1, h2.2.1, ?_⟩
  have h36 : (2 : ℚ) ^ (-36 : ℤ) = 1 / 68719476736 := by norm_num
  rw [← h36]
  exact h2.2.2

/-- Runs of at most `t` nanoseconds each: `n` runs, and `n² t` at most `c` seconds. -/
structure Runs (n t c : ℕ) (cs : List ℕ) : Prop where
  len : cs.length = n
  two : 2 ≤ n
  le : n ≤ 2 ^ 24
  prod : n ^ 2 * t ≤ c * 10 ^ 9
  all : ∀ x ∈ cs, x ≤ t

variable {t c : ℕ} {cs : List ℕ}

/-- The longest run in seconds, with the error of `as_secs_f64`. -/
def longest (t : ℕ) : ℚ := t / 10 ^ 9 + 1 / 68719476736

theorem Runs.t15 (h : Runs n t c cs) (hc : c ≤ 2 ^ 17) : t ≤ 2 ^ 15 * 10 ^ 9 := by
  have h1 : 2 ^ 2 * t ≤ n ^ 2 * t := Nat.mul_le_mul_right _ (Nat.pow_le_pow_left h.two 2)
  have := h.prod
  omega

theorem Runs.prodQ (h : Runs n t c cs) : (n : ℚ) ^ 2 * longest t ≤ c + 2 ^ 12 := by
  have e1 : (n : ℚ) ^ 2 * t ≤ c * 10 ^ 9 := by exact_mod_cast h.prod
  have e2 : (n : ℚ) ^ 2 ≤ (2 ^ 24) ^ 2 :=
    pow_le_pow_left₀ (Nat.cast_nonneg _) (by exact_mod_cast h.le) 2
  unfold longest
  linarith only [e1, e2]

theorem Runs.short (h : Runs n t c cs) (hc : c ≤ 2 ^ 17) : Short n (longest t) := by
  refine ⟨h.two, h.le, ?_, ?_⟩
  · have h1 : (2 : ℚ) ^ (-100 : ℤ) ≤ 1 / 68719476736 := by norm_num
    have h2 : (0 : ℚ) ≤ (t : ℚ) / 10 ^ 9 := by positivity
    unfold longest
    linarith only [h1, h2]
  · have h1 := h.prodQ
    have h2 : (c : ℚ) ≤ 2 ^ 17 := by exact_mod_cast hc
    linarith only [h1, h2]

theorem Runs.times (h : Runs n t c cs) (hc : c ≤ 2 ^ 17) :
    cs.map asSecs = (cs.map secQ).map .fin := by
  rw [List.map_map]
  exact List.map_congr_left fun x hx => (secQ_spec (le_trans (h.all x hx) (h.t15 hc))).1

theorem Runs.bounds (h : Runs n t c cs) (hc : c ≤ 2 ^ 17) :
    ∀ y ∈ cs.map secQ, 0 ≤ y ∧ y ≤ longest t := by
  intro y hy
  obtain ⟨x, hx, rfl⟩ := List.mem_map.1 hy
  obtain ⟨_, _, f0, f1⟩ := secQ_spec (le_trans (h.all x hx) (h.t15 hc))
  have hci : (x : ℚ) ≤ t := by exact_mod_cast h.all x hx
  refine ⟨f0, ?_⟩
  have := (abs_le.1 f1).2
  unfold longest
  linarith only [this, hci]

/-- Distinct times stay distinct in seconds. -/
theorem secQ_dist {x y : ℕ} (hx : x ≤ 2 ^ 15 * 10 ^ 9) (hy : y ≤ 2 ^ 15 * 10 ^ 9) :
    secQ x = secQ y ∨ 2 ^ (-30 : ℤ) ≤ |secQ x - secQ y| := by
  obtain ⟨_, _, _, f1⟩ := secQ_spec hx
  obtain ⟨_, _, _, f2⟩ := secQ_spec hy
  by_cases hij : x = y
  · left; rw [hij]
  · right
    have h0 : (1 : ℚ) ≤ |(x : ℚ) - y| := by
      have h1 : (1 : ℤ) ≤ |(x : ℤ) - y| := Int.one_le_abs (sub_ne_zero.2 (by exact_mod_cast hij))
      exact_mod_cast h1
    have e1 : |(x : ℚ) - y| ≤ 10 ^ 9 * (|secQ x - secQ y| + 2 * (1 / 68719476736)) := by
      obtain ⟨f11, f12⟩ := abs_le.1 f1
      obtain ⟨f21, f22⟩ := abs_le.1 f2
      have := neg_abs_le (secQ x - secQ y)
      have := le_abs_self (secQ x - secQ y)
      rw [abs_le]; constructor <;> linarith
    have h30 : (2 : ℚ) ^ (-30 : ℤ) = 1 / 1073741824 := by norm_num
    rw [h30]
    linarith

/-- One of the times is kept. -/
theorem Runs.near (h : Runs n t c cs) (hc : c ≤ 2 ^ 17) :
    ∃ x ∈ cs, FVal.le (FVal.abs (FVal.sub (asSecs x) (statrsMean (cs.map asSecs))))
      (FVal.mul (.fin 3) (statrsStdDev (cs.map asSecs))) = true := by
  obtain ⟨y, hy, hle⟩ := near_list (h.short hc) (l := cs.map secQ) (by simp [h.len]) (h.bounds hc) (by
      intro y hy
      obtain ⟨x, hx, rfl⟩ := List.mem_map.1 hy
      exact (secQ_spec (le_trans (h.all x hx) (h.t15 hc))).2.1) (by
      intro y hy z hz
      obtain ⟨x, hx, rfl⟩ := List.mem_map.1 hy
      obtain ⟨w, hw, rfl⟩ := List.mem_map.1 hz
      exact secQ_dist (le_trans (h.all x hx) (h.t15 hc)) (le_trans (h.all w hw) (h.t15 hc)))
  obtain ⟨x, hx, rfl⟩ := List.mem_map.1 hy
  refine ⟨x, hx, ?_⟩
  rw [h.times hc, (secQ_spec (le_trans (h.all x hx) (h.t15 hc))).1]
  exact hle

theorem sum_secQ {l : List ℕ} (h : ∀ x ∈ l, x ≤ 2 ^ 15 * 10 ^ 9) :
    |(l.map secQ).sum - ((l.sum : ℕ) : ℚ) / 10 ^ 9| ≤ (l.length : ℚ) * (1 / 68719476736) := by
  induction l with
  | nil => simp
  | cons x l ih =>
    obtain ⟨i1, i2⟩ := abs_le.1 (ih fun y hy => h y (List.mem_cons_of_mem _ hy))
    obtain ⟨_, _, _, f1⟩ := secQ_spec (h x (List.mem_cons_self ..))
    obtain ⟨f2, f3⟩ := abs_le.1 f1
    simp only [List.map_cons, List.sum_cons, List.length_cons, Nat.cast_add, Nat.cast_one]
    rw [abs_le]; constructor <;> linarith only [i1, i2, f2, f3]

/-- The mean of some of the times, as a duration, is the exact mean but for rounding. -/
theorem Runs.mean (h : Runs n t c cs) (hc : c ≤ 2 ^ 17) {l : List ℕ} (hl : l ≠ [])
    (hsub : ∀ x ∈ l, x ∈ cs) (hlen : l.length ≤ n) :
    ∃ d : ℕ, fromSecs (statrsMean (l.map asSecs)) = .ok d ∧
      |(d : ℚ) - ((l.sum : ℕ) : ℚ) / l.length| ≤ 7 / 10 := by
  have hall : ∀ x ∈ l, x ≤ 2 ^ 15 * 10 ^ 9 := fun x hx => le_trans (h.all x (hsub x hx)) (h.t15 hc)
  have e : l.map asSecs = (l.map secQ).map .fin := by
    rw [List.map_map]
    exact List.map_congr_left fun x hx => (secQ_spec (hall x hx)).1
  obtain ⟨μ, hμ, hμe⟩ := mean_loop (h.short hc) (xs := l.map secQ) (by
    intro y hy
    obtain ⟨x, hx, rfl⟩ := List.mem_map.1 hy
    exact h.bounds hc _ (List.mem_map.2 ⟨x, hsub x hx, rfl⟩)) (by simpa using hlen)
  have hm : statrsMean (l.map asSecs) = .fin μ := by
    unfold statrsMean
    rw [if_neg (by simpa using hl), e, hμ]
  obtain ⟨q, hq, q0, q1⟩ := statrsMean_finite (l.map asSecs) (by simpa using hl) (by
    intro y hy
    obtain ⟨x, hx, rfl⟩ := List.mem_map.1 hy
    exact asSecs_isSecs (lt_of_le_of_lt (hall x hx) (by norm_num)))
  rw [hm] at hq
  have hqμ : q = μ := by simpa using hq.symm
  subst hqμ
  rw [hm]
  have hL : (0 : ℚ) < l.length := by exact_mod_cast List.length_pos_iff.2 hl
  -- the exact mean in seconds
  have hs := sum_secQ hall
  have h1 : |(l.map secQ).sum / l.length - ((l.sum : ℕ) : ℚ) / l.length / 10 ^ 9| ≤ 1 / 68719476736 := by
    have e1 : (l.map secQ).sum / l.length - ((l.sum : ℕ) : ℚ) / l.length / 10 ^ 9 =
        ((l.map secQ).sum - ((l.sum : ℕ) : ℚ) / 10 ^ 9) / l.length := by ring
    rw [e1, abs_div, abs_of_pos hL, div_le_iff₀ hL]
    linarith only [hs]
  rw [List.length_map] at hμe
  have h2 : 10 * (l.length : ℚ) * (eps * longest t) ≤ 15 / 100 / 10 ^ 9 := by
    have hS := h.short hc
    have a1 := hS.NT
    have a2 : (l.length : ℚ) ≤ n := by exact_mod_cast hlen
    have a3 : (l.length : ℚ) * longest t ≤ n * longest t := mul_le_mul_of_nonneg_right a2 hS.T0.le
    rw [show 10 * (l.length : ℚ) * (eps * longest t) = 10 * (eps * (l.length * longest t)) by ring,
      eps_val]
    linarith only [a1, a3]
  obtain ⟨b1, b2⟩ := abs_le.1 hμe
  obtain ⟨b3, b4⟩ := abs_le.1 h1
  generalize (l.map secQ).sum / (l.length : ℚ) = u at b1 b2 b3 b4
  generalize 10 * (l.length : ℚ) * (eps * longest t) = w at b1 b2 h2
  obtain ⟨M, hM⟩ : ∃ M : ℚ, M = ((l.sum : ℕ) : ℚ) / l.length := ⟨_, rfl⟩
  rw [← hM] at b3 b4 ⊢
  obtain ⟨d, hd⟩ := fromSecs_ok q0 q1
  refine ⟨d, hd, ?_⟩
  have hd' : d = (rneInt (q * 10 ^ 9)).toNat := by
    unfold fromSecs at hd
    simp only at hd
    split_ifs at hd
    simpa using hd.symm
  have hr := rneInt_half (q * 10 ^ 9)
  have hr0 : 0 ≤ rneInt (q * 10 ^ 9) := rneInt_nonneg (by positivity)
  generalize rneInt (q * 10 ^ 9) = r at hr hr0 hd'
  have hdr : (d : ℚ) = r := by
    rw [hd']
    have : ((r.toNat : ℤ) : ℚ) = r := by rw [Int.toNat_of_nonneg hr0]
    rw [← this]
    norm_cast
  rw [hdr]
  obtain ⟨r1, r2⟩ := abs_le.1 hr
  rw [abs_le]; constructor <;> linarith only [r1, r2, b1, b2, b3, b4, h2]

/-- The mean, the standard deviation and the distances as computed, against the exact ones. -/
theorem dev_data (h : Short n T) {l : List ℚ} (hl : l.length = n) (hx : ∀ y ∈ l, 0 ≤ y ∧ y ≤ T) :
    ∃ μ q : ℚ, statrsMean (l.map .fin) = .fin μ ∧ statrsStdDev (l.map .fin) = FVal.sqrt (.fin q) ∧
      0 ≤ q ∧ q ≤ 2 ^ 66 ∧
      (∀ E τ : ℚ, E = (4 * eps * ((n : ℚ) ^ 2 * T)) ^ 2 → 0 < τ → τ < 1 →
        (1 - 1 / 2 ^ 26) * ((1 - τ) * devSum (l.sum / n) l - (1 / τ - 1) * E) - 1 / 2 ^ 200
          ≤ (n - 1) * q ∧
        (n - 1) * q ≤ (1 + 1 / 2 ^ 26) * ((1 + τ) * devSum (l.sum / n) l + (1 / τ + 1) * E)
          + 1 / 2 ^ 200) ∧
      ∀ x ∈ l, FVal.abs (FVal.sub (.fin x) (.fin μ)) = .fin |rndQ (x + -μ)| ∧
        IsF |rndQ (x + -μ)| ∧ |(|rndQ (x + -μ)| - |x - l.sum / n|)| ≤ 12 * n * (eps * T) := by
  obtain ⟨x₀, xs, rfl⟩ : ∃ x xs, l = x :: xs := by
    cases l with
    | nil => have := h.two; simp at hl; omega
    | cons x xs => exact ⟨x, xs, rfl⟩
  obtain ⟨q, hq, q0, q1, hvar⟩ := variance_bounds h hx (by simpa using hl)
  obtain ⟨μ, hμ, hμe⟩ := mean_loop h hx hl.le
  have hsd : statrsStdDev ((x₀ :: xs).map .fin) = FVal.sqrt (.fin q) := by
    unfold statrsStdDev; rw [hq]
  have hmean : statrsMean ((x₀ :: xs).map .fin) = .fin μ := by
    unfold statrsMean
    rw [if_neg (by simp), hμ]
  have hT := h.T0
  have hT16 := h.T16
  have hN2 := h.N2
  have hN24 := h.N24
  refine ⟨μ, q, hmean, hsd, q0, q1, fun E τ hE τ0 τ1 => hvar _ E τ (by rw [List.sum_cons]) hE τ0 τ1,
    fun x hxl => ?_⟩
  obtain ⟨x0, x1⟩ := hx x hxl
  obtain ⟨S0, S1⟩ := sum_bounds hx
  rw [hl] at hμe S1
  have hn0 : (0 : ℚ) < n := by linarith only [hN2]
  have hm0 : 0 ≤ (x₀ :: xs).sum / n := div_nonneg S0 hn0.le
  have hm1 : (x₀ :: xs).sum / n ≤ T := by
    rw [div_le_iff₀ hn0]; linarith only [S1]
  generalize (x₀ :: xs).sum / (n : ℚ) = m at hμe hm0 hm1
  obtain ⟨μ1, μ2⟩ := abs_le.1 hμe
  have hεT0 : 0 < eps * T := mul_pos (two_zpow_pos _) hT
  have hεT : 2 ^ 29 * (eps * T) ≤ T := by rw [eps_val]; linarith only [hT]
  have hnε : 10 * n * (eps * T) ≤ T := by
    have : n * (eps * T) ≤ 2 ^ 24 * (eps * T) := mul_le_mul_of_nonneg_right hN24 hεT0.le
    linarith only [this, hεT, hεT0]
  have a1 : |x + -μ| ≤ 3 * T := by
    rw [abs_le]; constructor <;> linarith only [μ1, μ2, hm0, hm1, hnε, x0, x1]
  have b1 := rndQ_err a1 (by
    have h3 : (2 : ℚ) ^ (-1022 : ℤ) ≤ 2 ^ (-100 : ℤ) :=
      zpow_le_zpow_right₀ (by norm_num) (by norm_num)
    have := h.pos
    linarith only [h3, this, hT])
  rw [sub_fin (le_trans a1 (by linarith only [hT16]))]
  refine ⟨rfl, ?_, ?_⟩
  · rcases abs_choice (rndQ (x + -μ)) with hh | hh
    · rw [hh]; exact isF_rndQ _
    · rw [hh]; exact isF_neg (isF_rndQ _)
  · refine le_trans (abs_abs_sub_abs_le _ _) ?_
    have e1 : rndQ (x + -μ) - (x - m) = (rndQ (x + -μ) - (x + -μ)) + (m - μ) := by ring
    rw [e1]
    refine le_trans (abs_add_le _ _) ?_
    have e2 : |m - μ| ≤ 10 * n * (eps * T) := by rw [abs_sub_comm]; exact hμe
    have e3 : 2 * (eps * T) ≤ n * (eps * T) := mul_le_mul_of_nonneg_right hN2 hεT0.le
    linarith only [e2, e3, b1, hεT0]

/-- A sum of squared distances is smallest at the mean. -/
theorem devSum_le (p : ℚ) {l : List ℚ} (hl : l.length = n) (hn : (0 : ℚ) < n) :
    devSum (l.sum / n) l ≤ devSum p l := by
  rw [devSum_eq, devSum_eq, hl]
  obtain ⟨m, hm⟩ : ∃ m : ℚ, m = l.sum / n := ⟨_, rfl⟩
  have hS : l.sum = n * m := by rw [hm, mul_div_cancel₀ _ hn.ne']
  rw [← hm, hS]
  nlinarith only [mul_nonneg hn.le (sq_nonneg (p - m))]

/-- No value is farther from the mean than `√(V (n - 1) / n)`. -/
theorem devSum_max {l : List ℚ} (hl : l.length = n) (hn : 2 ≤ n) {x : ℚ} (hx : x ∈ l) :
    n * (x - l.sum / n) ^ 2 ≤ (n - 1) * devSum (l.sum / n) l := by
  obtain ⟨l₁, l₂, rfl⟩ := List.append_of_mem hx
  have hn' : (2 : ℚ) ≤ n := by exact_mod_cast hn
  have hn0 : (0 : ℚ) < n := by linarith only [hn']
  have hk : (l₁ ++ l₂).length = n - 1 := by
    simp only [List.length_append, List.length_cons] at hl ⊢; omega
  have hkq : (((n - 1 : ℕ) : ℕ) : ℚ) = n - 1 := by rw [Nat.cast_sub (by omega)]; norm_num
  obtain ⟨m, hm⟩ : ∃ m : ℚ, m = (l₁ ++ x :: l₂).sum / n := ⟨_, rfl⟩
  have hS : (l₁ ++ l₂).sum = n * m - x := by
    rw [hm, mul_div_cancel₀ _ hn0.ne']
    simp only [List.sum_append, List.sum_cons]
    ring
  have hV : devSum m (l₁ ++ x :: l₂) = (x - m) ^ 2 + devSum m (l₁ ++ l₂) := by
    simp only [devSum, List.map_append, List.map_cons, List.sum_append, List.sum_cons]
    ring
  have h0 : 0 ≤ devSum ((n * m - x) / (n - 1)) (l₁ ++ l₂) := by
    refine List.sum_nonneg fun y hy => ?_
    obtain ⟨z, _, rfl⟩ := List.mem_map.1 hy
    exact sq_nonneg _
  rw [← hm, hV]
  rw [devSum_eq, hS, hk, hkq] at h0
  rw [devSum_eq, hS, hk, hkq]
  have hn1 : (0 : ℚ) < n - 1 := by linarith only [hn']
  generalize sqSum (l₁ ++ l₂) = R at h0 ⊢
  have h1 : R - 2 * ((n * m - x) / (n - 1)) * (n * m - x) + (n - 1) * ((n * m - x) / (n - 1)) ^ 2 =
      R - (n * m - x) ^ 2 / (n - 1) := by
    have := hn1.ne'
    field_simp
    ring
  rw [h1, sub_nonneg, div_le_iff₀ hn1] at h0
  nlinarith only [h0]

/-- With few runs, every time is kept. -/
theorem Runs.all_kept (h : Runs n t (2 ^ 13) cs) (h10 : n ≤ 10) : ∀ x ∈ cs,
    FVal.le (FVal.abs (FVal.sub (asSecs x) (statrsMean (cs.map asSecs))))
      (FVal.mul (.fin 3) (statrsStdDev (cs.map asSecs))) = true := by
  have hc : 2 ^ 13 ≤ 2 ^ 17 := by norm_num
  have hS := h.short hc
  have hL : (cs.map secQ).length = n := by simp [h.len]
  have hbnd := h.bounds hc
  have hsec : ∀ x ∈ cs, x ≤ 2 ^ 15 * 10 ^ 9 := fun x hx => le_trans (h.all x hx) (h.t15 hc)
  by_cases hsame : ∃ a, ∀ x ∈ cs, x = a
  · obtain ⟨a, ha⟩ := hsame
    obtain ⟨y, hy, hle⟩ := h.near hc
    intro x hx
    rw [ha x hx]
    rw [ha y hy] at hle
    exact hle
  obtain ⟨μ, q, hμ, hq, q0, q1, hvar, hdist⟩ := dev_data hS hL hbnd
  rw [h.times hc, hμ, hq]
  intro x hx
  obtain ⟨d1, d2, d3⟩ := hdist (secQ x) (List.mem_map_of_mem hx)
  rw [(secQ_spec (hsec x hx)).1, d1]
  have hmax := devSum_max hL h.two (List.mem_map_of_mem (f := secQ) hx)
  have hgV : 1 / 2 ^ 60 ≤ 4 * devSum ((cs.map secQ).sum / n) (cs.map secQ) := by
    obtain ⟨a, ha⟩ : ∃ a, a ∈ cs := ⟨x, hx⟩
    obtain ⟨b, hb, hne⟩ : ∃ b ∈ cs, b ≠ a := by
      by_contra hcon
      push Not at hcon
      exact hsame ⟨a, hcon⟩
    have hg : 2 ^ (-30 : ℤ) ≤ |secQ b - secQ a| := by
      rcases secQ_dist (hsec b hb) (hsec a ha) with he | he
      · exfalso
        obtain ⟨_, _, _, f1⟩ := secQ_spec (hsec a ha)
        obtain ⟨_, _, _, f2⟩ := secQ_spec (hsec b hb)
        rw [he] at f2
        obtain ⟨f11, f12⟩ := abs_le.1 f1
        obtain ⟨f21, f22⟩ := abs_le.1 f2
        have h1 : (1 : ℤ) ≤ |(b : ℤ) - a| := Int.one_le_abs (sub_ne_zero.2 (by exact_mod_cast hne))
        have h2 : (1 : ℚ) ≤ |(b : ℚ) - a| := by exact_mod_cast h1
        have h3 : |(b : ℚ) - a| ≤ 1 / 2 := by
          rw [abs_le]; constructor <;> linarith only [f11, f12, f21, f22]
        linarith only [h2, h3]
      · exact he
    have h1 : ((2 : ℚ) ^ (-30 : ℤ)) ^ 2 ≤ (secQ b - secQ a) ^ 2 := by
      rw [← sq_abs (secQ b - secQ a)]
      exact pow_le_pow_left₀ (two_zpow_pos _).le hg 2
    have h60 : ((2 : ℚ) ^ (-30 : ℤ)) ^ 2 = 1 / 2 ^ 60 := by norm_num
    have h2 := devSum_mem (m := (cs.map secQ).sum / n) (List.mem_map_of_mem (f := secQ) ha)
    have h3 := devSum_mem (m := (cs.map secQ).sum / n) (List.mem_map_of_mem (f := secQ) hb)
    rw [h60] at h1
    generalize (cs.map secQ).sum / (n : ℚ) = m at h2 h3 ⊢
    nlinarith only [h1, h2, h3, sq_nonneg (secQ a - m + (secQ b - m))]
  have hvq := (hvar _ (1 / 64) rfl (by norm_num) (by norm_num)).1
  have hprod := h.prodQ
  have h13 : (((2 ^ 13 : ℕ) : ℕ) : ℚ) = 2 ^ 13 := by norm_num
  rw [h13] at hprod
  have hT := hS.T0
  have hN2 := hS.N2
  have hn10 : (n : ℚ) ≤ 10 := by exact_mod_cast h10
  have hn0 : (0 : ℚ) < n := by linarith only [hN2]
  generalize (cs.map secQ).sum / (n : ℚ) = m at hgV hmax d3 hvq
  generalize devSum m (cs.map secQ) = V at hgV hmax hvq
  have e0 : 0 ≤ eps * ((n : ℚ) ^ 2 * longest t) := mul_nonneg (two_zpow_pos _).le (by positivity)
  have e1 : eps * ((n : ℚ) ^ 2 * longest t) ≤ 1 / 2 ^ 39 := by
    rw [eps_val]; linarith only [hprod]
  rw [show 4 * eps * ((n : ℚ) ^ 2 * longest t) = 4 * (eps * ((n : ℚ) ^ 2 * longest t)) by ring] at hvq
  have hδ : n * (12 * n * (eps * longest t)) = 12 * (eps * ((n : ℚ) ^ 2 * longest t)) := by ring
  have hδ0 : 0 ≤ 12 * n * (eps * longest t) :=
    mul_nonneg (by positivity) (mul_nonneg (two_zpow_pos _).le hT.le)
  generalize 12 * (n : ℚ) * (eps * longest t) = δ at hδ hδ0 d3
  generalize eps * ((n : ℚ) ^ 2 * longest t) = e at e0 e1 hvq hδ
  have e2 : e ^ 2 ≤ 1 / 2 ^ 78 := by
    have := pow_le_pow_left₀ e0 e1 2
    rw [div_pow, one_pow, ← pow_mul] at this
    exact this
  have hvq' : 968 / 1000 * V ≤ (n - 1) * q := by
    have : (4 * e) ^ 2 = 16 * e ^ 2 := by ring
    rw [this] at hvq
    linarith only [hvq, e2, hgV]
  have hδ2 : (n * δ) ^ 2 ≤ 22 / 10000 * V := by
    rw [hδ]
    have : (12 * e) ^ 2 = 144 * e ^ 2 := by ring
    rw [this]
    linarith only [e2, hgV]
  obtain ⟨a, ha⟩ : ∃ a : ℚ, a = |rndQ (secQ x + -μ)| := ⟨_, rfl⟩
  have ha0 : 0 ≤ a := by rw [ha]; exact abs_nonneg _
  rw [← ha] at d2 d3 ⊢
  have hV0 : 0 < V := by linarith only [hgV]
  have ha2 : a ^ 2 ≤ 33 / 32 * (secQ x - m) ^ 2 + 33 * δ ^ 2 := by
    have h1 : a ≤ |secQ x - m| + δ := by have := (abs_le.1 d3).2; linarith only [this]
    have h2 := pow_le_pow_left₀ ha0 h1 2
    rw [← sq_abs (secQ x - m)]
    nlinarith only [h2, sq_nonneg (|secQ x - m| - 32 * δ)]
  refine threshold_le d2 ha0 q0 q1 ?_ (Or.inr ?_)
  · -- compare after multiplying by n (n - 1)
    have h1 : n * a ^ 2 ≤ 33 / 32 * ((n - 1) * V) + 33 * (n * δ ^ 2) := by
      have := mul_le_mul_of_nonneg_left ha2 hn0.le
      linarith only [this, hmax]
    have h2 : n * δ ^ 2 ≤ 11 / 10000 * V := by
      have h3 : 2 * (n * δ ^ 2) ≤ n * (n * δ ^ 2) :=
        mul_le_mul_of_nonneg_right hN2 (mul_nonneg hn0.le (sq_nonneg δ))
      nlinarith only [h3, hδ2]
    have h4 : (n - 1) * (n * a ^ 2) ≤ (n - 1) * (33 / 32 * ((n - 1) * V) + 363 / 10000 * V) :=
      mul_le_mul_of_nonneg_left (by linarith only [h1, h2]) (by linarith only [hN2])
    have h5 : n * (968 / 1000 * V) ≤ n * ((n - 1) * q) := mul_le_mul_of_nonneg_left hvq' hn0.le
    have h6 : (n - 1) * (33 / 32 * ((n - 1) * V) + 363 / 10000 * V) ≤ 88 / 10 * (n * (968 / 1000 * V)) := by
      nlinarith only [mul_nonneg (mul_nonneg (sub_nonneg.2 hn10) (show (0:ℚ) ≤ n - 1 / 10 by linarith only [hN2])) hV0.le, mul_nonneg hn0.le hV0.le, mul_nonneg (sub_nonneg.2 hn10) hV0.le, hV0]
    have h7 : (n * (n - 1)) * a ^ 2 ≤ (n * (n - 1)) * (88 / 10 * q) := by linarith only [h4, h5, h6]
    exact le_of_mul_le_mul_left h7 (mul_pos hn0 (by linarith only [hN2]))
  · have h1 : (n - 1) * q ≤ 10 * q := mul_le_mul_of_nonneg_right (by linarith only [hn10]) q0
    rw [zpow_200]
    linarith only [h1, hvq', hgV]

/-- A time far away from all the others is not kept. -/
theorem Runs.far {l₁ l₂ : List ℕ} {z : ℕ} {p D : ℚ} (h : Runs n t (2 ^ 17) (l₁ ++ z :: l₂))
    (h15 : 15 ≤ n) (hD : |secQ z - p| = D) (hD0 : 9 / 10 ^ 8 ≤ D)
    (hy : ∀ y ∈ (l₁ ++ l₂).map secQ, |y - p| ≤ D / 101) :
    FVal.le (FVal.abs (FVal.sub (asSecs z) (statrsMean ((l₁ ++ z :: l₂).map asSecs))))
      (FVal.mul (.fin 3) (statrsStdDev ((l₁ ++ z :: l₂).map asSecs))) = false := by
  have hc : 2 ^ 17 ≤ 2 ^ 17 := le_refl _
  have hS := h.short hc
  have hL : ((l₁ ++ z :: l₂).map secQ).length = n := by rw [List.length_map, h.len]
  have hbnd := h.bounds hc
  have hsec : ∀ x ∈ l₁ ++ z :: l₂, x ≤ 2 ^ 15 * 10 ^ 9 := fun x hx => le_trans (h.all x hx) (h.t15 hc)
  obtain ⟨μ, q, hμ, hq, q0, q1, hvar, hdist⟩ := dev_data hS hL hbnd
  rw [h.times hc, hμ, hq]
  have hzm : z ∈ l₁ ++ z :: l₂ := by simp
  obtain ⟨d1, d2, d3⟩ := hdist (secQ z) (List.mem_map_of_mem hzm)
  rw [(secQ_spec (hsec z hzm)).1, d1]
  have hn15 : (15 : ℚ) ≤ n := by exact_mod_cast h15
  have hn0 : (0 : ℚ) < n := by linarith only [hn15]
  have hk : ((l₁ ++ l₂).map secQ).length = n - 1 := by
    have := h.len
    simp only [List.length_map, List.length_append, List.length_cons] at this ⊢; omega
  have hkq : (((n - 1 : ℕ) : ℕ) : ℚ) = n - 1 := by rw [Nat.cast_sub (by omega)]; norm_num
  have key : ∀ l : List ℚ, (∀ y ∈ l, |y - p| ≤ D / 101) →
      devSum p l ≤ l.length * (D / 101) ^ 2 ∧ l.sum ≤ l.length * (p + D / 101) ∧
      l.length * (p - D / 101) ≤ l.sum := by
    intro l
    induction l with
    | nil => intro _; simp [devSum]
    | cons y l ih =>
      intro hl
      obtain ⟨i1, i2, i3⟩ := ih fun z hz => hl z (List.mem_cons_of_mem _ hz)
      have hy := hl y (List.mem_cons_self ..)
      have h1 : (y - p) ^ 2 ≤ (D / 101) ^ 2 := by
        rw [← sq_abs (y - p)]; exact pow_le_pow_left₀ (abs_nonneg _) hy 2
      obtain ⟨h3, h2⟩ := abs_le.1 hy
      simp only [devSum, List.map_cons, List.sum_cons, List.length_cons] at i1 ⊢
      push_cast
      refine ⟨?_, ?_, ?_⟩ <;> linarith only [i1, i2, i3, h1, h2, h3]
  obtain ⟨k1, k2, k3⟩ := key _ hy
  rw [hk, hkq] at k1 k2 k3
  have hDz : (secQ z - p) ^ 2 = D ^ 2 := by rw [← hD, sq_abs]
  have hV : devSum (((l₁ ++ z :: l₂).map secQ).sum / n) ((l₁ ++ z :: l₂).map secQ) ≤
      D ^ 2 + (n - 1) * (D / 101) ^ 2 := by
    refine le_trans (devSum_le p hL hn0) ?_
    have : devSum p ((l₁ ++ z :: l₂).map secQ) = (secQ z - p) ^ 2 + devSum p ((l₁ ++ l₂).map secQ) := by
      simp only [devSum, List.map_append, List.map_cons, List.sum_append, List.sum_cons]
      ring
    rw [this, hDz]
    linarith only [k1]
  have hm : |((l₁ ++ z :: l₂).map secQ).sum / n - p| ≤ D / 15 + D / 101 := by
    have e : ((l₁ ++ z :: l₂).map secQ).sum = secQ z + ((l₁ ++ l₂).map secQ).sum := by
      simp only [List.map_append, List.map_cons, List.sum_append, List.sum_cons]
      ring
    obtain ⟨z1, z2⟩ := abs_le.1 hD.le
    have e3 : 15 * D ≤ n * D := mul_le_mul_of_nonneg_right hn15 (by linarith only [hD0])
    rw [e, abs_le]
    constructor
    · rw [le_sub_iff_add_le, le_div_iff₀ hn0]
      linarith only [k3, e3, hD0, z1]
    · rw [sub_le_iff_le_add, div_le_iff₀ hn0]
      linarith only [k2, e3, hD0, z2]
  have hvq := (hvar _ (1 / 64) rfl (by norm_num) (by norm_num)).2
  have hprod := h.prodQ
  have h17 : (((2 ^ 17 : ℕ) : ℕ) : ℚ) = 2 ^ 17 := by norm_num
  rw [h17] at hprod
  have hT := hS.T0
  generalize ((l₁ ++ z :: l₂).map secQ).sum / (n : ℚ) = m at hV hm d3 hvq
  generalize devSum m ((l₁ ++ z :: l₂).map secQ) = V at hV hvq
  have e0 : 0 ≤ eps * ((n : ℚ) ^ 2 * longest t) := mul_nonneg (two_zpow_pos _).le (by positivity)
  have e1 : eps * ((n : ℚ) ^ 2 * longest t) ≤ 1 / 2 ^ 35 := by
    rw [eps_val]; linarith only [hprod]
  rw [show 4 * eps * ((n : ℚ) ^ 2 * longest t) = 4 * (eps * ((n : ℚ) ^ 2 * longest t)) by ring] at hvq
  have hδ : n * (12 * n * (eps * longest t)) = 12 * (eps * ((n : ℚ) ^ 2 * longest t)) := by ring
  have hδ0 : 0 ≤ 12 * n * (eps * longest t) :=
    mul_nonneg (by positivity) (mul_nonneg (two_zpow_pos _).le hT.le)
  generalize 12 * (n : ℚ) * (eps * longest t) = δ at hδ hδ0 d3
  generalize eps * ((n : ℚ) ^ 2 * longest t) = e at e0 e1 hvq hδ
  have e2 : e ^ 2 ≤ 1 / 2 ^ 70 := by
    have := pow_le_pow_left₀ e0 e1 2
    rw [div_pow, one_pow, ← pow_mul] at this
    exact this
  have hδ2 : δ ≤ 1 / 10 ^ 10 := by
    have : 15 * δ ≤ n * δ := mul_le_mul_of_nonneg_right hn15 hδ0
    linarith only [this, hδ, e1]
  obtain ⟨A, hA⟩ : ∃ A : ℚ, A = |rndQ (secQ z + -μ)| := ⟨_, rfl⟩
  rw [← hA] at d3 ⊢
  have hA1 : 92 / 100 * D ≤ A := by
    have h1 := (abs_le.1 d3).1
    have h2 : D ≤ |secQ z - m| + |m - p| := by
      rw [← hD]
      exact abs_sub_le _ _ _
    linarith only [h1, h2, hm, hδ2, hD0]
  have hD2 : 81 / 10 ^ 16 ≤ D ^ 2 := by
    have := pow_le_pow_left₀ (by norm_num) hD0 2
    norm_num at this ⊢
    exact this
  have hvq' : (n - 1) * q ≤ 102 / 100 * (D ^ 2 + (n - 1) * (D / 101) ^ 2) := by
    have : (4 * e) ^ 2 = 16 * e ^ 2 := by ring
    rw [this] at hvq
    have h0 : 0 ≤ (n - 1) * (D / 101) ^ 2 := mul_nonneg (by linarith only [hn15]) (sq_nonneg _)
    linarith only [hvq, e2, hV, hD2, h0]
  have hA2 : 84 / 100 * D ^ 2 ≤ A ^ 2 := by
    have := pow_le_pow_left₀ (by linarith only [hD0]) hA1 2
    nlinarith only [this, sq_nonneg D]
  refine threshold_lt q0 q1 (by linarith only [hA1, hD0]) (le_trans ?_ hA2)
  have hn1 : (0 : ℚ) < n - 1 := by linarith only [hn15]
  have h7 : (n - 1) * (91 / 10 * q) ≤ (n - 1) * (84 / 100 * D ^ 2) := by
    have : 14 * D ^ 2 ≤ (n - 1) * D ^ 2 := mul_le_mul_of_nonneg_right (by linarith only [hn15]) (sq_nonneg D)
    have h9 : 0 ≤ D ^ 2 := sq_nonneg D
    have h8 : (D / 101) ^ 2 = D ^ 2 / 10201 := by ring
    rw [h8] at hvq'
    nlinarith only [hvq', this, h9]
  exact le_of_mul_le_mul_left h7 hn1

/-- A time far above or far below all the others is not kept. -/
theorem Runs.outlier {l₁ l₂ : List ℕ} {z a b : ℕ} (h : Runs n t (2 ^ 17) (l₁ ++ z :: l₂))
    (h15 : 15 ≤ n) (hab : ∀ x ∈ l₁ ++ l₂, a ≤ x ∧ x ≤ b) (hle : a ≤ b)
    (hz : b + 100 * (b - a) + 100 ≤ z ∨ z + 100 * (b - a) + 100 ≤ a) :
    FVal.le (FVal.abs (FVal.sub (asSecs z) (statrsMean ((l₁ ++ z :: l₂).map asSecs))))
      (FVal.mul (.fin 3) (statrsStdDev ((l₁ ++ z :: l₂).map asSecs))) = false := by
  have hc : 2 ^ 17 ≤ 2 ^ 17 := le_refl _
  have hsec : ∀ x ∈ l₁ ++ z :: l₂, x ≤ 2 ^ 15 * 10 ^ 9 := fun x hx => le_trans (h.all x hx) (h.t15 hc)
  have hzm : z ∈ l₁ ++ z :: l₂ := by simp
  have hleq : (a : ℚ) ≤ b := by exact_mod_cast hle
  obtain ⟨_, _, _, fz⟩ := secQ_spec (hsec z hzm)
  obtain ⟨fz1, fz2⟩ := abs_le.1 fz
  have hoth : ∀ y ∈ (l₁ ++ l₂).map secQ, (a : ℚ) / 10 ^ 9 - 1 / 68719476736 ≤ y ∧
      y ≤ (b : ℚ) / 10 ^ 9 + 1 / 68719476736 := by
    intro y hy
    obtain ⟨x, hx, rfl⟩ := List.mem_map.1 hy
    obtain ⟨xa, xb⟩ := hab x hx
    have xaq : (a : ℚ) ≤ x := by exact_mod_cast xa
    have xbq : (x : ℚ) ≤ b := by exact_mod_cast xb
    obtain ⟨_, _, _, fx⟩ := secQ_spec (hsec x (by
      rcases List.mem_append.1 hx with h1 | h1
      · exact List.mem_append_left _ h1
      · exact List.mem_append_right _ (List.mem_cons_of_mem _ h1)))
    obtain ⟨fx1, fx2⟩ := abs_le.1 fx
    constructor <;> linarith only [fx1, fx2, xaq, xbq]
  rcases hz with hz | hz
  · have hzq : (b : ℚ) + 100 * (b - a) + 100 ≤ z := by
      have : ((b + 100 * (b - a) + 100 : ℕ) : ℚ) ≤ z := by exact_mod_cast hz
      push_cast [Nat.cast_sub hle] at this
      exact this
    refine h.far h15 (p := (a : ℚ) / 10 ^ 9) (D := secQ z - (a : ℚ) / 10 ^ 9) (abs_of_nonneg ?_) ?_ ?_
    · linarith only [fz1, hzq, hleq]
    · linarith only [fz1, hzq, hleq]
    · intro y hy
      obtain ⟨y1, y2⟩ := hoth y hy
      rw [abs_le]; constructor <;> linarith only [y1, y2, fz1, hzq, hleq]
  · have hzq : (z : ℚ) + 100 * (b - a) + 100 ≤ a := by
      have : ((z + 100 * (b - a) + 100 : ℕ) : ℚ) ≤ a := by exact_mod_cast hz
      push_cast [Nat.cast_sub hle] at this
      exact this
    refine h.far h15 (p := (b : ℚ) / 10 ^ 9) (D := (b : ℚ) / 10 ^ 9 - secQ z) ?_ ?_ ?_
    · rw [abs_sub_comm]
      refine abs_of_nonneg ?_
      linarith only [fz2, hzq, hleq]
    · linarith only [fz2, hzq, hleq]
    · intro y hy
      obtain ⟨y1, y2⟩ := hoth y hy
      rw [abs_le]; constructor <;> linarith only [y1, y2, fz2, hzq, hleq]

/-- The runs and their times, when no call fails. -/
theorem timeRuns_ok {σ : Type} (clock : ℕ → ℕ) (f : σ → σ × Res Unit) (s : ℕ → σ) (k i : ℕ)
    (h : ∀ j < k, f (s (i + j)) = (s (i + j + 1), .ok ())) :
    timeRuns clock f k i (s i) =
      (s (i + k), .ok ((List.range' i k).map fun j => asSecs (clock j))) := by
  induction k generalizing i with
  | zero => rfl
  | succ k ih =>
    have h0 := h 0 (Nat.succ_pos _)
    rw [Nat.add_zero] at h0
    have h1 := ih (i + 1) fun j hj => by
      have := h (j + 1) (by omega)
      rw [show i + 1 + j = i + (j + 1) by omega]
      exact this
    simp only [timeRuns, h0, h1, List.range'_succ, List.map_cons]
    rw [show i + 1 + k = i + (k + 1) by omega]

theorem timeRuns_panic {σ : Type} (clock : ℕ → ℕ) (f : σ → σ × Res Unit) (s : ℕ → σ) (x : σ) (k m i : ℕ)
    (h : ∀ j < k, f (s (i + j)) = (s (i + j + 1), .ok ())) (hp : f (s (i + k)) = (x, .panic)) :
    timeRuns clock f (k + 1 + m) i (s i) = (x, .panic) := by
  induction k generalizing i with
  | zero =>
    rw [Nat.add_zero] at hp
    rw [show 0 + 1 + m = m + 1 by omega]
    simp only [timeRuns, hp]
  | succ k ih =>
    have h0 := h 0 (Nat.succ_pos _)
    rw [Nat.add_zero] at h0
    have h1 := ih (i + 1) (fun j hj => by
      have := h (j + 1) (by omega)
      rw [show i + 1 + j = i + (j + 1) by omega]
      exact this) (by rw [show i + 1 + k = i + (k + 1) by omega]; exact hp)
    rw [show k + 1 + 1 + m = (k + 1 + m) + 1 by omega]
    simp only [timeRuns, h0, h1]

theorem benchmarkFn_ok {σ : Type} (clock : ℕ → ℕ) (f : σ → σ × Res Unit) (s : ℕ → σ) (run : ℕ)
    (h : ∀ i < run, f (s i) = (s (i + 1), .ok ())) :
    benchmarkFn clock f run (s 0) =
      (s run, summary run (((List.range run).map clock).map asSecs)) := by
  unfold benchmarkFn
  rw [timeRuns_ok clock f s run 0 (by simpa using h)]
  simp only [Nat.zero_add, List.map_map, List.range_eq_range']
  rfl

/-- What is made of several runs: the mean of some of them, which have the times kept. -/
theorem Runs.summary (h : Runs n t c cs) (hc : c ≤ 2 ^ 17) : ∃ l : List ℕ, ∃ d : ℕ,
    l ≠ [] ∧ l = cs.filter (fun x => FVal.le (FVal.abs (FVal.sub (asSecs x)
      (statrsMean (cs.map asSecs)))) (FVal.mul (.fin 3) (statrsStdDev (cs.map asSecs)))) ∧
    Cli.summary n (cs.map asSecs) = .ok d ∧ |(d : ℚ) - ((l.sum : ℕ) : ℚ) / l.length| ≤ 7 / 10 := by
  obtain ⟨x, hx, hk⟩ := h.near hc
  obtain ⟨l, hl⟩ : ∃ l, l = cs.filter (fun x => FVal.le (FVal.abs (FVal.sub (asSecs x)
      (statrsMean (cs.map asSecs)))) (FVal.mul (.fin 3) (statrsStdDev (cs.map asSecs)))) := ⟨_, rfl⟩
  have hne : l ≠ [] := List.ne_nil_of_mem (by rw [hl]; exact List.mem_filter.2 ⟨hx, hk⟩)
  have hlen : l.length ≤ n := by rw [← h.len, hl]; exact List.length_filter_le _ _
  obtain ⟨d, hd, hd'⟩ := h.mean hc hne (fun y hy => by
    rw [hl] at hy; exact (List.mem_filter.1 hy).1) hlen
  refine ⟨l, d, hne, hl, ?_, hd'⟩
  unfold Cli.summary
  rw [if_neg (by have := h.two; omega)]
  simp only
  rw [List.filter_map]
  rw [hl] at hd
  exact hd

/-- A mean lies between the bounds of the values. -/
theorem mean_between {l : List ℕ} {a b : ℕ} (hne : l ≠ []) (h : ∀ x ∈ l, a ≤ x ∧ x ≤ b) {d : ℕ}
    (hd : |(d : ℚ) - ((l.sum : ℕ) : ℚ) / l.length| ≤ 7 / 10) : a ≤ d ∧ d ≤ b := by
  have hs : l.length * a ≤ l.sum ∧ l.sum ≤ l.length * b := by
    clear hne hd
    induction l with
    | nil => simp
    | cons x l ih =>
      obtain ⟨i1, i2⟩ := ih fun y hy => h y (List.mem_cons_of_mem _ hy)
      obtain ⟨x1, x2⟩ := h x (List.mem_cons_self ..)
      simp only [List.length_cons, List.sum_cons, Nat.add_mul, Nat.one_mul]
      omega
  have hL : (0 : ℚ) < l.length := by exact_mod_cast List.length_pos_iff.2 hne
  have h1 : (a : ℚ) ≤ ((l.sum : ℕ) : ℚ) / l.length := by
    rw [le_div_iff₀ hL]
    have : ((l.length * a : ℕ) : ℚ) ≤ (l.sum : ℕ) := Nat.cast_le.2 hs.1
    rw [Nat.cast_mul] at this
    linarith only [this]
  have h2 : ((l.sum : ℕ) : ℚ) / l.length ≤ b := by
    rw [div_le_iff₀ hL]
    have : ((l.sum : ℕ) : ℚ) ≤ ((l.length * b : ℕ) : ℚ) := Nat.cast_le.2 hs.2
    rw [Nat.cast_mul] at this
    linarith only [this]
  obtain ⟨d1, d2⟩ := abs_le.1 hd
  constructor
  · have : (a : ℚ) < d + 1 := by linarith only [h1, d1]
    have : a < d + 1 := by exact_mod_cast this
    omega
  · have : (d : ℚ) < b + 1 := by linarith only [h2, d2]
    have : d < b + 1 := by exact_mod_cast this
    omega

theorem runs_of {run t c : ℕ} {clock : ℕ → ℕ} (h2 : 2 ≤ run) (h24 : run ≤ 2 ^ 24) (hc : ∀ i < run, clock i ≤ t)
    (ht : run ^ 2 * t ≤ c * 10 ^ 9) : Runs run t c ((List.range run).map clock) where
  len := by simp
  two := h2
  le := h24
  prod := ht
  all := by
    intro x hx
    obtain ⟨i, hi, rfl⟩ := List.mem_map.1 hx
    exact hc i (List.mem_range.1 hi)

end Cli
end Poppy
