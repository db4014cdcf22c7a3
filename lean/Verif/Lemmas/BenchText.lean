import Verif.Lemmas.Bench
import Verif.Lemmas.Accuracy
import Verif.Model.Main

/-! Helper lemmas for what `bench` prints. -/

namespace Poppy

open Spec Cli

theorem length_benchMutate (rng : BenchRng) (m i : ℕ) (e : List U8) :
    (benchMutate rng m i e).2.length = e.length := by
  unfold benchMutate
  split <;> simp

/-- Mutating keeps the length of the lines. -/
theorem bytes_benchLines (rng : BenchRng) (es : List (List U8)) (n m : ℕ) :
    ((benchLines rng es n m).map fun l => l.2.length).sum = total (es.take n) := by
  unfold benchLines total
  congr 1
  apply List.ext_getElem
  · simp
  · intro i h1 h2
    simp [length_benchMutate]

theorem Cli.Log.bind_ok {α β : Type} (out : List String) (a : α) (f : α → Log β) :
    ((⟨out, .ok a⟩ : Log α) >>= f) = ⟨out ++ (f a).out, (f a).res⟩ := rfl

theorem rneInt_eq {y : ℚ} {k : ℤ} (h : |y - k| < 1 / 2) : rneInt y = k := by
  have h1 := lt_of_le_of_lt (rneInt_nearest y k) h
  rw [abs_lt] at h h1
  have h2 : (rneInt y : ℚ) < k + 1 := by linarith [h.1, h1.2]
  have h3 : (k : ℚ) < rneInt y + 1 := by linarith [h.2, h1.1]
  have h4 : rneInt y < k + 1 := by exact_mod_cast h2
  have h5 : k < rneInt y + 1 := by exact_mod_cast h3
  omega

/-- The absolute error of rounding numbers below a power of two. -/
theorem rndQ_abs {x c : ℚ} (h0 : 0 ≤ x) (hc : x ≤ c) (hx : x = 0 ∨ (2 : ℚ) ^ (-1022 : ℤ) ≤ x) :
    |rndQ x - x| ≤ 2 ^ (-53 : ℤ) * c := by
  have hp : (0 : ℚ) ≤ 2 ^ (-53 : ℤ) := by positivity
  rcases hx with rfl | hx
  · have : rndQ (0 : ℚ) = 0 := by simpa using rndQ_of_isF (K := ℚ) isF_zero
    rw [this, sub_zero, abs_zero]
    exact mul_nonneg hp hc
  · have := rndQ_rel x (by rwa [abs_of_nonneg h0])
    rw [abs_of_nonneg h0] at this
    simp only [Rat.cast_id] at this
    exact le_trans this (mul_le_mul_of_nonneg_left hc hp)

theorem rneInt_half (y : ℚ) : |y - rneInt y| ≤ 1 / 2 :=
  le_trans (rneInt_nearest y (round y)) (abs_sub_round y)

theorem rneInt_nonneg {y : ℚ} (h : 0 ≤ y) : 0 ≤ rneInt y := by
  have h1 := (abs_le.1 (rneInt_half y)).2
  by_contra hc
  have h2 : rneInt y ≤ -1 := by omega
  have h3 : (rneInt y : ℚ) ≤ -1 := by exact_mod_cast h2
  linarith

/-- The error of `as_secs_f64`. -/
theorem secs_near {a n : ℕ} {g : ℚ} (hg : 0 < g) (hgu : g ≤ 2 ^ (1022 : ℤ)) (ha : a < 2 ^ 22)
    (hn : n ≤ 2 ^ 53) (hng : (n : ℚ) ≤ g) :
    ∃ q : ℚ, FVal.add (FVal.ofU64 (BitVec.ofNat 64 a))
      (FVal.div (FVal.ofU64 (BitVec.ofNat 64 n)) (.fin g)) = .fin q ∧ 0 ≤ q ∧
      |q - (a + n / g)| ≤ 2 ^ (-53 : ℤ) * (2 ^ 22 + 1) := by
  obtain ⟨q, hq, _, q0, _⟩ := secs_isSecs hg (lt_of_lt_of_le ha (by norm_num)) hn hng
  refine ⟨q, hq, q0, ?_⟩
  have e : ∀ k : ℕ, k ≤ 2 ^ 53 → FVal.ofU64 (BitVec.ofNat 64 k) = .fin (k : ℚ) := by
    intro k hk
    rw [rnd_fin_u64, BitVec.toNat_ofNat, Nat.mod_eq_of_lt (by omega)]
    have h2 := rndQ_of_isF (K := ℚ) (isF_nat hk)
    simp only [Rat.cast_id] at h2
    rw [h2]
  have l1 : (1 : ℚ) < f64Huge := by simpa using two_pow_lt_f64Huge (n := 0) (by norm_num)
  have l22 : (2 : ℚ) ^ 22 < f64Huge := two_pow_lt_f64Huge (by norm_num)
  have i22 : IsF ((2 : ℚ) ^ 22) := by simpa using isF_two_zpow (e := 22) (by norm_num)
  have hq0 : (0 : ℚ) ≤ (n : ℚ) / g := div_nonneg (Nat.cast_nonneg n) hg.le
  have hq1 : (n : ℚ) / g ≤ 1 := (div_le_one hg).2 hng
  have hsmall : (n : ℚ) / g = 0 ∨ (2 : ℚ) ^ (-1022 : ℤ) ≤ (n : ℚ) / g := by
    rcases Nat.eq_zero_or_pos n with h | h
    · left; rw [h]; simp
    · right
      have h1 : (1 : ℚ) ≤ n := by exact_mod_cast h
      rw [le_div_iff₀ hg, zpow_neg]
      refine le_trans ?_ h1
      rw [inv_mul_le_iff₀ (two_zpow_pos _), mul_one]
      exact hgu
  have d1 := (rnd_fin (K := ℚ) isF_one l1 (x := (n : ℚ) / g) (by
    rw [abs_of_nonneg hq0]; simpa using hq1)).1
  have hd : FVal.div (.fin (n : ℚ)) (.fin g) = .fin (rndQ ((n : ℚ) / g)) := by
    show (if g = 0 then _ else rnd _) = _
    rw [if_neg hg.ne', d1]
  have r0 := le_rndQ ((n : ℚ) / g) isF_zero (by simpa using hq0)
  have r1 := rndQ_le ((n : ℚ) / g) isF_one (by simpa using hq1)
  have r2 := rndQ_abs hq0 hq1 hsmall
  have hsmall' : rndQ ((n : ℚ) / g) = 0 ∨ (2 : ℚ) ^ (-1022 : ℤ) ≤ rndQ ((n : ℚ) / g) := by
    rcases hsmall with h | h
    · left
      rw [h]
      simpa using rndQ_of_isF (K := ℚ) isF_zero
    · right
      exact le_rndQ _ (isF_two_zpow (by norm_num)) (by simpa using h)
  have hs0 : (0 : ℚ) ≤ (a : ℚ) := Nat.cast_nonneg a
  have hs' : (a : ℚ) ≤ 2 ^ 22 - 1 := by
    have : (a : ℚ) + 1 ≤ 2 ^ 22 := by exact_mod_cast ha
    linarith
  rw [e a (by omega), e n hn, hd] at hq
  generalize rndQ ((n : ℚ) / g) = s at *
  have hb : (a : ℚ) + s ≤ 2 ^ 22 := by linarith
  have hs1 : (a : ℚ) + s = 0 ∨ (2 : ℚ) ^ (-1022 : ℤ) ≤ a + s := by
    rcases Nat.eq_zero_or_pos a with h | h
    · rw [h, Nat.cast_zero, zero_add]
      exact hsmall'
    · right
      have h1 : (1 : ℚ) ≤ a := by exact_mod_cast h
      have h2 : (2 : ℚ) ^ (-1022 : ℤ) ≤ 1 := zpow_le_one_of_nonpos₀ (by norm_num) (by norm_num)
      linarith
  have hq' : FVal.fin q = .fin (rndQ ((a : ℚ) + s)) := by
    rw [← hq]
    exact (rnd_fin (K := ℚ) i22 l22 (by
      rw [abs_of_nonneg (by linarith)]
      push_cast
      linarith)).1
  rw [FVal.fin.inj hq']
  have r3 := rndQ_abs (by linarith) hb hs1
  have : rndQ ((a : ℚ) + s) - (a + n / g) = (rndQ ((a : ℚ) + s) - (a + s)) + (s - n / g) := by ring
  rw [this]
  refine le_trans (abs_add_le _ _) ?_
  rw [mul_add]
  exact add_le_add r3 r2

/-- From nanoseconds to seconds and back. -/
theorem fromSecs_asSecs {ns : ℕ} (h : ns < 2 ^ 22 * 10 ^ 9) : fromSecs (asSecs ns) = .ok ns := by
  have hn : ns % 10 ^ 9 < 10 ^ 9 := Nat.mod_lt _ (by norm_num)
  obtain ⟨q, hq, q0, hb⟩ := secs_near (a := ns / 10 ^ 9) (n := ns % 10 ^ 9) (g := 10 ^ 9)
    (by norm_num) (le_trans (by norm_num : (10 : ℚ) ^ 9 ≤ 2 ^ (30 : ℤ))
      (zpow_le_zpow_right₀ (by norm_num) (by norm_num))) ((Nat.div_lt_iff_lt_mul (by norm_num)).2 h)
    (le_trans hn.le (by norm_num)) (by exact_mod_cast hn.le)
  have hsum : (((ns / 10 ^ 9 : ℕ) : ℚ) + ((ns % 10 ^ 9 : ℕ) : ℚ) / 10 ^ 9) * 10 ^ 9 = ns := by
    rw [add_mul, div_mul_cancel₀ _ (by norm_num)]
    have := Nat.div_add_mod' ns (10 ^ 9)
    exact_mod_cast this
  have hr : rneInt (q * 10 ^ 9) = (ns : ℤ) := by
    apply rneInt_eq
    rw [Int.cast_natCast, ← hsum, ← sub_mul, abs_mul, abs_of_pos (by norm_num : (0 : ℚ) < 10 ^ 9)]
    refine lt_of_le_of_lt (mul_le_mul_of_nonneg_right hb (by norm_num)) ?_
    norm_num
  unfold asSecs
  rw [hq]
  unfold fromSecs
  simp only
  rw [if_neg (not_lt.2 q0), hr, Int.toNat_natCast, if_neg]
  have : (2 : ℕ) ^ 22 * 10 ^ 9 ≤ 2 ^ 64 * 10 ^ 9 := by norm_num
  omega

/-- What is measured. -/
theorem isDuration_of {mc : Measure} {runs m d : ℕ} (h : benchmark mc runs m = .ok d) :
    IsDuration mc runs m d := by
  unfold benchmark at h
  constructor
  · intro hr hlt
    rw [if_pos hr, fromSecs_asSecs hlt] at h
    exact (Res.ok.inj h).symm
  · rintro hr times rfl
    rw [if_neg hr] at h
    simp only at h
    generalize mc.mean (List.filter _ _) = x at h ⊢
    cases x with
    | nan => cases h
    | pinf => cases h
    | ninf => cases h
    | fin q =>
      unfold fromSecs at h
      simp only at h
      split_ifs at h with h1 h2
      refine ⟨q, ?_, rfl⟩
      rw [← Res.ok.inj h]
      have h3 : (((rneInt (q * 10 ^ 9)).toNat : ℕ) : ℚ) = ((rneInt (q * 10 ^ 9) : ℤ) : ℚ) := by
        have := Int.toNat_of_nonneg (rneInt_nonneg (mul_nonneg (not_lt.1 h1) (by norm_num : (0:ℚ) ≤ 10 ^ 9)))
        exact_mod_cast this
      rw [h3, abs_sub_comm]
      exact rneInt_half _

end Poppy
