import Mathlib.Analysis.Complex.ExponentialBounds
import Mathlib.Analysis.SpecialFunctions.Log.Deriv
import Mathlib.Data.Set.Card
import Mathlib.Data.Nat.ModEq
import Mathlib.Data.Finset.Prod
import Mathlib.Order.Interval.Set.Nat
import Verif.Spec
import Verif.Lemmas.Probe

/-! Counting for filters whose number of bits is a power of two. -/

namespace Poppy

open Spec (fnv1 dcsoChain dcsoMul dcsoProbe)

theorem fnv1_lt (key : List U8) : fnv1 key < 2 ^ 64 := by
  unfold fnv1
  have : ∀ (l : List U8) (h : ℕ), h < 2 ^ 64 →
      l.foldl (fun h b => Nat.xor (h * 0x100000001B3 % 2 ^ 64) b.toNat) h < 2 ^ 64 := by
    intro l
    induction l with
    | nil => intro h hh; exact hh
    | cons b l ih =>
      intro h _
      exact ih _ (Nat.xor_lt_two_pow (Nat.mod_lt _ (by norm_num))
        (lt_trans b.isLt (by norm_num)))
  exact this key _ (by norm_num)

theorem dcsoChain_of_lt {h n : ℕ} (u : ∀ i ≤ n, h * dcsoMul ^ i % 2 ^ 64 < 18446744073709551557)
    (hh : h < 2 ^ 64) : dcsoChain h n = h * dcsoMul ^ n % 2 ^ 64 := by
  induction n with
  | zero =>
    have := u 0 le_rfl
    rw [pow_zero, mul_one, Nat.mod_eq_of_lt hh] at *
    show h % 18446744073709551557 = h
    exact Nat.mod_eq_of_lt this
  | succ n ih =>
    have e : (h * dcsoMul ^ n % 2 ^ 64 * dcsoMul) % 2 ^ 64 = h * dcsoMul ^ (n + 1) % 2 ^ 64 := by
      rw [Nat.mod_mul_mod, mul_assoc, ← pow_succ]
    show (dcsoChain h n * 18446744073709550147) % 2 ^ 64 % 18446744073709551557 = _
    rw [ih (fun i hi => u i (by omega))]
    show (h * dcsoMul ^ n % 2 ^ 64 * dcsoMul) % 2 ^ 64 % 18446744073709551557 = _
    rw [e]
    exact Nat.mod_eq_of_lt (u _ le_rfl)

/-- Multiplication by an odd number is injective modulo `2^64`. -/
theorem mul_inj_mod {a b : ℕ} (i : ℕ) (ha : a < 2 ^ 64) (hb : b < 2 ^ 64)
    (h : a * dcsoMul ^ i % 2 ^ 64 = b * dcsoMul ^ i % 2 ^ 64) : a = b := by
  have hc : Nat.gcd (2 ^ 64) (dcsoMul ^ i) = 1 := by
    apply Nat.Coprime.pow
    decide
  have : a ≡ b [MOD 2 ^ 64] := Nat.ModEq.cancel_right_of_coprime hc h
  have := this.eq_of_lt_of_lt ha hb
  exact this

/-- At most 59 of the `2^64` hashes are reduced at a given step. -/
theorem reduced_at (i : ℕ) :
    {h | h < 2 ^ 64 ∧ 18446744073709551557 ≤ h * dcsoMul ^ i % 2 ^ 64}.Finite ∧
    {h | h < 2 ^ 64 ∧ 18446744073709551557 ≤ h * dcsoMul ^ i % 2 ^ 64}.ncard ≤ 59 := by
  have hfin : {h | h < 2 ^ 64 ∧ 18446744073709551557 ≤ h * dcsoMul ^ i % 2 ^ 64}.Finite :=
    (Set.finite_lt_nat (2 ^ 64)).subset fun h hh => hh.1
  refine ⟨hfin, ?_⟩
  have h1 : ∀ h ∈ {h | h < 2 ^ 64 ∧ 18446744073709551557 ≤ h * dcsoMul ^ i % 2 ^ 64},
      h * dcsoMul ^ i % 2 ^ 64 ∈ Set.Ico 18446744073709551557 (2 ^ 64) :=
    fun h hh => ⟨hh.2, Nat.mod_lt _ (by norm_num)⟩
  have h2 := Set.ncard_le_ncard_of_injOn (fun h => h * dcsoMul ^ i % 2 ^ 64) h1
    (fun a ha b hb h => mul_inj_mod i ha.1 hb.1 h) ((Set.finite_lt_nat (2 ^ 64)).subset fun _ h => h.2)
  refine h2.trans ?_
  rw [Set.ncard_Ico_nat]
  norm_num

theorem reduced_card (n : ℕ) :
    {h | h < 2 ^ 64 ∧ ¬ ∀ i ≤ n, h * dcsoMul ^ i % 2 ^ 64 < 18446744073709551557}.ncard
      ≤ 59 * (n + 1) := by
  induction n with
  | zero =>
    refine (Set.ncard_le_ncard ?_ (reduced_at 0).1).trans (reduced_at 0).2
    rintro h ⟨h1, h2⟩
    refine ⟨h1, ?_⟩
    by_contra hc
    exact h2 fun i hi => by rw [Nat.le_zero.1 hi]; omega
  | succ n ih =>
    have hfin : {h | h < 2 ^ 64 ∧
        ¬ ∀ i ≤ n, h * dcsoMul ^ i % 2 ^ 64 < 18446744073709551557}.Finite :=
      (Set.finite_lt_nat (2 ^ 64)).subset fun h hh => hh.1
    have hsub : {h | h < 2 ^ 64 ∧
        ¬ ∀ i ≤ n + 1, h * dcsoMul ^ i % 2 ^ 64 < 18446744073709551557} ⊆
        {h | h < 2 ^ 64 ∧ ¬ ∀ i ≤ n, h * dcsoMul ^ i % 2 ^ 64 < 18446744073709551557} ∪
        {h | h < 2 ^ 64 ∧ 18446744073709551557 ≤ h * dcsoMul ^ (n + 1) % 2 ^ 64} := by
      rintro h ⟨h1, h2⟩
      by_cases hc : ∀ i ≤ n, h * dcsoMul ^ i % 2 ^ 64 < 18446744073709551557
      · right
        refine ⟨h1, ?_⟩
        by_contra hd
        refine h2 fun i hi => ?_
        rcases Nat.lt_or_ge n i with hni | hni
        · rw [show i = n + 1 by omega]; omega
        · exact hc i hni
      · left; exact ⟨h1, hc⟩
    have := Set.ncard_le_ncard hsub (hfin.union (reduced_at (n + 1)).1)
    have := Set.ncard_union_le {h | h < 2 ^ 64 ∧
      ¬ ∀ i ≤ n, h * dcsoMul ^ i % 2 ^ 64 < 18446744073709551557}
      {h | h < 2 ^ 64 ∧ 18446744073709551557 ≤ h * dcsoMul ^ (n + 1) % 2 ^ 64}
    have := (reduced_at (n + 1)).2
    omega

/-- Each residue modulo `2^j` is taken by `2^(64-j)` of the `2^64` hashes. -/
theorem residues_card {j : ℕ} (hj : j ≤ 64) (R : Finset ℕ) (hR : ∀ r ∈ R, r < 2 ^ j) :
    {h | h < 2 ^ 64 ∧ h % 2 ^ j ∈ R}.ncard = R.card * 2 ^ (64 - j) := by
  have e : {h | h < 2 ^ 64 ∧ h % 2 ^ j ∈ R} =
      (fun x : ℕ × ℕ => x.1 + x.2 * 2 ^ j) '' ((R : Set ℕ) ×ˢ Set.Iio (2 ^ (64 - j))) := by
    have hp : (2 : ℕ) ^ 64 = 2 ^ (64 - j) * 2 ^ j := by rw [← pow_add]; congr 1; omega
    have hpos : 0 < 2 ^ j := by positivity
    ext h
    simp only [Set.mem_ofPred_eq, Set.mem_image, Set.mem_prod, Finset.mem_coe, Set.mem_Iio,
      Prod.exists]
    constructor
    · rintro ⟨h1, h2⟩
      refine ⟨h % 2 ^ j, h / 2 ^ j, ⟨h2, ?_⟩, ?_⟩
      · rw [hp] at h1; exact Nat.div_lt_of_lt_mul (by rwa [mul_comm] at h1)
      · have := Nat.mod_add_div h (2 ^ j); rw [mul_comm] at this; exact this
    · rintro ⟨a, b, ⟨ha, hb⟩, rfl⟩
      refine ⟨?_, ?_⟩
      · rw [hp]
        have := hR a ha
        calc a + b * 2 ^ j < (b + 1) * 2 ^ j := by rw [add_mul]; omega
          _ ≤ 2 ^ (64 - j) * 2 ^ j := Nat.mul_le_mul_right _ hb
      · rw [Nat.add_mul_mod_self_right, Nat.mod_eq_of_lt (hR a ha)]; exact ha
  rw [e, Set.InjOn.ncard_image, Set.ncard_prod, Set.ncard_coe_finset, Set.ncard_Iio_nat]
  rintro ⟨a, b⟩ ⟨ha, _⟩ ⟨c, d⟩ ⟨hc, _⟩ h
  have ha := hR a ha
  have hc := hR c hc
  simp only at h ha hc
  have h1 : a = c := by
    have := congrArg (· % 2 ^ j) h
    simpa [Nat.add_mul_mod_self_right, Nat.mod_eq_of_lt ha, Nat.mod_eq_of_lt hc] using this
  subst h1
  have h2 : b * 2 ^ j = d * 2 ^ j := by omega
  rw [Nat.eq_of_mul_eq_mul_right (by positivity) h2]

/-- `log 100`, closely. -/
theorem log_hundred : 4.60517017 < Real.log 100 ∧ Real.log 100 < 4.60517020 := by
  have h := Real.abs_log_sub_add_sum_range_le (x := 3 / 128) (by norm_num [abs_of_pos]) 5
  have e : Real.log (1 - 3 / 128) = 3 / 2 * Real.log 100 - 10 * Real.log 2 := by
    have h1 : Real.log (100 ^ 3) = 3 * Real.log 100 := by rw [Real.log_pow]; norm_num
    have h2 : Real.log (2 ^ 20) = 20 * Real.log 2 := by rw [Real.log_pow]; norm_num
    have h3 : Real.log ((1 - 3 / 128) ^ 2) = 2 * Real.log (1 - 3 / 128) := by
      rw [Real.log_pow]; norm_num
    have h4 : ((1 : ℝ) - 3 / 128) ^ 2 = 100 ^ 3 / 2 ^ 20 := by norm_num
    rw [h4, Real.log_div (by norm_num) (by norm_num), h1, h2] at h3
    linarith
  rw [e] at h
  have := Real.log_two_gt_d9
  have := Real.log_two_lt_d9
  rw [abs_le] at h
  norm_num [Finset.sum_range_succ, abs_of_pos] at h
  constructor <;> linarith [h.1, h.2]

end Poppy
