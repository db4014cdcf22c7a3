import Mathlib.Data.Nat.Choose.Sum
import Mathlib.Data.Nat.Choose.Bounds
import Mathlib.Data.Finset.Powerset
import Mathlib.Algebra.Order.Field.Basic
import Mathlib.Data.Fintype.Prod
import Mathlib.Data.Rat.Cast.Order
import Mathlib.Tactic.IntervalCases
import Mathlib.Tactic.LinearCombination
import Verif.Lemmas.Probe

/-! # Lemmas on the bits of a key being different (for C100) -/

namespace Poppy
open Spec Finset

/-- A linear congruence has at most as many solutions as its factor. -/
theorem card_linear_le (d c : ℕ) (hd : 0 < d) {M : ℕ} (hM : 0 < M) :
    ((univ : Finset (Fin M)).filter fun b : Fin M => M ∣ d * (b : ℕ) + c).card ≤ d := by
  calc _ ≤ (Finset.Ico ((c + M - 1) / M) ((c + M - 1) / M + d)).card := by
        refine card_le_card_of_injOn (fun b : Fin M => (d * (b : ℕ) + c) / M) ?_ ?_
        · intro b hb
          obtain ⟨q, hq⟩ := (mem_filter.1 hb).2
          have hbM := b.2
          simp only [hq, Nat.mul_div_cancel_left _ hM, coe_Ico, Set.mem_Ico]
          constructor
          · rw [Nat.div_le_iff_le_mul_add_pred hM]
            have : c ≤ M * q := by rw [← hq]; omega
            omega
          · have h1 : M * q < M * d + c := by
              rw [← hq]
              have := (Nat.mul_lt_mul_left hd).2 hbM
              rw [Nat.mul_comm M d]; omega
            have h2 : c ≤ M * ((c + M - 1) / M) := by
              have := Nat.div_add_mod (c + M - 1) M
              have := Nat.mod_lt (c + M - 1) hM
              omega
            have h3 : M * q < M * ((c + M - 1) / M + d) := by rw [Nat.mul_add]; omega
            exact Nat.lt_of_mul_lt_mul_left h3
        · intro b hb b' hb' h
          obtain ⟨q, hq⟩ := (mem_filter.1 hb).2
          obtain ⟨q', hq'⟩ := (mem_filter.1 hb').2
          simp only [hq, hq', Nat.mul_div_cancel_left _ hM] at h
          subst h
          have : d * (b : ℕ) = d * b' := by omega
          exact Fin.ext (Nat.eq_of_mul_eq_mul_left hd this)
    _ = d := by simp

theorem sum_range_sub (j : ℕ) : ∑ i ∈ range j, (j - i) = Nat.choose (j + 1) 2 := by
  induction j with
  | zero => rfl
  | succ j ih =>
    rw [sum_range_succ, Nat.choose_succ_succ' (j + 1) 1, ← ih, Nat.choose_one_right]
    have : ∑ i ∈ range j, (j + 1 - i) = ∑ i ∈ range j, (j - i) + j := by
      have h : ∀ i ∈ range j, j + 1 - i = (j - i) + 1 := fun i hi => by
        have := mem_range.1 hi; omega
      rw [sum_congr rfl h, sum_add_distrib]
      simp
    rw [this]
    omega

theorem sum_sum_sub (k : ℕ) : ∑ j ∈ range k, ∑ i ∈ range j, (j - i) = Nat.choose (k + 1) 3 := by
  induction k with
  | zero => rfl
  | succ k ih => rw [sum_range_succ, ih, sum_range_sub, Nat.choose_succ_succ' (k + 1) 2, Nat.add_comm]

/-- Equal probes are a linear congruence for the second hash. -/
theorem probe_eq_dvd {h H i j : ℕ} (hij : i < j) (e : poppyProbe h H i = poppyProbe h H j) :
    32768 ∣ (j - i) * H + (Nat.choose (j + 1) 3 - Nat.choose (i + 1) 3) := by
  unfold poppyProbe at e
  rw [Nat.mod_mod_of_dvd _ (by norm_num), Nat.mod_mod_of_dvd _ (by norm_num)] at e
  have hc : Nat.choose (i + 1) 3 ≤ Nat.choose (j + 1) 3 := Nat.choose_le_choose 3 (by omega)
  have := (Nat.modEq_iff_dvd' (show h + i * H + Nat.choose (i + 1) 3 ≤ h + j * H + Nat.choose (j + 1) 3
    from by have := Nat.mul_le_mul_right H hij.le; omega)).1 e
  convert this using 1
  have h1 := Nat.mul_le_mul_right H hij.le
  rw [Nat.sub_mul]
  omega

/-- At most `C(k+1,3)` values of the second hash make two of `k` probes equal. -/
theorem card_collide {M : ℕ} (hM : M = 32768) (k : ℕ) :
    ((univ : Finset (Fin M × Fin M)).filter fun t =>
      ∃ j < k, ∃ i < j, poppyProbe t.1 t.2 i = poppyProbe t.1 t.2 j).card
      ≤ Nat.choose (k + 1) 3 * M := by
  have hsub : ((univ : Finset (Fin M × Fin M)).filter fun t =>
      ∃ j < k, ∃ i < j, poppyProbe t.1 t.2 i = poppyProbe t.1 t.2 j)
      ⊆ univ ×ˢ (range k).biUnion fun j => (range j).biUnion fun i =>
        (univ : Finset (Fin M)).filter fun b : Fin M =>
          M ∣ (j - i) * (b : ℕ) + (Nat.choose (j + 1) 3 - Nat.choose (i + 1) 3) := by
    intro t ht
    obtain ⟨j, hj, i, hi, e⟩ := (mem_filter.1 ht).2
    simp only [mem_product, mem_univ, true_and, mem_biUnion, mem_range, mem_filter]
    exact ⟨j, hj, i, hi, (dvd_of_eq hM).trans (probe_eq_dvd hi e)⟩
  refine (card_le_card hsub).trans ?_
  rw [card_product, card_univ, Fintype.card_fin, Nat.mul_comm]
  refine Nat.mul_le_mul_right _ ?_
  rw [← sum_sum_sub]
  refine card_biUnion_le.trans (sum_le_sum fun j _ => ?_)
  refine card_biUnion_le.trans (sum_le_sum fun i hi => ?_)
  exact card_linear_le _ _ (by have := mem_range.1 hi; omega) (by omega)

/-! ### Collisions of up to 32 probes -/

theorem six_choose (n : ℕ) : 6 * Nat.choose (n + 1) 3 + n = n ^ 3 := by
  induction n with
  | zero => rfl
  | succ n ih =>
    have h2 : 2 * Nat.choose (n + 1) 2 = (n + 1) * n := by
      rw [Nat.choose_two_right, Nat.add_sub_cancel]
      exact Nat.mul_div_cancel' (by rw [mul_comm]; exact (Nat.even_mul_succ_self n).two_dvd)
    rw [Nat.choose_succ_succ' (n + 1) 2]
    calc _ = (6 * Nat.choose (n + 1) 3 + n) + 3 * (2 * Nat.choose (n + 1) 2) + 1 := by ring
      _ = _ := by rw [ih, h2]; ring

/-- The form that tells which probes are equal. -/
def form (i j : ℕ) : ℕ := i * i + i * j + j * j

theorem dvd_of_mul_small {d q : ℕ} (h0 : 0 < d) (hd : d < 32) (h : 65536 ∣ d * q) : 4096 ∣ q := by
  interval_cases d <;> omega

theorem form_dvd {h H i j : ℕ} (hij : i < j) (hj : j < 32)
    (e : poppyProbe h H i = poppyProbe h H j) : 4096 ∣ 6 * H + form i j - 1 := by
  have h1 := probe_eq_dvd hij e
  have hi3 := six_choose i
  have hj3 := six_choose j
  have hc : Nat.choose (i + 1) 3 ≤ Nat.choose (j + 1) 3 := Nat.choose_le_choose 3 (by omega)
  refine dvd_of_mul_small (d := j - i) (by omega) (by omega) ?_
  have h2 : 6 * 32768 ∣ 6 * ((j - i) * H + (Nat.choose (j + 1) 3 - Nat.choose (i + 1) 3)) :=
    Nat.mul_dvd_mul_left 6 h1
  refine (show 65536 ∣ 6 * 32768 by norm_num).trans ?_
  obtain ⟨d, rfl⟩ : ∃ d, j = i + d := ⟨j - i, by omega⟩
  have hd : 0 < d := by omega
  have hf : 1 ≤ form i (i + d) := by unfold form; nlinarith
  obtain ⟨c, hc⟩ := Nat.exists_eq_add_of_le hc
  obtain ⟨q, hq⟩ := Nat.exists_eq_add_of_le (show 1 ≤ 6 * H + form i (i + d) by omega)
  rw [hc, Nat.add_sub_cancel_left, Nat.add_sub_cancel_left] at h2
  rw [hq, Nat.add_sub_cancel_left, Nat.add_sub_cancel_left]
  have e : d * q = 6 * (d * H + c) := by
    rw [hc] at hj3
    unfold form at hq
    zify at hi3 hj3 hq ⊢
    linear_combination -d * hq + hi3 - hj3
  rw [e]
  exact h2

theorem form_lt {i j : ℕ} (hij : i < j) (hj : j < 32) : form i j < 4096 := by
  have h1 : i * i ≤ 31 * 31 := Nat.mul_le_mul (by omega) (by omega)
  have h2 : i * j ≤ 31 * 31 := Nat.mul_le_mul (by omega) (by omega)
  have h3 : j * j ≤ 31 * 31 := Nat.mul_le_mul (by omega) (by omega)
  unfold form
  omega

theorem card_filter_range (N : ℕ) (p : ℕ → Prop) [DecidablePred p] :
    ((range N).filter p).card = (List.range N).countP fun j => decide (p j) := by
  rw [List.countP_eq_length_filter]
  rfl

/-- All pairs below 32 are tried. -/
def formCheck (N : ℕ) : Bool :=
  (List.range N).all fun j0 => (List.range j0).all fun i0 =>
    Nat.ble ((List.range N).countP fun j => (List.range j).any fun i =>
      Nat.beq (i * i + i * j + j * j) (i0 * i0 + i0 * j0 + j0 * j0)) 3

theorem formCheck_sound {N : ℕ} (key : formCheck N = true) {j0 i0 : ℕ} (hj0 : j0 < N)
    (hi0 : i0 < j0) :
    ((range N).filter fun j => ∃ i < j, form i j = form i0 j0).card ≤ 3 := by
  have h := List.all_eq_true.1 (List.all_eq_true.1 key j0 (List.mem_range.2 hj0)) i0
    (List.mem_range.2 hi0)
  refine le_trans (le_of_eq ?_) (Nat.le_of_ble_eq_true h)
  rw [card_filter_range]
  refine List.countP_congr fun j _ => ?_
  rw [decide_eq_true_iff, List.any_eq_true]
  simp only [List.mem_range, Nat.beq_eq, form]

theorem formCheck_true : formCheck 32 = true := by decide +kernel

/-- Each number is a value of the form for at most three `j`. -/
theorem form_values {j0 i0 : ℕ} (hj0 : j0 < 32) (hi0 : i0 < j0) :
    ((range 32).filter fun j => ∃ i < j, form i j = form i0 j0).card ≤ 3 :=
  formCheck_sound formCheck_true hj0 hi0

theorem form_unique {h H i j i' j' : ℕ} (hij : i < j) (hj : j < 32)
    (e : poppyProbe h H i = poppyProbe h H j) (hij' : i' < j') (hj' : j' < 32)
    (e' : poppyProbe h H i' = poppyProbe h H j') : form i j = form i' j' := by
  have h1 := form_dvd hij hj e
  have h2 := form_dvd hij' hj' e'
  have h3 := form_lt hij hj
  have h4 := form_lt hij' hj'
  have h5 : 1 ≤ form i j := by unfold form; nlinarith
  have h6 : 1 ≤ form i' j' := by unfold form; nlinarith
  omega

/-- At most three of up to 32 probes are equal to an earlier one. -/
theorem card_repeated {k : ℕ} (hk : k ≤ 32) (h H : ℕ) :
    ((range k).filter fun j => ∃ i < j, poppyProbe h H i = poppyProbe h H j).card ≤ 3 := by
  by_cases hne : ∃ j0 < k, ∃ i0 < j0, poppyProbe h H i0 = poppyProbe h H j0
  · obtain ⟨j0, hj0, i0, hi0, e0⟩ := hne
    refine le_trans (card_le_card fun j hj => ?_) (form_values (by omega) hi0)
    simp only [mem_filter, mem_range] at hj ⊢
    obtain ⟨hj, i, hi, e⟩ := hj
    exact ⟨by omega, i, hi, form_unique hi (by omega) e hi0 (by omega) e0⟩
  · rw [filter_eq_empty_iff.2]
    · simp
    · intro j hj he
      exact hne ⟨j, mem_range.1 hj, he⟩

/-- So up to 32 probes have at most three values less than their number. -/
theorem card_probes_ge {k : ℕ} (hk : k ≤ 32) (h H : ℕ) :
    k ≤ ((range k).image fun n => poppyProbe h H n).card + 3 := by
  have h1 := card_repeated hk h H
  have h2 : ((range k).filter fun j => ¬ ∃ i < j, poppyProbe h H i = poppyProbe h H j).card
      ≤ ((range k).image fun n => poppyProbe h H n).card := by
    refine card_le_card_of_injOn (fun n => poppyProbe h H n) ?_ ?_
    · intro j hj
      exact mem_coe.2 (mem_image.2 ⟨j, (mem_filter.1 hj).1, rfl⟩)
    · intro i hi j hj e
      have hi := (mem_filter.1 hi).2
      have hj := (mem_filter.1 hj).2
      rcases Nat.lt_trichotomy i j with h' | h' | h'
      · exact absurd ⟨i, h', e⟩ hj
      · exact h'
      · exact absurd ⟨j, h', e.symm⟩ hi
  have h3 := card_filter_add_card_filter_not (s := range k)
    (fun j => ∃ i < j, poppyProbe h H i = poppyProbe h H j)
  rw [card_range] at h3
  omega

/-! ### Random sets -/

/-- Number of the sets with `X` elements that contain a given set. -/
theorem card_supersets {α : Type} [Fintype α] [DecidableEq α] (T : Finset α) {X : ℕ}
    (hX : T.card ≤ X) :
    ((powersetCard X (univ : Finset α)).filter (T ⊆ ·)).card
      = (Fintype.card α - T.card).choose (X - T.card) := by
  rw [← card_compl, ← card_powersetCard]
  refine card_nbij' (· \ T) (· ∪ T) ?_ ?_ ?_ ?_
  · intro S hS
    simp only [coe_filter, mem_powersetCard, subset_univ, true_and, Set.mem_ofPred_eq] at hS
    simp only [mem_coe, mem_powersetCard]
    refine ⟨fun x hx => ?_, ?_⟩
    · rw [mem_compl]; exact (mem_sdiff.1 hx).2
    · rw [card_sdiff_of_subset hS.2, hS.1]
  · intro S hS
    simp only [mem_coe, mem_powersetCard] at hS
    simp only [coe_filter, mem_powersetCard, subset_univ, true_and, Set.mem_ofPred_eq]
    have hd : Disjoint S T := by
      rw [disjoint_left]; intro x hx; exact mem_compl.1 (hS.1 hx)
    refine ⟨?_, subset_union_right⟩
    rw [card_union_of_disjoint hd, hS.2]
    omega
  · intro S hS
    simp only [coe_filter, Set.mem_ofPred_eq] at hS
    exact sdiff_union_of_subset hS.2
  · intro S hS
    simp only [mem_coe, mem_powersetCard] at hS
    have hd : Disjoint S T := by
      rw [disjoint_left]; intro x hx; exact mem_compl.1 (hS.1 hx)
    exact union_sdiff_cancel_right hd

theorem card_supersets_lt {α : Type} [Fintype α] [DecidableEq α] (T : Finset α) {X : ℕ}
    (hX : X < T.card) : ((powersetCard X (univ : Finset α)).filter (T ⊆ ·)).card = 0 := by
  rw [card_eq_zero, filter_eq_empty_iff]
  intro S hS h
  have := card_le_card h
  rw [(mem_powersetCard.1 hS).2] at this
  omega

/-- The share of these sets, times `C(M,X)`. -/
theorem supersets_mul {α : Type} [Fintype α] [DecidableEq α] (T : Finset α) (X : ℕ) :
    ((powersetCard X (univ : Finset α)).filter (T ⊆ ·)).card * (Fintype.card α).descFactorial T.card
      = (Fintype.card α).choose X * X.descFactorial T.card := by
  by_cases hX : T.card ≤ X
  · rw [card_supersets T hX, Nat.descFactorial_eq_factorial_mul_choose,
      Nat.descFactorial_eq_factorial_mul_choose]
    have := Nat.choose_mul (n := Fintype.card α) hX
    calc _ = T.card.factorial * ((Fintype.card α).choose T.card *
          (Fintype.card α - T.card).choose (X - T.card)) := by ring
      _ = _ := by rw [← this]; ring
  · rw [card_supersets_lt T (by omega), (Nat.descFactorial_eq_zero_iff_lt (n := X)).2 (by omega)]
    simp

theorem descFactorial_ratio {X M : ℕ} (h : X ≤ M) (k : ℕ) :
    X.descFactorial k * M ^ k ≤ M.descFactorial k * X ^ k := by
  induction k with
  | zero => simp
  | succ k ih =>
    rw [Nat.descFactorial_succ, Nat.descFactorial_succ, pow_succ, pow_succ]
    have h1 : (X - k) * M ≤ (M - k) * X := by
      rw [Nat.sub_mul, Nat.sub_mul, Nat.mul_comm X M]
      exact Nat.sub_le_sub_left (Nat.mul_le_mul_left _ h) _
    calc _ = ((X - k) * M) * (X.descFactorial k * M ^ k) := by ring
      _ ≤ ((M - k) * X) * (M.descFactorial k * X ^ k) := Nat.mul_le_mul h1 ih
      _ = _ := by ring

end Poppy
