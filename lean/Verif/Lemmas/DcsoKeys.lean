import Mathlib.FieldTheory.Finite.Basic
import Verif.Lemmas.Pow2
import Verif.Lemmas.Spread

/-! Lemmas about the hashes and probes of the DCSO format. -/

namespace Poppy

open Spec

theorem fnv1_append (a s : List U8) : fnv1 (a ++ s)
    = s.foldl (fun h b => Nat.xor (h * 0x100000001B3 % 2 ^ 64) b.toNat) (fnv1 a) := by
  unfold fnv1
  rw [List.foldl_append]

theorem fnv1_zeros {a : List U8} (h : fnv1 a = 0) (n : ℕ) : fnv1 (a ++ List.replicate n 0#8) = 0 := by
  rw [fnv1_append, h]
  induction n with
  | zero => rfl
  | succ n ih => rw [List.replicate_succ, List.foldl_cons]; exact ih

theorem dcsoChain_zero (n : ℕ) : dcsoChain 0 n = 0 := by
  induction n with
  | zero => rfl
  | succ n ih => unfold dcsoChain; rw [ih]

theorem dcsoChain_mod {h h' : ℕ} (e : h % 18446744073709551557 = h' % 18446744073709551557) (n : ℕ) :
    dcsoChain h n = dcsoChain h' n := by
  induction n with
  | zero => exact e
  | succ n ih => unfold dcsoChain; rw [ih]

/-- Numbers below `N` whose remainder is in a set. -/
theorem card_mod_le (N m : ℕ) (hm : 0 < m) (on : ℕ → Bool) :
    {x | x < N ∧ on (x % m) = true}.ncard ≤ countBelow m on * (N / m + 1) := by
  have h1 : ∀ x ∈ {x | x < N ∧ on (x % m) = true}, (fun x => (x % m, x / m)) x ∈
      (((Finset.range m).filter fun i => on i = true) ×ˢ Finset.range (N / m + 1) : Set (ℕ × ℕ)) := by
    rintro x ⟨h1, h2⟩
    refine ⟨by simpa using ⟨Nat.mod_lt _ hm, h2⟩, ?_⟩
    simp only [Finset.coe_range, Set.mem_Iio]
    exact Nat.lt_succ_of_le (Nat.div_le_div_right h1.le)
  have h2 := Set.ncard_le_ncard_of_injOn (fun x => (x % m, x / m)) h1
    (fun a _ b _ h => by
      simp only [Prod.mk.injEq] at h
      rw [← Nat.mod_add_div a m, ← Nat.mod_add_div b m, h.1, h.2]) (by
      rw [← Finset.coe_product]; exact Finset.finite_toSet _)
  rw [← Finset.coe_product, Set.ncard_coe_finset, Finset.card_product, Finset.card_range] at h2
  rw [countBelow_card]
  exact h2

theorem card_mod_ge (N m : ℕ) (on : ℕ → Bool) :
    countBelow m on * (N / m) ≤ {x | x < N ∧ on (x % m) = true}.ncard := by
  rw [countBelow_card]
  have hfin : {x | x < N ∧ on (x % m) = true}.Finite :=
    (Set.finite_lt_nat N).subset fun _ h => h.1
  have h1 : ∀ x ∈ (((Finset.range m).filter fun i => on i = true) ×ˢ Finset.range (N / m) :
      Set (ℕ × ℕ)), (fun x : ℕ × ℕ => x.1 + m * x.2) x ∈ {x | x < N ∧ on (x % m) = true} := by
    rintro ⟨a, b⟩ ⟨ha, hb⟩
    simp only [Finset.coe_filter, Finset.mem_range, Set.mem_ofPred_eq, Finset.coe_range,
      Set.mem_Iio] at ha hb
    simp only [Set.mem_ofPred_eq]
    refine ⟨?_, by rw [Nat.add_mul_mod_self_left, Nat.mod_eq_of_lt ha.1]; exact ha.2⟩
    calc a + m * b < m * (b + 1) := by rw [Nat.mul_add]; omega
      _ ≤ m * (N / m) := Nat.mul_le_mul_left _ hb
      _ ≤ N := Nat.mul_div_le N m
  have h2 := Set.ncard_le_ncard_of_injOn (fun x : ℕ × ℕ => x.1 + m * x.2) h1 (by
    rintro ⟨a, b⟩ ⟨ha, _⟩ ⟨c, d⟩ ⟨hc, _⟩ h
    simp only [Finset.coe_filter, Finset.mem_range, Set.mem_ofPred_eq] at ha hc h
    have e1 : a = c := by
      have := congrArg (· % m) h
      simpa [Nat.add_mul_mod_self_left, Nat.mod_eq_of_lt ha.1, Nat.mod_eq_of_lt hc.1] using this
    subst e1
    have e2 : m * b = m * d := by omega
    rw [Nat.eq_of_mul_eq_mul_left (by omega) e2]) hfin
  rw [← Finset.coe_product, Set.ncard_coe_finset, Finset.card_product, Finset.card_range] at h2
  exact h2

theorem card_mul_eq_aux {N c : ℕ} (hN : 1 < N) (hc : Nat.Coprime c N) (p : ℕ → Prop) :
    {h | h < N ∧ p (h * c % N)}.ncard = {x | x < N ∧ p x}.ncard := by
  obtain ⟨e, -, he⟩ := Nat.exists_mul_mod_eq_one_of_coprime hc hN
  have inj : ∀ {d : ℕ}, Nat.Coprime d N → ∀ a < N, ∀ b < N, a * d % N = b * d % N → a = b := by
    intro d hd a ha b hb h
    have : a ≡ b [MOD N] := Nat.ModEq.cancel_right_of_coprime (by rwa [Nat.gcd_comm]) h
    exact this.eq_of_lt_of_lt ha hb
  have hfin : ∀ q : ℕ → Prop, {x | x < N ∧ q x}.Finite :=
    fun q => (Set.finite_lt_nat N).subset fun _ h => h.1
  have hec : Nat.Coprime e N := by
    refine Nat.coprime_of_mul_modEq_one c ?_
    rw [mul_comm]
    exact he.trans (Nat.mod_eq_of_lt hN).symm
  apply le_antisymm
  · refine Set.ncard_le_ncard_of_injOn (fun h => h * c % N)
      (fun h hh => ⟨Nat.mod_lt _ (by omega), hh.2⟩) (fun a ha b hb h => ?_) (hfin _)
    exact inj hc a ha.1 b hb.1 h
  · refine Set.ncard_le_ncard_of_injOn (fun h => h * e % N)
      (fun x hx => ⟨Nat.mod_lt _ (by omega), ?_⟩) (fun a ha b hb h => ?_) (hfin _)
    · have : x * e % N * c % N = x := by
        rw [Nat.mod_mul_mod, mul_assoc, mul_comm e c, Nat.mul_mod, he, mul_one, Nat.mod_mod,
          Nat.mod_eq_of_lt hx.1]
      show p (x * e % N * c % N)
      rw [this]; exact hx.2
    · exact inj hec a ha.1 b hb.1 h

/-- Multiplication by an odd number permutes the hashes. -/
theorem card_mul_eq (i : ℕ) (p : ℕ → Prop) :
    {h | h < 2 ^ 64 ∧ p (h * dcsoMul ^ i % 2 ^ 64)}.ncard = {x | x < 2 ^ 64 ∧ p x}.ncard :=
  card_mul_eq_aux (by norm_num) (Nat.Coprime.pow_left _ (by decide)) p

/-- Sets that are equal but for a few elements. -/
theorem ncard_near {A B E : Set ℕ} (hB : B.Finite) (hE : E.Finite)
    (h : ∀ x, x ∉ E → (x ∈ A ↔ x ∈ B)) : A.ncard ≤ B.ncard + E.ncard := by
  refine (Set.ncard_le_ncard (t := B ∪ E) (fun x hx => ?_) (hB.union hE)).trans
    (Set.ncard_union_le _ _)
  by_cases hx' : x ∈ E
  · exact .inr hx'
  · exact .inl ((h x hx').1 hx)

/-- For all but a few hashes the numbers of the chain are spread evenly. -/
theorem chain_card (n m : ℕ) (hm : 0 < m) (on : ℕ → Bool) :
    {h | h < 2 ^ 64 ∧ on (dcsoChain h n % m) = true}.ncard
      ≤ countBelow m on * (2 ^ 64 / m + 1) + 59 * (n + 1) ∧
    countBelow m on * (2 ^ 64 / m)
      ≤ {h | h < 2 ^ 64 ∧ on (dcsoChain h n % m) = true}.ncard + 59 * (n + 1) := by
  have hf : ∀ q : ℕ → Prop, {x | x < 2 ^ 64 ∧ q x}.Finite :=
    fun q => (Set.finite_lt_nat (2 ^ 64)).subset fun _ h => h.1
  have hE := reduced_card n
  have e := card_mul_eq n fun x => on (x % m) = true
  have near : ∀ x, x ∉ {h | h < 2 ^ 64 ∧
      ¬ ∀ i ≤ n, h * dcsoMul ^ i % 2 ^ 64 < 18446744073709551557} →
      (x ∈ {h | h < 2 ^ 64 ∧ on (dcsoChain h n % m) = true} ↔
        x ∈ {h | h < 2 ^ 64 ∧ on (h * dcsoMul ^ n % 2 ^ 64 % m) = true}) := by
    intro x hx
    refine and_congr_right fun hlt => ?_
    have hu : ∀ i ≤ n, x * dcsoMul ^ i % 2 ^ 64 < 18446744073709551557 := by
      by_contra hc
      exact hx ⟨hlt, hc⟩
    rw [dcsoChain_of_lt hu hlt]
  have h1 := ncard_near (hf _) (hf _) near
  have h2 := ncard_near (hf _) (hf _) fun x hx => (near x hx).symm
  have h3 := card_mod_le (2 ^ 64) m hm on
  have h4 := card_mod_ge (2 ^ 64) m on
  rw [e] at h1 h2
  exact ⟨h1.trans (Nat.add_le_add h3 hE), (h4.trans h2).trans (Nat.add_le_add_left hE _)⟩

theorem unreduced_of_dvd {h j : ℕ} (h6 : 6 ≤ j) (hd : 2 ^ j ∣ h) (n : ℕ) :
    Unreduced h n := by
  intro i _
  have h1 : 2 ^ 6 ∣ h * dcsoMul ^ i % 2 ^ 64 :=
    (Nat.dvd_mod_iff (pow_dvd_pow 2 (by norm_num))).2
      (((pow_dvd_pow 2 h6).trans hd).mul_right _)
  have h2 : h * dcsoMul ^ i % 2 ^ 64 < 2 ^ 64 := Nat.mod_lt _ (by norm_num)
  omega

theorem dcsoChain_cycle {h j : ℕ} (h6 : 6 ≤ j) (h63 : j ≤ 63) (hh : h < 2 ^ 64) (hd : 2 ^ j ∣ h)
    (n : ℕ) : dcsoChain h (n + 2 ^ (63 - j)) = dcsoChain h n := by
  rw [dcsoChain_of_lt (unreduced_of_dvd h6 hd _) hh,
    dcsoChain_of_lt (unreduced_of_dvd h6 hd _) hh]
  obtain ⟨a, rfl⟩ := hd
  have e : 2 ^ 64 = 2 ^ j * 2 ^ (64 - j) := by rw [← pow_add]; congr 1; omega
  have ht : Nat.totient (2 ^ (64 - j)) = 2 ^ (63 - j) := by
    rw [Nat.totient_prime_pow Nat.prime_two (by omega)]
    simp only [Nat.add_one_sub_one, mul_one]
    congr 1
    omega
  have hc : Nat.Coprime dcsoMul (2 ^ (64 - j)) :=
    Nat.Coprime.pow_right _ (by unfold dcsoMul; norm_num)
  have h1 := Nat.ModEq.pow_totient hc
  rw [ht] at h1
  have h2 : a * dcsoMul ^ (n + 2 ^ (63 - j)) ≡ a * dcsoMul ^ n [MOD 2 ^ (64 - j)] := by
    rw [pow_add]
    simpa using (h1.mul_left (dcsoMul ^ n)).mul_left a
  rw [e, mul_assoc, mul_assoc, Nat.mul_mod_mul_left, Nat.mul_mod_mul_left, h2]

end Poppy
