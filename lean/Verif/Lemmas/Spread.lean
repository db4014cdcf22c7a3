import Mathlib.Data.Int.CardIntervalMod
import Mathlib.Algebra.Order.BigOperators.Group.Finset
import Verif.Lemmas.Xorshift
import Verif.Lemmas.Members

/-! Counting the 64-bit hashes of a bucket, of a bit and of an index cache bit. -/

namespace Poppy
open Spec Finset

/-! ### Counting -/

theorem countBelow_card (n : ℕ) (p : ℕ → Bool) :
    countBelow n p = ((range n).filter fun x => p x = true).card := by
  unfold countBelow
  induction n with
  | zero => rfl
  | succ n ih =>
    rw [List.range_succ, List.countP_append, ih, range_add_one, filter_insert]
    cases h : p n with
    | true => simp [h]
    | false => simp [h]

/-- An injection of the numbers below `N` into themselves preserves counts. -/
theorem card_comp {N : ℕ} {g : ℕ → ℕ} (hm : ∀ x < N, g x < N)
    (hi : ∀ x < N, ∀ y < N, g x = g y → x = y) (p : ℕ → Prop) [DecidablePred p] :
    ((range N).filter fun x => p (g x)).card = ((range N).filter p).card := by
  have him : (range N).image g = range N := by
    apply eq_of_subset_of_card_le
    · intro y hy
      obtain ⟨x, hx, rfl⟩ := mem_image.1 hy
      exact mem_range.2 (hm x (mem_range.1 hx))
    · rw [card_image_of_injOn]
      intro x hx y hy h
      exact hi x (by simpa using hx) y (by simpa using hy) h
  conv_rhs => rw [← him, filter_image]
  rw [card_image_of_injOn]
  intro x hx y hy h
  have hx := (mem_filter.1 (Finset.mem_coe.1 hx)).1
  have hy := (mem_filter.1 (Finset.mem_coe.1 hy)).1
  exact hi x (mem_range.1 hx) y (mem_range.1 hy) h

theorem card_mod (N n j : ℕ) (hj : j < n) :
    N / n ≤ ((range N).filter fun x => x % n = j).card ∧
    ((range N).filter fun x => x % n = j).card ≤ N / n + 1 := by
  have h := Nat.count_modEq_card N (r := n) (by omega) j
  rw [Nat.count_eq_card_filter_range] at h
  have e : ((range N).filter fun x => x ≡ j [MOD n]) = (range N).filter fun x => x % n = j := by
    apply filter_congr
    intro x _
    unfold Nat.ModEq
    rw [Nat.mod_eq_of_lt hj]
  rw [e] at h
  rw [h]
  split <;> omega

theorem card_mod_dvd {N n j : ℕ} (hd : n ∣ N) (hj : j < n) :
    ((range N).filter fun x => x % n = j).card = N / n := by
  have h := Nat.count_modEq_card N (r := n) (by omega) j
  rw [Nat.count_eq_card_filter_range] at h
  have e : ((range N).filter fun x => x ≡ j [MOD n]) = (range N).filter fun x => x % n = j := by
    apply filter_congr
    intro x _
    unfold Nat.ModEq
    rw [Nat.mod_eq_of_lt hj]
  rw [e] at h
  rw [h, Nat.mod_eq_zero_of_dvd hd]
  simp

/-! ### The bucket hash -/

theorem xorshift_lt (x : ℕ) : Spec.xorshift x < 2 ^ 64 := Nat.mod_lt _ (by norm_num)

theorem xorshift_ofNat {x : ℕ} (hx : x < 2 ^ 64) :
    Spec.xorshift x = (xorshiftStar (BitVec.ofNat 64 x)).toNat := by
  rw [toNat_xorshiftStar, BitVec.toNat_ofNat, Nat.mod_eq_of_lt hx]

theorem xorshift_inj : ∀ x < 2 ^ 64, ∀ y < 2 ^ 64, Spec.xorshift x = Spec.xorshift y → x = y := by
  intro x hx y hy h
  rw [xorshift_ofNat hx, xorshift_ofNat hy] at h
  have := congrArg BitVec.toNat (xorshiftStar_injective (BitVec.eq_of_toNat_eq h))
  rwa [BitVec.toNat_ofNat, BitVec.toNat_ofNat, Nat.mod_eq_of_lt hx, Nat.mod_eq_of_lt hy] at this

/-! ### Bucket and first bit together -/

/-- The low `b` bits of `x ^ (x << k)` determine those of `x`. -/
theorem low_xor_shl {k b : ℕ} (hk : 0 < k) (hb : b ≤ 64) {x y : U64}
    (h : ∀ i < b, (x ^^^ (x <<< k)).getLsbD i = (y ^^^ (y <<< k)).getLsbD i) :
    ∀ i < b, x.getLsbD i = y.getLsbD i := by
  intro i
  induction i using Nat.strong_induction_on with
  | _ i ih =>
    intro hi
    have h' := h i hi
    have hi64 : i < 64 := by omega
    simp only [BitVec.getLsbD_xor, BitVec.getLsbD_shiftLeft, hi64, decide_true,
      Bool.true_and] at h'
    by_cases hik : i < k
    · simpa [hik] using h'
    · rw [ih (i - k) (by omega) (by omega)] at h'
      simpa using h'

theorem low_iff {b : ℕ} {x y : U64} :
    x.toNat % 2 ^ b = y.toNat % 2 ^ b ↔ ∀ i < b, x.getLsbD i = y.getLsbD i := by
  constructor
  · intro h i hi
    have := congrArg (fun n => n.testBit i) h
    simpa [Nat.testBit_mod_two_pow, hi, BitVec.testBit_toNat] using this
  · intro h
    apply Nat.eq_of_testBit_eq
    intro i
    by_cases hi : i < b
    · simpa [Nat.testBit_mod_two_pow, hi, BitVec.testBit_toNat] using h i hi
    · simp [Nat.testBit_mod_two_pow, hi]

/-- The low bits of the bucket hash determine those of the value before the last two steps. -/
theorem low_xorshiftStar {b : ℕ} (hb : b ≤ 64) {x y : U64}
    (h : (xorshiftStar x).toNat % 2 ^ b = (xorshiftStar y).toNat % 2 ^ b) :
    ∀ i < b,
      ((x ^^^ (x <<< 12)) ^^^ ((x ^^^ (x <<< 12)) >>> 25)).getLsbD i
        = ((y ^^^ (y <<< 12)) ^^^ ((y ^^^ (y <<< 12)) >>> 25)).getLsbD i := by
  unfold xorshiftStar at h
  set s := (x ^^^ (x <<< 12)) ^^^ ((x ^^^ (x <<< 12)) >>> 25) with hs
  set t := (y ^^^ (y <<< 12)) ^^^ ((y ^^^ (y <<< 12)) >>> 25) with ht
  apply low_xor_shl (k := 27) (by norm_num) hb
  rw [← low_iff]
  have hd : 2 ^ b ∣ 2 ^ 64 := pow_dvd_pow 2 hb
  rw [BitVec.toNat_mul, BitVec.toNat_mul, Nat.mod_mod_of_dvd _ hd, Nat.mod_mod_of_dvd _ hd] at h
  refine Nat.ModEq.cancel_right_of_coprime (c := (2685821657736338717#64).toNat) ?_ h
  exact Nat.Coprime.pow_left b (by decide)

/-- A bijection carrying bucket and first bit of a hash to two separate groups of its bits. -/
def spread (x : U64) : U64 := (x ^^^ (x <<< 12)) ^^^ ((x ^^^ (x <<< 12)) <<< 25)

theorem spread_injective : Function.Injective spread :=
  (xor_shl_injective 25 (by norm_num)).comp (xor_shl_injective 12 (by norm_num))

/-- Hashes with the same bucket and first bit agree on 15 + b bits of `spread`. -/
theorem spread_agree {b : ℕ} (hb : b ≤ 39) {x y : U64}
    (h : (xorshiftStar x).toNat % 2 ^ b = (xorshiftStar y).toNat % 2 ^ b)
    (h0 : x.toNat % 2 ^ 15 = y.toNat % 2 ^ 15) :
    (∀ i < 15, (spread x).getLsbD i = (spread y).getLsbD i) ∧
    (∀ i < b, (spread x).getLsbD (25 + i) = (spread y).getLsbD (25 + i)) := by
  have h1 := low_xorshiftStar (by omega) h
  rw [low_iff] at h0
  constructor
  · intro i hi
    have h2 := h0 i hi
    have h3 : i < 12 ∨ x.getLsbD (i - 12) = y.getLsbD (i - 12) := by
      by_cases h12 : i < 12
      · exact .inl h12
      · exact .inr (h0 _ (by omega))
    have a1 : i < 64 := by omega
    have a2 : i < 25 := by omega
    unfold spread
    simp only [BitVec.getLsbD_xor, BitVec.getLsbD_shiftLeft, a1, a2, decide_true, Bool.true_and,
      Bool.not_true, Bool.false_and, h2]
    rcases h3 with h3 | h3 <;> simp [h3]
  · intro i hi
    have h2 := h1 i hi
    set s := x ^^^ (x <<< 12) with hs
    set t := y ^^^ (y <<< 12) with ht
    have a1 : 25 + i < 64 := by omega
    have a2 : ¬ 25 + i < 25 := by omega
    have a3 : 25 + i - 25 = i := by omega
    unfold spread
    rw [← hs, ← ht]
    clear_value s t
    rw [BitVec.getLsbD_xor, BitVec.getLsbD_xor, BitVec.getLsbD_ushiftRight,
      BitVec.getLsbD_ushiftRight] at h2
    rw [BitVec.getLsbD_xor, BitVec.getLsbD_xor, BitVec.getLsbD_shiftLeft,
      BitVec.getLsbD_shiftLeft]
    simp only [a1, a2, a3, decide_true, decide_false, Bool.not_false, Bool.true_and]
    rw [Bool.xor_comm, h2, Bool.xor_comm]

/-- The other bits of `spread`. -/
def rest (b : ℕ) (x : ℕ) : ℕ × ℕ :=
  ((spread (BitVec.ofNat 64 x)).toNat / 2 ^ 15 % 2 ^ 10,
    (spread (BitVec.ofNat 64 x)).toNat / 2 ^ (25 + b))

/-- The hashes of a bucket (of `2^b`) and a first bit. -/
def cell (b q p : ℕ) : Finset ℕ :=
  (range (2 ^ 64)).filter fun x => Spec.xorshift x % 2 ^ b = q ∧ x % 32768 = p

theorem card_cell_le {b : ℕ} (hb : b ≤ 39) (q p : ℕ) : (cell b q p).card ≤ 2 ^ (49 - b) := by
  have hc : (range (2 ^ 10) ×ˢ range (2 ^ (39 - b))).card = 2 ^ (49 - b) := by
    rw [card_product, card_range, card_range, ← pow_add]
    congr 1
    omega
  rw [← hc]
  apply card_le_card_of_injOn (rest b)
  · intro x _
    have := (spread (BitVec.ofNat 64 x)).isLt
    unfold rest
    rw [Finset.coe_product, Set.mem_prod]
    refine ⟨?_, ?_⟩
    · simp only [coe_range, Set.mem_Iio]
      exact Nat.mod_lt _ (by norm_num)
    · simp only [coe_range, Set.mem_Iio]
      apply Nat.div_lt_of_lt_mul
      rw [← pow_add]
      refine lt_of_lt_of_le this (Nat.pow_le_pow_right (by norm_num) (by omega))
  · intro x hx y hy h
    have hx := mem_filter.1 (Finset.mem_coe.1 hx)
    have hy := mem_filter.1 (Finset.mem_coe.1 hy)
    have lx := mem_range.1 hx.1
    have ly := mem_range.1 hy.1
    have h1 := hx.2.1.trans hy.2.1.symm
    have h2 := hx.2.2.trans hy.2.2.symm
    rw [xorshift_ofNat lx, xorshift_ofNat ly] at h1
    have h2' : (BitVec.ofNat 64 x).toNat % 2 ^ 15 = (BitVec.ofNat 64 y).toNat % 2 ^ 15 := by
      rw [BitVec.toNat_ofNat, BitVec.toNat_ofNat, Nat.mod_eq_of_lt lx, Nat.mod_eq_of_lt ly]
      exact h2
    obtain ⟨g1, g2⟩ := spread_agree hb h1 h2'
    have hs : spread (BitVec.ofNat 64 x) = spread (BitVec.ofNat 64 y) := by
      apply BitVec.eq_of_getLsbD_eq
      intro i hi
      unfold rest at h
      have r1 := congrArg (fun n => Nat.testBit n.1 (i - 15)) h
      have r2 := congrArg (fun n => Nat.testBit n.2 (i - (25 + b))) h
      simp only [Nat.testBit_mod_two_pow, Nat.testBit_div_two_pow, BitVec.testBit_toNat] at r1 r2
      by_cases c1 : i < 15
      · exact g1 i c1
      · by_cases c2 : i < 25
        · have e : i - 15 + 15 = i := by omega
          have e' : i - 15 < 10 := by omega
          simpa [e, e'] using r1
        · by_cases c3 : i < 25 + b
          · have := g2 (i - 25) (by omega)
            rwa [show 25 + (i - 25) = i by omega] at this
          · rwa [show i - (25 + b) + (25 + b) = i by omega] at r2
    have := congrArg BitVec.toNat (spread_injective hs)
    rwa [BitVec.toNat_ofNat, BitVec.toNat_ofNat, Nat.mod_eq_of_lt lx, Nat.mod_eq_of_lt ly] at this

theorem sum_cell (b : ℕ) :
    ∑ c ∈ range (2 ^ b) ×ˢ range 32768, (cell b c.1 c.2).card = 2 ^ 64 := by
  have h := card_eq_sum_card_fiberwise (s := range (2 ^ 64))
    (f := fun x => (Spec.xorshift x % 2 ^ b, x % 32768)) (t := range (2 ^ b) ×ˢ range 32768) (by
      intro x _
      rw [Finset.coe_product, Set.mem_prod]
      simp only [coe_range, Set.mem_Iio]
      exact ⟨Nat.mod_lt _ (by positivity), Nat.mod_lt _ (by norm_num)⟩)
  rw [card_range] at h
  rw [h]
  apply sum_congr rfl
  intro c _
  exact congrArg card (filter_congr fun x _ => by rw [Prod.ext_iff])

theorem card_cell {b : ℕ} (hb : b ≤ 39) {q p : ℕ} (hq : q < 2 ^ b) (hp : p < 32768) :
    (cell b q p).card = 2 ^ (49 - b) := by
  have h := sum_cell b
  have hs : ∑ c ∈ range (2 ^ b) ×ˢ range 32768, 2 ^ (49 - b) = 2 ^ 64 := by
    rw [sum_const, card_product, card_range, card_range, smul_eq_mul,
      show 32768 = 2 ^ 15 by norm_num, ← pow_add, ← pow_add]
    congr 1
    omega
  rw [← hs] at h
  have := (sum_eq_sum_iff_of_le (s := range (2 ^ b) ×ˢ range 32768)
    (f := fun c => (cell b c.1 c.2).card) (g := fun _ => 2 ^ (49 - b))
    (fun c _ => card_cell_le hb c.1 c.2)).1 h (q, p)
    (mem_product.2 ⟨mem_range.2 hq, mem_range.2 hp⟩)
  exact this

end Poppy
