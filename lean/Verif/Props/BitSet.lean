import Verif.Lemmas.BitSet
import Verif.Lemmas.Sizing

/-! # Bitset properties (C40, C41, C42) -/

namespace Poppy
open Spec

/-! ## C40 read/write laws -/

/-- Setting a bit in range returns the previous value of that bit, makes it readable as set and
leaves what every other index reads unchanged (array bitset). -/
theorem C40_bitset_set {N : ℕ} (s : BitSet N) (i : U64) (h : i.toNat < N * 8) :
    (s.setNthBit i).2 = s.getNthBit i ∧
    (∃ old, s.getNthBit i = .ok old) ∧
    (s.setNthBit i).1.getNthBit i = .ok true ∧
    ∀ j, j ≠ i → (s.setNthBit i).1.getNthBit j = s.getNthBit j := by
  refine ⟨by rw [BitSet.setNthBit_snd s h, BitSet.getNthBit_eq s h],
    ⟨_, BitSet.getNthBit_eq s h⟩, ?_, fun j hj => ?_⟩
  · rw [BitSet.getNthBit_eq _ h, BitSet.bitAt_setNthBit s h]; simp
  · rcases Nat.lt_or_ge j.toNat (N * 8) with hlt | hge
    · rw [BitSet.getNthBit_eq _ hlt, BitSet.getNthBit_eq _ hlt, BitSet.bitAt_setNthBit s h]
      have : j.toNat ≠ i.toNat := fun h' => hj (BitVec.eq_of_toNat_eq h')
      simp [this]
    · rw [BitSet.getNthBit_panic _ hge, BitSet.getNthBit_panic _ hge]

/-- Out of range, reading and writing panic and the bitset is unchanged. -/
theorem C40_bitset_out_of_range {N : ℕ} (s : BitSet N) (i : U64) (h : N * 8 ≤ i.toNat) :
    s.setNthBit i = (s, .panic) ∧ s.getNthBit i = .panic :=
  ⟨BitSet.setNthBit_panic s h, BitSet.getNthBit_panic s h⟩

/-- Every bit of a new bitset, and of a cleared one, reads as unset. -/
theorem C40_bitset_new {N : ℕ} (s : BitSet N) (i : U64) (h : i.toNat < N * 8) :
    (BitSet.new N).getNthBit i = .ok false ∧ s.clear.getNthBit i = .ok false := by
  rw [BitSet.clear_eq, BitSet.getNthBit_eq _ h, BitSet.bitAt_new]
  exact ⟨rfl, rfl⟩

/-- Same laws for the growable bitset; its length never changes. -/
theorem C40_vec_set (s : VecBitSet) (i : U64) (h : i.toNat < s.byteLen * 8) :
    (s.setNthBit i).2 = s.getNthBit i ∧
    (∃ old, s.getNthBit i = .ok old) ∧
    (s.setNthBit i).1.getNthBit i = .ok true ∧
    (∀ j, j ≠ i → (s.setNthBit i).1.getNthBit j = s.getNthBit j) ∧
    (s.setNthBit i).1.byteLen = s.byteLen := by
  have hl : (s.setNthBit i).1.asSlice.length = s.asSlice.length := VecBitSet.length_setNthBit s i
  have h : i.toNat < s.asSlice.length * 8 := h
  refine ⟨by rw [VecBitSet.setNthBit_snd s h, VecBitSet.getNthBit_eq s h],
    ⟨_, VecBitSet.getNthBit_eq s h⟩, ?_, fun j hj => ?_, hl⟩
  · rw [VecBitSet.getNthBit_eq _ (by rw [hl]; exact h), VecBitSet.bitAt_setNthBit s h]; simp
  · rcases Nat.lt_or_ge j.toNat (s.asSlice.length * 8) with hlt | hge
    · rw [VecBitSet.getNthBit_eq _ (by rw [hl]; exact hlt), VecBitSet.getNthBit_eq _ hlt,
        VecBitSet.bitAt_setNthBit s h]
      have : j.toNat ≠ i.toNat := fun h' => hj (BitVec.eq_of_toNat_eq h')
      simp [this]
    · rw [VecBitSet.getNthBit_panic _ (by rw [hl]; exact hge), VecBitSet.getNthBit_panic _ hge]

theorem C40_vec_out_of_range (s : VecBitSet) (i : U64) (h : s.byteLen * 8 ≤ i.toNat) :
    s.setNthBit i = (s, .panic) ∧ s.getNthBit i = .panic :=
  ⟨VecBitSet.setNthBit_panic s h, VecBitSet.getNthBit_panic s h⟩

/-- A growable bitset made for `n` bits has the `⌈n / 8⌉` bytes they need, so that every index below
`n` can be read.  Every bit of a new or cleared growable bitset reads as unset; clearing keeps the
length.  (Above `2 ^ 53` bits, which is a petabyte, `n` is rounded to a float before the division.) -/
theorem C40_vec_new (s : VecBitSet) (n i : U64) :
    (n.toNat ≤ 2 ^ 53 → (VecBitSet.withBitCapacity n).byteLen = (n.toNat + 7) / 8) ∧
    (n.toNat ≤ 2 ^ 53 → i.toNat < n.toNat →
      (VecBitSet.withBitCapacity n).getNthBit i = .ok false) ∧
    (i.toNat < (VecBitSet.withBitCapacity n).byteLen * 8 →
      (VecBitSet.withBitCapacity n).getNthBit i = .ok false) ∧
    (i.toNat < s.byteLen * 8 → s.clear.getNthBit i = .ok false) ∧
    s.clear.byteLen = s.byteLen := by
  have hlen : n.toNat ≤ 2 ^ 53 →
      (VecBitSet.withBitCapacity n).byteLen = (n.toNat + 7) / 8 := fun h => by
    rw [← byteCap_eq h]; simp [VecBitSet.withBitCapacity, VecBitSet.byteLen]
  have hget : i.toNat < (VecBitSet.withBitCapacity n).byteLen * 8 →
      (VecBitSet.withBitCapacity n).getNthBit i = .ok false := fun h => by
    rw [VecBitSet.getNthBit_eq _ h, VecBitSet.bitAt_withBitCapacity]
  refine ⟨hlen, fun hn hi => hget (by rw [hlen hn]; omega), hget, fun h => ?_,
    by simp [VecBitSet.clear, VecBitSet.byteLen]⟩
  · rw [VecBitSet.getNthBit_eq _ (by simpa [VecBitSet.clear, VecBitSet.asSlice, VecBitSet.byteLen] using h)]
    exact congrArg Res.ok (bitAt_map_zero _ _)

-- the hypotheses are met by a set of 16 bits and index 9, with a bit changing and another not
example : (9#64).toNat < 2 * 8 ∧ (BitSet.new 2).getNthBit 9#64 = .ok false ∧
    ((BitSet.new 2).setNthBit 9#64).1.getNthBit 9#64 = .ok true ∧
    ((BitSet.new 2).setNthBit 9#64).1.getNthBit 8#64 = .ok false ∧
    (BitSet.new 2).getNthBit 16#64 = .panic := by decide
example : (9#64).toNat < (VecBitSet.mk [1#8, 4#8]).byteLen * 8 ∧
    (VecBitSet.mk [1#8, 4#8]).setNthBit 9#64 = (⟨[1#8, 6#8]⟩, .ok false) := by decide

/-! ## C41 unset -/

/-- What `unset_nth_bit` should do. -/
def UnsetSpec {α : Type} (get : α → U64 → Res Bool) (s s' : α) (r : Res Bool) (i : U64) : Prop :=
  get s' i = .ok false ∧ r = get s i ∧ ∀ j, j ≠ i → get s' j = get s j

/-- The code violates it on every array bitset and index whose bit is set: the bit stays set.
When the bit is unset the returned value is wrong. -/
theorem C41_bitset_unset_violated {N : ℕ} (s : BitSet N) (i : U64) (h : i.toNat < N * 8) :
    ¬ UnsetSpec BitSet.getNthBit s (s.unsetNthBit i).1 (s.unsetNthBit i).2 i := by
  rintro ⟨h1, h2, -⟩
  rw [BitSet.unsetNthBit_eq s h] at h1 h2
  rw [h1] at h2
  cases h2

theorem C41_vec_unset_violated (s : VecBitSet) (i : U64) (h : i.toNat < s.byteLen * 8) :
    ¬ UnsetSpec VecBitSet.getNthBit s (s.unsetNthBit i).1 (s.unsetNthBit i).2 i := by
  rintro ⟨h1, h2, -⟩
  rw [VecBitSet.unsetNthBit_eq s h] at h1 h2
  rw [h1] at h2
  cases h2

/-- What remains true of C41: other bits are not disturbed (in fact nothing is), and `true` is
returned.  Missing: the bit is not unset and the old value is not returned. -/
theorem C41_unset_partial {N : ℕ} (s : BitSet N) (t : VecBitSet) (i : U64) :
    (i.toNat < N * 8 → s.unsetNthBit i = (s, .ok true)) ∧
    (i.toNat < t.byteLen * 8 → t.unsetNthBit i = (t, .ok true)) :=
  ⟨BitSet.unsetNthBit_eq s, VecBitSet.unsetNthBit_eq t⟩

-- a set bit that stays set
example : (BitSet.mk #v[2#8]).getNthBit 1#64 = .ok true ∧
    ((BitSet.mk #v[2#8]).unsetNthBit 1#64).1.getNthBit 1#64 = .ok true := by decide

/-! ## C42 counting and algebra -/

/-- Number of indexes a bitset of `n` bits reads as set through its public interface. -/
def onesRead (n : ℕ) (get : U64 → Res Bool) : ℕ :=
  countBelow n (fun i => decide (get (BitVec.ofNat 64 i) = .ok true))

/-- Bit reads of an array bitset agree with the bits of `as_slice`. -/
theorem onesRead_bitset {N : ℕ} (hN : N * 8 ≤ 2 ^ 64) (s : BitSet N) :
    onesRead (N * 8) s.getNthBit = countBelow (N * 8) (bitAt s.asSlice) := by
  apply countBelow_congr
  intro i hi
  have hn : (BitVec.ofNat 64 i).toNat = i := by
    rw [BitVec.toNat_ofNat, Nat.mod_eq_of_lt (by omega)]
  rw [BitSet.getNthBit_eq s (by rw [hn]; exact hi), hn]
  simp

theorem onesRead_vec {s : VecBitSet} (hN : s.byteLen * 8 ≤ 2 ^ 64) :
    onesRead (s.byteLen * 8) s.getNthBit = countBelow (s.byteLen * 8) (bitAt s.asSlice) := by
  apply countBelow_congr
  intro i hi
  have hn : (BitVec.ofNat 64 i).toNat = i := by
    rw [BitVec.toNat_ofNat, Nat.mod_eq_of_lt (by omega)]
  rw [VecBitSet.getNthBit_eq s (by rw [hn]; exact hi), hn]
  simp

/-- Array bitset: `count_ones` is the number of indexes read as set, `count_zeros` the rest. -/
theorem C42_bitset_count {N : ℕ} (hN : N * 8 ≤ 2 ^ 64) (s : BitSet N) :
    s.countOnes = onesRead (N * 8) s.getNthBit ∧ s.countOnes + s.countZeros = N * 8 ∧
    s.bitLen = N * 8 ∧ s.byteLen = N := by
  rw [onesRead_bitset hN, BitSet.countOnes_eq, BitSet.countZeros_eq]
  exact ⟨rfl, countBelow_not _ _, rfl, rfl⟩

/-- Array bitset: union and intersection are bitwise or and and on every index,
`count_ones_in_common` counts the intersection, inclusion-exclusion holds. -/
theorem C42_bitset_algebra {N : ℕ} (s t : BitSet N) :
    (∀ i : U64, i.toNat < N * 8 → ∃ a b, s.getNthBit i = .ok a ∧ t.getNthBit i = .ok b ∧
      (s.union t).getNthBit i = .ok (a || b) ∧ (s.intersection t).getNthBit i = .ok (a && b)) ∧
    s.countOnesInCommon t = (s.intersection t).countOnes ∧
    s.countOnes + t.countOnes = (s.union t).countOnes + s.countOnesInCommon t := by
  refine ⟨fun i hi => ⟨_, _, BitSet.getNthBit_eq s hi, BitSet.getNthBit_eq t hi, ?_, ?_⟩,
    BitSet.countOnesInCommon_eq s t, ?_⟩
  · rw [BitSet.getNthBit_eq _ hi, BitSet.bitAt_union]
  · rw [BitSet.getNthBit_eq _ hi, BitSet.bitAt_intersection]
  · rw [BitSet.countOnesInCommon_eq]
    simp only [BitSet.countOnes_eq]
    rw [countBelow_or_and]
    congr 1 <;> apply countBelow_congr <;> intro i _ <;>
      simp [BitSet.bitAt_union, BitSet.bitAt_intersection]

/-- Growable bitset: counts. -/
theorem C42_vec_count (s : VecBitSet) (h : s.byteLen * 8 ≤ 2 ^ 64) :
    s.countOnes = onesRead (s.byteLen * 8) s.getNthBit ∧
    s.countOnes + s.countZeros = s.byteLen * 8 := by
  rw [onesRead_vec h, VecBitSet.countOnes_eq, VecBitSet.countZeros_eq]
  exact ⟨rfl, countBelow_not _ _⟩

/-- Growable bitset: algebra for equal lengths. -/
theorem C42_vec_algebra (s t : VecBitSet) (hl : s.byteLen = t.byteLen) :
    (s.union t).2 = .ok () ∧ (s.intersection t).2 = .ok () ∧
    (∀ i : U64, i.toNat < s.byteLen * 8 → ∃ a b, s.getNthBit i = .ok a ∧ t.getNthBit i = .ok b ∧
      (s.union t).1.getNthBit i = .ok (a || b) ∧
      (s.intersection t).1.getNthBit i = .ok (a && b)) ∧
    s.countOnesInCommon t = .ok (s.intersection t).1.countOnes ∧
    s.countOnes + t.countOnes = (s.union t).1.countOnes + (s.intersection t).1.countOnes := by
  have hl' : s.asSlice.length = t.asSlice.length := hl
  have hu := VecBitSet.length_union s t
  have hi' := VecBitSet.length_intersection s t
  refine ⟨by simp [VecBitSet.union, hl], by simp [VecBitSet.intersection, hl],
    fun i hi => ⟨_, _, VecBitSet.getNthBit_eq s hi, VecBitSet.getNthBit_eq t (by rwa [← hl'])
      , ?_, ?_⟩, ?_, ?_⟩
  · rw [VecBitSet.getNthBit_eq _ (by rw [hu]; exact hi), VecBitSet.bitAt_union hl']
  · rw [VecBitSet.getNthBit_eq _ (by rw [hi']; exact hi), VecBitSet.bitAt_intersection hl']
  · simp [VecBitSet.countOnesInCommon, VecBitSet.intersection, hl, VecBitSet.countOnes]
  · simp only [VecBitSet.countOnes_eq, hu, hi', ← hl']
    rw [countBelow_or_and]
    congr 1 <;> apply countBelow_congr <;> intro i _ <;>
      simp [VecBitSet.bitAt_union hl', VecBitSet.bitAt_intersection hl']

/-- Growable bitset: operations on different lengths panic and change nothing. -/
theorem C42_vec_mismatch (s t : VecBitSet) (h : s.byteLen ≠ t.byteLen) :
    s.union t = (s, .panic) ∧ s.intersection t = (s, .panic) ∧ s.countOnesInCommon t = .panic := by
  simp [VecBitSet.union, VecBitSet.intersection, VecBitSet.countOnesInCommon, h]

example : (BitSet.mk #v[3#8, 128#8]).countOnes = 3 ∧ (BitSet.mk #v[3#8, 128#8]).countZeros = 13 ∧
    (BitSet.mk #v[3#8, 128#8]).countOnesInCommon (BitSet.mk #v[6#8, 129#8]) = 2 := by decide
example : (VecBitSet.mk [3#8]).byteLen = (VecBitSet.mk [6#8]).byteLen ∧
    (VecBitSet.mk [3#8]).countOnesInCommon (VecBitSet.mk [6#8]) = .ok 1 ∧
    (VecBitSet.mk [3#8]).byteLen ≠ (VecBitSet.mk []).byteLen := by decide

end Poppy
