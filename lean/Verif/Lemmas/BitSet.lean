import Verif.Lemmas.BitList
import Verif.Model.BitSet

/-! Bit-level characterisation of both bitsets. -/

namespace Poppy
open Spec

theorem and_seven (i : U64) : (i &&& 7#64).toNat = i.toNat % 8 := by
  rw [BitVec.toNat_and]
  exact Nat.and_two_pow_sub_one_eq_mod i.toNat 3

theorem div_eight (i : U64) : (i / 8#64).toNat = i.toNat / 8 := by
  rw [BitVec.toNat_udiv]; rfl

theorem bitMask_eq (i : U64) : bitMask i = (1 : U8) <<< (i.toNat % 8) := by
  unfold bitMask; rw [and_seven]; rfl

theorem valueMask_true (i : U64) : valueMask i true = (1 : U8) <<< (i.toNat % 8) := by
  unfold valueMask; rw [and_seven]; rfl

theorem valueMask_false (i : U64) : valueMask i false = 0 := by
  unfold valueMask; simp

namespace BitSet
variable {N : ℕ}

theorem length_asSlice (s : BitSet N) : s.asSlice.length = N := by simp [asSlice]

theorem ext_asSlice {s t : BitSet N} (h : s.asSlice = t.asSlice) : s = t := by
  cases s; cases t; simp only [asSlice] at h
  congr
  exact Vector.toList_inj.1 h

theorem ext_bits {s t : BitSet N} (h : ∀ i < N * 8, bitAt s.asSlice i = bitAt t.asSlice i) :
    s = t := by
  apply ext_asSlice
  apply bitAt_ext (by simp [length_asSlice])
  intro i hi
  rw [length_asSlice] at hi
  exact h i hi

theorem getElem_eq_getD (s : BitSet N) {k : ℕ} (h : k < N) :
    s.bytes[k] = s.asSlice.getD k 0 := by
  simp [asSlice, List.getD, h]

theorem getNthBit_eq (s : BitSet N) {i : U64} (h : i.toNat < N * 8) :
    s.getNthBit i = .ok (bitAt s.asSlice i.toNat) := by
  have hk : (i / 8#64).toNat < N := by rw [div_eight]; omega
  unfold getNthBit
  simp only [hk, dif_pos]
  rw [bitMask_eq, and_mask_beq _ (Nat.mod_lt _ (by norm_num)), getElem_eq_getD]
  simp only [div_eight, bitAt]

theorem getNthBit_panic (s : BitSet N) {i : U64} (h : N * 8 ≤ i.toNat) :
    s.getNthBit i = .panic := by
  have hk : ¬ (i / 8#64).toNat < N := by rw [div_eight]; omega
  unfold getNthBit
  simp only [hk, dif_neg, not_false_eq_true]

theorem setNthBit_snd (s : BitSet N) {i : U64} (h : i.toNat < N * 8) :
    (s.setNthBit i).2 = .ok (bitAt s.asSlice i.toNat) := by
  have hk : (i / 8#64).toNat < N := by rw [div_eight]; omega
  unfold setNthBit setValueNthBit
  simp only [hk, dif_pos]
  rw [valueMask_true, and_mask_beq _ (Nat.mod_lt _ (by norm_num)), getElem_eq_getD]
  simp only [div_eight, bitAt]

theorem setNthBit_asSlice (s : BitSet N) {i : U64} (h : i.toNat < N * 8) :
    (s.setNthBit i).1.asSlice =
      s.asSlice.set (i.toNat / 8) (s.asSlice.getD (i.toNat / 8) 0 ||| ((1 : U8) <<< (i.toNat % 8))) := by
  have hk : (i / 8#64).toNat < N := by rw [div_eight]; omega
  unfold setNthBit setValueNthBit
  simp only [hk, dif_pos]
  rw [valueMask_true, getElem_eq_getD]
  simp [asSlice, Vector.toList_set]

theorem bitAt_setNthBit (s : BitSet N) {i : U64} (h : i.toNat < N * 8) (j : ℕ) :
    bitAt (s.setNthBit i).1.asSlice j = (bitAt s.asSlice j || decide (j = i.toNat)) := by
  rw [setNthBit_asSlice s h]
  exact bitAt_set_or _ (by rwa [length_asSlice]) j

theorem setNthBit_of_set (s : BitSet N) {i : U64} (h : i.toNat < N * 8)
    (hb : bitAt s.asSlice i.toNat = true) : (s.setNthBit i).1 = s := by
  apply ext_asSlice
  rw [setNthBit_asSlice s h, or_mask_self _ hb, set_getD_self]

theorem setNthBit_panic (s : BitSet N) {i : U64} (h : N * 8 ≤ i.toNat) :
    s.setNthBit i = (s, .panic) := by
  have hk : ¬ (i / 8#64).toNat < N := by rw [div_eight]; omega
  unfold setNthBit setValueNthBit
  simp only [hk, dif_neg, not_false_eq_true]

theorem unsetNthBit_eq (s : BitSet N) {i : U64} (h : i.toNat < N * 8) :
    s.unsetNthBit i = (s, .ok true) := by
  have hk : (i / 8#64).toNat < N := by rw [div_eight]; omega
  unfold unsetNthBit setValueNthBit
  simp only [hk, dif_pos, valueMask_false]
  simp

theorem bitAt_new (i : ℕ) : bitAt (BitSet.new N).asSlice i = false := by
  have : (BitSet.new N).asSlice = List.replicate N 0 := by simp [asSlice, BitSet.new]
  rw [this]; exact bitAt_replicate_zero _ _

theorem clear_eq (s : BitSet N) : s.clear = BitSet.new N := by
  apply ext_asSlice
  simp [asSlice, clear, BitSet.new, Vector.toList_map]

theorem bitAt_union (s t : BitSet N) (i : ℕ) :
    bitAt (s.union t).asSlice i = (bitAt s.asSlice i || bitAt t.asSlice i) := by
  have : (s.union t).asSlice = List.zipWith (· ||| ·) s.asSlice t.asSlice := by
    simp [asSlice, union]
  rw [this]; exact bitAt_zipWith_or (by simp [length_asSlice]) i

theorem bitAt_intersection (s t : BitSet N) (i : ℕ) :
    bitAt (s.intersection t).asSlice i = (bitAt s.asSlice i && bitAt t.asSlice i) := by
  have : (s.intersection t).asSlice = List.zipWith (· &&& ·) s.asSlice t.asSlice := by
    simp [asSlice, intersection]
  rw [this]; exact bitAt_zipWith_and (by simp [length_asSlice]) i

theorem countOnes_eq (s : BitSet N) : s.countOnes = countBelow (N * 8) (bitAt s.asSlice) := by
  have := sum_countOnes s.asSlice
  rw [length_asSlice] at this
  exact this

theorem countZeros_eq (s : BitSet N) :
    s.countZeros = countBelow (N * 8) (fun i => !bitAt s.asSlice i) := by
  have := sum_countZeros s.asSlice
  rw [length_asSlice] at this
  exact this

theorem countOnesInCommon_eq (s t : BitSet N) :
    s.countOnesInCommon t = (s.intersection t).countOnes := by
  simp [countOnesInCommon, countOnes, intersection]

theorem countOnes_le (s : BitSet N) : s.countOnes ≤ N * 8 := by
  rw [countOnes_eq]; exact countBelow_le _ _

end BitSet

namespace VecBitSet

theorem ext_bits {s t : VecBitSet} (hl : s.asSlice.length = t.asSlice.length)
    (h : ∀ i < s.asSlice.length * 8, bitAt s.asSlice i = bitAt t.asSlice i) : s = t := by
  cases s; cases t
  congr
  exact bitAt_ext hl h

theorem getElem?_eq_getD (s : VecBitSet) {k : ℕ} (h : k < s.bytes.length) :
    s.bytes[k]? = some (s.asSlice.getD k 0) := by
  simp [asSlice, List.getD, h]

theorem getNthBit_eq (s : VecBitSet) {i : U64} (h : i.toNat < s.asSlice.length * 8) :
    s.getNthBit i = .ok (bitAt s.asSlice i.toNat) := by
  have hk : (i / 8#64).toNat < s.bytes.length := by
    rw [div_eight]; exact Nat.div_lt_of_lt_mul (by rwa [Nat.mul_comm])
  unfold getNthBit
  simp only [getElem?_eq_getD s hk]
  rw [bitMask_eq, and_mask_beq _ (Nat.mod_lt _ (by norm_num))]
  simp only [div_eight, bitAt]

theorem getNthBit_panic (s : VecBitSet) {i : U64} (h : s.asSlice.length * 8 ≤ i.toNat) :
    s.getNthBit i = .panic := by
  have hk : s.bytes.length ≤ (i / 8#64).toNat := by
    rw [div_eight]; exact (Nat.le_div_iff_mul_le (by norm_num)).2 h
  unfold getNthBit
  simp only [List.getElem?_eq_none hk]

theorem setNthBit_snd (s : VecBitSet) {i : U64} (h : i.toNat < s.asSlice.length * 8) :
    (s.setNthBit i).2 = .ok (bitAt s.asSlice i.toNat) := by
  have hk : (i / 8#64).toNat < s.bytes.length := by
    rw [div_eight]; exact Nat.div_lt_of_lt_mul (by rwa [Nat.mul_comm])
  unfold setNthBit setValueNthBit
  simp only [getElem?_eq_getD s hk]
  rw [valueMask_true, and_mask_beq _ (Nat.mod_lt _ (by norm_num))]
  simp only [div_eight, bitAt]

theorem setNthBit_asSlice (s : VecBitSet) {i : U64} (h : i.toNat < s.asSlice.length * 8) :
    (s.setNthBit i).1.asSlice =
      s.asSlice.set (i.toNat / 8) (s.asSlice.getD (i.toNat / 8) 0 ||| ((1 : U8) <<< (i.toNat % 8))) := by
  have hk : (i / 8#64).toNat < s.bytes.length := by
    rw [div_eight]; exact Nat.div_lt_of_lt_mul (by rwa [Nat.mul_comm])
  unfold setNthBit setValueNthBit
  simp only [getElem?_eq_getD s hk]
  rw [valueMask_true]
  simp [asSlice]

theorem length_setNthBit (s : VecBitSet) (i : U64) :
    (s.setNthBit i).1.asSlice.length = s.asSlice.length := by
  unfold setNthBit setValueNthBit
  simp only
  split <;> simp [asSlice]

theorem bitAt_setNthBit (s : VecBitSet) {i : U64} (h : i.toNat < s.asSlice.length * 8) (j : ℕ) :
    bitAt (s.setNthBit i).1.asSlice j = (bitAt s.asSlice j || decide (j = i.toNat)) := by
  rw [setNthBit_asSlice s h]
  exact bitAt_set_or _ h j

theorem setNthBit_of_set (s : VecBitSet) {i : U64} (h : i.toNat < s.asSlice.length * 8)
    (hb : bitAt s.asSlice i.toNat = true) : (s.setNthBit i).1 = s := by
  have : (s.setNthBit i).1.asSlice = s.asSlice := by
    rw [setNthBit_asSlice s h, or_mask_self _ hb, set_getD_self]
  cases h1 : (s.setNthBit i).1; cases s
  rw [h1] at this
  exact congrArg VecBitSet.mk this

theorem setNthBit_panic (s : VecBitSet) {i : U64} (h : s.asSlice.length * 8 ≤ i.toNat) :
    s.setNthBit i = (s, .panic) := by
  have hk : s.bytes.length ≤ (i / 8#64).toNat := by
    rw [div_eight]; exact (Nat.le_div_iff_mul_le (by norm_num)).2 h
  unfold setNthBit setValueNthBit
  simp only [List.getElem?_eq_none hk]

theorem unsetNthBit_eq (s : VecBitSet) {i : U64} (h : i.toNat < s.asSlice.length * 8) :
    s.unsetNthBit i = (s, .ok true) := by
  have hk : (i / 8#64).toNat < s.bytes.length := by
    rw [div_eight]; exact Nat.div_lt_of_lt_mul (by rwa [Nat.mul_comm])
  unfold unsetNthBit setValueNthBit
  simp only [valueMask_false, List.getElem?_eq_getElem hk]
  simp

theorem bitAt_withBitCapacity (n : U64) (i : ℕ) :
    bitAt (withBitCapacity n).asSlice i = false := bitAt_replicate_zero _ _

theorem bitAt_union {s t : VecBitSet} (hl : s.asSlice.length = t.asSlice.length) (i : ℕ) :
    bitAt (s.union t).1.asSlice i = (bitAt s.asSlice i || bitAt t.asSlice i) := by
  have : (s.union t).1.asSlice = List.zipWith (· ||| ·) s.asSlice t.asSlice := by
    simp only [asSlice] at hl ⊢
    simp [union, byteLen, hl]
  rw [this]; exact bitAt_zipWith_or hl i

theorem bitAt_intersection {s t : VecBitSet} (hl : s.asSlice.length = t.asSlice.length) (i : ℕ) :
    bitAt (s.intersection t).1.asSlice i = (bitAt s.asSlice i && bitAt t.asSlice i) := by
  have : (s.intersection t).1.asSlice = List.zipWith (· &&& ·) s.asSlice t.asSlice := by
    simp only [asSlice] at hl ⊢
    simp [intersection, byteLen, hl]
  rw [this]; exact bitAt_zipWith_and hl i

theorem length_union (s t : VecBitSet) : (s.union t).1.asSlice.length = s.asSlice.length := by
  unfold union; split
  · simp_all [asSlice, byteLen]
  · rfl

theorem length_intersection (s t : VecBitSet) :
    (s.intersection t).1.asSlice.length = s.asSlice.length := by
  unfold intersection; split
  · simp_all [asSlice, byteLen]
  · rfl

theorem countOnes_eq (s : VecBitSet) :
    s.countOnes = countBelow (s.asSlice.length * 8) (bitAt s.asSlice) := sum_countOnes s.asSlice

theorem countZeros_eq (s : VecBitSet) :
    s.countZeros = countBelow (s.asSlice.length * 8) (fun i => !bitAt s.asSlice i) :=
  sum_countZeros s.asSlice

end VecBitSet

end Poppy
