import Verif.AbstractBloom
import Mathlib.Data.Nat.Bitwise

/-! Filters as functions of the single bits of their files. -/

namespace Spec

open Poppy (U8)

theorem leVal_testBit (l : List U8) (j : ℕ) : (leVal l).testBit j = bitAt l j := by
  induction l generalizing j with
  | nil => simp [leVal, bitAt]
  | cons b bs ih =>
    have : leVal (b :: bs) = 2 ^ 8 * leVal bs + b.toNat := by
      rw [leVal]; omega
    rw [this, Nat.testBit_two_pow_mul_add _ (by have := b.isLt; omega)]
    unfold bitAt
    split
    · rename_i h
      rw [Nat.div_eq_of_lt h, Nat.mod_eq_of_lt h]
      simp [BitVec.getLsbD]
    · rename_i h
      have e : j / 8 = (j - 8) / 8 + 1 := by omega
      rw [ih, e, show j % 8 = (j - 8) % 8 by omega]
      simp [bitAt]

theorem bitAt_slice (l : List U8) (o n i : ℕ) :
    bitAt ((l.drop o).take n) i = (decide (i < 8 * n) && bitAt l (8 * o + i)) := by
  unfold bitAt
  rw [show (8 * o + i) / 8 = o + i / 8 by omega, show (8 * o + i) % 8 = i % 8 by omega]
  simp only [List.getD_eq_getElem?_getD, List.getElem?_take, List.getElem?_drop]
  by_cases h : i < 8 * n
  · rw [if_pos (by omega), decide_eq_true h, Bool.true_and]
  · rw [if_neg (by omega), decide_eq_false h]
    simp

theorem num_testBit (l : List U8) (o j : ℕ) :
    (num l o).testBit j = (decide (j < 64) && bitAt l (8 * o + j)) := by
  unfold num
  rw [leVal_testBit, bitAt_slice]

theorem num_congr {a b : List U8} {o : ℕ}
    (h : ∀ j < 64, bitAt a (8 * o + j) = bitAt b (8 * o + j)) : num a o = num b o := by
  apply Nat.eq_of_testBit_eq
  intro j
  rw [num_testBit, num_testBit]
  by_cases hj : j < 64
  · rw [h j hj]
  · rw [decide_eq_false hj]; rfl

theorem bit_of_num {a b : List U8} {o : ℕ} (h : num a o = num b o) {p : ℕ} (h1 : 8 * o ≤ p)
    (h2 : p < 8 * o + 64) : bitAt a p = bitAt b p := by
  have := congrArg (fun x => Nat.testBit x (p - 8 * o)) h
  simp only [num_testBit] at this
  rw [decide_eq_true (by omega), show 8 * o + (p - 8 * o) = p by omega] at this
  simpa using this

theorem num_lt (l : List U8) (o : ℕ) : num l o < 2 ^ 64 := by
  apply Nat.lt_pow_two_of_testBit
  intro i hi
  rw [num_testBit, decide_eq_false (by omega)]
  rfl

theorem byte_congr {a b : List U8} {o : ℕ}
    (h : ∀ j < 8, bitAt a (8 * o + j) = bitAt b (8 * o + j)) : a.getD o 0 = b.getD o 0 := by
  apply BitVec.eq_of_getLsbD_eq
  intro j hj
  have := h j hj
  unfold bitAt at this
  rw [show (8 * o + j) / 8 = o by omega, show (8 * o + j) % 8 = j by omega] at this
  exact this

theorem bit_of_byte {a b : List U8} {o : ℕ} (h : a.getD o 0 = b.getD o 0) {p : ℕ} (hp : p / 8 = o) :
    bitAt a p = bitAt b p := by
  unfold bitAt
  rw [hp, h]

/-- A successfully loaded v2 file. -/
theorem load_v2 {lim : ℕ} {bs : List U8} {B : File2} (h : load lim bs = .ok (.inr B)) :
    bs.getD 0 0 = 2#8 ∧
    56 + (num bs 40 + 7) / 8 + num bs (48 + (num bs 40 + 7) / 8) * 4096 ≤ bs.length ∧
    B = ⟨(bs.getD 1 0).toNat, slice bs 2 6, num bs 8, num bs 16, num bs 24, num bs 32,
      slice bs 48 ((num bs 40 + 7) / 8), (List.range (num bs (48 + (num bs 40 + 7) / 8))).map
        fun i => slice bs (56 + (num bs 40 + 7) / 8 + i * 4096) 4096,
      bs.drop (56 + (num bs 40 + 7) / 8 + num bs (48 + (num bs 40 + 7) / 8) * 4096)⟩ := by
  unfold load header at h
  split at h
  · cases h
  split at h
  · cases h
  simp only at h
  split at h
  · cases hb : body1 lim bs <;> rw [hb] at h <;> simp [Load.map] at h
  split at h
  · rename_i h2
    unfold body2 at h
    simp only at h
    repeat' split at h
    all_goals simp only [Load.map, Load.ok.injEq, Sum.inr.injEq, reduceCtorEq] at h
    rename_i hl
    exact ⟨h2, by omega, h.symm⟩
  · cases h

/-- A successfully loaded v1 file. -/
theorem load_v1 {lim : ℕ} {bs : List U8} {B : File1} (h : load lim bs = .ok (.inl B)) :
    bs.getD 0 0 = 1#8 ∧ 48 + (num bs 32 + 63) / 64 * 8 ≤ bs.length ∧
    B = ⟨(bs.getD 1 0).toNat, slice bs 2 6, num bs 8, num bs 16, num bs 24, num bs 32,
      num bs 40, (List.range ((num bs 32 + 63) / 64)).map fun i => num bs (48 + i * 8),
      bs.drop (48 + (num bs 32 + 63) / 64 * 8)⟩ := by
  unfold load header at h
  split at h
  · cases h
  split at h
  · cases h
  simp only at h
  split at h
  · rename_i h2
    unfold body1 at h
    simp only at h
    repeat' split at h
    all_goals simp only [Load.map, Load.ok.injEq, Sum.inl.injEq, reduceCtorEq] at h
    rename_i hl
    exact ⟨h2, by omega, h.symm⟩
  split at h
  · cases hb : body2 lim bs <;> rw [hb] at h <;> simp [Load.map] at h
  · cases h

end Spec

namespace Abs

open Poppy (U8)
open Spec

/-- v2 filters of the same shape whose bits are related. -/
structure Rel2 (R : Bool → Bool → Prop) (a b : F2) : Prop where
  cap : b.cap = a.cap
  fpp : b.fpp = a.fpp
  hashes : b.hashes = a.hashes
  buckets : b.buckets = a.buckets
  cacheBytes : b.cacheBytes = a.cacheBytes
  cache : ∀ i, i < 8 * a.cacheBytes → R (a.cache i) (b.cache i)
  bits : ∀ j i, j < a.buckets → i < 32768 → R (a.bits j i) (b.bits j i)

/-- v1 filters of the same shape whose bits are related. -/
structure Rel1 (R : Bool → Bool → Prop) (a b : F1) : Prop where
  cap : b.cap = a.cap
  fpp : b.fpp = a.fpp
  hashes : b.hashes = a.hashes
  size : b.size = a.size
  bits : ∀ i, i < 64 * ((a.size + 63) / 64) → R (a.bits i) (b.bits i)

/-- Filters of the same version and shape whose bits are related. -/
def Rel (R : Bool → Bool → Prop) : F → F → Prop
  | .v1 a, .v1 b => Rel1 R a b
  | .v2 a, .v2 b => Rel2 R a b
  | _, _ => False

/-- Bytes of a file that state the version and the shape. -/
def Fixed (x : List U8) (i : ℕ) : Prop :=
  if x.getD 0 0 = 1#8 then i = 0 ∨ 8 ≤ i ∧ i < 40
  else i = 0 ∨ 8 ≤ i ∧ i < 32 ∨ 40 ≤ i ∧ i < 48 ∨
    48 + (num x 40 + 7) / 8 ≤ i ∧ i < 56 + (num x 40 + 7) / 8

/-- Bytes of a file that hold bits. -/
def Holds (x : List U8) (i : ℕ) : Prop :=
  if x.getD 0 0 = 1#8 then 48 ≤ i ∧ i < 48 + (num x 32 + 63) / 64 * 8
  else 48 ≤ i ∧ i < 48 + (num x 40 + 7) / 8 ∨ 56 + (num x 40 + 7) / 8 ≤ i ∧
    i < 56 + (num x 40 + 7) / 8 + num x (48 + (num x 40 + 7) / 8) * 4096

/-- The bytes state the same shape as those of `x`, as far as they go, and their bits are related. -/
def Over (R : Bool → Bool → Prop) (x bs : List U8) : Prop :=
  ∀ p, p / 8 < bs.length → (Fixed x (p / 8) → bitAt bs p = bitAt x p) ∧
    (Holds x (p / 8) → R (bitAt x p) (bitAt bs p))

theorem cache_bit (bs : List U8) (c i : ℕ) (h : i < 8 * c) :
    bitAt (slice bs 48 c) i = bitAt bs (384 + i) := by
  unfold slice
  rw [bitAt_slice, decide_eq_true h, Bool.true_and]

theorem bucket_bit (bs : List U8) (o n j i : ℕ) (hj : j < n) (h : i < 32768) :
    bitAt (((List.range n).map fun i => slice bs (o + i * 4096) 4096).getD j []) i
      = bitAt bs (8 * (o + j * 4096) + i) := by
  rw [List.getD_eq_getElem?_getD, List.getElem?_map, List.getElem?_range hj]
  simp only [Option.map_some, Option.getD_some]
  unfold slice
  rw [bitAt_slice, decide_eq_true (by omega), Bool.true_and]

theorem word_bit (bs : List U8) (n i : ℕ) (h : i < 64 * n) :
    (((List.range n).map fun i => num bs (48 + i * 8)).getD (i / 64) 0).testBit (i % 64)
      = bitAt bs (384 + i) := by
  rw [List.getD_eq_getElem?_getD, List.getElem?_map, List.getElem?_range (by omega)]
  simp only [Option.map_some, Option.getD_some]
  rw [num_testBit, decide_eq_true (by omega), Bool.true_and]
  congr 1
  omega

theorem rel_of_over {R : Bool → Bool → Prop} {lim : ℕ} {x bs : List U8} {X B : File1 ⊕ File2}
    {A D : Abs.F} (hx : load lim x = .ok X) (hb : load lim bs = .ok B)
    (hX : loaded (.ok X) = .ok A) (hB : loaded (.ok B) = .ok D) (h : Over R x bs) : Rel R A D := by
  have l8 : 8 ≤ bs.length := by
    by_contra hn
    unfold load header at hb
    rw [if_pos (by omega)] at hb
    cases hb
  have h0 : bs.getD 0 0 = x.getD 0 0 := by
    apply byte_congr
    intro j hj
    refine (h _ (by omega)).1 ?_
    unfold Fixed
    split <;> omega
  rcases X with X | X <;> rcases B with B | B
  · obtain ⟨v1, len1, rfl⟩ := load_v1 hx
    obtain ⟨v2, len2, rfl⟩ := load_v1 hb
    cases hX
    cases hB
    have e : ∀ o, 8 ≤ o → o + 8 ≤ 40 → num bs o = num x o := fun o h1 h2 => num_congr fun j hj =>
      (h _ (by omega)).1 (by unfold Fixed; rw [if_pos v1]; omega)
    have e32 := e 32 (by omega) (by omega)
    refine ⟨e 8 (by omega) (by omega), ?_, e 24 (by omega) (by omega), e32, fun i hi => ?_⟩
    · simp only [ofFile1, e 16 (by omega) (by omega)]
    · simp only [ofFile1] at hi ⊢
      rw [word_bit _ _ _ hi, word_bit _ _ _ (by rw [e32]; exact hi)]
      refine (h _ (by rw [e32] at len2; omega)).2 ?_
      unfold Holds
      rw [if_pos v1]
      omega
  · have v1 := (load_v1 hx).1
    have v2 := (load_v2 hb).1
    rw [v1, v2] at h0
    exact absurd h0 (by decide)
  · have v1 := (load_v2 hx).1
    have v2 := (load_v1 hb).1
    rw [v1, v2] at h0
    exact absurd h0 (by decide)
  · obtain ⟨v1, len1, rfl⟩ := load_v2 hx
    obtain ⟨v2, len2, rfl⟩ := load_v2 hb
    cases hX
    cases hB
    have n1 : ¬ x.getD 0 0 = 1#8 := by rw [v1]; decide
    have e : ∀ o, 8 ≤ o → o + 8 ≤ 32 ∨ o = 40 → num bs o = num x o := fun o h1 h2 =>
      num_congr fun j hj => (h _ (by omega)).1 (by unfold Fixed; rw [if_neg n1]; omega)
    have e40 := e 40 (by omega) (by omega)
    rw [e40] at len2
    have en : num bs (48 + (num x 40 + 7) / 8) = num x (48 + (num x 40 + 7) / 8) := num_congr
      fun j hj => (h _ (by omega)).1 (by unfold Fixed; rw [if_neg n1]; omega)
    rw [en] at len2
    have lc : ∀ bs : List U8, 56 + (num x 40 + 7) / 8 ≤ bs.length →
        (slice bs 48 ((num x 40 + 7) / 8)).length = (num x 40 + 7) / 8 := by
      intro bs hb
      simp only [slice, List.length_take, List.length_drop]
      omega
    refine ⟨e 8 (by omega) (by omega), ?_, e 24 (by omega) (by omega), ?_, ?_, fun i hi => ?_,
      fun j i hj hi => ?_⟩
    · simp only [ofFile2, e 16 (by omega) (by omega)]
    · simp only [ofFile2, List.length_map, List.length_range, e40, en]
    · simp only [ofFile2, e40]
      rw [lc bs (by omega), lc x (by omega)]
    · simp only [ofFile2, e40] at hi ⊢
      rw [lc x (by omega)] at hi
      rw [cache_bit _ _ _ hi, cache_bit _ _ _ hi]
      refine (h _ (by omega)).2 ?_
      unfold Holds
      rw [if_neg n1]
      omega
    · simp only [ofFile2, List.length_map, List.length_range, e40, en] at hj ⊢
      rw [bucket_bit _ _ _ _ _ hj hi, bucket_bit _ _ _ _ _ hj hi]
      refine (h _ (by omega)).2 ?_
      unfold Holds
      rw [if_neg n1]
      omega

theorem over_of_rel {R : Bool → Bool → Prop} {lim : ℕ} {x bs : List U8} {X B : File1 ⊕ File2}
    {A D : Abs.F} (hx : load lim x = .ok X) (hb : load lim bs = .ok B)
    (hX : loaded (.ok X) = .ok A) (hB : loaded (.ok B) = .ok D) (h : Rel R A D)
    (mx : x.getD 0 0 = 2#8 → num x 40 % 8 = 0) (mb : bs.getD 0 0 = 2#8 → num bs 40 % 8 = 0) :
    Over R x bs := by
  intro p hp
  rcases X with X | X <;> rcases B with B | B
  · obtain ⟨v1, len1, rfl⟩ := load_v1 hx
    obtain ⟨v2, len2, rfl⟩ := load_v1 hb
    cases hX
    cases hB
    obtain ⟨e1, e2, e3, e4, e5⟩ := h
    simp only [ofFile1] at e1 e2 e3 e4 e5
    have e2 : num bs 16 = num x 16 := by
      have := congrArg BitVec.toNat e2
      simpa only [BitVec.toNat_ofNat, Nat.mod_eq_of_lt (num_lt _ _)] using this
    unfold Fixed Holds
    rw [if_pos v1, if_pos v1]
    refine ⟨fun hf => ?_, fun hh => ?_⟩
    · rcases hf with hf | hf
      · exact bit_of_byte (v2.trans v1.symm) hf
      · by_cases h1 : p / 8 < 16
        · exact bit_of_num e1 (by omega) (by omega)
        by_cases h2 : p / 8 < 24
        · exact bit_of_num e2 (by omega) (by omega)
        by_cases h3 : p / 8 < 32
        · exact bit_of_num e3 (by omega) (by omega)
        · exact bit_of_num e4 (by omega) (by omega)
    · have := e5 (p - 384) (by omega)
      rw [word_bit _ _ _ (by omega), word_bit _ _ _ (by rw [e4]; omega),
        show 384 + (p - 384) = p by omega] at this
      exact this
  · cases hX; cases hB; exact absurd h id
  · cases hX; cases hB; exact absurd h id
  · obtain ⟨v1, len1, rfl⟩ := load_v2 hx
    obtain ⟨v2, len2, rfl⟩ := load_v2 hb
    cases hX
    cases hB
    obtain ⟨e1, e2, e3, e4, e5, e6, e7⟩ := h
    simp only [ofFile2] at e1 e2 e3 e4 e5 e6 e7
    have n1 : ¬ x.getD 0 0 = 1#8 := by rw [v1]; decide
    have e2 : num bs 16 = num x 16 := by
      have := congrArg BitVec.toNat e2
      simpa only [BitVec.toNat_ofNat, Nat.mod_eq_of_lt (num_lt _ _)] using this
    have lc : ∀ (bs : List U8) c, 48 + c ≤ bs.length → (slice bs 48 c).length = c := by
      intro bs c hb
      simp only [slice, List.length_take, List.length_drop]
      omega
    rw [lc _ _ (by omega), lc _ _ (by omega)] at e5
    rw [lc _ _ (by omega)] at e6
    simp only [List.length_map, List.length_range] at e4 e7
    have m1 := mx v1
    have m2 := mb v2
    have e40 : num bs 40 = num x 40 := by omega
    rw [e40] at e4 e6 e7 len2
    rw [e4] at e7 len2
    unfold Fixed Holds
    rw [if_neg n1, if_neg n1]
    refine ⟨fun hf => ?_, fun hh => ?_⟩
    · rcases hf with hf | hf | hf | hf
      · exact bit_of_byte (v2.trans v1.symm) hf
      · by_cases h1 : p / 8 < 16
        · exact bit_of_num e1 (by omega) (by omega)
        by_cases h2 : p / 8 < 24
        · exact bit_of_num e2 (by omega) (by omega)
        · exact bit_of_num e3 (by omega) (by omega)
      · exact bit_of_num e40 (by omega) (by omega)
      · exact bit_of_num e4 (by omega) (by omega)
    · rcases hh with hh | hh
      · have := e6 (p - 384) (by omega)
        rw [cache_bit _ _ _ (by omega), cache_bit _ _ _ (by omega),
          show 384 + (p - 384) = p by omega] at this
        exact this
      · have hj : (p / 8 - (56 + (num x 40 + 7) / 8)) / 4096 < num x (48 + (num x 40 + 7) / 8) := by
          omega
        have hi : p - 8 * (56 + (num x 40 + 7) / 8 +
            (p / 8 - (56 + (num x 40 + 7) / 8)) / 4096 * 4096) < 32768 := by omega
        have := e7 _ _ hj hi
        rw [bucket_bit _ _ _ _ _ hj hi, bucket_bit _ _ _ _ _ hj hi, Nat.add_sub_cancel'
          (by omega)] at this
        exact this

end Abs
