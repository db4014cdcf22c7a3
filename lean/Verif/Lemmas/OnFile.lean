import Verif.Lemmas.Overlap
import Verif.OnFileSpec

/-! Membership in terms of the bits of a file. -/

namespace Abs

open Poppy (U8)
open Spec

theorem slot_lt (x c : ℕ) (h : c ≠ 0) : Nat.land x (8 * c - 1) < 8 * c := by
  have : Nat.land x (8 * c - 1) ≤ 8 * c - 1 := Nat.and_le_right
  omega

/-- A v2 filter is what these bytes hold. -/
structure In2 (bs : List U8) (a : F2) : Prop where
  version : bs.getD 0 0 = 2#8
  cap : a.cap = num bs 8
  hashes : a.hashes = num bs 24
  buckets : a.buckets = bucketCount bs
  cacheBytes : a.cacheBytes = cacheLen bs
  cache : ∀ i < 8 * a.cacheBytes, a.cache i = bitAt bs (384 + i)
  bits : ∀ j i, j < a.buckets → i < 32768 →
    a.bits j i = bitAt bs (8 * (56 + cacheLen bs) + 32768 * j + i)

/-- A v1 filter is what these bytes hold. -/
structure In1 (bs : List U8) (a : F1) : Prop where
  version : bs.getD 0 0 = 1#8
  hashes : a.hashes = num bs 24
  size : a.size = num bs 32
  bits : ∀ i < a.size, a.bits i = bitAt bs (384 + i)

/-- A filter is what these bytes hold. -/
def In (bs : List U8) : F → Prop
  | .v1 a => In1 bs a
  | .v2 a => In2 bs a

theorem in_of_load {lim : ℕ} {bs : List U8} {X : File1 ⊕ File2} {A : F} (h : load lim bs = .ok X)
    (hA : loaded (.ok X) = .ok A) : In bs A := by
  rcases X with X | X
  · obtain ⟨v, len, rfl⟩ := load_v1 h
    cases hA
    refine ⟨v, rfl, rfl, fun i hi => ?_⟩
    simp only [ofFile1] at hi ⊢
    exact word_bit _ _ _ (by omega)
  · obtain ⟨v, len, rfl⟩ := load_v2 h
    cases hA
    have lc : (slice bs 48 ((num bs 40 + 7) / 8)).length = (num bs 40 + 7) / 8 := by
      simp only [slice, List.length_take, List.length_drop]
      omega
    refine ⟨v, rfl, rfl, by simp [ofFile2, bucketCount, cacheLen], lc, fun i hi => ?_,
      fun j i hj hi => ?_⟩
    · simp only [ofFile2] at hi ⊢
      rw [lc] at hi
      exact cache_bit _ _ _ hi
    · simp only [ofFile2, List.length_map, List.length_range] at hj ⊢
      rw [bucket_bit _ _ _ _ _ hj hi]
      congr 1
      unfold cacheLen
      omega

theorem In2.of_rel {bs : List U8} {a b : F2} (r : Rel2 Eq a b) (h : In2 bs b) : In2 bs a where
  version := h.version
  cap := by rw [← r.cap, h.cap]
  hashes := by rw [← r.hashes, h.hashes]
  buckets := by rw [← r.buckets, h.buckets]
  cacheBytes := by rw [← r.cacheBytes, h.cacheBytes]
  cache i hi := by rw [r.cache i hi, h.cache i (by rw [r.cacheBytes]; exact hi)]
  bits j i hj hi := by rw [r.bits j i hj hi, h.bits j i (by rw [r.buckets]; exact hj) hi]

theorem In1.of_rel {bs : List U8} {a b : F1} (r : Rel1 Eq a b) (h : In1 bs b) : In1 bs a where
  version := h.version
  hashes := by rw [← r.hashes, h.hashes]
  size := by rw [← r.size, h.size]
  bits i hi := by rw [r.bits i (by omega), h.bits i (by rw [r.size]; exact hi)]

variable {Key : Type} {c : Cfg Key} {k : Key}

theorem In2.slot_bit {bs : List U8} {a : F2} (w : In2 bs a) (h : a.cacheBytes ≠ 0) :
    a.cache (a.slot c k) = bitAt bs (slotPlace bs (c.h1 k)) := by
  unfold F2.slot slotPlace
  rw [← w.cacheBytes, Nat.mul_comm a.cacheBytes, w.cache _ (slot_lt _ _ h)]

theorem In2.place_bit {bs : List U8} {a : F2} (w : In2 bs a) (h : a.buckets ≠ 0) (n : ℕ) :
    a.bits (a.bucket c k) (F2.position c k n) = bitAt bs (place2 bs (c.h1 k) (c.h2 k) n) := by
  rw [w.bits (a.bucket c k) (F2.position c k n) (Nat.mod_lt _ (by omega)) (Nat.mod_lt _ (by omega))]
  unfold place2 F2.bucket F2.position
  rw [w.buckets]

theorem In2.covered {bs : List U8} {a : F2} (w : In2 bs a) (h : a.buckets ≠ 0) :
    a.covered c k = decide (∀ n < num bs 24, bitAt bs (place2 bs (c.h1 k) (c.h2 k) n) = true) := by
  unfold F2.covered
  rw [← w.hashes]
  simp only [w.place_bit h]

theorem In1.place_bit {bs : List U8} {a : F1} (w : In1 bs a) (h : a.size ≠ 0) (k : List U8) (n : ℕ) :
    a.bits (dcsoProbe k a.size n) = bitAt bs (place1 bs k n) := by
  rw [w.bits (dcsoProbe k a.size n) (Nat.mod_lt _ (by omega))]
  unfold place1
  rw [w.size]

/-! ## The bits of a file -/

theorem bitAt_append (l r : List U8) (o : ℕ) :
    bitAt (l ++ r) o = if o < 8 * l.length then bitAt l o else bitAt r (o - 8 * l.length) := by
  unfold bitAt
  simp only [List.getD_eq_getElem?_getD]
  split
  · rw [List.getElem?_append_left (by omega)]
  · rw [List.getElem?_append_right (by omega), show (o - 8 * l.length) / 8 = o / 8 - l.length by omega,
      show (o - 8 * l.length) % 8 = o % 8 by omega]

theorem bitAt_pack (n : ℕ) (p : ℕ → Bool) (i : ℕ) (h : i < 8 * n) : bitAt (pack n p) i = p i := by
  unfold bitAt pack
  rw [List.getD_eq_getElem?_getD, List.getElem?_map, List.getElem?_range (by omega)]
  simp only [Option.map_some, Option.getD_some, BitVec.getLsbD_ofNat]
  rw [decide_eq_true (by omega), Bool.true_and, Nat.testBit_ofBits_lt _ _ (by omega)]
  congr 1
  simp only
  omega

theorem length_pack (n : ℕ) (p : ℕ → Bool) : (pack n p).length = n := by simp [pack]

theorem length_packs (n : ℕ) (p : ℕ → ℕ → Bool) :
    ((List.range n).map fun j => pack 4096 (p j)).flatten.length = 4096 * n := by
  induction n with
  | zero => rfl
  | succ n ih => rw [List.range_succ, List.map_append, List.flatten_append, List.length_append, ih]; simp [length_pack]; omega

theorem bitAt_packs (n : ℕ) (p : ℕ → ℕ → Bool) (i : ℕ) (h : i < 32768 * n) :
    bitAt ((List.range n).map fun j => pack 4096 (p j)).flatten i = p (i / 32768) (i % 32768) := by
  induction n with
  | zero => omega
  | succ n ih =>
    rw [List.range_succ, List.map_append, List.flatten_append, bitAt_append, length_packs]
    split
    · exact ih (by omega)
    · simp only [List.map_cons, List.map_nil, List.flatten_cons, List.flatten_nil, List.append_nil]
      rw [bitAt_pack _ _ _ (by omega)]
      congr 1 <;> omega

theorem length_les (l : List ℕ) : (l.map (le 8)).flatten.length = 8 * l.length := by
  induction l with
  | nil => rfl
  | cons a l ih => rw [List.map_cons, List.flatten_cons, List.length_append, ih]; simp [le]; omega

theorem bitAt_le (x i : ℕ) (h : i < 64) : bitAt (le 8 x) i = x.testBit i := by
  rw [← leVal_testBit, Poppy.Bloom.leVal_le8, Nat.testBit_mod_two_pow, decide_eq_true h, Bool.true_and]

theorem bitAt_words (n : ℕ) (p : ℕ → Bool) (i : ℕ) (h : i < 64 * n) :
    bitAt ((Abs.words n p).map (le 8)).flatten i = p i := by
  induction n with
  | zero => omega
  | succ n ih =>
    unfold Abs.words at *
    rw [List.range_succ, List.map_append, List.map_append, List.flatten_append, bitAt_append,
      length_les, List.length_map, List.length_range]
    split
    · exact ih (by omega)
    · simp only [List.map_cons, List.map_nil, List.flatten_cons, List.flatten_nil, List.append_nil]
      rw [bitAt_le _ _ (by omega), Nat.testBit_ofBits_lt _ _ (by omega)]
      congr 1
      simp only
      omega

/-- The bytes before the count of a v2 file. -/
def head2 (a : F2) : List U8 :=
  [2, BitVec.ofNat 8 (level a.flags.opt), 0, 0, 0, 0, 0, 0] ++ le 8 a.cap ++ le 8 a.fpp.toNat
    ++ le 8 a.hashes

theorem file2_eq (a : F2) : a.file = head2 a ++ (le 8 a.count ++ (le 8 (a.cacheBytes * 8) ++
    (pack a.cacheBytes a.cache ++ (le 8 a.buckets ++
    (((List.range a.buckets).map fun j => pack 4096 (a.bits j)).flatten ++ a.data))))) := by
  simp only [F2.file, v2Bytes, head2, length_pack, List.length_map, List.length_range,
    List.append_assoc]

theorem length_file2 (a : F2) :
    a.file.length = 56 + a.cacheBytes + 4096 * a.buckets + a.data.length := by
  rw [file2_eq]
  simp only [head2, List.length_append, length_pack, length_packs]
  simp [le]
  omega

/-- The bits of a v2 file. -/
theorem file2_bit (a : F2) (o : ℕ) : bitAt a.file o =
    if o < 256 then bitAt (head2 a) o
    else if o < 320 then bitAt (le 8 a.count) (o - 256)
    else if o < 384 then bitAt (le 8 (a.cacheBytes * 8)) (o - 320)
    else if o < 384 + 8 * a.cacheBytes then a.cache (o - 384)
    else if o < 8 * (56 + a.cacheBytes) then bitAt (le 8 a.buckets) (o - 384 - 8 * a.cacheBytes)
    else if o < 8 * (56 + a.cacheBytes) + 32768 * a.buckets then
      a.bits ((o - 8 * (56 + a.cacheBytes)) / 32768) ((o - 8 * (56 + a.cacheBytes)) % 32768)
    else bitAt a.data (o - 8 * (56 + a.cacheBytes) - 32768 * a.buckets) := by
  have hl : (head2 a).length = 32 := by simp [head2, le]
  have l8 : ∀ n, (le 8 n).length = 8 := fun n => by simp [le]
  rw [file2_eq]
  simp only [bitAt_append, hl, l8, length_pack, length_packs]
  by_cases h1 : o < 256
  · rw [if_pos h1, if_pos h1]
  rw [if_neg h1, if_neg h1]
  by_cases h2 : o < 320
  · rw [if_pos (by omega), if_pos h2]
  rw [if_neg (by omega), if_neg h2]
  by_cases h3 : o < 384
  · rw [if_pos (by omega), if_pos h3]
    exact congrArg _ (by omega)
  rw [if_neg (by omega), if_neg h3]
  by_cases h4 : o < 384 + 8 * a.cacheBytes
  · rw [if_pos (by omega), if_pos h4, bitAt_pack _ _ _ (by omega)]
    exact congrArg _ (by omega)
  rw [if_neg (by omega), if_neg h4]
  by_cases h5 : o < 8 * (56 + a.cacheBytes)
  · rw [if_pos (by omega), if_pos h5]
    exact congrArg _ (by omega)
  rw [if_neg (by omega), if_neg h5]
  by_cases h6 : o < 8 * (56 + a.cacheBytes) + 32768 * a.buckets
  · rw [if_pos (by omega), if_pos h6, bitAt_packs _ _ _ (by omega)]
    congr 1 <;> omega
  rw [if_neg (by omega), if_neg h6]
  exact congrArg _ (by omega)

/-- The bytes before the count of a v1 file. -/
def head1 (a : F1) : List U8 :=
  [1, 0, 0, 0, 0, 0, 0, 0] ++ le 8 a.cap ++ le 8 a.fpp.toNat ++ le 8 a.hashes ++ le 8 a.size

theorem file1_eq (a : F1) : a.file = head1 a ++ (le 8 a.count ++
    (((Abs.words a.words a.bits).map (le 8)).flatten ++ a.data)) := by
  simp only [F1.file, v1Bytes, head1, List.append_assoc]

theorem length_file1 (a : F1) : a.file.length = 48 + 8 * a.words + a.data.length := by
  rw [file1_eq]
  simp only [head1, List.length_append, length_les, Abs.words, List.length_map, List.length_range]
  simp [le]
  omega

/-- The bits of a v1 file. -/
theorem file1_bit (a : F1) (o : ℕ) : bitAt a.file o =
    if o < 320 then bitAt (head1 a) o
    else if o < 384 then bitAt (le 8 a.count) (o - 320)
    else if o < 384 + 64 * a.words then a.bits (o - 384)
    else bitAt a.data (o - 384 - 64 * a.words) := by
  have hl : (head1 a).length = 40 := by simp [head1, le]
  have l8 : ∀ n, (le 8 n).length = 8 := fun n => by simp [le]
  have lw : ((Abs.words a.words a.bits).map (le 8)).flatten.length = 8 * a.words := by
    rw [length_les]; simp [Abs.words]
  rw [file1_eq]
  simp only [bitAt_append, hl, l8, lw]
  by_cases h1 : o < 320
  · rw [if_pos h1, if_pos h1]
  rw [if_neg h1, if_neg h1]
  by_cases h2 : o < 384
  · rw [if_pos (by omega), if_pos h2]
  rw [if_neg (by omega), if_neg h2]
  by_cases h3 : o < 384 + 64 * a.words
  · rw [if_pos (by omega), if_pos h3, bitAt_words _ _ _ (by omega)]
    exact congrArg _ (by omega)
  rw [if_neg (by omega), if_neg h3]
  exact congrArg _ (by omega)

/-- The number at the place of the count. -/
theorem file_count (h t : List U8) (n : ℕ) : num (h ++ (le 8 n ++ t)) h.length = n % 2 ^ 64 := by
  unfold num
  rw [List.drop_append_of_le_length (le_refl _), List.drop_length, List.nil_append,
    List.take_append_of_le_length (by simp [le]), List.take_of_length_le (by simp [le]),
    Poppy.Bloom.leVal_le8]

/-- The effect of setting bits of a v2 filter on its file. -/
theorem file2_change {a a' : F2} (h1 : a'.flags = a.flags) (h2 : a'.cap = a.cap)
    (h3 : a'.fpp = a.fpp) (h4 : a'.hashes = a.hashes) (h5 : a'.buckets = a.buckets)
    (h6 : a'.cacheBytes = a.cacheBytes) (h7 : a'.data = a.data) {P : ℕ → Prop}
    (hP : ∀ o, P o → 384 ≤ o ∧ o < 384 + 8 * a.cacheBytes ∨
      8 * (56 + a.cacheBytes) ≤ o ∧ o < 8 * (56 + a.cacheBytes) + 32768 * a.buckets)
    (hc : ∀ i < 8 * a.cacheBytes, a'.cache i = true ↔ a.cache i = true ∨ P (384 + i))
    (hb : ∀ j i, j < a.buckets → i < 32768 →
      (a'.bits j i = true ↔ a.bits j i = true ∨ P (8 * (56 + a.cacheBytes) + 32768 * j + i)))
    {o : ℕ} (ho : o < 256 ∨ 320 ≤ o) :
    bitAt a'.file o = true ↔ bitAt a.file o = true ∨ P o := by
  have eh : head2 a' = head2 a := by unfold head2; rw [h1, h2, h3, h4]
  have out : ¬ (384 ≤ o ∧ o < 384 + 8 * a.cacheBytes ∨ 8 * (56 + a.cacheBytes) ≤ o ∧
      o < 8 * (56 + a.cacheBytes) + 32768 * a.buckets) → ∀ x : Bool, (x = true ↔ x = true ∨ P o) := by
    intro hn x
    exact ⟨.inl, fun h => h.elim id fun h => absurd (hP o h) hn⟩
  rw [file2_bit, file2_bit, eh, h5, h6, h7]
  by_cases c1 : o < 256
  · rw [if_pos c1, if_pos c1]; exact out (by omega) _
  have c1' : ¬ o < 320 := by omega
  rw [if_neg c1, if_neg c1, if_neg c1', if_neg c1']
  by_cases c2 : o < 384
  · rw [if_pos c2, if_pos c2]; exact out (by omega) _
  rw [if_neg c2, if_neg c2]
  by_cases c3 : o < 384 + 8 * a.cacheBytes
  · rw [if_pos c3, if_pos c3, hc _ (by omega), show 384 + (o - 384) = o by omega]
  rw [if_neg c3, if_neg c3]
  by_cases c4 : o < 8 * (56 + a.cacheBytes)
  · rw [if_pos c4, if_pos c4]; exact out (by omega) _
  rw [if_neg c4, if_neg c4]
  by_cases c5 : o < 8 * (56 + a.cacheBytes) + 32768 * a.buckets
  · rw [if_pos c5, if_pos c5, hb _ _ (by omega) (by omega), show 8 * (56 + a.cacheBytes) +
      32768 * ((o - 8 * (56 + a.cacheBytes)) / 32768) + (o - 8 * (56 + a.cacheBytes)) % 32768 = o by
        omega]
  rw [if_neg c5, if_neg c5]
  exact out (by omega) _

/-- The effect of setting bits of a v1 filter on its file. -/
theorem file1_change {a a' : F1} (h2 : a'.cap = a.cap) (h3 : a'.fpp = a.fpp)
    (h4 : a'.hashes = a.hashes) (h5 : a'.size = a.size) (h6 : a'.words = a.words)
    (h7 : a'.data = a.data) {P : ℕ → Prop}
    (hP : ∀ o, P o → 384 ≤ o ∧ o < 384 + 64 * a.words)
    (hb : ∀ i < 64 * a.words, a'.bits i = true ↔ a.bits i = true ∨ P (384 + i))
    {o : ℕ} (ho : o < 320 ∨ 384 ≤ o) :
    bitAt a'.file o = true ↔ bitAt a.file o = true ∨ P o := by
  have eh : head1 a' = head1 a := by unfold head1; rw [h2, h3, h4, h5]
  have out : ¬ (384 ≤ o ∧ o < 384 + 64 * a.words) → ∀ x : Bool, (x = true ↔ x = true ∨ P o) := by
    intro hn x
    exact ⟨.inl, fun h => h.elim id fun h => absurd (hP o h) hn⟩
  rw [file1_bit, file1_bit, eh, h6, h7]
  by_cases c1 : o < 320
  · rw [if_pos c1, if_pos c1]; exact out (by omega) _
  have c1' : ¬ o < 384 := by omega
  rw [if_neg c1, if_neg c1, if_neg c1', if_neg c1']
  by_cases c3 : o < 384 + 64 * a.words
  · rw [if_pos c3, if_pos c3, hb _ (by omega), show 384 + (o - 384) = o by omega]
  rw [if_neg c3, if_neg c3]
  exact out (by omega) _

/-- The bits of the file of a v2 filter that a key is about. -/
def hits2 (c : Cfg Key) (a : F2) (k : Key) (o : ℕ) : Prop :=
  a.cacheBytes ≠ 0 ∧ o = 384 + a.slot c k ∨
    ∃ i < a.hashes, o = 8 * (56 + a.cacheBytes) + 32768 * a.bucket c k + F2.position c k i

theorem slot2_lt {a : F2} (h : a.cacheBytes ≠ 0) : a.slot c k < 8 * a.cacheBytes := by
  unfold F2.slot
  rw [Nat.mul_comm a.cacheBytes]
  exact slot_lt _ _ h

theorem position2_lt (i : ℕ) : F2.position c k i < 32768 := Nat.mod_lt _ (by omega)

theorem hits2_range {a : F2} (c1 : a.buckets ≠ 0) (o : ℕ) (h : hits2 c a k o) :
    384 ≤ o ∧ o < 384 + 8 * a.cacheBytes ∨
      8 * (56 + a.cacheBytes) ≤ o ∧ o < 8 * (56 + a.cacheBytes) + 32768 * a.buckets := by
  have blt : a.bucket c k < a.buckets := Nat.mod_lt _ (by omega)
  rcases h with ⟨h1, rfl⟩ | ⟨i, _, rfl⟩
  · have := slot2_lt (c := c) (k := k) h1
    omega
  · have := position2_lt (c := c) (k := k) i
    omega

theorem touch_bit {a : F2} (i : ℕ) (hi : i < 8 * a.cacheBytes) :
    (a.touch c k).cache i = true ↔ a.cache i = true ∨ hits2 c a k (384 + i) := by
  simp only [F2.touch, Bool.or_eq_true, Bool.and_eq_true, decide_eq_true_eq]
  refine or_congr_right ⟨fun h => .inl ⟨h.1, by omega⟩, fun h => ?_⟩
  rcases h with h | ⟨n, _, h⟩
  · exact ⟨h.1, by omega⟩
  · omega

theorem mark_bit {a : F2} (j i : ℕ) (hi : i < 32768) : (a.mark c k).bits j i = true ↔
    a.bits j i = true ∨ hits2 c a k (8 * (56 + a.cacheBytes) + 32768 * j + i) := by
  simp only [F2.mark, Bool.or_eq_true, Bool.and_eq_true, decide_eq_true_eq]
  refine or_congr_right ⟨fun h => ?_, fun h => ?_⟩
  · obtain ⟨rfl, n, hn, rfl⟩ := h
    exact .inr ⟨n, hn, rfl⟩
  · rcases h with h | ⟨n, hn, h⟩
    · have := slot2_lt (c := c) (k := k) h.1
      omega
    · have := position2_lt (c := c) (k := k) n
      exact ⟨by omega, n, hn, by omega⟩

theorem covered_bit {a : F2} (h : a.covered c k = true) (j i : ℕ) :
    a.bits j i = true ↔ (a.mark c k).bits j i = true := by
  simp only [F2.mark, Bool.or_eq_true, Bool.and_eq_true, decide_eq_true_eq]
  refine ⟨.inl, fun h' => h'.elim id ?_⟩
  rintro ⟨rfl, n, hn, rfl⟩
  exact of_decide_eq_true h n hn

theorem num_count2 (a : F2) : num a.file 32 = a.count % 2 ^ 64 := by
  have hl : (head2 a).length = 32 := by simp [head2, le]
  rw [file2_eq, ← hl, file_count]

theorem num_count1 (a : F1) : num a.file 40 = a.count % 2 ^ 64 := by
  have hl : (head1 a).length = 40 := by simp [head1, le]
  rw [file1_eq, ← hl, file_count]

/-- What insertion of a key leaves and sets in a v2 filter. -/
theorem insert2_cases {a a' : F2} {b : Bool} (h : a.insert c k = (a', .bool b)) :
    a.buckets ≠ 0 ∧ (a.covered c k = true ∧ a' = a.touch c k ∧ b = false ∨
      a' = { (a.mark c k).touch c k with count := (a.count + 1) % 2 ^ 64 } ∧ b = true) := by
  unfold F2.insert at h
  split at h
  · exact absurd (congrArg Prod.snd h) (by simp)
  split at h
  · exact absurd (congrArg Prod.snd h) (by simp)
  rename_i c1
  refine ⟨c1, ?_⟩
  split at h
  · rename_i c2
    exact .inl ⟨c2, (congrArg Prod.fst h).symm, by simpa using (congrArg Prod.snd h).symm⟩
  split at h
  · exact absurd (congrArg Prod.snd h) (by simp)
  split at h
  · exact absurd (congrArg Prod.snd h) (by simp)
  exact .inr ⟨(congrArg Prod.fst h).symm, by simpa using (congrArg Prod.snd h).symm⟩

theorem hits2_iff {a : F2} (w : In2 a.file a) (o : ℕ) :
    (cacheLen a.file ≠ 0 ∧ o = slotPlace a.file (c.h1 k) ∨
      ∃ i < num a.file 24, o = place2 a.file (c.h1 k) (c.h2 k) i) ↔ hits2 c a k o := by
  have hslot : slotPlace a.file (c.h1 k) = 384 + a.slot c k := by
    unfold slotPlace F2.slot
    rw [← w.cacheBytes, Nat.mul_comm a.cacheBytes]
  have hplace : ∀ i, place2 a.file (c.h1 k) (c.h2 k) i
      = 8 * (56 + a.cacheBytes) + 32768 * a.bucket c k + F2.position c k i := by
    intro i
    unfold place2 F2.bucket F2.position
    rw [w.buckets, w.cacheBytes]
  unfold hits2
  rw [hslot, ← w.cacheBytes, ← w.hashes]
  simp only [hplace]

/-- Insertion into a v2 filter, on its file. -/
theorem insert2_file {a a' : F2} {b : Bool} (w : In2 a.file a)
    (h : a.insert c k = (a', .bool b)) :
    a'.file.length = a.file.length ∧
    num a'.file 32 = (num a.file 32 + b.toNat) % 2 ^ 64 ∧
    ∀ o, (o < 256 ∨ 320 ≤ o) → (bitAt a'.file o = true ↔ bitAt a.file o = true ∨
      (cacheLen a.file ≠ 0 ∧ o = slotPlace a.file (c.h1 k) ∨
        ∃ i < num a.file 24, o = place2 a.file (c.h1 k) (c.h2 k) i)) := by
  obtain ⟨c1, ⟨hc, ha, hb⟩ | ⟨ha, hb⟩⟩ := insert2_cases h
  · refine ⟨by rw [length_file2, length_file2, ha]; rfl, ?_, fun o ho => ?_⟩
    · have : a'.count = a.count := by rw [ha]; rfl
      rw [num_count2, num_count2, this, hb, Bool.toNat_false]
      omega
    · rw [hits2_iff w, ha]
      have hB : ∀ j i, j < a.buckets → i < 32768 → ((a.touch c k).bits j i = true ↔
          a.bits j i = true ∨ hits2 c a k (8 * (56 + a.cacheBytes) + 32768 * j + i)) :=
        fun j i _ hi => (covered_bit hc j i).trans (mark_bit j i hi)
      exact file2_change (a := a) (a' := a.touch c k) (P := hits2 c a k) rfl rfl rfl rfl rfl rfl rfl
        (hits2_range c1) touch_bit hB ho
  · refine ⟨by rw [length_file2, length_file2, ha]; rfl, ?_, fun o ho => ?_⟩
    · have : a'.count = (a.count + 1) % 2 ^ 64 := by rw [ha]
      rw [num_count2, num_count2, this, hb, Bool.toNat_true]
      omega
    · rw [hits2_iff w, ha]
      exact file2_change (a := a) (a' := { (a.mark c k).touch c k with count := (a.count + 1) % 2 ^ 64 })
        (P := hits2 c a k) rfl rfl rfl rfl rfl rfl rfl
        (hits2_range c1) (touch_bit (a := a)) (fun j i _ hi => mark_bit (a := a) j i hi) ho

/-- What insertion of a key leaves and sets in a v1 filter. -/
theorem insert1_cases {a a' : F1} {k : List U8} {b : Bool} (h : a.insert k = (a', .bool b)) :
    ¬ (a.size = 0 ∧ a.hashes ≠ 0) ∧ (a.covered k = true ∧ a' = a ∧ b = false ∨
      a' = { a with
        bits := fun i => a.bits i || decide (∃ n < a.hashes, i = Spec.dcsoProbe k a.size n)
        count := a.count + 1 } ∧ b = true) := by
  unfold F1.insert at h
  split at h
  · exact absurd (congrArg Prod.snd h) (by simp)
  split at h
  · exact absurd (congrArg Prod.snd h) (by simp)
  rename_i c1
  refine ⟨c1, ?_⟩
  split at h
  · rename_i c2
    exact .inl ⟨c2, (congrArg Prod.fst h).symm, by simpa using (congrArg Prod.snd h).symm⟩
  split at h
  · exact absurd (congrArg Prod.snd h) (by simp)
  exact .inr ⟨(congrArg Prod.fst h).symm, by simpa using (congrArg Prod.snd h).symm⟩

/-- The bits of the file of a v1 filter that a key is about. -/
def hits1 (a : F1) (k : List U8) (o : ℕ) : Prop :=
  ∃ i < a.hashes, o = 384 + dcsoProbe k a.size i

theorem hits1_iff {a : F1} {k : List U8} (w : In1 a.file a) (o : ℕ) :
    (∃ i < num a.file 24, o = place1 a.file k i) ↔ hits1 a k o := by
  have hplace : ∀ i, place1 a.file k i = 384 + dcsoProbe k a.size i := by
    intro i
    unfold place1
    rw [w.size]
  unfold hits1
  rw [← w.hashes]
  simp only [hplace]

/-- Insertion into a v1 filter, on its file. -/
theorem insert1_file {a a' : F1} {k : List U8} {b : Bool} (w : In1 a.file a)
    (hw : a.words = (a.size + 63) / 64) (h : a.insert k = (a', .bool b)) :
    a'.file.length = a.file.length ∧
    num a'.file 40 = (num a.file 40 + b.toNat) % 2 ^ 64 ∧
    ∀ o, (o < 320 ∨ 384 ≤ o) → (bitAt a'.file o = true ↔ bitAt a.file o = true ∨
      ∃ i < num a.file 24, o = place1 a.file k i) := by
  obtain ⟨c1, hcase⟩ := insert1_cases h
  have hP : ∀ o, hits1 a k o → 384 ≤ o ∧ o < 384 + 64 * a.words := by
    rintro o ⟨i, hi, rfl⟩
    have : dcsoProbe k a.size i < a.size := Nat.mod_lt _ (by omega)
    omega
  rcases hcase with ⟨hc, ha, hb⟩ | ⟨ha, hb⟩
  · refine ⟨by rw [ha], ?_, fun o ho => ?_⟩
    · have : a'.count = a.count := by rw [ha]
      rw [num_count1, num_count1, this, hb, Bool.toNat_false]
      omega
    · rw [hits1_iff w, ha]
      refine file1_change (a := a) (a' := a) (P := hits1 a k) rfl rfl rfl rfl rfl rfl hP (fun i hi => ?_) ho
      refine ⟨.inl, fun h => h.elim id ?_⟩
      rintro ⟨n, hn, e⟩
      rw [show i = dcsoProbe k a.size n by omega]
      exact of_decide_eq_true hc n hn
  · refine ⟨by rw [length_file1, length_file1, ha], ?_, fun o ho => ?_⟩
    · have : a'.count = a.count + 1 := by rw [ha]
      rw [num_count1, num_count1, this, hb, Bool.toNat_true]
      omega
    · rw [hits1_iff w, ha]
      have hB : ∀ i < 64 * a.words,
          (a.bits i || decide (∃ n < a.hashes, i = Spec.dcsoProbe k a.size n)) = true ↔
            a.bits i = true ∨ hits1 a k (384 + i) := by
        intro i hi
        rw [Bool.or_eq_true, decide_eq_true_eq]
        exact or_congr_right
          ⟨fun ⟨n, hn, e⟩ => ⟨n, hn, by omega⟩, fun ⟨n, hn, e⟩ => ⟨n, hn, by omega⟩⟩
      exact file1_change (a := a) (a' := { a with
        bits := fun i => a.bits i || decide (∃ n < a.hashes, i = Spec.dcsoProbe k a.size n)
        count := a.count + 1 }) (P := hits1 a k) rfl rfl rfl rfl rfl rfl hP hB ho

end Abs

namespace Spec

open Poppy (U8)

/-- Files of the same shape are loaded both or neither. -/
theorem SameShape.load {lim : ℕ} {bs bs' : List U8} (s : SameShape bs bs') {X : File1 ⊕ File2}
    (h : load lim bs = .ok X) : ∃ X', load lim bs' = .ok X' := by
  rcases X with X | X
  · have v := (load_v1 h).1
    unfold Spec.load header at h ⊢
    rw [s.length, s.version, s.level]
    split at h
    · cases h
    rename_i c1
    rw [if_neg c1]
    split at h
    · cases h
    rename_i c2
    rw [if_neg c2]
    simp only [v, if_true] at h ⊢
    unfold body1 at h ⊢
    rw [s.length, s.bits v]
    simp only at h ⊢
    split at h
    · cases h
    rename_i c3
    rw [if_neg c3]
    split at h
    · cases h
    rename_i c4
    rw [if_neg c4]
    split at h
    · cases h
    rename_i c5
    rw [if_neg c5]
    exact ⟨_, rfl⟩
  · have v := (load_v2 h).1
    have n1 : bs.getD 0 0 ≠ 1#8 := by rw [v]; decide
    have n21 : ¬ (2#8 : U8) = 1#8 := by decide
    have hb := s.buckets n1
    unfold bucketCount cacheLen at hb
    unfold Spec.load header at h ⊢
    rw [s.length, s.version, s.level]
    split at h
    · cases h
    rename_i c1
    rw [if_neg c1]
    split at h
    · cases h
    rename_i c2
    rw [if_neg c2]
    simp only [v, if_true, if_neg n21] at h ⊢
    unfold body2 at h ⊢
    simp only at h ⊢
    rw [hb, s.length, s.cache n1, s.fpp]
    split at h
    · cases h
    rename_i c3
    rw [if_neg c3]
    split at h
    · cases h
    rename_i c4
    rw [if_neg c4]
    split at h
    · cases h
    rename_i c5
    rw [if_neg c5]
    split at h
    · cases h
    rename_i c6
    rw [if_neg c6]
    split at h
    · cases h
    rename_i c7
    rw [if_neg c7]
    split at h
    · cases h
    rename_i c8
    rw [if_neg c8]
    split at h
    · cases h
    rename_i c9
    rw [if_neg c9]
    exact ⟨_, rfl⟩

theorem SameShape.probed {bs bs' : List U8} (s : SameShape bs bs') (key : List U8) (h H o : ℕ) :
    Probed bs' key h H o ↔ Probed bs key h H o := by
  unfold Probed
  rw [s.version, s.hashes]
  by_cases v : bs.getD 0 0 = 1#8
  · rw [if_pos v, if_pos v]
    unfold place1
    rw [s.bits v]
  · rw [if_neg v, if_neg v]
    unfold place2 slotPlace
    rw [s.buckets v]
    unfold cacheLen
    rw [s.cache v]

theorem SameShape.usable {bs bs' : List U8} (s : SameShape bs bs') : Usable bs' ↔ Usable bs := by
  unfold Usable
  rw [s.version, s.capacity]
  by_cases v : bs.getD 0 0 = 1#8
  · rw [if_pos v, if_pos v, s.bits v]
  · rw [if_neg v, if_neg v, s.buckets v]

end Spec

namespace Poppy

open Spec Abs

variable {env : Env}

theorem Res.of_answer_bool {r : Res Bool} {b : Bool} (h : r.answer Answer.bool = .bool b) :
    r = .ok b := by
  cases r <;> simp_all [Res.answer]

theorem Res.of_answer_panic {r : Res Bool} (h : r.answer Answer.bool = .panic) : r = .panic := by
  cases r <;> simp_all [Res.answer]

theorem Bloom.load_in (hs : env.Small) {bs : List U8} {f : Bloom}
    (h : Bloom.fromReader env (Reader.ofBytes bs) = .ok f) : In bs f.view := by
  have hl := Bloom.view_load hs bs
  rw [h] at hl
  obtain ⟨X, hX⟩ := Bloom.loaded_ok hl
  rw [hX] at hl
  exact in_of_load hX hl

theorem Bloom.load_sameShape (hs : env.Small) {bs bs' : List U8} {f : Bloom}
    (h : Bloom.fromReader env (Reader.ofBytes bs) = .ok f) (s : SameShape bs bs') :
    ∃ f', Bloom.fromReader env (Reader.ofBytes bs') = .ok f' := by
  have hl := Bloom.view_load hs bs
  rw [h] at hl
  obtain ⟨X, hX⟩ := Bloom.loaded_ok hl
  obtain ⟨X', hX'⟩ := s.load hX
  have hl' := Bloom.view_load hs bs'
  rw [hX'] at hl'
  cases hf : Bloom.fromReader env (Reader.ofBytes bs') with
  | ok f' => exact ⟨f', rfl⟩
  | err e => rw [hf] at hl'; rcases X' with X' | X' <;> cases hl'
  | panic => rw [hf] at hl'; rcases X' with X' | X' <;> cases hl'

theorem V1.view_words (hs : env.Small) {f : V1} (h : V1.Reach env f) :
    f.view.words = (f.view.size + 63) / 64 := by
  have hf := V1.Reach.fits h
  have := (u64Size_limit hs f.bitSize).2 (by rw [hf.nw]; have := hf.mw; omega)
  rw [hf.nw] at this
  exact this

end Poppy
