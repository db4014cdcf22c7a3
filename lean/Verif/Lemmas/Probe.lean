import Mathlib.Data.Int.ModEq
import Mathlib.Data.Fintype.Prod
import Verif.Lemmas.BitSet
import Verif.Model.V1
import Verif.Model.V2

/-! Closed forms of both index iterators. -/

namespace Poppy
open Spec

/-! ### FNV-1 -/

theorem chunksExact8_fold (bs : List U8) (s : U64) :
    (chunksExact8 bs).2.foldl fnvRound
      ((chunksExact8 bs).1.foldl (fun s c => c.foldl fnvRound s) s) = bs.foldl fnvRound s := by
  fun_induction chunksExact8 bs generalizing s with
  | case1 a b c d e f g h rest ih => simp [ih]
  | case2 rest => simp

theorem fnvWrite_eq (s : U64) (bs : List U8) : fnvWrite s bs = bs.foldl fnvRound s := by
  unfold fnvWrite
  simp only [List.take_left]
  split
  · rename_i h
    rw [← chunksExact8_fold bs s]
    rw [List.isEmpty_iff.1 h]
    rfl
  · exact chunksExact8_fold bs s

theorem toNat_fnvRound (s : U64) (b : U8) :
    (fnvRound s b).toNat = Nat.xor (s.toNat * 0x100000001B3 % 2 ^ 64) b.toNat := by
  unfold fnvRound FNV_PRIME
  rw [BitVec.toNat_xor, BitVec.toNat_mul, BitVec.toNat_setWidth]
  rw [Nat.mod_eq_of_lt (show b.toNat < 2 ^ 64 by have := b.isLt; omega)]
  rfl

theorem toNat_fnvHash (bs : List U8) : (fnvHash bs).toNat = Spec.fnv1 bs := by
  unfold fnvHash Spec.fnv1
  rw [fnvWrite_eq]
  have : ∀ (bs : List U8) (s : U64), (bs.foldl fnvRound s).toNat
      = bs.foldl (fun h b => Nat.xor (h * 0x100000001B3 % 2 ^ 64) b.toNat) s.toNat := by
    intro bs
    induction bs with
    | nil => intro s; rfl
    | cons b bs ih => intro s; rw [List.foldl_cons, List.foldl_cons, ih, toNat_fnvRound]
  exact this bs _

/-! ### v1 -/

/-- Iterator over `k` probes of a key in a filter of `m` bits, after `n` steps. -/
def fpAt (k m : U64) (key : List U8) (n : ℕ) : Fingerprint :=
  ⟨BitVec.ofNat 64 (dcsoChain (fnv1 key) n), m, BitVec.ofNat 64 n, k⟩

theorem dcsoChain_lt (h n : ℕ) : dcsoChain h n < 18446744073709551557 := by
  cases n <;> exact Nat.mod_lt _ (by norm_num)

theorem fingerprint_eq (k m : U64) (key : List U8) (fp : Fingerprint) (hk : fp.count = k)
    (hm : fp.m = m) : fp.fingerprint key = fpAt k m key 0 := by
  subst hk hm
  simp only [Fingerprint.fingerprint, fpAt]
  congr 1
  apply BitVec.eq_of_toNat_eq
  have := dcsoChain_lt (fnv1 key) 0
  rw [BitVec.toNat_umod, BitVec.toNat_ofNat,
    Nat.mod_eq_of_lt (show dcsoChain (fnv1 key) 0 < 2 ^ 64 by omega), toNat_fnvHash]
  rfl

theorem fpAt_next {k m : U64} (hm : m ≠ 0) (key : List U8) {n : ℕ} (hn : n < k.toNat) :
    (fpAt k m key n).next =
      (.ok (some (BitVec.ofNat 64 (dcsoProbe key m.toNat n))), fpAt k m key (n + 1)) := by
  have hk := k.isLt
  have hlt : (fpAt k m key n).i < (fpAt k m key n).count := by
    simp only [fpAt, BitVec.lt_def, BitVec.toNat_ofNat]
    omega
  have hc := dcsoChain_lt (fnv1 key) n
  have hc' := dcsoChain_lt (fnv1 key) (n + 1)
  have hh : BitVec.ofNat 64 (dcsoChain (fnv1 key) n) * V1.G % V1.M
      = BitVec.ofNat 64 (dcsoChain (fnv1 key) (n + 1)) := by
    apply BitVec.eq_of_toNat_eq
    rw [BitVec.toNat_umod, BitVec.toNat_mul, BitVec.toNat_ofNat, BitVec.toNat_ofNat,
      Nat.mod_eq_of_lt (show dcsoChain (fnv1 key) n < 2 ^ 64 by omega),
      Nat.mod_eq_of_lt (show dcsoChain (fnv1 key) (n + 1) < 2 ^ 64 by omega)]
    rfl
  unfold Fingerprint.next
  rw [if_pos hlt]
  simp only [fpAt, hh, if_neg hm]
  refine Prod.ext ?_ ?_
  · simp only
    congr 2
    apply BitVec.eq_of_toNat_eq
    rw [BitVec.toNat_umod, BitVec.toNat_ofNat, BitVec.toNat_ofNat,
      Nat.mod_eq_of_lt (show dcsoChain (fnv1 key) (n + 1) < 2 ^ 64 by omega)]
    have hm0 : 0 < m.toNat := by
      rcases Nat.eq_zero_or_pos m.toNat with h | h
      · exact absurd (BitVec.eq_of_toNat_eq h) hm
      · exact h
    have := Nat.mod_lt (dcsoChain (fnv1 key) (n + 1)) hm0
    have hmlt := m.isLt
    rw [dcsoProbe, Nat.mod_eq_of_lt (show _ < 2 ^ 64 by omega)]
  · simp only [BitVec.ofNat_add]; rfl

theorem fpAt_end (k m : U64) (key : List U8) :
    (fpAt k m key k.toNat).next = (.ok none, fpAt k m key k.toNat) := by
  unfold Fingerprint.next
  rw [if_neg]
  simp [fpAt]

theorem fpAt_zero_panic {k : U64} (hk : 0 < k.toNat) (key : List U8) :
    (fpAt k 0 key 0).next.1 = .panic := by
  unfold Fingerprint.next
  rw [if_pos]
  · simp [fpAt]
  · simp [fpAt, BitVec.lt_def, hk]

/-! ### v2 -/

/-- Second hash: hash of the big-endian bytes of the first. -/
def hash2 (wy : Wy) (h : U64) : U64 := digest wy (u64ToBe h)

/-- Index iterator initialised with hash `h`, count `c`, after `n` steps. -/
def itAt (wy : Wy) (h c : U64) : ℕ → IndexIterator
  | 0 => ⟨true, h, 0, 0, c⟩
  | n + 1 => ⟨true, h + BitVec.ofNat 64 n * hash2 wy h + BitVec.ofNat 64 (Nat.choose (n + 1) 3),
      if n = 0 then 0 else hash2 wy h + BitVec.ofNat 64 (Nat.choose (n + 1) 2),
      BitVec.ofNat 64 (n + 1), c⟩

theorem isPowerOfTwo_BIT_SET_MOD : isPowerOfTwo BIT_SET_MOD = true := by decide

theorem and_bitSetMod (x : U64) : (x &&& (BIT_SET_MOD - 1)).toNat = x.toNat % 32768 := by
  rw [BitVec.toNat_and]
  exact Nat.and_two_pow_sub_one_eq_mod x.toNat 15

theorem poppyProbe_lt (h H n : ℕ) : poppyProbe h H n < 32768 := Nat.mod_lt _ (by norm_num)

theorem mask_probe (wy : Wy) (h : U64) (n : ℕ) :
    (h + BitVec.ofNat 64 n * hash2 wy h + BitVec.ofNat 64 (Nat.choose (n + 1) 3)) &&&
      (BIT_SET_MOD - 1) = BitVec.ofNat 64 (poppyProbe h.toNat (hash2 wy h).toNat n) := by
  apply BitVec.eq_of_toNat_eq
  have := poppyProbe_lt h.toNat (hash2 wy h).toNat n
  rw [and_bitSetMod, BitVec.toNat_ofNat, Nat.mod_eq_of_lt (show _ < 2 ^ 64 by omega)]
  simp only [BitVec.toNat_add, BitVec.toNat_mul, BitVec.toNat_ofNat, poppyProbe]
  congr 1
  simp only [Nat.add_mod, Nat.mul_mod, Nat.mod_mod]

theorem itAt_next (wy : Wy) (h c : U64) {n : ℕ} (hn : n < c.toNat) :
    (itAt wy h c n).next wy BIT_SET_MOD =
      (.ok (some (BitVec.ofNat 64 (poppyProbe h.toNat (hash2 wy h).toNat n))),
        itAt wy h c (n + 1)) := by
  have hc := c.isLt
  rcases n with _ | n
  · have hlt : (0 : U64) < c := by simpa [BitVec.lt_def] using hn
    have hm := mask_probe wy h 0
    simp only [Nat.choose] at hm
    simp only [itAt, IndexIterator.next, hlt, if_true, isPowerOfTwo_BIT_SET_MOD]
    simp only [Nat.choose]
    refine Prod.ext ?_ ?_
    · simp only
      rw [← hm]
      simp
    · simp
  · have hi : (BitVec.ofNat 64 (n + 1)).toNat = n + 1 := by
      rw [BitVec.toNat_ofNat, Nat.mod_eq_of_lt (by omega)]
    have hlt : BitVec.ofNat 64 (n + 1) < c := by rw [BitVec.lt_def, hi]; exact hn
    have hpos : 0#64 < BitVec.ofNat 64 (n + 1) := by rw [BitVec.lt_def, hi]; simp
    have hm := mask_probe wy h (n + 1)
    have hadd : ∀ a b : ℕ, BitVec.ofNat 64 (a + b) = BitVec.ofNat 64 a + BitVec.ofNat 64 b :=
      fun a b => BitVec.ofNat_add a b
    rcases n with _ | n
    · have h1 : Nat.choose 2 3 = 0 := rfl
      have h2 : Nat.choose 2 2 = 1 := rfl
      have h3 : Nat.choose 1 3 = 0 := rfl
      simp only [Nat.zero_add] at hm hlt hpos
      simp only [h1] at hm
      simp only [itAt, IndexIterator.next, hlt, if_true, isPowerOfTwo_BIT_SET_MOD, hpos, h1, h2, h3,
        Nat.zero_add]
      refine Prod.ext ?_ ?_
      · simp only [← hm]
        simp [hash2]
      · simp [hash2]
    · have hne : ¬ (BitVec.ofNat 64 (n + 1 + 1) = 1#64) := by
        intro he
        have := congrArg BitVec.toNat he
        rw [hi] at this
        simp at this
      have hs3 : Nat.choose (n + 1 + 1 + 1) 3 = Nat.choose (n + 1 + 1) 2 + Nat.choose (n + 1 + 1) 3 :=
        Nat.choose_succ_succ _ _
      have hs2 : Nat.choose (n + 1 + 1 + 1) 2 = (n + 1 + 1) + Nat.choose (n + 1 + 1) 2 := by
        rw [Nat.choose_succ_succ, Nat.choose_one_right]
      have hmul : BitVec.ofNat 64 (n + 1 + 1) * hash2 wy h
          = BitVec.ofNat 64 (n + 1) * hash2 wy h + hash2 wy h := by
        rw [hadd (n + 1) 1, BitVec.add_mul]; simp
      have hh1 : h + BitVec.ofNat 64 (n + 1) * hash2 wy h + BitVec.ofNat 64 ((n + 1 + 1).choose 3)
            + (hash2 wy h + BitVec.ofNat 64 ((n + 1 + 1).choose 2))
          = h + BitVec.ofNat 64 (n + 1 + 1) * hash2 wy h
            + BitVec.ofNat 64 ((n + 1 + 1 + 1).choose 3) := by
        rw [hmul, hs3, hadd (Nat.choose (n + 1 + 1) 2)]
        generalize BitVec.ofNat 64 ((n + 1 + 1).choose 3) = x
        generalize BitVec.ofNat 64 ((n + 1 + 1).choose 2) = y
        generalize BitVec.ofNat 64 (n + 1) * hash2 wy h = z
        ac_rfl
      have hh2 : hash2 wy h + BitVec.ofNat 64 ((n + 1 + 1).choose 2) + BitVec.ofNat 64 (n + 1 + 1)
          = hash2 wy h + BitVec.ofNat 64 ((n + 1 + 1 + 1).choose 2) := by
        rw [hs2, hadd (n + 1 + 1)]
        generalize BitVec.ofNat 64 ((n + 1 + 1).choose 2) = y
        generalize BitVec.ofNat 64 (n + 1 + 1) = z
        ac_rfl
      simp only [itAt, IndexIterator.next, hlt, if_true, isPowerOfTwo_BIT_SET_MOD, hpos,
        if_neg hne, Nat.add_eq_zero_iff, one_ne_zero, and_false, if_false, hh1, hh2]
      refine Prod.ext ?_ ?_
      · simp only [hm]
      · rw [hadd (n + 1 + 1) 1]
        simp

theorem itAt_end (wy : Wy) (h c : U64) :
    (itAt wy h c c.toNat).next wy BIT_SET_MOD = (.ok none, itAt wy h c c.toNat) := by
  unfold IndexIterator.next
  rw [if_neg]
  generalize hn : c.toNat = n
  cases n with
  | zero => simp [itAt, BitVec.lt_def, hn]
  | succ n =>
    have : BitVec.ofNat 64 (n + 1) = c := by rw [← hn]; simp
    simp [itAt, this]

/-- Only the low 15 bits of the hashes matter. -/
theorem poppyProbe_mod (h H n : ℕ) : poppyProbe (h % 32768) (H % 32768) n = poppyProbe h H n := by
  unfold poppyProbe
  rw [Nat.mod_mod_of_dvd _ (by norm_num), Nat.mod_mod_of_dvd _ (by norm_num)]
  exact Nat.ModEq.add_right _ ((Nat.mod_modEq h _).add ((Nat.mod_modEq H _).mul_left n))

theorem toFinset_card_le {α : Type} [Fintype α] [DecidableEq α] {P : α → Prop} [DecidablePred P]
    {l : List α} (h : ∀ x ∈ l, P x) : l.toFinset.card ≤ Fintype.card {x // P x} := by
  rw [Fintype.card_subtype]
  refine Finset.card_le_card fun x hx => ?_
  rw [List.mem_toFinset] at hx
  exact Finset.mem_filter.2 ⟨Finset.mem_univ _, h x hx⟩

end Poppy
