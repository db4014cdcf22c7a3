import Verif.Lemmas.V2

/-! Bit-level characterisation of the v1 filter. -/

namespace Poppy
open Spec

/-- Set bit `i` of an array of words. -/
def setBitW (l : List U64) (i : ℕ) : List U64 :=
  l.set (i / 64) (l.getD (i / 64) 0 ||| ((1 : U64) <<< (i % 64)))

/-- Set several bits. -/
def setAllW (l : List U64) (ps : List ℕ) : List U64 := ps.foldl setBitW l

@[simp] theorem length_setBitW (l : List U64) (i : ℕ) : (setBitW l i).length = l.length := by
  simp [setBitW]

@[simp] theorem length_setAllW (l : List U64) (ps : List ℕ) :
    (setAllW l ps).length = l.length := by
  induction ps generalizing l with
  | nil => rfl
  | cons p ps ih => simp only [setAllW, List.foldl_cons] at ih ⊢; rw [ih, length_setBitW]

theorem bitAt_setBitW (l : List U64) {i : ℕ} (h : i < l.length * 64) (j : ℕ) :
    bitAt (setBitW l i) j = (bitAt l j || decide (j = i)) := bitAt_set_or l h j

theorem bitAt_setAllW (l : List U64) (ps : List ℕ) (h : ∀ p ∈ ps, p < l.length * 64) (j : ℕ) :
    bitAt (setAllW l ps) j = (bitAt l j || decide (j ∈ ps)) := by
  induction ps generalizing l with
  | nil => simp [setAllW]
  | cons p ps ih =>
    have := ih (setBitW l p) (fun q hq => by rw [length_setBitW]; exact h q (by simp [hq]))
    simp only [setAllW, List.foldl_cons] at this ⊢
    rw [this, bitAt_setBitW l (h p (by simp))]
    by_cases h1 : j = p <;> by_cases h2 : j ∈ ps <;> simp [h1, h2]

theorem setBitW_of_set (l : List U64) {i : ℕ} (h : bitAt l i = true) : setBitW l i = l := by
  unfold setBitW
  rw [or_mask_self _ h, set_getD_self]

theorem setAllW_of_all (l : List U64) (ps : List ℕ) (h : ∀ p ∈ ps, bitAt l p = true) :
    setAllW l ps = l := by
  induction ps with
  | nil => rfl
  | cons p ps ih =>
    simp only [setAllW, List.foldl_cons]
    rw [setBitW_of_set l (h p (by simp))]
    exact ih (fun q hq => h q (by simp [hq]))

theorem mod_64 (i : U64) : (i % 64#64).toNat % 64 = i.toNat % 64 := by
  rw [BitVec.toNat_umod]; simp

theorem div_64 (i : U64) : (i / 64#64).toNat = i.toNat / 64 := by
  rw [BitVec.toNat_udiv]; rfl

theorem wordMask_eq (i : U64) : V1.wordMask i = (1 : U64) <<< (i.toNat % 64) := by
  unfold V1.wordMask; rw [mod_64]; rfl

namespace V1

/-- The bit storage is large enough for the indexes, and the iterator template agrees with the
parameters. -/
structure WF (f : V1) : Prop where
  fpCount : f.fingerprint.count = f.nHash
  fpM : f.fingerprint.m = f.bitSize
  size : f.bitSize.toNat ≤ f.bitset.length * 64
  len : f.bitset.length * 8 < 2 ^ 60

/-- All probed bits are set. -/
def allSet (f : V1) (key : List U8) : Bool :=
  (List.range f.nHash.toNat).all (fun n => bitAt f.bitset (dcsoProbe key f.bitSize.toNat n))

/-- State after adding a key. -/
def added (f : V1) (key : List U8) : V1 :=
  { f with
    bitset := setAllW f.bitset ((List.range f.nHash.toNat).map (dcsoProbe key f.bitSize.toNat))
    count := if f.allSet key then f.count else f.count + 1 }

theorem getNthBit_eq (f : V1) {i : U64} (h : i.toNat < f.bitset.length * 64) :
    f.getNthBit i = .ok (bitAt f.bitset i.toNat) := by
  have hk : i.toNat / 64 < f.bitset.length := Nat.div_lt_of_lt_mul (by rwa [Nat.mul_comm])
  unfold getNthBit
  rw [div_64, List.getElem?_eq_getElem hk]
  simp only
  rw [wordMask_eq, and_mask_beq _ (Nat.mod_lt _ (by norm_num))]
  simp [bitAt, List.getD, hk]

theorem toNat_pos {m : U64} (hm : m ≠ 0) : 0 < m.toNat := by
  rcases Nat.eq_zero_or_pos m.toNat with h | h
  · exact absurd (BitVec.eq_of_toNat_eq h) hm
  · exact h

theorem probe_lt (key : List U8) {m : U64} (hm : m ≠ 0) (n : ℕ) :
    dcsoProbe key m.toNat n < m.toNat := Nat.mod_lt _ (toNat_pos hm)

theorem probe_toNat (key : List U8) {m : U64} (hm : m ≠ 0) (n : ℕ) :
    (BitVec.ofNat 64 (dcsoProbe key m.toNat n)).toNat = dcsoProbe key m.toNat n := by
  have := probe_lt key hm n
  have := m.isLt
  rw [BitVec.toNat_ofNat, Nat.mod_eq_of_lt (by omega)]

theorem containsLoop_eq (f : V1) (key : List U8) (c m : U64) (hm : m ≠ 0)
    (hs : m.toNat ≤ f.bitset.length * 64) :
    ∀ (l n fuel : ℕ), n + l = c.toNat → l < fuel →
      containsLoop fuel f (fpAt c m key n)
        = .ok ((List.range' n l).all (fun k => bitAt f.bitset (dcsoProbe key m.toNat k))) := by
  intro l
  induction l with
  | zero =>
    intro n fuel hn hf
    obtain ⟨fuel, rfl⟩ : ∃ k, fuel = k + 1 := ⟨fuel - 1, by omega⟩
    have : n = c.toNat := by omega
    subst this
    simp [containsLoop, fpAt_end]
  | succ l ih =>
    intro n fuel hn hf
    obtain ⟨fuel, rfl⟩ : ∃ k, fuel = k + 1 := ⟨fuel - 1, by omega⟩
    have hp := probe_lt key hm n
    have hp' := probe_toNat key hm n
    have hget : f.getNthBit (BitVec.ofNat 64 (dcsoProbe key m.toNat n))
        = .ok (bitAt f.bitset (dcsoProbe key m.toNat n)) := by
      rw [getNthBit_eq _ (by rw [hp']; omega), hp']
    rw [List.range'_succ, List.all_cons]
    simp only [containsLoop]
    rw [fpAt_next hm key (by omega)]
    simp only [hget]
    cases hb : bitAt f.bitset (dcsoProbe key m.toNat n) with
    | false => simp
    | true =>
      simp only [Bool.true_and]
      exact ih (n + 1) fuel (by omega) (by omega)

theorem insertLoop_eq (env : Env) (key : List U8) (c m : U64) (hm : m ≠ 0) :
    ∀ (l n fuel : ℕ) (f : V1) (new : Bool), m.toNat ≤ f.bitset.length * 64 →
      n + l = c.toNat → l < fuel →
      insertLoop env fuel f (fpAt c m key n) new
        = if f.capacity ≤ f.count ∧
            (List.range' n l).all (fun k => bitAt f.bitset (dcsoProbe key m.toNat k)) = false
          then (f, .err .tooManyEntries)
          else ({ f with bitset :=
                    setAllW f.bitset ((List.range' n l).map (dcsoProbe key m.toNat)) },
            .ok (new || !(List.range' n l).all
              (fun k => bitAt f.bitset (dcsoProbe key m.toNat k)))) := by
  intro l
  induction l with
  | zero =>
    intro n fuel f new hs hn hf
    obtain ⟨fuel, rfl⟩ : ∃ k, fuel = k + 1 := ⟨fuel - 1, by omega⟩
    have : n = c.toNat := by omega
    subst this
    simp [insertLoop, fpAt_end, setAllW]
  | succ l ih =>
    intro n fuel f new hs hn hf
    obtain ⟨fuel, rfl⟩ : ∃ k, fuel = k + 1 := ⟨fuel - 1, by omega⟩
    have hp := probe_lt key hm n
    have hp' := probe_toNat key hm n
    generalize hpd : dcsoProbe key m.toNat n = p at hp hp'
    have hk : p / 64 < f.bitset.length := Nat.div_lt_of_lt_mul (by omega)
    have hpl : p < f.bitset.length * 64 := by omega
    rw [List.range'_succ, List.all_cons, List.map_cons]
    simp only [insertLoop]
    rw [fpAt_next hm key (by omega)]
    simp only [hpd, div_64, hp', List.getElem?_eq_getElem hk, wordMask_eq]
    rw [and_mask_beq _ (Nat.mod_lt _ (by norm_num))]
    have hentry : f.bitset[p / 64] = f.bitset.getD (p / 64) 0 := by simp [List.getD, hk]
    have hbit : (f.bitset[p / 64]).getLsbD (p % 64) = bitAt f.bitset p := by
      rw [hentry]; rfl
    have hset : f.bitset.set (p / 64) (f.bitset[p / 64] ||| ((1 : U64) <<< (p % 64)))
        = setBitW f.bitset p := by rw [hentry]; rfl
    rw [hbit, hset]
    have hget : ({ f with bitset := setBitW f.bitset p } : V1).getNthBit (BitVec.ofNat 64 p)
        = .ok true := by
      rw [getNthBit_eq _ (by simp only [length_setBitW]; rw [hp']; exact hpl), hp',
        bitAt_setBitW _ hpl]
      simp
    simp only [hget, ne_eq, not_true_eq_false, decide_false, Bool.and_false, Bool.false_eq_true,
      if_false]
    cases hb : bitAt f.bitset p with
    | true =>
      rw [setBitW_of_set _ hb]
      simp only [Bool.not_true, Bool.false_and, Bool.false_eq_true, if_false, Bool.true_and]
      rw [ih (n + 1) fuel f new hs (by omega) (by omega)]
      have : setAllW f.bitset (p :: (List.range' (n + 1) l).map (dcsoProbe key m.toNat))
          = setAllW f.bitset ((List.range' (n + 1) l).map (dcsoProbe key m.toNat)) := by
        simp only [setAllW, List.foldl_cons]
        rw [setBitW_of_set _ hb]
      rw [this]
    | false =>
      simp only [Bool.not_false, Bool.true_and, Bool.false_and, decide_eq_true_eq, and_true,
        if_true, Bool.or_true]
      by_cases hcap : f.capacity ≤ f.count
      · simp [hcap]
      · simp only [if_neg hcap]
        rw [ih (n + 1) fuel _ true (by simpa using hs) (by omega) (by omega)]
        simp only [hcap, false_and, if_false, Bool.true_or]
        rfl

theorem fingerprint_zero {f : V1} (w : f.WF) (key : List U8) :
    f.fingerprint.fingerprint key = fpAt f.nHash f.bitSize key 0 :=
  fingerprint_eq _ _ _ _ w.fpCount w.fpM

theorem containsBytes_eq {f : V1} (w : f.WF) (key : List U8) (hm : f.bitSize ≠ 0) :
    f.containsBytes key = .ok (f.allSet key) := by
  have hne : f.bitset.isEmpty = false := by
    cases hb : f.bitset with
    | nil =>
      have := w.size
      have := toNat_pos hm
      simp [hb] at *
      omega
    | cons => rfl
  unfold containsBytes
  simp only [hne, Bool.false_eq_true, if_false]
  rw [fingerprint_zero w]
  have hcnt : (fpAt f.nHash f.bitSize key 0).count.toNat = f.nHash.toNat := rfl
  rw [hcnt, containsLoop_eq f key _ _ hm w.size f.nHash.toNat 0 _ (by omega) (by omega)]
  simp [allSet, List.range_eq_range']

theorem containsBytes_empty {f : V1} (h : f.bitset = []) (key : List U8) :
    f.containsBytes key = .ok false := by
  simp [containsBytes, h]

/-- Insertion.  The count never overflows since it stays below the capacity. -/
theorem insertBytes_eq (env : Env) {f : V1} (w : f.WF) (key : List U8) (hcap : f.capacity ≠ 0)
    (hm : f.bitSize ≠ 0) :
    f.insertBytes env key =
      if f.capacity ≤ f.count ∧ f.allSet key = false then (f, .err .tooManyEntries)
      else (f.added key, .ok (!f.allSet key)) := by
  unfold insertBytes
  simp only [if_neg hcap]
  rw [fingerprint_zero w]
  have hcnt : (fpAt f.nHash f.bitSize key 0).count.toNat = f.nHash.toNat := rfl
  rw [hcnt, insertLoop_eq env key _ _ hm f.nHash.toNat 0 _ f false w.size (by omega) (by omega)]
  rw [← List.range_eq_range']
  have ha : (List.range f.nHash.toNat).all
      (fun n => bitAt f.bitset (dcsoProbe key f.bitSize.toNat n)) = f.allSet key := rfl
  rw [ha]
  by_cases hc : f.capacity ≤ f.count ∧ f.allSet key = false
  · rw [if_pos hc, if_pos hc]
  · rw [if_neg hc, if_neg hc]
    simp only [Bool.false_or]
    cases hall : f.allSet key with
    | true => simp [added, hall]
    | false =>
      have hlt : ¬ f.capacity ≤ f.count := fun h => hc ⟨h, hall⟩
      have hov : f.count.toNat + 1 < 2 ^ 64 := by
        rw [BitVec.le_def] at hlt
        have := f.capacity.isLt
        omega
      have hadd : addU64 env.debug f.count 1 = .ok (f.count + 1) := by
        unfold addU64
        rw [if_neg]
        intro hd
        rw [Bool.and_eq_true, decide_eq_true_eq] at hd
        have := hd.2
        have h2 : (1 : U64).toNat = 1 := rfl
        rw [h2] at this
        omega
      simp only [BitVec.ofNat_eq_ofNat] at hadd
      simp [hadd, added, hall]

/-- Degenerate filters without hash function. -/
theorem insertBytes_noHash (env : Env) {f : V1} (w : f.WF) (key : List U8) (hcap : f.capacity ≠ 0)
    (hk : f.nHash = 0) : f.insertBytes env key = (f, .ok false) := by
  unfold insertBytes
  simp only [if_neg hcap]
  rw [fingerprint_zero w, hk]
  have h0 : (fpAt 0 f.bitSize key 0).next = (.ok none, fpAt 0 f.bitSize key 0) :=
    fpAt_end 0 f.bitSize key
  have hcnt : (fpAt 0 f.bitSize key 0).count.toNat + 1 = 1 := rfl
  rw [hcnt]
  simp only [BitVec.ofNat_eq_ofNat] at h0
  simp [insertLoop, h0]

theorem containsBytes_noHash {f : V1} (w : f.WF) (key : List U8) (hk : f.nHash = 0) :
    f.containsBytes key = .ok (!f.bitset.isEmpty) := by
  unfold containsBytes
  rw [fingerprint_zero w, hk]
  have h0 : (fpAt 0 f.bitSize key 0).next = (.ok none, fpAt 0 f.bitSize key 0) :=
    fpAt_end 0 f.bitSize key
  have hcnt : (fpAt 0 f.bitSize key 0).count.toNat + 1 = 1 := rfl
  simp only [BitVec.ofNat_eq_ofNat] at h0
  cases he : f.bitset.isEmpty
  · simp [containsLoop, h0]
  · simp

theorem insertBytes_noBits (env : Env) {f : V1} (hfp : f.fingerprint.count = f.nHash)
    (hm' : f.fingerprint.m = 0) (key : List U8) (hcap : f.capacity ≠ 0) (hk : f.nHash ≠ 0) :
    f.insertBytes env key = (f, .panic) := by
  unfold V1.insertBytes
  simp only [if_neg hcap]
  have hn : (f.fingerprint.fingerprint key).next.1 = .panic := by
    unfold Fingerprint.fingerprint Fingerprint.next
    have hlt : (0 : U64) < f.fingerprint.count := by
      rw [hfp]
      rw [BitVec.lt_def]
      exact V1.toNat_pos hk
    simp only [if_pos hlt]
    simp [hm']
  unfold V1.insertLoop
  cases hx : (f.fingerprint.fingerprint key).next with
  | mk r fp =>
    rw [hx] at hn
    simp only at hn
    subst hn
    rfl

/-! ### Effect of `added` -/

@[simp] theorem added_capacity (f : V1) (k : List U8) : (f.added k).capacity = f.capacity := rfl
@[simp] theorem added_nHash (f : V1) (k : List U8) : (f.added k).nHash = f.nHash := rfl
@[simp] theorem added_bitSize (f : V1) (k : List U8) : (f.added k).bitSize = f.bitSize := rfl
@[simp] theorem added_length (f : V1) (k : List U8) :
    (f.added k).bitset.length = f.bitset.length := by simp [added]

theorem added_WF {f : V1} (w : f.WF) (k : List U8) : (f.added k).WF :=
  ⟨w.fpCount, w.fpM, by rw [added_length]; exact w.size, by rw [added_length]; exact w.len⟩

theorem bit_added {f : V1} (w : f.WF) (hm : f.bitSize ≠ 0) (k : List U8) (i : ℕ) :
    bitAt (f.added k).bitset i = (bitAt f.bitset i ||
      decide (∃ n < f.nHash.toNat, i = dcsoProbe k f.bitSize.toNat n)) := by
  unfold added
  simp only
  rw [bitAt_setAllW]
  · congr 1
    simp [List.mem_map, eq_comm]
  · intro p hp
    obtain ⟨n, _, rfl⟩ := List.mem_map.1 hp
    have := probe_lt k hm n
    have := w.size
    omega

theorem allSet_iff (f : V1) (k : List U8) :
    f.allSet k = true ↔
      ∀ n < f.nHash.toNat, bitAt f.bitset (dcsoProbe k f.bitSize.toNat n) = true := by
  simp [allSet, List.all_eq_true]

end V1

end Poppy
