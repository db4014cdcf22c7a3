import Verif.Lemmas.Load

/-! # Helper lemmas for partial loading of arbitrary bytes -/

namespace Poppy

open Spec

theorem readLeU64_any {bs : List U8} {o : ℕ} :
    readLeU64 (rdAt bs o) = if o + 8 ≤ bs.length then
      .ok (BitVec.ofNat 64 (num bs o), rdAt bs (o + 8))
      else .err (.ioError .unexpectedEof) := by
  by_cases h : o ≤ bs.length
  · exact readLeU64_at h
  · rw [if_neg (by omega)]
    unfold readLeU64 readExact rdAt Reader.failsBefore
    simp only [OfNat.ofNat_ne_zero, if_false, Bool.false_eq_true]
    rw [if_neg (by omega)]

theorem readToEnd_any {bs : List U8} {o : ℕ} :
    ∃ r, readToEnd (rdAt bs o) = .ok (bs.drop o, r) := by
  unfold readToEnd rdAt Reader.failsBefore
  simp

theorem seekRelative_at (bs : List U8) (o : ℕ) (x : U64) :
    seekRelative x (rdAt bs o) = match seekTo o x.toNat with
      | none => .err (.ioError .invalidInput)
      | some p => .ok ((), rdAt bs p) := by
  unfold seekRelative seekTo rdAt
  simp only
  have hx := x.isLt
  by_cases h : x.toNat < 2 ^ 63
  · have e : x.toInt = x.toNat := by rw [BitVec.toInt_eq_toNat_cond, if_pos (by omega)]
    rw [e, if_pos h, if_neg (by omega)]
    simp only [Res.ok.injEq, Prod.mk.injEq, true_and, Reader.mk.injEq, and_true]
    omega
  · have e : x.toInt = x.toNat - 2 ^ 64 := by
      rw [BitVec.toInt_eq_toNat_cond, if_neg (by omega)]; norm_num
    rw [e, if_neg h]
    by_cases h2 : o + x.toNat < 2 ^ 64
    · rw [if_pos h2, if_pos (by omega)]
    · rw [if_neg h2, if_neg (by omega)]
      simp only [Res.ok.injEq, Prod.mk.injEq, true_and, Reader.mk.injEq, and_true]
      omega

theorem toU64_ceil_le {q : ℚ} {n : ℕ} (_ : n < 2 ^ 64) (h : q ≤ n) :
    (FVal.toU64 (FVal.ceil (.fin q))).toNat ≤ n := by
  unfold FVal.ceil FVal.toU64
  simp only [Int.floor_intCast]
  have h1 : ⌈q⌉ ≤ (n : ℤ) := Int.ceil_le.2 (by exact_mod_cast h)
  split
  · simp
  split
  · omega
  · rw [BitVec.toNat_ofNat, Nat.mod_eq_of_lt (by omega)]
    omega

theorem div_ofU64_le (x : U64) {j : ℕ} (hj : 3 ≤ j) (h11 : j ≤ 64) :
    (FVal.toU64 (FVal.ceil (FVal.div (FVal.ofU64 x) (.fin (2 ^ j))))).toNat ≤ 2 ^ (64 - j) := by
  rw [rnd_fin_u64]
  have h2 : (2 : ℚ) ^ j ≠ 0 := by positivity
  unfold FVal.div
  simp only [h2, if_false]
  have h64 : IsF ((2 : ℚ) ^ 64) := by simpa using isF_two_zpow (e := 64) (by norm_num)
  have hF : IsF ((2 : ℚ) ^ (64 - j)) := by
    have := isF_two_zpow (e := ((64 - j : ℕ) : ℤ)) (by omega)
    rwa [zpow_natCast] at this
  have hx : ((x.toNat : ℕ) : ℚ) ≤ 2 ^ 64 := by exact_mod_cast x.isLt.le
  have hb : rndQ ((x.toNat : ℕ) : ℚ) ≤ 2 ^ 64 := rndQ_le _ h64 (by rw [Rat.cast_id]; exact hx)
  have hnn : 0 ≤ rndQ ((x.toNat : ℕ) : ℚ) := le_rndQ _ isF_zero (by push_cast; positivity)
  have h3 : rndQ ((x.toNat : ℕ) : ℚ) / 2 ^ j ≤ 2 ^ (64 - j) := by
    rw [div_le_iff₀ (by positivity), ← pow_add, show 64 - j + j = 64 by omega]
    exact hb
  have hr := rnd_fin (x := rndQ ((x.toNat : ℕ) : ℚ) / 2 ^ j) h64
    (two_pow_lt_f64Huge (by norm_num)) (by
      rw [Rat.cast_id, abs_of_nonneg (by positivity)]
      exact (div_le_self hnn (one_le_pow₀ (by norm_num))).trans hb)
  rw [hr.1]
  apply toU64_ceil_le (Nat.pow_lt_pow_right (by norm_num) (by omega))
  push_cast
  exact rndQ_le _ hF (by rw [Rat.cast_id]; exact h3)

theorem byteCap_lt (n : U64) : (byteCapFromBitCap n).toNat < 2 ^ 63 := by
  have := div_ofU64_le n (j := 3) (by norm_num) (by norm_num)
  unfold byteCapFromBitCap
  norm_num at this ⊢
  omega

theorem u64Size_lt (n : U64) : (u64SizeFor n).toNat * 8 < 2 ^ 63 := by
  have := div_ofU64_le n (j := 6) (by norm_num) (by norm_num)
  unfold u64SizeFor
  norm_num at this ⊢
  omega

theorem V2.peek_body {env : Env} {bs : List U8} (hb : bs.length < 2 ^ 50) (h8 : 8 ≤ bs.length)
    {lvl : OptLevel} (hl : lvl.toU8.toNat = (bs.getD 1 0).toNat) (v : U8) :
    (V2.fromReaderWithFlags env ⟨v, lvl, slice bs 2 6⟩ true (rdAt bs 8)).map
        (fun f => (⟨f.content, f.cacheByteSize.toNat, f.nBuckets.toNat⟩ : Peek2))
      = Load.res (peekBody2 env.debug bs) := by
  unfold V2.fromReaderWithFlags peekBody2
  rw [readLeU64_at h8]
  by_cases c1 : bs.length < 16
  · rw [if_neg (by omega), if_pos (by omega)]; rfl
  rw [if_pos (by omega), Res.bind_ok]
  simp only
  rw [readLeU64_at (by omega)]
  by_cases c2 : bs.length < 24
  · rw [if_neg (by omega), if_pos (by omega)]; rfl
  rw [if_pos (by omega), if_neg c2, Res.bind_ok]
  simp only
  by_cases cf : fppInRange (BitVec.ofNat 64 (num bs 16)) = true
  swap
  · have cf' := cf
    rw [fppInRange_iff, toNat_num] at cf'
    rw [if_pos (by simpa using cf), if_pos cf']; rfl
  have cf' := cf
  rw [fppInRange_iff, toNat_num] at cf'
  rw [if_neg (by simp [cf]), if_neg (not_not.2 cf'), readLeU64_at (by omega)]
  by_cases c3 : bs.length < 32
  · rw [if_neg (by omega), if_pos (by omega)]; rfl
  rw [if_pos (by omega), Res.bind_ok]
  simp only
  rw [readLeU64_at (by omega)]
  by_cases c4 : bs.length < 40
  · rw [if_neg (by omega), if_pos (by omega)]; rfl
  rw [if_pos (by omega), Res.bind_ok]
  simp only
  rw [readLeU64_at (by omega)]
  by_cases c5 : bs.length < 48
  · rw [if_neg (by omega), if_pos (by omega)]; rfl
  rw [if_pos (by omega), Res.bind_ok]
  simp only
  unfold V2.readCache
  simp only [if_true]
  rw [seekRelative_at]
  have hcl := byteCap_lt (BitVec.ofNat 64 (num bs 40))
  unfold seekTo
  rw [if_pos hcl]
  simp only [Res.bind_ok]
  rw [readLeU64_any]
  have hbc : (byteCapFromBitCap (BitVec.ofNat 64 (num bs 40))).toNat = (num bs 40 + 7) / 8 ∨
      (2 ^ 50 ≤ (byteCapFromBitCap (BitVec.ofNat 64 (num bs 40))).toNat ∧
        2 ^ 50 ≤ (num bs 40 + 7) / 8) := by
    by_cases h : num bs 40 ≤ 2 ^ 53
    · left
      have := byteCap_eq (n := BitVec.ofNat 64 (num bs 40)) (by rw [toNat_num]; exact h)
      rwa [toNat_num] at this
    · right
      refine ⟨?_, by omega⟩
      by_contra hb
      have := (byteCap_small (not_le.1 hb)).1
      rw [toNat_num] at this
      exact h this
  simp only [Nat.reduceAdd]
  by_cases c8 : bs.length < 56 + (num bs 40 + 7) / 8
  · rw [if_neg (by omega), if_pos c8]; rfl
  have hbc' : (byteCapFromBitCap (BitVec.ofNat 64 (num bs 40))).toNat = (num bs 40 + 7) / 8 := by
    omega
  rw [hbc']
  generalize hc : (num bs 40 + 7) / 8 = c at *
  rw [if_pos (by omega), if_neg c8, Res.bind_ok]
  simp only
  unfold V2.readAllBuckets mulU64
  simp only [if_true, toNat_num]
  generalize hn : num bs (48 + c) = n
  have hn' : n < 2 ^ 64 := hn ▸ num_lt bs _
  have hB : (BitVec.ofNat 64 BUCKET_SIZE).toNat = 4096 := by decide
  rw [hB]
  by_cases c9 : env.debug = true ∧ 2 ^ 64 ≤ n * 4096
  · rw [if_pos c9, if_pos (by simpa using c9)]; rfl
  rw [if_neg c9, if_neg (by simpa using c9)]
  simp only
  rw [seekRelative_at, BitVec.toNat_mul, hB, BitVec.toNat_ofNat, Nat.mod_eq_of_lt hn',
    show 48 + c + 8 = 56 + c by omega]
  cases hsk : seekTo (56 + c) (n * 4096 % 2 ^ 64) with
  | none =>
    unfold seekTo at hsk
    rw [hsk]; rfl
  | some p =>
    unfold seekTo at hsk
    rw [hsk]
    simp only [Res.bind_ok]
    obtain ⟨r, hr⟩ := readToEnd_any (bs := bs) (o := p)
    rw [hr]
    simp only [Res.bind_ok, Res.map, V2.content, Load.res, toNat_num, hl, VecBitSet.asSlice, hbc']
    rw [BitVec.toNat_ofNat, Nat.mod_eq_of_lt hn']
    have hz : (byteCapFromBitCap 0#64).toNat = 0 := congrArg BitVec.toNat byteCap_zero
    simp [VecBitSet.withBitCapacity, hz]

theorem V1.peek_body {env : Env} {bs : List U8} (hb : bs.length < 2 ^ 50) (h8 : 8 ≤ bs.length)
    {lvl : OptLevel} (hl : lvl.toU8.toNat = (bs.getD 1 0).toNat) (v : U8) :
    (V1.fromReaderWithFlags env ⟨v, lvl, slice bs 2 6⟩ true (rdAt bs 8)).map V1.content
      = Load.res (peekBody1 bs) := by
  unfold V1.fromReaderWithFlags peekBody1
  by_cases c0 : bs.length < 48
  · rw [if_pos c0]
    rw [readLeU64_at h8]
    by_cases c1 : bs.length < 16
    · rw [if_neg (by omega)]; rfl
    rw [if_pos (by omega), Res.bind_ok]
    simp only
    rw [readLeU64_at (by omega)]
    by_cases c2 : bs.length < 24
    · rw [if_neg (by omega)]; rfl
    rw [if_pos (by omega), Res.bind_ok]
    simp only
    rw [readLeU64_at (by omega)]
    by_cases c3 : bs.length < 32
    · rw [if_neg (by omega)]; rfl
    rw [if_pos (by omega), Res.bind_ok]
    simp only
    rw [readLeU64_at (by omega)]
    by_cases c4 : bs.length < 40
    · rw [if_neg (by omega)]; rfl
    rw [if_pos (by omega), Res.bind_ok]
    simp only
    rw [readLeU64_at (by omega), if_neg (by omega)]; rfl
  rw [if_neg c0, readLeU64_at h8, if_pos (by omega), Res.bind_ok]
  simp only
  rw [readLeU64_at (by omega), if_pos (by omega), Res.bind_ok]
  simp only
  rw [readLeU64_at (by omega), if_pos (by omega), Res.bind_ok]
  simp only
  rw [readLeU64_at (by omega), if_pos (by omega), Res.bind_ok]
  simp only
  rw [readLeU64_at (by omega), if_pos (by omega), Res.bind_ok]
  simp only
  unfold V1.readBitset mulU64
  have hu := u64Size_lt (BitVec.ofNat 64 (num bs 32))
  have hmul : (u64SizeFor (BitVec.ofNat 64 (num bs 32)) * 8#64).toNat
      = (u64SizeFor (BitVec.ofNat 64 (num bs 32))).toNat * 8 := by
    rw [BitVec.toNat_mul]; exact Nat.mod_eq_of_lt (by simp; omega)
  simp only [if_true]
  rw [if_neg (by simp; intro _; omega)]
  simp only
  rw [seekRelative_at, hmul]
  unfold seekTo
  rw [if_pos hu]
  simp only [Res.bind_ok]
  obtain ⟨r, hr⟩ := readToEnd_any (bs := bs)
    (o := 48 + (u64SizeFor (BitVec.ofNat 64 (num bs 32))).toNat * 8)
  rw [hr]
  simp only [Res.bind_ok, Res.map, V1.content, Load.res, toNat_num, hl, List.map_nil]
  have : bs.drop (48 + (u64SizeFor (BitVec.ofNat 64 (num bs 32))).toNat * 8)
      = bs.drop (48 + (num bs 32 + 63) / 64 * 8) := by
    by_cases h : num bs 32 ≤ 2 ^ 53
    · have := u64SizeFor_eq (n := BitVec.ofNat 64 (num bs 32)) (by rw [toNat_num]; exact h)
      rw [toNat_num] at this
      rw [this]
    · have h2 : ¬ (u64SizeFor (BitVec.ofNat 64 (num bs 32))).toNat * 8 < 2 ^ 50 := by
        intro hb
        have := (u64SizeFor_small hb).1
        rw [toNat_num] at this
        exact h this
      rw [List.drop_of_length_le (by omega), List.drop_of_length_le (by omega)]
  rw [this]

end Poppy
