import Verif.LoadView
import Verif.Lemmas.Ser
import Verif.Lemmas.Serial

/-! # Helper lemmas for loading arbitrary bytes -/

namespace Poppy

open Spec

/-- The reader at a place. -/
def rdAt (bs : List U8) (o : ℕ) : Reader := ⟨bs, o, none⟩

theorem readExact_at {bs : List U8} {o n : ℕ} (h : o ≤ bs.length) :
    readExact n (rdAt bs o) = if o + n ≤ bs.length then .ok (slice bs o n, rdAt bs (o + n))
      else .err (.ioError .unexpectedEof) := by
  unfold readExact rdAt Reader.failsBefore slice
  by_cases h0 : n = 0
  · subst h0; simp [h]
  · simp [h0]

theorem num_lt (bs : List U8) (o : ℕ) : num bs o < 2 ^ 64 := by
  unfold num
  rw [← toNat_u64OfLe (by simp)]
  exact BitVec.isLt _

theorem readLeU64_at {bs : List U8} {o : ℕ} (h : o ≤ bs.length) :
    readLeU64 (rdAt bs o) = if o + 8 ≤ bs.length then
      .ok (BitVec.ofNat 64 (num bs o), rdAt bs (o + 8))
      else .err (.ioError .unexpectedEof) := by
  unfold readLeU64
  rw [readExact_at h]
  by_cases h8 : o + 8 ≤ bs.length
  · rw [if_pos h8, if_pos h8]
    simp only [Res.ok.injEq, Prod.mk.injEq, and_true]
    apply BitVec.eq_of_toNat_eq
    rw [toNat_u64OfLe (by simp [slice]), BitVec.toNat_ofNat, Nat.mod_eq_of_lt (num_lt bs o)]
    rfl
  · rw [if_neg h8, if_neg h8]

theorem readToEnd_at {bs : List U8} {o : ℕ} (h : o ≤ bs.length) :
    readToEnd (rdAt bs o) = .ok (bs.drop o, rdAt bs bs.length) := by
  unfold readToEnd rdAt Reader.failsBefore
  simp [h]

theorem readBuckets_at {bs : List U8} (n : ℕ) {o : ℕ} (h : o ≤ bs.length) :
    (o + n * 4096 ≤ bs.length → ∃ l : List Bucket,
      V2.readBuckets n (rdAt bs o) = .ok (l, rdAt bs (o + n * 4096)) ∧
      l.map BitSet.asSlice = (List.range n).map fun i => slice bs (o + i * 4096) 4096) ∧
    (bs.length < o + n * 4096 →
      V2.readBuckets n (rdAt bs o) = .err (.ioError .unexpectedEof)) := by
  induction n generalizing o with
  | zero => exact ⟨fun _ => ⟨[], by simp [V2.readBuckets], rfl⟩, fun h' => by omega⟩
  | succ n ih =>
    unfold V2.readBuckets
    rw [readExact_at h]
    by_cases h1 : o + BUCKET_SIZE ≤ bs.length
    · have h1' : o + 4096 ≤ bs.length := h1
      obtain ⟨i1, i2⟩ := ih h1
      rw [if_pos h1]
      refine ⟨fun h2 => ?_, fun h2 => ?_⟩
      · obtain ⟨l, hl, hm⟩ := i1 (by unfold BUCKET_SIZE; omega)
        have hlen : (slice bs o BUCKET_SIZE).length = BUCKET_SIZE := by
          simp [slice, BUCKET_SIZE]; omega
        simp only [hl]
        rw [dif_pos hlen]
        refine ⟨_, by rw [show o + BUCKET_SIZE + n * 4096 = o + (n + 1) * 4096 by unfold BUCKET_SIZE; ring], ?_⟩
        rw [List.map_cons, hm, List.range_succ_eq_map, List.map_cons, List.map_map]
        simp only [BitSet.asSlice, Nat.zero_mul, Nat.add_zero, Function.comp_def, List.cons.injEq]
        refine ⟨by simp [BUCKET_SIZE], List.map_congr_left fun i _ => ?_⟩
        rw [show o + BUCKET_SIZE + i * 4096 = o + i.succ * 4096 by
          unfold BUCKET_SIZE; rw [Nat.succ_eq_add_one]; ring]
      · simp only [i2 (by unfold BUCKET_SIZE; omega)]
    · have h1' : ¬ o + 4096 ≤ bs.length := h1
      rw [if_neg h1]
      exact ⟨fun h2 => by omega, fun _ => rfl⟩

theorem readWords_at {bs : List U8} (n : ℕ) {o : ℕ} (h : o ≤ bs.length) :
    (o + n * 8 ≤ bs.length → ∃ l : List U64,
      V1.readWords n (rdAt bs o) = .ok (l, rdAt bs (o + n * 8)) ∧
      l.map BitVec.toNat = (List.range n).map fun i => num bs (o + i * 8)) ∧
    (bs.length < o + n * 8 → V1.readWords n (rdAt bs o) = .err (.ioError .unexpectedEof)) := by
  induction n generalizing o with
  | zero => exact ⟨fun _ => ⟨[], by simp [V1.readWords], rfl⟩, fun h' => by omega⟩
  | succ n ih =>
    unfold V1.readWords
    rw [readLeU64_at h]
    by_cases h1 : o + 8 ≤ bs.length
    · obtain ⟨i1, i2⟩ := ih h1
      rw [if_pos h1]
      refine ⟨fun h2 => ?_, fun h2 => ?_⟩
      · obtain ⟨l, hl, hm⟩ := i1 (by omega)
        simp only [hl]
        refine ⟨_, by rw [show o + 8 + n * 8 = o + (n + 1) * 8 by ring], ?_⟩
        rw [List.map_cons, hm, List.range_succ_eq_map, List.map_cons, List.map_map]
        simp only [Nat.zero_mul, Nat.add_zero, Function.comp_def, List.cons.injEq]
        refine ⟨by rw [BitVec.toNat_ofNat, Nat.mod_eq_of_lt (num_lt bs o)],
          List.map_congr_left fun i _ => ?_⟩
        rw [show o + 8 + i * 8 = o + i.succ * 8 by rw [Nat.succ_eq_add_one]; ring]
      · simp only [i2 (by omega)]
    · rw [if_neg h1]
      exact ⟨fun h2 => by omega, fun _ => rfl⟩

/-- The header. -/
theorem readFlags_at {bs : List U8} : readFlags (rdAt bs 0) =
    if bs.length < 8 then .err (.ioError .unexpectedEof)
    else match OptLevel.tryFrom (bs.getD 1 0) with
      | .ok o => .ok (⟨bs.getD 0 0, o, slice bs 2 6⟩, rdAt bs 8)
      | .err e => .err e
      | .panic => .panic := by
  unfold readFlags
  rw [readExact_at (Nat.zero_le _), Nat.zero_add]
  by_cases h : bs.length < 8
  · rw [if_neg (by omega), if_pos h]
  · rw [if_pos (by omega), if_neg h]
    rcases bs with _ | ⟨b0, _ | ⟨b1, _ | ⟨b2, _ | ⟨b3, _ | ⟨b4, _ | ⟨b5, _ | ⟨b6, _ | ⟨b7, rest⟩⟩⟩⟩⟩⟩⟩⟩
    iterate 8 (exact absurd (by simp) h)
    simp only [slice, Flags.fromBytes, List.drop_zero, List.take_succ_cons, List.take_zero,
      List.getD_cons_succ, List.getD_cons_zero, List.drop_succ_cons]
    cases OptLevel.tryFrom b1 <;> rfl

theorem tryFrom_cases (o : U8) :
    (3 < o.toNat ∧ OptLevel.tryFrom o = .err (.optLevel o)) ∨
    (¬ 3 < o.toNat ∧ ∃ l : OptLevel, OptLevel.tryFrom o = .ok l ∧ l.toU8.toNat = o.toNat) := by
  by_cases h : 3 < o.toNat
  · refine .inl ⟨h, ?_⟩
    have ne : ∀ l : OptLevel, o ≠ l.toU8 := by
      rintro l rfl
      cases l <;> exact absurd h (by decide)
    unfold OptLevel.tryFrom
    rw [if_neg (ne _), if_neg (ne _), if_neg (ne _), if_neg (ne _)]
  · refine .inr ⟨h, ?_⟩
    have : o = 0#8 ∨ o = 1#8 ∨ o = 2#8 ∨ o = 3#8 := by
      have : o.toNat = 0 ∨ o.toNat = 1 ∨ o.toNat = 2 ∨ o.toNat = 3 := by omega
      rcases this with h | h | h | h
      · exact .inl (BitVec.eq_of_toNat_eq h)
      · exact .inr (.inl (BitVec.eq_of_toNat_eq h))
      · exact .inr (.inr (.inl (BitVec.eq_of_toNat_eq h)))
      · exact .inr (.inr (.inr (BitVec.eq_of_toNat_eq h)))
    rcases this with rfl | rfl | rfl | rfl
    · exact ⟨.none, rfl, rfl⟩
    · exact ⟨.space, rfl, rfl⟩
    · exact ⟨.speed, rfl, rfl⟩
    · exact ⟨.best, rfl, rfl⟩

/-- Sizes of caches, in the sense of the specification. -/
theorem byteCap_limit {env : Env} (hs : env.Small) (n : U64) :
    (env.allocLimit < (byteCapFromBitCap n).toNat ↔ env.allocLimit < (n.toNat + 7) / 8) ∧
    (¬ env.allocLimit < (byteCapFromBitCap n).toNat →
      (byteCapFromBitCap n).toNat = (n.toNat + 7) / 8) := by
  unfold Env.Small at hs
  by_cases h : n.toNat ≤ 2 ^ 53
  · have := byteCap_eq h
    exact ⟨by rw [this], fun _ => this⟩
  · have hb : ¬ (byteCapFromBitCap n).toNat < 2 ^ 50 := fun hb => h (byteCap_small hb).1
    exact ⟨⟨fun _ => by omega, fun _ => by omega⟩, fun hh => by omega⟩

/-- Numbers of words, in the sense of the specification. -/
theorem u64Size_limit {env : Env} (hs : env.Small) (n : U64) :
    (env.allocLimit < (u64SizeFor n).toNat * 8 ↔ env.allocLimit < (n.toNat + 63) / 64 * 8) ∧
    (¬ env.allocLimit < (u64SizeFor n).toNat * 8 →
      (u64SizeFor n).toNat = (n.toNat + 63) / 64) := by
  unfold Env.Small at hs
  by_cases h : n.toNat ≤ 2 ^ 53
  · have := u64SizeFor_eq h
    exact ⟨by rw [this], fun _ => this⟩
  · have hb : ¬ (u64SizeFor n).toNat * 8 < 2 ^ 50 := fun hb => h (u64SizeFor_small hb).1
    exact ⟨⟨fun _ => by omega, fun _ => by omega⟩, fun hh => by omega⟩

theorem toNat_num (bs : List U8) (o : ℕ) : (BitVec.ofNat 64 (num bs o)).toNat = num bs o := by
  rw [BitVec.toNat_ofNat, Nat.mod_eq_of_lt (num_lt bs o)]

theorem V2.load_body {env : Env} (hs : env.Small) {bs : List U8} (h8 : 8 ≤ bs.length) {lvl : OptLevel}
    (hl : lvl.toU8.toNat = (bs.getD 1 0).toNat) (v : U8) :
    (V2.fromReaderWithFlags env ⟨v, lvl, slice bs 2 6⟩ false (rdAt bs 8)).map V2.content
      = Load.res (body2 env.allocLimit bs) := by
  unfold V2.fromReaderWithFlags body2
  rw [readLeU64_at h8]
  by_cases c1 : bs.length < 16
  · rw [if_neg (by omega), if_pos (by omega)]; rfl
  rw [if_pos (by omega), Res.bind_ok]
  simp only
  rw [readLeU64_at (by omega)]
  by_cases c2 : bs.length < 24
  · rw [if_neg (by omega), if_pos (by omega)]; rfl
  rw [if_pos (by omega), if_neg c2, Res.bind_ok]
  simp only
  by_cases cf : fppInRange (BitVec.ofNat 64 (num bs 16)) = true
  swap
  · have cf' := cf
    rw [fppInRange_iff, toNat_num] at cf'
    rw [if_pos (by simpa using cf), if_pos cf']; rfl
  have cf' := cf
  rw [fppInRange_iff, toNat_num] at cf'
  rw [if_neg (by simp [cf]), if_neg (not_not.2 cf'), readLeU64_at (by omega)]
  by_cases c3 : bs.length < 32
  · rw [if_neg (by omega), if_pos (by omega)]; rfl
  rw [if_pos (by omega), Res.bind_ok]
  simp only
  rw [readLeU64_at (by omega)]
  by_cases c4 : bs.length < 40
  · rw [if_neg (by omega), if_pos (by omega)]; rfl
  rw [if_pos (by omega), Res.bind_ok]
  simp only
  rw [readLeU64_at (by omega)]
  by_cases c5 : bs.length < 48
  · rw [if_neg (by omega), if_pos (by omega)]; rfl
  rw [if_pos (by omega), if_neg c5, Res.bind_ok]
  simp only
  obtain ⟨b1, b2⟩ := byteCap_limit hs (BitVec.ofNat 64 (num bs 40))
  rw [toNat_num] at b1 b2
  unfold V2.readCache
  simp only [Bool.false_eq_true, if_false]
  by_cases c6 : env.allocLimit < (num bs 40 + 7) / 8
  · have : env.alloc (byteCapFromBitCap (BitVec.ofNat 64 (num bs 40))).toNat 1 = .panic := by
      unfold Env.alloc; rw [if_neg (by rw [Nat.mul_one]; exact not_le.2 (b1.2 c6))]
    rw [this, if_pos c6]; rfl
  have b3 := b2 (mt b1.1 c6)
  rw [Env.alloc_of_le (by rw [Nat.mul_one, b3]; omega), if_neg c6]
  have b4 : (VecBitSet.withBitCapacity (BitVec.ofNat 64 (num bs 40))).byteLen
      = (num bs 40 + 7) / 8 := by
    rw [← b3]; simp [VecBitSet.byteLen, VecBitSet.withBitCapacity]
  simp only [b4]
  generalize hc : (num bs 40 + 7) / 8 = c
  rw [readExact_at (by omega)]
  by_cases c7 : bs.length < 48 + c
  · rw [if_neg (by omega), if_pos (by omega)]; rfl
  rw [if_pos (by omega)]
  simp only [Res.bind_ok]
  rw [readLeU64_at (by omega)]
  by_cases c8 : bs.length < 56 + c
  · rw [if_neg (by omega), if_pos (by omega)]; rfl
  rw [if_pos (by omega), if_neg c8, Res.bind_ok]
  simp only
  unfold V2.readAllBuckets
  simp only [Bool.false_eq_true, if_false, toNat_num]
  generalize hn : num bs (48 + c) = n
  by_cases c9 : env.allocLimit < n * 4096
  · have : env.alloc n BUCKET_SIZE = .panic := by
      unfold Env.alloc BUCKET_SIZE; rw [if_neg (by omega)]
    rw [this, if_pos c9]; rfl
  rw [Env.alloc_of_le (by unfold BUCKET_SIZE; omega), if_neg c9]
  simp only
  obtain ⟨r1, r2⟩ := readBuckets_at (bs := bs) n (o := 48 + c + 8) (by omega)
  by_cases c10 : bs.length < 56 + c + n * 4096
  · rw [r2 (by omega), if_pos c10]; rfl
  obtain ⟨l, e1, e2⟩ := r1 (by omega)
  rw [e1, if_neg c10, Res.bind_ok]
  simp only
  rw [readToEnd_at (by omega), Res.bind_ok]
  simp only [Res.map, V2.content, Load.res, toNat_num, hl, e2, VecBitSet.asSlice]
  rw [show 48 + c + 8 = 56 + c by omega]

theorem V1.load_body {env : Env} (hs : env.Small) {bs : List U8} (h8 : 8 ≤ bs.length) {lvl : OptLevel}
    (hl : lvl.toU8.toNat = (bs.getD 1 0).toNat) (v : U8) :
    (V1.fromReaderWithFlags env ⟨v, lvl, slice bs 2 6⟩ false (rdAt bs 8)).map V1.content
      = Load.res (body1 env.allocLimit bs) := by
  unfold V1.fromReaderWithFlags body1
  by_cases c0 : bs.length < 48
  · rw [if_pos c0]
    rw [readLeU64_at h8]
    by_cases c1 : bs.length < 16
    · rw [if_neg (by omega)]; rfl
    rw [if_pos (by omega), Res.bind_ok]
    simp only
    rw [readLeU64_at (by omega)]
    by_cases c2 : bs.length < 24
    · rw [if_neg (by omega)]; rfl
    rw [if_pos (by omega), Res.bind_ok]
    simp only
    rw [readLeU64_at (by omega)]
    by_cases c3 : bs.length < 32
    · rw [if_neg (by omega)]; rfl
    rw [if_pos (by omega), Res.bind_ok]
    simp only
    rw [readLeU64_at (by omega)]
    by_cases c4 : bs.length < 40
    · rw [if_neg (by omega)]; rfl
    rw [if_pos (by omega), Res.bind_ok]
    simp only
    rw [readLeU64_at (by omega), if_neg (by omega)]; rfl
  rw [if_neg c0, readLeU64_at h8, if_pos (by omega), Res.bind_ok]
  simp only
  rw [readLeU64_at (by omega), if_pos (by omega), Res.bind_ok]
  simp only
  rw [readLeU64_at (by omega), if_pos (by omega), Res.bind_ok]
  simp only
  rw [readLeU64_at (by omega), if_pos (by omega), Res.bind_ok]
  simp only
  rw [readLeU64_at (by omega), if_pos (by omega), Res.bind_ok]
  simp only
  obtain ⟨b1, b2⟩ := u64Size_limit hs (BitVec.ofNat 64 (num bs 32))
  rw [toNat_num] at b1 b2
  unfold V1.readBitset
  simp only [Bool.false_eq_true, if_false]
  by_cases c6 : env.allocLimit < (num bs 32 + 63) / 64 * 8
  · have : env.alloc (u64SizeFor (BitVec.ofNat 64 (num bs 32))).toNat 8 = .panic := by
      unfold Env.alloc; rw [if_neg (not_le.2 (b1.2 c6))]
    rw [this, if_pos c6]; rfl
  have b3 := b2 (mt b1.1 c6)
  rw [Env.alloc_of_le (by rw [b3]; omega), if_neg c6]
  simp only [b3]
  generalize hn : (num bs 32 + 63) / 64 = n
  obtain ⟨r1, r2⟩ := readWords_at (bs := bs) n (o := 48) (by omega)
  by_cases c10 : bs.length < 48 + n * 8
  · rw [r2 (by omega), if_pos c10]; rfl
  obtain ⟨l, e1, e2⟩ := r1 (by omega)
  rw [e1, if_neg c10, Res.bind_ok]
  simp only
  rw [readToEnd_at (by omega), Res.bind_ok]
  simp only [Res.map, V1.content, Load.res, toNat_num, hl, e2]

theorem toU8_inj {a b : OptLevel} (h : a.toU8.toNat = b.toU8.toNat) : a = b := by
  cases a <;> cases b <;> first | rfl | exact absurd h (by decide)

theorem flags_eq {a b : Flags} (hv : a.version = b.version) (ho : a.opt.toU8.toNat = b.opt.toU8.toNat)
    (hr : a.reserved = b.reserved) : a = b := by
  cases a; cases b
  simp only at hv ho hr
  rw [hv, toU8_inj ho, hr]

theorem load_ne_overflow (limit : ℕ) (bs : List U8) : load limit bs ≠ .overflow := by
  have h1 : (body1 limit bs).map (Sum.inl (β := File2)) ≠ .overflow := by
    unfold body1
    dsimp only
    split_ifs <;> exact fun h => by cases h
  have h2 : (body2 limit bs).map (Sum.inr (α := File1)) ≠ .overflow := by
    unfold body2
    dsimp only
    split_ifs <;> exact fun h => by cases h
  unfold load header
  dsimp only
  split_ifs
  all_goals first
    | exact h1
    | exact h2
    | exact fun h => by cases h

end Poppy
