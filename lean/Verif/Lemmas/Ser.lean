import Verif.Lemmas.Io
import Verif.Lemmas.BitSet

/-! Serialization of both filters: what `from_reader` accepts, and what it returns. -/

namespace Poppy

theorem Res.bind_eq_ok {α β : Type} {x : Res α} {f : α → Res β} {b : β} :
    (x >>= f) = .ok b ↔ ∃ a, x = .ok a ∧ f a = .ok b := by
  cases x <;> simp

theorem Res.map_eq_ok {α β : Type} {x : Res α} {f : α → β} {b : β} :
    x.map f = .ok b ↔ ∃ a, x = .ok a ∧ f a = b := by
  cases x <;> simp [Res.map]

/-! ### Flags -/

theorem OptLevel.tryFrom_toU8 (o : OptLevel) : OptLevel.tryFrom o.toU8 = .ok o := by
  cases o <;> decide

theorem OptLevel.tryFrom_ok {b : U8} {o : OptLevel} (h : OptLevel.tryFrom b = .ok o) :
    b = o.toU8 := by
  unfold OptLevel.tryFrom at h
  split at h
  · simp at h; subst h; assumption
  split at h
  · simp at h; subst h; assumption
  split at h
  · simp at h; subst h; assumption
  split at h
  · simp at h; subst h; assumption
  · simp at h

theorem OptLevel.tryFrom_ne_panic (b : U8) : OptLevel.tryFrom b ≠ .panic := by
  unfold OptLevel.tryFrom
  repeat' split
  all_goals simp

theorem Flags.length_toBytes (f : Flags) : f.toBytes.length = 8 := rfl

theorem readFlags_append (f : Flags) (pre rest : List U8) :
    readFlags (rd pre (f.toBytes ++ rest)) =
      .ok (⟨f.version, f.opt, List.replicate 6 0#8⟩, rd (pre ++ f.toBytes) rest) := by
  unfold readFlags
  rw [readExact_append f.length_toBytes]
  simp only [Flags.toBytes, Flags.fromBytes, OptLevel.tryFrom_toU8]
  rfl

theorem readFlags_inv {pre rest : List U8} {f : Flags} {r : Reader}
    (h : readFlags (rd pre rest) = .ok (f, r)) :
    f.reserved.length = 6 ∧ ∃ rest', rest = (f.version :: f.opt.toU8 :: f.reserved) ++ rest' ∧
      r = rd (pre ++ (f.version :: f.opt.toU8 :: f.reserved)) rest' := by
  unfold readFlags at h
  cases hr : readExact 8 (rd pre rest) with
  | ok v =>
    obtain ⟨bs, r'⟩ := v
    rw [hr] at h
    simp only at h
    obtain ⟨hl, rest', hrest, hr'⟩ := readExact_inv hr
    match bs, hl with
    | [b0, b1, b2, b3, b4, b5, b6, b7], _ =>
      simp only [Flags.fromBytes] at h
      cases ho : OptLevel.tryFrom b1 with
      | ok o =>
        rw [ho] at h
        simp only [Res.ok.injEq, Prod.mk.injEq] at h
        obtain ⟨rfl, rfl⟩ := h
        have := OptLevel.tryFrom_ok ho
        subst this
        exact ⟨rfl, rest', hrest, hr'⟩
      | err e => rw [ho] at h; simp at h
      | panic => rw [ho] at h; simp at h
  | err e => rw [hr] at h; simp at h
  | panic => rw [hr] at h; simp at h

theorem readFlags_ne_panic (pre rest : List U8) : readFlags (rd pre rest) ≠ .panic := by
  intro h
  unfold readFlags at h
  cases hr : readExact 8 (rd pre rest) with
  | ok v =>
    obtain ⟨bs, r'⟩ := v
    rw [hr] at h
    simp only at h
    obtain ⟨hl, rest', hrest, hr'⟩ := readExact_inv hr
    match bs, hl with
    | [b0, b1, b2, b3, b4, b5, b6, b7], _ =>
      simp only [Flags.fromBytes] at h
      cases ho : OptLevel.tryFrom b1 with
      | ok o => rw [ho] at h; simp at h
      | err e => rw [ho] at h; simp at h
      | panic => exact OptLevel.tryFrom_ne_panic b1 ho
  | err e => rw [hr] at h; simp at h
  | panic =>
    rw [readExact_rd] at hr
    split at hr <;> simp at hr

/-! ### Version 2 -/

namespace V2

theorem readBuckets_append (bs : List Bucket) (pre rest : List U8) :
    readBuckets bs.length (rd pre ((bs.map BitSet.asSlice).flatten ++ rest)) =
      .ok (bs, rd (pre ++ (bs.map BitSet.asSlice).flatten) rest) := by
  induction bs generalizing pre with
  | nil => simp [readBuckets]
  | cons b bs ih =>
    simp only [List.length_cons, readBuckets, List.map_cons, List.flatten_cons, List.append_assoc]
    rw [readExact_append (BitSet.length_asSlice b)]
    simp only
    rw [ih]
    simp only [BitSet.length_asSlice b, dif_pos, List.append_assoc]
    congr 3

theorem readBuckets_inv {n : ℕ} {pre rest : List U8} {bs : List Bucket} {r : Reader}
    (h : readBuckets n (rd pre rest) = .ok (bs, r)) :
    bs.length = n ∧ ∃ rest', rest = (bs.map BitSet.asSlice).flatten ++ rest' ∧
      r = rd (pre ++ (bs.map BitSet.asSlice).flatten) rest' := by
  induction n generalizing pre rest bs r with
  | zero =>
    simp only [readBuckets, Res.ok.injEq, Prod.mk.injEq] at h
    obtain ⟨rfl, rfl⟩ := h
    exact ⟨rfl, rest, by simp, by simp⟩
  | succ n ih =>
    simp only [readBuckets] at h
    cases hr : readExact BUCKET_SIZE (rd pre rest) with
    | ok v =>
      obtain ⟨b, r1⟩ := v
      rw [hr] at h
      simp only at h
      obtain ⟨hl, rest1, hrest, hr1⟩ := readExact_inv hr
      subst hr1
      cases hr2 : readBuckets n (rd (pre ++ b) rest1) with
      | ok v2 =>
        obtain ⟨bs', r2⟩ := v2
        rw [hr2] at h
        simp only [hl, dif_pos, Res.ok.injEq, Prod.mk.injEq] at h
        obtain ⟨rfl, rfl⟩ := h
        obtain ⟨hl2, rest2, hrest2, hr2'⟩ := ih hr2
        refine ⟨by simp [hl2], rest2, ?_, ?_⟩
        · rw [hrest, hrest2]; simp [BitSet.asSlice]
        · rw [hr2']; simp [BitSet.asSlice]
      | err e => rw [hr2] at h; simp at h
      | panic => rw [hr2] at h; simp at h
    | err e => rw [hr] at h; simp at h
    | panic => rw [hr] at h; simp at h

theorem readBuckets_mono (n : ℕ) : PrefixMono (readBuckets n) := by
  induction n with
  | zero => exact PrefixMono.pure []
  | succ n ih =>
    refine (readExact_mono BUCKET_SIZE).bind (g := fun bs r =>
      match readBuckets n r with
      | .ok (rest, r) =>
        if h : bs.length = BUCKET_SIZE then .ok (⟨⟨bs.toArray, by simpa using h⟩⟩ :: rest, r)
        else .panic
      | .err e => .err e
      | .panic => .panic) (fun bs => ?_) (fun r => by
        simp only [readBuckets]; cases readExact BUCKET_SIZE r <;> rfl)
    refine ih.map (fun rest => if h : bs.length = BUCKET_SIZE then
        .ok (⟨⟨bs.toArray, by simpa using h⟩⟩ :: rest) else .panic) (fun r => ?_)
    cases readBuckets n r with
    | ok v => simp only; split <;> rfl
    | err e => rfl
    | panic => rfl

theorem readBuckets_ne_panic (n : ℕ) (pre rest : List U8) :
    readBuckets n (rd pre rest) ≠ .panic := by
  induction n generalizing pre rest with
  | zero => simp [readBuckets]
  | succ n ih =>
    intro h
    simp only [readBuckets] at h
    cases hr : readExact BUCKET_SIZE (rd pre rest) with
    | ok v =>
      obtain ⟨b, r1⟩ := v
      rw [hr] at h
      simp only at h
      obtain ⟨hl, rest1, hrest, hr1⟩ := readExact_inv hr
      subst hr1
      cases hr2 : readBuckets n (rd (pre ++ b) rest1) with
      | ok v2 => rw [hr2] at h; simp [hl] at h
      | err e => rw [hr2] at h; simp at h
      | panic => exact ih _ _ hr2
    | err e => rw [hr] at h; simp at h
    | panic => rw [readExact_rd] at hr; split at hr <;> simp at hr

/-- Bytes after the flags for a stored filter whose header announces `c` cache bits. -/
def body (f : V2) (c : U64) : List U8 :=
  u64ToLe f.capacity ++ (u64ToLe f.fpp ++ (u64ToLe f.nHashBuck ++ (u64ToLe f.count ++
    (u64ToLe c ++ (f.indexCache.asSlice ++ (u64ToLe f.nBuckets ++
      ((f.buckets.map BitSet.asSlice).flatten ++ f.data)))))))

/-- What reading guarantees: sizes agree and fit in memory. -/
structure Fits (env : Env) (f : V2) : Prop where
  fpp : fppInRange f.fpp = true
  nb : f.nBuckets.toNat = f.buckets.length
  cb : f.cacheByteSize.toNat = f.indexCache.asSlice.length
  mb : f.buckets.length * 4096 ≤ env.allocLimit
  mc : f.indexCache.asSlice.length ≤ env.allocLimit


theorem readCache_append {env : Env} {c : U64} {bs : List U8}
    (hl : (byteCapFromBitCap c).toNat = bs.length) (hm : bs.length ≤ env.allocLimit)
    (pre rest : List U8) :
    readCache env c false (rd pre (bs ++ rest)) = .ok (⟨bs⟩, rd (pre ++ bs) rest) := by
  unfold readCache
  simp only [Bool.false_eq_true, if_false]
  rw [Env.alloc_of_le (by rw [hl]; omega)]
  simp only
  rw [readExact_append (by simp [VecBitSet.withBitCapacity, VecBitSet.byteLen, hl])]

theorem readCache_inv {env : Env} {c : U64} {pre rest : List U8} {ic : VecBitSet} {r : Reader}
    (h : readCache env c false (rd pre rest) = .ok (ic, r)) :
    (byteCapFromBitCap c).toNat = ic.asSlice.length ∧ ic.asSlice.length ≤ env.allocLimit ∧
    ∃ rest', rest = ic.asSlice ++ rest' ∧ r = rd (pre ++ ic.asSlice) rest' := by
  unfold readCache at h
  simp only [Bool.false_eq_true, if_false] at h
  cases ha : env.alloc (byteCapFromBitCap c).toNat 1 with
  | ok u =>
    rw [ha] at h
    simp only at h
    have hle := Env.alloc_ok ha
    cases hr : readExact (VecBitSet.withBitCapacity c).byteLen (rd pre rest) with
    | ok v =>
      obtain ⟨bs, r1⟩ := v
      rw [hr] at h
      simp only [Res.ok.injEq, Prod.mk.injEq] at h
      obtain ⟨rfl, rfl⟩ := h
      obtain ⟨hl, rest1, hrest, hr1⟩ := readExact_inv hr
      simp only [VecBitSet.byteLen, VecBitSet.withBitCapacity, List.length_replicate] at hl
      refine ⟨hl.symm, ?_, rest1, hrest, hr1⟩
      show bs.length ≤ _
      omega
    | err e => rw [hr] at h; simp at h
    | panic => rw [hr] at h; simp at h
  | err e => rw [ha] at h; simp at h
  | panic => rw [ha] at h; simp at h

theorem readCache_mono (env : Env) (c : U64) : PrefixMono (readCache env c false) := by
  refine PrefixMono.guard (m := fun r =>
    match readExact (VecBitSet.withBitCapacity c).byteLen r with
      | .ok (bs, r) => .ok (⟨bs⟩, r)
      | .err e => .err e
      | .panic => .panic) ?_ (env.alloc (byteCapFromBitCap c).toNat 1) (fun r => rfl)
  exact (readExact_mono _).map (fun bs => .ok ⟨bs⟩) (fun r => by
    cases readExact (VecBitSet.withBitCapacity c).byteLen r <;> rfl)

theorem readAllBuckets_append {env : Env} {n : U64} {bs : List Bucket}
    (hl : n.toNat = bs.length) (hm : bs.length * 4096 ≤ env.allocLimit) (pre rest : List U8) :
    readAllBuckets env n false (rd pre ((bs.map BitSet.asSlice).flatten ++ rest)) =
      .ok (bs, rd (pre ++ (bs.map BitSet.asSlice).flatten) rest) := by
  unfold readAllBuckets
  simp only [Bool.false_eq_true, if_false]
  rw [Env.alloc_of_le (by rw [hl]; exact hm), hl]
  exact readBuckets_append bs pre rest

theorem readAllBuckets_inv {env : Env} {n : U64} {pre rest : List U8} {bs : List Bucket}
    {r : Reader} (h : readAllBuckets env n false (rd pre rest) = .ok (bs, r)) :
    n.toNat = bs.length ∧ bs.length * 4096 ≤ env.allocLimit ∧
    ∃ rest', rest = (bs.map BitSet.asSlice).flatten ++ rest' ∧
      r = rd (pre ++ (bs.map BitSet.asSlice).flatten) rest' := by
  unfold readAllBuckets at h
  simp only [Bool.false_eq_true, if_false] at h
  cases ha : env.alloc n.toNat BUCKET_SIZE with
  | ok u =>
    rw [ha] at h
    simp only at h
    have hle := Env.alloc_ok ha
    obtain ⟨hl, h2⟩ := readBuckets_inv h
    refine ⟨hl.symm, ?_, h2⟩
    rw [hl]; exact hle
  | err e => rw [ha] at h; simp at h
  | panic => rw [ha] at h; simp at h

theorem readAllBuckets_mono (env : Env) (n : U64) : PrefixMono (readAllBuckets env n false) :=
  PrefixMono.guard (readBuckets_mono n.toNat) (env.alloc n.toNat BUCKET_SIZE) (fun _ => rfl)

/-- Exactly what the version 2 reader accepts after the flags. -/
theorem fromReaderWithFlags_ok (env : Env) (flags : Flags) (pre rest : List U8) (f : V2) :
    fromReaderWithFlags env flags false (rd pre rest) = .ok f ↔
      f.flags = flags ∧ Fits env f ∧
        ∃ c : U64, f.cacheByteSize = byteCapFromBitCap c ∧ rest = f.body c := by
  constructor
  · intro h
    unfold fromReaderWithFlags at h
    simp only [Res.bind_eq_ok] at h
    obtain ⟨⟨cap, r1⟩, h1, h⟩ := h
    obtain ⟨rest1, e1, rfl⟩ := readLeU64_inv h1
    obtain ⟨⟨fpp, r2⟩, h2, h⟩ := h
    obtain ⟨rest2, e2, rfl⟩ := readLeU64_inv h2
    simp only at h
    split at h
    · simp at h
    rename_i hfpp
    simp only [Res.bind_eq_ok] at h
    obtain ⟨⟨nh, r3⟩, h3, h⟩ := h
    obtain ⟨rest3, e3, rfl⟩ := readLeU64_inv h3
    obtain ⟨⟨cnt, r4⟩, h4, h⟩ := h
    obtain ⟨rest4, e4, rfl⟩ := readLeU64_inv h4
    obtain ⟨⟨cbs, r5⟩, h5, h⟩ := h
    obtain ⟨rest5, e5, rfl⟩ := readLeU64_inv h5
    obtain ⟨⟨ic, r6⟩, h6, h⟩ := h
    obtain ⟨hcl, hcm, rest6, e6, rfl⟩ := readCache_inv h6
    obtain ⟨⟨nb, r7⟩, h7, h⟩ := h
    obtain ⟨rest7, e7, rfl⟩ := readLeU64_inv h7
    obtain ⟨⟨bks, r8⟩, h8, h⟩ := h
    obtain ⟨hbl, hbm, rest8, e8, rfl⟩ := readAllBuckets_inv h8
    obtain ⟨⟨dat, r9⟩, h9, h⟩ := h
    rw [readToEnd_rd] at h9
    simp only [Res.ok.injEq, Prod.mk.injEq] at h9
    obtain ⟨rfl, rfl⟩ := h9
    simp only [Res.ok.injEq] at h
    subst h
    refine ⟨rfl, ⟨by simpa using hfpp, hbl, hcl, hbm, hcm⟩, cbs, rfl, ?_⟩
    simp only [body]
    rw [e1, e2, e3, e4, e5, e6, e7, e8]
  · rintro ⟨rfl, hf, c, hc, rfl⟩
    unfold fromReaderWithFlags body
    rw [readLeU64_append]
    simp only [Res.bind_ok]
    rw [readLeU64_append]
    simp only [Res.bind_ok, hf.fpp, Bool.not_true, Bool.false_eq_true, if_false]
    rw [readLeU64_append]
    simp only [Res.bind_ok]
    rw [readLeU64_append]
    simp only [Res.bind_ok]
    rw [readLeU64_append]
    simp only [Res.bind_ok]
    rw [readCache_append (by rw [← hc]; exact hf.cb) hf.mc]
    simp only [Res.bind_ok]
    rw [readLeU64_append]
    simp only [Res.bind_ok]
    rw [readAllBuckets_append hf.nb hf.mb]
    simp only [Res.bind_ok]
    rw [readToEnd_rd]
    simp only [Res.bind_ok, Res.ok.injEq]
    rw [← hc]
    rfl

/-- Reading a shorter input: an error, or the same filter with shorter data. -/
theorem fromReaderWithFlags_prefix (env : Env) (flags : Flags) (pre rest extra : List U8) :
    (∃ e, fromReaderWithFlags env flags false (rd pre rest) = .err e) ∨
    (∃ f, fromReaderWithFlags env flags false (rd pre rest) = .ok f ∧
      fromReaderWithFlags env flags false (rd pre (rest ++ extra))
        = .ok { f with data := f.data ++ extra }) ∨
    (fromReaderWithFlags env flags false (rd pre rest) = .panic ∧
      fromReaderWithFlags env flags false (rd pre (rest ++ extra)) = .panic) := by
  unfold fromReaderWithFlags
  rcases readLeU64_mono pre rest extra with ⟨e, h⟩ | ⟨cap, p1, r1, h, h'⟩ | ⟨h, h'⟩
  · left; exact ⟨e, by rw [h]; rfl⟩
  rotate_left
  · right; right; rw [h, h']; exact ⟨rfl, rfl⟩
  rw [h, h']; simp only [Res.bind_ok]; clear h h'
  rcases readLeU64_mono p1 r1 extra with ⟨e, h⟩ | ⟨fpp, p1, r1, h, h'⟩ | ⟨h, h'⟩
  · left; exact ⟨e, by rw [h]; rfl⟩
  rotate_left
  · right; right; rw [h, h']; exact ⟨rfl, rfl⟩
  rw [h, h']; simp only [Res.bind_ok]; clear h h'
  split
  · left; exact ⟨_, rfl⟩
  rcases readLeU64_mono p1 r1 extra with ⟨e, h⟩ | ⟨nh, p1, r1, h, h'⟩ | ⟨h, h'⟩
  · left; exact ⟨e, by rw [h]; rfl⟩
  rotate_left
  · right; right; rw [h, h']; exact ⟨rfl, rfl⟩
  rw [h, h']; simp only [Res.bind_ok]; clear h h'
  rcases readLeU64_mono p1 r1 extra with ⟨e, h⟩ | ⟨cnt, p1, r1, h, h'⟩ | ⟨h, h'⟩
  · left; exact ⟨e, by rw [h]; rfl⟩
  rotate_left
  · right; right; rw [h, h']; exact ⟨rfl, rfl⟩
  rw [h, h']; simp only [Res.bind_ok]; clear h h'
  rcases readLeU64_mono p1 r1 extra with ⟨e, h⟩ | ⟨cbs, p1, r1, h, h'⟩ | ⟨h, h'⟩
  · left; exact ⟨e, by rw [h]; rfl⟩
  rotate_left
  · right; right; rw [h, h']; exact ⟨rfl, rfl⟩
  rw [h, h']; simp only [Res.bind_ok]; clear h h'
  rcases readCache_mono env cbs p1 r1 extra with ⟨e, h⟩ | ⟨ic, p1, r1, h, h'⟩ | ⟨h, h'⟩
  · left; exact ⟨e, by rw [h]; rfl⟩
  rotate_left
  · right; right; rw [h, h']; exact ⟨rfl, rfl⟩
  rw [h, h']; simp only [Res.bind_ok]; clear h h'
  rcases readLeU64_mono p1 r1 extra with ⟨e, h⟩ | ⟨nb, p1, r1, h, h'⟩ | ⟨h, h'⟩
  · left; exact ⟨e, by rw [h]; rfl⟩
  rotate_left
  · right; right; rw [h, h']; exact ⟨rfl, rfl⟩
  rw [h, h']; simp only [Res.bind_ok]; clear h h'
  rcases readAllBuckets_mono env nb p1 r1 extra with ⟨e, h⟩ | ⟨bks, p1, r1, h, h'⟩ | ⟨h, h'⟩
  · left; exact ⟨e, by rw [h]; rfl⟩
  rotate_left
  · right; right; rw [h, h']; exact ⟨rfl, rfl⟩
  rw [h, h']; simp only [Res.bind_ok]; clear h h'
  rw [readToEnd_rd, readToEnd_rd]
  right; left
  exact ⟨_, rfl, rfl⟩

/-- A panic while reading is an allocation beyond the limit. -/
theorem fromReaderWithFlags_panic {env : Env} {flags : Flags} {pre rest : List U8}
    (h : fromReaderWithFlags env flags false (rd pre rest) = .panic) :
    ∃ cap fpp nh cnt c : U64, ∃ rest',
      rest = u64ToLe cap ++ (u64ToLe fpp ++ (u64ToLe nh ++ (u64ToLe cnt ++ (u64ToLe c ++ rest')))) ∧
      (env.allocLimit < (byteCapFromBitCap c).toNat ∨
        ∃ cache : List U8, ∃ nb : U64, ∃ rest'', cache.length = (byteCapFromBitCap c).toNat ∧
          rest' = cache ++ (u64ToLe nb ++ rest'') ∧ env.allocLimit < nb.toNat * 4096) := by
  unfold fromReaderWithFlags at h
  rcases readLeU64_cases pre rest with ⟨he, _⟩ | ⟨cap, rest1, rfl, he⟩
  · rw [he] at h; simp at h
  rw [he] at h; simp only [Res.bind_ok] at h; clear he
  rcases readLeU64_cases (pre ++ u64ToLe cap) rest1 with ⟨he, _⟩ | ⟨fpp, rest2, rfl, he⟩
  · rw [he] at h; simp at h
  rw [he] at h; simp only [Res.bind_ok] at h; clear he
  split at h
  · simp at h
  rcases readLeU64_cases (pre ++ u64ToLe cap ++ u64ToLe fpp) rest2 with
    ⟨he, _⟩ | ⟨nh, rest3, rfl, he⟩
  · rw [he] at h; simp at h
  rw [he] at h; simp only [Res.bind_ok] at h; clear he
  generalize pre ++ u64ToLe cap ++ u64ToLe fpp ++ u64ToLe nh = p at h
  rcases readLeU64_cases p rest3 with ⟨he, _⟩ | ⟨cnt, rest4, rfl, he⟩
  · rw [he] at h; simp at h
  rw [he] at h; simp only [Res.bind_ok] at h; clear he
  generalize p ++ u64ToLe cnt = p at h
  rcases readLeU64_cases p rest4 with ⟨he, _⟩ | ⟨c, rest5, rfl, he⟩
  · rw [he] at h; simp at h
  rw [he] at h; simp only [Res.bind_ok] at h; clear he
  generalize p ++ u64ToLe c = p at h
  refine ⟨cap, fpp, nh, cnt, c, rest5, rfl, ?_⟩
  by_cases hm : (byteCapFromBitCap c).toNat ≤ env.allocLimit
  swap
  · left; omega
  right
  cases hc : readCache env c false (rd p rest5) with
  | ok v =>
    obtain ⟨ic, r6⟩ := v
    rw [hc] at h; simp only [Res.bind_ok] at h
    obtain ⟨hcl, hcm, rest6, rfl, rfl⟩ := readCache_inv hc
    generalize p ++ ic.asSlice = p at h
    rcases readLeU64_cases p rest6 with ⟨he, _⟩ | ⟨nb, rest7, rfl, he⟩
    · rw [he] at h; simp at h
    rw [he] at h; simp only [Res.bind_ok] at h; clear he
    generalize p ++ u64ToLe nb = p at h
    refine ⟨ic.asSlice, nb, rest7, hcl.symm, rfl, ?_⟩
    by_contra hb
    cases hr : readAllBuckets env nb false (rd p rest7) with
    | ok v =>
      obtain ⟨bs, r8⟩ := v
      obtain ⟨_, _, rest8, rfl, rfl⟩ := readAllBuckets_inv hr
      rw [hr] at h; simp only [Res.bind_ok] at h
      rw [readToEnd_rd] at h
      simp at h
    | err e => rw [hr] at h; simp at h
    | panic =>
      unfold readAllBuckets at hr
      simp only [Bool.false_eq_true, if_false] at hr
      rw [Env.alloc_of_le (by simp only [BUCKET_SIZE]; omega)] at hr
      exact readBuckets_ne_panic _ _ _ hr
  | err e => rw [hc] at h; simp at h
  | panic =>
    exfalso
    unfold readCache at hc
    simp only [Bool.false_eq_true, if_false] at hc
    rw [Env.alloc_of_le (by omega)] at hc
    simp only at hc
    rw [readExact_rd] at hc
    split at hc
    · simp at hc
    · rename_i h1
      split at h1 <;> simp_all
    · rename_i h1
      split at h1 <;> simp_all

end V2

/-! ### Version 1 -/

namespace V1

theorem readWords_append (ws : List U64) (pre rest : List U8) :
    readWords ws.length (rd pre ((ws.map u64ToLe).flatten ++ rest)) =
      .ok (ws, rd (pre ++ (ws.map u64ToLe).flatten) rest) := by
  induction ws generalizing pre with
  | nil => simp [readWords]
  | cons b bs ih =>
    simp only [List.length_cons, readWords, List.map_cons, List.flatten_cons, List.append_assoc]
    rw [readLeU64_append]
    simp only
    rw [ih]
    simp only [List.append_assoc]

theorem readWords_inv {n : ℕ} {pre rest : List U8} {ws : List U64} {r : Reader}
    (h : readWords n (rd pre rest) = .ok (ws, r)) :
    ws.length = n ∧ ∃ rest', rest = (ws.map u64ToLe).flatten ++ rest' ∧
      r = rd (pre ++ (ws.map u64ToLe).flatten) rest' := by
  induction n generalizing pre rest ws r with
  | zero =>
    simp only [readWords, Res.ok.injEq, Prod.mk.injEq] at h
    obtain ⟨rfl, rfl⟩ := h
    exact ⟨rfl, rest, by simp, by simp⟩
  | succ n ih =>
    simp only [readWords] at h
    cases hr : readLeU64 (rd pre rest) with
    | ok v =>
      obtain ⟨b, r1⟩ := v
      rw [hr] at h
      simp only at h
      obtain ⟨rest1, hrest, hr1⟩ := readLeU64_inv hr
      subst hr1
      cases hr2 : readWords n (rd (pre ++ u64ToLe b) rest1) with
      | ok v2 =>
        obtain ⟨bs', r2⟩ := v2
        rw [hr2] at h
        simp only [Res.ok.injEq, Prod.mk.injEq] at h
        obtain ⟨rfl, rfl⟩ := h
        obtain ⟨hl2, rest2, hrest2, hr2'⟩ := ih hr2
        refine ⟨by simp [hl2], rest2, ?_, ?_⟩
        · rw [hrest, hrest2]; simp
        · rw [hr2']; simp
      | err e => rw [hr2] at h; simp at h
      | panic => rw [hr2] at h; simp at h
    | err e => rw [hr] at h; simp at h
    | panic => rw [hr] at h; simp at h

theorem readWords_mono (n : ℕ) : PrefixMono (readWords n) := by
  induction n with
  | zero => exact PrefixMono.pure []
  | succ n ih =>
    refine readLeU64_mono.bind (g := fun w r =>
      match readWords n r with
      | .ok (ws, r) => .ok (w :: ws, r)
      | .err e => .err e
      | .panic => .panic) (fun w => ?_) (fun r => by
        simp only [readWords]; cases readLeU64 r <;> rfl)
    exact ih.map (fun ws => .ok (w :: ws)) (fun r => by cases readWords n r <;> rfl)

theorem readWords_ne_panic (n : ℕ) (pre rest : List U8) :
    readWords n (rd pre rest) ≠ .panic := by
  induction n generalizing pre rest with
  | zero => simp [readWords]
  | succ n ih =>
    intro h
    simp only [readWords] at h
    rcases readLeU64_cases pre rest with ⟨he, _⟩ | ⟨b, rest1, rfl, he⟩
    · rw [he] at h; simp at h
    · rw [he] at h
      simp only at h
      cases hr2 : readWords n (rd (pre ++ u64ToLe b) rest1) with
      | ok v2 => rw [hr2] at h; simp at h
      | err e => rw [hr2] at h; simp at h
      | panic => exact ih _ _ hr2

/-- Bytes after the flags. -/
def body (f : V1) : List U8 :=
  u64ToLe f.capacity ++ (u64ToLe f.fpp ++ (u64ToLe f.nHash ++ (u64ToLe f.bitSize ++
    (u64ToLe f.count ++ ((f.bitset.map u64ToLe).flatten ++ f.data)))))

/-- What reading guarantees: sizes agree and fit in memory. -/
structure Fits (env : Env) (f : V1) : Prop where
  nw : (u64SizeFor f.bitSize).toNat = f.bitset.length
  mw : f.bitset.length * 8 ≤ env.allocLimit
  fp : f.fingerprint = Fingerprint.new f.nHash f.bitSize

theorem readBitset_append {env : Env} {m : U64} {ws : List U64}
    (hl : (u64SizeFor m).toNat = ws.length) (hm : ws.length * 8 ≤ env.allocLimit)
    (pre rest : List U8) :
    readBitset env m false (rd pre ((ws.map u64ToLe).flatten ++ rest)) =
      .ok (ws, rd (pre ++ (ws.map u64ToLe).flatten) rest) := by
  unfold readBitset
  simp only [Bool.false_eq_true, if_false]
  rw [Env.alloc_of_le (by rw [hl]; exact hm), hl]
  exact readWords_append ws pre rest

theorem readBitset_inv {env : Env} {m : U64} {pre rest : List U8} {ws : List U64} {r : Reader}
    (h : readBitset env m false (rd pre rest) = .ok (ws, r)) :
    (u64SizeFor m).toNat = ws.length ∧ ws.length * 8 ≤ env.allocLimit ∧
    ∃ rest', rest = (ws.map u64ToLe).flatten ++ rest' ∧
      r = rd (pre ++ (ws.map u64ToLe).flatten) rest' := by
  unfold readBitset at h
  simp only [Bool.false_eq_true, if_false] at h
  cases ha : env.alloc (u64SizeFor m).toNat 8 with
  | ok u =>
    rw [ha] at h
    simp only at h
    have hle := Env.alloc_ok ha
    obtain ⟨hl, h2⟩ := readWords_inv h
    refine ⟨hl.symm, ?_, h2⟩
    rw [hl]; exact hle
  | err e => rw [ha] at h; simp at h
  | panic => rw [ha] at h; simp at h

theorem readBitset_mono (env : Env) (m : U64) : PrefixMono (readBitset env m false) :=
  PrefixMono.guard (readWords_mono (u64SizeFor m).toNat) (env.alloc (u64SizeFor m).toNat 8)
    (fun _ => rfl)

/-- Exactly what the version 1 reader accepts after the flags. -/
theorem fromReaderWithFlags_ok (env : Env) (flags : Flags) (pre rest : List U8) (f : V1) :
    fromReaderWithFlags env flags false (rd pre rest) = .ok f ↔
      f.flags = flags ∧ Fits env f ∧ rest = f.body := by
  constructor
  · intro h
    unfold fromReaderWithFlags at h
    simp only [Res.bind_eq_ok] at h
    obtain ⟨⟨cap, r1⟩, h1, h⟩ := h
    obtain ⟨rest1, e1, rfl⟩ := readLeU64_inv h1
    obtain ⟨⟨fpp, r2⟩, h2, h⟩ := h
    obtain ⟨rest2, e2, rfl⟩ := readLeU64_inv h2
    obtain ⟨⟨nh, r3⟩, h3, h⟩ := h
    obtain ⟨rest3, e3, rfl⟩ := readLeU64_inv h3
    obtain ⟨⟨bsz, r4⟩, h4, h⟩ := h
    obtain ⟨rest4, e4, rfl⟩ := readLeU64_inv h4
    obtain ⟨⟨cnt, r5⟩, h5, h⟩ := h
    obtain ⟨rest5, e5, rfl⟩ := readLeU64_inv h5
    obtain ⟨⟨ws, r6⟩, h6, h⟩ := h
    obtain ⟨hcl, hcm, rest6, e6, rfl⟩ := readBitset_inv h6
    obtain ⟨⟨dat, r9⟩, h9, h⟩ := h
    rw [readToEnd_rd] at h9
    simp only [Res.ok.injEq, Prod.mk.injEq] at h9
    obtain ⟨rfl, rfl⟩ := h9
    simp only [Res.ok.injEq] at h
    subst h
    refine ⟨rfl, ⟨hcl, hcm, rfl⟩, ?_⟩
    simp only [body]
    rw [e1, e2, e3, e4, e5, e6]
  · rintro ⟨rfl, hf, rfl⟩
    unfold fromReaderWithFlags body
    rw [readLeU64_append]
    simp only [Res.bind_ok]
    rw [readLeU64_append]
    simp only [Res.bind_ok]
    rw [readLeU64_append]
    simp only [Res.bind_ok]
    rw [readLeU64_append]
    simp only [Res.bind_ok]
    rw [readLeU64_append]
    simp only [Res.bind_ok]
    rw [readBitset_append hf.nw hf.mw]
    simp only [Res.bind_ok]
    rw [readToEnd_rd]
    simp only [Res.bind_ok, Res.ok.injEq]
    rw [← hf.fp]

/-- Reading a shorter input: an error, or the same filter with shorter data. -/
theorem fromReaderWithFlags_prefix (env : Env) (flags : Flags) (pre rest extra : List U8) :
    (∃ e, fromReaderWithFlags env flags false (rd pre rest) = .err e) ∨
    (∃ f, fromReaderWithFlags env flags false (rd pre rest) = .ok f ∧
      fromReaderWithFlags env flags false (rd pre (rest ++ extra))
        = .ok { f with data := f.data ++ extra }) ∨
    (fromReaderWithFlags env flags false (rd pre rest) = .panic ∧
      fromReaderWithFlags env flags false (rd pre (rest ++ extra)) = .panic) := by
  unfold fromReaderWithFlags
  rcases readLeU64_mono pre rest extra with ⟨e, h⟩ | ⟨cap, p1, r1, h, h'⟩ | ⟨h, h'⟩
  · left; exact ⟨e, by rw [h]; rfl⟩
  rotate_left
  · right; right; rw [h, h']; exact ⟨rfl, rfl⟩
  rw [h, h']; simp only [Res.bind_ok]; clear h h'
  rcases readLeU64_mono p1 r1 extra with ⟨e, h⟩ | ⟨fpp, p1, r1, h, h'⟩ | ⟨h, h'⟩
  · left; exact ⟨e, by rw [h]; rfl⟩
  rotate_left
  · right; right; rw [h, h']; exact ⟨rfl, rfl⟩
  rw [h, h']; simp only [Res.bind_ok]; clear h h'
  rcases readLeU64_mono p1 r1 extra with ⟨e, h⟩ | ⟨nh, p1, r1, h, h'⟩ | ⟨h, h'⟩
  · left; exact ⟨e, by rw [h]; rfl⟩
  rotate_left
  · right; right; rw [h, h']; exact ⟨rfl, rfl⟩
  rw [h, h']; simp only [Res.bind_ok]; clear h h'
  rcases readLeU64_mono p1 r1 extra with ⟨e, h⟩ | ⟨bsz, p1, r1, h, h'⟩ | ⟨h, h'⟩
  · left; exact ⟨e, by rw [h]; rfl⟩
  rotate_left
  · right; right; rw [h, h']; exact ⟨rfl, rfl⟩
  rw [h, h']; simp only [Res.bind_ok]; clear h h'
  rcases readLeU64_mono p1 r1 extra with ⟨e, h⟩ | ⟨cnt, p1, r1, h, h'⟩ | ⟨h, h'⟩
  · left; exact ⟨e, by rw [h]; rfl⟩
  rotate_left
  · right; right; rw [h, h']; exact ⟨rfl, rfl⟩
  rw [h, h']; simp only [Res.bind_ok]; clear h h'
  rcases readBitset_mono env bsz p1 r1 extra with ⟨e, h⟩ | ⟨ws, p1, r1, h, h'⟩ | ⟨h, h'⟩
  · left; exact ⟨e, by rw [h]; rfl⟩
  rotate_left
  · right; right; rw [h, h']; exact ⟨rfl, rfl⟩
  rw [h, h']; simp only [Res.bind_ok]; clear h h'
  rw [readToEnd_rd, readToEnd_rd]
  right; left
  exact ⟨_, rfl, rfl⟩

/-- A panic while reading is an allocation beyond the limit. -/
theorem fromReaderWithFlags_panic {env : Env} {flags : Flags} {pre rest : List U8}
    (h : fromReaderWithFlags env flags false (rd pre rest) = .panic) :
    ∃ cap fpp nh m cnt : U64, ∃ rest',
      rest = u64ToLe cap ++ (u64ToLe fpp ++ (u64ToLe nh ++ (u64ToLe m ++ (u64ToLe cnt ++ rest')))) ∧
      env.allocLimit < (u64SizeFor m).toNat * 8 := by
  unfold fromReaderWithFlags at h
  rcases readLeU64_cases pre rest with ⟨he, _⟩ | ⟨cap, rest1, rfl, he⟩
  · rw [he] at h; simp at h
  rw [he] at h; simp only [Res.bind_ok] at h; clear he
  generalize pre ++ u64ToLe cap = p at h
  rcases readLeU64_cases p rest1 with ⟨he, _⟩ | ⟨fpp, rest2, rfl, he⟩
  · rw [he] at h; simp at h
  rw [he] at h; simp only [Res.bind_ok] at h; clear he
  generalize p ++ u64ToLe fpp = p at h
  rcases readLeU64_cases p rest2 with ⟨he, _⟩ | ⟨nh, rest3, rfl, he⟩
  · rw [he] at h; simp at h
  rw [he] at h; simp only [Res.bind_ok] at h; clear he
  generalize p ++ u64ToLe nh = p at h
  rcases readLeU64_cases p rest3 with ⟨he, _⟩ | ⟨m, rest4, rfl, he⟩
  · rw [he] at h; simp at h
  rw [he] at h; simp only [Res.bind_ok] at h; clear he
  generalize p ++ u64ToLe m = p at h
  rcases readLeU64_cases p rest4 with ⟨he, _⟩ | ⟨cnt, rest5, rfl, he⟩
  · rw [he] at h; simp at h
  rw [he] at h; simp only [Res.bind_ok] at h; clear he
  generalize p ++ u64ToLe cnt = p at h
  refine ⟨cap, fpp, nh, m, cnt, rest5, rfl, ?_⟩
  by_contra hb
  cases hr : readBitset env m false (rd p rest5) with
  | ok v =>
    obtain ⟨bs, r8⟩ := v
    obtain ⟨_, _, rest8, rfl, rfl⟩ := readBitset_inv hr
    rw [hr] at h; simp only [Res.bind_ok] at h
    rw [readToEnd_rd] at h
    simp at h
  | err e => rw [hr] at h; simp at h
  | panic =>
    unfold readBitset at hr
    simp only [Bool.false_eq_true, if_false] at hr
    rw [Env.alloc_of_le (by omega)] at hr
    exact readWords_ne_panic _ _ _ hr

end V1

end Poppy
