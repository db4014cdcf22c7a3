import Verif.Lemmas.V1Ops
import Verif.Lemmas.V2Ops

/-! Partial reading, short writes, failing readers. -/

namespace Poppy
open Spec

theorem seekRelative_rd {off : U64} {pre rest : List U8} (hlt : off.toNat < 2 ^ 63) :
    seekRelative off (rd pre rest) = .ok ((), ⟨pre ++ rest, pre.length + off.toNat, none⟩) := by
  unfold seekRelative rd
  have ht : off.toInt = off.toNat := BitVec.toInt_eq_toNat_of_lt (by omega)
  simp only [ht]
  rw [if_neg (by omega)]
  congr 3

theorem seekRelative_append {off : U64} {bs : List U8} (h : bs.length = off.toNat)
    (hlt : off.toNat < 2 ^ 63) (pre rest : List U8) :
    seekRelative off (rd pre (bs ++ rest)) = .ok ((), rd (pre ++ bs) rest) := by
  rw [seekRelative_rd hlt]
  simp [rd, h]

theorem readToEnd_past {d : List U8} {p : ℕ} (h : d.length ≤ p) :
    readToEnd ⟨d, p, none⟩ = .ok ([], ⟨d, p, none⟩) := by
  unfold readToEnd Reader.failsBefore
  simp [h]

theorem toNat_mulSmall {a : U64} {b : ℕ} (h : a.toNat * b < 2 ^ 64) (hb : b < 2 ^ 64) (d : Bool) :
    mulU64 d a (BitVec.ofNat 64 b) = .ok (a * BitVec.ofNat 64 b) ∧
      (a * BitVec.ofNat 64 b).toNat = a.toNat * b := by
  have hbn : (BitVec.ofNat 64 b).toNat = b := by rw [BitVec.toNat_ofNat, Nat.mod_eq_of_lt hb]
  constructor
  · unfold mulU64
    rw [if_neg]
    rw [hbn, Bool.and_eq_true, decide_eq_true_eq]
    omega
  · rw [BitVec.toNat_mul, hbn, Nat.mod_eq_of_lt h]

theorem length_flatten_buckets (bs : List Bucket) :
    (bs.map BitSet.asSlice).flatten.length = bs.length * 4096 := by
  induction bs with
  | nil => rfl
  | cons b bs ih =>
    rw [List.map_cons, List.flatten_cons, List.length_append, ih, BitSet.length_asSlice,
      List.length_cons]
    unfold BUCKET_SIZE
    omega

theorem length_flatten_words (ws : List U64) :
    (ws.map u64ToLe).flatten.length = ws.length * 8 := by
  induction ws with
  | nil => rfl
  | cons b bs ih =>
    rw [List.map_cons, List.flatten_cons, List.length_append, ih, length_u64ToLe,
      List.length_cons]
    omega

namespace V2

/-- What a partial read leaves: no bits. -/
def stripped (f : V2) : V2 := { f with indexCache := ⟨[]⟩, buckets := [] }

theorem fromReaderWithFlags_partial {env : Env} {f : V2} (hf : Fits env f) {c : U64}
    (hc : f.cacheByteSize = byteCapFromBitCap c) (flags : Flags) (pre : List U8) :
    fromReaderWithFlags env flags true (rd pre (f.body c)) = .ok { f.stripped with flags := flags } := by
  have hlim := env.allocLimit_lt
  have hmb := hf.mb
  have hmc := hf.mc
  have hcb := hf.cb
  have hnb := hf.nb
  unfold fromReaderWithFlags body
  rw [readLeU64_append]; simp only [Res.bind_ok]
  rw [readLeU64_append]; simp only [Res.bind_ok, hf.fpp, Bool.not_true, Bool.false_eq_true, if_false]
  rw [readLeU64_append]; simp only [Res.bind_ok]
  rw [readLeU64_append]; simp only [Res.bind_ok]
  rw [readLeU64_append]; simp only [Res.bind_ok]
  unfold readCache
  simp only [if_true]
  rw [← hc, seekRelative_append hcb.symm (by omega)]; simp only [Res.bind_ok]
  rw [readLeU64_append]; simp only [Res.bind_ok]
  unfold readAllBuckets
  simp only [if_true]
  obtain ⟨hm1, hm2⟩ := toNat_mulSmall (a := f.nBuckets) (b := BUCKET_SIZE)
    (by unfold BUCKET_SIZE; omega) (by unfold BUCKET_SIZE; norm_num) env.debug
  rw [hm1]
  simp only
  rw [seekRelative_append (by rw [length_flatten_buckets, hm2, hnb]; rfl)
    (by rw [hm2]; unfold BUCKET_SIZE; omega)]
  simp only [Res.bind_ok]
  rw [readToEnd_rd]
  simp only [Res.bind_ok, stripped]
  have : VecBitSet.withBitCapacity 0 = ⟨[]⟩ := by
    unfold VecBitSet.withBitCapacity
    rw [byteCap_zero]; rfl
  rw [this]

end V2

namespace V1

/-- What a partial read leaves: no bits. -/
def stripped (f : V1) : V1 := { f with bitset := [] }

theorem fromReaderWithFlags_partial {env : Env} {f : V1} (hf : Fits env f) (flags : Flags)
    (pre : List U8) :
    fromReaderWithFlags env flags true (rd pre f.body) = .ok { f.stripped with flags := flags } := by
  have hlim := env.allocLimit_lt
  have hmw := hf.mw
  have hnw := hf.nw
  unfold fromReaderWithFlags body
  rw [readLeU64_append]; simp only [Res.bind_ok]
  rw [readLeU64_append]; simp only [Res.bind_ok]
  rw [readLeU64_append]; simp only [Res.bind_ok]
  rw [readLeU64_append]; simp only [Res.bind_ok]
  rw [readLeU64_append]; simp only [Res.bind_ok]
  unfold readBitset
  simp only [if_true]
  obtain ⟨hm1, hm2⟩ := toNat_mulSmall (a := u64SizeFor f.bitSize) (b := 8)
    (by omega) (by norm_num) env.debug
  rw [hm1]
  simp only
  rw [seekRelative_append (by rw [length_flatten_words, hm2, hnw])
    (by rw [hm2]; omega)]
  simp only [Res.bind_ok]
  rw [readToEnd_rd]
  simp only [Res.bind_ok, stripped, hf.fp]

/-- A file cut anywhere inside the bits is accepted by partial reading. -/
theorem fromReaderWithFlags_partial_cut {env : Env} {f : V1} (hf : Fits env f) (flags : Flags)
    (pre cut : List U8) (hcut : cut.length ≤ f.bitset.length * 8) :
    fromReaderWithFlags env flags true (rd pre (u64ToLe f.capacity ++ (u64ToLe f.fpp ++
      (u64ToLe f.nHash ++ (u64ToLe f.bitSize ++ (u64ToLe f.count ++ cut))))))
      = .ok { f.stripped with flags := flags, data := [] } := by
  have hlim := env.allocLimit_lt
  have hmw := hf.mw
  have hnw := hf.nw
  unfold fromReaderWithFlags
  rw [readLeU64_append]; simp only [Res.bind_ok]
  rw [readLeU64_append]; simp only [Res.bind_ok]
  rw [readLeU64_append]; simp only [Res.bind_ok]
  rw [readLeU64_append]; simp only [Res.bind_ok]
  rw [readLeU64_append]; simp only [Res.bind_ok]
  unfold readBitset
  simp only [if_true]
  obtain ⟨hm1, hm2⟩ := toNat_mulSmall (a := u64SizeFor f.bitSize) (b := 8)
    (by omega) (by norm_num) env.debug
  rw [hm1]
  simp only
  rw [seekRelative_rd (by rw [hm2]; omega)]
  simp only [Res.bind_ok]
  rw [readToEnd_past (by rw [hm2, hnw, List.length_append]; omega)]
  simp only [Res.bind_ok, stripped, hf.fp]

end V1

namespace Bloom

/-- What a partial read leaves. -/
def stripped : Bloom → Bloom
  | .v1 f => .v1 f.stripped
  | .v2 f => .v2 f.stripped

theorem readFlags_of {flags : Flags} (hl : flags.reserved.length = 6) (pre rest : List U8) :
    readFlags (rd pre ((flags.version :: flags.opt.toU8 :: flags.reserved) ++ rest))
      = .ok (flags, rd (pre ++ (flags.version :: flags.opt.toU8 :: flags.reserved)) rest) := by
  obtain ⟨v, o, res⟩ := flags
  unfold readFlags
  rw [readExact_append (by simpa using hl)]
  simp only at hl
  match res, hl with
  | [a, b, c, d, e, f], _ =>
    simp only [Flags.fromBytes, OptLevel.tryFrom_toU8]

theorem partialFromReader_of_full {env : Env} {bs : List U8} {f : Bloom}
    (h : fromReader env (Reader.ofBytes bs) = .ok f) :
    partialFromReader env (Reader.ofBytes bs) = .ok f.stripped := by
  have hi := fromReader_ok_inv h
  unfold partialFromReader fromReaderAux
  rw [ofBytes_eq]
  cases f with
  | v1 g =>
    obtain ⟨⟨hf, hv⟩, hl, hb⟩ := hi
    rw [hb, ← hv, readFlags_of hl]
    simp only [hv, if_true]
    rw [V1.fromReaderWithFlags_partial hf]
    rfl
  | v2 g =>
    obtain ⟨⟨hf, hv⟩, hl, c, hc, hb⟩ := hi
    rw [hb, ← hv, readFlags_of hl]
    simp only [hv, if_true]
    rw [V2.fromReaderWithFlags_partial hf hc]
    rfl

end Bloom

/-! ### Short files stay in the buffer -/

theorem BufWriter.writeChunks_small : ∀ (cs : List (List U8)) (w : BufWriter),
    w.buf.length + cs.flatten.length < bufCap →
    w.writeChunks cs = (⟨w.buf ++ cs.flatten, w.sink⟩, .ok ())
  | [], w, _ => by simp [BufWriter.writeChunks]
  | c :: cs, w, h => by
    simp only [List.flatten_cons, List.length_append] at h
    unfold BufWriter.writeChunks
    have hw : w.writeAll c = (⟨w.buf ++ c, w.sink⟩, .ok ()) := by
      unfold BufWriter.writeAll
      rw [if_pos (by omega)]
    rw [hw]
    simp only
    rw [BufWriter.writeChunks_small cs _ (by simp only [List.length_append]; omega)]
    simp

theorem Bloom.write_small {f : Bloom} (h : f.ser.length < 8192) (s : Sink) :
    (f.write s).2 = .ok () := by
  have key : ∀ cs : List (List U8), cs.flatten.length < 8192 →
      ((BufWriter.new s).writeChunks cs).2 = .ok () := by
    intro cs hc
    rw [BufWriter.writeChunks_small cs (BufWriter.new s)]
    show 0 + _ < bufCap
    unfold bufCap; omega
  cases f with
  | v1 f => exact key f.chunks h
  | v2 f => exact key f.chunks h

/-! ### Readers that report errors -/

/-- The action leaves the source and its failing position alone. -/
def KeepsSrc {α : Type} (m : ReadM α) : Prop :=
  ∀ r a r', m r = .ok (a, r') → r'.data = r.data ∧ r'.failAt = r.failAt

theorem KeepsSrc.readExact (n : ℕ) : KeepsSrc (readExact n) := by
  intro r a r' h
  unfold Poppy.readExact at h
  split at h
  · simp only [Res.ok.injEq, Prod.mk.injEq] at h; rw [← h.2]; exact ⟨rfl, rfl⟩
  split at h
  · simp at h
  split at h
  · simp only [Res.ok.injEq, Prod.mk.injEq] at h; rw [← h.2]; exact ⟨rfl, rfl⟩
  · simp at h

theorem KeepsSrc.readLeU64 : KeepsSrc readLeU64 := by
  intro r a r' h
  unfold Poppy.readLeU64 at h
  cases hr : Poppy.readExact 8 r with
  | ok v =>
    rw [hr] at h
    simp only [Res.ok.injEq, Prod.mk.injEq] at h
    rw [← h.2]; exact KeepsSrc.readExact 8 r _ _ hr
  | err e => rw [hr] at h; simp at h
  | panic => rw [hr] at h; simp at h

theorem KeepsSrc.readFlags : KeepsSrc readFlags := by
  intro r a r' h
  unfold Poppy.readFlags at h
  cases hr : Poppy.readExact 8 r with
  | ok v =>
    rw [hr] at h
    simp only at h
    cases hf : Flags.fromBytes v.1 with
    | ok f =>
      rw [hf] at h
      simp only [Res.ok.injEq, Prod.mk.injEq] at h
      rw [← h.2]; exact KeepsSrc.readExact 8 r _ _ hr
    | err e => rw [hf] at h; simp at h
    | panic => rw [hf] at h; simp at h
  | err e => rw [hr] at h; simp at h
  | panic => rw [hr] at h; simp at h

theorem KeepsSrc.seekRelative (off : U64) : KeepsSrc (seekRelative off) := by
  intro r a r' h
  unfold Poppy.seekRelative at h
  simp only at h
  split at h
  · simp at h
  · simp only [Res.ok.injEq, Prod.mk.injEq] at h; rw [← h.2]; exact ⟨rfl, rfl⟩

theorem KeepsSrc.readBuckets (n : ℕ) : KeepsSrc (V2.readBuckets n) := by
  induction n with
  | zero =>
    intro r a r' h
    simp only [V2.readBuckets, Res.ok.injEq, Prod.mk.injEq] at h
    rw [← h.2]; exact ⟨rfl, rfl⟩
  | succ n ih =>
    intro r a r' h
    simp only [V2.readBuckets] at h
    cases hr : Poppy.readExact BUCKET_SIZE r with
    | ok v =>
      have h1 := KeepsSrc.readExact _ r _ _ hr
      rw [hr] at h
      simp only at h
      cases hr2 : V2.readBuckets n v.2 with
      | ok v2 =>
        have h2 := ih _ _ _ hr2
        rw [hr2] at h
        simp only at h
        split at h
        · simp only [Res.ok.injEq, Prod.mk.injEq] at h
          rw [← h.2]; exact ⟨h2.1.trans h1.1, h2.2.trans h1.2⟩
        · simp at h
      | err e => rw [hr2] at h; simp at h
      | panic => rw [hr2] at h; simp at h
    | err e => rw [hr] at h; simp at h
    | panic => rw [hr] at h; simp at h

theorem KeepsSrc.readWords (n : ℕ) : KeepsSrc (V1.readWords n) := by
  induction n with
  | zero =>
    intro r a r' h
    simp only [V1.readWords, Res.ok.injEq, Prod.mk.injEq] at h
    rw [← h.2]; exact ⟨rfl, rfl⟩
  | succ n ih =>
    intro r a r' h
    simp only [V1.readWords] at h
    cases hr : Poppy.readLeU64 r with
    | ok v =>
      have h1 := KeepsSrc.readLeU64 r _ _ hr
      rw [hr] at h
      simp only at h
      cases hr2 : V1.readWords n v.2 with
      | ok v2 =>
        have h2 := ih _ _ _ hr2
        rw [hr2] at h
        simp only [Res.ok.injEq, Prod.mk.injEq] at h
        rw [← h.2]; exact ⟨h2.1.trans h1.1, h2.2.trans h1.2⟩
      | err e => rw [hr2] at h; simp at h
      | panic => rw [hr2] at h; simp at h
    | err e => rw [hr] at h; simp at h
    | panic => rw [hr] at h; simp at h

theorem KeepsSrc.readCache (env : Env) (c : U64) (p : Bool) : KeepsSrc (V2.readCache env c p) := by
  intro r a r' h
  unfold V2.readCache at h
  simp only at h
  split at h
  · cases hr : Poppy.seekRelative (byteCapFromBitCap c) r with
    | ok v =>
      rw [hr] at h
      simp only [Res.ok.injEq, Prod.mk.injEq] at h
      rw [← h.2]; exact KeepsSrc.seekRelative _ r _ _ hr
    | err e => rw [hr] at h; simp at h
    | panic => rw [hr] at h; simp at h
  · cases ha : env.alloc (byteCapFromBitCap c).toNat 1 with
    | ok u =>
      rw [ha] at h
      simp only at h
      cases hr : Poppy.readExact (VecBitSet.withBitCapacity c).byteLen r with
      | ok v =>
        rw [hr] at h
        simp only [Res.ok.injEq, Prod.mk.injEq] at h
        rw [← h.2]; exact KeepsSrc.readExact _ r _ _ hr
      | err e => rw [hr] at h; simp at h
      | panic => rw [hr] at h; simp at h
    | err e => rw [ha] at h; simp at h
    | panic => rw [ha] at h; simp at h

theorem KeepsSrc.readAllBuckets (env : Env) (n : U64) (p : Bool) :
    KeepsSrc (V2.readAllBuckets env n p) := by
  intro r a r' h
  unfold V2.readAllBuckets at h
  split at h
  · cases hm : mulU64 env.debug n (BitVec.ofNat 64 BUCKET_SIZE) with
    | ok off =>
      rw [hm] at h
      simp only at h
      cases hr : Poppy.seekRelative off r with
      | ok v =>
        rw [hr] at h
        simp only [Res.ok.injEq, Prod.mk.injEq] at h
        rw [← h.2]; exact KeepsSrc.seekRelative _ r _ _ hr
      | err e => rw [hr] at h; simp at h
      | panic => rw [hr] at h; simp at h
    | err e => rw [hm] at h; simp at h
    | panic => rw [hm] at h; simp at h
  · cases ha : env.alloc n.toNat BUCKET_SIZE with
    | ok u =>
      rw [ha] at h
      exact KeepsSrc.readBuckets _ r _ _ h
    | err e => rw [ha] at h; simp at h
    | panic => rw [ha] at h; simp at h

theorem KeepsSrc.readBitset (env : Env) (n : U64) (p : Bool) :
    KeepsSrc (V1.readBitset env n p) := by
  intro r a r' h
  unfold V1.readBitset at h
  simp only at h
  split at h
  · cases hm : mulU64 env.debug (u64SizeFor n) 8#64 with
    | ok off =>
      rw [hm] at h
      simp only at h
      cases hr : Poppy.seekRelative off r with
      | ok v =>
        rw [hr] at h
        simp only [Res.ok.injEq, Prod.mk.injEq] at h
        rw [← h.2]; exact KeepsSrc.seekRelative _ r _ _ hr
      | err e => rw [hr] at h; simp at h
      | panic => rw [hr] at h; simp at h
    | err e => rw [hm] at h; simp at h
    | panic => rw [hm] at h; simp at h
  · cases ha : env.alloc (u64SizeFor n).toNat 8 with
    | ok u =>
      rw [ha] at h
      exact KeepsSrc.readWords _ r _ _ h
    | err e => rw [ha] at h; simp at h
    | panic => rw [ha] at h; simp at h

/-- The source reports an error at some position of its content (or at its end). -/
def Reader.Faulty (r : Reader) : Prop := ∃ k, r.failAt = some k ∧ k ≤ r.data.length

theorem Reader.Faulty.keep {α : Type} {m : ReadM α} (hm : KeepsSrc m) {r r' : Reader} {a : α}
    (hr : r.Faulty) (h : m r = .ok (a, r')) : r'.Faulty := by
  obtain ⟨k, h1, h2⟩ := hr
  obtain ⟨e1, e2⟩ := hm r a r' h
  exact ⟨k, by rw [e2, h1], by rw [e1]; exact h2⟩

theorem readToEnd_faulty {r : Reader} (hr : r.Faulty) : readToEnd r = .err (.ioError .other) := by
  obtain ⟨k, h1, h2⟩ := hr
  unfold readToEnd Reader.failsBefore
  rw [h1]
  simp only
  rw [if_pos]
  simp only [Bool.and_eq_true, decide_eq_true_eq]
  omega

theorem V2.fromReaderWithFlags_faulty {env : Env} {flags : Flags} {p : Bool} {r : Reader} {f : V2}
    (hr : r.Faulty) : V2.fromReaderWithFlags env flags p r ≠ .ok f := by
  intro h
  unfold V2.fromReaderWithFlags at h
  simp only [Res.bind_eq_ok] at h
  obtain ⟨_, h1, _, h2, h⟩ := h
  have hr := ((hr.keep .readLeU64 h1).keep .readLeU64 h2)
  split at h
  · simp at h
  simp only [Res.bind_eq_ok] at h
  obtain ⟨_, h3, _, h4, _, h5, _, h6, _, h7, _, h8, _, h9, _⟩ := h
  have hr := ((((hr.keep .readLeU64 h3).keep .readLeU64 h4).keep .readLeU64 h5).keep
    (.readCache env _ _) h6).keep .readLeU64 h7 |>.keep (.readAllBuckets env _ _) h8
  rw [readToEnd_faulty hr] at h9
  simp at h9

theorem V1.fromReaderWithFlags_faulty {env : Env} {flags : Flags} {p : Bool} {r : Reader} {f : V1}
    (hr : r.Faulty) : V1.fromReaderWithFlags env flags p r ≠ .ok f := by
  intro h
  unfold V1.fromReaderWithFlags at h
  simp only [Res.bind_eq_ok] at h
  obtain ⟨_, h1, _, h2, _, h3, _, h4, _, h5, _, h6, _, h7, _⟩ := h
  have hr := (((((hr.keep .readLeU64 h1).keep .readLeU64 h2).keep .readLeU64 h3).keep
    .readLeU64 h4).keep .readLeU64 h5).keep (.readBitset env _ _) h6
  rw [readToEnd_faulty hr] at h7
  simp at h7

theorem Bloom.fromReaderAux_faulty {env : Env} {p : Bool} {r : Reader} {f : Bloom}
    (hr : r.Faulty) : Bloom.fromReaderAux env p r ≠ .ok f := by
  intro h
  unfold Bloom.fromReaderAux at h
  cases hf : readFlags r with
  | ok v =>
    have hr := hr.keep .readFlags hf
    rw [hf] at h
    simp only at h
    split at h
    · obtain ⟨g, hg, _⟩ := Res.map_eq_ok.1 h
      exact V1.fromReaderWithFlags_faulty hr hg
    split at h
    · obtain ⟨g, hg, _⟩ := Res.map_eq_ok.1 h
      exact V2.fromReaderWithFlags_faulty hr hg
    · simp at h
  | err e => rw [hf] at h; simp at h
  | panic => rw [hf] at h; simp at h

end Poppy
