import Verif.Lemmas.Partial
import Verif.Lemmas.Merge
import Verif.PartialSpec

/-! # Helper lemmas for the use of partially loaded filters -/

namespace Poppy

namespace V1

theorem readBitset_true {env : Env} {n : U64} {r r' : Reader} {ws : List U64}
    (h : readBitset env n true r = .ok (ws, r')) : ws = [] := by
  unfold readBitset at h
  simp only [if_true] at h
  cases hm : mulU64 env.debug (u64SizeFor n) 8#64 with
  | ok off =>
    rw [hm] at h
    simp only at h
    cases hk : seekRelative off r with
    | ok v => rw [hk] at h; simp only [Res.ok.injEq, Prod.mk.injEq] at h; exact h.1.symm
    | err e => rw [hk] at h; cases h
    | panic => rw [hk] at h; cases h
  | err e => rw [hm] at h; cases h
  | panic => rw [hm] at h; cases h

theorem fromReaderWithFlags_true {env : Env} {flags : Flags} {r : Reader} {g : V1}
    (h : fromReaderWithFlags env flags true r = .ok g) :
    g.bitset = [] ∧ g.fingerprint = Fingerprint.new g.nHash g.bitSize := by
  unfold fromReaderWithFlags at h
  simp only [Res.bind_eq_ok] at h
  obtain ⟨_, _, _, _, _, _, _, _, _, _, ⟨ws, r6⟩, h6, _, _, h⟩ := h
  simp only [Res.ok.injEq] at h
  subst h
  exact ⟨readBitset_true h6, rfl⟩

/-- What inserting into a filter without words gives. -/
theorem insertBytes_nil (env : Env) {g : V1} (hb : g.bitset = [])
    (hf : g.fingerprint = Fingerprint.new g.nHash g.bitSize) (k : List U8) :
    g.insertBytes env k = (g, if g.capacity = 0 then .err .tooManyEntries
      else if g.nHash = 0 then .ok false else .panic) := by
  unfold insertBytes
  by_cases h0 : g.capacity = 0
  · rw [if_pos h0, if_pos h0]
  rw [if_neg h0, if_neg h0]
  have hc : (g.fingerprint.fingerprint k).count = g.nHash := by rw [hf]; rfl
  have hi : (g.fingerprint.fingerprint k).i = 0 := rfl
  generalize g.fingerprint.fingerprint k = fp at hc hi
  simp only [insertLoop]
  by_cases hn : g.nHash = 0
  · have : (fp.next).1 = .ok none := by
      unfold Fingerprint.next
      rw [hc, hi, hn, if_neg (by decide)]
    generalize fp.next = p at this
    obtain ⟨a, b⟩ := p
    simp only at this
    subst this
    simp [hn]
  · have : (fp.next).1 = .panic ∨ ∃ i, (fp.next).1 = .ok (some i) := by
      unfold Fingerprint.next
      have : (0 : U64) < g.nHash := by
        rw [BitVec.lt_def]
        have : g.nHash.toNat ≠ 0 := fun h => hn (BitVec.eq_of_toNat_eq h)
        show 0 < g.nHash.toNat
        omega
      rw [hc, hi, if_pos this]
      by_cases hm : fp.m = 0
      · left; simp only [hm, if_true]
      · right; simp only [if_neg hm]; exact ⟨_, rfl⟩
    generalize fp.next = p at this
    obtain ⟨a, b⟩ := p
    simp only at this
    rcases this with rfl | ⟨i, rfl⟩
    · simpa using hn
    · simpa [hb] using hn

theorem readWords_long : ∀ (n : ℕ) (pre rest : List U8), 8 * n ≤ rest.length →
    ∃ ws r, readWords n (rd pre rest) = .ok (ws, r)
  | 0, pre, rest, _ => ⟨[], _, rfl⟩
  | n + 1, pre, rest, h => by
    rcases readLeU64_cases pre rest with ⟨_, h'⟩ | ⟨x, rest', e, h'⟩
    · omega
    · have hl : 8 * n ≤ rest'.length := by
        rw [e, List.length_append, length_u64ToLe] at h; omega
      obtain ⟨ws, r, hr⟩ := readWords_long n (pre ++ u64ToLe x) rest' hl
      exact ⟨x :: ws, r, by simp only [readWords, h', hr]⟩

theorem readWords_short : ∀ (n : ℕ) (pre rest : List U8), rest.length < 8 * n →
    readWords n (rd pre rest) = .err (.ioError .unexpectedEof)
  | 0, pre, rest, h => by omega
  | n + 1, pre, rest, h => by
    rcases readLeU64_cases pre rest with ⟨h', _⟩ | ⟨x, rest', e, h'⟩
    · simp only [readWords, h']
    · have hl : rest'.length < 8 * n := by
        rw [e, List.length_append, length_u64ToLe] at h; omega
      simp only [readWords, h', readWords_short n (pre ++ u64ToLe x) rest' hl]

/-- The file of a filter without words that states more. -/
theorem reload_short {env : Env} {f : V1} (hf : Fits env f) (h : f.data.length < 8 * f.bitset.length) :
    Bloom.fromReader env (Reader.ofBytes (Bloom.v1 f.stripped).file)
      = .err (.ioError .unexpectedEof) := by
  rw [Bloom.file_eq]
  show Bloom.fromReaderAux env false (Reader.ofBytes f.stripped.ser) = _
  unfold Bloom.fromReaderAux
  rw [ofBytes_eq, ser_eq, readFlags_append]
  simp only [Flags.new, if_true]
  unfold fromReaderWithFlags body
  simp only [readLeU64_append, Res.bind_ok]
  unfold readBitset
  simp only [stripped, Bool.false_eq_true, if_false]
  rw [Env.alloc_of_le (by rw [hf.nw]; exact hf.mw), hf.nw]
  simp only [List.map_nil, List.flatten_nil, List.nil_append]
  rw [readWords_short _ _ _ h]
  rfl

/-- If the data is long enough it is taken for words. -/
theorem reload_long {env : Env} {f : V1} (hf : Fits env f) (h : 8 * f.bitset.length ≤ f.data.length) :
    ∃ ws : List U64, ws.length = f.bitset.length ∧
      (ws.map u64ToLe).flatten = f.data.take (8 * f.bitset.length) ∧
      Bloom.fromReader env (Reader.ofBytes (Bloom.v1 f.stripped).file)
        = .ok (.v1 { f with flags := Flags.new 1#8, bitset := ws,
                            data := f.data.drop (8 * f.bitset.length) }) := by
  obtain ⟨ws, r, hw⟩ := readWords_long f.bitset.length [] f.data h
  obtain ⟨hl, rest, e, -⟩ := readWords_inv hw
  have hlen : (ws.map u64ToLe).flatten.length = 8 * f.bitset.length := by
    rw [length_flatten_words, hl]; omega
  have e1 : f.data.take (8 * f.bitset.length) = (ws.map u64ToLe).flatten := by
    rw [e, List.take_left' hlen]
  have e2 : f.data.drop (8 * f.bitset.length) = rest := by
    rw [e, List.drop_left' hlen]
  refine ⟨ws, hl, e1.symm, ?_⟩
  have hfit : Fits env { f with bitset := ws, data := rest } :=
    ⟨by rw [hf.nw, hl], by rw [hl]; exact hf.mw, hf.fp⟩
  have key := fromReader_ser hfit
  rw [e2, Bloom.file_eq]
  have es : f.stripped.ser = ser { f with bitset := ws, data := rest } := by
    rw [ser_eq, ser_eq]
    simp only [body, stripped, List.map_nil, List.flatten_nil, List.nil_append, ← e]
  show Bloom.fromReaderAux env false (Reader.ofBytes f.stripped.ser) = _
  unfold Bloom.fromReaderAux
  rw [es, ofBytes_eq, ser_eq, readFlags_append]
  simp only [Flags.new, if_true]
  rw [fromReaderWithFlags_body hfit]
  rfl

end V1

namespace V2

theorem withBitCapacity_zero : VecBitSet.withBitCapacity 0 = ⟨[]⟩ := by
  unfold VecBitSet.withBitCapacity
  rw [byteCap_zero]; rfl

theorem readCache_true {env : Env} {n : U64} {r r' : Reader} {c : VecBitSet}
    (h : readCache env n true r = .ok (c, r')) : c = ⟨[]⟩ := by
  unfold readCache at h
  simp only [if_true] at h
  cases hk : seekRelative (byteCapFromBitCap n) r with
  | ok v => rw [hk] at h; simp only [Res.ok.injEq, Prod.mk.injEq] at h; rw [← h.1]; exact withBitCapacity_zero
  | err e => rw [hk] at h; cases h
  | panic => rw [hk] at h; cases h

theorem readAllBuckets_true {env : Env} {n : U64} {r r' : Reader} {bs : List Bucket}
    (h : readAllBuckets env n true r = .ok (bs, r')) : bs = [] := by
  unfold readAllBuckets at h
  simp only [if_true] at h
  cases hm : mulU64 env.debug n (BitVec.ofNat 64 BUCKET_SIZE) with
  | ok off =>
    rw [hm] at h
    simp only at h
    cases hk : seekRelative off r with
    | ok v => rw [hk] at h; simp only [Res.ok.injEq, Prod.mk.injEq] at h; exact h.1.symm
    | err e => rw [hk] at h; cases h
    | panic => rw [hk] at h; cases h
  | err e => rw [hm] at h; cases h
  | panic => rw [hm] at h; cases h

theorem fromReaderWithFlags_true {env : Env} {flags : Flags} {r : Reader} {g : V2}
    (h : fromReaderWithFlags env flags true r = .ok g) :
    g.flags = flags ∧ g.indexCache.asSlice.length = 0 ∧ g.buckets = [] ∧ fppInRange g.fpp = true := by
  unfold fromReaderWithFlags at h
  simp only [Res.bind_eq_ok] at h
  obtain ⟨⟨cap, r1⟩, _, ⟨fpp, r2⟩, _, h⟩ := h
  cases hp : fppInRange fpp with
  | false => rw [hp] at h; cases h
  | true =>
    simp only [hp, Bool.not_true, Bool.false_eq_true, if_false, Res.bind_eq_ok] at h
    obtain ⟨_, _, _, _, _, _, ⟨c, r6⟩, h6, _, _, ⟨b, r8⟩, h8, _, _, h⟩ := h
    simp only [Res.ok.injEq] at h
    subst h
    refine ⟨rfl, ?_, readAllBuckets_true h8, hp⟩
    rw [readCache_true h6]; rfl

theorem insertBytes_nil (env : Env) {g : V2} (hb : g.buckets = []) (k : List U8) :
    g.insertBytes env k = (g, if g.capacity = 0 then .err .tooManyEntries else .panic) := by
  unfold insertBytes
  by_cases h0 : g.capacity = 0
  · rw [if_pos h0, insert_noCap env _ h0]
  · rw [if_neg h0, insert_nil env _ h0 hb]

theorem containsBytes_nil (env : Env) {g : V2} (hc : g.indexCache.asSlice.length = 0)
    (hb : g.buckets = []) (k : List U8) :
    g.containsBytes env k = if g.capacity = 0 then .ok false else .panic := by
  have hc' : g.indexCache.asSlice = [] := List.length_eq_zero_iff.1 hc
  have hw : g.WF := ⟨by simp [hb], by simp [hc']⟩
  unfold containsBytes
  by_cases h0 : g.capacity = 0
  · rw [if_pos h0, contains_noCap env _ h0]
  · rw [if_neg h0, contains_nil env hw _ h0 hb]
    have : g.cacheOk ((Key.slice k).hashPop env.wy) = true := by
      unfold cacheOk
      simp [hc']
    rw [this]; rfl

/-- A filter without bits is written as one without buckets. -/
theorem reload_nil {env : Env} (hs : env.Small) {g : V2} (hv : g.flags.version = 2#8)
    (hp : fppInRange g.fpp = true) (hc : g.indexCache.asSlice.length = 0) (hb : g.buckets = []) :
    Bloom.fromReader env (Reader.ofBytes (Bloom.v2 g).file)
      = .ok (.v2 { g.canon with nBuckets := 0, cacheByteSize := 0 }) := by
  have hfit : Fits env { g with nBuckets := 0, cacheByteSize := 0 } :=
    ⟨hp, by simp [hb], by simp [hc], by simp [hb], by simp [hc]⟩
  rw [Bloom.file_eq]
  have es : g.ser = ser { g with nBuckets := 0, cacheByteSize := 0 } := rfl
  show Bloom.fromReaderAux env false (Reader.ofBytes g.ser) = _
  unfold Bloom.fromReaderAux
  rw [es, ofBytes_eq, ser_eq hfit.nb, readFlags_append]
  simp only [hv]
  rw [fromReaderWithFlags_body hfit hs]
  simp [canon, hv, Res.map]

end V2

namespace Bloom

/-- No bits at all. -/
def NoBits : Bloom → Prop
  | .v1 g => g.bitset = [] ∧ g.fingerprint = Fingerprint.new g.nHash g.bitSize
  | .v2 g => g.flags.version = 2#8 ∧ g.indexCache.asSlice.length = 0 ∧ g.buckets = [] ∧
      fppInRange g.fpp = true

theorem partialFromReader_noBits {env : Env} {r : Reader} {g : Bloom}
    (h : partialFromReader env r = .ok g) : g.NoBits := by
  unfold partialFromReader fromReaderAux at h
  cases hr : readFlags r with
  | ok v =>
    obtain ⟨flags, r'⟩ := v
    rw [hr] at h
    simp only at h
    by_cases h1 : flags.version = 1#8
    · rw [if_pos h1, Res.map_eq_ok] at h
      obtain ⟨f, hf, rfl⟩ := h
      exact V1.fromReaderWithFlags_true hf
    · rw [if_neg h1] at h
      by_cases h2 : flags.version = 2#8
      · rw [if_pos h2, Res.map_eq_ok] at h
        obtain ⟨f, hf, rfl⟩ := h
        obtain ⟨e, h'⟩ := V2.fromReaderWithFlags_true hf
        exact ⟨by rw [e, h2], h'⟩
      · rw [if_neg h2] at h; cases h
  | err e => rw [hr] at h; cases h
  | panic => rw [hr] at h; cases h

/-- What no operation changes. -/
def Shape : Bloom → Bloom → Prop
  | .v1 f, .v1 g => V1.Shape f g
  | .v2 f, .v2 g => V2.Shape f g
  | _, _ => False

theorem Shape.refl : ∀ f : Bloom, Shape f f
  | .v1 f => V1.Shape.refl f
  | .v2 f => V2.Shape.refl f

theorem Shape.trans : ∀ {f g h : Bloom}, Shape f g → Shape g h → Shape f h
  | .v1 _, .v1 _, .v1 _, a, b => V1.Shape.trans a b
  | .v2 _, .v2 _, .v2 _, a, b => V2.Shape.trans a b
  | .v1 _, .v2 _, _, a, _ => a.elim
  | .v2 _, .v1 _, _, a, _ => a.elim
  | .v1 _, .v1 _, .v2 _, _, b => b.elim
  | .v2 _, .v2 _, .v1 _, _, b => b.elim

theorem insertBytes_shape (env : Env) (f : Bloom) (k : List U8) : Shape f (f.insertBytes env k).1 := by
  cases f with
  | v1 f => exact (V1.insertBytes_ext env f k).toShape
  | v2 f => exact (V2.insert_ext env f (.slice k)).toShape

theorem fill_shape (env : Env) (ks : List (List U8)) : ∀ f : Bloom, Shape f (f.fill env ks).1 := by
  induction ks with
  | nil => exact fun f => Shape.refl f
  | cons k ks ih =>
    intro f
    have h := insertBytes_shape env f k
    unfold fill
    generalize f.insertBytes env k = p at h ⊢
    obtain ⟨g, r⟩ := p
    cases r with
    | ok b => exact h.trans (ih g)
    | err e => exact h
    | panic => exact h

theorem unionMerge_shape (env : Env) (f o : Bloom) : Shape f (f.unionMerge env o).1 := by
  unfold unionMerge
  cases f with
  | v1 f =>
    cases o with
    | v1 o =>
      simp only [hasSameParams, version, ne_eq, not_true_eq_false, if_false]
      cases f.hasSameParams o with
      | false => exact Shape.refl _
      | true => exact (V1.unionMerge_ext env f o).toShape
    | v2 o => exact Shape.refl (.v1 f)
  | v2 f =>
    cases o with
    | v1 o => exact Shape.refl (.v2 f)
    | v2 o =>
      simp only [hasSameParams, version, ne_eq, not_true_eq_false, if_false]
      cases f.hasSameParams o with
      | false => exact Shape.refl _
      | true => exact (V2.unionMerge_ext env f o).toShape

theorem clear_shape : ∀ f : Bloom, Shape f f.clear
  | .v1 f => V1.clear_shape f
  | .v2 f => V2.clear_shape f

theorem Used.shape {env : Env} {g h : Bloom} (u : Used env g h) : Shape g h := by
  induction u with
  | start => exact Shape.refl _
  | insert k _ ih => exact ih.trans (insertBytes_shape env _ k)
  | fill ks _ ih => exact ih.trans (fill_shape env ks _)
  | merge o _ ih => exact ih.trans (unionMerge_shape env _ o)
  | clear _ ih => exact ih.trans (clear_shape _)

theorem NoBits.shape : ∀ {g h : Bloom}, g.NoBits → Shape g h → h.NoBits
  | .v1 g, .v1 h, a, s =>
    ⟨List.length_eq_zero_iff.1 (by rw [V1.Shape.len s, a.1]; rfl),
      by rw [V1.Shape.fp s, V1.Shape.nHash s, V1.Shape.bitSize s]; exact a.2⟩
  | .v2 g, .v2 h, a, s =>
    ⟨by rw [V2.Shape.flags s]; exact a.1, by rw [V2.Shape.clen s]; exact a.2.1,
      List.length_eq_zero_iff.1 (by rw [V2.Shape.blen s, a.2.2.1]; rfl),
      by rw [V2.Shape.fpp s]; exact a.2.2.2⟩
  | .v1 _, .v2 _, _, s => s.elim
  | .v2 _, .v1 _, _, s => s.elim

theorem NoBits.contains {env : Env} {g : Bloom} (h : g.NoBits) (k : List U8) :
    g.containsBytes env k = if g.version = 1#8 then .ok false
      else if g.capacity = 0 then .ok false else .panic := by
  cases g with
  | v1 g => exact V1.containsBytes_empty h.1 k
  | v2 g => exact V2.containsBytes_nil env h.2.1 h.2.2.1 k

theorem NoBits.insert {env : Env} {g : Bloom} (h : g.NoBits) (k : List U8) :
    g.insertBytes env k = (g, if g.capacity = 0 then .err .tooManyEntries
      else if g.version = 1#8 ∧ g.hashes = 0 then .ok false else .panic) := by
  cases g with
  | v1 g =>
    unfold insertBytes
    simp only [V1.insertBytes_nil env h.1 h.2 k, capacity, version, hashes, true_and]
  | v2 g =>
    unfold insertBytes
    simp only [V2.insertBytes_nil env h.2.2.1 k, capacity, version]
    simp

/-- A filter that contains something has bits. -/
theorem not_same_of_contains {env : Env} {f g : Bloom} {k : List U8}
    (h : f.containsBytes env k = .ok true) (hg : g.NoBits) :
    f.hasSameParams g = .ok false ∧ g.hasSameParams f = .ok false := by
  cases f with
  | v1 f =>
    have hne : f.bitset ≠ [] := by
      intro e
      have := V1.containsBytes_empty e k
      rw [show f.containsBytes k = .ok true from h] at this
      cases this
    cases g with
    | v1 g =>
      have : f.hasSameParams g = false := by
        rw [← Bool.not_eq_true, V1.hasSameParams_iff]
        intro hh
        exact hne (List.length_eq_zero_iff.1 (by rw [hh.2.2.2.2.2, hg.1]; rfl))
      have this' := this
      rw [V1.hasSameParams_symm] at this'
      simp [hasSameParams, version, this, this']
    | v2 g => exact ⟨rfl, rfl⟩
  | v2 f =>
    cases g with
    | v1 g => exact ⟨rfl, rfl⟩
    | v2 g =>
      have : f.hasSameParams g = false := by
        rw [← Bool.not_eq_true, V2.hasSameParams_iff]
        intro hh
        have h1 : f.indexCache.asSlice.length = 0 := by rw [hh.2.2.1, hg.2.1]
        have h2 : f.buckets = [] :=
          List.length_eq_zero_iff.1 (by rw [hh.2.2.2.2.2, hg.2.2.1]; rfl)
        have := V2.containsBytes_nil env h1 h2 k
        rw [show f.containsBytes env k = .ok true from h] at this
        split at this <;> cases this
      have this' := this
      rw [V2.hasSameParams_symm] at this'
      simp [hasSameParams, version, this, this']

theorem unionMerge_of_not_same {env : Env} {f g : Bloom} (h : f.hasSameParams g = .ok false) :
    f.unionMerge env g = (f, .err (.merge "cannot merge filters with different parameters")) := by
  unfold unionMerge; rw [h]

theorem countCommonEntries_of_not_same {env : Env} {f g : Bloom}
    (h : f.hasSameParams g = .ok false) :
    f.countCommonEntries env g
      = .err (.merge "cannot compare filters with different parameters") := by
  unfold countCommonEntries; rw [h]

end Bloom

end Poppy
