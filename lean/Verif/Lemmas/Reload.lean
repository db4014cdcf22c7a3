import Verif.History
import Verif.Lemmas.Ser
import Verif.Model.Bloom

/-! Writing a filter and reading it back. -/

namespace Poppy

namespace V2

/-- The bytes of the file. -/
def ser (f : V2) : List U8 := f.chunks.flatten

theorem write_eq (f : V2) (s : Sink) :
    (f.write s).1 = ⟨s.out ++ accept s.budget f.ser, leftover s.budget f.ser⟩ ∧
    (((f.write s).2 = .ok () ∧
        ∃ a b, f.ser = a ++ b ∧ fits s.budget a ∧ b.length ≤ bufCap) ∨
      ((f.write s).2 = .err (.ioError .other) ∧ ¬ fits s.budget f.ser)) := by
  have h := BufWriter.run s f.chunks
  unfold write ser
  generalize (BufWriter.new s).writeChunks f.chunks = p at h ⊢
  obtain ⟨w, r⟩ := p
  exact h

theorem write_none (f : V2) (out : List U8) : f.write ⟨out, none⟩ = (⟨out ++ f.ser, none⟩, .ok ()) := by
  have := BufWriter.run_none out f.chunks
  unfold write
  rw [← this.2, ser, ← this.1]

theorem ser_eq {f : V2} (h : f.nBuckets.toNat = f.buckets.length) :
    f.ser = f.flags.toBytes ++ f.body f.indexCache.bitLen := by
  have hn : BitVec.ofNat 64 f.buckets.length = f.nBuckets := by
    rw [← h, BitVec.ofNat_toNat, BitVec.setWidth_eq]
  unfold ser chunks body
  rw [hn]
  simp

theorem cache_bitLen {f : V2} (hc : f.cacheByteSize.toNat = f.indexCache.asSlice.length)
    (hl : f.indexCache.asSlice.length ≤ 2 ^ 53) :
    f.cacheByteSize = byteCapFromBitCap f.indexCache.bitLen := by
  apply BitVec.eq_of_toNat_eq
  rw [hc]
  exact (byteCap_mul8 hl).symm

/-- The filter with the reserved bytes of its flags cleared, as they are not written. -/
def canon (f : V2) : V2 := { f with flags := ⟨f.flags.version, f.flags.opt, List.replicate 6 0#8⟩ }

theorem Fits.canon {env : Env} {f : V2} (h : Fits env f) : Fits env f.canon := ⟨h.1, h.2, h.3, h.4, h.5⟩

theorem fromReaderWithFlags_body {env : Env} {f : V2} (hf : Fits env f) (hs : env.Small)
    (flags : Flags) (pre : List U8) :
    fromReaderWithFlags env flags false (rd pre (f.body f.indexCache.bitLen))
      = .ok { f with flags := flags } := by
  rw [fromReaderWithFlags_ok]
  refine ⟨rfl, ⟨hf.1, hf.2, hf.3, hf.4, hf.5⟩, f.indexCache.bitLen, ?_, rfl⟩
  have := hf.mc
  have := hs
  unfold Env.Small at this
  exact cache_bitLen (f := f) hf.cb (by omega)

/-- Round trip. -/
theorem fromReader_ser {env : Env} {f : V2} (hf : Fits env f) (hs : env.Small)
    (hv : f.flags.version = 2#8) :
    fromReader env (Reader.ofBytes f.ser) = .ok f.canon := by
  unfold fromReader fromReader'
  rw [ofBytes_eq, ser_eq hf.nb, readFlags_append]
  simp only [Res.bind_ok, hv, ne_eq, not_true_eq_false, if_false]
  rw [fromReaderWithFlags_body hf hs]
  simp [canon, hv]

end V2

namespace V1

/-- The bytes of the file. -/
def ser (f : V1) : List U8 := f.chunks.flatten

theorem write_eq (f : V1) (s : Sink) :
    (f.write s).1 = ⟨s.out ++ accept s.budget f.ser, leftover s.budget f.ser⟩ ∧
    (((f.write s).2 = .ok () ∧
        ∃ a b, f.ser = a ++ b ∧ fits s.budget a ∧ b.length ≤ bufCap) ∨
      ((f.write s).2 = .err (.ioError .other) ∧ ¬ fits s.budget f.ser)) := by
  have h := BufWriter.run s f.chunks
  unfold write ser
  generalize (BufWriter.new s).writeChunks f.chunks = p at h ⊢
  obtain ⟨w, r⟩ := p
  exact h

theorem write_none (f : V1) (out : List U8) : f.write ⟨out, none⟩ = (⟨out ++ f.ser, none⟩, .ok ()) := by
  have := BufWriter.run_none out f.chunks
  unfold write
  rw [← this.2, ser, ← this.1]

theorem ser_eq (f : V1) : f.ser = (Flags.new 1#8).toBytes ++ f.body := by
  unfold ser chunks body
  simp

/-- The filter with default flags, as they are not written. -/
def canon (f : V1) : V1 := { f with flags := Flags.new 1#8 }

theorem Fits.canon {env : Env} {f : V1} (h : Fits env f) : Fits env f.canon := ⟨h.1, h.2, h.3⟩

theorem fromReaderWithFlags_body {env : Env} {f : V1} (hf : Fits env f)
    (flags : Flags) (pre : List U8) :
    fromReaderWithFlags env flags false (rd pre f.body) = .ok { f with flags := flags } := by
  rw [fromReaderWithFlags_ok]
  exact ⟨rfl, ⟨hf.1, hf.2, hf.3⟩, rfl⟩

/-- Round trip. -/
theorem fromReader_ser {env : Env} {f : V1} (hf : Fits env f) :
    fromReader env (Reader.ofBytes f.ser) = .ok f.canon := by
  unfold fromReader fromReader'
  rw [ofBytes_eq, ser_eq, readFlags_append]
  simp only [Res.bind_ok, Flags.new, ne_eq, not_true_eq_false, if_false]
  rw [fromReaderWithFlags_body hf]
  simp [canon, Flags.new]

end V1

namespace Bloom

/-- The bytes of the file. -/
def ser : Bloom → List U8
  | .v1 f => f.ser
  | .v2 f => f.ser

/-- See `V1.canon` and `V2.canon`. -/
def canon : Bloom → Bloom
  | .v1 f => .v1 f.canon
  | .v2 f => .v2 f.canon

/-- See `V1.Fits` and `V2.Fits`; the flags carry the version. -/
def Fits (env : Env) : Bloom → Prop
  | .v1 f => f.Fits env ∧ f.flags.version = 1#8
  | .v2 f => f.Fits env ∧ f.flags.version = 2#8

theorem write_none (f : Bloom) (out : List U8) :
    f.write ⟨out, none⟩ = (⟨out ++ f.ser, none⟩, .ok ()) := by
  cases f with
  | v1 f => exact V1.write_none f out
  | v2 f => exact V2.write_none f out

theorem write_eq (f : Bloom) (s : Sink) :
    (f.write s).1 = ⟨s.out ++ accept s.budget f.ser, leftover s.budget f.ser⟩ ∧
    (((f.write s).2 = .ok () ∧
        ∃ a b, f.ser = a ++ b ∧ fits s.budget a ∧ b.length ≤ bufCap) ∨
      ((f.write s).2 = .err (.ioError .other) ∧ ¬ fits s.budget f.ser)) := by
  cases f with
  | v1 f => exact V1.write_eq f s
  | v2 f => exact V2.write_eq f s

/-- The version independent reader is one of the version specific readers. -/
theorem fromReaderAux_eq (env : Env) (p : Bool) (r : Reader) :
    fromReaderAux env p r =
      match readFlags r with
      | .ok (flags, _) =>
        if flags.version = 1#8 then (V1.fromReader' env p r).map .v1
        else if flags.version = 2#8 then (V2.fromReader' env p r).map .v2
        else .err (.invalidVersion flags.version)
      | .err e => .err e
      | .panic => .panic := by
  unfold fromReaderAux V1.fromReader' V2.fromReader'
  cases h : readFlags r with
  | ok v =>
    obtain ⟨flags, r'⟩ := v
    simp only [Res.bind_ok]
    by_cases h1 : flags.version = 1#8
    · simp [h1]
    · by_cases h2 : flags.version = 2#8
      · simp [h2]
      · simp [h1, h2]
  | err e => rfl
  | panic => rfl

theorem fromReader_ser {env : Env} {f : Bloom} (hf : f.Fits env) (hs : env.Small) :
    fromReader env (Reader.ofBytes f.ser) = .ok f.canon := by
  unfold fromReader
  rw [fromReaderAux_eq]
  cases f with
  | v1 f =>
    have h := V1.fromReader_ser hf.1
    have hfl : readFlags (Reader.ofBytes (Bloom.v1 f).ser) 
        = .ok (Flags.new 1#8, rd ([] ++ (Flags.new 1#8).toBytes) f.body) := by
      show readFlags (Reader.ofBytes f.ser) = _
      rw [ofBytes_eq, V1.ser_eq, readFlags_append]; rfl
    rw [hfl]
    simp only [Flags.new, if_true]
    have h' : V1.fromReader' env false (Reader.ofBytes (Bloom.v1 f).ser) = .ok f.canon := h
    rw [h']; rfl
  | v2 f =>
    have h := V2.fromReader_ser hf.1 hs hf.2
    have hfl : readFlags (Reader.ofBytes (Bloom.v2 f).ser)
        = .ok (⟨2#8, f.flags.opt, List.replicate 6 0#8⟩,
          rd ([] ++ f.flags.toBytes) (f.body f.indexCache.bitLen)) := by
      show readFlags (Reader.ofBytes f.ser) = _
      rw [ofBytes_eq, V2.ser_eq hf.1.nb, readFlags_append, hf.2]
    rw [hfl]
    simp only [if_true]
    have h' : V2.fromReader' env false (Reader.ofBytes (Bloom.v2 f).ser) = .ok f.canon := h
    rw [h']
    simp [Res.map, canon]

/-- Accepted files, version 1. -/
theorem fromReader_ok_inv {env : Env} {bs : List U8} {f : Bloom}
    (h : fromReader env (Reader.ofBytes bs) = .ok f) :
    f.Fits env ∧ match f with
      | .v1 g => g.flags.reserved.length = 6 ∧
          bs = (1#8 :: g.flags.opt.toU8 :: g.flags.reserved) ++ g.body
      | .v2 g => g.flags.reserved.length = 6 ∧ ∃ c, g.cacheByteSize = byteCapFromBitCap c ∧
          bs = (2#8 :: g.flags.opt.toU8 :: g.flags.reserved) ++ g.body c := by
  unfold fromReader fromReaderAux at h
  rw [ofBytes_eq] at h
  cases hr : readFlags (rd [] bs) with
  | ok v =>
    obtain ⟨flags, r⟩ := v
    rw [hr] at h
    obtain ⟨hl, rest, hb, rfl⟩ := readFlags_inv hr
    simp only at h
    split at h
    · rename_i hv
      obtain ⟨g, hg, rfl⟩ := Res.map_eq_ok.1 h
      obtain ⟨hfl, hfit, hrest⟩ := (V1.fromReaderWithFlags_ok _ _ _ _ _).1 hg
      refine ⟨⟨hfit, by rw [hfl]; exact hv⟩, by rw [hfl]; exact hl, ?_⟩
      rw [hb, hrest, hfl, hv]
    · split at h
      · rename_i hv
        obtain ⟨g, hg, rfl⟩ := Res.map_eq_ok.1 h
        obtain ⟨hfl, hfit, c, hc, hrest⟩ := (V2.fromReaderWithFlags_ok _ _ _ _ _).1 hg
        refine ⟨⟨hfit, by rw [hfl]; exact hv⟩, by rw [hfl]; exact hl, c, hc, ?_⟩
        rw [hb, hrest, hfl, hv]
      · simp at h
  | err e => rw [hr] at h; simp at h
  | panic => rw [hr] at h; simp at h

/-- Reading a shorter file: an error, or the same filter with shorter data. -/
theorem fromReader_prefix (env : Env) (bs extra : List U8) :
    (∃ e, fromReader env (Reader.ofBytes bs) = .err e) ∨
    (∃ f, fromReader env (Reader.ofBytes bs) = .ok f ∧
      fromReader env (Reader.ofBytes (bs ++ extra)) = .ok (f.setData (f.data ++ extra))) ∨
    (fromReader env (Reader.ofBytes bs) = .panic ∧
      fromReader env (Reader.ofBytes (bs ++ extra)) = .panic) := by
  unfold fromReader fromReaderAux
  rw [ofBytes_eq, ofBytes_eq]
  rcases readFlags_mono [] bs extra with ⟨e, h⟩ | ⟨flags, p, r, h, h'⟩ | ⟨h, h'⟩
  · left; exact ⟨e, by rw [h]⟩
  rotate_left
  · right; right; rw [h, h']; exact ⟨rfl, rfl⟩
  rw [h, h']
  simp only
  split
  · rcases V1.fromReaderWithFlags_prefix env flags p r extra with ⟨e, h⟩ | ⟨f, h, h'⟩ | ⟨h, h'⟩
    · left; exact ⟨e, by rw [h]; rfl⟩
    · right; left; exact ⟨.v1 f, by rw [h]; rfl, by rw [h']; rfl⟩
    · right; right; rw [h, h']; exact ⟨rfl, rfl⟩
  · split
    · rcases V2.fromReaderWithFlags_prefix env flags p r extra with ⟨e, h⟩ | ⟨f, h, h'⟩ | ⟨h, h'⟩
      · left; exact ⟨e, by rw [h]; rfl⟩
      · right; left; exact ⟨.v2 f, by rw [h]; rfl, by rw [h']; rfl⟩
      · right; right; rw [h, h']; exact ⟨rfl, rfl⟩
    · left; exact ⟨_, rfl⟩

end Bloom

end Poppy
