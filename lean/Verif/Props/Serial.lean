import Verif.Lemmas.Serial
import Verif.Lemmas.Partial
import Verif.Lemmas.Failing
import Verif.Lemmas.Fpp
import Verif.Lemmas.Write
import Verif.Samples

/-! # Reading and writing filters (C22 to C32, C66) -/

namespace Poppy
open Spec

/-- Six zero bytes. -/
def noReserved : List U8 := [0, 0, 0, 0, 0, 0]

/-! ## C22 round trip -/

/-- Reading back the written file of a v2 filter gives the filter itself, except for the reserved
header bytes, which are not written.  All answers are the same. -/
theorem C22_v2_round_trip (env : Env) (hs : env.Small) (f : V2) (hf : V2.Reach env f) :
    ∃ g, V2.fromReader env (Reader.ofBytes f.file) = .ok g ∧
      g = { f with flags := ⟨f.flags.version, f.flags.opt, noReserved⟩ } ∧
      (∀ k, g.contains env k = f.contains env k) ∧
      (∀ k, (g.insert env k).2 = (f.insert env k).2) ∧
      g.countEstimate = f.countEstimate ∧ g.data = f.data ∧
      (f.flags.reserved = noReserved → g = f ∧ f.hasSameParams g = true) := by
  refine ⟨f.canon, hf.reload hs, rfl, fun k => rfl, fun k => ?_, rfl, rfl, fun h => ?_⟩
  · by_cases hc : f.capacity = 0
    · rw [V2.insert_noCap env k hc, V2.insert_noCap env (f := f.canon) k hc]
    by_cases hb : f.buckets = []
    · rw [V2.insert_nil env k hc hb, V2.insert_nil env (f := f.canon) k hc hb]
    · rw [V2.insert_cases env hf.wf k hc hb,
        V2.insert_cases env (f := f.canon) ⟨hf.wf.1, hf.wf.2⟩ k hc hb]
      have h1 : V2.allSet env f.canon (k.hashPop env.wy) = V2.allSet env f (k.hashPop env.wy) := rfl
      have h2 : V2.CountOverflow env f.canon = V2.CountOverflow env f := rfl
      have h3 : f.canon.count = f.count := rfl
      have h4 : f.canon.capacity = f.capacity := rfl
      rw [h1, h3, h4]
      simp only [h2]
      split
      · rfl
      · split <;> rfl
  · have he := V2.Fits.canon_eq (f := f) h
    refine ⟨he, ?_⟩
    rw [he, V2.hasSameParams_iff]
    exact ⟨rfl, rfl, rfl, feq_self hf.fits.fpp, rfl, rfl⟩

/-- Same for v1 filters, whose optimization level is not written either. -/
theorem C22_v1_round_trip (env : Env) (f : V1) (hf : V1.Reach env f) :
    ∃ g, V1.fromReader env (Reader.ofBytes f.file) = .ok g ∧
      g = { f with flags := ⟨1, .none, noReserved⟩ } ∧
      (∀ k, g.containsBytes k = f.containsBytes k) ∧
      (∀ k, (g.insertBytes env k).2 = (f.insertBytes env k).2) ∧
      g.countEstimate = f.countEstimate ∧ g.data = f.data ∧
      (f.flags = ⟨1, .none, noReserved⟩ → g = f) := by
  refine ⟨f.canon, hf.fits.reload, rfl, fun k => ?_, fun k => V1.insertBytes_flags env f _ k, rfl,
    rfl, V1.canon_eq⟩
  have : ∀ n fp, V1.containsLoop n f.canon fp = V1.containsLoop n f fp := by
    intro n
    induction n with
    | zero => intro fp; rfl
    | succ n ih =>
      intro fp
      simp only [V1.containsLoop, ih]
      rfl
  unfold V1.containsBytes
  simp only [this]
  rfl

/-- Filters coming from a constructor are equal to what is read back, and have the same
parameters. -/
theorem C22_built_round_trip (env : Env) (hs : env.Small) :
    (∀ f : V2, V2.Built env f → V2.fromReader env (Reader.ofBytes f.file) = .ok f ∧
      f.hasSameParams f = true) ∧
    (∀ f : V1, V1.Built env f → V1.fromReader env (Reader.ofBytes f.file) = .ok f ∧
      f.hasSameParams f = true) := by
  constructor
  · intro f hf
    obtain ⟨h1, h2, h3⟩ := hf.inv hs
    refine ⟨?_, ?_⟩
    · rw [V2.file_eq, V2.fromReader_ser h1 hs h2, V2.Fits.canon_eq h3]
    · rw [V2.hasSameParams_iff]
      exact ⟨rfl, rfl, rfl, feq_self h1.fpp, rfl, rfl⟩
  · intro f hf
    obtain ⟨h1, h2, h3⟩ := hf.inv
    refine ⟨?_, ?_⟩
    · rw [V1.file_eq, V1.fromReader_ser h1, V1.canon_eq h2]
    · rw [V1.hasSameParams_iff]
      exact ⟨rfl, rfl, feq_self h3, rfl, rfl, rfl⟩

/-- The common reader and writer. -/
theorem C22_bloom_round_trip (env : Env) (hs : env.Small) (f : Bloom) (hf : f.Reach env) :
    ∃ g, Bloom.fromReader env (Reader.ofBytes f.file) = .ok g ∧ g.version = f.version ∧
      (∀ k, g.containsBytes env k = f.containsBytes env k) ∧
      (∀ k, (g.insertBytes env k).2 = (f.insertBytes env k).2) ∧ g.capacity = f.capacity ∧
      g.fpp = f.fpp ∧ g.countEstimate = f.countEstimate ∧ g.data = f.data ∧ g.file = f.file := by
  cases f with
  | v1 f =>
    have hf' : V1.Reach env f := hf
    obtain ⟨g, hg, rfl, h3, h4, h5, _⟩ := C22_v1_round_trip env f hf'
    refine ⟨.v1 f.canon, ?_, rfl, h3, h4, rfl, rfl, rfl, rfl, ?_⟩
    · rw [Bloom.file_eq]
      exact Bloom.fromReader_ser (f := .v1 f) ⟨hf'.inv.1, hf'.inv.2.1⟩ hs
    · rw [Bloom.file_eq, Bloom.file_eq]; rfl
  | v2 f =>
    have hf' : V2.Reach env f := hf
    obtain ⟨g, hg, rfl, h3, h4, _⟩ := C22_v2_round_trip env hs f hf'
    refine ⟨.v2 f.canon, ?_, rfl, fun k => rfl, fun k => h4 (.slice k), rfl, rfl, rfl, rfl, ?_⟩
    · rw [Bloom.file_eq]
      exact Bloom.fromReader_ser (f := .v2 f) ⟨hf'.inv.1, hf'.inv.2.1⟩ hs
    · rw [Bloom.file_eq, Bloom.file_eq]; rfl

/-- Why `has_same_params` is not claimed for every loaded filter: a v2 file with a reserved byte
set is accepted, but the filter and its reloaded copy do not have the same parameters. -/
theorem C22_reserved_bytes_violation (env : Env) : ∃ bs f g,
    V2.fromReader env (Reader.ofBytes bs) = .ok f ∧
    V2.fromReader env (Reader.ofBytes f.file) = .ok g ∧ f.hasSameParams g = false := by
  let f : V2 := ⟨⟨2, .none, [1, 0, 0, 0, 0, 0]⟩, ⟨[]⟩, 0, 0, 0, oneBits, 0, 0, [], []⟩
  have hfit : V2.Fits env f :=
    ⟨(fppInRange_iff _).2 (by decide), rfl, rfl, by simp [f], by simp [f, VecBitSet.asSlice]⟩
  have hc : ∀ fl, V2.fromReaderWithFlags env fl false
      (rd ([] ++ (2#8 :: fl.opt.toU8 :: fl.reserved)) (f.body 0)) = .ok { f with flags := fl } := by
    intro fl
    exact (V2.fromReaderWithFlags_ok _ _ _ _ _).2
      ⟨rfl, ⟨hfit.1, hfit.2, hfit.3, hfit.4, hfit.5⟩, 0, byteCap_zero.symm, rfl⟩
  have hr : ∀ fl : Flags, fl.version = 2#8 → fl.reserved.length = 6 →
      V2.fromReader env (Reader.ofBytes ((2#8 :: fl.opt.toU8 :: fl.reserved) ++ f.body 0))
        = .ok { f with flags := fl } := by
    intro fl hv hl
    unfold V2.fromReader V2.fromReader'
    rw [ofBytes_eq]
    have := Bloom.readFlags_of hl [] (f.body 0)
    rw [hv] at this
    rw [this]
    simp only [Res.bind_ok, hv, ne_eq, not_true_eq_false, if_false]
    exact hc fl
  refine ⟨(2#8 :: f.flags.opt.toU8 :: f.flags.reserved) ++ f.body 0, f, f.canon, ?_, ?_, ?_⟩
  · exact hr f.flags rfl rfl
  · have : f.file = (2#8 :: OptLevel.none.toU8 :: noReserved) ++ f.body 0 := by
      rw [V2.file_eq, V2.ser_eq (by rfl)]; rfl
    rw [this]
    exact hr ⟨2, .none, noReserved⟩ rfl rfl
  · rfl

/-- Same for a v1 file whose optimization level is not zero, and for a v1 file whose fpp is NaN:
that filter does not even have the same parameters as itself. -/
theorem C22_v1_params_violation (env : Env) :
    (∃ bs f g, V1.fromReader env (Reader.ofBytes bs) = .ok f ∧
      V1.fromReader env (Reader.ofBytes f.file) = .ok g ∧ f.hasSameParams g = false) ∧
    (∃ bs f, V1.fromReader env (Reader.ofBytes bs) = .ok f ∧ f.hasSameParams f = false) := by
  have hr : ∀ (fl : Flags) (f : V1), fl.version = 1#8 → fl.reserved.length = 6 →
      f.flags = fl → V1.Fits env f →
      V1.fromReader env (Reader.ofBytes ((1#8 :: fl.opt.toU8 :: fl.reserved) ++ f.body))
        = .ok f := by
    intro fl f hv hl hf hfit
    unfold V1.fromReader V1.fromReader'
    rw [ofBytes_eq]
    have := Bloom.readFlags_of hl [] f.body
    rw [hv] at this
    rw [this]
    simp only [Res.bind_ok, hv, ne_eq, not_true_eq_false, if_false]
    exact (V1.fromReaderWithFlags_ok _ _ _ _ _).2 ⟨hf, hfit, rfl⟩
  have hfit : ∀ fl p, V1.Fits env ⟨fl, [], 1, p, 0, 0, 0, [], Fingerprint.new 0 0⟩ :=
    fun fl p => ⟨by show (u64SizeFor 0).toNat = 0; rw [u64SizeFor_eq (by decide)]; rfl, by simp, rfl⟩
  constructor
  · let f : V1 := ⟨⟨1, .best, noReserved⟩, [], 1, oneBits, 0, 0, 0, [], Fingerprint.new 0 0⟩
    refine ⟨_, f, f.canon, hr f.flags f rfl rfl rfl (hfit _ _), ?_, rfl⟩
    exact (hfit f.flags oneBits).reload
  · let f : V1 := ⟨⟨1, .none, noReserved⟩, [], 1, 0x7FF8000000000000#64, 0, 0, 0, [],
      Fingerprint.new 0 0⟩
    refine ⟨_, f, hr f.flags f rfl rfl rfl (hfit _ _), ?_⟩
    decide +kernel

-- a filter with two buckets, built by the constructor, in an environment that is `Small`
example : ∃ f, V2.Reach Sample.env f ∧ V2.Built Sample.env f ∧ f.buckets.length = 2 ∧
    f.indexCache.asSlice.length = 1024 ∧ Sample.env.Small :=
  ⟨Sample.f2, .make Sample.f2_make, .make Sample.f2_make, by decide +kernel, by decide +kernel,
    Sample.env_small⟩
example : ∃ f, V1.Reach Sample.env f ∧ f.bitset.length = 15 :=
  ⟨Sample.f1, .make Sample.f1_make, by decide +kernel⟩

/-! ## C23 layout -/

/-- The file of a v2 filter, byte by byte, and its length. -/
theorem C23_v2_layout (f : V2) (hv : f.flags.version = 2) :
    f.file = Spec.v2Bytes f.flags.opt.toU8.toNat f.capacity.toNat f.fpp.toNat f.nHashBuck.toNat
      f.count.toNat f.indexCache.asSlice (f.buckets.map BitSet.asSlice) f.data ∧
    f.file.length = 56 + f.indexCache.asSlice.length + 4096 * f.buckets.length + f.data.length := by
  have h : f.file = Spec.v2Bytes f.flags.opt.toU8.toNat f.capacity.toNat f.fpp.toNat
      f.nHashBuck.toNat f.count.toNat f.indexCache.asSlice (f.buckets.map BitSet.asSlice)
      f.data := by
    rw [V2.file_eq]
    unfold V2.ser V2.chunks Spec.v2Bytes Flags.toBytes
    have hb : u64ToLe f.indexCache.bitLen = Spec.le 8 (f.indexCache.asSlice.length * 8) := by
      unfold VecBitSet.bitLen; rw [u64ToLe_ofNat]; rfl
    rw [hb, u64ToLe_ofNat, hv]
    simp only [u64ToLe_eq, List.length_map, BitVec.ofNat_toNat, BitVec.setWidth_eq]
    simp [List.flatten_append]
  refine ⟨h, ?_⟩
  rw [h]
  unfold Spec.v2Bytes
  simp only [List.length_append, length_le, length_flatten_buckets, List.length_cons,
    List.length_nil]
  omega

/-- The file of a v1 filter, byte by byte, and its length. -/
theorem C23_v1_layout (f : V1) :
    f.file = Spec.v1Bytes f.capacity.toNat f.fpp.toNat f.nHash.toNat f.bitSize.toNat
      f.count.toNat (f.bitset.map BitVec.toNat) f.data ∧
    f.file.length = 48 + 8 * f.bitset.length + f.data.length := by
  have h : f.file = Spec.v1Bytes f.capacity.toNat f.fpp.toNat f.nHash.toNat f.bitSize.toNat
      f.count.toNat (f.bitset.map BitVec.toNat) f.data := by
    rw [V1.file_eq]
    unfold V1.ser V1.chunks Spec.v1Bytes Flags.toBytes
    have : f.bitset.map u64ToLe = (f.bitset.map BitVec.toNat).map (Spec.le 8) := by
      rw [List.map_map]
      exact List.map_congr_left (fun x _ => u64ToLe_eq x)
    rw [this]
    simp only [u64ToLe_eq]
    simp [List.flatten_append, Flags.new, OptLevel.toU8]
  refine ⟨h, ?_⟩
  have hlen : ∀ ws : List ℕ, ((ws.map (Spec.le 8)).flatten).length = 8 * ws.length := by
    intro ws
    induction ws with
    | nil => rfl
    | cons w ws ih => simp only [List.map_cons, List.flatten_cons, List.length_append, length_le,
        ih, List.length_cons]; omega
  rw [h]
  unfold Spec.v1Bytes
  simp only [List.length_append, length_le, hlen, List.length_cons, List.length_nil,
    List.length_map]

/-- Both layouts describe what the constructors and readers produce. -/
theorem C23_reach (env : Env) :
    (∀ f : V2, V2.Reach env f → f.flags.version = 2) ∧
    (∀ f : V1, V1.Reach env f → f.flags.version = 1) :=
  ⟨fun _ h => h.inv.2.1, fun _ h => h.inv.2.1⟩

example : Spec.v1Bytes 258 0x3FF0000000000000 1 64 2 [3] [9] =
    [1, 0, 0, 0, 0, 0, 0, 0,  2, 1, 0, 0, 0, 0, 0, 0,  0, 0, 0, 0, 0, 0, 0xF0, 0x3F,
     1, 0, 0, 0, 0, 0, 0, 0,  64, 0, 0, 0, 0, 0, 0, 0,  2, 0, 0, 0, 0, 0, 0, 0,
     3, 0, 0, 0, 0, 0, 0, 0,  9] := by decide

/-! ## C24 canonical form -/

/-- Writing a v1 filter that was read gives back the same bytes, except that the optimization
level and the reserved bytes are cleared. -/
theorem C24_v1_rewrite (env : Env) (bs : List U8) (f : V1)
    (h : V1.fromReader env (Reader.ofBytes bs) = .ok f) :
    f.file = [1, 0, 0, 0, 0, 0, 0, 0] ++ bs.drop 8 := by
  obtain ⟨_, hl, _, hb⟩ := V1.fromReader_ok_inv h
  have : bs.drop 8 = f.body := by
    rw [hb]; exact List.drop_left' (by simp [hl])
  rw [this, V1.file_eq, V1.ser_eq]
  rfl

/-- Writing a v2 filter that was read gives back the same bytes, except that the reserved bytes
are cleared and the cache length in bits is rounded up to whole bytes. -/
theorem C24_v2_rewrite (env : Env) (hs : env.Small) (bs : List U8) (f : V2)
    (h : V2.fromReader env (Reader.ofBytes bs) = .ok f) :
    f.file = (bs.take 2 ++ noReserved ++ (bs.drop 8).take 32 ++
      Spec.le 8 ((Spec.leVal ((bs.drop 40).take 8) + 7) / 8 * 8) ++ bs.drop 48) := by
  obtain ⟨hv, hl, hfit, c, hc, hb⟩ := V2.fromReader_ok_inv h
  have hmc := hfit.mc
  have hcb := hfit.cb
  unfold Env.Small at hs
  have hcs := byteCap_small (n := c) (by rw [← hc, hcb]; omega)
  have hlen : f.indexCache.asSlice.length = (c.toNat + 7) / 8 := by
    rw [← hcb, hc, hcs.2]
  have hl8 := fun x : U64 => length_u64ToLe x
  have e1 : bs.take 2 = [2#8, f.flags.opt.toU8] := by rw [hb]; rfl
  have e2 : bs.drop 8 = f.body c := by rw [hb]; exact List.drop_left' (by simp [hl])
  -- the four fields before the cache length
  obtain ⟨head, hhead, hbody⟩ : ∃ head : List U8, head.length = 32 ∧
      ∀ x, f.body x = head ++ (u64ToLe x ++ (f.indexCache.asSlice ++ (u64ToLe f.nBuckets ++
        ((f.buckets.map BitSet.asSlice).flatten ++ f.data)))) :=
    ⟨u64ToLe f.capacity ++ u64ToLe f.fpp ++ u64ToLe f.nHashBuck ++ u64ToLe f.count,
      by simp [hl8], fun x => by simp [V2.body]⟩
  have e3 : (bs.drop 8).take 32 = head := by
    rw [e2, hbody]; exact List.take_left' hhead
  have e4 : bs.drop 40 = u64ToLe c ++ (f.indexCache.asSlice ++ (u64ToLe f.nBuckets ++
        ((f.buckets.map BitSet.asSlice).flatten ++ f.data))) := by
    rw [show (40 : ℕ) = 8 + 32 from rfl, ← List.drop_drop, e2, hbody]
    exact List.drop_left' hhead
  have e5 : (bs.drop 40).take 8 = u64ToLe c := by rw [e4]; exact List.take_left' (hl8 c)
  have e6 : bs.drop 48 = f.indexCache.asSlice ++ (u64ToLe f.nBuckets ++
        ((f.buckets.map BitSet.asSlice).flatten ++ f.data)) := by
    rw [show (48 : ℕ) = 40 + 8 from rfl, ← List.drop_drop, e4]
    exact List.drop_left' (hl8 c)
  have e7 : Spec.leVal (u64ToLe c) = c.toNat := by
    rw [← toNat_u64OfLe (by rw [hl8]), u64OfLe_u64ToLe]
  rw [e1, e3, e5, e6, e7, V2.file_eq, V2.ser_eq hfit.nb, hbody]
  have e8 : u64ToLe f.indexCache.bitLen = Spec.le 8 ((c.toNat + 7) / 8 * 8) := by
    unfold VecBitSet.bitLen
    rw [u64ToLe_ofNat, ← hlen]; rfl
  rw [e8]
  unfold Flags.toBytes noReserved
  rw [hv]
  simp

/-! ## C25 truncated files -/

/-- A proper prefix of the file of a filter is refused, or gives the same filter with shorter
data; it is refused as soon as part of the bits is missing. -/
theorem C25_truncated (env : Env) (hs : env.Small) (f : Bloom) (hf : f.Reach env)
    (cut extra : List U8) (h : cut ++ extra = f.file) :
    (∃ e, Bloom.fromReader env (Reader.ofBytes cut) = .err e) ∨
    (∃ g full, Bloom.fromReader env (Reader.ofBytes cut) = .ok g ∧
      Bloom.fromReader env (Reader.ofBytes f.file) = .ok full ∧
      full = g.setData (g.data ++ extra) ∧ g.data ++ extra = f.data ∧
      f.file.length - f.data.length ≤ cut.length) := by
  obtain ⟨full, hfull, -, -, -, -, -, -, hdata, -⟩ := C22_bloom_round_trip env hs f hf
  rcases Bloom.fromReader_prefix env cut extra with he | ⟨g, hg, hg'⟩ | ⟨_, hp⟩
  · exact Or.inl he
  · right
    rw [h, hfull] at hg'
    have hfe : full = g.setData (g.data ++ extra) := by cases hg'; rfl
    have hd : g.data ++ extra = f.data := by
      rw [← hdata, hfe]
      cases g <;> rfl
    refine ⟨g, full, hg, hfull, hfe, hd, ?_⟩
    have h1 := congrArg List.length h
    have h2 := congrArg List.length hd
    rw [List.length_append] at h1 h2
    omega
  · rw [h, hfull] at hp; simp at hp

-- a cut that is refused, and one inside the data that is accepted: 48 bytes of header, no bits
example : (∃ e, Bloom.fromReader Sample.env (Reader.ofBytes
      ((Spec.v1Bytes 0 0x3FF0000000000000 0 0 0 [] [7, 8]).take 47)) = .err e) ∧
    ∃ g, Bloom.fromReader Sample.env (Reader.ofBytes
      ((Spec.v1Bytes 0 0x3FF0000000000000 0 0 0 [] [7, 8]).take 49)) = .ok g ∧ g.data = [7] :=
  ⟨⟨.ioError .unexpectedEof, by decide +kernel⟩, .v1 ⟨Flags.new 1, [], 0, oneBits, 0, 0, 0, [7],
    Fingerprint.new 0 0⟩, by decide +kernel, rfl⟩

/-! ## C26 header -/

/-- The optimization level of a filter. -/
def Bloom.opt : Bloom → OptLevel
  | .v1 f => f.flags.opt
  | .v2 f => f.flags.opt

/-- Header validation of both common readers. -/
theorem C26_header (env : Env) {read : Env → Reader → Res Bloom}
    (hread : read = Bloom.fromReader ∨ read = Bloom.partialFromReader) (bs : List U8) :
    (bs.length < 8 → read env (Reader.ofBytes bs) = .err (.ioError .unexpectedEof)) ∧
    (∀ v o rest, bs = v :: o :: rest → 6 ≤ rest.length →
      (3 < o.toNat → read env (Reader.ofBytes bs) = .err (.optLevel o)) ∧
      (o.toNat ≤ 3 → v.toNat ≠ 1 → v.toNat ≠ 2 →
        read env (Reader.ofBytes bs) = .err (.invalidVersion v)) ∧
      (∀ f, read env (Reader.ofBytes bs) = .ok f →
        f.version = v ∧ f.opt.toU8 = o ∧ (v.toNat = 1 ∨ v.toNat = 2))) := by
  obtain ⟨p, hp⟩ : ∃ p, read = fun env r => Bloom.fromReaderAux env p r := by
    rcases hread with rfl | rfl
    · exact ⟨false, rfl⟩
    · exact ⟨true, rfl⟩
  subst hp
  dsimp only
  obtain ⟨h1, h2⟩ := readFlags_cases bs
  refine ⟨fun h => ?_, fun v o rest hb hl => ⟨fun ho => ?_, fun ho hv1 hv2 => ?_, fun f hf => ?_⟩⟩
  · unfold Bloom.fromReaderAux; rw [h1 h]
  · unfold Bloom.fromReaderAux; rw [(h2 v o rest hb hl).1 ho]
  · obtain ⟨lvl, _, hr⟩ := (h2 v o rest hb hl).2 ho
    unfold Bloom.fromReaderAux
    rw [hr]
    simp only
    rw [if_neg (fun h => hv1 (by rw [h]; rfl)), if_neg (fun h => hv2 (by rw [h]; rfl))]
  · by_cases ho : 3 < o.toNat
    · unfold Bloom.fromReaderAux at hf
      rw [(h2 v o rest hb hl).1 ho] at hf
      simp at hf
    obtain ⟨lvl, hlvl, hr⟩ := (h2 v o rest hb hl).2 (by omega)
    unfold Bloom.fromReaderAux at hf
    rw [hr] at hf
    simp only at hf
    have k1 : ∀ (fl : Flags) r g, V1.fromReaderWithFlags env fl p r = .ok g → g.flags = fl := by
      intro fl r g hg
      unfold V1.fromReaderWithFlags at hg
      simp only [Res.bind_eq_ok] at hg
      obtain ⟨_, _, _, _, _, _, _, _, _, _, _, _, _, _, hg⟩ := hg
      simp only [Res.ok.injEq] at hg
      rw [← hg]
    have k2 : ∀ (fl : Flags) r g, V2.fromReaderWithFlags env fl p r = .ok g → g.flags = fl := by
      intro fl r g hg
      unfold V2.fromReaderWithFlags at hg
      simp only [Res.bind_eq_ok] at hg
      obtain ⟨_, _, _, _, hg⟩ := hg
      split at hg
      · simp at hg
      simp only [Res.bind_eq_ok] at hg
      obtain ⟨_, _, _, _, _, _, _, _, _, _, _, _, _, _, hg⟩ := hg
      simp only [Res.ok.injEq] at hg
      rw [← hg]
    split at hf
    · rename_i hv
      obtain ⟨g, hg, rfl⟩ := Res.map_eq_ok.1 hf
      refine ⟨hv.symm, ?_, Or.inl (by rw [hv]; rfl)⟩
      show g.flags.opt.toU8 = o
      rw [k1 _ _ _ hg]; exact hlvl
    split at hf
    · rename_i hv
      obtain ⟨g, hg, rfl⟩ := Res.map_eq_ok.1 hf
      refine ⟨hv.symm, ?_, Or.inr (by rw [hv]; rfl)⟩
      show g.flags.opt.toU8 = o
      rw [k2 _ _ _ hg]; exact hlvl
    · simp at hf

/-- The version specific readers refuse the other version. -/
theorem C26_versioned_readers (env : Env) (v o : U8) (rest : List U8) (hl : 6 ≤ rest.length)
    (ho : o.toNat ≤ 3) :
    (v.toNat ≠ 1 → V1.fromReader env (Reader.ofBytes (v :: o :: rest))
      = .err (.invalidVersion v)) ∧
    (v.toNat ≠ 2 → V2.fromReader env (Reader.ofBytes (v :: o :: rest))
      = .err (.invalidVersion v)) := by
  obtain ⟨lvl, _, hr⟩ := ((readFlags_cases (v :: o :: rest)).2 v o rest rfl hl).2 ho
  refine ⟨fun hv => ?_, fun hv => ?_⟩
  · unfold V1.fromReader V1.fromReader'
    rw [hr]
    simp only [Res.bind_ok]
    rw [if_pos (fun h => hv (by rw [h]; rfl))]
  · unfold V2.fromReader V2.fromReader'
    rw [hr]
    simp only [Res.bind_ok]
    rw [if_pos (fun h => hv (by rw [h]; rfl))]

/-! ## C27, C28 partial reading -/

/-- Whenever the complete reader accepts a file, so does the partial one, with the same
metadata. -/
theorem C27_partial_metadata (env : Env) (bs : List U8) (f : Bloom)
    (h : Bloom.fromReader env (Reader.ofBytes bs) = .ok f) :
    ∃ g, Bloom.partialFromReader env (Reader.ofBytes bs) = .ok g ∧
      g.version = f.version ∧ g.capacity = f.capacity ∧ g.fpp = f.fpp ∧
      g.countEstimate = f.countEstimate ∧ g.isFull = f.isFull ∧ g.opt = f.opt ∧
      g.sizeInBytes env = f.sizeInBytes env ∧ g.data = f.data := by
  refine ⟨f.stripped, Bloom.partialFromReader_of_full h, ?_⟩
  cases f <;> exact ⟨rfl, rfl, rfl, rfl, rfl, rfl, rfl, rfl⟩

/-- The converse fails: cut the file of any v1 filter with bits somewhere inside its bits; partial
reading accepts it (and reports no data), complete reading does not. -/
theorem C27_converse_false (env : Env) (hs : env.Small) (f : V1) (hf : V1.Reach env f)
    (cut extra : List U8) (h : cut ++ extra = f.file) (h1 : 48 ≤ cut.length)
    (h2 : cut.length < 48 + 8 * f.bitset.length) :
    (∃ e, Bloom.fromReader env (Reader.ofBytes cut) = .err e) ∧
    (∃ g, Bloom.partialFromReader env (Reader.ofBytes cut) = .ok g ∧ g.data = [] ∧
      g.capacity = f.capacity ∧ g.countEstimate = f.count) := by
  constructor
  · rcases C25_truncated env hs (.v1 f) hf cut extra
      (by rw [Bloom.file_eq]; rw [V1.file_eq] at h; exact h) with he | ⟨g, full, _, _, _, _, hlen⟩
    · exact he
    · exfalso
      have hl := (C23_v1_layout f).2
      have : (Bloom.v1 f).file.length = f.file.length := by rw [Bloom.file_eq, V1.file_eq]; rfl
      rw [this, hl] at hlen
      have : (Bloom.v1 f).data = f.data := rfl
      rw [this] at hlen
      omega
  · have hfile : f.file = (Flags.new 1#8).toBytes ++ (u64ToLe f.capacity ++ (u64ToLe f.fpp ++
        (u64ToLe f.nHash ++ (u64ToLe f.bitSize ++ (u64ToLe f.count ++
          ((f.bitset.map u64ToLe).flatten ++ f.data)))))) := by
      rw [V1.file_eq, V1.ser_eq]; rfl
    obtain ⟨mid, hmid, hml⟩ : ∃ mid, cut = (Flags.new 1#8).toBytes ++ (u64ToLe f.capacity ++
        (u64ToLe f.fpp ++ (u64ToLe f.nHash ++ (u64ToLe f.bitSize ++ (u64ToLe f.count ++ mid))))) ∧
        mid.length + 48 = cut.length := by
      have hsplit : cut = f.file.take cut.length := by rw [← h]; simp
      refine ⟨cut.drop 48, ?_, by rw [List.length_drop]; omega⟩
      have hhead : cut.take 48 = (Flags.new 1#8).toBytes ++ (u64ToLe f.capacity ++
        (u64ToLe f.fpp ++ (u64ToLe f.nHash ++ (u64ToLe f.bitSize ++ u64ToLe f.count)))) := by
        rw [hsplit, List.take_take, Nat.min_eq_left h1, hfile]
        have := List.take_left' (l₁ := (Flags.new 1#8).toBytes ++ (u64ToLe f.capacity ++
          (u64ToLe f.fpp ++ (u64ToLe f.nHash ++ (u64ToLe f.bitSize ++ u64ToLe f.count)))))
          (l₂ := (f.bitset.map u64ToLe).flatten ++ f.data) (i := 48)
          (by simp [length_u64ToLe, Flags.length_toBytes])
        simpa using this
      conv_lhs => rw [← List.take_append_drop 48 cut, hhead]
      simp
    refine ⟨.v1 { f.stripped with flags := ⟨1, .none, List.replicate 6 0#8⟩, data := [] }, ?_,
      rfl, rfl, rfl⟩
    unfold Bloom.partialFromReader Bloom.fromReaderAux
    rw [hmid, ofBytes_eq, readFlags_append]
    simp only [Flags.new, if_true]
    rw [V1.fromReaderWithFlags_partial_cut hf.fits _ _ _ (by omega)]
    rfl

/-- A partially read v1 filter answers `false` to everything; a partially read v2 filter of
non-zero capacity panics on every query. -/
theorem C28_partial_queries (env : Env) (bs : List U8) (f g : Bloom)
    (h : Bloom.fromReader env (Reader.ofBytes bs) = .ok f)
    (hp : Bloom.partialFromReader env (Reader.ofBytes bs) = .ok g) (k : List U8) :
    g.containsBytes env k =
      if f.version.toNat = 1 then .ok false
      else if f.capacity.toNat = 0 then .ok false else .panic := by
  rw [Bloom.partialFromReader_of_full h] at hp
  cases hp
  cases f with
  | v1 f =>
    show V1.containsBytes f.stripped k = .ok false
    exact V1.containsBytes_empty rfl k
  | v2 f =>
    show V2.contains env f.stripped (.slice k) =
      if f.capacity.toNat = 0 then .ok false else .panic
    have hw : f.stripped.WF := ⟨by simp [V2.stripped], by simp [V2.stripped, VecBitSet.asSlice]⟩
    split
    · rename_i h0
      exact V2.contains_noCap env _ (BitVec.eq_of_toNat_eq h0)
    · rename_i h0
      rw [V2.contains_nil env hw _ (fun hc => h0 (by rw [show f.capacity = 0 from hc]; rfl)) rfl]
      rfl

/-- A partially read filter written back has lost all its bits. -/
theorem C28_partial_write_back (env : Env) (bs : List U8) (f g : Bloom)
    (h : Bloom.fromReader env (Reader.ofBytes bs) = .ok f)
    (hp : Bloom.partialFromReader env (Reader.ofBytes bs) = .ok g) :
    match f with
    | .v1 f => g.file = Spec.v1Bytes f.capacity.toNat f.fpp.toNat f.nHash.toNat f.bitSize.toNat
        f.count.toNat [] f.data
    | .v2 f => g.file = Spec.v2Bytes f.flags.opt.toU8.toNat f.capacity.toNat f.fpp.toNat
        f.nHashBuck.toNat f.count.toNat [] [] f.data := by
  have hi := Bloom.fromReader_ok_inv h
  rw [Bloom.partialFromReader_of_full h] at hp
  cases hp
  cases f with
  | v1 f => exact (C23_v1_layout f.stripped).1
  | v2 f => exact (C23_v2_layout f.stripped hi.1.2).1

-- a v1 file with one word of bits: read completely, it contains what was inserted; read
-- partially, nothing
example : ∃ f g, Bloom.fromReader Sample.env (Reader.ofBytes
      (Spec.v1Bytes 1 0x3FF0000000000000 1 64 1 [2 ^ 64 - 1] [])) = .ok f ∧
    Bloom.partialFromReader Sample.env (Reader.ofBytes
      (Spec.v1Bytes 1 0x3FF0000000000000 1 64 1 [2 ^ 64 - 1] [])) = .ok g ∧
    f.containsBytes Sample.env [1] = .ok true ∧ g.containsBytes Sample.env [1] = .ok false :=
  ⟨.v1 ⟨Flags.new 1, [BitVec.allOnes 64], 1, oneBits, 1, 64, 1, [], Fingerprint.new 1 64⟩,
    .v1 ⟨Flags.new 1, [], 1, oneBits, 1, 64, 1, [], Fingerprint.new 1 64⟩,
    by decide +kernel, by decide +kernel, by decide +kernel, by decide +kernel⟩

/-! ## C29 writing -/

/-- A writer that never fails receives exactly the file. -/
theorem C29_write_ok (f : Bloom) (out : List U8) :
    f.write ⟨out, none⟩ = (⟨out ++ f.file, none⟩, .ok ()) := by
  rw [Bloom.write_none, Bloom.file_eq]

/-- A writer that fails after `k` bytes has received exactly the first `k` bytes; `Ok` means that
at most one buffer of 8192 bytes is missing, and an error is an I/O error that really happened. -/
theorem C29_write_fails_partial (f : Bloom) (k : ℕ) :
    (f.write ⟨[], some k⟩).1.out = f.file.take k ∧
    ((f.write ⟨[], some k⟩).2 = .ok () → f.file.length ≤ k + 8192) ∧
    ((f.write ⟨[], some k⟩).2 ≠ .ok () →
      (f.write ⟨[], some k⟩).2 = .err (.ioError .other) ∧ k < f.file.length) := by
  obtain ⟨h1, h2⟩ := Bloom.write_eq f ⟨[], some k⟩
  rw [Bloom.file_eq]
  refine ⟨by rw [h1]; simp [accept], fun h => ?_, fun h => ?_⟩
  · rcases h2 with ⟨_, a, b, hab, hfa, hb⟩ | ⟨he, _⟩
    · rw [hab, List.length_append]
      simp only [fits, bufCap] at hfa hb
      omega
    · rw [he] at h; simp at h
  · rcases h2 with ⟨ho, _⟩ | ⟨he, hn⟩
    · exact absurd ho h
    · exact ⟨he, by simpa [fits] using hn⟩

/-- Exactly when `write` returns `Ok`: if what the buffer hands over before it is dropped fits, which
is determined by the sizes of the pieces written. -/
theorem C29_v1_result (f : V1) (out : List U8) (k : ℕ) :
    (f.write ⟨out, some k⟩).2
      = if Spec.handed 0 (Spec.v1Pieces f.bitset.length f.data.length) ≤ k then .ok ()
        else .err (.ioError .other) :=
  f.write_result out k

/-- Same for v2. -/
theorem C29_v2_result (f : V2) (out : List U8) (k : ℕ) :
    (f.write ⟨out, some k⟩).2
      = if Spec.handed 0 (Spec.v2Pieces f.indexCache.asSlice.length f.buckets.length f.data.length) ≤ k
        then .ok () else .err (.ioError .other) :=
  f.write_result out k

-- of a v2 filter without index cache with five buckets and no data (20536 bytes), the first
-- 4152 + 8192 bytes decide; of a v1 filter with 2000 words (16048 bytes), the first 8192
example : Spec.handed 0 (Spec.v2Pieces 0 5 0) = 12344 ∧ Spec.handed 0 (Spec.v1Pieces 2000 0) = 8192 ∧
    Spec.handed 0 (Spec.v2Pieces 10000 1 9000) = 23152 := by decide +kernel

/-- The full claim is false: for every filter whose file is shorter than the buffer, `write`
returns `Ok` whatever the writer does, even if nothing was written. -/
theorem C29_flush_error_ignored (f : Bloom) (h : f.file.length < 8192) (k : ℕ) :
    (f.write ⟨[], some k⟩).2 = .ok () :=
  Bloom.write_small (by rw [← Bloom.file_eq]; exact h) _

-- such a filter, with a writer that accepts 3 bytes only
example : ∃ f : Bloom, f.file.length = 48 ∧ (f.write ⟨[], some 3⟩).2 = .ok () ∧
    (f.write ⟨[], some 3⟩).1.out = [1, 0, 0] :=
  ⟨.v1 ⟨Flags.new 1, [], 1, oneBits, 0, 0, 0, [], Fingerprint.new 0 0⟩,
    by decide +kernel, by decide +kernel, by decide +kernel⟩

/-! ## C30 fpp when loading

The order of positive `f64` values is the order of their bit patterns; `f64::MIN_POSITIVE` is
`2^52` and `1.0` is `1023 * 2^52` (negative numbers, infinity and NaN all lie outside). -/

/-- A v2 file whose header is readable up to the fpp is refused with `WrongFpp` exactly when the
fpp is out of range. -/
theorem C30_v2_fpp (env : Env) (o : OptLevel) (res : List U8) (hres : res.length = 6)
    (cap fpp : U64) (rest : List U8) :
    (V2.fromReader env (Reader.ofBytes
      (2 :: o.toU8 :: res ++ Spec.le 8 cap.toNat ++ Spec.le 8 fpp.toNat ++ rest))
        = .err (.wrongFpp fpp)) ↔ ¬ (2 ^ 52 ≤ fpp.toNat ∧ fpp.toNat ≤ 1023 * 2 ^ 52) := by
  have hr := Bloom.readFlags_of (flags := ⟨2, o, res⟩) hres []
    (u64ToLe cap ++ (u64ToLe fpp ++ rest))
  have heq : (2 :: o.toU8 :: res ++ Spec.le 8 cap.toNat ++ Spec.le 8 fpp.toNat ++ rest : List U8)
      = ((2 : U8) :: o.toU8 :: res) ++ (u64ToLe cap ++ (u64ToLe fpp ++ rest)) := by
    simp [u64ToLe_eq]
  unfold V2.fromReader V2.fromReader'
  rw [ofBytes_eq, heq, hr]
  simp only [Res.bind_ok]
  rw [if_neg (by simp)]
  unfold V2.fromReaderWithFlags
  rw [readLeU64_append]; simp only [Res.bind_ok]
  rw [readLeU64_append]; simp only [Res.bind_ok]
  have hin := fppInRange_iff fpp
  constructor
  · intro h hc
    rw [hin.2 hc] at h
    simp only [Bool.not_true, Bool.false_eq_true, if_false] at h
    -- later steps never report a wrong fpp
    generalize rd ([] ++ ((2 : U8) :: o.toU8 :: res) ++ u64ToLe cap ++ u64ToLe fpp) rest = r at h
    have key : ∀ (α : Type) (m : Res α) (g : α → Res V2), (∀ e, m = .err e → ∃ k, e = .ioError k) →
        (m >>= g) = .err (.wrongFpp fpp) → ∃ a, m = .ok a ∧ g a = .err (.wrongFpp fpp) := by
      intro α m g hm hb
      cases m with
      | ok a => exact ⟨a, rfl, hb⟩
      | err e =>
        obtain ⟨k, rfl⟩ := hm e rfl
        simp at hb
      | panic => simp at hb
    have hre : ∀ n r e, readExact n r = .err e → ∃ k, e = .ioError k := by
      intro n r e he
      unfold readExact at he
      split at he
      · simp at he
      split at he
      · simp only [Res.err.injEq] at he; exact ⟨_, he.symm⟩
      split at he
      · simp at he
      · simp only [Res.err.injEq] at he; exact ⟨_, he.symm⟩
    have h8 : ∀ r e, readLeU64 r = .err e → ∃ k, e = .ioError k := by
      intro r e he
      unfold readLeU64 at he
      cases h8 : readExact 8 r with
      | ok v => rw [h8] at he; simp at he
      | err e' =>
        rw [h8] at he
        simp only [Res.err.injEq] at he
        exact he ▸ hre _ _ _ h8
      | panic => rw [h8] at he; simp at he
    have hbk : ∀ n r e, V2.readBuckets n r = .err e → ∃ k, e = .ioError k := by
      intro n
      induction n with
      | zero => intro r e he; simp [V2.readBuckets] at he
      | succ n ih =>
        intro r e he
        simp only [V2.readBuckets] at he
        cases h1 : readExact BUCKET_SIZE r with
        | ok v =>
          rw [h1] at he
          simp only at he
          cases h2 : V2.readBuckets n v.2 with
          | ok v2 =>
            rw [h2] at he
            simp only at he
            split at he <;> simp at he
          | err e' =>
            rw [h2] at he
            simp only [Res.err.injEq] at he
            exact he ▸ ih _ _ h2
          | panic => rw [h2] at he; simp at he
        | err e' =>
          rw [h1] at he
          simp only [Res.err.injEq] at he
          exact he ▸ hre _ _ _ h1
        | panic => rw [h1] at he; simp at he
    obtain ⟨_, _, h⟩ := key _ _ _ (h8 _) h
    obtain ⟨_, _, h⟩ := key _ _ _ (h8 _) h
    obtain ⟨c, _, h⟩ := key _ _ _ (h8 _) h
    obtain ⟨_, _, h⟩ := key _ _ _ (by
      intro e he
      unfold V2.readCache at he
      simp only [Bool.false_eq_true, if_false] at he
      cases ha : env.alloc (byteCapFromBitCap c.1).toNat 1 with
      | ok u =>
        rw [ha] at he
        simp only at he
        cases h1 : readExact (VecBitSet.withBitCapacity c.1).byteLen c.2 with
        | ok v => rw [h1] at he; simp at he
        | err e' =>
          rw [h1] at he
          simp only [Res.err.injEq] at he
          exact he ▸ hre _ _ _ h1
        | panic => rw [h1] at he; simp at he
      | err e' => exact absurd ha Env.alloc_ne_err
      | panic => rw [ha] at he; simp at he) h
    obtain ⟨nb, _, h⟩ := key _ _ _ (h8 _) h
    obtain ⟨_, _, h⟩ := key _ _ _ (by
      intro e he
      unfold V2.readAllBuckets at he
      simp only [Bool.false_eq_true, if_false] at he
      cases ha : env.alloc nb.1.toNat BUCKET_SIZE with
      | ok u => rw [ha] at he; exact hbk _ _ _ he
      | err e' => exact absurd ha Env.alloc_ne_err
      | panic => rw [ha] at he; simp at he) h
    obtain ⟨_, _, h⟩ := key _ _ _ (by
      intro e he
      unfold readToEnd at he
      split at he
      · simp only [Res.err.injEq] at he; exact ⟨_, he.symm⟩
      · simp at he) h
    simp at h
  · intro hc
    have : fppInRange fpp = false := by
      rw [Bool.eq_false_iff]; exact fun h => hc (hin.1 h)
    rw [this]
    simp

/-- A v1 file is accepted whatever its fpp, which is kept as is. -/
theorem C30_v1_any_fpp (env : Env) (cap fpp fpp' nh m cnt : ℕ) (words : List ℕ) (data : List U8)
    (f : V1) (h : V1.fromReader env
      (Reader.ofBytes (Spec.v1Bytes cap fpp nh m cnt words data)) = .ok f) :
    V1.fromReader env (Reader.ofBytes (Spec.v1Bytes cap fpp' nh m cnt words data))
      = .ok { f with fpp := BitVec.ofNat 64 fpp' } := by
  have hbytes : ∀ p, Spec.v1Bytes cap p nh m cnt words data
      = (Flags.new 1#8).toBytes ++ (u64ToLe (BitVec.ofNat 64 cap) ++ (u64ToLe (BitVec.ofNat 64 p)
        ++ (u64ToLe (BitVec.ofNat 64 nh) ++ (u64ToLe (BitVec.ofNat 64 m) ++
          (u64ToLe (BitVec.ofNat 64 cnt) ++ ((words.map (Spec.le 8)).flatten ++ data)))))) := by
    intro p
    unfold Spec.v1Bytes Flags.toBytes
    simp only [u64ToLe_ofNat]
    simp [Flags.new, OptLevel.toU8]
  rw [hbytes] at h ⊢
  unfold V1.fromReader V1.fromReader' at h ⊢
  rw [ofBytes_eq, readFlags_append] at h ⊢
  simp only [Res.bind_ok, Flags.new, ne_eq, not_true_eq_false, if_false] at h ⊢
  obtain ⟨hfl, hfit, hb⟩ := (V1.fromReaderWithFlags_ok _ _ _ _ _).1 h
  refine (V1.fromReaderWithFlags_ok _ _ _ _ _).2 ⟨hfl, ⟨hfit.1, hfit.2, hfit.3⟩, ?_⟩
  unfold V1.body at hb ⊢
  obtain ⟨e1, hb⟩ := List.append_inj hb (by rw [length_u64ToLe, length_u64ToLe])
  obtain ⟨_, hb⟩ := List.append_inj hb (by rw [length_u64ToLe, length_u64ToLe])
  simp only
  rw [← e1, ← hb]

example : (fppInRange 0x7FF8000000000000#64 = false) ∧ ∃ f, V1.fromReader Sample.env
    (Reader.ofBytes (Spec.v1Bytes 1 0x7FF8000000000000 1 64 0 [0] [])) = .ok f :=
  ⟨by decide +kernel, ⟨Flags.new 1, [0], 1, 0x7FF8000000000000, 1, 64, 0, [],
    Fingerprint.new 1 64⟩, by decide +kernel⟩

/-! ## C31 malformed input -/

/-- Bytes of memory needed for `bits` bits stored in blocks of `w` bits. -/
def bytesFor (w bits : ℕ) : ℕ := (bits + w - 1) / w * (w / 8)

/-- Reading panics only if the header asks for more memory than there is. -/
theorem C31_no_panic_partial (env : Env) (hs : env.Small) (bs : List U8)
    (h : Bloom.fromReader env (Reader.ofBytes bs) = .panic) :
    (∃ res cap fpp nh m cnt rest, bs = 1 :: res ++ Spec.le 8 cap ++ Spec.le 8 fpp ++ Spec.le 8 nh
        ++ Spec.le 8 m ++ Spec.le 8 cnt ++ rest ∧ res.length = 7 ∧ m < 2 ^ 64 ∧
        env.allocLimit < bytesFor 64 m) ∨
    (∃ res cap fpp nh cnt c rest, bs = 2 :: res ++ Spec.le 8 cap ++ Spec.le 8 fpp ++ Spec.le 8 nh
        ++ Spec.le 8 cnt ++ Spec.le 8 c ++ rest ∧ res.length = 7 ∧ c < 2 ^ 64 ∧
        (env.allocLimit < bytesFor 8 c ∨
          ∃ cache nb rest', rest = cache ++ Spec.le 8 nb ++ rest' ∧
            cache.length = bytesFor 8 c ∧ nb < 2 ^ 64 ∧ env.allocLimit < nb * 4096)) := by
  unfold Env.Small at hs
  unfold Bloom.fromReader Bloom.fromReaderAux at h
  rw [ofBytes_eq] at h
  cases hr : readFlags (rd [] bs) with
  | ok v =>
    obtain ⟨flags, r⟩ := v
    rw [hr] at h
    obtain ⟨hl, rest, hb, rfl⟩ := readFlags_inv hr
    have mapPanic : ∀ {α β : Type} {x : Res α} {g : α → β}, x.map g = .panic → x = .panic := by
      intro α β x g hx
      cases x <;> simp_all [Res.map]
    simp only at h
    split at h
    · rename_i hv
      left
      obtain ⟨cap, fpp, nh, m, cnt, rest', e, hm⟩ := V1.fromReaderWithFlags_panic (mapPanic h)
      refine ⟨flags.opt.toU8 :: flags.reserved, cap.toNat, fpp.toNat, nh.toNat, m.toNat, cnt.toNat,
        rest', ?_, by simp [hl], m.isLt, ?_⟩
      · rw [hb, e, hv]; simp [u64ToLe_eq]
      · unfold bytesFor
        rcases Nat.lt_or_ge (2 ^ 53) m.toNat with hc | hc
        · omega
        · rw [u64SizeFor_eq hc] at hm; omega
    split at h
    · rename_i hv
      right
      obtain ⟨cap, fpp, nh, cnt, c, rest', e, hm⟩ := V2.fromReaderWithFlags_panic (mapPanic h)
      refine ⟨flags.opt.toU8 :: flags.reserved, cap.toNat, fpp.toNat, nh.toNat, cnt.toNat, c.toNat,
        rest', ?_, by simp [hl], c.isLt, ?_⟩
      · rw [hb, e, hv]; simp [u64ToLe_eq]
      · unfold bytesFor
        rcases Nat.lt_or_ge (2 ^ 53) c.toNat with hc | hc
        · left; omega
        · rw [byteCap_eq hc] at hm
          rcases hm with hm | ⟨cache, nb, rest'', h1, h2, h3⟩
          · left; omega
          · right
            refine ⟨cache, nb.toNat, rest'', ?_, by omega, nb.isLt, h3⟩
            rw [h2]; simp [u64ToLe_eq]
    · simp at h
  | err e => rw [hr] at h; simp at h
  | panic => exact absurd hr (readFlags_ne_panic _ _)

/-- A file of 56 bytes that makes the reader panic on every machine: it announces `2^52` buckets
(`2^64` bytes). -/
theorem C31_violated (env : Env) : ∃ bs : List U8, bs.length = 56 ∧
    Bloom.fromReader env (Reader.ofBytes bs) = .panic := by
  refine ⟨⟨2#8, .none, List.replicate 6 0#8⟩ |> Flags.toBytes |> (· ++ (u64ToLe 0 ++ (u64ToLe oneBits
    ++ (u64ToLe 0 ++ (u64ToLe 0 ++ (u64ToLe 0 ++ ([] ++ (u64ToLe 4503599627370496#64 ++ [])))))))),
    by decide +kernel, ?_⟩
  simp only
  unfold Bloom.fromReader Bloom.fromReaderAux
  rw [ofBytes_eq, readFlags_append]
  simp only
  rw [if_neg (by decide), if_pos trivial]
  unfold V2.fromReaderWithFlags
  rw [readLeU64_append]; simp only [Res.bind_ok]
  rw [readLeU64_append]; simp only [Res.bind_ok]
  rw [show fppInRange oneBits = true from (fppInRange_iff _).2 (by decide)]
  simp only [Bool.not_true, Bool.false_eq_true, if_false]
  rw [readLeU64_append]; simp only [Res.bind_ok]
  rw [readLeU64_append]; simp only [Res.bind_ok]
  rw [readLeU64_append]; simp only [Res.bind_ok]
  rw [V2.readCache_append (by rw [byteCap_zero]; rfl) (by simp)]; simp only [Res.bind_ok]
  rw [readLeU64_append]; simp only [Res.bind_ok]
  unfold V2.readAllBuckets Env.alloc
  simp only [Bool.false_eq_true, if_false]
  rw [if_neg]
  · rfl
  · have := env.allocLimit_lt
    show ¬ 4503599627370496 * 4096 ≤ env.allocLimit
    omega

/-! ## C32 operations on loaded filters -/

/-- On a v2 filter that was loaded (or derived from any filter), queries panic only without
buckets (unless the cache answers), inserts only without buckets or when the count overflows in a
build with overflow checks. -/
theorem C32_v2_panics (env : Env) (f : V2) (hf : V2.Reach env f) (k : Key) :
    (f.contains env k = .panic → f.capacity ≠ 0 ∧ f.buckets = []) ∧
    ((f.insert env k).2 = .panic → f.capacity ≠ 0 ∧
      (f.buckets = [] ∨ env.debug = true ∧ f.count.toNat = 2 ^ 64 - 1)) ∧
    (f.capacity ≠ 0 → f.buckets = [] → (f.insert env k).2 = .panic) := by
  have w := hf.wf
  refine ⟨fun h => ?_, fun h => ?_, fun hc hb => by rw [V2.insert_nil env k hc hb]⟩
  · by_cases hc : f.capacity = 0
    · rw [V2.contains_noCap env k hc] at h; simp at h
    refine ⟨hc, ?_⟩
    by_contra hb
    rw [V2.contains_eq env w k hc hb] at h; simp at h
  · by_cases hc : f.capacity = 0
    · rw [V2.insert_noCap env k hc] at h; simp at h
    refine ⟨hc, ?_⟩
    by_cases hb : f.buckets = []
    · exact Or.inl hb
    · right
      rw [V2.insert_cases env w k hc hb] at h
      split at h
      · simp at h
      · split at h
        · rename_i ho
          have := ho.1.2
          exact ⟨ho.1.1, by omega⟩
        · simp at h

/-- On a v1 filter that was loaded (or derived from any filter) queries never panic, and inserts
panic exactly when the filter has no bits but hash functions (and a capacity). -/
theorem C32_v1_panics (env : Env) (hs : env.Small) (f : V1) (hf : V1.Reach env f) (k : List U8) :
    f.containsBytes k ≠ .panic ∧
    ((f.insertBytes env k).2 = .panic ↔
      f.capacity ≠ 0 ∧ f.bitSize = 0 ∧ f.nHash ≠ 0) := by
  have w := hf.wf hs
  constructor
  · by_cases hm : f.bitSize = 0
    · have hlen : f.bitset = [] := by
        have h1 := hf.fits.nw
        rw [hm, u64SizeFor_eq (by decide)] at h1
        exact List.length_eq_zero_iff.1 h1.symm
      rw [V1.containsBytes_empty hlen]; simp
    · rw [V1.containsBytes_eq w k hm]; simp
  · constructor
    · intro h
      by_cases hc : f.capacity = 0
      · unfold V1.insertBytes at h; simp [hc] at h
      by_cases hk : f.nHash = 0
      · rw [V1.insertBytes_noHash env w k hc hk] at h; simp at h
      by_cases hm : f.bitSize = 0
      · exact ⟨hc, hm, hk⟩
      · rw [V1.insertBytes_eq env w k hc hm] at h
        split at h <;> simp at h
    · rintro ⟨hc, hm, hk⟩
      rw [V1.insertBytes_noBits env w.fpCount (w.fpM.trans hm) k hc hk]

-- loaded filters of both kinds that panic
example : ∃ f, V1.fromReader Sample.env (Reader.ofBytes
    (Spec.v1Bytes 1 0x3FF0000000000000 1 0 0 [] [])) = .ok f ∧
      (f.insertBytes Sample.env [5]).2 = .panic :=
  ⟨⟨Flags.new 1, [], 1, oneBits, 1, 0, 0, [], Fingerprint.new 1 0⟩, by decide +kernel,
    by decide +kernel⟩
example : ∃ f, V2.fromReader Sample.env (Reader.ofBytes
    (Spec.v2Bytes 0 1 0x3FF0000000000000 1 0 [] [] [])) = .ok f ∧
      f.contains Sample.env (.slice [5]) = .panic :=
  ⟨⟨⟨2, .none, noReserved⟩, ⟨[]⟩, 0, 0, 1, oneBits, 1, 0, [], []⟩, by decide +kernel,
    by decide +kernel⟩

/-! ## C66 failing readers -/

/-- If the source reports an I/O error at any position up to its end, no reader returns a filter:
neither the complete nor the partial one, for either version. -/
theorem C66_reader_errors (env : Env) (bs : List U8) (k : ℕ) (hk : k ≤ bs.length) :
    (∀ f, Bloom.fromReader env ⟨bs, 0, some k⟩ ≠ .ok f) ∧
    (∀ f, Bloom.partialFromReader env ⟨bs, 0, some k⟩ ≠ .ok f) ∧
    (∀ f, V1.fromReader env ⟨bs, 0, some k⟩ ≠ .ok f) ∧
    (∀ f, V2.fromReader env ⟨bs, 0, some k⟩ ≠ .ok f) := by
  have hr : (⟨bs, 0, some k⟩ : Reader).Faulty := ⟨k, rfl, hk⟩
  refine ⟨fun f => Bloom.fromReaderAux_faulty hr, fun f => Bloom.fromReaderAux_faulty hr,
    fun f h => ?_, fun f h => ?_⟩
  · unfold V1.fromReader V1.fromReader' at h
    simp only [Res.bind_eq_ok] at h
    obtain ⟨_, hf, h⟩ := h
    split at h
    · simp at h
    · exact V1.fromReaderWithFlags_faulty (hr.keep .readFlags hf) h
  · unfold V2.fromReader V2.fromReader' at h
    simp only [Res.bind_eq_ok] at h
    obtain ⟨_, hf, h⟩ := h
    split at h
    · simp at h
    · exact V2.fromReaderWithFlags_faulty (hr.keep .readFlags hf) h

/-- Exactly: a source that fails after `k` bytes gives what a source ending there gives, except that
its end is reported as that failure, also where it would be the end of a complete filter.  So no byte
after the failing position matters, and errors found before it are reported as they are. -/
theorem C66_outcome (env : Env) (bs : List U8) (k : ℕ) (hk : k ≤ bs.length) :
    Bloom.fromReader env ⟨bs, 0, some k⟩
      = failing (Bloom.fromReader env (Reader.ofBytes (bs.take k))) ∧
    Bloom.partialFromReader env ⟨bs, 0, some k⟩
      = failing (Bloom.partialFromReader env (Reader.ofBytes (bs.take k))) ∧
    V1.fromReader env ⟨bs, 0, some k⟩
      = failing (V1.fromReader env (Reader.ofBytes (bs.take k))) ∧
    V2.fromReader env ⟨bs, 0, some k⟩
      = failing (V2.fromReader env (Reader.ofBytes (bs.take k))) :=
  ⟨LocalEnd.bloom env false bs k 0 hk, LocalEnd.bloom env true bs k 0 hk,
    LocalEnd.v1' env false bs k 0 hk, LocalEnd.v2' env false bs k 0 hk⟩

-- an error before the failing position is reported as it is
example : Bloom.fromReader Sample.env ⟨[7, 0, 0, 0, 0, 0, 0, 0, 0], 0, some 8⟩
    = .err (.invalidVersion 7) := by decide +kernel

-- the same file without the error is accepted
example : (∃ f, Bloom.fromReader Sample.env ⟨Spec.v1Bytes 0 0x3FF0000000000000 0 0 0 [] [], 0, none⟩
    = .ok f) ∧ Bloom.fromReader Sample.env
      ⟨Spec.v1Bytes 0 0x3FF0000000000000 0 0 0 [] [], 0, some 48⟩ = .err (.ioError .other) :=
  ⟨⟨.v1 ⟨Flags.new 1, [], 0, oneBits, 0, 0, 0, [], Fingerprint.new 0 0⟩, by decide +kernel⟩,
    by decide +kernel⟩

end Poppy
