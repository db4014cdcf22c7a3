import Verif.Lemmas.Load
import Verif.Samples

/-! # Loading arbitrary bytes (C79) -/

namespace Poppy

open Spec

/-- For every byte string, `from_reader` of v2 gives what `Spec.load2` says: the same error, a panic,
or a filter with that content. -/
theorem C79_v2 {env : Env} (hs : env.Small) (bs : List U8) :
    (V2.fromReader env (Reader.ofBytes bs)).map V2.content = Load.res (load2 env.allocLimit bs) := by
  unfold V2.fromReader V2.fromReader' load2 header
  rw [show Reader.ofBytes bs = rdAt bs 0 from rfl, readFlags_at]
  by_cases h : bs.length < 8
  · rw [if_pos h, if_pos h]; rfl
  rw [if_neg h, if_neg h]
  rcases tryFrom_cases (bs.getD 1 0) with ⟨h1, h2⟩ | ⟨h1, l, h2, h3⟩
  · rw [h2, if_pos h1]; rfl
  · rw [h2, if_neg h1]
    simp only [Res.bind_ok]
    by_cases hv : bs.getD 0 0 = 2#8
    · rw [if_neg (not_not.2 hv), if_pos hv]
      exact V2.load_body hs (by omega) h3 _
    · rw [if_pos hv, if_neg hv]; rfl

/-- The same for v1. -/
theorem C79_v1 {env : Env} (hs : env.Small) (bs : List U8) :
    (V1.fromReader env (Reader.ofBytes bs)).map V1.content = Load.res (load1 env.allocLimit bs) := by
  unfold V1.fromReader V1.fromReader' load1 header
  rw [show Reader.ofBytes bs = rdAt bs 0 from rfl, readFlags_at]
  by_cases h : bs.length < 8
  · rw [if_pos h, if_pos h]; rfl
  rw [if_neg h, if_neg h]
  rcases tryFrom_cases (bs.getD 1 0) with ⟨h1, h2⟩ | ⟨h1, l, h2, h3⟩
  · rw [h2, if_pos h1]; rfl
  · rw [h2, if_neg h1]
    simp only [Res.bind_ok]
    by_cases hv : bs.getD 0 0 = 1#8
    · rw [if_neg (not_not.2 hv), if_pos hv]
      exact V1.load_body hs (by omega) h3 _
    · rw [if_pos hv, if_neg hv]; rfl

/-- The same for the reader of both versions. -/
theorem C79_bloom {env : Env} (hs : env.Small) (bs : List U8) :
    (Bloom.fromReader env (Reader.ofBytes bs)).map Bloom.content
      = Load.res (load env.allocLimit bs) := by
  unfold Bloom.fromReader Bloom.fromReaderAux load header
  rw [show Reader.ofBytes bs = rdAt bs 0 from rfl, readFlags_at]
  by_cases h : bs.length < 8
  · rw [if_pos h, if_pos h]; rfl
  rw [if_neg h, if_neg h]
  rcases tryFrom_cases (bs.getD 1 0) with ⟨h1, h2⟩ | ⟨h1, l, h2, h3⟩
  · rw [h2, if_pos h1]; rfl
  · rw [h2, if_neg h1]
    simp only
    by_cases hv : bs.getD 0 0 = 1#8
    · rw [if_pos hv, if_pos hv]
      have := V1.load_body hs (bs := bs) (by omega) h3 (bs.getD 0 0)
      revert this
      cases V1.fromReaderWithFlags env ⟨bs.getD 0 0, l, slice bs 2 6⟩ false (rdAt bs 8) <;>
        cases body1 env.allocLimit bs <;> simp_all [Res.map, Load.res, Load.map, Bloom.content]
    · rw [if_neg hv, if_neg hv]
      by_cases hv : bs.getD 0 0 = 2#8
      · rw [if_pos hv, if_pos hv]
        have := V2.load_body hs (bs := bs) (by omega) h3 (bs.getD 0 0)
        revert this
        cases V2.fromReaderWithFlags env ⟨bs.getD 0 0, l, slice bs 2 6⟩ false (rdAt bs 8) <;>
          cases body2 env.allocLimit bs <;> simp_all [Res.map, Load.res, Load.map, Bloom.content]
      · rw [if_neg hv, if_neg hv]; rfl

/-- Nothing is left open: a filter is determined by its version and its content. -/
theorem C79_content {env : Env} :
    (∀ f g : V2, V2.Reach env f → V2.Reach env g → f.content = g.content → f = g) ∧
    (∀ f g : V1, V1.Reach env f → V1.Reach env g → f.content = g.content → f = g) := by
  constructor
  · intro f g hf hg h
    obtain ⟨i1, v1, _⟩ := hf.inv
    obtain ⟨i2, v2, _⟩ := hg.inv
    simp only [V2.content, File2.mk.injEq] at h
    obtain ⟨h1, h2, h3, h4, h5, h6, h7, h8, h9⟩ := h
    have hb : f.buckets = g.buckets :=
      List.map_injective_iff.2 (fun _ _ => BitSet.ext_asSlice) h8
    have hn : f.nBuckets = g.nBuckets := BitVec.eq_of_toNat_eq (by rw [i1.nb, i2.nb, hb])
    have hc : f.cacheByteSize = g.cacheByteSize :=
      BitVec.eq_of_toNat_eq (by rw [i1.cb, i2.cb, h7])
    have hfl := flags_eq (v1.trans v2.symm) h1 h2
    have hi : f.indexCache = g.indexCache := by
      cases hx : f.indexCache; cases hy : g.indexCache
      rw [hx, hy] at h7
      exact congrArg _ h7
    cases f; cases g
    simp only at *
    rw [hfl, hi, hn, hc, BitVec.eq_of_toNat_eq h3, BitVec.eq_of_toNat_eq h4,
      BitVec.eq_of_toNat_eq h5, BitVec.eq_of_toNat_eq h6, hb, h9]
  · intro f g hf hg h
    obtain ⟨i1, v1, _⟩ := hf.inv
    obtain ⟨i2, v2, _⟩ := hg.inv
    simp only [V1.content, File1.mk.injEq] at h
    obtain ⟨h1, h2, h3, h4, h5, h6, h7, h8, h9⟩ := h
    have hb : f.bitset = g.bitset :=
      List.map_injective_iff.2 (fun _ _ => BitVec.eq_of_toNat_eq) h8
    have hfl := flags_eq (v1.trans v2.symm) h1 h2
    have e5 := BitVec.eq_of_toNat_eq h5
    have e6 := BitVec.eq_of_toNat_eq h6
    have hfp : f.fingerprint = g.fingerprint := by rw [i1.fp, i2.fp, e5, e6]
    cases f; cases g
    simp only at *
    rw [hfl, hb, BitVec.eq_of_toNat_eq h3, BitVec.eq_of_toNat_eq h4, e5, e6,
      BitVec.eq_of_toNat_eq h7, h9, hfp]

/-- Two reachable filters whose contents differ only in the data, and so differ. -/
example : V2.Reach Sample.env Sample.f2 ∧ V2.Reach Sample.env { Sample.f2 with data := [1] } ∧
    Sample.f2.content ≠ V2.content { Sample.f2 with data := [1] } :=
  ⟨.make Sample.f2_make, .setData [1] (.make Sample.f2_make),
    fun h => absurd (congrArg File2.data h) (by decide)⟩

/-- Exactly when `from_reader` panics on a byte string. -/
theorem C79_panics {env : Env} (hs : env.Small) (bs : List U8) :
    Bloom.fromReader env (Reader.ofBytes bs) = .panic ↔
      8 ≤ bs.length ∧ (bs.getD 1 0).toNat ≤ 3 ∧
      ((bs.getD 0 0 = 1#8 ∧ 48 ≤ bs.length ∧ env.allocLimit < (num bs 32 + 63) / 64 * 8) ∨
       (bs.getD 0 0 = 2#8 ∧ 48 ≤ bs.length ∧ 2 ^ 52 ≤ num bs 16 ∧ num bs 16 ≤ 1023 * 2 ^ 52 ∧
        (env.allocLimit < (num bs 40 + 7) / 8 ∨
          56 + (num bs 40 + 7) / 8 ≤ bs.length ∧
            env.allocLimit < num bs (48 + (num bs 40 + 7) / 8) * 4096))) := by
  have key : Bloom.fromReader env (Reader.ofBytes bs) = .panic ↔
      load env.allocLimit bs = .memory := by
    have := C79_bloom hs bs
    have hno := load_ne_overflow env.allocLimit bs
    cases h1 : Bloom.fromReader env (Reader.ofBytes bs) <;> cases h2 : load env.allocLimit bs <;>
      rw [h1, h2] at this <;> simp_all [Res.map, Load.res]
  rw [key]
  have m1 : (body1 env.allocLimit bs).map (Sum.inl (β := File2)) = .memory ↔
      body1 env.allocLimit bs = .memory := by
    cases body1 env.allocLimit bs <;> simp [Load.map]
  have m2 : (body2 env.allocLimit bs).map (Sum.inr (α := File1)) = .memory ↔
      body2 env.allocLimit bs = .memory := by
    cases body2 env.allocLimit bs <;> simp [Load.map]
  unfold load header
  by_cases c1 : bs.length < 8
  · simp [c1]
  by_cases c2 : 3 < (bs.getD 1 0).toNat
  · rw [if_neg c1, if_pos c2]
    exact ⟨fun h => (by cases h), fun h => absurd h.2.1 (by omega)⟩
  rw [if_neg c1, if_neg c2]
  have c1' : 8 ≤ bs.length := by omega
  have c2' : (bs.getD 1 0).toNat ≤ 3 := by omega
  by_cases v1 : bs.getD 0 0 = 1#8
  · have v2 : ¬ (1#8 : U8) = 2#8 := by decide
    simp only [c1', c2', v1, v2, if_true, m1, true_and, false_and, or_false]
    unfold body1
    simp only
    split_ifs <;> simp <;> omega
  · by_cases v2 : bs.getD 0 0 = 2#8
    · have v3 : ¬ (2#8 : U8) = 1#8 := by decide
      simp only [c1', c2', v2, v3, if_true, if_false, m2, true_and, false_and, false_or]
      unfold body2
      simp only
      split_ifs <;> simp <;> omega
    · simp only [v1, v2, if_false, false_and, or_false, and_false]
      simp

/-- Files that meet each outcome: too short, no such level, no such version, wrong probability. -/
example : load 1000 [] = .eof ∧ load 1000 [2, 4, 0, 0, 0, 0, 0, 0] = .level 4 ∧
    load 1000 [3, 0, 0, 0, 0, 0, 0, 0] = .version 3 ∧
    load 1000 ([2, 0, 0, 0, 0, 0, 0, 0] ++ List.replicate 16 0) = .fpp 0 := by decide

/-- A v1 file of 65 bits is two words; with one word it is too short, with 8 bytes of memory it
panics. -/
example :
    load 16 (v1Bytes 258 5 1 65 2 [3, 4] [9])
      = .ok (.inl ⟨0, [0, 0, 0, 0, 0, 0], 258, 5, 1, 65, 2, [3, 4], [9]⟩) ∧
    load 16 (v1Bytes 258 5 1 65 2 [3] []) = .eof ∧
    load 8 (v1Bytes 258 5 1 65 2 [3, 4] [9]) = .memory := by decide

/-- A v2 file with 9 bits of cache and no bucket, and one asking for 2^40 buckets. -/
example :
    load 4096 ([2, 1, 0, 0, 0, 0, 0, 7] ++ le 8 5 ++ le 8 (1023 * 2 ^ 52) ++ le 8 6 ++ le 8 1 ++
        le 8 9 ++ [8, 9] ++ le 8 0 ++ [1, 2])
      = .ok (.inr ⟨1, [0, 0, 0, 0, 0, 7], 5, 1023 * 2 ^ 52, 6, 1, [8, 9], [], [1, 2]⟩) ∧
    load 4096 ([2, 1, 0, 0, 0, 0, 0, 7] ++ le 8 5 ++ le 8 (1023 * 2 ^ 52) ++ le 8 6 ++ le 8 1 ++
        le 8 0 ++ le 8 (2 ^ 40)) = .memory := by decide

/-- With 2^60 buckets `from_reader` panics. -/
example : Bloom.fromReader Sample.env (Reader.ofBytes ([2, 1, 0, 0, 0, 0, 0, 7] ++ le 8 5 ++
    le 8 (1023 * 2 ^ 52) ++ le 8 6 ++ le 8 1 ++ le 8 0 ++ le 8 (2 ^ 60))) = .panic :=
  (C79_panics Sample.env_small _).2 (by decide)

end Poppy
