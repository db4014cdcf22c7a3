import Verif.History
import Verif.Lemmas.V2
import Verif.Lemmas.Reload

/-! Operations of the v2 filter: what they preserve. -/

namespace Poppy
open Spec

namespace V2

/-- Same parameters, sizes and data. -/
structure Shape (f g : V2) : Prop where
  flags : g.flags = f.flags
  nb : g.nBuckets = f.nBuckets
  cb : g.cacheByteSize = f.cacheByteSize
  capacity : g.capacity = f.capacity
  fpp : g.fpp = f.fpp
  nHash : g.nHashBuck = f.nHashBuck
  data : g.data = f.data
  blen : g.buckets.length = f.buckets.length
  clen : g.indexCache.asSlice.length = f.indexCache.asSlice.length

theorem Shape.refl (f : V2) : Shape f f := ⟨rfl, rfl, rfl, rfl, rfl, rfl, rfl, rfl, rfl⟩

theorem Shape.trans {f g h : V2} (a : Shape f g) (b : Shape g h) : Shape f h :=
  ⟨b.1.trans a.1, b.2.trans a.2, b.3.trans a.3, b.4.trans a.4, b.5.trans a.5, b.6.trans a.6,
    b.7.trans a.7, b.8.trans a.8, b.9.trans a.9⟩

theorem Shape.wf {f g : V2} (a : Shape f g) (w : f.WF) : g.WF :=
  ⟨by rw [a.blen]; exact w.1, by rw [a.clen]; exact w.2⟩

theorem Shape.fits {env : Env} {f g : V2} (a : Shape f g) (w : Fits env f) : Fits env g :=
  ⟨by rw [a.fpp]; exact w.1, by rw [a.nb, a.blen]; exact w.2, by rw [a.cb, a.clen]; exact w.3,
    by rw [a.blen]; exact w.4, by rw [a.clen]; exact w.5⟩

theorem Fits.wf {env : Env} {f : V2} (w : Fits env f) : f.WF := by
  have := env.allocLimit_lt
  exact ⟨by have := w.mb; omega, by have := w.mc; omega⟩

/-- Only bits were added. -/
structure Ext (f g : V2) : Prop extends Shape f g where
  bits : ∀ b i, f.bit b i = true → g.bit b i = true
  cache : ∀ i, bitAt f.indexCache.asSlice i = true → bitAt g.indexCache.asSlice i = true

theorem Ext.refl (f : V2) : Ext f f := ⟨Shape.refl f, fun _ _ h => h, fun _ h => h⟩

theorem Ext.trans {f g h : V2} (a : Ext f g) (b : Ext g h) : Ext f h :=
  ⟨a.toShape.trans b.toShape, fun _ _ x => b.bits _ _ (a.bits _ _ x),
    fun _ x => b.cache _ (a.cache _ x)⟩

theorem insertLoop_mono (env : Env) (rc : Bool) : ∀ (fuel : ℕ) (b : Bucket) (it : IndexIterator)
    (new : Bool) (i : ℕ), bitAt b.asSlice i = true →
      bitAt (insertLoop env rc fuel b it new).1.asSlice i = true := by
  intro fuel
  induction fuel with
  | zero => intro b it new i h; exact h
  | succ fuel ih =>
    intro b it new i h
    have hset : ∀ (ib : U64), bitAt (b.setNthBit ib).1.asSlice i = true := by
      intro ib
      by_cases hin : ib.toNat < BUCKET_SIZE * 8
      · rw [BitSet.bitAt_setNthBit _ hin, h]; rfl
      · rw [BitSet.setNthBit_panic _ (by omega)]; exact h
    simp only [insertLoop]
    generalize it.next env.wy BIT_SET_MOD = nx
    obtain ⟨r, it'⟩ := nx
    cases r with
    | ok o =>
      cases o with
      | none => exact h
      | some ib =>
        simp only
        generalize (if rc = true then b.getNthBit ib else Res.ok true) = g
        cases g with
        | ok v =>
          cases v with
          | false => exact h
          | true =>
            simp only
            have hs := hset ib
            generalize b.setNthBit ib = s at hs
            obtain ⟨b', r'⟩ := s
            cases r' with
            | ok old =>
              simp only
              split
              · exact hs
              · exact ih _ _ _ _ hs
            | err e => exact hs
            | panic => exact hs
        | err e => exact h
        | panic => exact h
    | err e => exact h
    | panic => exact h

theorem bit_set {f : V2} {k : ℕ} {b : Bucket} (j i : ℕ) :
    ({ f with buckets := f.buckets.set k b } : V2).bit j i
      = if j = k ∧ k < f.buckets.length then bitAt b.asSlice i else f.bit j i := by
  unfold bit
  simp only [List.getD_eq_getElem?_getD, List.getElem?_set]
  by_cases h : k = j
  · subst h
    by_cases hl : k < f.buckets.length
    · simp [hl]
    · simp [hl]
  · have : ¬ j = k := fun e => h e.symm
    simp [h, this]

theorem insertFinish_ext (env : Env) (f : V2) (h : U64) (new : Bool) :
    Ext f (insertFinish env f h new).1 := by
  have hcount : ∀ c, Ext f { f with count := c } := fun c =>
    ⟨⟨rfl, rfl, rfl, rfl, rfl, rfl, rfl, rfl, rfl⟩, fun _ _ h => h, fun _ h => h⟩
  unfold insertFinish
  cases (if new = true then addU64 env.debug f.count 1 else Res.ok f.count) with
  | ok c =>
    simp only
    split
    · have hs : ∀ ib, Ext f { f with count := c, indexCache := (f.indexCache.setNthBit ib).1 } := by
        intro ib
        refine ⟨⟨rfl, rfl, rfl, rfl, rfl, rfl, rfl, rfl, VecBitSet.length_setNthBit _ _⟩,
          fun _ _ h => h, fun i hi => ?_⟩
        by_cases hin : ib.toNat < f.indexCache.asSlice.length * 8
        · simp only; rw [VecBitSet.bitAt_setNthBit _ hin, hi]; rfl
        · simp only; rw [VecBitSet.setNthBit_panic _ (by omega)]; exact hi
      have := hs (h &&& (f.indexCache.bitLen - 1))
      generalize f.indexCache.setNthBit (h &&& (f.indexCache.bitLen - 1)) = s at this
      obtain ⟨ic, r⟩ := s
      cases r <;> exact this
    · exact hcount c
  | err e => exact Ext.refl f
  | panic => exact Ext.refl f

/-- Insertion never removes a bit, whatever the iterator and the outcome. -/
theorem insertIter_ext (env : Env) (f : V2) (it : IndexIterator) :
    Ext f (f.insertIter env it).1 := by
  unfold insertIter
  split
  · exact Ext.refl f
  simp only
  split
  · exact Ext.refl f
  cases f.ibucket (it.setCount f.nHashBuck).bucketHash with
  | ok ib =>
    simp only
    cases hb : f.buckets[ib.toNat]? with
    | none => exact Ext.refl f
    | some bucket =>
      simp only
      have hlt : ib.toNat < f.buckets.length := (List.getElem?_eq_some_iff.1 hb).1
      have hm := insertLoop_mono env (f.count == f.capacity)
        ((it.setCount f.nHashBuck).count.toNat + 1) bucket (it.setCount f.nHashBuck) false
      generalize insertLoop env (f.count == f.capacity)
        ((it.setCount f.nHashBuck).count.toNat + 1) bucket (it.setCount f.nHashBuck) false = s at hm
      obtain ⟨b', r⟩ := s
      have hset : Ext f { f with buckets := f.buckets.set ib.toNat b' } := by
        refine ⟨⟨rfl, rfl, rfl, rfl, rfl, rfl, rfl, by simp, rfl⟩, fun j i hi => ?_, fun _ h => h⟩
        rw [bit_set]
        split
        · rename_i hj
          apply hm
          rw [hj.1] at hi
          simpa [bit, List.getD_eq_getElem?_getD, hb] using hi
        · exact hi
      cases r with
      | ok new => exact hset.trans (insertFinish_ext env _ _ _)
      | err e => exact hset
      | panic => exact hset
  | err e => exact Ext.refl f
  | panic => exact Ext.refl f

theorem insert_ext (env : Env) (f : V2) (k : Key) : Ext f (f.insert env k).1 :=
  insertIter_ext env f _

/-! ### Merging -/

theorem feq_refl_of_ne_nan {x : FVal} (h : x ≠ .nan) : FVal.feq x x = true := by
  cases x <;> simp_all [FVal.feq, FVal.le]

theorem hasSameParams_iff (s o : V2) : s.hasSameParams o = true ↔
    s.flags = o.flags ∧ s.capacity = o.capacity ∧
    s.indexCache.asSlice.length = o.indexCache.asSlice.length ∧
    FVal.feq (FVal.ofBits s.fpp) (FVal.ofBits o.fpp) = true ∧ s.nHashBuck = o.nHashBuck ∧
    s.buckets.length = o.buckets.length := by
  unfold hasSameParams
  simp only [Bool.and_eq_true, decide_eq_true_eq, beq_iff_eq, VecBitSet.byteLen, VecBitSet.asSlice]
  tauto

/-- Bits of two filters combined. -/
def orBits (s o : V2) : V2 :=
  { s with
    indexCache := ⟨List.zipWith (· ||| ·) s.indexCache.asSlice o.indexCache.asSlice⟩
    buckets := List.zipWith BitSet.union s.buckets o.buckets }

/-- Common bits of two filters. -/
def andBits (s o : V2) : V2 :=
  { s with
    indexCache := ⟨List.zipWith (· &&& ·) s.indexCache.asSlice o.indexCache.asSlice⟩
    buckets := List.zipWith BitSet.intersection s.buckets o.buckets }

theorem updateCount_state (env : Env) (f : V2) :
    ∃ c, (f.updateCount env).1 = { f with count := c } := by
  unfold updateCount
  cases sumU64 env.debug (f.buckets.map fun b => bucketEstimate env f.nHashBuck b.countOnes) with
  | ok c => exact ⟨c, rfl⟩
  | err e => exact ⟨f.count, rfl⟩
  | panic => exact ⟨f.count, rfl⟩

theorem unionMerge_eq (env : Env) (s o : V2) :
    s.unionMerge env o = if s.hasSameParams o then (orBits s o).updateCount env
      else (s, .err (.merge "cannot make union of bloom filters with different parameters")) := by
  unfold unionMerge
  cases h : s.hasSameParams o with
  | false => simp
  | true =>
    have hl := ((hasSameParams_iff s o).1 h).2.2.1
    simp only [Bool.not_true, Bool.false_eq_true, if_false, if_true]
    have : s.indexCache.union o.indexCache
        = (⟨List.zipWith (· ||| ·) s.indexCache.asSlice o.indexCache.asSlice⟩, .ok ()) := by
      unfold VecBitSet.union
      exact if_pos hl
    rw [this]
    rfl

theorem intersectionMerge_eq (env : Env) (s o : V2) :
    s.intersectionMerge env o = if s.hasSameParams o then (andBits s o).updateCount env
      else (s, .err (.merge
        "cannot make intersection of bloom filters with different parameters")) := by
  unfold intersectionMerge
  cases h : s.hasSameParams o with
  | false => simp
  | true =>
    have hl := ((hasSameParams_iff s o).1 h).2.2.1
    simp only [Bool.not_true, Bool.false_eq_true, if_false, if_true]
    have : s.indexCache.intersection o.indexCache
        = (⟨List.zipWith (· &&& ·) s.indexCache.asSlice o.indexCache.asSlice⟩, .ok ()) := by
      unfold VecBitSet.intersection
      exact if_pos hl
    rw [this]
    rfl

theorem orBits_shape {s o : V2} (h : s.hasSameParams o = true) : Shape s (orBits s o) := by
  obtain ⟨_, _, hc, _, _, hb⟩ := (hasSameParams_iff s o).1 h
  refine ⟨rfl, rfl, rfl, rfl, rfl, rfl, rfl, ?_, ?_⟩
  · simp [orBits, hb]
  · show (List.zipWith _ _ _).length = _
    rw [List.length_zipWith, ← hc, Nat.min_self]

theorem andBits_shape {s o : V2} (h : s.hasSameParams o = true) : Shape s (andBits s o) := by
  obtain ⟨_, _, hc, _, _, hb⟩ := (hasSameParams_iff s o).1 h
  refine ⟨rfl, rfl, rfl, rfl, rfl, rfl, rfl, ?_, ?_⟩
  · simp [andBits, hb]
  · show (List.zipWith _ _ _).length = _
    rw [List.length_zipWith, ← hc, Nat.min_self]

theorem bit_orBits {s o : V2} (h : s.buckets.length = o.buckets.length) (b i : ℕ) :
    (orBits s o).bit b i = (s.bit b i || o.bit b i) := by
  unfold bit orBits
  simp only [List.getD_eq_getElem?_getD, List.getElem?_zipWith]
  by_cases hb : b < s.buckets.length
  · have hb' : b < o.buckets.length := by omega
    simp [hb, hb', BitSet.bitAt_union]
  · have hb' : ¬ b < o.buckets.length := by omega
    simp [hb, hb', BitSet.bitAt_new]

theorem bit_andBits {s o : V2} (h : s.buckets.length = o.buckets.length) (b i : ℕ) :
    (andBits s o).bit b i = (s.bit b i && o.bit b i) := by
  unfold bit andBits
  simp only [List.getD_eq_getElem?_getD, List.getElem?_zipWith]
  by_cases hb : b < s.buckets.length
  · have hb' : b < o.buckets.length := by omega
    simp [hb, hb', BitSet.bitAt_intersection]
  · have hb' : ¬ b < o.buckets.length := by omega
    simp [hb, hb', BitSet.bitAt_new]

theorem cache_orBits {s o : V2}
    (h : s.indexCache.asSlice.length = o.indexCache.asSlice.length) (i : ℕ) :
    bitAt (orBits s o).indexCache.asSlice i
      = (bitAt s.indexCache.asSlice i || bitAt o.indexCache.asSlice i) :=
  bitAt_zipWith_or h i

theorem cache_andBits {s o : V2}
    (h : s.indexCache.asSlice.length = o.indexCache.asSlice.length) (i : ℕ) :
    bitAt (andBits s o).indexCache.asSlice i
      = (bitAt s.indexCache.asSlice i && bitAt o.indexCache.asSlice i) :=
  bitAt_zipWith_and h i

theorem unionMerge_ext (env : Env) (s o : V2) : Ext s (s.unionMerge env o).1 := by
  rw [unionMerge_eq]
  split
  · rename_i h
    obtain ⟨_, _, hc, _, _, hb⟩ := (hasSameParams_iff s o).1 h
    obtain ⟨c, hu⟩ := updateCount_state env (orBits s o)
    rw [hu]
    have := orBits_shape h
    refine ⟨⟨this.1, this.2, this.3, this.4, this.5, this.6, this.7, this.8, this.9⟩, ?_, ?_⟩
    · intro b i hi
      show (orBits s o).bit b i = true
      rw [bit_orBits hb, hi]; rfl
    · intro i hi
      show bitAt (orBits s o).indexCache.asSlice i = true
      rw [cache_orBits hc, hi]; rfl
  · exact Ext.refl s

theorem intersectionMerge_shape (env : Env) (s o : V2) : Shape s (s.intersectionMerge env o).1 := by
  rw [intersectionMerge_eq]
  split
  · rename_i h
    obtain ⟨c, hu⟩ := updateCount_state env (andBits s o)
    rw [hu]
    have := andBits_shape h
    exact ⟨this.1, this.2, this.3, this.4, this.5, this.6, this.7, this.8, this.9⟩
  · exact Shape.refl s

theorem clear_shape (f : V2) : Shape f f.clear := by
  refine ⟨rfl, rfl, rfl, rfl, rfl, rfl, rfl, ?_, rfl⟩
  simp [clear]

theorem bit_clear (f : V2) (b i : ℕ) : f.clear.bit b i = false := by
  unfold bit clear
  simp only [List.getD_eq_getElem?_getD, List.getElem?_map]
  by_cases hb : b < f.buckets.length
  · simp [hb, BitSet.clear_eq, BitSet.bitAt_new]
  · simp [hb, BitSet.bitAt_new]

/-! ### Reachable filters -/

theorem make_ok {env : Env} {cap : U64} {fpp : F64} {opt : OptLevel} {f : V2}
    (h : make env cap fpp opt = .ok f) :
    fppInRange fpp = true ∧ ∃ nb nh cbs, sizes env cap fpp opt = .ok (nb, nh, cbs) ∧
      (byteCapFromBitCap cbs).toNat ≤ env.allocLimit ∧ nb.toNat * 4096 ≤ env.allocLimit ∧
      f = { flags := (Flags.new 2#8).withOpt opt
            indexCache := VecBitSet.withBitCapacity cbs
            nBuckets := nb
            cacheByteSize := byteCapFromBitCap cbs
            buckets := List.replicate nb.toNat (BitSet.new BUCKET_SIZE)
            capacity := cap
            fpp := fpp
            nHashBuck := nh
            count := 0
            data := [] } := by
  unfold make at h
  split at h
  · simp at h
  rename_i hf
  simp only [Res.bind_eq_ok] at h
  obtain ⟨⟨nb, nh, cbs⟩, hs, _, ha, _, hb, h⟩ := h
  have ha' := Env.alloc_ok ha
  have hb' := Env.alloc_ok hb
  rw [Nat.mul_one] at ha'
  refine ⟨by simpa using hf, nb, nh, cbs, hs, ha', hb', ?_⟩
  simp only [Res.ok.injEq] at h
  rw [← h]
  have : BitVec.ofNat 64 (VecBitSet.withBitCapacity cbs).byteLen = byteCapFromBitCap cbs := by
    simp [VecBitSet.withBitCapacity, VecBitSet.byteLen]
  rw [this]

theorem make_fits {env : Env} {cap : U64} {fpp : F64} {opt : OptLevel} {f : V2}
    (h : make env cap fpp opt = .ok f) : Fits env f := by
  obtain ⟨hf, nb, nh, cbs, _, ha, hb, rfl⟩ := make_ok h
  refine ⟨hf, by simp, ?_, by simpa using hb, ?_⟩
  · simp [VecBitSet.withBitCapacity, VecBitSet.asSlice]
  · simpa [VecBitSet.withBitCapacity, VecBitSet.asSlice] using ha

theorem fromReader_ok_inv {env : Env} {bs : List U8} {f : V2}
    (h : fromReader env (Reader.ofBytes bs) = .ok f) :
    f.flags.version = 2#8 ∧ f.flags.reserved.length = 6 ∧ Fits env f ∧
      ∃ c, f.cacheByteSize = byteCapFromBitCap c ∧
        bs = (2#8 :: f.flags.opt.toU8 :: f.flags.reserved) ++ f.body c := by
  unfold fromReader fromReader' at h
  rw [ofBytes_eq] at h
  simp only [Res.bind_eq_ok] at h
  obtain ⟨⟨flags, r⟩, hr, h⟩ := h
  obtain ⟨hl, rest, hb, rfl⟩ := readFlags_inv hr
  simp only at h
  split at h
  · simp at h
  rename_i hv
  simp only [ne_eq, Decidable.not_not] at hv
  obtain ⟨hfl, hfit, c, hc, hrest⟩ := (V2.fromReaderWithFlags_ok _ _ _ _ _).1 h
  refine ⟨by rw [hfl]; exact hv, by rw [hfl]; exact hl, hfit, c, hc, ?_⟩
  rw [hb, hrest, hfl, hv]

theorem Reach.inv {env : Env} {f : V2} (h : Reach env f) :
    Fits env f ∧ f.flags.version = 2#8 ∧ f.flags.reserved.length = 6 := by
  have step : ∀ {f g : V2}, Shape f g →
      (Fits env f ∧ f.flags.version = 2#8 ∧ f.flags.reserved.length = 6) →
      (Fits env g ∧ g.flags.version = 2#8 ∧ g.flags.reserved.length = 6) := by
    intro f g s h
    exact ⟨s.fits h.1, by rw [s.flags]; exact h.2.1, by rw [s.flags]; exact h.2.2⟩
  induction h with
  | make h =>
    refine ⟨make_fits h, ?_⟩
    obtain ⟨_, nb, nh, cbs, _, _, _, rfl⟩ := make_ok h
    exact ⟨rfl, rfl⟩
  | load h =>
    have := fromReader_ok_inv h
    exact ⟨this.2.2.1, this.1, this.2.1⟩
  | insertIter it _ ih => exact step (insertIter_ext env _ it).toShape ih
  | union o _ ih => exact step (unionMerge_ext env _ o).toShape ih
  | inter o _ ih => exact step (intersectionMerge_shape env _ o) ih
  | clear _ ih => exact step (clear_shape _) ih
  | setData d _ ih => exact ⟨⟨ih.1.1, ih.1.2, ih.1.3, ih.1.4, ih.1.5⟩, ih.2⟩

theorem Reach.fits {env : Env} {f : V2} (h : Reach env f) : Fits env f := h.inv.1
theorem Reach.wf {env : Env} {f : V2} (h : Reach env f) : f.WF := h.inv.1.wf

theorem file_eq (f : V2) : f.file = f.ser := by
  unfold file; rw [write_none]; simp

theorem Fits.canon_eq {f : V2} (h : f.flags.reserved = List.replicate 6 0#8) : f.canon = f := by
  obtain ⟨⟨v, o, r⟩, _, _, _, _, _, _, _, _, _⟩ := f
  simp only at h
  subst h
  rfl

theorem Built.inv {env : Env} (hs : env.Small) {f : V2} (h : Built env f) :
    Fits env f ∧ f.flags.version = 2#8 ∧ f.flags.reserved = List.replicate 6 0#8 := by
  have step : ∀ {f g : V2}, Shape f g →
      (Fits env f ∧ f.flags.version = 2#8 ∧ f.flags.reserved = List.replicate 6 0#8) →
      (Fits env g ∧ g.flags.version = 2#8 ∧ g.flags.reserved = List.replicate 6 0#8) := by
    intro f g s h
    exact ⟨s.fits h.1, by rw [s.flags]; exact h.2.1, by rw [s.flags]; exact h.2.2⟩
  induction h with
  | make h =>
    refine ⟨make_fits h, ?_⟩
    obtain ⟨_, nb, nh, cbs, _, _, _, rfl⟩ := make_ok h
    exact ⟨rfl, rfl⟩
  | insertIter it _ ih => exact step (insertIter_ext env _ it).toShape ih
  | union o _ ih => exact step (unionMerge_ext env _ o).toShape ih
  | inter o _ ih => exact step (intersectionMerge_shape env _ o) ih
  | clear _ ih => exact step (clear_shape _) ih
  | setData d _ ih => exact ⟨⟨ih.1.1, ih.1.2, ih.1.3, ih.1.4, ih.1.5⟩, ih.2⟩
  | reload _ hr ih =>
    rw [file_eq, fromReader_ser ih.1 hs ih.2.1, Fits.canon_eq ih.2.2] at hr
    cases hr
    exact ih

theorem Reach.reload {env : Env} {f : V2} (h : Reach env f) (hs : env.Small) :
    fromReader env (Reader.ofBytes f.file) = .ok f.canon := by
  rw [file_eq]; exact fromReader_ser h.inv.1 hs h.inv.2.1

end V2

end Poppy
