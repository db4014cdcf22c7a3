import Verif.History
import Verif.Lemmas.V1
import Verif.Lemmas.Reload

/-! Operations of the v1 filter: what they preserve. -/

namespace Poppy
open Spec

namespace V1

/-- Same parameters, sizes and data. -/
structure Shape (f g : V1) : Prop where
  flags : g.flags = f.flags
  capacity : g.capacity = f.capacity
  fpp : g.fpp = f.fpp
  nHash : g.nHash = f.nHash
  bitSize : g.bitSize = f.bitSize
  data : g.data = f.data
  fp : g.fingerprint = f.fingerprint
  len : g.bitset.length = f.bitset.length

theorem Shape.refl (f : V1) : Shape f f := ⟨rfl, rfl, rfl, rfl, rfl, rfl, rfl, rfl⟩

theorem Shape.trans {f g h : V1} (a : Shape f g) (b : Shape g h) : Shape f h :=
  ⟨b.1.trans a.1, b.2.trans a.2, b.3.trans a.3, b.4.trans a.4, b.5.trans a.5, b.6.trans a.6,
    b.7.trans a.7, b.8.trans a.8⟩

theorem Shape.wf {f g : V1} (a : Shape f g) (w : f.WF) : g.WF :=
  ⟨by rw [a.fp, a.nHash]; exact w.1, by rw [a.fp, a.bitSize]; exact w.2,
    by rw [a.bitSize, a.len]; exact w.3, by rw [a.len]; exact w.4⟩

theorem Shape.fits {env : Env} {f g : V1} (a : Shape f g) (w : Fits env f) : Fits env g :=
  ⟨by rw [a.bitSize, a.len]; exact w.1, by rw [a.len]; exact w.2,
    by rw [a.fp, a.nHash, a.bitSize]; exact w.3⟩

theorem Fits.wf {env : Env} {f : V1} (w : Fits env f) (hs : env.Small) : f.WF := by
  have := env.allocLimit_lt
  have hmw := w.mw
  unfold Env.Small at hs
  have h := u64SizeFor_small (n := f.bitSize) (by rw [w.nw]; omega)
  have h2 := h.2
  rw [w.nw] at h2
  refine ⟨by rw [w.fp]; rfl, by rw [w.fp]; rfl, by omega, by omega⟩

/-- Only bits were added. -/
structure Ext (f g : V1) : Prop extends Shape f g where
  bits : ∀ i, bitAt f.bitset i = true → bitAt g.bitset i = true

theorem Ext.refl (f : V1) : Ext f f := ⟨Shape.refl f, fun _ h => h⟩

theorem Ext.trans {f g h : V1} (a : Ext f g) (b : Ext g h) : Ext f h :=
  ⟨a.toShape.trans b.toShape, fun _ x => b.bits _ (a.bits _ x)⟩

theorem set_or_ext (f : V1) (k : ℕ) (e bit : U64) (he : f.bitset[k]? = some e) :
    Ext f { f with bitset := f.bitset.set k (e ||| bit) } := by
  refine ⟨⟨rfl, rfl, rfl, rfl, rfl, rfl, rfl, by simp⟩, fun i hi => ?_⟩
  unfold bitAt at hi ⊢
  simp only [List.getD_eq_getElem?_getD, List.getElem?_set] at hi ⊢
  have hlt := (List.getElem?_eq_some_iff.1 he).1
  by_cases h : k = i / 64
  · subst h
    rw [he] at hi
    simp only [Option.getD_some] at hi
    simp only [if_true, hlt, Option.getD_some, BitVec.getLsbD_or, hi, Bool.true_or]
  · simpa only [if_neg h] using hi

theorem insertLoop_ext (env : Env) : ∀ (fuel : ℕ) (f : V1) (fp : Fingerprint) (new : Bool),
    Ext f (insertLoop env fuel f fp new).1 := by
  intro fuel
  induction fuel with
  | zero => intro f fp new; exact Ext.refl f
  | succ fuel ih =>
    intro f fp new
    simp only [insertLoop]
    generalize fp.next = nx
    obtain ⟨r, fp'⟩ := nx
    cases r with
    | ok o =>
      cases o with
      | none => exact Ext.refl f
      | some ib =>
        simp only
        cases he : f.bitset[(ib / 64#64).toNat]? with
        | none => exact Ext.refl f
        | some e =>
          simp only
          split
          · exact Ext.refl f
          · have hs := set_or_ext f _ e (wordMask ib) he
            split
            · exact hs
            · exact hs.trans (ih _ _ _)
    | err e => exact Ext.refl f
    | panic => exact Ext.refl f

theorem ext_count {f g : V1} (h : Ext f g) (c : U64) : Ext f { g with count := c } :=
  ⟨⟨h.flags, h.capacity, h.fpp, h.nHash, h.bitSize, h.data, h.fp, h.len⟩, h.bits⟩

theorem insertBytes_ext (env : Env) (f : V1) (k : List U8) : Ext f (f.insertBytes env k).1 := by
  unfold insertBytes
  split
  · exact Ext.refl f
  simp only
  have h := insertLoop_ext env ((f.fingerprint.fingerprint k).count.toNat + 1) f
    (f.fingerprint.fingerprint k) false
  generalize insertLoop env ((f.fingerprint.fingerprint k).count.toNat + 1) f
    (f.fingerprint.fingerprint k) false = p at h
  obtain ⟨g, r⟩ := p
  cases r with
  | ok new =>
    simp only
    split
    · cases addU64 env.debug g.count 1 with
      | ok c => exact ext_count h c
      | err e => exact h
      | panic => exact h
    · exact h
  | err e => exact h
  | panic => exact h

/-! ### Merging -/

theorem hasSameParams_iff (s o : V1) : s.hasSameParams o = true ↔
    s.flags = o.flags ∧ s.capacity = o.capacity ∧
    FVal.feq (FVal.ofBits s.fpp) (FVal.ofBits o.fpp) = true ∧ s.nHash = o.nHash ∧
    s.bitSize = o.bitSize ∧ s.bitset.length = o.bitset.length := by
  unfold hasSameParams
  simp only [Bool.and_eq_true, decide_eq_true_eq, beq_iff_eq]
  tauto

/-- Bits of two filters combined. -/
def orBits (s o : V1) : V1 := { s with bitset := List.zipWith (· ||| ·) s.bitset o.bitset }

theorem orWords_eq : ∀ (a b : List U64), a.length = b.length →
    orWords a b = .ok (List.zipWith (· ||| ·) a b)
  | [], _, _ => rfl
  | a :: as, [], h => by simp at h
  | a :: as, b :: bs, h => by
    simp only [orWords]
    rw [orWords_eq as bs (by simpa using h)]
    rfl

theorem unionMerge_eq (env : Env) (s o : V1) :
    s.unionMerge env o = if s.hasSameParams o then ((orBits s o).updateCount env, .ok ())
      else (s, .err (.merge "cannot make union of bloom filters with different parameters")) := by
  unfold unionMerge
  cases h : s.hasSameParams o with
  | false => simp
  | true =>
    have hl := ((hasSameParams_iff s o).1 h).2.2.2.2.2
    rw [orWords_eq _ _ hl]
    simp [orBits]

theorem orBits_shape {s o : V1} (h : s.hasSameParams o = true) : Shape s (orBits s o) := by
  obtain ⟨_, _, _, _, _, hl⟩ := (hasSameParams_iff s o).1 h
  refine ⟨rfl, rfl, rfl, rfl, rfl, rfl, rfl, ?_⟩
  simp [orBits, hl]

theorem bit_orBits {s o : V1} (h : s.bitset.length = o.bitset.length) (i : ℕ) :
    bitAt (orBits s o).bitset i = (bitAt s.bitset i || bitAt o.bitset i) :=
  bitAt_zipWith_or h i

theorem unionMerge_ext (env : Env) (s o : V1) : Ext s (s.unionMerge env o).1 := by
  rw [unionMerge_eq]
  split
  · rename_i h
    have hl := ((hasSameParams_iff s o).1 h).2.2.2.2.2
    apply ext_count (g := orBits s o)
    refine ⟨orBits_shape h, fun i hi => ?_⟩
    rw [bit_orBits hl, hi]; rfl
  · exact Ext.refl s

theorem clear_shape (f : V1) : Shape f f.clear := by
  refine ⟨rfl, rfl, rfl, rfl, rfl, rfl, rfl, ?_⟩
  simp [clear]

theorem bit_clear (f : V1) (i : ℕ) : bitAt f.clear.bitset i = false := bitAt_map_zero _ i

/-! ### Reachable filters -/

theorem withCapacity_ok {env : Env} {cap : U64} {fpp : F64} {f : V1}
    (h : withCapacity env cap fpp = .ok f) :
    fppInRange fpp = true ∧
      (u64SizeFor (bitSizeFor env.libm cap (FVal.ofBits fpp))).toNat * 8 ≤ env.allocLimit ∧
      f = { flags := Flags.new 1#8
            bitset := List.replicate
              (u64SizeFor (bitSizeFor env.libm cap (FVal.ofBits fpp))).toNat 0#64
            capacity := cap
            fpp := fpp
            nHash := kHash env.libm (bitSizeFor env.libm cap (FVal.ofBits fpp)) cap
            bitSize := bitSizeFor env.libm cap (FVal.ofBits fpp)
            count := 0
            data := []
            fingerprint := Fingerprint.new
              (kHash env.libm (bitSizeFor env.libm cap (FVal.ofBits fpp)) cap)
              (bitSizeFor env.libm cap (FVal.ofBits fpp)) } := by
  unfold withCapacity at h
  split at h
  · simp at h
  rename_i hf
  simp only at h
  cases ha : env.alloc (u64SizeFor (bitSizeFor env.libm cap (FVal.ofBits fpp))).toNat 8 with
  | ok u =>
    rw [ha] at h
    simp only [Res.ok.injEq] at h
    exact ⟨by simpa using hf, Env.alloc_ok ha, h.symm⟩
  | err e => rw [ha] at h; simp at h
  | panic => rw [ha] at h; simp at h

theorem withCapacity_fits {env : Env} {cap : U64} {fpp : F64} {f : V1}
    (h : withCapacity env cap fpp = .ok f) : Fits env f := by
  obtain ⟨_, hm, rfl⟩ := withCapacity_ok h
  exact ⟨by simp, by simpa using hm, rfl⟩

theorem fromReader_ok_inv {env : Env} {bs : List U8} {f : V1}
    (h : fromReader env (Reader.ofBytes bs) = .ok f) :
    f.flags.version = 1#8 ∧ f.flags.reserved.length = 6 ∧ Fits env f ∧
        bs = (1#8 :: f.flags.opt.toU8 :: f.flags.reserved) ++ f.body := by
  unfold fromReader fromReader' at h
  rw [ofBytes_eq] at h
  simp only [Res.bind_eq_ok] at h
  obtain ⟨⟨flags, r⟩, hr, h⟩ := h
  obtain ⟨hl, rest, hb, rfl⟩ := readFlags_inv hr
  simp only at h
  split at h
  · simp at h
  rename_i hv
  simp only [ne_eq, Decidable.not_not] at hv
  obtain ⟨hfl, hfit, hrest⟩ := (V1.fromReaderWithFlags_ok _ _ _ _ _).1 h
  refine ⟨by rw [hfl]; exact hv, by rw [hfl]; exact hl, hfit, ?_⟩
  rw [hb, hrest, hfl, hv]

theorem Reach.inv {env : Env} {f : V1} (h : Reach env f) :
    Fits env f ∧ f.flags.version = 1#8 ∧ f.flags.reserved.length = 6 := by
  have step : ∀ {f g : V1}, Shape f g →
      (Fits env f ∧ f.flags.version = 1#8 ∧ f.flags.reserved.length = 6) →
      (Fits env g ∧ g.flags.version = 1#8 ∧ g.flags.reserved.length = 6) := by
    intro f g s h
    exact ⟨s.fits h.1, by rw [s.flags]; exact h.2.1, by rw [s.flags]; exact h.2.2⟩
  induction h with
  | make h =>
    refine ⟨withCapacity_fits h, ?_⟩
    obtain ⟨_, _, rfl⟩ := withCapacity_ok h
    exact ⟨rfl, rfl⟩
  | load h =>
    have := fromReader_ok_inv h
    exact ⟨this.2.2.1, this.1, this.2.1⟩
  | insert k _ ih => exact step (insertBytes_ext env _ k).toShape ih
  | union o _ ih => exact step (unionMerge_ext env _ o).toShape ih
  | clear _ ih => exact step (clear_shape _) ih
  | setData d _ ih => exact ⟨⟨ih.1.1, ih.1.2, ih.1.3⟩, ih.2⟩

theorem Reach.fits {env : Env} {f : V1} (h : Reach env f) : Fits env f := h.inv.1
theorem Reach.wf {env : Env} {f : V1} (h : Reach env f) (hs : env.Small) : f.WF := h.inv.1.wf hs

theorem file_eq (f : V1) : f.file = f.ser := by
  unfold file; rw [write_none]; simp

theorem Fits.reload {env : Env} {f : V1} (h : Fits env f) :
    fromReader env (Reader.ofBytes f.file) = .ok f.canon := by
  rw [file_eq]; exact fromReader_ser h

theorem canon_eq {f : V1} (h : f.flags = Flags.new 1#8) : f.canon = f := by
  obtain ⟨fl, _, _, _, _, _, _, _, _⟩ := f
  simp only at h
  subst h
  rfl

theorem Built.inv {env : Env} {f : V1} (h : Built env f) :
    Fits env f ∧ f.flags = Flags.new 1#8 ∧ fppInRange f.fpp = true := by
  have step : ∀ {f g : V1}, Shape f g →
      (Fits env f ∧ f.flags = Flags.new 1#8 ∧ fppInRange f.fpp = true) →
      (Fits env g ∧ g.flags = Flags.new 1#8 ∧ fppInRange g.fpp = true) := by
    intro f g s h
    exact ⟨s.fits h.1, by rw [s.flags]; exact h.2.1, by rw [s.fpp]; exact h.2.2⟩
  induction h with
  | make h =>
    refine ⟨withCapacity_fits h, ?_⟩
    obtain ⟨hf, _, rfl⟩ := withCapacity_ok h
    exact ⟨rfl, hf⟩
  | insert k _ ih => exact step (insertBytes_ext env _ k).toShape ih
  | union o _ ih => exact step (unionMerge_ext env _ o).toShape ih
  | clear _ ih => exact step (clear_shape _) ih
  | setData d _ ih => exact ⟨⟨ih.1.1, ih.1.2, ih.1.3⟩, ih.2⟩
  | reload _ hr ih =>
    rw [file_eq, fromReader_ser ih.1, canon_eq ih.2.1] at hr
    cases hr
    exact ih

end V1

namespace Bloom

theorem file_eq (f : Bloom) : f.file = f.ser := by
  unfold file; rw [write_none]; simp

end Bloom

end Poppy
