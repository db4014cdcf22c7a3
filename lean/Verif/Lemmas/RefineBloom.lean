import Verif.RefineBloom
import Verif.Lemmas.Refine
import Verif.Lemmas.CliCommands
import Verif.Props.Load
import Verif.Props.Misc

/-! Operations on filters of either version are those of their abstract filters. -/

namespace Poppy

open Spec Abs

theorem levelOf_toU8 (o : OptLevel) : levelOf o.toU8.toNat = o := by cases o <;> rfl

theorem V2.ofFile_content {f : V2} (hv : f.flags.version = 2#8) : ofFile2 f.content = f.view := by
  unfold ofFile2 V2.content V2.view
  simp only [levelOf_toU8, List.length_map, BitVec.ofNat_toNat, BitVec.setWidth_eq]
  congr 1
  · cases hf : f.flags
    rw [hf] at hv
    simp only at hv ⊢
    rw [hv]; rfl
  · funext j i
    unfold V2.bucketBit
    by_cases hj : j < f.buckets.length
    · simp [List.getD_eq_getElem?_getD, hj]
    · have h1 : (f.buckets.map BitSet.asSlice).getD j [] = [] := by
        simp [List.getD_eq_getElem?_getD, not_lt.1 hj]
      have h2 : f.buckets.getD j (BitSet.new _) = BitSet.new _ := by
        simp [List.getD_eq_getElem?_getD, not_lt.1 hj]
      rw [h1, h2]
      rw [BitSet.bitAt_new]
      simp [bitAt]

theorem V1.ofFile_content {f : V1} (hv : f.flags.version = 1#8) : ofFile1 f.content = f.view := by
  unfold ofFile1 V1.content V1.view
  simp only [levelOf_toU8, List.length_map, BitVec.ofNat_toNat, BitVec.setWidth_eq]
  congr 1
  · cases hf : f.flags
    rw [hf] at hv
    simp only at hv ⊢
    rw [hv]; rfl
  · funext i
    unfold bitAt
    by_cases hj : i / 64 < f.bitset.length
    · simp [List.getD_eq_getElem?_getD, hj, BitVec.getLsbD]
    · simp [List.getD_eq_getElem?_getD, not_lt.1 hj]

theorem V2.content_of_view (f : V2) : f.content =
    ⟨f.view.flags.opt.toU8.toNat, f.view.flags.reserved, f.view.cap, f.view.fpp.toNat, f.view.hashes,
      f.view.count, pack f.view.cacheBytes f.view.cache,
      (List.range f.view.buckets).map (fun j => pack 4096 (f.view.bits j)), f.view.data⟩ := by
  have h1 : pack f.view.cacheBytes f.view.cache = f.indexCache.asSlice := pack_bitAt _
  rw [h1, V2.view_buckets]
  rfl

theorem V1.content_of_view (f : V1) : f.content =
    ⟨f.view.flags.opt.toU8.toNat, f.view.flags.reserved, f.view.cap, f.view.fpp.toNat, f.view.hashes,
      f.view.size, f.view.count, Abs.words f.view.words f.view.bits, f.view.data⟩ := by
  rw [show Abs.words f.view.words f.view.bits = f.bitset.map BitVec.toNat from words_bitAt _]
  rfl

namespace Bloom

variable {env : Env}

theorem Reach.version_eq {f : Bloom} (h : f.Reach env) :
    (match f with | .v1 f => f.flags.version = 1#8 | .v2 f => f.flags.version = 2#8) := by
  cases f with
  | v1 f => exact (V1.Reach.inv h).2.1
  | v2 f => exact (V2.Reach.inv h).2.1

theorem view_load (hs : env.Small) (bs : List U8) :
    loaded (load env.allocLimit bs) = (fromReader env (Reader.ofBytes bs)).map view := by
  have h := C79_bloom hs bs
  cases hf : fromReader env (Reader.ofBytes bs) with
  | ok f =>
    rw [hf] at h
    have hr := Bloom.Reach.load hf
    cases hl : load env.allocLimit bs <;> rw [hl] at h <;> simp [Res.map, Poppy.Load.res] at h
    rename_i a
    subst h
    cases f with
    | v1 f => exact congrArg (fun x => Res.ok (F.v1 x)) (V1.ofFile_content (V1.Reach.inv hr).2.1)
    | v2 f => exact congrArg (fun x => Res.ok (F.v2 x)) (V2.ofFile_content (V2.Reach.inv hr).2.1)
  | err e =>
    rw [hf] at h
    cases hl : load env.allocLimit bs <;> rw [hl] at h <;> simp [Res.map, Poppy.Load.res] at h <;>
      simp [Res.map, loaded, h]
  | panic =>
    rw [hf] at h
    cases hl : load env.allocLimit bs <;> rw [hl] at h <;> simp [Res.map, Poppy.Load.res] at h <;>
      simp [Res.map, loaded]

theorem view_make (v : U8) (cap : U64) (fpp : F64) (opt : OptLevel) :
    make (machine env) v cap fpp opt = (withVersionCapacityOpt env v cap fpp opt).map view := by
  unfold make withVersionCapacityOpt
  split
  · have := V1.view_make env cap fpp
    show (make1 (V1.cfg env) cap fpp).map _ = _
    rw [this]
    cases V1.withCapacity env cap fpp <;> rfl
  split
  · have := V2.view_make env cap fpp opt
    show (make2 (V2.cfg env) cap fpp opt).map _ = _
    rw [this]
    cases V2.make env cap fpp opt <;> rfl
  · rfl

theorem make_reach {v : U8} {cap : U64} {fpp : F64} {opt : OptLevel} {f : Bloom}
    (h : withVersionCapacityOpt env v cap fpp opt = .ok f) : f.Reach env := by
  unfold withVersionCapacityOpt at h
  split at h
  · cases hm : V1.withCapacity env cap fpp <;> rw [hm] at h <;> simp [Res.map] at h
    subst h
    exact .make hm
  split at h
  · cases hm : V2.make env cap fpp opt <;> rw [hm] at h <;> simp [Res.map] at h
    subst h
    exact .make hm
  · cases h

theorem view_insert (hs : env.Small) {f : Bloom} (h : f.Reach env) (k : List U8) :
    f.view.insert (machine env) k
      = ((f.insertBytes env k).1.view, (f.insertBytes env k).2.answer .bool) := by
  cases f with
  | v1 f =>
    have := V1.view_insert (env := env) (V1.Reach.wf h hs) k
    show (F.v1 (f.view.insert k).1, (f.view.insert k).2) = _
    rw [this]; rfl
  | v2 f =>
    have := V2.view_insert (env := env) (V2.Reach.wf h) (.slice k)
    show (F.v2 (f.view.insert (V2.cfg env) (.slice k)).1, (f.view.insert (V2.cfg env) (.slice k)).2) = _
    rw [this]; rfl

theorem insert_reach {f : Bloom} (h : f.Reach env) (k : List U8) : (f.insertBytes env k).1.Reach env := by
  cases f with
  | v1 f => exact V1.Reach.insert k h
  | v2 f =>
    have : (V2.insertBytes env f k).1.Reach env := V2.Reach.insertIter _ h
    exact this

theorem view_fill (hs : env.Small) (ks : List (List U8)) {f : Bloom} (h : f.Reach env) :
    f.view.fill (machine env) ks
      = ((f.fill env ks).1.view, (f.fill env ks).2.answer fun _ => .done) := by
  induction ks generalizing f with
  | nil => rfl
  | cons k ks ih =>
    have hi := view_insert hs h k
    have hr := insert_reach h k
    unfold F.fill fill
    rw [hi]
    revert hr
    generalize f.insertBytes env k = p
    obtain ⟨g, r⟩ := p
    intro hr
    cases r with
    | ok b => exact ih hr
    | err e => rfl
    | panic => rfl

theorem fill_reach (ks : List (List U8)) {f : Bloom} (h : f.Reach env) : (f.fill env ks).1.Reach env := by
  induction ks generalizing f with
  | nil => exact h
  | cons k ks ih =>
    have hr := insert_reach h k
    unfold fill
    revert hr
    generalize f.insertBytes env k = p
    obtain ⟨g, r⟩ := p
    intro hr
    cases r with
    | ok b => exact ih hr
    | err e => exact hr
    | panic => exact hr

theorem view_contains (hs : env.Small) {f : Bloom} (h : f.Reach env) (k : List U8) :
    f.view.contains (machine env) k = (f.containsBytes env k).answer .bool := by
  cases f with
  | v1 f => exact V1.view_contains (V1.Reach.fits h) (V1.Reach.wf h hs) k
  | v2 f => exact V2.view_contains (env := env) (V2.Reach.wf h) (.slice k)

theorem view_clear (f : Bloom) : f.view.clear = f.clear.view := by
  cases f with
  | v1 f => exact congrArg F.v1 (V1.view_clear f)
  | v2 f => exact congrArg F.v2 (V2.view_clear f)

theorem clear_reach {f : Bloom} (h : f.Reach env) : f.clear.Reach env := by
  cases f with
  | v1 f => exact V1.Reach.clear h
  | v2 f => exact V2.Reach.clear h

theorem setData_reach {f : Bloom} (h : f.Reach env) (d : List U8) : (f.setData d).Reach env := by
  cases f with
  | v1 f => exact V1.Reach.setData d h
  | v2 f => exact V2.Reach.setData d h

theorem view_same (s o : Bloom) : Answer.bool (s.view.same o.view) = (s.hasSameParams o).answer .bool := by
  cases s with
  | v1 s =>
    cases o with
    | v1 o =>
      show Answer.bool (s.view.same o.view) = _
      rw [V1.view_same]
      simp [hasSameParams, version, Res.answer]
    | v2 o => rfl
  | v2 s =>
    cases o with
    | v1 o => rfl
    | v2 o =>
      show Answer.bool (s.view.same o.view) = _
      rw [V2.view_same]
      simp [hasSameParams, version, Res.answer]

theorem view_union (s o : Bloom) :
    s.view.union (machine env) o.view
      = ((s.unionMerge env o).1.view, (s.unionMerge env o).2.answer fun _ => .done) := by
  cases s with
  | v1 s =>
    cases o with
    | v1 o =>
      have h1 := V1.view_same s o
      have h2 := V1.view_union env s o
      simp only [view, F.union, machine, h1, h2, unionMerge, hasSameParams, version, ne_eq,
        not_true, if_false]
      cases s.hasSameParams o <;> rfl
    | v2 o => rfl
  | v2 s =>
    cases o with
    | v1 o => rfl
    | v2 o =>
      have h1 := V2.view_same s o
      have h2 : s.view.union (machine env).c2 o.view = _ := V2.view_union env s o
      simp only [view, F.union, h1, h2, unionMerge, hasSameParams, version, ne_eq,
        not_true, if_false]
      cases s.hasSameParams o <;> rfl

theorem union_reach {s : Bloom} (h : s.Reach env) (o : Bloom) : (s.unionMerge env o).1.Reach env := by
  cases s with
  | v1 s =>
    cases o with
    | v1 o =>
      have : (V1.unionMerge env s o).1.Reach env := .union o h
      simp only [unionMerge, hasSameParams, version, ne_eq, not_true, if_false]
      cases s.hasSameParams o
      · exact h
      · exact this
    | v2 o => exact h
  | v2 s =>
    cases o with
    | v1 o => exact h
    | v2 o =>
      have : (V2.unionMerge env s o).1.Reach env := .union o h
      simp only [unionMerge, hasSameParams, version, ne_eq, not_true, if_false]
      cases s.hasSameParams o
      · exact h
      · exact this

theorem view_common (s o : Bloom) :
    s.view.common (machine env) o.view
      = (s.countCommonEntries env o).answer fun n => .num n.toNat := by
  cases s with
  | v1 s =>
    cases o with
    | v1 o =>
      have h2 : s.view.common (machine env).c1 o.view = _ := V1.view_common env s o
      have h1 := V1.view_same s o
      simp only [view, F.common, h2, countCommonEntries, hasSameParams, version, ne_eq, not_true,
        if_false]
      cases h : s.hasSameParams o
      · simp [V1.countCommonEntries, h]
      · rfl
    | v2 o => rfl
  | v2 s =>
    cases o with
    | v1 o => rfl
    | v2 o =>
      have h2 : s.view.common (machine env).c2 o.view = _ := V2.view_common env s o
      simp only [view, F.common, h2, countCommonEntries, hasSameParams, version, ne_eq, not_true,
        if_false]
      cases h : s.hasSameParams o
      · simp [V2.countCommonEntries, h]
      · rfl

theorem view_file {f : Bloom} (h : f.Reach env) : f.view.file = f.file := by
  cases f with
  | v1 f => exact V1.view_file f
  | v2 f => exact V2.view_file (V2.Reach.inv h).2.1

theorem view_size (hs : env.Small) {f : Bloom} (h : f.Reach env) :
    Answer.num f.view.size = (f.sizeInBytes env).answer fun n => .num n.toNat := by
  cases f with
  | v1 f =>
    obtain ⟨n, h1, h2, _⟩ := C48_v1_partial hs (f := f) h
    show Answer.num (f.bitSize.toNat * 8) = (f.sizeInBytes env).answer _
    rw [h1]
    show _ = Answer.num _
    rw [h2, Nat.mul_comm]
  | v2 f =>
    obtain ⟨n, h1, h2⟩ := C48_v2 (f := f) h
    have hsum : (f.buckets.map fun b => b.asSlice.length).sum = f.buckets.length * 4096 := by
      rw [← length_flatten_buckets, List.length_flatten, List.map_map]; rfl
    show Answer.num (f.buckets.length * 4096 + f.indexCache.asSlice.length)
      = (f.sizeInBytes env).answer _
    rw [h1]
    show _ = Answer.num _
    rw [h2, hsum]

theorem view_isFull (f : Bloom) : decide (f.view.count = f.view.cap) = f.isFull := by
  rw [Bool.eq_iff_iff, decide_eq_true_eq]
  cases f with
  | v1 f => show _ ↔ (f.count == f.capacity) = true; rw [beq_iff_eq]; exact BitVec.toNat_inj
  | v2 f => show _ ↔ (f.count == f.capacity) = true; rw [beq_iff_eq]; exact BitVec.toNat_inj

/-- One step of a program. -/
theorem step_view (hs : env.Small) {σ : ℕ → Bloom} (h : ∀ r, (σ r).Reach env) (o : BOp) :
    (∀ r, ((step env σ o).1 r).Reach env) ∧
    Abs.step (machine env) (view ∘ σ) o = (view ∘ (step env σ o).1, (step env σ o).2) := by
  cases o with
  | make r v cap fpp opt =>
    simp only [step, Abs.step, view_make]
    exact ⟨put_reach h (fun f hf => make_reach hf) r, put_view view σ r _⟩
  | load r bs =>
    simp only [step, Abs.step]
    rw [show (machine env).limit = env.allocLimit from rfl, view_load hs]
    exact ⟨put_reach h (fun f hf => Bloom.Reach.load hf) r, put_view view σ r _⟩
  | clone r s =>
    refine ⟨set_reach h (h s) r, ?_⟩
    simp only [step, Abs.step]
    exact Prod.ext (set_view view σ r (σ s)) rfl
  | insert r k =>
    refine ⟨set_reach h (insert_reach (h r) k) r, ?_⟩
    simp only [step, Abs.step, Function.comp_apply, view_insert hs (h r) k]
    rw [set_view]
  | fill r ks =>
    refine ⟨set_reach h (fill_reach ks (h r)) r, ?_⟩
    simp only [step, Abs.step, Function.comp_apply, view_fill hs ks (h r)]
    rw [set_view]
  | contains r k =>
    refine ⟨h, ?_⟩
    simp only [step, Abs.step, Function.comp_apply, view_contains hs (h r) k]
  | clear r =>
    refine ⟨set_reach h (clear_reach (h r)) r, ?_⟩
    simp only [step, Abs.step, Function.comp_apply, view_clear]
    rw [set_view]
  | union r s =>
    refine ⟨set_reach h (union_reach (h r) _) r, ?_⟩
    simp only [step, Abs.step, Function.comp_apply, view_union]
    rw [set_view]
  | common r s =>
    refine ⟨h, ?_⟩
    simp only [step, Abs.step, Function.comp_apply, view_common]
  | same r s =>
    refine ⟨h, ?_⟩
    simp only [step, Abs.step, Function.comp_apply, view_same]
  | setData r d =>
    refine ⟨set_reach h (setData_reach (h r) d) r, ?_⟩
    simp only [step, Abs.step]
    refine Prod.ext (set_self_view view σ r _ _ ?_) rfl
    simp only [Function.comp_apply]
    cases σ r <;> rfl
  | data r =>
    refine ⟨h, ?_⟩
    simp only [step, Abs.step, Function.comp_apply]
    cases σ r <;> rfl
  | version r =>
    refine ⟨h, ?_⟩
    simp only [step, Abs.step, Function.comp_apply]
    cases σ r <;> rfl
  | cap r =>
    refine ⟨h, ?_⟩
    simp only [step, Abs.step, Function.comp_apply]
    cases σ r <;> rfl
  | fpp r =>
    refine ⟨h, ?_⟩
    simp only [step, Abs.step, Function.comp_apply]
    cases σ r <;> rfl
  | isFull r =>
    refine ⟨h, ?_⟩
    simp only [step, Abs.step, Function.comp_apply, view_isFull]
  | count r =>
    refine ⟨h, ?_⟩
    simp only [step, Abs.step, Function.comp_apply]
    cases σ r <;> rfl
  | size r =>
    refine ⟨h, ?_⟩
    simp only [step, Abs.step, Function.comp_apply, view_size hs (h r)]
  | file r =>
    refine ⟨h, ?_⟩
    simp only [step, Abs.step, Function.comp_apply, view_file (h r)]
  | reload r s =>
    simp only [step, Abs.step, Function.comp_apply, view_file (h s)]
    rw [show (machine env).limit = env.allocLimit from rfl, view_load hs]
    exact ⟨put_reach h (fun f hf => Bloom.Reach.load hf) r, put_view view σ r _⟩

end Bloom

end Poppy
