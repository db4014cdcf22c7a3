import Mathlib.Algebra.BigOperators.Group.Finset.Basic
import Mathlib.Algebra.BigOperators.Intervals
import Verif.Refine
import Verif.Props.Serial
import Verif.Lemmas.Members
import Verif.Lemmas.Merge
import Verif.Lemmas.Counting

/-! Operations on filters of the model are those of their abstract filters. -/

namespace Poppy

open Spec Abs

/-! ### Packing -/

theorem ofBits_bitAt {w : ℕ} (l : List (BitVec w)) (i : ℕ) :
    (Nat.ofBits fun j : Fin w => bitAt l (w * i + j)) = (l.getD i 0).toNat := by
  have : (fun j : Fin w => bitAt l (w * i + j)) = fun j : Fin w => (l.getD i 0).toNat.testBit j := by
    funext j
    have hw : 0 < w := by have := j.isLt; omega
    unfold bitAt
    rw [Nat.mul_add_div hw, Nat.div_eq_of_lt j.isLt, Nat.mul_add_mod, Nat.mod_eq_of_lt j.isLt]
    rfl
  rw [this, Nat.ofBits_testBit, Nat.mod_eq_of_lt (BitVec.isLt _)]

theorem pack_bitAt (l : List U8) : pack l.length (bitAt l) = l := by
  unfold pack
  apply List.ext_getElem
  · simp
  intro i h1 h2
  simp only [List.getElem_map, List.getElem_range]
  rw [ofBits_bitAt]
  simp [List.getD_eq_getElem?_getD, h2]

theorem words_bitAt (l : List U64) : Abs.words l.length (bitAt l) = l.map BitVec.toNat := by
  unfold Abs.words
  apply List.ext_getElem
  · simp
  intro i h1 h2
  simp only [List.getElem_map, List.getElem_range]
  rw [ofBits_bitAt]
  simp only [List.length_map] at h2
  simp [List.getD_eq_getElem?_getD, h2]

theorem level_eq (o : OptLevel) : o.toU8.toNat = Abs.level o := by cases o <;> rfl

theorem sum_range_getD {α : Type} (l : List α) (d : α) (g : α → ℕ) :
    ∑ i ∈ Finset.range l.length, g (l.getD i d) = (l.map g).sum := by
  induction l with
  | nil => rfl
  | cons a l ih =>
    rw [List.length_cons, Finset.sum_range_succ']
    simp only [List.getD_cons_succ, List.getD_cons_zero, List.map_cons, List.sum_cons, ih]
    exact Nat.add_comm _ _

/-! ### Registers -/

theorem set_view {α β : Type} (g : α → β) (σ : ℕ → α) (r : ℕ) (x : α) :
    Abs.set (g ∘ σ) r (g x) = g ∘ Abs.set σ r x := by
  funext i; unfold Abs.set; simp only [Function.comp_apply]; split <;> rfl

theorem set_self_view {α β : Type} (g : α → β) (σ : ℕ → α) (r : ℕ) (x : α) (y : β) (h : y = g x) :
    Abs.set (g ∘ σ) r y = g ∘ Abs.set σ r x := by rw [h, set_view]

theorem set_reach {α : Type} {P : α → Prop} {σ : ℕ → α} (h : ∀ r, P (σ r)) {x : α} (hx : P x)
    (r : ℕ) : ∀ i, P (Abs.set σ r x i) := by
  intro i; unfold Abs.set; split
  · exact hx
  · exact h i

theorem put_view {α β : Type} (g : α → β) (σ : ℕ → α) (r : ℕ) (x : Res α) :
    put (g ∘ σ) r (x.map g) = (g ∘ (put σ r x).1, (put σ r x).2) := by
  cases x with
  | ok a => exact Prod.ext (set_view g σ r a) rfl
  | err e => rfl
  | panic => rfl

theorem put_reach {α : Type} {P : α → Prop} {σ : ℕ → α} (h : ∀ r, P (σ r)) {x : Res α}
    (hx : ∀ a, x = .ok a → P a) (r : ℕ) : ∀ i, P ((put σ r x).1 i) := by
  cases x with
  | ok a => exact set_reach h (hx a rfl) r
  | err e => exact h
  | panic => exact h

/-! ### v2 -/

namespace V2

variable {env : Env} {f : V2}

theorem view_onesIn (f : V2) (i : ℕ) :
    f.view.onesIn i = (f.buckets.getD i (BitSet.new _)).countOnes :=
  (BitSet.countOnes_eq _).symm

theorem view_ones (f : V2) : f.view.ones = f.countOnes := by
  unfold F2.ones countOnes
  simp only [view_onesIn]
  exact sum_range_getD f.buckets (BitSet.new _) BitSet.countOnes

theorem view_zeros (f : V2) : f.view.buckets * 32768 - f.view.ones = f.countZeros := by
  have : f.countOnes + f.countZeros = f.buckets.length * 32768 := by
    unfold countOnes countZeros
    induction f.buckets with
    | nil => rfl
    | cons b l ih =>
      have h1 := BitSet.countOnes_eq b
      have h2 := BitSet.countZeros_eq b
      have h3 : BUCKET_SIZE * 8 = 32768 := rfl
      have h4 : countBelow 32768 (bitAt b.asSlice) + countBelow 32768 (fun i => !bitAt b.asSlice i)
          = 32768 := by
        unfold countBelow
        have := List.length_eq_countP_add_countP (bitAt b.asSlice) (l := List.range 32768)
        simp only [List.length_range] at this
        simpa using this.symm
      simp only [List.map_cons, List.sum_cons, List.length_cons]
      rw [h3] at h1 h2
      omega
  rw [view_ones]
  show f.buckets.length * 32768 - _ = _
  omega

theorem view_bucket (env : Env) (f : V2) (k : Key) :
    f.view.bucket (cfg env) k = f.bucketOf (k.hashPop env.wy) := keyBucket_eq env f k

theorem view_slot (w : f.WF) (hne : f.indexCache.asSlice ≠ []) (k : Key) :
    f.view.slot (cfg env) k = f.cacheIdx (k.hashPop env.wy) := keyCache_eq env w hne k

theorem view_covered (env : Env) (f : V2) (k : Key) :
    f.view.covered (cfg env) k = allSet env f (k.hashPop env.wy) := by
  unfold F2.covered
  rw [Bool.eq_iff_iff, decide_eq_true_eq, allSet_iff, view_bucket]
  rfl

theorem view_mark (env : Env) (hne : f.buckets ≠ []) (k : Key) :
    (f.view.mark (cfg env) k).bits = (added env f (k.hashPop env.wy)).bucketBit := by
  funext b i
  show _ = (added env f (k.hashPop env.wy)).bit b i
  rw [bit_added env hne]
  unfold F2.mark
  rw [view_bucket]
  rfl

theorem view_touch (w : f.WF) (k : Key) :
    (f.view.touch (cfg env) k).cache
      = bitAt (added env f (k.hashPop env.wy)).indexCache.asSlice := by
  funext i
  unfold F2.touch
  by_cases hc : f.indexCache.asSlice = []
  · have h0 : f.view.cacheBytes = 0 := by show f.indexCache.asSlice.length = 0; rw [hc]; rfl
    have : (added env f (k.hashPop env.wy)).indexCache = f.indexCache := by
      unfold added; simp [hc]
    rw [this, h0]
    simp [view]
  · have h0 : f.view.cacheBytes ≠ 0 := by
      show f.indexCache.asSlice.length ≠ 0
      simpa using hc
    rw [cacheBit_added env w (by simpa using hc), view_slot w hc]
    simp [h0]
    rfl

theorem added_view_eq (w : f.WF) (hne : f.buckets ≠ []) (k : Key) (c : ℕ)
    (hc : c = (added env f (k.hashPop env.wy)).count.toNat) :
    ({ (f.view.mark (cfg env) k).touch (cfg env) k with count := c } : F2)
      = (added env f (k.hashPop env.wy)).view := by
  have h1 := view_mark env hne k
  have h2 := view_touch (env := env) w k
  have h3 : (added env f (k.hashPop env.wy)).buckets.length = f.buckets.length := added_length ..
  have h4 : (added env f (k.hashPop env.wy)).indexCache.asSlice.length
      = f.indexCache.asSlice.length := added_cache_length ..
  unfold view
  rw [h3, h4, ← h1, ← h2, hc]
  rfl

theorem nat_eq_iff (a b : U64) : a.toNat = b.toNat ↔ a = b := BitVec.toNat_inj

theorem view_insert (w : f.WF) (k : Key) :
    f.view.insert (cfg env) k = ((f.insert env k).1.view, (f.insert env k).2.answer .bool) := by
  unfold F2.insert
  by_cases hcap : f.capacity = 0
  · rw [if_pos (by show f.capacity.toNat = 0; rw [hcap]; rfl), insert_noCap env k hcap]; rfl
  rw [if_neg (by
    show f.capacity.toNat ≠ 0
    intro h; exact hcap (BitVec.eq_of_toNat_eq h))]
  by_cases hb : f.buckets = []
  · rw [if_pos (by show f.buckets.length = 0; rw [hb]; rfl), insert_nil env k hcap hb]; rfl
  rw [if_neg (by show f.buckets.length ≠ 0; simpa using hb), insert_cases env w k hcap hb,
    view_covered]
  cases hs : allSet env f (k.hashPop env.wy) with
  | true =>
    simp only [if_true, Bool.true_eq_false, and_false, if_false]
    refine Prod.ext ?_ rfl
    rw [← added_view_eq w hb k f.count.toNat (by unfold added; rw [hs]; rfl)]
    have : (f.view.mark (cfg env) k) = f.view := by
      have := view_mark env hb k
      have h2 : (added env f (k.hashPop env.wy)).bucketBit = f.bucketBit := by
        funext b i
        show (added env f (k.hashPop env.wy)).bit b i = f.bit b i
        rw [bit_added env hb]
        by_cases hbi : b = f.bucketOf (k.hashPop env.wy) ∧
            ∃ n < f.nHashBuck.toNat, i = probe env (k.hashPop env.wy) n
        · obtain ⟨rfl, n, hn, rfl⟩ := hbi
          rw [(allSet_iff env f _).1 hs n hn]; rfl
        · have : (decide (b = f.bucketOf (k.hashPop env.wy)) &&
              decide (∃ n < f.nHashBuck.toNat, i = probe env (k.hashPop env.wy) n)) = false := by
            rw [← Bool.not_eq_true, Bool.and_eq_true, decide_eq_true_eq, decide_eq_true_eq]
            exact hbi
          rw [this, Bool.or_false]
      unfold F2.mark at this ⊢
      simp only at this
      rw [this, h2]
      rfl
    rw [this]
    rfl
  | false =>
    simp only [Bool.false_eq_true, if_false, and_true]
    have e1 : (f.view.count = f.view.cap) = (f.count = f.capacity) := by
      exact propext (nat_eq_iff _ _)
    simp only [e1]
    by_cases hfull : f.count = f.capacity
    · rw [if_pos hfull, if_pos hfull]; rfl
    rw [if_neg hfull, if_neg hfull]
    have e2 : (((cfg env).checked && decide (f.view.count = 2 ^ 64 - 1)) = true)
        = CountOverflow env f := by
      unfold CountOverflow
      rw [Bool.and_eq_true, decide_eq_true_eq]
      show (env.debug = true ∧ f.count.toNat = 2 ^ 64 - 1) = _
      congr 1
      exact propext ⟨fun h => by omega, fun h => by omega⟩
    simp only [e2]
    by_cases ho : CountOverflow env f
    · rw [if_pos ho, if_pos ho]
      refine Prod.ext ?_ rfl
      have h1 := view_mark env hb k
      have h3 : (added env f (k.hashPop env.wy)).buckets.length = f.buckets.length := added_length ..
      have : (f.view.mark (cfg env) k) = { f.view with bits := (f.view.mark (cfg env) k).bits } := rfl
      rw [this, h1]
      unfold view
      simp only [h3]
      rfl
    · rw [if_neg ho, if_neg ho]
      refine Prod.ext ?_ rfl
      apply added_view_eq w hb k
      unfold added
      rw [hs]
      show (f.count.toNat + 1) % 2 ^ 64 = (f.count + 1).toNat
      rw [BitVec.toNat_add]; rfl

theorem view_contains (w : f.WF) (k : Key) :
    f.view.contains (cfg env) k = (f.contains env k).answer .bool := by
  unfold F2.contains
  by_cases hcap : f.capacity = 0
  · rw [if_pos (by show f.capacity.toNat = 0; rw [hcap]; rfl), contains_noCap env k hcap]; rfl
  rw [if_neg (by
    show f.capacity.toNat ≠ 0
    intro h; exact hcap (BitVec.eq_of_toNat_eq h))]
  have e : (f.view.cacheBytes ≠ 0 ∧ f.view.cache (f.view.slot (cfg env) k) = false)
      = (f.cacheOk (k.hashPop env.wy) = false) := by
    by_cases hc : f.indexCache.asSlice = []
    · have h0 : f.view.cacheBytes = 0 := by show f.indexCache.asSlice.length = 0; rw [hc]; rfl
      simp [h0, cacheOk, hc]
    · have h0 : f.view.cacheBytes ≠ 0 := by
        show f.indexCache.asSlice.length ≠ 0
        simpa using hc
      rw [view_slot w hc]
      have : f.indexCache.asSlice.isEmpty = false := by simpa using hc
      simp only [h0, cacheOk, this, Bool.false_or, ne_eq, not_false_eq_true, true_and]
      rfl
  simp only [e]
  by_cases hb : f.buckets = []
  · rw [if_pos (c := f.view.buckets = 0) (by show f.buckets.length = 0; rw [hb]; rfl),
      contains_nil env w k hcap hb]
    cases f.cacheOk (k.hashPop env.wy) <;> rfl
  · rw [if_neg (c := f.view.buckets = 0) (by show f.buckets.length ≠ 0; simpa using hb),
      contains_eq env w k hcap hb, view_covered]
    cases f.cacheOk (k.hashPop env.wy) <;> rfl

theorem view_clear (f : V2) : f.view.clear = f.clear.view := by
  have h := clear_shape f
  unfold F2.clear view
  have hb : f.clear.bucketBit = fun _ _ => false := by
    funext b i; exact bit_clear f b i
  rw [hb, h.blen, h.clen]
  rfl

theorem view_same (s o : V2) : s.view.same o.view = s.hasSameParams o := by
  rw [Bool.eq_iff_iff, hasSameParams_iff]
  unfold F2.same
  rw [decide_eq_true_eq]
  simp only [view, BitVec.toNat_inj]

theorem view_estimate (env : Env) (f : V2) :
    f.view.estimate (cfg env)
      = ((f.buckets.map fun b => bucketEstimate env f.nHashBuck b.countOnes).map BitVec.toNat).sum := by
  unfold F2.estimate
  simp only [view_onesIn]
  rw [List.map_map]
  have := sum_range_getD f.buckets (BitSet.new _)
    (BitVec.toNat ∘ fun b : Bucket => bucketEstimate env f.nHashBuck b.countOnes)
  rw [← this]
  refine Finset.sum_congr rfl fun i _ => ?_
  show (estimateCount env.libm (BitVec.ofNat 64 32768) (BitVec.ofNat 64 _)
    (BitVec.ofNat 64 f.nHashBuck.toNat)).toNat = _
  rw [BitVec.ofNat_toNat, BitVec.setWidth_eq]
  rfl

theorem view_recount (env : Env) (f : V2) :
    f.view.recount (cfg env)
      = ((f.updateCount env).1.view, (f.updateCount env).2.answer fun _ => .done) := by
  unfold F2.recount updateCount
  rw [sumU64_eq, view_estimate]
  have e : ∀ n, (((cfg env).checked && decide (2 ^ 64 ≤ n)) = true)
      = (env.debug = true ∧ 2 ^ 64 ≤ n) := by
    intro n; rw [Bool.and_eq_true, decide_eq_true_eq]; rfl
  simp only [e]
  split
  · rfl
  · refine Prod.ext ?_ rfl
    show _ = view _
    unfold view
    simp only [BitVec.toNat_ofNat]
    rfl

theorem view_orBits {s o : V2} (h : s.hasSameParams o = true) :
    ({ s.view with
        bits := fun j i => s.view.bits j i || o.view.bits j i
        cache := fun i => s.view.cache i || o.view.cache i } : F2) = (orBits s o).view := by
  obtain ⟨_, _, hc, _, _, hb⟩ := (hasSameParams_iff s o).1 h
  have hs := orBits_shape h
  have h1 : (orBits s o).bucketBit = fun j i => s.bucketBit j i || o.bucketBit j i := by
    funext j i; exact bit_orBits hb j i
  have h2 : bitAt (orBits s o).indexCache.asSlice
      = fun i => bitAt s.indexCache.asSlice i || bitAt o.indexCache.asSlice i := by
    funext i; exact cache_orBits hc i
  unfold view
  rw [h1, h2, hs.blen, hs.clen]
  rfl

theorem view_andBits {s o : V2} (h : s.hasSameParams o = true) :
    ({ s.view with
        bits := fun j i => s.view.bits j i && o.view.bits j i
        cache := fun i => s.view.cache i && o.view.cache i } : F2) = (andBits s o).view := by
  obtain ⟨_, _, hc, _, _, hb⟩ := (hasSameParams_iff s o).1 h
  have hs := andBits_shape h
  have h1 : (andBits s o).bucketBit = fun j i => s.bucketBit j i && o.bucketBit j i := by
    funext j i; exact bit_andBits hb j i
  have h2 : bitAt (andBits s o).indexCache.asSlice
      = fun i => bitAt s.indexCache.asSlice i && bitAt o.indexCache.asSlice i := by
    funext i; exact cache_andBits hc i
  unfold view
  rw [h1, h2, hs.blen, hs.clen]
  rfl

theorem view_union (env : Env) (s o : V2) :
    s.view.union (cfg env) o.view
      = ((s.unionMerge env o).1.view, (s.unionMerge env o).2.answer fun _ => .done) := by
  unfold F2.union
  rw [view_same, unionMerge_eq]
  cases h : s.hasSameParams o with
  | false => rfl
  | true =>
    simp only [if_true]
    rw [view_orBits h, view_recount]

theorem view_inter (env : Env) (s o : V2) :
    s.view.inter (cfg env) o.view
      = ((s.intersectionMerge env o).1.view,
          (s.intersectionMerge env o).2.answer fun _ => .done) := by
  unfold F2.inter
  rw [view_same, intersectionMerge_eq]
  cases h : s.hasSameParams o with
  | false => rfl
  | true =>
    simp only [if_true]
    rw [view_andBits h, view_recount]

theorem view_common (env : Env) (s o : V2) :
    s.view.common (cfg env) o.view
      = (s.countCommonEntries env o).answer fun n => .num n.toNat := by
  unfold F2.common
  rw [view_same]
  cases h : s.hasSameParams o with
  | false => unfold countCommonEntries; rw [h]; rfl
  | true =>
    simp only [if_true]
    rw [andBits_estimate_eq env h]
    have e0 : ({ s.view with bits := fun j i => s.view.bits j i && o.view.bits j i } : F2).estimate
        (cfg env) = (andBits s o).view.estimate (cfg env) := by
      rw [← view_andBits h]; rfl
    rw [e0, view_estimate]
    unfold estimate
    rw [sumU64_eq]
    have e : ∀ n, (((cfg env).checked && decide (2 ^ 64 ≤ n)) = true)
        = (env.debug = true ∧ 2 ^ 64 ≤ n) := by
      intro n; rw [Bool.and_eq_true, decide_eq_true_eq]; rfl
    simp only [e]
    split
    · rfl
    · show Answer.num _ = Answer.num _
      rw [BitVec.toNat_ofNat]

theorem view_buckets (f : V2) :
    ((List.range f.view.buckets).map fun j => pack 4096 (f.view.bits j))
      = f.buckets.map BitSet.asSlice := by
  apply List.ext_getElem
  · simp [view]
  intro i hi1 hi2
  simp only [List.getElem_map, List.getElem_range]
  simp only [List.length_map] at hi2
  have : f.view.bits i = bitAt (f.buckets[i]).asSlice := by
    funext j
    show bitAt (f.buckets.getD i (BitSet.new _)).asSlice j = _
    simp [List.getD_eq_getElem?_getD, hi2]
  rw [this]
  have hl : (f.buckets[i]).asSlice.length = 4096 := BitSet.length_asSlice _
  rw [← hl]
  exact pack_bitAt _

theorem view_file (hv : f.flags.version = 2#8) : f.view.file = f.file := by
  rw [(C23_v2_layout f hv).1]
  unfold F2.file
  have h1 : pack f.view.cacheBytes f.view.cache = f.indexCache.asSlice := pack_bitAt _
  rw [h1, view_buckets, level_eq]
  rfl

theorem view_make (env : Env) (cap : U64) (fpp : F64) (opt : OptLevel) :
    make2 (cfg env) cap fpp opt = (make env cap fpp opt).map view := by
  unfold make2
  show ((make env cap fpp opt).map _).map _ = _
  cases h : make env cap fpp opt with
  | err e => rfl
  | panic => rfl
  | ok f =>
    show Res.ok _ = Res.ok _
    congr 1
    have h1 : f.bucketBit = fun _ _ => false := by funext b i; exact make_bit h b i
    have h2 : bitAt f.indexCache.asSlice = fun _ => false := by funext i; exact make_cacheBit h i
    unfold view
    rw [h1, h2]
    obtain ⟨_, nb, nh, cbs, _, _, _, rfl⟩ := make_ok h
    rfl

theorem canon_view (hv : f.flags.version = 2#8) :
    f.canon.view = { f.view with flags := ⟨2, f.view.flags.opt, [0, 0, 0, 0, 0, 0]⟩ } := by
  unfold canon view
  rw [hv]
  rfl

theorem canon_reach (hs : env.Small) (h : Reach env f) : Reach env f.canon := .load (h.reload hs)

/-- One step of a program. -/
theorem step_view (hs : env.Small) {σ : ℕ → V2} (h : ∀ r, Reach env (σ r)) (o : Op Key) :
    (∀ r, Reach env ((step env σ o).1 r)) ∧
    step2 (cfg env) (view ∘ σ) o = (view ∘ (step env σ o).1, (step env σ o).2) := by
  cases o with
  | make r cap fpp opt =>
    simp only [step, step2, view_make]
    exact ⟨put_reach h (fun f hf => .make hf) r, put_view view σ r _⟩
  | clone r s =>
    refine ⟨set_reach h (h s) r, ?_⟩
    simp only [step, step2]
    exact Prod.ext (set_view view σ r (σ s)) rfl
  | insert r k =>
    refine ⟨set_reach h (.insertIter _ (h r)) r, ?_⟩
    have := view_insert (env := env) (h r).wf k
    simp only [step, step2, Function.comp_apply, this]
    rw [set_view]
  | contains r k =>
    refine ⟨h, ?_⟩
    simp only [step, step2, Function.comp_apply, view_contains (h r).wf k]
  | clear r =>
    refine ⟨set_reach h (.clear (h r)) r, ?_⟩
    simp only [step, step2, Function.comp_apply, view_clear]
    rw [set_view]
  | union r s =>
    refine ⟨set_reach h (.union _ (h r)) r, ?_⟩
    simp only [step, step2, Function.comp_apply, view_union]
    rw [set_view]
  | inter r s =>
    refine ⟨set_reach h (.inter _ (h r)) r, ?_⟩
    simp only [step, step2, Function.comp_apply, view_inter]
    rw [set_view]
  | common r s =>
    refine ⟨h, ?_⟩
    simp only [step, step2, Function.comp_apply, view_common]
  | same r s =>
    refine ⟨h, ?_⟩
    simp only [step, step2, Function.comp_apply, view_same]
  | setData r d =>
    refine ⟨set_reach h (.setData d (h r)) r, ?_⟩
    simp only [step, step2]
    exact Prod.ext (set_view view σ r { σ r with data := d }) rfl
  | data r => exact ⟨h, rfl⟩
  | isFull r =>
    refine ⟨h, ?_⟩
    simp only [step, step2, Function.comp_apply]
    congr 2
    rw [Bool.eq_iff_iff, decide_eq_true_eq]
    unfold isFull countEstimate
    rw [beq_iff_eq]
    exact nat_eq_iff _ _
  | count r => exact ⟨h, rfl⟩
  | ones r =>
    refine ⟨h, ?_⟩
    simp only [step, step2, Function.comp_apply, view_ones]
  | zeros r =>
    refine ⟨h, ?_⟩
    simp only [step, step2, Function.comp_apply, view_zeros]
  | file r =>
    refine ⟨h, ?_⟩
    simp only [step, step2, Function.comp_apply, view_file (h r).inv.2.1]
  | reload r =>
    simp only [step, step2, (h r).reload hs, put]
    refine ⟨set_reach h (canon_reach hs (h r)) r, ?_⟩
    refine Prod.ext ?_ rfl
    exact set_self_view view σ r _ _ (canon_view (h r).inv.2.1).symm

end V2

/-! ### v1 -/

namespace V1

variable {env : Env} {f : V1}

theorem view_covered (f : V1) (k : List U8) : f.view.covered k = f.allSet k := by
  unfold F1.covered
  rw [Bool.eq_iff_iff, decide_eq_true_eq, allSet_iff]
  rfl

theorem view_ones (f : V1) : f.view.ones = f.countOnes := (countOnes_eq f).symm

theorem view_zeros (f : V1) : f.view.words * 64 - f.view.ones = f.countZeros := by
  have h : f.countOnes + f.countZeros = f.bitset.length * 64 := by
    rw [countOnes_eq]
    unfold countZeros
    rw [sum_countZeros]
    unfold countBelow
    have := List.length_eq_countP_add_countP (bitAt f.bitset)
      (l := List.range (f.bitset.length * 64))
    simp only [List.length_range] at this
    simpa using this.symm
  rw [view_ones]
  show f.bitset.length * 64 - _ = _
  omega

theorem toNat_eq_zero (a : U64) : a.toNat = 0 ↔ a = 0 :=
  ⟨fun h => BitVec.eq_of_toNat_eq h, fun h => by rw [h]; rfl⟩

theorem view_insert (w : f.WF) (k : List U8) :
    f.view.insert k = ((f.insertBytes env k).1.view, (f.insertBytes env k).2.answer .bool) := by
  unfold F1.insert
  have ecap : (f.view.cap = 0) = (f.capacity = 0) := propext (toNat_eq_zero _)
  have esize : (f.view.size = 0) = (f.bitSize = 0) := propext (toNat_eq_zero _)
  have ehash : (f.view.hashes ≠ 0) = (f.nHash ≠ 0) := propext (not_congr (toNat_eq_zero _))
  simp only [ecap, esize, ehash, view_covered]
  by_cases hcap : f.capacity = 0
  · rw [if_pos hcap]
    unfold insertBytes
    rw [if_pos hcap]
    rfl
  rw [if_neg hcap]
  by_cases hk : f.nHash = 0
  · rw [if_neg (fun h => h.2 hk), insertBytes_noHash env w k hcap hk]
    have : f.allSet k = true := by rw [allSet_iff, hk]; simp
    rw [this]
    rfl
  by_cases hm : f.bitSize = 0
  · rw [if_pos ⟨hm, hk⟩, insertBytes_noBits env w.fpCount (by rw [w.fpM, hm]) k hcap hk]
    rfl
  rw [if_neg (fun h => hm h.1), insertBytes_eq env w k hcap hm]
  cases hs : f.allSet k with
  | true =>
    simp only [if_true, Bool.true_eq_false, and_false, if_false]
    refine Prod.ext ?_ rfl
    have : f.added k = f := by
      unfold added
      rw [setAllW_of_all, hs]
      · rfl
      intro p hp
      obtain ⟨n, hn, rfl⟩ := List.mem_map.1 hp
      exact (allSet_iff f k).1 hs n (List.mem_range.1 hn)
    rw [this]
  | false =>
    simp only [Bool.false_eq_true, if_false, and_true]
    have e : (f.view.cap ≤ f.view.count) = (f.capacity ≤ f.count) := rfl
    simp only [e]
    by_cases hfull : f.capacity ≤ f.count
    · rw [if_pos hfull, if_pos hfull]; rfl
    rw [if_neg hfull, if_neg hfull]
    refine Prod.ext ?_ rfl
    have hb : bitAt (f.added k).bitset = fun i => bitAt f.bitset i ||
        decide (∃ n < f.nHash.toNat, i = dcsoProbe k f.bitSize.toNat n) := by
      funext i; exact bit_added w hm k i
    have hc : (f.added k).count.toNat = f.count.toNat + 1 := by
      unfold added
      rw [hs]
      show (f.count + 1).toNat = _
      have h1 : f.count.toNat < f.capacity.toNat := by
        rw [BitVec.le_def] at hfull; omega
      have := f.capacity.isLt
      rw [BitVec.toNat_add, show (1 : U64).toNat = 1 from rfl, Nat.mod_eq_of_lt (by omega)]
    have hl : (f.added k).bitset.length = f.bitset.length := added_length ..
    show _ = (f.added k).view
    unfold view
    rw [hb, hc, hl]
    rfl

theorem view_contains (hf : Fits env f) (w : f.WF) (k : List U8) :
    f.view.contains k = (f.containsBytes k).answer .bool := by
  unfold F1.contains
  have esize : (f.view.size ≠ 0) = (f.bitSize ≠ 0) := propext (not_congr (toNat_eq_zero _))
  simp only [esize, view_covered]
  by_cases hm : f.bitSize = 0
  · rw [containsBytes_empty (bitset_nil hf hm)]
    simp [hm, Res.answer]
  · rw [containsBytes_eq w k hm, show decide (f.bitSize ≠ 0) = true by simpa using hm]
    rfl

theorem view_clear (f : V1) : f.view.clear = f.clear.view := by
  have h := clear_shape f
  unfold F1.clear view
  have hb : bitAt f.clear.bitset = fun _ => false := by funext i; exact bit_clear f i
  rw [hb, h.len]
  rfl

theorem view_same (s o : V1) : s.view.same o.view = s.hasSameParams o := by
  rw [Bool.eq_iff_iff, hasSameParams_iff]
  unfold F1.same
  rw [decide_eq_true_eq]
  simp only [view, BitVec.toNat_inj]

theorem est_eq (env : Env) (k m : U64) (n : ℕ) :
    (cfg env).est k.toNat m.toNat n = (estimateCount env.libm m (BitVec.ofNat 64 n) k).toNat := by
  show (estimateCount env.libm (BitVec.ofNat 64 m.toNat) _ (BitVec.ofNat 64 k.toNat)).toNat = _
  rw [BitVec.ofNat_toNat, BitVec.ofNat_toNat, BitVec.setWidth_eq, BitVec.setWidth_eq]

theorem view_union (env : Env) (s o : V1) :
    s.view.union (cfg env) o.view
      = ((s.unionMerge env o).1.view, (s.unionMerge env o).2.answer fun _ => .done) := by
  unfold F1.union
  rw [view_same, unionMerge_eq]
  cases h : s.hasSameParams o with
  | false => rfl
  | true =>
    simp only [if_true]
    refine Prod.ext ?_ rfl
    have hl := ((hasSameParams_iff s o).1 h).2.2.2.2.2
    have hb : bitAt (orBits s o).bitset = fun i => bitAt s.bitset i || bitAt o.bitset i := by
      funext i; exact bit_orBits hl i
    have hlen := (orBits_shape h).len
    have e : ({ s.view with bits := fun i => s.view.bits i || o.view.bits i } : F1)
        = (orBits s o).view := by
      unfold view
      rw [hb, hlen]
      rfl
    have h1 : (updateCount env (orBits s o)).view = { (orBits s o).view with
        count := (estimateCount env.libm s.bitSize (BitVec.ofNat 64 (orBits s o).countOnes)
          s.nHash).toNat } := rfl
    show _ = (updateCount env (orBits s o)).view
    rw [h1, ← est_eq, ← view_ones, ← e]
    rfl

theorem view_common (env : Env) (s o : V1) :
    s.view.common (cfg env) o.view
      = (s.countCommonEntries env o).answer fun n => .num n.toNat := by
  unfold F1.common countCommonEntries countOnesInCommon
  rw [view_same]
  cases h : s.hasSameParams o with
  | false => rfl
  | true =>
    have hl := ((hasSameParams_iff s o).1 h).2.2.2.2.2
    simp only [if_true, Bool.not_true, Bool.false_eq_true, if_false, hl, Res.bind_ok]
    show Answer.num _ = Answer.num _
    congr 1
    show (cfg env).est s.nHash.toNat s.bitSize.toNat _ = _
    rw [est_eq]
    congr 4
    rw [sum_countOnes]
    have hlen : (List.zipWith (· &&& ·) s.bitset o.bitset).length = s.bitset.length := by
      rw [List.length_zipWith, ← hl, Nat.min_self]
    rw [hlen]
    unfold F1.ones
    congr 1
    funext i
    exact (bitAt_zipWith_and hl i).symm

theorem view_file (f : V1) : f.view.file = f.file := by
  rw [(C23_v1_layout f).1]
  unfold F1.file
  rw [show Abs.words f.view.words f.view.bits = f.bitset.map BitVec.toNat from words_bitAt _]
  rfl

theorem view_make (env : Env) (cap : U64) (fpp : F64) :
    make1 (cfg env) cap fpp = (withCapacity env cap fpp).map view := by
  unfold make1
  show ((withCapacity env cap fpp).map _).map _ = _
  cases h : withCapacity env cap fpp with
  | err e => rfl
  | panic => rfl
  | ok f =>
    show Res.ok _ = Res.ok _
    congr 1
    have h1 : bitAt f.bitset = fun _ => false := by funext i; exact make_bit h i
    unfold view
    rw [h1]
    obtain ⟨_, _, rfl⟩ := withCapacity_ok h
    rfl

/-- One step of a program. -/
theorem step_view (hs : env.Small) {σ : ℕ → V1} (h : ∀ r, Reach env (σ r)) (o : Op (List U8)) :
    (∀ r, Reach env ((step env σ o).1 r)) ∧
    step1 (cfg env) (view ∘ σ) o = (view ∘ (step env σ o).1, (step env σ o).2) := by
  cases o with
  | make r cap fpp opt =>
    simp only [step, step1, view_make]
    exact ⟨put_reach h (fun f hf => .make hf) r, put_view view σ r _⟩
  | clone r s =>
    refine ⟨set_reach h (h s) r, ?_⟩
    simp only [step, step1]
    exact Prod.ext (set_view view σ r (σ s)) rfl
  | insert r k =>
    refine ⟨set_reach h (.insert _ (h r)) r, ?_⟩
    have := view_insert (env := env) ((h r).wf hs) k
    simp only [step, step1, Function.comp_apply, this]
    rw [set_view]
  | contains r k =>
    refine ⟨h, ?_⟩
    simp only [step, step1, Function.comp_apply, view_contains (h r).fits ((h r).wf hs) k]
  | clear r =>
    refine ⟨set_reach h (.clear (h r)) r, ?_⟩
    simp only [step, step1, Function.comp_apply, view_clear]
    rw [set_view]
  | union r s =>
    refine ⟨set_reach h (.union _ (h r)) r, ?_⟩
    simp only [step, step1, Function.comp_apply, view_union]
    rw [set_view]
  | inter r s => exact ⟨h, rfl⟩
  | common r s =>
    refine ⟨h, ?_⟩
    simp only [step, step1, Function.comp_apply, view_common]
  | same r s =>
    refine ⟨h, ?_⟩
    simp only [step, step1, Function.comp_apply, view_same]
  | setData r d =>
    refine ⟨set_reach h (.setData d (h r)) r, ?_⟩
    simp only [step, step1]
    exact Prod.ext (set_view view σ r { σ r with data := d }) rfl
  | data r => exact ⟨h, rfl⟩
  | isFull r =>
    refine ⟨h, ?_⟩
    simp only [step, step1, Function.comp_apply]
    congr 2
    rw [Bool.eq_iff_iff, decide_eq_true_eq]
    unfold isFull countEstimate
    rw [beq_iff_eq]
    exact BitVec.toNat_inj
  | count r => exact ⟨h, rfl⟩
  | ones r =>
    refine ⟨h, ?_⟩
    simp only [step, step1, Function.comp_apply, view_ones]
  | zeros r =>
    refine ⟨h, ?_⟩
    simp only [step, step1, Function.comp_apply, view_zeros]
  | file r =>
    refine ⟨h, ?_⟩
    simp only [step, step1, Function.comp_apply, view_file]
  | reload r =>
    simp only [step, step1, (h r).fits.reload, put]
    refine ⟨set_reach h (.load (h r).fits.reload) r, ?_⟩
    refine Prod.ext ?_ rfl
    exact set_self_view view σ r _ _ rfl

end V1

end Poppy
