import Verif.Lemmas.Origin

/-! Membership along histories. -/

namespace Poppy
open Spec

theorem toNat_xorshiftStar (h : U64) : (xorshiftStar h).toNat = Spec.xorshift h.toNat := by
  have hshl : ∀ (x : U64) (k : ℕ), (x <<< k).toNat = x.toNat * 2 ^ k % 2 ^ 64 := by
    intro x k; rw [BitVec.toNat_shiftLeft, Nat.shiftLeft_eq]
  have hshr : ∀ (x : U64) (k : ℕ), (x >>> k).toNat = x.toNat / 2 ^ k := by
    intro x k; rw [BitVec.toNat_ushiftRight, Nat.shiftRight_eq_div_pow]
  have hx : ∀ (x y : U64), (x ^^^ y).toNat = Nat.xor x.toNat y.toNat := by
    intro x y; rw [BitVec.toNat_xor]; rfl
  have hk : (2685821657736338717#64).toNat = 2685821657736338717 := by decide
  obtain ⟨a, ha⟩ : ∃ a, a = h ^^^ (h <<< 12) := ⟨_, rfl⟩
  obtain ⟨b, hb⟩ : ∃ b, b = a ^^^ (a >>> 25) := ⟨_, rfl⟩
  obtain ⟨c, hc⟩ : ∃ c, c = b ^^^ (b <<< 27) := ⟨_, rfl⟩
  have e0 : xorshiftStar h = c * 2685821657736338717#64 := by rw [hc, hb, ha]; rfl
  obtain ⟨na, hna⟩ : ∃ a, a = Nat.xor h.toNat (h.toNat * 2 ^ 12 % 2 ^ 64) := ⟨_, rfl⟩
  obtain ⟨nb, hnb⟩ : ∃ b, b = Nat.xor na (na / 2 ^ 25) := ⟨_, rfl⟩
  obtain ⟨nc, hnc⟩ : ∃ c, c = Nat.xor nb (nb * 2 ^ 27 % 2 ^ 64) := ⟨_, rfl⟩
  have e1 : Spec.xorshift h.toNat = nc * 2685821657736338717 % 2 ^ 64 := by
    rw [hnc, hnb, hna]; rfl
  have ea : a.toNat = na := by rw [ha, hna, hx, hshl]
  have eb : b.toNat = nb := by rw [hb, hnb, hx, hshr, ea]
  have ec : c.toNat = nc := by rw [hc, hnc, hx, hshl, eb]
  rw [e0, e1, BitVec.toNat_mul, hk, ec]

namespace V2

theorem addU64_ne_err (d : Bool) (a b : U64) (e : Error) : addU64 d a b ≠ .err e := by
  unfold addU64; split <;> simp

theorem sumU64_ne_err (d : Bool) (l : List U64) (e : Error) : sumU64 d l ≠ .err e := by
  have : ∀ (l : List U64) (acc : Res U64), (∀ e, acc ≠ .err e) →
      ∀ e, l.foldl (fun acc x => do let a ← acc; addU64 d a x) acc ≠ .err e := by
    intro l
    induction l with
    | nil => intro acc h; exact h
    | cons x l ih =>
      intro acc h
      rw [List.foldl_cons]
      apply ih
      intro e
      cases acc with
      | ok a => exact addU64_ne_err d a x e
      | err e => exact absurd rfl (h e)
      | panic => simp
  exact this l _ (by simp) e

theorem keyBucket_eq (env : Env) (f : V2) (k : Key) :
    f.keyBucket env k = f.bucketOf (k.hashPop env.wy) := by
  unfold keyBucket bucketOf; rw [toNat_xorshiftStar]

theorem keyProbe_eq (env : Env) (k : Key) (n : ℕ) :
    keyProbe env k n = probe env (k.hashPop env.wy) n := rfl

theorem keyCache_eq (env : Env) {f : V2} (w : f.WF) (hne : f.indexCache.asSlice ≠ []) (k : Key) :
    f.keyCache env k = f.cacheIdx (k.hashPop env.wy) := by
  have hl := bitLen_toNat w
  have hpos : 0 < f.indexCache.asSlice.length := List.length_pos_iff.2 hne
  have h1 : (f.indexCache.bitLen - 1).toNat = f.indexCache.asSlice.length * 8 - 1 := by
    have := f.indexCache.bitLen.isLt
    rw [BitVec.toNat_sub, show (1 : U64).toNat = 1 from rfl]
    have hh : (2 ^ 64 - 1 + f.indexCache.bitLen.toNat) % 2 ^ 64
        = f.indexCache.bitLen.toNat - 1 := by omega
    rw [hh, hl]
  unfold keyCache cacheIdx
  rw [BitVec.toNat_and, h1, toNat_xorshiftStar]
  rfl

/-- Everything about a successful insertion. -/
theorem insert_ok (env : Env) {f : V2} (w : f.WF) {k : Key} {g : V2} {b : Bool}
    (h : f.insert env k = (g, .ok b)) :
    f.capacity ≠ 0 ∧ f.buckets ≠ [] ∧ g = added env f (k.hashPop env.wy) ∧
      b = !allSet env f (k.hashPop env.wy) ∧
      ¬ (f.count = f.capacity ∧ allSet env f (k.hashPop env.wy) = false) ∧
      ¬ (CountOverflow env f ∧ allSet env f (k.hashPop env.wy) = false) := by
  by_cases hc : f.capacity = 0
  · rw [insert_noCap env k hc] at h; simp at h
  by_cases hb : f.buckets = []
  · rw [insert_nil env k hc hb] at h; simp at h
  rw [insert_cases env w k hc hb] at h
  split at h
  · simp at h
  · split at h
    · simp at h
    · simp only [Prod.mk.injEq, Res.ok.injEq] at h
      exact ⟨hc, hb, h.1.symm, h.2.symm, by assumption, by assumption⟩

/-- A rejected insertion. -/
theorem insert_err (env : Env) {f : V2} (w : f.WF) {k : Key} {g : V2} {e : Error}
    (h : f.insert env k = (g, .err e)) : g = f ∧ e = .tooManyEntries ∧
      (f.capacity = 0 ∨ f.count = f.capacity ∧ allSet env f (k.hashPop env.wy) = false) := by
  by_cases hc : f.capacity = 0
  · rw [insert_noCap env k hc] at h
    simp only [Prod.mk.injEq, Res.err.injEq] at h
    exact ⟨h.1.symm, h.2.symm, Or.inl hc⟩
  by_cases hb : f.buckets = []
  · rw [insert_nil env k hc hb] at h; simp at h
  rw [insert_cases env w k hc hb] at h
  split at h
  · simp only [Prod.mk.injEq, Res.err.injEq] at h
    exact ⟨h.1.symm, h.2.symm, Or.inr (by assumption)⟩
  · split at h <;> simp at h

/-- A successful union. -/
theorem unionMerge_ok (env : Env) {s o g : V2} {u : Unit} (h : s.unionMerge env o = (g, .ok u)) :
    s.hasSameParams o = true ∧ ∃ c, g = { orBits s o with count := c } := by
  rw [unionMerge_eq] at h
  split at h
  · rename_i hp
    obtain ⟨c, hc⟩ := updateCount_state env (orBits s o)
    rw [h] at hc
    exact ⟨hp, c, hc⟩
  · simp at h

theorem unionMerge_err (env : Env) {s o g : V2} {e : Error} (h : s.unionMerge env o = (g, .err e)) :
    s.hasSameParams o = false ∧ g = s := by
  rw [unionMerge_eq] at h
  split at h
  · unfold updateCount at h
    cases hs : sumU64 env.debug
        ((orBits s o).buckets.map fun b => bucketEstimate env (orBits s o).nHashBuck b.countOnes) with
    | ok c => rw [hs] at h; simp at h
    | err e => exact absurd hs (sumU64_ne_err _ _ _)
    | panic => rw [hs] at h; simp at h
  · rename_i hp
    simp only [Prod.mk.injEq] at h
    exact ⟨by simpa using hp, h.1.symm⟩

theorem Holds.built {env : Env} {f : V2} {S : List Key} (h : Holds env f S) : Built env f := by
  induction h with
  | make h => exact .make h
  | @insert f g S k b _ hi ih =>
    have : g = (f.insertIter env (buildIndexIter env k)).1 := by
      show g = (f.insert env k).1; rw [hi]
    rw [this]; exact .insertIter _ ih
  | @rejected f g S k e _ hi ih =>
    have : g = (f.insertIter env (buildIndexIter env k)).1 := by
      show g = (f.insert env k).1; rw [hi]
    rw [this]; exact .insertIter _ ih
  | @union f o g S T _ _ hu ih _ =>
    have : g = (f.unionMerge env o).1 := by rw [hu]
    rw [this]; exact .union o ih
  | @refused f o g S e _ hu ih =>
    have : g = (f.unionMerge env o).1 := by rw [hu]
    rw [this]; exact .union o ih
  | clear _ _ ih => exact .clear ih
  | setData d _ ih => exact .setData d ih
  | reload _ hr ih => exact .reload ih hr

theorem make_bit {env : Env} {cap : U64} {fpp : F64} {opt : OptLevel} {f : V2}
    (h : V2.make env cap fpp opt = .ok f) (b i : ℕ) : f.bit b i = false := by
  obtain ⟨hin, nb, nh, cbs, hsz, _, _, rfl⟩ := make_ok h
  unfold bit
  simp only [List.getD_eq_getElem?_getD, List.getElem?_replicate]
  split <;> exact BitSet.bitAt_new i

theorem make_cacheBit {env : Env} {cap : U64} {fpp : F64} {opt : OptLevel} {f : V2}
    (h : V2.make env cap fpp opt = .ok f) (i : ℕ) : bitAt f.indexCache.asSlice i = false := by
  obtain ⟨hin, nb, nh, cbs, hsz, _, _, rfl⟩ := make_ok h
  exact VecBitSet.bitAt_withBitCapacity _ i

theorem isEmpty_iff (f : V2) : f.indexCache.isEmpty = true ↔ f.indexCache.asSlice = [] :=
  List.isEmpty_iff

/-- The bits of a filter are those of its members. -/
theorem Holds.bits {env : Env} (hs : env.Small) {f : V2} {S : List Key} (h : Holds env f S) :
    (∀ b i, f.bit b i = true ↔
      ∃ k ∈ S, b = f.bucketOf (k.hashPop env.wy) ∧
        ∃ n < f.nHashBuck.toNat, i = probe env (k.hashPop env.wy) n) ∧
    (∀ i, bitAt f.indexCache.asSlice i = true ↔
      f.indexCache.asSlice ≠ [] ∧ ∃ k ∈ S, i = f.cacheIdx (k.hashPop env.wy)) := by
  induction h with
  | make h => simp [make_bit h, make_cacheBit h]
  | @insert f g S k b hf hi ih =>
    have w := hf.built.reach.wf
    obtain ⟨hc, hb, rfl, _⟩ := insert_ok env w hi
    have hbk : ∀ x, (added env f (k.hashPop env.wy)).bucketOf x = f.bucketOf x :=
      fun x => bucketOf_congr (added_length _ _ _) x
    have hck : ∀ x, (added env f (k.hashPop env.wy)).cacheIdx x = f.cacheIdx x :=
      fun x => cacheIdx_congr (added_cache_length _ _ _) x
    refine ⟨fun b i => ?_, fun i => ?_⟩
    · rw [bit_added env hb, Bool.or_eq_true, ih.1]
      simp only [List.mem_cons, exists_eq_or_imp, Bool.and_eq_true, decide_eq_true_eq, hbk,
        added_nHash]
      exact or_comm
    · by_cases hcn : f.indexCache.asSlice = []
      · have h1 : (added env f (k.hashPop env.wy)).indexCache.asSlice = [] := by
          rw [← List.length_eq_zero_iff, added_cache_length, hcn]; rfl
        simp [h1, bitAt]
      · have hce : f.indexCache.asSlice.isEmpty = false := by simpa using hcn
        have h1 : (added env f (k.hashPop env.wy)).indexCache.asSlice ≠ [] := by
          have := added_cache_isEmpty env f (k.hashPop env.wy)
          rw [hce] at this
          simpa using this
        rw [cacheBit_added env w hce, Bool.or_eq_true, ih.2]
        simp only [List.mem_cons, exists_eq_or_imp, decide_eq_true_eq, hck, ne_eq, h1, hcn,
          not_false_eq_true, true_and]
        exact or_comm
  | @rejected f g S k e hf hi ih =>
    obtain ⟨rfl, _⟩ := insert_err env hf.built.reach.wf hi
    exact ih
  | @union f o g S T hf ho hu ih1 ih2 =>
    obtain ⟨hp, c, rfl⟩ := unionMerge_ok env hu
    obtain ⟨_, _, hc, _, hn, hb⟩ := (hasSameParams_iff f o).1 hp
    have hsh := orBits_shape hp
    have hbk : ∀ x, ({ orBits f o with count := c } : V2).bucketOf x = f.bucketOf x :=
      fun x => bucketOf_congr hsh.blen x
    have hck : ∀ x, ({ orBits f o with count := c } : V2).cacheIdx x = f.cacheIdx x :=
      fun x => cacheIdx_congr hsh.clen x
    have hbo : ∀ x, o.bucketOf x = f.bucketOf x := fun x => bucketOf_congr hb.symm x
    have hco : ∀ x, o.cacheIdx x = f.cacheIdx x := fun x => cacheIdx_congr hc.symm x
    refine ⟨fun b i => ?_, fun i => ?_⟩
    · show (orBits f o).bit b i = true ↔ _
      rw [bit_orBits hb, Bool.or_eq_true, ih1.1, ih2.1]
      simp only [hbk, hbo, List.mem_append, or_and_right, exists_or, ← hn]
      rfl
    · show bitAt (orBits f o).indexCache.asSlice i = true ↔ (orBits f o).indexCache.asSlice ≠ [] ∧ _
      have he : (orBits f o).indexCache.asSlice ≠ [] ↔ f.indexCache.asSlice ≠ [] := by
        rw [← List.length_pos_iff, ← List.length_pos_iff, hsh.clen]
      have he' : o.indexCache.asSlice ≠ [] ↔ f.indexCache.asSlice ≠ [] := by
        rw [← List.length_pos_iff, ← List.length_pos_iff, hc]
      rw [cache_orBits hc, Bool.or_eq_true, ih1.2, ih2.2, he, he']
      simp only [hck, hco, List.mem_append, or_and_right, exists_or]
      exact and_or_left.symm
  | refused _ hu ih =>
    obtain ⟨_, rfl⟩ := unionMerge_err env hu
    exact ih
  | @clear f S _ hc ih =>
    refine ⟨fun b i => by simp [bit_clear], fun i => ?_⟩
    have : f.clear.indexCache.asSlice = [] := (isEmpty_iff f).1 hc
    simp [this, bitAt]
  | setData d _ ih => exact ih
  | @reload f g S hf hr ih =>
    obtain ⟨h1, h2, h3⟩ := hf.built.inv hs
    rw [file_eq, fromReader_ser h1 hs h2, Fits.canon_eq h3] at hr
    cases hr
    exact ih

theorem allSet_ext {env : Env} {f g : V2} (e : Ext f g) {h : U64} (ha : allSet env f h = true) :
    allSet env g h = true := by
  rw [allSet_iff] at ha ⊢
  intro n hn
  rw [bucketOf_congr e.blen]
  exact e.bits _ _ (ha n (by rw [← e.nHash]; exact hn))

theorem cacheOk_iff (f : V2) (h : U64) : f.cacheOk h = true ↔
    f.indexCache.asSlice = [] ∨ bitAt f.indexCache.asSlice (f.cacheIdx h) = true := by
  simp [cacheOk]

theorem cacheOk_ext {f g : V2} (e : Ext f g) {h : U64} (ha : f.cacheOk h = true) :
    g.cacheOk h = true := by
  rw [cacheOk_iff] at ha ⊢
  rcases ha with ha | ha
  · left
    rw [← List.length_eq_zero_iff, e.clen, ha]; rfl
  · right
    rw [cacheIdx_congr e.clen]
    exact e.cache _ ha

theorem allSet_added (env : Env) {f : V2} (hb : f.buckets ≠ []) (h : U64) :
    allSet env (added env f h) h = true := by
  rw [allSet_iff]
  intro n hn
  rw [bucketOf_congr (added_length _ _ _), bit_added env hb]
  simp only [decide_true, Bool.true_and, Bool.or_eq_true, decide_eq_true_eq]
  exact Or.inr ⟨n, hn, rfl⟩

theorem cacheOk_added (env : Env) {f : V2} (w : f.WF) (h : U64) :
    (added env f h).cacheOk h = true := by
  rw [cacheOk_iff]
  cases hc : f.indexCache.asSlice.isEmpty with
  | true =>
    left
    rw [← List.length_eq_zero_iff, added_cache_length, List.isEmpty_iff.1 hc]; rfl
  | false =>
    right
    rw [cacheBit_added env w hc, cacheIdx_congr (added_cache_length _ _ _)]
    simp

/-- What stays true of a key as long as nothing removes it. -/
structure Has (env : Env) (k : Key) (f : V2) : Prop where
  reach : V2.Reach env f
  cap : f.capacity ≠ 0
  buckets : f.buckets ≠ []
  all : V2.allSet env f (k.hashPop env.wy) = true
  cache : f.cacheOk (k.hashPop env.wy) = true

theorem Has.contains {env : Env} {k : Key} {f : V2} (h : Has env k f) :
    f.contains env k = .ok true := by
  rw [V2.contains_eq env h.reach.wf k h.cap h.buckets, h.all, h.cache]; rfl

theorem Has.ext {env : Env} {k : Key} {f g : V2} (h : Has env k f) (e : V2.Ext f g)
    (hr : V2.Reach env g) : Has env k g := by
  refine ⟨hr, by rw [e.capacity]; exact h.cap, ?_, V2.allSet_ext e h.all, V2.cacheOk_ext e h.cache⟩
  have := h.buckets
  rw [← List.length_pos_iff] at this ⊢
  rw [e.blen]; exact this

theorem Has.keep {env : Env} (hs : env.Small) {k : Key} {f g : V2} (h : Has env k f)
    (st : V2.Keep env k f g) : Has env k g := by
  cases st with
  | insert key => exact h.ext (V2.insert_ext env f key) (.insertIter _ h.reach)
  | insertIter it => exact h.ext (V2.insertIter_ext env f it) (.insertIter _ h.reach)
  | union o => exact h.ext (V2.unionMerge_ext env f o) (.union _ h.reach)
  | inter o ho =>
    have hr : V2.Reach env (f.intersectionMerge env o).1 := .inter o h.reach
    have w := h.reach.wf
    rw [V2.intersectionMerge_eq] at hr ⊢
    split at hr <;> rename_i hp
    swap
    · rw [if_neg hp]; exact h
    rw [if_pos hp]
    obtain ⟨_, hcap, hc, _, hn, hb⟩ := (V2.hasSameParams_iff f o).1 hp
    have hob : o.buckets ≠ [] := by
      have := h.buckets
      rw [← List.length_pos_iff] at this ⊢
      omega
    have wo : o.WF := ⟨by rw [← hb]; exact w.1, by rw [← hc]; exact w.2⟩
    rw [V2.contains_eq env wo k (by rw [← hcap]; exact h.cap) hob] at ho
    simp only [Res.ok.injEq, Bool.and_eq_true] at ho
    obtain ⟨c, hu⟩ := V2.updateCount_state env (V2.andBits f o)
    rw [hu] at hr ⊢
    have hsh := V2.andBits_shape hp
    refine ⟨hr, h.cap, ?_, ?_, ?_⟩
    · show (V2.andBits f o).buckets ≠ []
      have := h.buckets
      rw [← List.length_pos_iff] at this ⊢
      rw [hsh.blen]; exact this
    · have h1 := h.all
      have h2 := ho.2
      rw [V2.allSet_iff] at h1 h2 ⊢
      intro n hn'
      have e1 : ({ V2.andBits f o with count := c } : V2).bucketOf (k.hashPop env.wy)
        = f.bucketOf (k.hashPop env.wy) := V2.bucketOf_congr hsh.blen _
      have e2 : o.bucketOf (k.hashPop env.wy) = f.bucketOf (k.hashPop env.wy) :=
        V2.bucketOf_congr hb.symm _
      rw [e1]
      show (V2.andBits f o).bit _ _ = true
      rw [V2.bit_andBits hb, h1 n hn']
      rw [e2] at h2
      rw [h2 n (by rw [← hn]; exact hn')]; rfl
    · have h1 := h.cache
      have h2 := ho.1
      rw [V2.cacheOk_iff] at h1 h2 ⊢
      by_cases he : f.indexCache.asSlice = []
      · left
        show (V2.andBits f o).indexCache.asSlice = []
        rw [← List.length_eq_zero_iff, hsh.clen, he]; rfl
      · right
        have he' : o.indexCache.asSlice ≠ [] := by
          rw [← ne_eq, ← List.length_pos_iff] at he
          rw [← List.length_pos_iff]; omega
        simp only [he, he', false_or] at h1 h2
        have e1 : ({ V2.andBits f o with count := c } : V2).cacheIdx (k.hashPop env.wy)
          = f.cacheIdx (k.hashPop env.wy) := V2.cacheIdx_congr hsh.clen _
        have e2 : o.cacheIdx (k.hashPop env.wy) = f.cacheIdx (k.hashPop env.wy) :=
          V2.cacheIdx_congr hc.symm _
        rw [e1]
        show bitAt (V2.andBits f o).indexCache.asSlice _ = true
        rw [e2] at h2
        rw [V2.cache_andBits hc, h1, h2]; rfl
  | setData d => exact ⟨.setData d h.reach, h.cap, h.buckets, h.all, h.cache⟩
  | reload hr =>
    have hl := hr
    rw [h.reach.reload hs] at hr
    cases hr
    exact ⟨.load hl, h.cap, h.buckets, h.all, h.cache⟩

end V2

namespace V1

theorem added_noHash {f : V1} (hk : f.nHash = 0) (k : List U8) : f.added k = f := by
  obtain ⟨fl, bs, c, p, nh, sz, ct, d, fp⟩ := f
  simp only at hk
  subst hk
  simp [added, allSet, setAllW]

/-- Everything about a successful insertion. -/
theorem insert_ok (env : Env) {f : V1} (w : f.WF) {k : List U8} {g : V1} {b : Bool}
    (h : f.insertBytes env k = (g, .ok b)) :
    f.capacity ≠ 0 ∧ (f.bitSize ≠ 0 ∨ f.nHash = 0) ∧ g = f.added k ∧ b = !f.allSet k ∧
      ¬ (f.capacity ≤ f.count ∧ f.allSet k = false) := by
  by_cases hc : f.capacity = 0
  · simp [insertBytes, hc] at h
  by_cases hk : f.nHash = 0
  · have ha : f.allSet k = true := by simp [allSet, hk]
    rw [insertBytes_noHash env w k hc hk] at h
    simp only [Prod.mk.injEq, Res.ok.injEq] at h
    exact ⟨hc, Or.inr hk, by rw [added_noHash hk, h.1], by rw [ha, ← h.2]; rfl, by simp [ha]⟩
  by_cases hm : f.bitSize = 0
  · rw [insertBytes_noBits env w.fpCount (w.fpM.trans hm) k hc hk] at h
    simp at h
  rw [insertBytes_eq env w k hc hm] at h
  split at h
  · simp at h
  · simp only [Prod.mk.injEq, Res.ok.injEq] at h
    exact ⟨hc, Or.inl hm, h.1.symm, h.2.symm, by assumption⟩

theorem insert_err (env : Env) {f : V1} (w : f.WF) {k : List U8} {g : V1} {e : Error}
    (h : f.insertBytes env k = (g, .err e)) : g = f ∧ e = .tooManyEntries ∧
      (f.capacity = 0 ∨ f.capacity ≤ f.count ∧ f.allSet k = false) := by
  by_cases hc : f.capacity = 0
  · simp only [insertBytes, hc, if_true, Prod.mk.injEq, Res.err.injEq] at h
    exact ⟨h.1.symm, h.2.symm, Or.inl hc⟩
  by_cases hk : f.nHash = 0
  · rw [insertBytes_noHash env w k hc hk] at h
    simp at h
  by_cases hm : f.bitSize = 0
  · rw [insertBytes_noBits env w.fpCount (w.fpM.trans hm) k hc hk] at h
    simp at h
  rw [insertBytes_eq env w k hc hm] at h
  split at h
  · simp only [Prod.mk.injEq, Res.err.injEq] at h
    exact ⟨h.1.symm, h.2.symm, Or.inr (by assumption)⟩
  · simp at h

theorem unionMerge_ok (env : Env) {s o g : V1} {u : Unit} (h : s.unionMerge env o = (g, .ok u)) :
    s.hasSameParams o = true ∧ g = (orBits s o).updateCount env := by
  rw [unionMerge_eq] at h
  split at h
  · simp only [Prod.mk.injEq] at h
    exact ⟨by assumption, h.1.symm⟩
  · simp at h

theorem unionMerge_err (env : Env) {s o g : V1} {e : Error} (h : s.unionMerge env o = (g, .err e)) :
    s.hasSameParams o = false ∧ g = s := by
  rw [unionMerge_eq] at h
  split at h
  · simp at h
  · rename_i hp
    simp only [Prod.mk.injEq] at h
    exact ⟨by simpa using hp, h.1.symm⟩

theorem Holds.built {env : Env} {f : V1} {S : List (List U8)} (h : Holds env f S) :
    Built env f := by
  induction h with
  | make h => exact .make h
  | @insert f g S k b _ hi ih =>
    have : g = (f.insertBytes env k).1 := by rw [hi]
    rw [this]; exact .insert _ ih
  | @rejected f g S k e _ hi ih =>
    have : g = (f.insertBytes env k).1 := by rw [hi]
    rw [this]; exact .insert _ ih
  | @union f o g S T _ _ hu ih _ =>
    have : g = (f.unionMerge env o).1 := by rw [hu]
    rw [this]; exact .union o ih
  | @refused f o g S e _ hu ih =>
    have : g = (f.unionMerge env o).1 := by rw [hu]
    rw [this]; exact .union o ih
  | clear _ ih => exact .clear ih
  | setData d _ ih => exact .setData d ih
  | reload _ hr ih => exact .reload ih hr

theorem make_bit {env : Env} {cap : U64} {fpp : F64} {f : V1}
    (h : withCapacity env cap fpp = .ok f) (i : ℕ) : bitAt f.bitset i = false := by
  obtain ⟨_, _, rfl⟩ := withCapacity_ok h
  exact bitAt_replicate_zero _ _

/-- The bits of a filter are those of its members. -/
theorem Holds.bits {env : Env} (hs : env.Small) {f : V1} {S : List (List U8)}
    (h : Holds env f S) (i : ℕ) :
    bitAt f.bitset i = true ↔
      ∃ k ∈ S, ∃ n < f.nHash.toNat, i = dcsoProbe k f.bitSize.toNat n := by
  induction h with
  | make h => simp [make_bit h]
  | @insert f g S k b hf hi ih =>
    have w := hf.built.reach.wf hs
    obtain ⟨hc, hm, rfl, _⟩ := insert_ok env w hi
    by_cases hk : f.nHash = 0
    · rw [added_noHash hk, ih]
      simp [hk]
    · have hm : f.bitSize ≠ 0 := by tauto
      rw [bit_added w hm, Bool.or_eq_true, ih]
      simp only [List.mem_cons, exists_eq_or_imp, decide_eq_true_eq, added_nHash, added_bitSize]
      exact or_comm
  | @rejected f g S k e hf hi ih =>
    obtain ⟨rfl, _⟩ := insert_err env (hf.built.reach.wf hs) hi
    exact ih
  | @union f o g S T hf ho hu ih1 ih2 =>
    obtain ⟨hp, rfl⟩ := unionMerge_ok env hu
    obtain ⟨_, _, _, hn, hb, hl⟩ := (hasSameParams_iff f o).1 hp
    show bitAt (orBits f o).bitset i = true ↔ ∃ k ∈ S ++ T, ∃ n < f.nHash.toNat,
      i = dcsoProbe k f.bitSize.toNat n
    rw [bit_orBits hl, Bool.or_eq_true, ih1, ih2]
    simp only [List.mem_append, or_and_right, exists_or, ← hn, ← hb]
  | refused _ hu ih =>
    obtain ⟨_, rfl⟩ := unionMerge_err env hu
    exact ih
  | clear _ ih => simp [bit_clear]
  | setData d _ ih => exact ih
  | @reload f g S hf hr ih =>
    obtain ⟨h1, h2, h3⟩ := hf.built.inv
    rw [file_eq, fromReader_ser h1, canon_eq h2] at hr
    cases hr
    exact ih

theorem allSet_ext {f g : V1} (e : Ext f g) {k : List U8} (ha : f.allSet k = true) :
    g.allSet k = true := by
  rw [allSet_iff] at ha ⊢
  intro n hn
  rw [e.bitSize]
  exact e.bits _ (ha n (by rw [← e.nHash]; exact hn))

theorem allSet_added {f : V1} (w : f.WF) (k : List U8) (hm : f.bitSize ≠ 0 ∨ f.nHash = 0) :
    (f.added k).allSet k = true := by
  rw [allSet_iff]
  intro n hn
  rw [added_nHash] at hn
  have hm : f.bitSize ≠ 0 := by
    rcases hm with hm | hm
    · exact hm
    · rw [hm] at hn; simp at hn
  rw [bit_added w hm]
  rw [Bool.or_eq_true]
  right
  rw [decide_eq_true_eq]
  exact ⟨n, hn, rfl⟩

/-- Membership query on any filter whose storage has the right size. -/
theorem containsBytes_ok {f : V1} (w : f.WF) (key : List U8) (hm : f.bitSize ≠ 0 ∨ f.nHash = 0) :
    f.containsBytes key = .ok (!f.bitset.isEmpty && f.allSet key) := by
  by_cases hk : f.nHash = 0
  · have ha : f.allSet key = true := by simp [allSet, hk]
    rw [containsBytes_noHash w key hk, ha, Bool.and_true]
  · have hm : f.bitSize ≠ 0 := by tauto
    rw [containsBytes_eq w key hm]
    have : f.bitset.isEmpty = false := by
      cases hb : f.bitset with
      | nil =>
        have := w.size
        have := toNat_pos hm
        rw [hb] at *
        simp at *
        omega
      | cons a l => rfl
    rw [this]; rfl

end V1

end Poppy

namespace Poppy

theorem V1.bitset_nil {env : Env} {f : V1} (h : V1.Fits env f) (hm : f.bitSize = 0) :
    f.bitset = [] := by
  have := h.nw
  rw [hm] at this
  rw [← List.length_eq_zero_iff, ← this]
  decide +kernel

theorem V1.fpp_one_sizes {lm : Libm} (sp : lm.Spec) (cap : U64) :
    bitSizeFor lm cap (FVal.ofBits oneBits) = 0 ∧ kHash lm 0 cap = 0 := by
  refine ⟨?_, kHash_zero sp cap⟩
  have hin : fppInRange oneBits = true := (fppInRange_iff _).2 (by decide)
  obtain ⟨v, hv0, hq, hb, _⟩ := bitSizeFor_eq sp hin cap
  rw [ofBits_one, sp.ln_one] at hq
  obtain ⟨s, hs, h1, h2⟩ := sp.ln_two_sq
  have hm : FVal.mul (FVal.ofU64 cap) (.fin 0) = .fin 0 := by
    rw [rnd_fin_u64]
    show rnd _ = _
    rw [mul_zero, rnd_zero]
  have hd : FVal.div (.fin 0) (.fin s) = .fin 0 := by
    show (if s = 0 then _ else rnd _) = _
    rw [if_neg (by intro h0; subst h0; norm_num at h1), zero_div, rnd_zero]
  rw [hm, hs, hd] at hq
  have : v = 0 := by
    simp only [FVal.fin.injEq] at hq; linarith
  rw [hb, this]
  decide +kernel

theorem V2.make_noCache {env : Env} (hs : env.Small) {cap : U64} {fpp : F64} {opt : OptLevel}
    {f : V2} (h : V2.make env cap fpp opt = .ok f) (he : f.indexCache.asSlice = [])
    (hx : opt = .none ∨ opt = .space ∨ env.debug = true ∨ cap.toNat ≤ 2 ^ 63) :
    opt = .none ∨ opt = .space := by
  obtain ⟨hin, nb, nh, cbs, hsz, hal, _, rfl⟩ := V2.make_ok h
  by_contra hn
  have hcb : nextPowerOfTwo env.debug cap = .ok cbs := by
    rcases V2.sizes_ok hsz with ⟨h1, _⟩ | ⟨_, _, h1⟩ | ⟨_, _, h1⟩
    · exact absurd h1 hn
    · exact h1
    · exact h1
  rcases nextPow2_ok hcb with ⟨_, ⟨k, hk, h2⟩, h3, h4⟩ | ⟨h1, h2, _⟩
  · unfold Env.Small at hs
    have := (byteCap_small (n := cbs) (by omega)).2
    have hl : (VecBitSet.withBitCapacity cbs).asSlice.length = (byteCapFromBitCap cbs).toNat := by
      simp [VecBitSet.withBitCapacity, VecBitSet.asSlice]
    simp only at he
    rw [he] at hl
    have : 0 < 2 ^ k := by positivity
    simp at hl
    omega
  · rcases hx with hx | hx | hx | hx
    · exact hn (Or.inl hx)
    · exact hn (Or.inr hx)
    · rw [h2] at hx; simp at hx
    · omega

end Poppy

namespace Poppy

/-- The filter made from given sizes. -/
theorem V2.make_of_sizes {env : Env} {cap : U64} {fpp : F64} {opt : OptLevel} {nb nh cbs : U64}
    (hf : fppInRange fpp = true) (hs : V2.sizes env cap fpp opt = .ok (nb, nh, cbs))
    (hc : (byteCapFromBitCap cbs).toNat ≤ env.allocLimit) (hb : nb.toNat * 4096 ≤ env.allocLimit) :
    V2.make env cap fpp opt = .ok
      { flags := (Flags.new 2#8).withOpt opt
        indexCache := VecBitSet.withBitCapacity cbs
        nBuckets := nb
        cacheByteSize := BitVec.ofNat 64 (VecBitSet.withBitCapacity cbs).byteLen
        buckets := List.replicate nb.toNat (BitSet.new BUCKET_SIZE)
        capacity := cap
        fpp := fpp
        nHashBuck := nh
        count := 0
        data := [] } := by
  unfold V2.make
  rw [hf, hs]
  simp only [Bool.not_true, Bool.false_eq_true, if_false, Res.bind_ok]
  rw [Env.alloc_of_le (by simpa using hc)]
  simp only [Res.bind_ok]
  have ha : env.alloc nb.toNat BUCKET_SIZE = .ok () := Env.alloc_of_le hb
  rw [ha]
  rfl

end Poppy
