import Verif.Lemmas.Merge
import Verif.Props.Counting

/-! # Merging filters (C16 to C21, C50) -/

namespace Poppy

open Spec (bitAt)

/-! ## C16 union contains both operands -/

/-- The bits of a v2 union are exactly those of either operand. -/
theorem C16_v2_bits {env : Env} {s o g : V2} (h : s.unionMerge env o = (g, .ok ())) :
    g.buckets.length = s.buckets.length ∧
    g.indexCache.asSlice.length = s.indexCache.asSlice.length ∧
    (∀ b i, g.bucketBit b i = (s.bucketBit b i || o.bucketBit b i)) ∧
    (∀ i, bitAt g.indexCache.asSlice i
      = (bitAt s.indexCache.asSlice i || bitAt o.indexCache.asSlice i)) := by
  obtain ⟨hp, c, rfl⟩ := V2.unionMerge_ok env h
  obtain ⟨_, _, p3, _, _, p6⟩ := (V2.hasSameParams_iff s o).1 hp
  have hsh := V2.orBits_shape hp
  exact ⟨hsh.blen, hsh.clen, fun b i => V2.bit_orBits p6 b i, fun i => V2.cache_orBits p3 i⟩

/-- Whatever either operand contains, the union contains. -/
theorem C16_v2 {env : Env} {s o g : V2} (hs : V2.Reach env s)
    (h : s.unionMerge env o = (g, .ok ())) (k : Key)
    (hk : s.contains env k = .ok true ∨ o.contains env k = .ok true) :
    g.contains env k = .ok true := by
  obtain ⟨hp, c, rfl⟩ := V2.unionMerge_ok env h
  have w := hs.wf
  have wo := w.of_sameParams hp
  obtain ⟨_, p2, p3, _, _, p6⟩ := (V2.hasSameParams_iff s o).1 hp
  have hsh := V2.orBits_shape hp
  rw [V2.contains_true_iff env w, V2.contains_true_iff env wo] at hk
  have hx : (V2.orBits s o).contains env k = .ok true := by
    rw [V2.contains_true_iff env (hsh.wf w)]
    have hne : ∀ {a b : V2}, a.buckets.length = b.buckets.length → b.buckets ≠ [] →
        a.buckets ≠ [] := by
      intro a b he hb
      rw [← List.length_pos_iff] at hb ⊢
      rw [he]; exact hb
    refine ⟨?_, ?_, V2.cacheOk_or hp ?_, V2.allSet_or hp ?_⟩
    · rcases hk with hk | hk
      · exact hk.1
      · rw [hsh.capacity, p2]; exact hk.1
    · rcases hk with hk | hk
      · exact hne hsh.blen hk.2.1
      · exact hne (hsh.blen.trans p6) hk.2.1
    · exact hk.imp (fun h => h.2.2.1) (fun h => h.2.2.1)
    · exact hk.imp (fun h => h.2.2.2) (fun h => h.2.2.2)
  rw [← hx]
  exact V2.contains_congr env rfl rfl rfl rfl k

/-- `union` returns what `union_merge` computes. -/
theorem C16_v2_union {env : Env} (s o g : V2) :
    V2.union env s o = .ok g ↔ s.unionMerge env o = (g, .ok ()) := by
  unfold V2.union
  cases s.unionMerge env o with
  | mk g' r => cases r <;> simp

/-- The bits of a v1 union are exactly those of either operand. -/
theorem C16_v1_bits {env : Env} {s o g : V1} (h : s.unionMerge env o = (g, .ok ())) :
    g.bitset.length = s.bitset.length ∧
    ∀ i, bitAt g.bitset i = (bitAt s.bitset i || bitAt o.bitset i) := by
  obtain ⟨hp, rfl⟩ := V1.unionMerge_ok env h
  obtain ⟨_, _, _, _, _, p6⟩ := (V1.hasSameParams_iff s o).1 hp
  exact ⟨(V1.orBits_shape hp).len, fun i => V1.bit_orBits p6 i⟩

/-- Whatever either operand contains, the union contains. -/
theorem C16_v1 {env : Env} (hsm : env.Small) {s o g : V1} (hs : V1.Reach env s)
    (ho : V1.Reach env o) (h : s.unionMerge env o = (g, .ok ())) (k : List U8)
    (hk : s.containsBytes k = .ok true ∨ o.containsBytes k = .ok true) :
    g.containsBytes k = .ok true := by
  have hg : V1.Reach env g := by
    have : g = (s.unionMerge env o).1 := by rw [h]
    rw [this]; exact .union o hs
  obtain ⟨hp, hu⟩ := V1.unionMerge_ok env h
  obtain ⟨_, _, _, _, p5, _⟩ := (V1.hasSameParams_iff s o).1 hp
  rw [V1.contains_true_iff hsm hs, V1.contains_true_iff hsm ho] at hk
  rw [V1.contains_true_iff hsm hg]
  have hm : g.bitSize = s.bitSize := by rw [hu]; rfl
  have ha : g.allSet k = (V1.orBits s o).allSet k := by rw [hu]; rfl
  rw [hm, ha]
  refine ⟨?_, V1.allSet_or hp (hk.imp And.right And.right)⟩
  rcases hk with hk | hk
  · exact hk.1
  · rw [p5]; exact hk.1

-- the operands of `f2s_union` hold one key each
example : ∃ g, (Sample.f2s.insert Sample.envUnion (.slice [1#8])).1.unionMerge Sample.envUnion
    (Sample.f2s.insert Sample.envUnion (.slice [2#8])).1 = (g, .ok ()) :=
  let ⟨g, _, h, _⟩ := Sample.f2s_union; ⟨g, h⟩
example : ((Sample.f1.insertBytes Sample.env [1#8]).1.unionMerge Sample.env
    (Sample.f1.insertBytes Sample.env [2#8]).1).2 = .ok () := by decide +kernel

/-! ## C17 union algebra -/

/-- Union is commutative: both orders succeed or fail alike, and on success the results are equal
in everything but the attached data, which is that of the receiver. -/
theorem C17_v2_comm {env : Env} {s o g g' : V2} {r r' : Res Unit} (hs : V2.Reach env s)
    (ho : V2.Reach env o) (h : s.unionMerge env o = (g, r)) (h' : o.unionMerge env s = (g', r')) :
    r = r' ∧ (r = .ok () → g.data = s.data ∧ g' = { g with data := o.data }) := by
  have hps := V2.hasSameParams_symm s o
  cases hp : s.hasSameParams o with
  | false =>
    have hp' := hp; rw [hps] at hp'
    rw [V2.unionMerge_eq, hp] at h
    rw [V2.unionMerge_eq, hp'] at h'
    simp only [Bool.false_eq_true, if_false, Prod.mk.injEq] at h h'
    rw [← h.2, ← h'.2]
    exact ⟨rfl, fun h => by simp at h⟩
  | true =>
    have hp' := hp; rw [hps] at hp'
    rw [V2.unionMerge_eq, if_pos hp] at h
    rw [V2.unionMerge_eq, if_pos hp'] at h'
    have hn : s.nHashBuck = o.nHashBuck := ((V2.hasSameParams_iff s o).1 hp).2.2.2.2.1
    have he : V2.estimate env (V2.orBits s o) = V2.estimate env (V2.orBits o s) :=
      V2.estimate_congr (V2.orBits_comm_buckets s o) hn
    have hr : r = r' := by
      have h1 := V2.updateCount_snd env (V2.orBits s o)
      have h2 := V2.updateCount_snd env (V2.orBits o s)
      rw [h] at h1; rw [h'] at h2
      simp only at h1 h2
      rw [h1, h2, he]
    refine ⟨hr, ?_⟩
    rintro rfl
    subst hr
    obtain ⟨c, hc, rfl⟩ := V2.updateCount_ok h
    obtain ⟨c', hc', rfl⟩ := V2.updateCount_ok h'
    rw [he, hc'] at hc
    cases hc
    refine ⟨rfl, ?_⟩
    have hsh := V2.orBits_shape hp
    have hsh' := V2.orBits_shape hp'
    have f1 : V2.Fits env { V2.orBits s o with count := c } :=
      ⟨(hsh.fits hs.fits).1, (hsh.fits hs.fits).2, (hsh.fits hs.fits).3, (hsh.fits hs.fits).4,
        (hsh.fits hs.fits).5⟩
    have f2 : V2.Fits env { V2.orBits o s with count := c } :=
      ⟨(hsh'.fits ho.fits).1, (hsh'.fits ho.fits).2, (hsh'.fits ho.fits).3, (hsh'.fits ho.fits).4,
        (hsh'.fits ho.fits).5⟩
    refine V2.same_except_data f1 f2 ?_ (V2.orBits_comm_buckets s o) (V2.orBits_comm_cache s o) rfl
    obtain ⟨p1, p2, p3, p4, p5, p6⟩ := (V2.hasSameParams_iff s o).1 hp
    rw [V2.hasSameParams_iff]
    refine ⟨p1, p2, ?_, p4, p5, ?_⟩
    · exact hsh.clen.trans (p3.trans hsh'.clen.symm)
    · exact hsh.blen.trans (p6.trans hsh'.blen.symm)

/-- Union is associative: if the inner unions succeed, the outer ones succeed or panic alike, and
on success give the same filter. -/
theorem C17_v2_assoc {env : Env} {s o p a b g g' : V2} {r r' : Res Unit}
    (ha : s.unionMerge env o = (a, .ok ())) (h : a.unionMerge env p = (g, r))
    (hb : o.unionMerge env p = (b, .ok ())) (h' : s.unionMerge env b = (g', r')) :
    r = r' ∧ (r = .ok () → g = g') := by
  obtain ⟨p1, c1, rfl⟩ := V2.unionMerge_ok env ha
  obtain ⟨p2, c2, rfl⟩ := V2.unionMerge_ok env hb
  have s1 := V2.orBits_shape p1
  have s2 := V2.orBits_shape p2
  have q1 : V2.hasSameParams { V2.orBits s o with count := c1 } p = true := by
    have := V2.hasSameParams_trans p1 p2
    rw [V2.hasSameParams_iff] at this ⊢
    exact ⟨this.1, this.2.1, s1.clen.trans this.2.2.1, this.2.2.2.1, this.2.2.2.2.1,
      s1.blen.trans this.2.2.2.2.2⟩
  have q2 : V2.hasSameParams s { V2.orBits o p with count := c2 } = true := by
    have := p1
    rw [V2.hasSameParams_iff] at this ⊢
    exact ⟨this.1, this.2.1, this.2.2.1.trans s2.clen.symm, this.2.2.2.1, this.2.2.2.2.1,
      this.2.2.2.2.2.trans s2.blen.symm⟩
  rw [V2.unionMerge_eq, if_pos q1] at h
  rw [V2.unionMerge_eq, if_pos q2] at h'
  have hbk : (V2.orBits { V2.orBits s o with count := c1 } p).buckets
      = (V2.orBits s { V2.orBits o p with count := c2 }).buckets := by
    apply V2.buckets_ext ((V2.orBits_shape q1).blen.trans (s1.blen.trans (V2.orBits_shape q2).blen.symm))
    intro x i
    rw [V2.bucketBit_orBits q1, V2.bucketBit_orBits q2]
    have e1 : V2.bit { V2.orBits s o with count := c1 } x i = (s.bit x i || o.bit x i) :=
      V2.bucketBit_orBits p1 x i
    have e2 : V2.bit { V2.orBits o p with count := c2 } x i = (o.bit x i || p.bit x i) :=
      V2.bucketBit_orBits p2 x i
    rw [e1, e2, Bool.or_assoc]
  have hca : (V2.orBits { V2.orBits s o with count := c1 } p).indexCache
      = (V2.orBits s { V2.orBits o p with count := c2 }).indexCache := by
    apply V2.cache_ext ((V2.orBits_shape q1).clen.trans (s1.clen.trans (V2.orBits_shape q2).clen.symm))
    intro i
    rw [V2.cache_orBits ((V2.hasSameParams_iff _ _).1 q1).2.2.1,
      V2.cache_orBits ((V2.hasSameParams_iff _ _).1 q2).2.2.1]
    have e1 := V2.cache_orBits ((V2.hasSameParams_iff _ _).1 p1).2.2.1 i
    have e2 := V2.cache_orBits ((V2.hasSameParams_iff _ _).1 p2).2.2.1 i
    show (bitAt (V2.orBits s o).indexCache.asSlice i || _)
      = (_ || bitAt (V2.orBits o p).indexCache.asSlice i)
    rw [e1, e2, Bool.or_assoc]
  have he : V2.estimate env (V2.orBits { V2.orBits s o with count := c1 } p)
      = V2.estimate env (V2.orBits s { V2.orBits o p with count := c2 }) :=
    V2.estimate_congr hbk rfl
  have hr : r = r' := by
    have h1 := V2.updateCount_snd env (V2.orBits { V2.orBits s o with count := c1 } p)
    have h2 := V2.updateCount_snd env (V2.orBits s { V2.orBits o p with count := c2 })
    rw [h] at h1; rw [h'] at h2
    simp only at h1 h2
    rw [h1, h2, he]
  refine ⟨hr, ?_⟩
  rintro rfl
  subst hr
  obtain ⟨c, hc, rfl⟩ := V2.updateCount_ok h
  obtain ⟨c', hc', rfl⟩ := V2.updateCount_ok h'
  rw [he, hc'] at hc
  cases hc
  rw [V2.mk.injEq]
  exact ⟨rfl, hca, rfl, rfl, rfl, rfl, rfl, rfl, hbk, rfl⟩

/-- Union is idempotent: merging a filter with itself changes nothing but the count, which becomes
the estimate; merging an operand again into a union changes nothing at all. -/
theorem C17_v2_idem {env : Env} {s o g : V2} (h : s.unionMerge env o = (g, .ok ())) :
    g.unionMerge env o = (g, .ok ()) ∧
    (o = s → ∃ c, g = { s with count := c }) := by
  obtain ⟨p, c, hc, rfl⟩ := V2.unionMerge_ok' h
  have sh := V2.orBits_shape p
  have q : V2.hasSameParams { V2.orBits s o with count := c } o = true := by
    have := p
    rw [V2.hasSameParams_iff] at this ⊢
    exact ⟨this.1, this.2.1, sh.clen.trans this.2.2.1, this.2.2.2.1, this.2.2.2.2.1,
      sh.blen.trans this.2.2.2.2.2⟩
  constructor
  · have hbk : (V2.orBits { V2.orBits s o with count := c } o).buckets = (V2.orBits s o).buckets := by
      apply V2.buckets_ext (V2.orBits_shape q).blen
      intro x i
      rw [V2.bucketBit_orBits q]
      have e1 : V2.bit { V2.orBits s o with count := c } x i = (s.bit x i || o.bit x i) :=
        V2.bucketBit_orBits p x i
      rw [e1, Bool.or_assoc, Bool.or_self]
    have hca : (V2.orBits { V2.orBits s o with count := c } o).indexCache
        = (V2.orBits s o).indexCache := by
      apply V2.cache_ext (V2.orBits_shape q).clen
      intro i
      rw [V2.cache_orBits ((V2.hasSameParams_iff _ _).1 q).2.2.1]
      have e1 := V2.cache_orBits ((V2.hasSameParams_iff _ _).1 p).2.2.1 i
      show (bitAt (V2.orBits s o).indexCache.asSlice i || _) = _
      rw [e1, Bool.or_assoc, Bool.or_self]
    have he : V2.estimate env (V2.orBits { V2.orBits s o with count := c } o) = .ok c :=
      (V2.estimate_congr hbk rfl).trans hc
    rw [V2.unionMerge_eq, if_pos q, V2.updateCount_eq, he]
    simp only [Prod.mk.injEq, and_true]
    rw [V2.mk.injEq]
    exact ⟨rfl, hca, rfl, rfl, rfl, rfl, rfl, rfl, hbk, rfl⟩
  · rintro rfl
    refine ⟨c, ?_⟩
    have hbk : (V2.orBits o o).buckets = o.buckets := by
      apply V2.buckets_ext sh.blen
      intro x i
      rw [V2.bucketBit_orBits p, Bool.or_self]
    have hca : (V2.orBits o o).indexCache = o.indexCache := by
      apply V2.cache_ext sh.clen
      intro i
      rw [V2.cache_orBits rfl, Bool.or_self]
    rw [V2.mk.injEq]
    exact ⟨rfl, hca, rfl, rfl, rfl, rfl, rfl, rfl, hbk, rfl⟩

/-- v1 union is commutative in everything but the attached data (and the representation of the
`fpp`, which `has_same_params` compares as numbers). -/
theorem C17_v1_comm {env : Env} {s o g g' : V1} {r r' : Res Unit} (hs : V1.Reach env s)
    (ho : V1.Reach env o) (h : s.unionMerge env o = (g, r)) (h' : o.unionMerge env s = (g', r')) :
    r = r' ∧ (r = .ok () → g.data = s.data ∧ g.fpp = s.fpp ∧
      g' = { g with data := o.data, fpp := o.fpp }) := by
  have hps := V1.hasSameParams_symm s o
  cases hp : s.hasSameParams o with
  | false =>
    have hp' := hp; rw [hps] at hp'
    rw [V1.unionMerge_eq, hp] at h
    rw [V1.unionMerge_eq, hp'] at h'
    simp only [Bool.false_eq_true, if_false, Prod.mk.injEq] at h h'
    rw [← h.2, ← h'.2]
    exact ⟨rfl, fun h => by simp at h⟩
  | true =>
    have hp' := hp; rw [hps] at hp'
    rw [V1.unionMerge_eq, if_pos hp] at h
    rw [V1.unionMerge_eq, if_pos hp'] at h'
    simp only [Prod.mk.injEq] at h h'
    obtain ⟨rfl, rfl⟩ := h
    obtain ⟨rfl, rfl⟩ := h'
    refine ⟨rfl, fun _ => ⟨rfl, rfl, ?_⟩⟩
    obtain ⟨p1, p2, p3, p4, p5, p6⟩ := (V1.hasSameParams_iff s o).1 hp
    have hb := V1.orBits_comm s o
    have he : V1.estimate env (V1.orBits s o) = V1.estimate env (V1.orBits o s) :=
      V1.estimate_congr hb p5 p4
    have hf : s.fingerprint = o.fingerprint := by rw [hs.fits.fp, ho.fits.fp, p4, p5]
    show V1.mk _ _ _ _ _ _ _ _ _ = V1.mk _ _ _ _ _ _ _ _ _
    rw [V1.mk.injEq]
    exact ⟨p1.symm, hb.symm, p2.symm, rfl, p4.symm, p5.symm, he.symm, rfl, hf.symm⟩

/-- v1 union is associative. -/
theorem C17_v1_assoc {env : Env} {s o p a b g g' : V1} {r r' : Res Unit}
    (ha : s.unionMerge env o = (a, .ok ())) (h : a.unionMerge env p = (g, r))
    (hb : o.unionMerge env p = (b, .ok ())) (h' : s.unionMerge env b = (g', r')) :
    r = .ok () ∧ r' = .ok () ∧ g = g' := by
  obtain ⟨p1, rfl⟩ := V1.unionMerge_ok' ha
  obtain ⟨p2, rfl⟩ := V1.unionMerge_ok' hb
  have s1 := V1.orBits_shape p1
  have s2 := V1.orBits_shape p2
  have q1 : V1.hasSameParams { V1.orBits s o with count := V1.estimate env (V1.orBits s o) } p
      = true := by
    have := V1.hasSameParams_trans p1 p2
    rw [V1.hasSameParams_iff] at this ⊢
    exact ⟨this.1, this.2.1, this.2.2.1, this.2.2.2.1, this.2.2.2.2.1,
      s1.len.trans this.2.2.2.2.2⟩
  have q2 : V1.hasSameParams s { V1.orBits o p with count := V1.estimate env (V1.orBits o p) }
      = true := by
    have := p1
    rw [V1.hasSameParams_iff] at this ⊢
    exact ⟨this.1, this.2.1, this.2.2.1, this.2.2.2.1, this.2.2.2.2.1,
      this.2.2.2.2.2.trans s2.len.symm⟩
  rw [V1.unionMerge_eq, if_pos q1] at h
  rw [V1.unionMerge_eq, if_pos q2] at h'
  simp only [Prod.mk.injEq] at h h'
  refine ⟨h.2.symm, h'.2.symm, ?_⟩
  rw [← h.1, ← h'.1]
  have hbs : (V1.orBits { V1.orBits s o with count := V1.estimate env (V1.orBits s o) } p).bitset
      = (V1.orBits s { V1.orBits o p with count := V1.estimate env (V1.orBits o p) }).bitset := by
    apply V1.bitset_ext ((V1.orBits_shape q1).len.trans (s1.len.trans (V1.orBits_shape q2).len.symm))
    intro i
    rw [V1.bit_orBits ((V1.hasSameParams_iff _ _).1 q1).2.2.2.2.2,
      V1.bit_orBits ((V1.hasSameParams_iff _ _).1 q2).2.2.2.2.2]
    have e1 := V1.bit_orBits ((V1.hasSameParams_iff _ _).1 p1).2.2.2.2.2 i
    have e2 := V1.bit_orBits ((V1.hasSameParams_iff _ _).1 p2).2.2.2.2.2 i
    show (bitAt (V1.orBits s o).bitset i || _) = (_ || bitAt (V1.orBits o p).bitset i)
    rw [e1, e2, Bool.or_assoc]
  have he := V1.estimate_congr (env := env) (f := V1.orBits { V1.orBits s o with
      count := V1.estimate env (V1.orBits s o) } p) (g := V1.orBits s { V1.orBits o p with
      count := V1.estimate env (V1.orBits o p) }) hbs rfl rfl
  show V1.mk _ _ _ _ _ _ _ _ _ = V1.mk _ _ _ _ _ _ _ _ _
  rw [V1.mk.injEq]
  exact ⟨rfl, hbs, rfl, rfl, rfl, rfl, he, rfl, rfl⟩

/-- v1 union is idempotent. -/
theorem C17_v1_idem {env : Env} {s o g : V1} (h : s.unionMerge env o = (g, .ok ())) :
    g.unionMerge env o = (g, .ok ()) ∧ (o = s → ∃ c, g = { s with count := c }) := by
  obtain ⟨p, rfl⟩ := V1.unionMerge_ok' h
  have sh := V1.orBits_shape p
  have hl := ((V1.hasSameParams_iff _ _).1 p).2.2.2.2.2
  have q : V1.hasSameParams { V1.orBits s o with count := V1.estimate env (V1.orBits s o) } o
      = true := by
    have := p
    rw [V1.hasSameParams_iff] at this ⊢
    exact ⟨this.1, this.2.1, this.2.2.1, this.2.2.2.1, this.2.2.2.2.1,
      sh.len.trans this.2.2.2.2.2⟩
  constructor
  · have hbs : (V1.orBits { V1.orBits s o with count := V1.estimate env (V1.orBits s o) } o).bitset
        = (V1.orBits s o).bitset := by
      apply V1.bitset_ext (V1.orBits_shape q).len
      intro i
      rw [V1.bit_orBits ((V1.hasSameParams_iff _ _).1 q).2.2.2.2.2]
      have e1 := V1.bit_orBits hl i
      show (bitAt (V1.orBits s o).bitset i || _) = _
      rw [e1, Bool.or_assoc, Bool.or_self]
    have he := V1.estimate_congr (env := env) (f := V1.orBits { V1.orBits s o with
      count := V1.estimate env (V1.orBits s o) } o) (g := V1.orBits s o) hbs rfl rfl
    rw [V1.unionMerge_eq, if_pos q]
    simp only [Prod.mk.injEq, and_true]
    show V1.mk _ _ _ _ _ _ _ _ _ = V1.mk _ _ _ _ _ _ _ _ _
    rw [V1.mk.injEq]
    exact ⟨rfl, hbs, rfl, rfl, rfl, rfl, he, rfl, rfl⟩
  · rintro rfl
    refine ⟨V1.estimate env (V1.orBits o o), ?_⟩
    have hbs : (V1.orBits o o).bitset = o.bitset := by
      apply V1.bitset_ext sh.len
      intro i
      rw [V1.bit_orBits rfl, Bool.or_self]
    rw [V1.mk.injEq]
    exact ⟨rfl, hbs, rfl, rfl, rfl, rfl, rfl, rfl, rfl⟩

-- the hypotheses of the commutation theorem are met by any two filters; here they succeed
example : (Sample.f1.unionMerge Sample.env Sample.f1).2 = .ok () := by decide +kernel

/-! ## C18 merging separately filled copies -/

/-- Fill copies of a filter with separate datasets and merge them (the copy filled with `d` is the
receiver): the bits and the answers are those of one filter filled with all keys, in any order. -/
theorem C18_v2 {env : Env} {f g : V2} (hf : V2.Reach env f) {d whole : List Key}
    {ds : List (List Key)} (hd : V2.AllOk env f d) (hds : ∀ x ∈ ds, V2.AllOk env f x)
    (hm : V2.unionAll env (V2.inserts env f d) (ds.map (V2.inserts env f)) = (g, .ok ()))
    (hw : V2.AllOk env f whole) (hk : ∀ k, k ∈ whole ↔ k ∈ d ∨ ∃ x ∈ ds, k ∈ x) :
    g.buckets = (V2.inserts env f whole).buckets ∧
    g.indexCache = (V2.inserts env f whole).indexCache ∧
    ∀ k, g.contains env k = (V2.inserts env f whole).contains env k := by
  obtain ⟨sh, _, hb, hc⟩ := V2.unionAll_spec hm
  have s1 := V2.inserts_shape env f d
  have s2 := V2.inserts_shape env f whole
  obtain ⟨d1, d2⟩ := hd.bits hf.wf
  obtain ⟨w1, w2⟩ := hw.bits hf.wf
  have e1 : g.buckets = (V2.inserts env f whole).buckets := by
    apply V2.buckets_ext (sh.blen.trans (s1.blen.trans s2.blen.symm))
    intro b i
    rw [Bool.eq_iff_iff, hb, w1, d1]
    constructor
    · rintro ((h | ⟨k, hkd, h⟩) | ⟨o, ho, h⟩)
      · exact Or.inl h
      · exact Or.inr ⟨k, (hk k).2 (Or.inl hkd), h⟩
      · obtain ⟨x, hx, rfl⟩ := List.mem_map.1 ho
        rw [((hds x hx).bits hf.wf).1] at h
        rcases h with h | ⟨k, hkx, h⟩
        · exact Or.inl h
        · exact Or.inr ⟨k, (hk k).2 (Or.inr ⟨x, hx, hkx⟩), h⟩
    · rintro (h | ⟨k, hkw, h⟩)
      · exact Or.inl (Or.inl h)
      · rcases (hk k).1 hkw with hkd | ⟨x, hx, hkx⟩
        · exact Or.inl (Or.inr ⟨k, hkd, h⟩)
        · refine Or.inr ⟨_, List.mem_map.2 ⟨x, hx, rfl⟩, ?_⟩
          rw [((hds x hx).bits hf.wf).1]
          exact Or.inr ⟨k, hkx, h⟩
  have e2 : g.indexCache = (V2.inserts env f whole).indexCache := by
    apply V2.cache_ext (sh.clen.trans (s1.clen.trans s2.clen.symm))
    intro i
    rw [Bool.eq_iff_iff, hc, w2, d2]
    constructor
    · rintro ((h | ⟨hne, k, hkd, h⟩) | ⟨o, ho, h⟩)
      · exact Or.inl h
      · exact Or.inr ⟨hne, k, (hk k).2 (Or.inl hkd), h⟩
      · obtain ⟨x, hx, rfl⟩ := List.mem_map.1 ho
        rw [((hds x hx).bits hf.wf).2] at h
        rcases h with h | ⟨hne, k, hkx, h⟩
        · exact Or.inl h
        · exact Or.inr ⟨hne, k, (hk k).2 (Or.inr ⟨x, hx, hkx⟩), h⟩
    · rintro (h | ⟨hne, k, hkw, h⟩)
      · exact Or.inl (Or.inl h)
      · rcases (hk k).1 hkw with hkd | ⟨x, hx, hkx⟩
        · exact Or.inl (Or.inr ⟨hne, k, hkd, h⟩)
        · refine Or.inr ⟨_, List.mem_map.2 ⟨x, hx, rfl⟩, ?_⟩
          rw [((hds x hx).bits hf.wf).2]
          exact Or.inr ⟨hne, k, hkx, h⟩
  exact ⟨e1, e2, V2.contains_congr env (sh.capacity.trans (s1.capacity.trans s2.capacity.symm))
    (sh.nHash.trans (s1.nHash.trans s2.nHash.symm)) e1 e2⟩

/-- Same for v1. -/
theorem C18_v1 {env : Env} (hsm : env.Small) {f g : V1} (hf : V1.Reach env f)
    {d whole : List (List U8)} {ds : List (List (List U8))} (hd : V1.AllOk env f d)
    (hds : ∀ x ∈ ds, V1.AllOk env f x)
    (hm : V1.unionAll env (V1.inserts env f d) (ds.map (V1.inserts env f)) = (g, .ok ()))
    (hw : V1.AllOk env f whole) (hk : ∀ k, k ∈ whole ↔ k ∈ d ∨ ∃ x ∈ ds, k ∈ x) :
    g.bitset = (V1.inserts env f whole).bitset ∧
    ∀ k, g.containsBytes k = (V1.inserts env f whole).containsBytes k := by
  obtain ⟨sh, _, hb⟩ := V1.unionAll_spec hm
  have s1 := V1.inserts_shape env f d
  have s2 := V1.inserts_shape env f whole
  have w := hf.wf hsm
  have e1 : g.bitset = (V1.inserts env f whole).bitset := by
    apply V1.bitset_ext (sh.len.trans (s1.len.trans s2.len.symm))
    intro i
    rw [Bool.eq_iff_iff, hb, hw.bits w, hd.bits w]
    constructor
    · rintro ((h | ⟨k, hkd, h⟩) | ⟨o, ho, h⟩)
      · exact Or.inl h
      · exact Or.inr ⟨k, (hk k).2 (Or.inl hkd), h⟩
      · obtain ⟨x, hx, rfl⟩ := List.mem_map.1 ho
        rw [(hds x hx).bits w] at h
        rcases h with h | ⟨k, hkx, h⟩
        · exact Or.inl h
        · exact Or.inr ⟨k, (hk k).2 (Or.inr ⟨x, hx, hkx⟩), h⟩
    · rintro (h | ⟨k, hkw, h⟩)
      · exact Or.inl (Or.inl h)
      · rcases (hk k).1 hkw with hkd | ⟨x, hx, hkx⟩
        · exact Or.inl (Or.inr ⟨k, hkd, h⟩)
        · refine Or.inr ⟨_, List.mem_map.2 ⟨x, hx, rfl⟩, ?_⟩
          rw [(hds x hx).bits w]
          exact Or.inr ⟨k, hkx, h⟩
  exact ⟨e1, V1.containsBytes_congr e1 (sh.fp.trans (s1.fp.trans s2.fp.symm))⟩

-- three copies of a v1 filter, filled with two keys each (one key twice), and merged
example : (V1.unionAll Sample.env (V1.inserts Sample.env Sample.f1 [[1#8], [2#8]])
    ([[[3#8], [4#8]], [[5#8], [1#8]]].map (V1.inserts Sample.env Sample.f1))).2 = .ok () := by
  decide +kernel

/-! ## C19 intersection -/

/-- The bits of an intersection are exactly the common ones. -/
theorem C19_bits {env : Env} {s o g : V2} (h : s.intersectionMerge env o = (g, .ok ())) :
    g.buckets.length = s.buckets.length ∧
    g.indexCache.asSlice.length = s.indexCache.asSlice.length ∧
    (∀ b i, g.bucketBit b i = (s.bucketBit b i && o.bucketBit b i)) ∧
    (∀ i, bitAt g.indexCache.asSlice i
      = (bitAt s.indexCache.asSlice i && bitAt o.indexCache.asSlice i)) := by
  obtain ⟨hp, c, _, rfl⟩ := V2.intersectionMerge_ok' h
  obtain ⟨_, _, p3, _, _, p6⟩ := (V2.hasSameParams_iff s o).1 hp
  have hsh := V2.andBits_shape hp
  exact ⟨hsh.blen, hsh.clen, fun b i => V2.bit_andBits p6 b i, fun i => V2.cache_andBits p3 i⟩

/-- An intersection answers true exactly when both operands do. -/
theorem C19_conjunction {env : Env} {s o g : V2} (hs : V2.Reach env s)
    (h : s.intersectionMerge env o = (g, .ok ())) (k : Key) :
    g.contains env k = .ok true ↔ s.contains env k = .ok true ∧ o.contains env k = .ok true := by
  obtain ⟨hp, c, _, rfl⟩ := V2.intersectionMerge_ok' h
  have w := hs.wf
  have wo := w.of_sameParams hp
  obtain ⟨_, p2, _, _, _, p6⟩ := (V2.hasSameParams_iff s o).1 hp
  have hsh := V2.andBits_shape hp
  have hx : V2.contains env { V2.andBits s o with count := c } k
      = (V2.andBits s o).contains env k := V2.contains_congr env rfl rfl rfl rfl k
  rw [hx, V2.contains_true_iff env w, V2.contains_true_iff env wo,
    V2.contains_true_iff env (hsh.wf w), V2.cacheOk_and hp, V2.allSet_and hp, hsh.capacity, ← p2]
  have hne : ∀ {a b : V2}, a.buckets.length = b.buckets.length → (a.buckets ≠ [] ↔
      b.buckets ≠ []) := by
    intro a b he
    rw [← List.length_pos_iff, ← List.length_pos_iff, he]
  rw [hne hsh.blen, ← hne p6]
  tauto

/-- `intersection` returns what `intersection_merge` computes. -/
theorem C19_intersection {env : Env} (s o g : V2) :
    V2.intersection env s o = .ok g ↔ s.intersectionMerge env o = (g, .ok ()) := by
  unfold V2.intersection
  cases s.intersectionMerge env o with
  | mk g' r => cases r <;> simp

-- release builds always manage to intersect filters of equal parameters (see `C20_v2_release`)
example : ∃ g, (Sample.f2s.insert Sample.env (.slice [1#8])).1.intersectionMerge Sample.env
    (Sample.f2s.insert Sample.env (.slice [2#8])).1 = (g, .ok ()) := by
  have hp : (Sample.f2s.insert Sample.env (.slice [1#8])).1.hasSameParams
      (Sample.f2s.insert Sample.env (.slice [2#8])).1 = true := by decide +kernel
  generalize (Sample.f2s.insert Sample.env (.slice [1#8])).1 = s at *
  generalize (Sample.f2s.insert Sample.env (.slice [2#8])).1 = o at *
  refine ⟨_, Prod.ext rfl ?_⟩
  rw [V2.intersectionMerge_eq, if_pos hp, V2.updateCount_snd, V2.estimate, V2.sumU64_eq, if_neg]
  · rfl
  · simp [Sample.env]

/-! ## C20 refusal -/

/-- A v2 union fails exactly on different parameters, with a `Merge` error and no effect. -/
theorem C20_v2_union {env : Env} (s o : V2) :
    ((∃ e, (s.unionMerge env o).2 = .err e) ↔ s.hasSameParams o = false) ∧
    ∀ e, (s.unionMerge env o).2 = .err e → (∃ m, e = .merge m) ∧ (s.unionMerge env o).1 = s := by
  cases hp : s.hasSameParams o with
  | false =>
    rw [V2.unionMerge_eq, hp]
    refine ⟨⟨fun _ => rfl, fun _ => ⟨_, rfl⟩⟩, fun e he => ?_⟩
    simp only [Bool.false_eq_true, if_false, Res.err.injEq] at he
    exact ⟨⟨_, he.symm⟩, rfl⟩
  | true =>
    have : ∀ e, (s.unionMerge env o).2 ≠ .err e := by
      intro e he
      have := (V2.unionMerge_err env (g := (s.unionMerge env o).1) (e := e)
        (by rw [← he])).1
      rw [hp] at this
      cases this
    exact ⟨⟨fun ⟨e, he⟩ => absurd he (this e), fun h => by cases h⟩, fun e he => absurd he (this e)⟩

/-- Same for intersections. -/
theorem C20_v2_intersection {env : Env} (s o : V2) :
    ((∃ e, (s.intersectionMerge env o).2 = .err e) ↔ s.hasSameParams o = false) ∧
    ∀ e, (s.intersectionMerge env o).2 = .err e →
      (∃ m, e = .merge m) ∧ (s.intersectionMerge env o).1 = s := by
  cases hp : s.hasSameParams o with
  | false =>
    rw [V2.intersectionMerge_eq, hp]
    refine ⟨⟨fun _ => rfl, fun _ => ⟨_, rfl⟩⟩, fun e he => ?_⟩
    simp only [Bool.false_eq_true, if_false, Res.err.injEq] at he
    exact ⟨⟨_, he.symm⟩, rfl⟩
  | true =>
    have : ∀ e, (s.intersectionMerge env o).2 ≠ .err e := by
      intro e he
      rw [V2.intersectionMerge_eq, if_pos hp, V2.updateCount_snd] at he
      cases hs : V2.estimate env (V2.andBits s o) with
      | ok c => rw [hs] at he; cases he
      | err e => exact absurd hs (V2.sumU64_ne_err _ _ _)
      | panic => rw [hs] at he; cases he
    exact ⟨⟨fun ⟨e, he⟩ => absurd he (this e), fun h => by cases h⟩, fun e he => absurd he (this e)⟩

/-- Same for `count_common_entries` (which takes its operands by shared reference). -/
theorem C20_v2_common {env : Env} (s o : V2) :
    ((∃ e, s.countCommonEntries env o = .err e) ↔ s.hasSameParams o = false) ∧
    ∀ e, s.countCommonEntries env o = .err e → ∃ m, e = .merge m := by
  cases hp : s.hasSameParams o with
  | false =>
    unfold V2.countCommonEntries
    rw [hp]
    refine ⟨⟨fun _ => rfl, fun _ => ⟨_, rfl⟩⟩, fun e he => ?_⟩
    simp only [Bool.not_false, if_true, Res.err.injEq] at he
    exact ⟨_, he.symm⟩
  | true =>
    have : ∀ e, s.countCommonEntries env o ≠ .err e := by
      intro e he
      rw [V2.andBits_estimate_eq env hp] at he
      exact absurd he (V2.sumU64_ne_err _ _ _)
    exact ⟨⟨fun ⟨e, he⟩ => absurd he (this e), fun h => by cases h⟩, fun e he => absurd he (this e)⟩

/-- In release builds, merging filters with the same parameters always succeeds. -/
theorem C20_v2_release {env : Env} (hd : env.debug = false) (s o : V2)
    (hp : s.hasSameParams o = true) :
    (s.unionMerge env o).2 = .ok () ∧ (s.intersectionMerge env o).2 = .ok () ∧
      ∃ c, s.countCommonEntries env o = .ok c := by
  have he : ∀ f : V2, ∃ c, V2.estimate env f = .ok c := by
    intro f
    unfold V2.estimate
    rw [V2.sumU64_eq, if_neg (by simp [hd])]
    exact ⟨_, rfl⟩
  refine ⟨?_, ?_, ?_⟩
  · rw [V2.unionMerge_eq, if_pos hp, V2.updateCount_snd]
    obtain ⟨c, hc⟩ := he (V2.orBits s o)
    rw [hc]; rfl
  · rw [V2.intersectionMerge_eq, if_pos hp, V2.updateCount_snd]
    obtain ⟨c, hc⟩ := he (V2.andBits s o)
    rw [hc]; rfl
  · rw [V2.andBits_estimate_eq env hp]; exact he _

/-- A v1 union fails exactly on different parameters, with a `Merge` error and no effect;
otherwise it succeeds.  Same for `count_common_entries`. -/
theorem C20_v1 {env : Env} (s o : V1) :
    (s.hasSameParams o = true → (s.unionMerge env o).2 = .ok () ∧
      ∃ c, s.countCommonEntries env o = .ok c) ∧
    (s.hasSameParams o = false → (∃ m, s.unionMerge env o = (s, .err (.merge m))) ∧
      ∃ m, s.countCommonEntries env o = .err (.merge m)) := by
  constructor
  · intro hp
    refine ⟨by rw [V1.unionMerge_eq, if_pos hp], ?_⟩
    unfold V1.countCommonEntries V1.countOnesInCommon
    rw [hp, if_pos ((V1.hasSameParams_iff s o).1 hp).2.2.2.2.2]
    exact ⟨_, rfl⟩
  · intro hp
    refine ⟨⟨_, by rw [V1.unionMerge_eq, hp]; rfl⟩, ?_⟩
    unfold V1.countCommonEntries
    rw [hp]
    exact ⟨_, rfl⟩

/-- Filters of different versions never have the same parameters; those of equal versions do when
the wrapped filters do; the check itself never fails. -/
theorem C20_bloom_params (s o : Bloom) :
    ∃ b, s.hasSameParams o = .ok b ∧ (s.version ≠ o.version → b = false) ∧
      (∀ s' o', s = .v1 s' → o = .v1 o' → b = s'.hasSameParams o') ∧
      (∀ s' o', s = .v2 s' → o = .v2 o' → b = s'.hasSameParams o') := by
  cases s <;> cases o <;> refine ⟨_, rfl, ?_, ?_, ?_⟩ <;> simp [Bloom.version]

/-- Merging filters of any version fails exactly on different parameters, without effect. -/
theorem C20_bloom {env : Env} (s o : Bloom) :
    ((∃ e, (s.unionMerge env o).2 = .err e) ↔ s.hasSameParams o = .ok false) ∧
    (∀ e, (s.unionMerge env o).2 = .err e → (∃ m, e = .merge m) ∧ (s.unionMerge env o).1 = s) ∧
    ((∃ e, s.countCommonEntries env o = .err e) ↔ s.hasSameParams o = .ok false) ∧
    (∀ e, s.countCommonEntries env o = .err e → ∃ m, e = .merge m) := by
  have hno : s.hasSameParams o = .ok false → (s.unionMerge env o
      = (s, .err (.merge "cannot merge filters with different parameters"))) ∧
      s.countCommonEntries env o
        = .err (.merge "cannot compare filters with different parameters") := by
    intro h
    unfold Bloom.unionMerge Bloom.countCommonEntries
    rw [h]
    exact ⟨rfl, rfl⟩
  have hyes : s.hasSameParams o ≠ .ok false → (∀ e, (s.unionMerge env o).2 ≠ .err e) ∧
      ∀ e, s.countCommonEntries env o ≠ .err e := by
    intro h
    cases s with
    | v1 s =>
      cases o with
      | v1 o =>
        have hp : s.hasSameParams o = true := by
          cases hx : s.hasSameParams o with
          | true => rfl
          | false => exact absurd (congrArg Res.ok hx) h
        have hb : (Bloom.v1 s).hasSameParams (.v1 o) = .ok true := congrArg Res.ok hp
        obtain ⟨h1, c, h2⟩ := (C20_v1 (env := env) s o).1 hp
        unfold Bloom.unionMerge Bloom.countCommonEntries
        rw [hb]
        refine ⟨fun e => ?_, fun e => ?_⟩
        · show (s.unionMerge env o).2 ≠ _
          rw [h1]; simp
        · show s.countCommonEntries env o ≠ _
          rw [h2]; simp
      | v2 o => exact absurd rfl h
    | v2 s =>
      cases o with
      | v1 o => exact absurd rfl h
      | v2 o =>
        have hp : s.hasSameParams o = true := by
          cases hx : s.hasSameParams o with
          | true => rfl
          | false => exact absurd (congrArg Res.ok hx) h
        have hb : (Bloom.v2 s).hasSameParams (.v2 o) = .ok true := congrArg Res.ok hp
        have h1 := (C20_v2_union (env := env) s o).1
        have h2 := (C20_v2_common (env := env) s o).1
        unfold Bloom.unionMerge Bloom.countCommonEntries
        rw [hb]
        refine ⟨fun e he => ?_, fun e he => ?_⟩
        · have := h1.1 ⟨e, he⟩
          rw [hp] at this; cases this
        · have := h2.1 ⟨e, he⟩
          rw [hp] at this; cases this
  by_cases h : s.hasSameParams o = .ok false
  · obtain ⟨h1, h2⟩ := hno h
    rw [h1, h2]
    refine ⟨⟨fun _ => h, fun _ => ⟨_, rfl⟩⟩, fun e he => ?_, ⟨fun _ => h, fun _ => ⟨_, rfl⟩⟩,
      fun e he => ?_⟩
    · cases he; exact ⟨⟨_, rfl⟩, rfl⟩
    · cases he; exact ⟨_, rfl⟩
  · obtain ⟨h1, h2⟩ := hyes h
    exact ⟨⟨fun ⟨e, he⟩ => absurd he (h1 e), fun h' => absurd h' h⟩, fun e he => absurd he (h1 e),
      ⟨fun ⟨e, he⟩ => absurd he (h2 e), fun h' => absurd h' h⟩, fun e he => absurd he (h2 e)⟩

/-- What equal parameters mean for v2 filters obtainable through the interface. -/
theorem C20_v2_params {env : Env} {s o : V2} (hs : V2.Reach env s) (ho : V2.Reach env o) :
    s.hasSameParams o = true ↔ s.flags = o.flags ∧ s.capacity = o.capacity ∧ s.fpp = o.fpp ∧
      s.nHashBuck = o.nHashBuck ∧ s.buckets.length = o.buckets.length ∧
      s.indexCache.asSlice.length = o.indexCache.asSlice.length := by
  rw [V2.hasSameParams_iff]
  constructor
  · rintro ⟨h1, h2, h3, h4, h5, h6⟩
    exact ⟨h1, h2, bits_eq_of_feq hs.fits.fpp ho.fits.fpp h4, h5, h6, h3⟩
  · rintro ⟨h1, h2, h3, h4, h5, h6⟩
    obtain ⟨q, hq, _⟩ := ofBits_of_inRange hs.fits.fpp
    exact ⟨h1, h2, h6, by rw [← h3, hq]; simp [FVal.feq, FVal.le], h4, h5⟩

/-- Having the same parameters is an equivalence relation on filters whose `fpp` is a number; a
filter whose `fpp` is not a number does not even have the same parameters as itself. -/
theorem C20_equivalence :
    (∀ s : V2, s.hasSameParams s = true ↔ FVal.ofBits s.fpp ≠ .nan) ∧
    (∀ s o : V2, s.hasSameParams o = true → o.hasSameParams s = true) ∧
    (∀ s o p : V2, s.hasSameParams o = true → o.hasSameParams p = true →
      s.hasSameParams p = true) ∧
    (∀ s : V1, s.hasSameParams s = true ↔ FVal.ofBits s.fpp ≠ .nan) ∧
    (∀ s o : V1, s.hasSameParams o = true → o.hasSameParams s = true) ∧
    (∀ s o p : V1, s.hasSameParams o = true → o.hasSameParams p = true →
      s.hasSameParams p = true) := by
  refine ⟨fun s => ⟨fun h hn => ?_, V2.hasSameParams_refl⟩,
    fun s o h => by rw [V2.hasSameParams_symm]; exact h, fun s o p => V2.hasSameParams_trans,
    fun s => ⟨fun h hn => ?_, V1.hasSameParams_refl⟩,
    fun s o h => by rw [V1.hasSameParams_symm]; exact h, fun s o p => V1.hasSameParams_trans⟩
  · have := ((V2.hasSameParams_iff s s).1 h).2.2.2.1
    rw [hn] at this; simp [FVal.feq, FVal.le] at this
  · have := ((V1.hasSameParams_iff s s).1 h).2.2.1
    rw [hn] at this; simp [FVal.feq, FVal.le] at this

-- refused and accepted pairs
example : (Sample.f2s.unionMerge Sample.env Sample.f2b).1 = Sample.f2s ∧
    Sample.f2s.hasSameParams Sample.f2b = false ∧ Sample.f2s.hasSameParams Sample.f2s = true := by
  have h : Sample.f2s.hasSameParams Sample.f2b = false := by decide +kernel
  refine ⟨?_, h, by decide +kernel⟩
  rw [V2.unionMerge_eq, h]; rfl

/-! ## C21 common entries -/

/-- For v2, `count_common_entries` gives the count estimate of the intersection. -/
theorem C21_v2_intersection {env : Env} {s o g : V2} {r : Res Unit}
    (h : s.intersectionMerge env o = (g, r)) :
    (∀ c, s.countCommonEntries env o = .ok c ↔ r = .ok () ∧ g.countEstimate = c) ∧
    (s.countCommonEntries env o = .panic ↔ r = .panic) := by
  cases hp : s.hasSameParams o with
  | false =>
    rw [V2.intersectionMerge_eq, hp] at h
    simp only [Bool.false_eq_true, if_false, Prod.mk.injEq] at h
    obtain ⟨m, hm⟩ : ∃ m, s.countCommonEntries env o = .err (.merge m) := by
      unfold V2.countCommonEntries; rw [hp]; exact ⟨_, rfl⟩
    rw [hm, ← h.2]
    simp
  | true =>
    rw [V2.intersectionMerge_eq, if_pos hp, V2.updateCount_eq] at h
    rw [V2.andBits_estimate_eq env hp]
    cases he : V2.estimate env (V2.andBits s o) with
    | ok c =>
      rw [he] at h
      simp only [Prod.mk.injEq] at h
      obtain ⟨rfl, rfl⟩ := h
      refine ⟨fun c' => ⟨fun h => ⟨rfl, ?_⟩, fun h => ?_⟩, by simp⟩
      · cases h; rfl
      · rw [← h.2]; rfl
    | err e => exact absurd he (V2.sumU64_ne_err _ _ _)
    | panic =>
      rw [he] at h
      simp only [Prod.mk.injEq] at h
      rw [← h.2]; simp

/-- `count_common_entries` is symmetric. -/
theorem C21_v2_symm {env : Env} (s o : V2) :
    s.countCommonEntries env o = o.countCommonEntries env s := by
  cases hp : s.hasSameParams o with
  | false =>
    have hp' := hp
    rw [V2.hasSameParams_symm] at hp'
    unfold V2.countCommonEntries; rw [hp, hp']; rfl
  | true =>
    have hp' := hp
    rw [V2.hasSameParams_symm] at hp'
    rw [V2.andBits_estimate_eq env hp, V2.andBits_estimate_eq env hp']
    exact V2.estimate_congr (V2.zipWith_intersection_comm _ _)
      ((V2.hasSameParams_iff s o).1 hp).2.2.2.2.1

theorem C21_v1_symm {env : Env} (s o : V1) :
    s.countCommonEntries env o = o.countCommonEntries env s := by
  have hps := V1.hasSameParams_symm s o
  unfold V1.countCommonEntries V1.countOnesInCommon
  rw [hps]
  cases hp : o.hasSameParams s with
  | false => rfl
  | true =>
    obtain ⟨_, _, _, h4, h5, h6⟩ := (V1.hasSameParams_iff o s).1 hp
    rw [h4, h5, h6]
    simp only [if_true, Bool.not_true, Bool.false_eq_true, if_false, Res.bind_ok]
    rw [List.zipWith_comm_of_comm (fun x y => BitVec.and_comm x y)]

theorem C21_bloom_symm {env : Env} (s o : Bloom) :
    s.countCommonEntries env o = o.countCommonEntries env s := by
  cases s with
  | v1 s =>
    cases o with
    | v1 o =>
      have hps := V1.hasSameParams_symm s o
      have h1 := C21_v1_symm (env := env) s o
      have e1 : (Bloom.v1 s).hasSameParams (.v1 o) = .ok (s.hasSameParams o) := rfl
      have e2 : (Bloom.v1 o).hasSameParams (.v1 s) = .ok (o.hasSameParams s) := rfl
      unfold Bloom.countCommonEntries
      rw [e1, e2, hps]
      cases o.hasSameParams s <;> simp [h1]
    | v2 o => rfl
  | v2 s =>
    cases o with
    | v1 o => rfl
    | v2 o =>
      have hps := V2.hasSameParams_symm s o
      have h1 := C21_v2_symm (env := env) s o
      have e1 : (Bloom.v2 s).hasSameParams (.v2 o) = .ok (s.hasSameParams o) := rfl
      have e2 : (Bloom.v2 o).hasSameParams (.v2 s) = .ok (o.hasSameParams s) := rfl
      unfold Bloom.countCommonEntries
      rw [e1, e2, hps]
      cases o.hasSameParams s <;> simp [h1]

/-- No shared bit, no common entries. -/
theorem C21_v2_zero {env : Env} (sp : env.libm.LnSpec) {s o : V2} (hp : s.hasSameParams o = true)
    (hz : ∀ b i, ¬ (s.bucketBit b i = true ∧ o.bucketBit b i = true)) :
    s.countCommonEntries env o = .ok 0 := by
  obtain ⟨_, _, _, _, _, p6⟩ := (V2.hasSameParams_iff s o).1 hp
  rw [V2.andBits_estimate_eq env hp]
  apply V2.estimate_zero sp
  intro b i
  rw [V2.bit_andBits p6, ← Bool.not_eq_true, Bool.and_eq_true]
  exact hz b i

theorem C21_v1_zero {env : Env} (sp : env.libm.LnSpec) {s o : V1} (hp : s.hasSameParams o = true)
    (hz : ∀ i, ¬ (bitAt s.bitset i = true ∧ bitAt o.bitset i = true)) :
    s.countCommonEntries env o = .ok 0 := by
  obtain ⟨_, _, _, _, _, p6⟩ := (V1.hasSameParams_iff s o).1 hp
  unfold V1.countCommonEntries V1.countOnesInCommon
  rw [hp, if_pos p6]
  simp only [Bool.not_true, Bool.false_eq_true, if_false, Res.bind_ok]
  rw [sum_countOnes, countBelow_congr (q := fun _ => false), countBelow_false]
  · congr 1
    exact estimateCount_zero sp _ _
  · intro i _
    rw [bitAt_zipWith_and p6, ← Bool.not_eq_true, Bool.and_eq_true]
    exact hz i

-- two v1 filters without common bits
example : (Sample.f1.insertBytes Sample.env [1#8]).1.countCommonEntries Sample.env Sample.f1
    = .ok 0 := by decide +kernel
-- correctly rounded functions meet the assumption
example : Libm.exact.LnSpec := Libm.exact_lnSpec

/-! ## C50 estimate after merging -/

/-- The estimate made by a v2 union: the sum over the buckets of a function of the number of bits
set; wrong only by wrapping (release) when it exceeds 64 bits. -/
theorem C50_v2_sum {env : Env} : ∃ e : U64 → ℕ → ℕ, ∀ s o g : V2,
    s.unionMerge env o = (g, .ok ()) ∨ s.intersectionMerge env o = (g, .ok ()) →
    g.countEstimate.toNat
      = (g.buckets.map fun b => e g.nHashBuck b.countOnes).sum % 2 ^ 64 ∧
    (env.debug = true → g.countEstimate.toNat
      = (g.buckets.map fun b => e g.nHashBuck b.countOnes).sum) := by
  refine ⟨fun n c => (V2.bucketEstimate env n c).toNat, fun s o g h => ?_⟩
  have : ∃ f c, V2.estimate env f = .ok c ∧ g = { f with count := c } := by
    rcases h with h | h
    · obtain ⟨_, c, hc, hg⟩ := V2.unionMerge_ok' h; exact ⟨_, c, hc, hg⟩
    · obtain ⟨_, c, hc, hg⟩ := V2.intersectionMerge_ok' h; exact ⟨_, c, hc, hg⟩
  obtain ⟨f, c, hc, rfl⟩ := this
  unfold V2.estimate at hc
  rw [V2.sumU64_eq, List.map_map] at hc
  split at hc
  · cases hc
  · rename_i hx
    cases hc
    refine ⟨BitVec.toNat_ofNat _ _, fun hd => ?_⟩
    refine (BitVec.toNat_ofNat _ _).trans (Nat.mod_eq_of_lt ?_)
    by_contra hlt
    exact hx ⟨hd, not_lt.1 hlt⟩

/-- A merge of two v2 filters, in either way, that succeeded with the result `g`. -/
def V2.Merged (env : Env) (s o g : V2) : Prop :=
  s.unionMerge env o = (g, .ok ()) ∨ s.intersectionMerge env o = (g, .ok ())

theorem V2.Merged.estimate {env : Env} {s o g : V2} (h : V2.Merged env s o g) :
    ∃ f c, V2.estimate env f = .ok c ∧ g = { f with count := c } := by
  rcases h with h | h
  · obtain ⟨_, c, hc, hg⟩ := V2.unionMerge_ok' h; exact ⟨_, c, hc, hg⟩
  · obtain ⟨_, c, hc, hg⟩ := V2.intersectionMerge_ok' h; exact ⟨_, c, hc, hg⟩

/-- The estimate of a v2 union or intersection depends only on the numbers of bits set in its
buckets, and not on which of the two it is. -/
theorem C50_v2_determined {env : Env} {s o g s' o' g' : V2}
    (h : V2.Merged env s o g) (h' : V2.Merged env s' o' g')
    (hn : g.nHashBuck = g'.nHashBuck)
    (hb : g.buckets.map BitSet.countOnes = g'.buckets.map BitSet.countOnes) :
    g.countEstimate = g'.countEstimate := by
  obtain ⟨e, he⟩ := C50_v2_sum (env := env)
  apply BitVec.eq_of_toNat_eq
  rw [(he s o g h).1, (he s' o' g' h').1, hn]
  congr 2
  have : ∀ l : List Bucket, (l.map fun b => e g'.nHashBuck b.countOnes)
      = (l.map BitSet.countOnes).map (e g'.nHashBuck) := by
    intro l; rw [List.map_map]; rfl
  rw [this, this, hb]

/-- The estimate of a v2 union or intersection grows with the number of bits set in its buckets
(unless it wraps, which debug builds detect). -/
theorem C50_v2_mono {env : Env} (sp : env.libm.LnSpec) (hd : env.debug = true)
    {s o g s' o' g' : V2} (h : V2.Merged env s o g) (h' : V2.Merged env s' o' g')
    (hn : g.nHashBuck = g'.nHashBuck)
    (hb : List.Forall₂ (fun x y : Bucket => x.countOnes ≤ y.countOnes) g.buckets g'.buckets) :
    g.countEstimate.toNat ≤ g'.countEstimate.toNat := by
  obtain ⟨_, c, hc, rfl⟩ := h.estimate
  obtain ⟨_, c', hc', rfl⟩ := h'.estimate
  exact V2.estimate_mono sp hd hc hc' hn hb

/-- A v2 union or intersection without any bit has estimate 0. -/
theorem C50_v2_zero {env : Env} (sp : env.libm.LnSpec) {s o g : V2}
    (h : V2.Merged env s o g) (hz : ∀ b i, g.bucketBit b i = false) :
    g.countEstimate = 0 := by
  obtain ⟨f, c, hc, rfl⟩ := h.estimate
  have := V2.estimate_zero (env := env) sp (f := f) hz
  rw [hc] at this
  cases this
  rfl

/-- The estimate of a v1 union depends only on the number of bits set. -/
theorem C50_v1_determined {env : Env} {s o g s' o' g' : V1}
    (h : s.unionMerge env o = (g, .ok ())) (h' : s'.unionMerge env o' = (g', .ok ()))
    (hn : g.nHash = g'.nHash) (hm : g.bitSize = g'.bitSize) (hb : g.countOnes = g'.countOnes) :
    g.countEstimate = g'.countEstimate := by
  obtain ⟨_, rfl⟩ := V1.unionMerge_ok' h
  obtain ⟨_, rfl⟩ := V1.unionMerge_ok' h'
  show V1.estimate env (V1.orBits s o) = V1.estimate env (V1.orBits s' o')
  have h1 : (V1.orBits s o).countOnes = (V1.orBits s' o').countOnes := hb
  have h2 : (V1.orBits s o).nHash = (V1.orBits s' o').nHash := hn
  have h3 : (V1.orBits s o).bitSize = (V1.orBits s' o').bitSize := hm
  unfold V1.estimate
  rw [h1, h2, h3]

/-- It grows with that number, as long as it does not exceed the number of bits. -/
theorem C50_v1_mono {env : Env} (sp : env.libm.LnSpec) {s o g s' o' g' : V1}
    (h : s.unionMerge env o = (g, .ok ())) (h' : s'.unionMerge env o' = (g', .ok ()))
    (hn : g.nHash = g'.nHash) (hm : g.bitSize = g'.bitSize) (hb : g.countOnes ≤ g'.countOnes)
    (hfull : g'.countOnes ≤ g'.bitSize.toNat) :
    g.countEstimate.toNat ≤ g'.countEstimate.toNat := by
  obtain ⟨_, rfl⟩ := V1.unionMerge_ok' h
  obtain ⟨_, rfl⟩ := V1.unionMerge_ok' h'
  show (V1.estimate env (V1.orBits s o)).toNat ≤ (V1.estimate env (V1.orBits s' o')).toNat
  have h1 : (V1.orBits s o).countOnes ≤ (V1.orBits s' o').countOnes := hb
  have h2 : (V1.orBits s o).nHash = (V1.orBits s' o').nHash := hn
  have h3 : (V1.orBits s o).bitSize = (V1.orBits s' o').bitSize := hm
  have h4 : (V1.orBits s' o').countOnes ≤ (V1.orBits s' o').bitSize.toNat := hfull
  have hlt := (V1.orBits s' o').bitSize.isLt
  unfold V1.estimate
  rw [h2, h3]
  apply estimateCount_mono sp
  · rw [BitVec.toNat_ofNat, BitVec.toNat_ofNat, Nat.mod_eq_of_lt (by omega),
      Nat.mod_eq_of_lt (by omega)]
    exact h1
  · rw [BitVec.toNat_ofNat, Nat.mod_eq_of_lt (by omega)]
    exact h4

/-- A v1 union without any bit has estimate 0. -/
theorem C50_v1_zero {env : Env} (sp : env.libm.LnSpec) {s o g : V1}
    (h : s.unionMerge env o = (g, .ok ())) (hz : ∀ i, bitAt g.bitset i = false) :
    g.countEstimate = 0 := by
  obtain ⟨_, rfl⟩ := V1.unionMerge_ok' h
  show V1.estimate env (V1.orBits s o) = 0
  have h0 : (V1.orBits s o).countOnes = 0 := by
    unfold V1.countOnes
    rw [sum_countOnes, countBelow_congr (q := fun _ => false), countBelow_false]
    intro i _; exact hz i
  unfold V1.estimate
  rw [h0]
  exact estimateCount_zero sp _ _

-- unions of one-bucket filters succeed with exact functions even in debug builds
example : ∃ g, (Sample.f2s.insert Sample.env (.slice [1#8])).1.unionMerge
    { Sample.env with libm := Libm.exact, debug := true }
    (Sample.f2s.insert Sample.env (.slice [2#8])).1 = (g, .ok ()) := by
  have hp : (Sample.f2s.insert Sample.env (.slice [1#8])).1.hasSameParams
      (Sample.f2s.insert Sample.env (.slice [2#8])).1 = true := by decide +kernel
  have hl : (V2.orBits (Sample.f2s.insert Sample.env (.slice [1#8])).1
      (Sample.f2s.insert Sample.env (.slice [2#8])).1).buckets.length = 1 := by
    rw [(V2.orBits_shape hp).blen]; decide +kernel
  generalize (Sample.f2s.insert Sample.env (.slice [1#8])).1 = s at *
  generalize (Sample.f2s.insert Sample.env (.slice [2#8])).1 = o at *
  refine ⟨_, Prod.ext rfl ?_⟩
  rw [V2.unionMerge_eq, if_pos hp, V2.updateCount_snd, V2.estimate, V2.sumU64_eq]
  obtain ⟨b, hb⟩ := List.length_eq_one_iff.1 hl
  rw [hb, if_neg]
  · rfl
  · simp only [List.map_cons, List.map_nil, List.sum_cons, List.sum_nil, not_and, not_le]
    intro _
    have := (V2.bucketEstimate { Sample.env with libm := Libm.exact, debug := true }
      (V2.orBits s o).nHashBuck b.countOnes).isLt
    omega

end Poppy
