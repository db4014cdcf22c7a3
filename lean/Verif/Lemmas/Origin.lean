import Verif.Lemmas.Sizes
import Verif.Lemmas.V2Ops
import Mathlib.Tactic.IntervalCases

/-! Filters derived from a constructor keep the sizes the constructor chose. -/

namespace Poppy

namespace V2

/-- A filter derived from a constructor has the parameters and sizes of the constructed one. -/
theorem Built.origin {env : Env} (hs : env.Small) {f : V2} (h : Built env f) :
    ∃ cap fpp opt f0, V2.make env cap fpp opt = .ok f0 ∧ Shape f0 { f with data := f0.data } := by
  have step : ∀ {f g : V2}, Shape f g →
      (∃ cap fpp opt f0, V2.make env cap fpp opt = .ok f0 ∧ Shape f0 { f with data := f0.data }) →
      ∃ cap fpp opt f0, V2.make env cap fpp opt = .ok f0 ∧ Shape f0 { g with data := f0.data } := by
    rintro f g s ⟨cap, fpp, opt, f0, h, a⟩
    exact ⟨cap, fpp, opt, f0, h, s.1.trans a.1, s.2.trans a.2, s.3.trans a.3, s.4.trans a.4,
      s.5.trans a.5, s.6.trans a.6, rfl, s.8.trans a.8, s.9.trans a.9⟩
  induction h with
  | @make cap fpp opt f h => exact ⟨cap, fpp, opt, f, h, Shape.refl f⟩
  | insertIter it _ ih => exact step (insertIter_ext env _ it).toShape ih
  | union o _ ih => exact step (unionMerge_ext env _ o).toShape ih
  | inter o _ ih => exact step (intersectionMerge_shape env _ o) ih
  | clear _ ih => exact step (clear_shape _) ih
  | setData d _ ih => exact ih
  | reload hb hr ih =>
    obtain ⟨h1, h2, h3⟩ := hb.inv hs
    rw [file_eq, fromReader_ser h1 hs h2, Fits.canon_eq h3] at hr
    cases hr
    exact ih

theorem Built.reach {env : Env} {f : V2} (h : Built env f) : Reach env f := by
  induction h with
  | make h => exact .make h
  | insertIter it _ ih => exact .insertIter it ih
  | union o _ ih => exact .union o ih
  | inter o _ ih => exact .inter o ih
  | clear _ ih => exact .clear ih
  | setData d _ ih => exact .setData d ih
  | reload _ hr _ => exact .load hr

theorem sizes_ok {env : Env} {cap : U64} {fpp : F64} {opt : OptLevel} {nb nh cbs : U64}
    (h : sizes env cap fpp opt = .ok (nb, nh, cbs)) :
    ((opt = .none ∨ opt = .space) ∧ nb = nBucketOf env.libm cap fpp ∧ cbs = 0 ∧
      nh = FVal.toU64 (FVal.ceil (FVal.ofU64 (kHash env.libm bucketBitSize
        (capFromBitSize env.libm bucketBitSize (FVal.ofBits fpp)))))) ∨
    (opt = .speed ∧ nextPowerOfTwo env.debug (nBucketOf env.libm cap fpp) = .ok nb ∧
      nextPowerOfTwo env.debug cap = .ok cbs) ∨
    (opt = .best ∧ nb = nBucketOf env.libm cap fpp ∧ nextPowerOfTwo env.debug cap = .ok cbs) := by
  unfold sizes at h
  cases opt with
  | none =>
    simp only [Res.ok.injEq, Prod.mk.injEq] at h
    exact Or.inl ⟨Or.inl rfl, h.1.symm, h.2.2.symm, h.2.1.symm⟩
  | space =>
    simp only [Res.ok.injEq, Prod.mk.injEq] at h
    exact Or.inl ⟨Or.inr rfl, h.1.symm, h.2.2.symm, h.2.1.symm⟩
  | speed =>
    simp only [Res.bind_eq_ok, Res.ok.injEq, Prod.mk.injEq] at h
    obtain ⟨c, hc, n, hn, h1, _, h2⟩ := h
    subst h1 h2
    exact Or.inr (Or.inl ⟨rfl, hn, hc⟩)
  | best =>
    simp only [Res.bind_eq_ok, Res.ok.injEq, Prod.mk.injEq] at h
    obtain ⟨c, hc, h1, _, h2⟩ := h
    subst h1 h2
    exact Or.inr (Or.inr ⟨rfl, rfl, hc⟩)

/-- Constructed filters of non-zero capacity have buckets. -/
theorem make_buckets {env : Env} (sp : env.libm.Spec) {cap : U64} {fpp : F64} {opt : OptLevel}
    {f : V2} (h : V2.make env cap fpp opt = .ok f) (hc : cap ≠ 0) : f.buckets ≠ [] := by
  obtain ⟨hin, nb, nh, cbs, hs, _, _, rfl⟩ := make_ok h
  obtain ⟨h1, h2⟩ := nBucket_pos sp hin hc
  have : 0 < nb.toNat := by
    rcases sizes_ok hs with ⟨_, rfl, _⟩ | ⟨_, hn, _⟩ | ⟨_, rfl, _⟩
    · exact h1
    · rcases nextPow2_ok hn with ⟨_, _, h3, _⟩ | ⟨h3, _⟩ <;> omega
    · exact h1
  simp only [ne_eq, List.replicate_eq_nil_iff]
  omega

theorem Built.buckets {env : Env} (hs : env.Small) (sp : env.libm.Spec) {f : V2}
    (h : Built env f) (hc : f.capacity ≠ 0) : f.buckets ≠ [] := by
  obtain ⟨cap, fpp, opt, f0, hm, a⟩ := h.origin hs
  have hc0 : f0.capacity = cap := by
    obtain ⟨_, nb, nh, cbs, _, _, _, rfl⟩ := make_ok hm; rfl
  have h1 : f.capacity = f0.capacity := a.capacity
  have h2 : f.buckets.length = f0.buckets.length := a.blen
  have := make_buckets sp hm (by rw [← hc0, ← h1]; exact hc)
  rw [← List.length_pos_iff] at this ⊢
  omega

/-- Number of hash functions of filters built without speed optimization. -/
theorem make_nHash {env : Env} (sp : env.libm.Spec) {cap : U64} {fpp : F64} {opt : OptLevel}
    {f : V2} (h : V2.make env cap fpp opt = .ok f) (ho : opt = .none ∨ opt = .space) :
    1 ≤ f.nHashBuck.toNat := by
  obtain ⟨hin, nb, nh, cbs, hs, _, _, rfl⟩ := make_ok h
  rcases sizes_ok hs with ⟨_, _, _, rfl⟩ | ⟨rfl, _⟩ | ⟨rfl, _⟩
  · exact (nHash_pos sp (bucketCap_ge sp hin)).1
  · simp at ho
  · simp at ho

/-- Cache of constructed filters. -/
theorem make_cache {env : Env} {cap : U64} {fpp : F64} {opt : OptLevel}
    {f : V2} (h : V2.make env cap fpp opt = .ok f) :
    (opt = .none ∨ opt = .space → f.indexCache.asSlice = []) ∧
    (opt = .speed ∨ opt = .best → cap.toNat ≤ 2 ^ 53 →
      ∃ k, f.indexCache.asSlice.length * 8 = 2 ^ k ∧ 3 ≤ k ∧ cap.toNat ≤ 2 ^ k) := by
  obtain ⟨hin, nb, nh, cbs, hs, _, _, rfl⟩ := make_ok h
  have hcache : (VecBitSet.withBitCapacity cbs).asSlice.length = (byteCapFromBitCap cbs).toNat := by
    simp [VecBitSet.withBitCapacity, VecBitSet.asSlice]
  constructor
  · intro ho
    rcases sizes_ok hs with ⟨_, _, rfl, _⟩ | ⟨rfl, _⟩ | ⟨rfl, _⟩
    · rw [← List.length_eq_zero_iff, hcache, byteCap_zero]; rfl
    · simp at ho
    · simp at ho
  · intro ho hc
    have hcb : nextPowerOfTwo env.debug cap = .ok cbs := by
      rcases sizes_ok hs with ⟨h1, _⟩ | ⟨_, _, h1⟩ | ⟨_, _, h1⟩
      · rcases h1 with rfl | rfl <;> simp at ho
      · exact h1
      · exact h1
    rcases nextPow2_ok hcb with ⟨_, ⟨k, hk, h2⟩, h3, h4⟩ | ⟨h1, _⟩
    · have h5 : k ≤ 53 := by
        by_contra hk'
        have : 2 ^ 54 ≤ 2 ^ k := Nat.pow_le_pow_right (by norm_num) (by omega)
        rw [h2] at h4
        omega
      have h6 : cbs.toNat ≤ 2 ^ 53 := by
        rw [h2]; exact Nat.pow_le_pow_right (by norm_num) h5
      have h7 : (VecBitSet.withBitCapacity cbs).asSlice.length = (2 ^ k + 7) / 8 := by
        rw [hcache, byteCap_eq h6, h2]
      rcases Nat.lt_or_ge k 3 with hk3 | hk3
      · refine ⟨3, ?_, le_refl _, ?_⟩
        · show (VecBitSet.withBitCapacity cbs).asSlice.length * 8 = 2 ^ 3
          rw [h7]
          interval_cases k <;> rfl
        · have : 2 ^ k ≤ 2 ^ 3 := Nat.pow_le_pow_right (by norm_num) (by omega)
          omega
      · refine ⟨k, ?_, hk3, by omega⟩
        show (VecBitSet.withBitCapacity cbs).asSlice.length * 8 = 2 ^ k
        rw [h7]
        obtain ⟨j, rfl⟩ : ∃ j, k = j + 3 := ⟨k - 3, by omega⟩
        rw [pow_add]
        omega
    · omega

end V2

namespace V1

theorem Built.origin {env : Env} {f : V1} (h : Built env f) :
    ∃ cap fpp f0, withCapacity env cap fpp = .ok f0 ∧ Shape f0 { f with data := f0.data } := by
  have step : ∀ {f g : V1}, Shape f g →
      (∃ cap fpp f0, withCapacity env cap fpp = .ok f0 ∧ Shape f0 { f with data := f0.data }) →
      ∃ cap fpp f0, withCapacity env cap fpp = .ok f0 ∧ Shape f0 { g with data := f0.data } := by
    rintro f g s ⟨cap, fpp, f0, h, a⟩
    exact ⟨cap, fpp, f0, h, s.1.trans a.1, s.2.trans a.2, s.3.trans a.3, s.4.trans a.4,
      s.5.trans a.5, rfl, s.7.trans a.7, s.8.trans a.8⟩
  induction h with
  | @make cap fpp f h => exact ⟨cap, fpp, f, h, Shape.refl f⟩
  | insert k _ ih => exact step (insertBytes_ext env _ k).toShape ih
  | union o _ ih => exact step (unionMerge_ext env _ o).toShape ih
  | clear _ ih => exact step (clear_shape _) ih
  | setData d _ ih => exact ih
  | reload hb hr ih =>
    obtain ⟨h1, h2, h3⟩ := hb.inv
    rw [file_eq, fromReader_ser h1, canon_eq h2] at hr
    cases hr
    exact ih

theorem Built.reach {env : Env} {f : V1} (h : Built env f) : Reach env f := by
  induction h with
  | make h => exact .make h
  | insert k _ ih => exact .insert k ih
  | union o _ ih => exact .union o ih
  | clear _ ih => exact .clear ih
  | setData d _ ih => exact .setData d ih
  | reload _ hr _ => exact .load hr

/-- Bits and hash functions of constructed filters. -/
theorem make_bits {env : Env} (sp : env.libm.Spec) {cap : U64} {fpp : F64} {f : V1}
    (h : withCapacity env cap fpp = .ok f) :
    (f.bitSize = 0 ↔ f.nHash = 0) ∧ (f.capacity = 0 → f.bitSize = 0) := by
  obtain ⟨hin, _, rfl⟩ := withCapacity_ok h
  obtain ⟨v, hv0, _, hv, hc⟩ := bitSizeFor_eq sp hin cap
  have hz : cap = 0 → bitSizeFor env.libm cap (FVal.ofBits fpp) = 0 := by
    intro h0
    rw [hv, hc h0]
    decide +kernel
  refine ⟨⟨fun h0 => ?_, fun h0 => ?_⟩, hz⟩
  · simp only at h0 ⊢
    rw [h0]; exact kHash_zero sp cap
  · simp only at h0 ⊢
    by_contra hb
    have := kHash_pos sp hb (fun h => hb (hz h))
    rw [h0] at this
    simp at this

theorem Built.bits {env : Env} (sp : env.libm.Spec) {f : V1} (h : Built env f) :
    (f.bitSize = 0 ↔ f.nHash = 0) ∧ (f.capacity = 0 → f.bitSize = 0) := by
  obtain ⟨cap, fpp, f0, hm, a⟩ := h.origin
  have := make_bits sp hm
  rw [show f.bitSize = f0.bitSize from a.bitSize, show f.nHash = f0.nHash from a.nHash,
    show f.capacity = f0.capacity from a.capacity]
  exact this

end V1

end Poppy

namespace Poppy

theorem nBucketOf_zero {lm : Libm} (sp : lm.Spec) {fpp : F64} (h : fppInRange fpp = true) :
    V2.nBucketOf lm 0 fpp = 0 := by
  have hb := bucketCap_ge sp h
  obtain ⟨qa, qb, h1, h2, h3, h4, h5, h6, h7, h8⟩ := div_ofU64 (a := 1) (by decide)
    (ne_zero_of_toNat_pos (x := capFromBitSize lm V2.bucketBitSize (FVal.ofBits fpp)) (by omega))
  unfold V2.nBucketOf
  rw [ofU64_zero, h2]
  have hq : qb ≠ 0 := by intro h0; subst h0; norm_num at *
  have : FVal.div (.fin 0) (.fin qb) = .fin 0 := by
    show (if qb = 0 then _ else rnd _) = _
    rw [if_neg hq, zero_div, rnd_zero]
  rw [this]
  decide +kernel

end Poppy
