import Verif.Props.Misc

/-!
# When the violated properties hold, exactly

For some properties the code has exceptions, and the theorems named `_partial` state them under
conditions which exclude these.  Here the conditions are shown to be necessary as well: the claim
holds for a filter if and only if they do.
-/

namespace Poppy

open Spec

/-! ## C02 -/

/-- An accepted key of a v1 filter is found, whatever additions and round trips follow, exactly
when the filter has bits; otherwise it never is. -/
theorem C02_exact {env : Env} (hs : env.Small) {f g h : V1} (hf : V1.Reach env f) {k : List U8}
    {b : Bool} (hi : f.insertBytes env k = (g, .ok b)) (hk : V1.Keeps env g h) :
    h.containsBytes k = .ok true ↔ f.bitSize ≠ 0 := by
  refine ⟨fun ht h0 => ?_, fun hb => C02_no_false_negative_partial hs hf hb hi hk⟩
  have hg : g = (f.insertBytes env k).1 := by rw [hi]
  have key : V1.Reach env h ∧ h.bitSize = 0 := by
    clear ht
    induction hk with
    | refl =>
      rw [hg]
      exact ⟨.insert _ hf, by rw [(V1.insertBytes_ext env f k).bitSize]; exact h0⟩
    | @step g' h _ st ih =>
      obtain ⟨h1, h2⟩ := ih
      cases st with
      | insert key => exact ⟨.insert _ h1, by rw [(V1.insertBytes_ext env g' key).bitSize]; exact h2⟩
      | union o => exact ⟨.union _ h1, by rw [(V1.unionMerge_ext env g' o).bitSize]; exact h2⟩
      | setData d => exact ⟨.setData d h1, h2⟩
      | reload hr =>
        have hl := hr
        rw [h1.fits.reload] at hr
        cases hr
        exact ⟨.load hl, h2⟩
  rw [V1.containsBytes_empty (V1.bitset_nil key.1.fits key.2)] at ht
  cases ht

example (k k' : List U8) (g : V1) (b : Bool)
    (hi : Sample.f1.insertBytes Sample.env k = (g, .ok b)) :
    (g.insertBytes Sample.env k').1.containsBytes k = .ok true :=
  (C02_exact Sample.env_small (.make Sample.f1_make) hi (.step .refl (.insert k'))).2 (by decide)

/-! ## C04 -/

/-- A new v2 filter answers for every key the same; the answer is "yes" exactly when it can hold
keys but has neither hash functions nor an index cache. -/
theorem C04_v2_exact {env : Env} (sp : env.libm.Spec) {cap : U64} {fpp : F64} {opt : OptLevel}
    {f : V2} (h : V2.make env cap fpp opt = .ok f) (k : Key) :
    (f.contains env k = .ok true ↔
      cap ≠ 0 ∧ f.nHashBuck = 0 ∧ f.indexCache.isEmpty = true) ∧
    (f.contains env k = .ok true ∨ f.contains env k = .ok false) := by
  have hr := V2.Reach.make h
  have hc0 : f.capacity = cap := by
    obtain ⟨_, nb, nh, cbs, _, _, _, rfl⟩ := V2.make_ok h; rfl
  by_cases hc : cap = 0
  · rw [V2.contains_noCap env k (by rw [hc0, hc])]
    simp [hc]
  rw [V2.contains_eq env hr.wf k (by rw [hc0]; exact hc) (V2.make_buckets sp h hc)]
  constructor
  · rw [Res.ok.injEq, Bool.and_eq_true, V2.cacheOk_iff, V2.make_cacheBit h, V2.allSet_iff,
      V2.isEmpty_iff]
    simp only [V2.make_bit h, Bool.false_eq_true, or_false, imp_false, ne_eq, hc, not_false_eq_true,
      true_and]
    constructor
    · rintro ⟨h1, h2⟩
      refine ⟨?_, h1⟩
      by_contra hn
      exact h2 0 (V1.toNat_pos hn)
    · rintro ⟨h1, h2⟩
      refine ⟨h2, fun n hn => ?_⟩
      rw [h1] at hn
      simp at hn
  · cases (f.cacheOk (k.hashPop env.wy) && V2.allSet env f (k.hashPop env.wy)) <;> simp

example (k : Key) : Sample.f2.contains Sample.env k = .ok false := by
  obtain ⟨h1, h2⟩ := C04_v2_exact Sample.libm_spec Sample.f2_make k
  refine h2.resolve_left fun h => ?_
  exact absurd (h1.1 h).2.1 (by decide)

/-! ## C05 -/

/-- After `clear` a v2 filter contains a key exactly when it contained it before and has no hash
functions: then `clear` has no effect on the answers, otherwise no key is left. -/
theorem C05_v2_exact {env : Env} {f : V2} (hf : V2.Reach env f) (hb : f.buckets ≠ []) (k : Key) :
    f.clear.contains env k = .ok true ↔ f.nHashBuck = 0 ∧ f.contains env k = .ok true := by
  have h' : V2.Reach env f.clear := .clear hf
  have hb' : f.clear.buckets ≠ [] := by simpa [V2.clear] using hb
  by_cases hc : f.capacity = 0
  · rw [V2.contains_noCap env k hc, V2.contains_noCap env k (show f.clear.capacity = 0 from hc)]
    simp
  rw [V2.contains_eq env hf.wf k hc hb,
    V2.contains_eq env h'.wf k (show f.clear.capacity ≠ 0 from hc) hb']
  have e : f.clear.cacheOk (k.hashPop env.wy) = f.cacheOk (k.hashPop env.wy) := rfl
  rw [e]
  simp only [Res.ok.injEq, Bool.and_eq_true, V2.allSet_iff, V2.bit_clear, Bool.false_eq_true,
    imp_false]
  have e2 : f.clear.nHashBuck = f.nHashBuck := rfl
  rw [e2]
  constructor
  · rintro ⟨h1, h2⟩
    have hn : f.nHashBuck = 0 := by
      by_contra hn
      exact h2 0 (V1.toNat_pos hn)
    refine ⟨hn, h1, fun n h => absurd h ?_⟩
    rw [hn]; simp
  · rintro ⟨hn, h1, _⟩
    refine ⟨h1, fun n h => ?_⟩
    rw [hn] at h; simp at h

example (k : Key) : Sample.f2.clear.contains Sample.env k ≠ .ok true := fun h =>
  absurd ((C05_v2_exact (.make Sample.f2_make) (by decide +kernel) k).1 h).1 (by decide)

/-! ## C06 -/

/-- A cleared v2 filter is written as the same bytes as a new one with the same parameters
exactly when no bit of its index cache is set. -/
theorem C06_v2_exact {env : Env} (hs : env.Small) {f f0 : V2} (h : V2.Built env f)
    (hd : f.data = []) (hm : V2.make env f.capacity f.fpp f.flags.opt = .ok f0) :
    f.clear.file = f0.file ↔ ∀ i, bitAt f.indexCache.asSlice i = false := by
  obtain ⟨f1, h1, h2, h3⟩ := C06_v2_clear_fresh_partial hs h
  rw [hm] at h1
  cases h1
  constructor
  · intro he i
    have e1 := (V2.Reach.clear h.reach).reload hs
    have e2 := (V2.Reach.make hm).reload hs
    rw [he, e2, Res.ok.injEq] at e1
    have e3 : f0.indexCache = f.indexCache :=
      (congrArg (fun g : V2 => g.indexCache) e1 :)
    rw [← e3]
    exact V2.make_cacheBit hm i
  · intro hz
    have hi : f0.indexCache = f.indexCache := by
      have : f0.indexCache.bytes = f.indexCache.bytes :=
        bitAt_ext h3 fun i _ => (V2.make_cacheBit hm i).trans (hz i).symm
      cases hx : f0.indexCache; cases hy : f.indexCache
      rw [hx, hy] at this
      exact congrArg VecBitSet.mk this
    congr 1
    rw [← h2, hi, ← hd]; rfl

example : Sample.f2.clear.file = Sample.f2.file :=
  (C06_v2_exact Sample.env_small (.make Sample.f2_make) (by decide +kernel)
    (f0 := Sample.f2) Sample.f2_make).2 fun i => V2.make_cacheBit Sample.f2_make i

/-! ## C14 -/

/-- A v2 filter with capacity refuses a key exactly when its count equals its capacity and some
bit of the key is unset. -/
theorem C14_v2_exact {env : Env} {f : V2} (hf : V2.Reach env f) (hne : f.buckets ≠ [])
    (hc : f.capacity ≠ 0) (k : Key) :
    (f.insert env k).2 = .err .tooManyEntries ↔
      f.countEstimate = f.capacity ∧ ∃ n < f.nHashBuck.toNat, f.keyBit env k n = false := by
  rw [V2.insert_cases env hf.wf k hc hne, ← V2.not_allSet_key]
  show _ ↔ f.count = f.capacity ∧ _
  split
  · next h => simpa using h
  · next h => split <;> simpa using h

/-- The same for v1, where the count may also be greater. -/
theorem C14_v1_exact {env : Env} (hs : env.Small) {f : V1} (hf : V1.Reach env f)
    (hm : f.bitSize ≠ 0) (hc : f.capacity ≠ 0) (k : List U8) :
    (f.insertBytes env k).2 = .err .tooManyEntries ↔
      f.capacity ≤ f.countEstimate ∧ f.containsBytes k = .ok false := by
  rw [V1.insertBytes_eq env (hf.wf hs) k hc hm, V1.containsBytes_eq (hf.wf hs) k hm]
  show _ ↔ f.capacity ≤ f.count ∧ _
  split
  · next h => simpa using h
  · next h => simpa using h

example : (Sample.f2.insert Sample.env (.slice [1#8])).2 ≠ .err .tooManyEntries := fun h =>
  absurd ((C14_v2_exact (.make Sample.f2_make) (by decide +kernel) (by decide +kernel) _).1 h).1
    (by decide +kernel)
example (k : List U8) : (Sample.f1.insertBytes Sample.env k).2 ≠ .err .tooManyEntries := fun h =>
  absurd ((C14_v1_exact Sample.env_small (.make Sample.f1_make) (by decide +kernel)
    (by decide +kernel) k).1 h).1 (by decide +kernel)

end Poppy
