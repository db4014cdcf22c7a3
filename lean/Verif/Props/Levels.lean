import Verif.Lemmas.Levels
import Verif.Props.Serial
import Verif.Props.Constructor
import Verif.Props.Creation
import Verif.Samples

/-!
# C126: what the optimization levels change
-/

namespace Poppy

open Spec

/-- Creating a filter of version 2. -/
theorem Levels.create (env : Env) (cap : U64) (fpp : F64) (opt : OptLevel) :
    Bloom.withVersionCapacityOpt env 2 cap fpp opt = (V2.make env cap fpp opt).map .v2 := by
  unfold Bloom.withVersionCapacityOpt
  rw [if_neg (by decide), if_pos (by decide)]

/-- The level Space does nothing: creation ends as with the level None, and the filter is the same
but for the level, and stays so whatever is inserted. -/
theorem C126_space (env : Env) (cap : U64) (fpp : F64) :
    (∀ e, Bloom.withVersionCapacityOpt env 2 cap fpp .space = .err e ↔
      Bloom.withVersionCapacityOpt env 2 cap fpp .none = .err e) ∧
    (Bloom.withVersionCapacityOpt env 2 cap fpp .space = .panic ↔
      Bloom.withVersionCapacityOpt env 2 cap fpp .none = .panic) ∧
    ∀ f, Bloom.withVersionCapacityOpt env 2 cap fpp .none = .ok f →
      ∃ g, Bloom.withVersionCapacityOpt env 2 cap fpp .space = .ok g ∧
        ∀ ks, (insertAll env g ks).2 = (insertAll env f ks).2 ∧
          SameBut env 1 (insertAll env f ks).1 (insertAll env g ks).1 := by
  rw [Levels.create, Levels.create, V2.make_space]
  cases hm : V2.make env cap fpp .none with
  | err e => simp [Res.map]
  | panic => simp [Res.map]
  | ok a =>
    refine ⟨by simp [Res.map], by simp [Res.map], ?_⟩
    intro f hf
    simp only [Res.map, Res.ok.injEq] at hf
    subst hf
    refine ⟨_, rfl, fun ks => ?_⟩
    obtain ⟨h, h1, h2, h3⟩ := V2.insertAll_flags env ((Flags.new 2).withOpt .space) ks a
    rw [h3, h1]
    refine ⟨rfl, V2.sameBut env h .space ?_⟩
    obtain ⟨_, _, _, _, _, _, _, e⟩ := V2.make_ok hm
    rw [h2, e]; rfl

/-- Yet the two cannot be merged or compared, however equal they are. -/
theorem C126_refused (env : Env) {cap : U64} {fpp : F64} {f g : Bloom}
    (hf : Bloom.withVersionCapacityOpt env 2 cap fpp .none = .ok f)
    (hg : Bloom.withVersionCapacityOpt env 2 cap fpp .space = .ok g) (ks js : List (List U8)) :
    (insertAll env f ks).1.unionMerge env (insertAll env g js).1 =
      ((insertAll env f ks).1, .err (.merge "cannot merge filters with different parameters")) ∧
    (insertAll env f ks).1.countCommonEntries env (insertAll env g js).1 =
      .err (.merge "cannot compare filters with different parameters") := by
  rw [Levels.create] at hf hg
  cases hm : V2.make env cap fpp .none with
  | err e => rw [hm] at hf; simp [Res.map] at hf
  | panic => rw [hm] at hf; simp [Res.map] at hf
  | ok a =>
    cases hn : V2.make env cap fpp .space with
    | err e => rw [hn] at hg; simp [Res.map] at hg
    | panic => rw [hn] at hg; simp [Res.map] at hg
    | ok b =>
      rw [hm] at hf; rw [hn] at hg
      simp only [Res.map, Res.ok.injEq] at hf hg
      subst hf hg
      obtain ⟨p, p1, p2, _⟩ := V2.insertAll_flags env a.flags ks a
      obtain ⟨q, q1, q2, _⟩ := V2.insertAll_flags env b.flags js b
      rw [p1, q1]
      obtain ⟨_, _, _, _, _, _, _, ea⟩ := V2.make_ok hm
      obtain ⟨_, _, _, _, _, _, _, eb⟩ := V2.make_ok hn
      have hd : V2.hasSameParams p q = false := by
        have : p.flags ≠ q.flags := by
          rw [p2, q2, ea, eb]
          show (Flags.new 2#8).withOpt .none ≠ (Flags.new 2#8).withOpt .space
          decide
        unfold V2.hasSameParams
        rw [decide_eq_false this]
        rfl
      have hb : Bloom.hasSameParams (.v2 p) (.v2 q) = .ok false := by
        show (if _ then _ else _) = _
        rw [if_neg (by simp [Bloom.version])]
        exact congrArg _ hd
      unfold Bloom.unionMerge Bloom.countCommonEntries
      rw [hb]
      exact ⟨rfl, rfl⟩

/-- What the other levels cost.  If there is memory for the level Speed, there is for the others.
Best adds an index cache of at least one and at most two bits per entry to the filter without
optimization, rounded up to bytes; Speed also rounds the number of buckets up, to less than
twice as many. -/
theorem C126_cost {env : Env} (sp : env.libm.Spec) {cap : U64} {fpp : F64} {s : Bloom}
    (h0 : cap ≠ 0) (h63 : cap.toNat ≤ 2 ^ 63)
    (hs : Bloom.withVersionCapacityOpt env 2 cap fpp .speed = .ok s) :
    ∃ n b cache, Bloom.withVersionCapacityOpt env 2 cap fpp .none = .ok n ∧
      Bloom.withVersionCapacityOpt env 2 cap fpp .best = .ok b ∧
      b.file.length = n.file.length + cache ∧
      cap.toNat ≤ 8 * cache ∧ 8 * cache < 2 * cap.toNat + 8 ∧
      b.file.length ≤ s.file.length ∧
      s.file.length - 56 - cache < 2 * (n.file.length - 56) ∧
      n.capacity = cap ∧ b.capacity = cap ∧ s.capacity = cap := by
  rw [Levels.create] at hs ⊢
  cases hm : V2.make env cap fpp .speed with
  | err e => rw [hm] at hs; simp [Res.map] at hs
  | panic => rw [hm] at hs; simp [Res.map] at hs
  | ok a =>
    rw [hm] at hs
    simp only [Res.map, Res.ok.injEq] at hs
    subst hs
    obtain ⟨hin, nb, nh, cb, hsz, m1, m2, ea⟩ := V2.make_ok hm
    rcases V2.sizes_ok hsz with ⟨h, _⟩ | ⟨_, hn, hc⟩ | ⟨h, _⟩
    · simp at h
    · have hp := nBucket_pos sp hin h0
      rcases nextPow2_ok hc with ⟨_, ⟨k, hk, ek⟩, c1, c2⟩ | ⟨h, _⟩
      · rcases nextPow2_ok hn with ⟨_, _, b1, b2⟩ | ⟨h, _⟩
        · have ecb : cb = BitVec.ofNat 64 (2 ^ k) := by
            apply BitVec.eq_of_toNat_eq
            rw [ek, BitVec.toNat_ofNat, Nat.mod_eq_of_lt]
            exact Nat.pow_lt_pow_right (by norm_num) hk
          have hb8 := byteCap_pow2 k hk
          rw [← ecb] at hb8
          have hc1 : 1 ≤ cap.toNat := by
            rcases Nat.eq_zero_or_pos cap.toNat with h | h
            · exact absurd (BitVec.eq_of_toNat_eq h) h0
            · exact h
          have hz : (byteCapFromBitCap 0).toNat = 0 := by decide +kernel
          obtain ⟨n, hnone, _⟩ := V2.make_of_memory (opt := .none) hin
            (show V2.sizes env cap fpp .none = .ok (V2.nBucketOf env.libm cap fpp, _, 0) from rfl)
            (by rw [hz]; exact Nat.zero_le _) (le_trans (Nat.mul_le_mul_right _ b1) m2)
          have hbs : ∃ nh', V2.sizes env cap fpp .best = .ok (V2.nBucketOf env.libm cap fpp, nh', cb) := by
            unfold V2.sizes
            simp only [hc, Res.bind_ok]
            exact ⟨_, rfl⟩
          obtain ⟨nh', hbs⟩ := hbs
          obtain ⟨b, hbest, _⟩ := V2.make_of_memory (opt := .best) hin hbs m1
            (le_trans (Nat.mul_le_mul_right _ b1) m2)
          obtain ⟨_, nb1, nh1, cb1, hs1, _, _, en⟩ := V2.make_ok hnone
          obtain ⟨_, nb2, nh2, cb2, hs2, _, _, eb⟩ := V2.make_ok hbest
          rw [hbs] at hs2
          cases hs2
          cases hs1
          have ln := (C23_v2_layout n (by rw [en]; rfl)).2
          have lb := (C23_v2_layout b (by rw [eb]; rfl)).2
          have ls := (C23_v2_layout a (by rw [ea]; rfl)).2
          have cl : ∀ x, (VecBitSet.withBitCapacity x).asSlice.length = (byteCapFromBitCap x).toNat := by
            intro x
            simp [VecBitSet.withBitCapacity, VecBitSet.asSlice]
          have ln' : (Bloom.v2 n).file.length = 56 + 4096 * (V2.nBucketOf env.libm cap fpp).toNat := by
            show n.file.length = _
            rw [ln, en]
            simp only [cl, hz, List.length_replicate, List.length_nil]
            show _ + 0 + 4096 * (V2.nBucketOf env.libm cap fpp).toNat + 0 = _
            omega
          have lb' : (Bloom.v2 b).file.length = 56 + (byteCapFromBitCap cb).toNat +
              4096 * (V2.nBucketOf env.libm cap fpp).toNat := by
            show b.file.length = _
            rw [lb, eb]
            simp only [cl, List.length_replicate, List.length_nil]
            omega
          have ls' : (Bloom.v2 a).file.length = 56 + (byteCapFromBitCap cb).toNat + 4096 * nb.toNat := by
            show a.file.length = _
            rw [ls, ea]
            simp only [cl, List.length_replicate, List.length_nil]
            omega
          refine ⟨.v2 n, .v2 b, (byteCapFromBitCap cb).toNat, ?_, ?_, ?_, ?_, ?_, ?_, ?_, ?_, ?_, ?_⟩
          · rw [hnone]; rfl
          · rw [Levels.create, hbest]; rfl
          · omega
          · omega
          · omega
          · omega
          · omega
          · show n.capacity = cap; rw [en]
          · show b.capacity = cap; rw [eb]
          · show a.capacity = cap; rw [ea]
        · omega
      · omega
    · simp at h

/-! ### Concrete cases -/

/-- A filter for 5000 entries and probability 1/2, with and without optimizing for space. -/
example : ∃ f g, Bloom.withVersionCapacityOpt (Sample.envX true) 2 5000 Sample.half .none = .ok f ∧
    Bloom.withVersionCapacityOpt (Sample.envX true) 2 5000 Sample.half .space = .ok g ∧
    SameBut (Sample.envX true) 1 (insertAll (Sample.envX true) f [[1], [2, 3]]).1
      (insertAll (Sample.envX true) g [[1], [2, 3]]).1 ∧
    ((insertAll (Sample.envX true) f [[1]]).1.unionMerge (Sample.envX true)
      (insertAll (Sample.envX true) g [[1]]).1).2
        = .err (.merge "cannot merge filters with different parameters") := by
  obtain ⟨a, ha⟩ := C110_v2_any (env := Sample.envX true) Libm.exact_spec (cap := 5000)
    (fpp := Sample.half) (opt := .none) (Or.inl rfl) (by decide)
    (by show 5000 * 187 + 4096 ≤ 2 ^ 20; decide)
  have hf : Bloom.withVersionCapacityOpt (Sample.envX true) 2 5000 Sample.half .none
      = .ok (.v2 a) := by rw [Levels.create, ha]; rfl
  obtain ⟨g, hg, hk⟩ := (C126_space (Sample.envX true) 5000 Sample.half).2.2 _ hf
  exact ⟨_, g, hf, hg, (hk _).2, by rw [(C126_refused _ hf hg _ _).1]⟩

/-- A filter for 5000 entries and probability 1/2 with the level Speed. -/
example : ∃ s n, Bloom.withVersionCapacityOpt (Sample.envX true) 2 5000 Sample.half .speed = .ok s ∧
    Bloom.withVersionCapacityOpt (Sample.envX true) 2 5000 Sample.half .none = .ok n ∧
    s.file.length < 2 * n.file.length + 1251 := by
  obtain ⟨a, ha, _⟩ := V2.make_enough (env := Sample.envX true) Libm.exact_spec (cap := 5000)
    (fpp := Sample.half) (opt := .speed) (by decide +kernel) (n := 256) (c := 22)
    (by exact_mod_cast bucketCap_ge Libm.exact_spec (by decide +kernel))
    (by rw [show (5000 : U64).toNat = 5000 from rfl]; norm_num)
    (by show 256 * 4096 ≤ 2 ^ 20; decide) ⟨fun _ => ⟨8, by decide, by decide⟩,
      fun _ => ⟨13, by decide, by decide, by show (2 ^ 13 + 7) / 8 ≤ 2 ^ 20; decide⟩⟩
  have hs : Bloom.withVersionCapacityOpt (Sample.envX true) 2 5000 Sample.half .speed
      = .ok (.v2 a) := by rw [Levels.create, ha]; rfl
  obtain ⟨n, b, c, h1, _, _, _, h2, _, h3, _⟩ := C126_cost (env := Sample.envX true)
    Libm.exact_spec (by decide) (by decide) hs
  rw [show (5000 : U64).toNat = 5000 from rfl] at h2
  exact ⟨_, n, hs, h1, by omega⟩

end Poppy
