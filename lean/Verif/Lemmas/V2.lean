import Verif.Lemmas.Probe

/-! Bit-level characterisation of the v2 filter. -/

namespace Poppy
open Spec

/-! ### Powers of two -/

theorem countP_range_eq_one {p : ℕ → Bool} {n : ℕ} (h : (List.range n).countP p = 1) :
    ∃ k < n, p k = true ∧ ∀ j < n, p j = true → j = k := by
  induction n with
  | zero => simp at h
  | succ n ih =>
    rw [List.range_succ, List.countP_append, List.countP_singleton] at h
    by_cases hp : p n = true
    · rw [if_pos hp] at h
      have h0 : (List.range n).countP p = 0 := by omega
      refine ⟨n, by omega, hp, fun j hj hpj => ?_⟩
      by_contra hne
      have := List.countP_eq_zero.1 h0 j (List.mem_range.2 (by omega))
      exact this hpj
    · rw [if_neg hp] at h
      obtain ⟨k, hk, hpk, hu⟩ := ih (by omega)
      refine ⟨k, by omega, hpk, fun j hj hpj => ?_⟩
      rcases Nat.lt_succ_iff_lt_or_eq.1 hj with h' | rfl
      · exact hu j h' hpj
      · exact absurd hpj hp

theorem isPowerOfTwo_iff (x : U64) : isPowerOfTwo x = true ↔ ∃ k < 64, x.toNat = 2 ^ k := by
  unfold isPowerOfTwo
  rw [beq_iff_eq]
  constructor
  · intro h
    obtain ⟨k, hk, hpk, hu⟩ := countP_range_eq_one h
    refine ⟨k, hk, ?_⟩
    have : x = (1 : U64) <<< k := by
      apply BitVec.eq_of_getLsbD_eq
      intro j hj
      rw [getLsbD_one_shiftLeft]
      by_cases hjk : j = k
      · subst hjk; simp [hpk, hj]
      · have : x.getLsbD j ≠ true := fun hh => hjk (hu j hj hh)
        simp [hjk, this]
    rw [this, BitVec.toNat_shiftLeft, Nat.shiftLeft_eq]
    have : (2 : ℕ) ^ k < 2 ^ 64 := Nat.pow_lt_pow_right (by norm_num) hk
    simp only [BitVec.ofNat_eq_ofNat, BitVec.toNat_ofNat, Nat.reducePow, Nat.one_mod, Nat.one_mul]
    exact Nat.mod_eq_of_lt this
  · rintro ⟨k, hk, hx⟩
    have hbit : ∀ j, x.getLsbD j = decide (j = k) := by
      intro j
      rw [BitVec.getLsbD, hx, Nat.testBit_two_pow]
      by_cases h : k = j <;> simp [h, eq_comm]
    unfold countOnes
    simp only [hbit]
    have : ∀ n, (List.range n).countP (fun j => decide (j = k)) = if k < n then 1 else 0 := by
      intro n
      induction n with
      | zero => simp
      | succ n ih =>
        rw [List.range_succ, List.countP_append, ih, List.countP_singleton]
        by_cases h1 : k < n
        · simp [h1, show k < n + 1 by omega, show ¬ n = k by omega]
        · by_cases h2 : n = k
          · subst h2; simp
          · simp [h1, h2, show ¬ k < n + 1 by omega]
    rw [this, if_pos hk]

theorem and_pred_of_pow2 (h x : U64) (hx : isPowerOfTwo x = true) :
    (h &&& (x - 1)).toNat = h.toNat % x.toNat := by
  obtain ⟨k, hk, hxk⟩ := (isPowerOfTwo_iff x).1 hx
  have h1 : (x - 1).toNat = 2 ^ k - 1 := by
    have hpos : 1 ≤ x.toNat := by rw [hxk]; exact Nat.one_le_two_pow
    have := x.isLt
    rw [BitVec.toNat_sub, show (1 : U64).toNat = 1 from rfl]
    have hh : (2 ^ 64 - 1 + x.toNat) % 2 ^ 64 = x.toNat - 1 := by omega
    rw [hh, hxk]
  rw [BitVec.toNat_and, h1, Nat.and_two_pow_sub_one_eq_mod, hxk]

/-! ### Buckets -/

/-- Set several bits of a bucket. -/
def setAll (b : Bucket) (ps : List ℕ) : Bucket :=
  ps.foldl (fun b p => (b.setNthBit (BitVec.ofNat 64 p)).1) b

theorem toNat_ofNat_of_lt {p n : ℕ} (h : p < n) (hn : n ≤ 2 ^ 64) :
    (BitVec.ofNat 64 p).toNat = p := by
  rw [BitVec.toNat_ofNat, Nat.mod_eq_of_lt (by omega)]

theorem bitAt_setAll (b : Bucket) (ps : List ℕ) (h : ∀ p ∈ ps, p < 32768) (j : ℕ) :
    bitAt (setAll b ps).asSlice j = (bitAt b.asSlice j || decide (j ∈ ps)) := by
  induction ps generalizing b with
  | nil => simp [setAll]
  | cons p ps ih =>
    have hp : p < 32768 := h p (by simp)
    have hp' : (BitVec.ofNat 64 p).toNat = p := toNat_ofNat_of_lt hp (by norm_num)
    have := ih (b.setNthBit (BitVec.ofNat 64 p)).1 (fun q hq => h q (by simp [hq]))
    simp only [setAll, List.foldl_cons] at this ⊢
    rw [this, BitSet.bitAt_setNthBit _ (by rw [hp']; simpa [BUCKET_SIZE] using hp), hp']
    by_cases h1 : j = p <;> by_cases h2 : j ∈ ps <;> simp [h1, h2]

theorem setAll_of_all (b : Bucket) (ps : List ℕ) (h : ∀ p ∈ ps, p < 32768)
    (hs : ∀ p ∈ ps, bitAt b.asSlice p = true) : setAll b ps = b := by
  apply BitSet.ext_bits
  intro i _
  rw [bitAt_setAll b ps h]
  by_cases hi : i ∈ ps
  · simp [hi, hs i hi]
  · simp [hi]

namespace V2

/-- Probed bit number `n` for hash `h`. -/
def probe (env : Env) (h : U64) (n : ℕ) : ℕ := poppyProbe h.toNat (hash2 env.wy h).toNat n

theorem probe_lt (env : Env) (h : U64) (n : ℕ) : probe env h n < 32768 := poppyProbe_lt _ _ _

theorem next_probe (env : Env) (h c : U64) {n : ℕ} (hn : n < c.toNat) :
    (itAt env.wy h c n).next env.wy BIT_SET_MOD =
      (.ok (some (BitVec.ofNat 64 (probe env h n))), itAt env.wy h c (n + 1)) :=
  itAt_next env.wy h c hn

theorem containsLoop_eq (env : Env) (b : Bucket) (h c : U64) :
    ∀ (m n fuel : ℕ), n + m = c.toNat → m < fuel →
      containsLoop env fuel b (itAt env.wy h c n)
        = .ok ((List.range' n m).all (fun k => bitAt b.asSlice (probe env h k))) := by
  intro m
  induction m with
  | zero =>
    intro n fuel hn hf
    obtain ⟨fuel, rfl⟩ : ∃ k, fuel = k + 1 := ⟨fuel - 1, by omega⟩
    have : n = c.toNat := by omega
    subst this
    simp [containsLoop, itAt_end]
  | succ m ih =>
    intro n fuel hn hf
    obtain ⟨fuel, rfl⟩ : ∃ k, fuel = k + 1 := ⟨fuel - 1, by omega⟩
    have hp := probe_lt env h n
    have hp' : (BitVec.ofNat 64 (probe env h n)).toNat = probe env h n :=
      toNat_ofNat_of_lt hp (by norm_num)
    have hget : b.getNthBit (BitVec.ofNat 64 (probe env h n))
        = .ok (bitAt b.asSlice (probe env h n)) := by
      rw [BitSet.getNthBit_eq _ (by rw [hp']; simpa [BUCKET_SIZE] using hp), hp']
    rw [List.range'_succ, List.all_cons]
    simp only [containsLoop]
    rw [next_probe env h c (by omega)]
    simp only [hget]
    cases hb : bitAt b.asSlice (probe env h n) with
    | false => simp
    | true =>
      simp only [Bool.true_and]
      exact ih (n + 1) fuel (by omega) (by omega)

theorem insertLoop_eq (env : Env) (h c : U64) :
    ∀ (m n fuel : ℕ) (b : Bucket) (new : Bool), n + m = c.toNat → m < fuel →
      insertLoop env false fuel b (itAt env.wy h c n) new
        = (setAll b ((List.range' n m).map (probe env h)),
            .ok (new || !(List.range' n m).all (fun k => bitAt b.asSlice (probe env h k)))) := by
  intro m
  induction m with
  | zero =>
    intro n fuel b new hn hf
    obtain ⟨fuel, rfl⟩ : ∃ k, fuel = k + 1 := ⟨fuel - 1, by omega⟩
    have : n = c.toNat := by omega
    subst this
    simp [insertLoop, itAt_end, setAll]
  | succ m ih =>
    intro n fuel b new hn hf
    obtain ⟨fuel, rfl⟩ : ∃ k, fuel = k + 1 := ⟨fuel - 1, by omega⟩
    have hp := probe_lt env h n
    have hp' : (BitVec.ofNat 64 (probe env h n)).toNat = probe env h n :=
      toNat_ofNat_of_lt hp (by norm_num)
    have hin : (BitVec.ofNat 64 (probe env h n)).toNat < BUCKET_SIZE * 8 := by
      rw [hp']; simpa [BUCKET_SIZE] using hp
    have hset : b.setNthBit (BitVec.ofNat 64 (probe env h n))
        = ((b.setNthBit (BitVec.ofNat 64 (probe env h n))).1,
            .ok (bitAt b.asSlice (probe env h n))) := by
      refine Prod.ext rfl ?_
      rw [BitSet.setNthBit_snd _ hin, hp']
    generalize hb' : (b.setNthBit (BitVec.ofNat 64 (probe env h n))).1 = b' at hset
    have hbits : ∀ j, bitAt b'.asSlice j = (bitAt b.asSlice j || decide (j = probe env h n)) := by
      intro j
      rw [← hb', BitSet.bitAt_setNthBit _ hin, hp']
    have hget : b'.getNthBit (BitVec.ofNat 64 (probe env h n)) = .ok true := by
      rw [BitSet.getNthBit_eq _ hin, hp', hbits]; simp
    rw [List.range'_succ, List.all_cons, List.map_cons]
    simp only [insertLoop]
    rw [next_probe env h c (by omega)]
    simp only [hset, hget]
    simp only [Bool.false_eq_true, if_false, ne_eq, not_true_eq_false, decide_false, Bool.and_false]
    rw [ih (n + 1) fuel b' _ (by omega) (by omega)]
    refine Prod.ext ?_ ?_
    · simp only [setAll, List.foldl_cons, hb']
    · simp only
      congr 1
      cases hbn : bitAt b.asSlice (probe env h n) with
      | false => simp
      | true =>
        have : b' = b := by
          rw [← hb']; exact BitSet.setNthBit_of_set _ hin (by rw [hp']; exact hbn)
        rw [this]
        simp

theorem insertLoop_reached (env : Env) (h c : U64) (b : Bucket) :
    ∀ (m n fuel : ℕ) (new : Bool), n + m = c.toNat → m < fuel →
      insertLoop env true fuel b (itAt env.wy h c n) new
        = (b, if (List.range' n m).all (fun k => bitAt b.asSlice (probe env h k)) then .ok new
              else .err .tooManyEntries) := by
  intro m
  induction m with
  | zero =>
    intro n fuel new hn hf
    obtain ⟨fuel, rfl⟩ : ∃ k, fuel = k + 1 := ⟨fuel - 1, by omega⟩
    have : n = c.toNat := by omega
    subst this
    simp [insertLoop, itAt_end]
  | succ m ih =>
    intro n fuel new hn hf
    obtain ⟨fuel, rfl⟩ : ∃ k, fuel = k + 1 := ⟨fuel - 1, by omega⟩
    have hp := probe_lt env h n
    have hp' : (BitVec.ofNat 64 (probe env h n)).toNat = probe env h n :=
      toNat_ofNat_of_lt hp (by norm_num)
    have hin : (BitVec.ofNat 64 (probe env h n)).toNat < BUCKET_SIZE * 8 := by
      rw [hp']; simpa [BUCKET_SIZE] using hp
    have hget : b.getNthBit (BitVec.ofNat 64 (probe env h n))
        = .ok (bitAt b.asSlice (probe env h n)) := by
      rw [BitSet.getNthBit_eq _ hin, hp']
    rw [List.range'_succ, List.all_cons]
    simp only [insertLoop]
    rw [next_probe env h c (by omega)]
    simp only [hget, if_true]
    cases hb : bitAt b.asSlice (probe env h n) with
    | false => simp
    | true =>
      have hset : b.setNthBit (BitVec.ofNat 64 (probe env h n)) = (b, .ok true) := by
        refine Prod.ext ?_ ?_
        · exact BitSet.setNthBit_of_set _ hin (by rw [hp']; exact hb)
        · rw [BitSet.setNthBit_snd _ hin, hp', hb]
      simp only [hset, hget, hb]
      simp only [Bool.not_true, Bool.false_eq_true, if_false, ne_eq, not_true_eq_false,
        decide_false, Bool.and_false, Bool.true_and]
      exact ih (n + 1) fuel new (by omega) (by omega)

/-! ### The filter -/

/-- The bit storage fits in memory. -/
structure WF (f : V2) : Prop where
  buckets : f.buckets.length * 4096 < 2 ^ 60
  cache : f.indexCache.asSlice.length < 2 ^ 60

/-- Bit `i` of bucket `b`. -/
def bit (f : V2) (b i : ℕ) : Bool := bitAt (f.buckets.getD b (BitSet.new _)).asSlice i

/-- Bucket of a hash. -/
def bucketOf (f : V2) (h : U64) : ℕ := (xorshiftStar h).toNat % f.buckets.length

/-- Index cache bit of a hash. -/
def cacheIdx (f : V2) (h : U64) : ℕ := (xorshiftStar h &&& (f.indexCache.bitLen - 1)).toNat

/-- All probed bits are set. -/
def allSet (env : Env) (f : V2) (h : U64) : Bool :=
  (List.range f.nHashBuck.toNat).all (fun n => f.bit (f.bucketOf h) (probe env h n))

/-- The index cache does not exclude the hash. -/
def cacheOk (f : V2) (h : U64) : Bool :=
  f.indexCache.asSlice.isEmpty || bitAt f.indexCache.asSlice (f.cacheIdx h)

/-- State after adding hash `h` to the filter. -/
def added (env : Env) (f : V2) (h : U64) : V2 :=
  { f with
    buckets := f.buckets.set (f.bucketOf h)
      (setAll (f.buckets.getD (f.bucketOf h) (BitSet.new _))
        ((List.range f.nHashBuck.toNat).map (probe env h)))
    count := if allSet env f h then f.count else f.count + 1
    indexCache := if f.indexCache.asSlice.isEmpty then f.indexCache
      else (f.indexCache.setNthBit (BitVec.ofNat 64 (f.cacheIdx h))).1 }

theorem bucketsLen_toNat {f : V2} (w : f.WF) : f.bucketsLen.toNat = f.buckets.length := by
  have := w.buckets
  unfold bucketsLen
  rw [BitVec.toNat_ofNat, Nat.mod_eq_of_lt (by omega)]

theorem bitLen_toNat {f : V2} (w : f.WF) :
    f.indexCache.bitLen.toNat = f.indexCache.asSlice.length * 8 := by
  have := w.cache
  unfold VecBitSet.bitLen
  simp only [VecBitSet.asSlice] at *
  rw [BitVec.toNat_ofNat, Nat.mod_eq_of_lt (by omega)]

theorem ibucket_eq {f : V2} (w : f.WF) (hne : f.buckets ≠ []) (h : U64) :
    f.ibucket (xorshiftStar h) = .ok (BitVec.ofNat 64 (f.bucketOf h)) := by
  have hl := bucketsLen_toNat w
  have hpos : 0 < f.buckets.length := List.length_pos_iff.2 hne
  have hlt : f.bucketOf h < f.buckets.length := Nat.mod_lt _ hpos
  have hb := w.buckets
  unfold ibucket hasOptimalBuckets
  split
  · rename_i hp
    congr 1
    apply BitVec.eq_of_toNat_eq
    rw [and_pred_of_pow2 _ _ hp, hl, toNat_ofNat_of_lt hlt (by omega)]
    rfl
  · split
    · rename_i h0
      have := congrArg BitVec.toNat h0
      rw [hl, show (0 : U64).toNat = 0 from rfl] at this
      omega
    · congr 1
      apply BitVec.eq_of_toNat_eq
      rw [BitVec.toNat_umod, hl, toNat_ofNat_of_lt hlt (by omega)]
      rfl

theorem bucketOf_lt {f : V2} (hne : f.buckets ≠ []) (h : U64) :
    f.bucketOf h < f.buckets.length := Nat.mod_lt _ (List.length_pos_iff.2 hne)

theorem getElem?_bucketOf {f : V2} (w : f.WF) (hne : f.buckets ≠ []) (h : U64) :
    f.buckets[(BitVec.ofNat 64 (f.bucketOf h)).toNat]?
      = some (f.buckets.getD (f.bucketOf h) (BitSet.new _)) := by
  have hlt := bucketOf_lt hne h
  have hb := w.buckets
  rw [toNat_ofNat_of_lt hlt (by omega)]
  simp [List.getD, hlt]

theorem cacheIdx_lt {f : V2} (w : f.WF) (hne : f.indexCache.asSlice.isEmpty = false) (h : U64) :
    f.cacheIdx h < f.indexCache.asSlice.length * 8 := by
  have hl := bitLen_toNat w
  have hpos : 0 < f.indexCache.asSlice.length := by
    rw [List.length_pos_iff]; intro h0; simp [h0] at hne
  unfold cacheIdx
  have h1 : (f.indexCache.bitLen - 1).toNat = f.indexCache.asSlice.length * 8 - 1 := by
    have := f.indexCache.bitLen.isLt
    rw [BitVec.toNat_sub, show (1 : U64).toNat = 1 from rfl]
    have hh : (2 ^ 64 - 1 + f.indexCache.bitLen.toNat) % 2 ^ 64
        = f.indexCache.bitLen.toNat - 1 := by omega
    rw [hh, hl]
  rw [BitVec.toNat_and, h1]
  have := Nat.and_le_right (n := (xorshiftStar h).toNat) (m := f.indexCache.asSlice.length * 8 - 1)
  omega

theorem cacheAllows_eq {f : V2} (w : f.WF) (h : U64) :
    f.cacheAllows (xorshiftStar h) = .ok (f.cacheOk h) := by
  unfold cacheAllows cacheOk
  have he : f.indexCache.isEmpty = f.indexCache.asSlice.isEmpty := rfl
  rw [he]
  cases hc : f.indexCache.asSlice.isEmpty with
  | true => simp
  | false =>
    simp only [Bool.not_false, if_true, Bool.false_or]
    exact VecBitSet.getNthBit_eq _ (cacheIdx_lt w hc h)

theorem setCount_init (wy : Wy) (h c c' : U64) :
    IndexIterator.setCount ⟨true, h, 0, 0, c'⟩ c = itAt wy h c 0 := rfl

/-- Membership query on a hash, for filters with buckets. -/
theorem containsIter_eq (env : Env) {f : V2} (w : f.WF) (h c' : U64)
    (hcap : f.capacity ≠ 0) (hne : f.buckets ≠ []) :
    f.containsIter env ⟨true, h, 0, 0, c'⟩ = .ok (f.cacheOk h && allSet env f h) := by
  unfold containsIter
  have hinit : (⟨true, h, 0, 0, c'⟩ : IndexIterator).isInit = true := rfl
  simp only [hinit, Bool.not_true, Bool.false_eq_true, if_false, if_neg hcap]
  have hh : (IndexIterator.setCount ⟨true, h, 0, 0, c'⟩ f.nHashBuck).bucketHash = xorshiftStar h :=
    rfl
  rw [hh, cacheAllows_eq w]
  cases hc : f.cacheOk h with
  | false => simp
  | true =>
    simp only [ibucket_eq w hne, getElem?_bucketOf w hne]
    rw [setCount_init env.wy]
    have hcnt : (itAt env.wy h f.nHashBuck 0).count.toNat = f.nHashBuck.toNat := rfl
    rw [hcnt, containsLoop_eq env _ h f.nHashBuck f.nHashBuck.toNat 0 _ (by omega) (by omega)]
    simp [allSet, bit, List.range_eq_range']

/-- The count of a filter cannot be incremented (in a build with overflow checks). -/
def CountOverflow (env : Env) (f : V2) : Prop := env.debug = true ∧ f.count.toNat + 1 = 2 ^ 64

instance (env : Env) (f : V2) : Decidable (CountOverflow env f) := by
  unfold CountOverflow; infer_instance

/-- Insertion of a hash, for filters with buckets. -/
theorem insertIter_cases (env : Env) {f : V2} (w : f.WF) (h c' : U64)
    (hcap : f.capacity ≠ 0) (hne : f.buckets ≠ []) :
    f.insertIter env ⟨true, h, 0, 0, c'⟩ =
      if f.count = f.capacity ∧ allSet env f h = false then (f, .err .tooManyEntries)
      else if CountOverflow env f ∧ allSet env f h = false then
        ({ f with buckets := (added env f h).buckets }, .panic)
      else (added env f h, .ok (!allSet env f h)) := by
  unfold insertIter
  have hinit : (⟨true, h, 0, 0, c'⟩ : IndexIterator).isInit = true := rfl
  simp only [hinit, Bool.not_true, Bool.false_eq_true, if_false, if_neg hcap]
  have hh : (IndexIterator.setCount ⟨true, h, 0, 0, c'⟩ f.nHashBuck).bucketHash = xorshiftStar h :=
    rfl
  rw [hh]
  simp only [ibucket_eq w hne, getElem?_bucketOf w hne]
  rw [setCount_init env.wy]
  have hcnt : (itAt env.wy h f.nHashBuck 0).count.toNat = f.nHashBuck.toNat := rfl
  rw [hcnt]
  have hb := w.buckets
  have hlt := bucketOf_lt hne h
  have hnat : (BitVec.ofNat 64 (f.bucketOf h)).toNat = f.bucketOf h :=
    toNat_ofNat_of_lt hlt (by omega)
  have hall : (List.range' 0 f.nHashBuck.toNat).all (fun k =>
      bitAt (f.buckets.getD (f.bucketOf h) (BitSet.new _)).asSlice (probe env h k))
      = allSet env f h := by
    simp [allSet, bit, List.range_eq_range']
  -- the state after the loop
  have key : ∀ (rc : Bool), rc = (f.count == f.capacity) →
      insertLoop env rc (f.nHashBuck.toNat + 1) (f.buckets.getD (f.bucketOf h) (BitSet.new _))
        (itAt env.wy h f.nHashBuck 0) false
      = if f.count = f.capacity ∧ allSet env f h = false then
          (f.buckets.getD (f.bucketOf h) (BitSet.new _), .err .tooManyEntries)
        else (setAll (f.buckets.getD (f.bucketOf h) (BitSet.new _))
          ((List.range f.nHashBuck.toNat).map (probe env h)), .ok (!allSet env f h)) := by
    intro rc hrc
    cases rc with
    | false =>
      have hne' : f.count ≠ f.capacity := by simpa using hrc.symm
      rw [insertLoop_eq env h f.nHashBuck f.nHashBuck.toNat 0 _ _ _ (by omega) (by omega), hall,
        if_neg (by tauto), List.range_eq_range']
      simp
    | true =>
      have he : f.count = f.capacity := by simpa using hrc.symm
      rw [insertLoop_reached env h f.nHashBuck _ f.nHashBuck.toNat 0 _ _ (by omega) (by omega),
        hall]
      cases ha : allSet env f h with
      | false => simp [he]
      | true =>
        simp only [if_true, Bool.true_eq_false, and_false, if_false, Bool.not_true]
        rw [setAll_of_all]
        · intro p hp
          obtain ⟨n, _, rfl⟩ := List.mem_map.1 hp
          exact probe_lt env h n
        · intro p hp
          obtain ⟨n, hn, rfl⟩ := List.mem_map.1 hp
          exact List.all_eq_true.1 ha n hn
  rw [key _ rfl]
  by_cases hc : f.count = f.capacity ∧ allSet env f h = false
  · simp only [if_pos hc, hnat]
    have : f.buckets.set (f.bucketOf h) (f.buckets.getD (f.bucketOf h) (BitSet.new _)) = f.buckets := by
      simp [List.getD, hlt]
    rw [this]
  · simp only [if_neg hc, hnat]
    unfold insertFinish
    by_cases hov : CountOverflow env f ∧ allSet env f h = false
    · rw [if_pos hov]
      have hcount : addU64 env.debug f.count 1 = .panic := by
        unfold addU64
        rw [if_pos]
        have := hov.1.2
        rw [hov.1.1, Bool.true_and, decide_eq_true_eq, show (1 : U64).toNat = 1 from rfl]
        omega
      simp only [hov.2, Bool.not_false, if_true, hcount, added]
    rw [if_neg hov]
    have hcount : (if (!allSet env f h) = true then addU64 env.debug f.count 1 else .ok f.count)
        = .ok (if allSet env f h then f.count else f.count + 1) := by
      cases ha : allSet env f h with
      | true => simp
      | false =>
        simp only [Bool.not_false, if_true, Bool.false_eq_true, if_false]
        unfold addU64
        rw [if_neg]
        intro hd
        rw [Bool.and_eq_true, decide_eq_true_eq, show (1 : U64).toNat = 1 from rfl] at hd
        apply hov
        have := f.count.isLt
        exact ⟨⟨hd.1, by omega⟩, ha⟩
    simp only [hcount]
    have he : f.indexCache.isEmpty = f.indexCache.asSlice.isEmpty := rfl
    rw [he]
    cases hce : f.indexCache.asSlice.isEmpty with
    | true => simp [added, hce]
    | false =>
      have hidx := cacheIdx_lt w hce h
      have hof : xorshiftStar h &&& (f.indexCache.bitLen - 1) = BitVec.ofNat 64 (f.cacheIdx h) := by
        rw [cacheIdx, BitVec.ofNat_toNat, BitVec.setWidth_eq]
      have hset : f.indexCache.setNthBit (BitVec.ofNat 64 (f.cacheIdx h))
          = ((f.indexCache.setNthBit (BitVec.ofNat 64 (f.cacheIdx h))).1,
            .ok (bitAt f.indexCache.asSlice (f.cacheIdx h))) := by
        have hn : (BitVec.ofNat 64 (f.cacheIdx h)).toNat = f.cacheIdx h := by
          have := w.cache
          exact toNat_ofNat_of_lt hidx (by omega)
        refine Prod.ext rfl ?_
        rw [VecBitSet.setNthBit_snd _ (by rw [hn]; exact hidx), hn]
      simp only [Bool.not_false, if_true, hof]
      rw [hset]
      simp [added, hce]

/-- Insertion of a hash, for filters with buckets.  The excluded case is the overflow of the
count in a build with overflow checks. -/
theorem insertIter_eq (env : Env) {f : V2} (w : f.WF) (h c' : U64)
    (hcap : f.capacity ≠ 0) (hne : f.buckets ≠ [])
    (hov : env.debug = true → f.count.toNat + 1 < 2 ^ 64 ∨ allSet env f h = true) :
    f.insertIter env ⟨true, h, 0, 0, c'⟩ =
      if f.count = f.capacity ∧ allSet env f h = false then (f, .err .tooManyEntries)
      else (added env f h, .ok (!allSet env f h)) := by
  rw [insertIter_cases env w h c' hcap hne]
  congr 1
  rw [if_neg]
  rintro ⟨⟨hd, hc⟩, ha⟩
  rcases hov hd with h1 | h1
  · omega
  · simp [ha] at h1

theorem insert_eq (env : Env) {f : V2} (w : f.WF) (k : Key)
    (hcap : f.capacity ≠ 0) (hne : f.buckets ≠ [])
    (hov : env.debug = true → f.count.toNat + 1 < 2 ^ 64 ∨ allSet env f (k.hashPop env.wy) = true) :
    f.insert env k =
      if f.count = f.capacity ∧ allSet env f (k.hashPop env.wy) = false then
        (f, .err .tooManyEntries)
      else (added env f (k.hashPop env.wy), .ok (!allSet env f (k.hashPop env.wy))) :=
  insertIter_eq env w _ 0 hcap hne hov

theorem contains_eq (env : Env) {f : V2} (w : f.WF) (k : Key)
    (hcap : f.capacity ≠ 0) (hne : f.buckets ≠ []) :
    f.contains env k = .ok (f.cacheOk (k.hashPop env.wy) && allSet env f (k.hashPop env.wy)) := by
  unfold contains
  have : buildIndexIter env k = ⟨true, k.hashPop env.wy, 0, 0, 0⟩ := rfl
  rw [this, containsIter_eq env w _ 0 hcap hne]
  rfl

theorem insert_cases (env : Env) {f : V2} (w : f.WF) (k : Key)
    (hcap : f.capacity ≠ 0) (hne : f.buckets ≠ []) :
    f.insert env k =
      if f.count = f.capacity ∧ allSet env f (k.hashPop env.wy) = false then
        (f, .err .tooManyEntries)
      else if CountOverflow env f ∧ allSet env f (k.hashPop env.wy) = false then
        ({ f with buckets := (added env f (k.hashPop env.wy)).buckets }, .panic)
      else (added env f (k.hashPop env.wy), .ok (!allSet env f (k.hashPop env.wy))) :=
  insertIter_cases env w _ 0 hcap hne

theorem insert_noCap (env : Env) {f : V2} (k : Key) (hcap : f.capacity = 0) :
    f.insert env k = (f, .err .tooManyEntries) := by
  unfold insert insertIter
  have : (buildIndexIter env k).isInit = true := rfl
  simp only [this, Bool.not_true, Bool.false_eq_true, if_false, if_pos hcap]

theorem contains_noCap (env : Env) {f : V2} (k : Key) (hcap : f.capacity = 0) :
    f.contains env k = .ok false := by
  unfold contains containsIter
  have : (buildIndexIter env k).isInit = true := rfl
  simp only [this, Bool.not_true, Bool.false_eq_true, if_false, if_pos hcap]
  rfl

theorem ibucket_nil {f : V2} (hb : f.buckets = []) (h : U64) : f.ibucket h = .panic := by
  have h0 : f.bucketsLen = 0#64 := by simp [bucketsLen, hb]
  have h1 : isPowerOfTwo 0#64 = false := by decide +kernel
  unfold ibucket hasOptimalBuckets
  rw [h0, h1]
  rfl

theorem insert_nil (env : Env) {f : V2} (k : Key) (hcap : f.capacity ≠ 0) (hb : f.buckets = []) :
    f.insert env k = (f, .panic) := by
  unfold insert insertIter
  have : (buildIndexIter env k).isInit = true := rfl
  simp only [this, Bool.not_true, Bool.false_eq_true, if_false, if_neg hcap, ibucket_nil hb]

theorem contains_nil (env : Env) {f : V2} (w : f.WF) (k : Key) (hcap : f.capacity ≠ 0)
    (hb : f.buckets = []) :
    f.contains env k = if f.cacheOk (k.hashPop env.wy) then .panic else .ok false := by
  unfold contains containsIter
  have : (buildIndexIter env k).isInit = true := rfl
  simp only [this, Bool.not_true, Bool.false_eq_true, if_false, if_neg hcap, ibucket_nil hb]
  have hh : (IndexIterator.setCount (buildIndexIter env k) f.nHashBuck).bucketHash
    = xorshiftStar (k.hashPop env.wy) := rfl
  rw [hh, cacheAllows_eq w]
  cases f.cacheOk (k.hashPop env.wy) <;> rfl

/-! ### Effect of `added` -/

@[simp] theorem added_capacity (env : Env) (f : V2) (h : U64) :
    (added env f h).capacity = f.capacity := rfl
@[simp] theorem added_nHash (env : Env) (f : V2) (h : U64) :
    (added env f h).nHashBuck = f.nHashBuck := rfl
@[simp] theorem added_length (env : Env) (f : V2) (h : U64) :
    (added env f h).buckets.length = f.buckets.length := by simp [added]
@[simp] theorem added_cache_length (env : Env) (f : V2) (h : U64) :
    (added env f h).indexCache.asSlice.length = f.indexCache.asSlice.length := by
  unfold added
  simp only
  split
  · rfl
  · exact VecBitSet.length_setNthBit _ _

theorem added_WF (env : Env) {f : V2} (w : f.WF) (h : U64) : (added env f h).WF :=
  ⟨by rw [added_length]; exact w.buckets, by rw [added_cache_length]; exact w.cache⟩

theorem bucketOf_congr {f g : V2} (hl : f.buckets.length = g.buckets.length) (h : U64) :
    f.bucketOf h = g.bucketOf h := by simp [bucketOf, hl]

theorem cacheIdx_congr {f g : V2} (hl : f.indexCache.asSlice.length = g.indexCache.asSlice.length)
    (h : U64) : f.cacheIdx h = g.cacheIdx h := by
  simp only [cacheIdx, VecBitSet.bitLen, VecBitSet.asSlice] at *
  rw [hl]

theorem bit_added (env : Env) {f : V2} (hne : f.buckets ≠ []) (h : U64) (b i : ℕ) :
    (added env f h).bit b i = (f.bit b i || (decide (b = f.bucketOf h) &&
      decide (∃ n < f.nHashBuck.toNat, i = probe env h n))) := by
  have hlt := bucketOf_lt hne h
  have hlt' : ∀ p ∈ (List.range f.nHashBuck.toNat).map (probe env h), p < 32768 := by
    intro p hp
    obtain ⟨n, _, rfl⟩ := List.mem_map.1 hp
    exact probe_lt env h n
  have hmem : (i ∈ (List.range f.nHashBuck.toNat).map (probe env h))
      ↔ ∃ n < f.nHashBuck.toNat, i = probe env h n := by
    simp [List.mem_map, eq_comm]
  unfold bit added
  simp only [List.getD_eq_getElem?_getD, List.getElem?_set]
  by_cases hb : f.bucketOf h = b
  · subst hb
    simp only [if_true, hlt, Option.getD_some]
    rw [bitAt_setAll _ _ hlt']
    simp only [hmem, decide_true, Bool.true_and]
  · have : ¬ b = f.bucketOf h := fun h' => hb h'.symm
    simp [hb, this]

theorem cacheBit_added (env : Env) {f : V2} (w : f.WF)
    (hc : f.indexCache.asSlice.isEmpty = false) (h : U64) (i : ℕ) :
    bitAt (added env f h).indexCache.asSlice i
      = (bitAt f.indexCache.asSlice i || decide (i = f.cacheIdx h)) := by
  have hidx := cacheIdx_lt w hc h
  have hn : (BitVec.ofNat 64 (f.cacheIdx h)).toNat = f.cacheIdx h := by
    have := w.cache
    exact toNat_ofNat_of_lt hidx (by omega)
  unfold added
  simp only [hc, Bool.false_eq_true, if_false]
  rw [VecBitSet.bitAt_setNthBit _ (by rw [hn]; exact hidx), hn]

theorem added_cache_isEmpty (env : Env) (f : V2) (h : U64) :
    (added env f h).indexCache.asSlice.isEmpty = f.indexCache.asSlice.isEmpty := by
  have := added_cache_length env f h
  cases h1 : (added env f h).indexCache.asSlice <;> cases h2 : f.indexCache.asSlice <;>
    simp_all

theorem allSet_iff (env : Env) (f : V2) (h : U64) :
    allSet env f h = true ↔ ∀ n < f.nHashBuck.toNat, f.bit (f.bucketOf h) (probe env h n) = true := by
  simp [allSet, List.all_eq_true]

end V2

end Poppy
