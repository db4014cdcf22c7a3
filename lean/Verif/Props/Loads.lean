import Verif.Lemmas.Loads
import Verif.Props.CacheAccuracy
import Verif.Props.Spread
import Verif.Props.Membership
import Verif.Props.Misc
import Verif.Samples

/-! # False positives averaged over the loads of the buckets (C98)

C76 assumes that the entries are spread evenly over the buckets.  Here they are drawn at random. -/

namespace Poppy

open Spec Finset

/-! ### Helpers -/

/-- Number of the drawn keys `keys (t 0), …` that are in the bucket of the key `q`. -/
def V2.load {N n : ℕ} (env : Env) (f : V2) (keys : Fin N → Key) (t : Fin n → Fin N) (q : Fin N) : ℕ :=
  ((univ : Finset (Fin n)).filter fun j =>
    f.keyBucket env (keys (t j)) = f.keyBucket env (keys q)).card

/-- Textbook false positive probability of a v2 filter for a key whose bucket has `x` of the `n`
entries. -/
noncomputable def V2.rateAt (f : V2) (n x : ℝ) : ℝ :=
  (if f.indexCache.isEmpty then 1 else falsePos (8 * f.indexCache.byteLen) 1 n) *
    falsePos 32768 f.nHashBuck.toNat x

/-- Its average over all draws of `n` keys out of `N`, and over the key that is asked for. -/
noncomputable def V2.averageRate {N : ℕ} (env : Env) (f : V2) (keys : Fin N → Key) (n : ℕ) : ℝ :=
  (∑ q, ∑ t : Fin n → Fin N, f.rateAt n (f.load env keys t q)) / (N * N ^ n)

/-! ## C98 -/

/-- The load of a bucket is what decides: the bits of the bucket of a key are set by the entries
counted in its load and by no others, each sets at most `n_hash` of them, and the answer for the
key depends on them (and on the index cache). -/
theorem C98_load {env : Env} (hs : env.Small) {f : V2} {S : List Key} (h : V2.Holds env f S)
    (q : Key) :
    (∀ i, f.bucketBit (f.keyBucket env q) i = true ↔
      ∃ k ∈ S, f.keyBucket env k = f.keyBucket env q ∧
        ∃ n < f.nHashBuck.toNat, V2.keyProbe env k n = i) ∧
    {i | f.bucketBit (f.keyBucket env q) i = true}.ncard
      ≤ (S.filter (f.keyBucket env · = f.keyBucket env q)).length * f.nHashBuck.toNat ∧
    (f.buckets ≠ [] → f.capacity ≠ 0 → (f.contains env q = .ok true ↔
      (∀ n < f.nHashBuck.toNat,
        f.bucketBit (f.keyBucket env q) (V2.keyProbe env q n) = true) ∧
      (f.indexCache.asSlice ≠ [] → bitAt f.indexCache.asSlice (f.keyCache env q) = true))) := by
  have hbits : ∀ i, f.bucketBit (f.keyBucket env q) i = true ↔
      ∃ k ∈ S, f.keyBucket env k = f.keyBucket env q ∧
        ∃ n < f.nHashBuck.toNat, V2.keyProbe env k n = i := by
    intro i
    refine ((C03_v2_bits hs h).1 _ i).trans ?_
    constructor
    · rintro ⟨k, hk, e, n, hn, hi⟩
      exact ⟨k, hk, e.symm, n, hn, hi.symm⟩
    · rintro ⟨k, hk, e, n, hn, hi⟩
      exact ⟨k, hk, e.symm, n, hn, hi.symm⟩
  refine ⟨hbits, ?_, fun hb hc => ?_⟩
  · set L := (S.filter (f.keyBucket env · = f.keyBucket env q)).flatMap fun k =>
      (List.range f.nHashBuck.toNat).map (V2.keyProbe env k) with hL
    have hsub : {i | f.bucketBit (f.keyBucket env q) i = true} ⊆ (L.toFinset : Set ℕ) := by
      intro i hi
      obtain ⟨k, hk, e, n, hn, rfl⟩ := (hbits i).1 hi
      rw [mem_coe, List.mem_toFinset, hL, List.mem_flatMap]
      exact ⟨k, List.mem_filter.2 ⟨hk, by simpa using e⟩,
        List.mem_map.2 ⟨n, List.mem_range.2 hn, rfl⟩⟩
    have hlen : L.length = (S.filter (f.keyBucket env · = f.keyBucket env q)).length
        * f.nHashBuck.toNat := by
      rw [hL, List.length_flatMap]
      simp
    rw [← hlen]
    refine (Set.ncard_le_ncard hsub (Finset.finite_toSet _)).trans ?_
    rw [Set.ncard_coe_finset]
    exact List.toFinset_card_le L
  · rw [C65_v2_member h.built.reach hb]
    exact ⟨fun h => ⟨fun n hn => h.2.1 ⟨n, hn⟩, h.2.2⟩, fun h => ⟨hc, fun j => h.1 j j.2, h.2⟩⟩

-- the bucket of a key after inserting it as the only one
example : ∃ g, Sample.f2.insert Sample.env (.slice [1#8]) = (g, .ok true) ∧
    {i | g.bucketBit (g.keyBucket Sample.env (.slice [1#8])) i = true}.ncard
      ≤ g.nHashBuck.toNat := by
  have h : (Sample.f2.insert Sample.env (.slice [1#8])).2 = .ok true := by decide +kernel
  generalize hr : Sample.f2.insert Sample.env (.slice [1#8]) = r at h
  obtain ⟨g, a⟩ := r
  subst h
  have := (C98_load Sample.env_small (.insert (.make Sample.f2_make) hr) (.slice [1#8])).2.1
  exact ⟨g, rfl, by simpa using this⟩

/-- No bucket has more than the share `(1 + δ) / B` of the `N` keys: then drawing up to `c` of them
costs at most the factor `exp (k² B / c + 2 k δ)` over `c` entries spread evenly. -/
theorem C98_average (env : Env) {f : V2} (hb : f.buckets ≠ []) {N : ℕ} (hN : 0 < N)
    (keys : Fin N → Key) {δ : ℝ} (hδ : 0 ≤ δ)
    (hW : ∀ b, (((univ : Finset (Fin N)).filter fun x => f.keyBucket env (keys x) = b).card : ℝ)
      * f.buckets.length ≤ N * (1 + δ))
    {n c : ℕ} (hc : 0 < c) (hn : n ≤ c) (hk : f.nHashBuck.toNat * f.buckets.length ≤ c) :
    f.averageRate env keys n
      ≤ Real.exp (f.nHashBuck.toNat ^ 2 * f.buckets.length / c + 2 * f.nHashBuck.toNat * δ)
          * f.rate c := by
  have hB := List.length_pos_iff.2 hb
  have hNR : (0 : ℝ) < N := by exact_mod_cast hN
  set A : ℝ := if f.indexCache.isEmpty then 1 else falsePos (8 * f.indexCache.byteLen) 1 n with hA
  set A' : ℝ := if f.indexCache.isEmpty then 1 else falsePos (8 * f.indexCache.byteLen) 1 c with hA'
  have hAA : A ≤ A' := by
    rw [hA, hA']
    split
    · exact le_refl _
    · exact falsePos_mono (by positivity) 1 (Nat.cast_nonneg _) (by exact_mod_cast hn)
  have hA0 : 0 ≤ A := by
    rw [hA]
    split
    · exact zero_le_one
    · exact falsePos_nonneg (by positivity) (Nat.cast_nonneg _)
  have hf0 : 0 ≤ falsePos 32768 f.nHashBuck.toNat ((c : ℝ) / f.buckets.length) :=
    falsePos_nonneg (by norm_num) (by positivity)
  unfold V2.averageRate V2.rate V2.rateAt
  rw [← hA, ← hA', ← mul_assoc, mul_comm (Real.exp _) A', mul_assoc]
  set M := Real.exp (f.nHashBuck.toNat ^ 2 * f.buckets.length / c + 2 * f.nHashBuck.toNat * δ)
    * falsePos 32768 f.nHashBuck.toNat ((c : ℝ) / f.buckets.length) with hM
  have hM0 : 0 ≤ M := by positivity
  have one : ∀ q : Fin N, (∑ t : Fin n → Fin N,
      A * falsePos 32768 f.nHashBuck.toNat (f.load env keys t q)) ≤ A' * M * N ^ n := by
    intro q
    rw [← mul_sum]
    have h := average_load_le (N := N) (n := n) (c := c) (m := 32768) (δ := δ) (by norm_num) hB hN hc
      hk hn hδ (fun x => f.keyBucket env (keys x) = f.keyBucket env (keys q)) rfl (hW _)
    rw [div_le_iff₀ (by positivity)] at h
    rw [mul_assoc]
    exact mul_le_mul hAA h (sum_nonneg fun t _ => falsePos_nonneg (by norm_num) (Nat.cast_nonneg _))
      (hA0.trans hAA)
  rw [div_le_iff₀ (by positivity)]
  refine (sum_le_sum fun q _ => one q).trans (le_of_eq ?_)
  rw [sum_const, card_univ, Fintype.card_fin, nsmul_eq_mul]
  ring

/-- The keys of eight bytes. -/
def eightByteKey (x : Fin (2 ^ 64)) : Key := .slice (le 8 x)

/-- They are spread as the theorem wants, with `δ = B / 2^64`, whatever the hash function. -/
theorem C98_spread (env : Env) {f : V2} (hb : f.buckets ≠ []) (b : ℕ) :
    (((univ : Finset (Fin (2 ^ 64))).filter fun x => f.keyBucket env (eightByteKey x) = b).card : ℝ)
      * f.buckets.length ≤ (2 ^ 64 : ℕ) * (1 + f.buckets.length / (2 ^ 64 : ℕ)) := by
  have hB := List.length_pos_iff.2 hb
  have h1 : ((univ : Finset (Fin (2 ^ 64))).filter fun x => f.keyBucket env (eightByteKey x) = b).card
      ≤ 2 ^ 64 / f.buckets.length + 1 := by
    have h2 : ((univ : Finset (Fin (2 ^ 64))).filter fun x =>
        f.keyBucket env (eightByteKey x) = b).card
        ≤ ((range (2 ^ 64)).filter fun x => Spec.xorshift x % f.buckets.length = b).card := by
      refine card_le_card_of_injOn (fun x => x.val) (fun x hx => ?_)
        (fun x _ y _ h => Fin.ext h)
      have hx' := (mem_filter.1 (mem_coe.1 hx)).2
      unfold eightByteKey at hx'
      rw [V2.eight_bucket env f x.isLt] at hx'
      exact mem_coe.2 (mem_filter.2 ⟨mem_range.2 x.isLt, hx'⟩)
    refine h2.trans ?_
    rw [card_comp (N := 2 ^ 64) (g := Spec.xorshift) (fun x _ => xorshift_lt x) xorshift_inj
      (fun y => y % f.buckets.length = b)]
    by_cases hj : b < f.buckets.length
    · exact (card_mod _ _ _ hj).2
    · rw [filter_false_of_mem fun x _ (h : x % f.buckets.length = b) => hj (h ▸ Nat.mod_lt _ hB)]
      exact Nat.zero_le _
  generalize ((univ : Finset (Fin (2 ^ 64))).filter fun x =>
    f.keyBucket env (eightByteKey x) = b).card = w at h1 ⊢
  have e : ((2 ^ 64 : ℕ) : ℝ) * (1 + f.buckets.length / (2 ^ 64 : ℕ))
      = ((2 ^ 64 + f.buckets.length : ℕ) : ℝ) := by
    have : ((2 ^ 64 : ℕ) : ℝ) ≠ 0 := by positivity
    rw [Nat.cast_add, mul_add, mul_div_cancel₀ _ this, mul_one]
  rw [e]
  norm_cast
  refine (Nat.mul_le_mul_right _ h1).trans ?_
  rw [Nat.add_mul, Nat.one_mul]
  exact Nat.add_le_add_right (Nat.div_mul_le_self _ _) _

/-- The two together. -/
theorem V2.averageRate_eight (env : Env) {f : V2} (hb : f.buckets ≠ []) {n c : ℕ} (hc : 0 < c)
    (hn : n ≤ c) (hk : f.nHashBuck.toNat * f.buckets.length ≤ c) :
    f.averageRate env eightByteKey n
      ≤ Real.exp (f.nHashBuck.toNat ^ 2 * f.buckets.length / c
            + f.nHashBuck.toNat * f.buckets.length / 2 ^ 63) * f.rate c := by
  have h := C98_average env hb (by positivity) eightByteKey (by positivity) (C98_spread env hb)
    hc hn hk
  have e : 2 * (f.nHashBuck.toNat : ℝ) * (f.buckets.length / (2 ^ 64 : ℕ))
      = f.nHashBuck.toNat * f.buckets.length / 2 ^ 63 := by
    rw [Nat.cast_pow, Nat.cast_ofNat, show (2 : ℝ) ^ 64 = 2 * 2 ^ 63 by norm_num]
    generalize (2 : ℝ) ^ 63 = z
    rw [mul_div_assoc', mul_assoc, mul_div_mul_left _ _ (by norm_num)]
  rwa [e] at h

/-- So of a filter without index cache, with up to `cap` keys of eight bytes drawn at random. -/
theorem C98_plain {env : Env} (ac : env.libm.Accurate) {cap : U64} {fpp : F64} {opt : OptLevel}
    (ho : opt = .none ∨ opt = .space) {f : V2} (h : V2.make env cap fpp opt = .ok f) (hc : cap ≠ 0)
    {p : ℚ} (hp : FVal.ofBits fpp = .fin p) (h1 : p ≤ 1 - 1 / 2 ^ 40)
    (hk : f.nHashBuck.toNat * f.buckets.length ≤ cap.toNat) {n : ℕ} (hn : n ≤ cap.toNat) :
    f.averageRate env eightByteKey n
      ≤ Real.exp (1 / 4 + f.nHashBuck.toNat ^ 2 * f.buckets.length / cap.toNat
            + f.nHashBuck.toNat * f.buckets.length / 2 ^ 63)
          * (p : ℝ) ^ (1 - 2 ^ (-41 : ℤ) : ℝ) := by
  have hr := C76_v2_partial ac ho h hc hp h1 (le_refl _)
  have ha := V2.averageRate_eight env (V2.make_buckets ac.spec h hc) (toNat_pos_of_ne hc) hn hk
  refine ha.trans ?_
  rw [add_assoc, add_comm (1 / 4 : ℝ), Real.exp_add _ (1 / 4), mul_assoc]
  exact mul_le_mul_of_nonneg_left hr (Real.exp_pos _).le

/-- And of a filter with index cache. -/
theorem C98_cached {env : Env} (ac : env.libm.Accurate) (ax : env.libm.AccurateExp) {cap : U64}
    {fpp : F64} {opt : OptLevel} (ho : opt = .speed ∨ opt = .best) {f : V2}
    (h : V2.make env cap fpp opt = .ok f) (hc : cap ≠ 0) (hc63 : cap.toNat ≤ 2 ^ 63)
    {p : ℚ} (hp : FVal.ofBits fpp = .fin p) (h1 : p ≤ 1 - 1 / 2 ^ 40)
    (hk : f.nHashBuck.toNat * f.buckets.length ≤ cap.toNat) {n : ℕ} (hn : n ≤ cap.toNat) :
    f.averageRate env eightByteKey n
      ≤ Real.exp (f.nHashBuck.toNat ^ 2 * f.buckets.length / cap.toNat
            + f.nHashBuck.toNat * f.buckets.length / 2 ^ 63)
          * (p : ℝ) ^ (4 / 5 : ℝ) := by
  have hr := C76_cached_partial ac ax ho h hc hc63 hp h1 (le_refl _)
  have ha := V2.averageRate_eight env (V2.make_buckets ac.spec h hc) (toNat_pos_of_ne hc) hn hk
  exact ha.trans (mul_le_mul_of_nonneg_left hr (Real.exp_pos _).le)

-- the filter of 87 buckets with 12 hash functions, filled with 65537 keys of eight bytes
example : ∃ f, V2.make (Sample.envX false) 65537 Sample.tiny .best = .ok f ∧ f.nHashBuck = 12 ∧
    f.buckets.length = 87 ∧ f.averageRate (Sample.envX false) eightByteKey 65537
      ≤ 5 / 4 * ((1 / 2 ^ 30 : ℚ) : ℝ) ^ (4 / 5 : ℝ) := by
  obtain ⟨f, hf, h1, h2, _⟩ := Sample.tiny_make
  have e12 : f.nHashBuck.toNat = 12 := by rw [h1]; rfl
  have ecap : (65537 : U64).toNat = 65537 := rfl
  have h := C98_cached (Sample.envX_accurate _) Libm.exact_accurateExp (.inr rfl) hf
    (by decide) (by decide) Sample.tiny_eq (by norm_num) (by rw [e12, h2, ecap]; norm_num)
    (n := 65537) (le_refl _)
  refine ⟨f, hf, h1, h2, h.trans (mul_le_mul_of_nonneg_right ?_ (by positivity))⟩
  rw [e12, h2, ecap]
  have hx : ((12 : ℕ) : ℝ) ^ 2 * (87 : ℕ) / (65537 : ℕ) + (12 : ℕ) * (87 : ℕ) / 2 ^ 63 ≤ 1 / 5 := by
    norm_num
  refine (Real.exp_le_exp.2 hx).trans ?_
  have := Real.one_sub_le_exp_neg (1 / 5)
  rw [Real.exp_neg] at this
  have h0 := Real.exp_pos (1 / 5)
  have h3 := mul_le_mul_of_nonneg_right this h0.le
  rw [inv_mul_cancel₀ h0.ne'] at h3
  linarith

end Poppy
