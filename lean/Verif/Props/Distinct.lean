import Verif.Lemmas.Distinct
import Verif.Props.AverageFill
import Verif.Props.Floor

/-! # The bits of a key (C100)

How many different bits a key has in its bucket, and how many keys are accepted by a bucket whose
bits are set at random. -/

namespace Poppy
open Spec Finset

/-! ### Helpers -/

/-- The bits of a class (the low 15 bits of the two hashes, see `keyClass`) with `k` hash functions. -/
def classBits {M : ℕ} (k : ℕ) (t : Fin M × Fin M) : Finset ℕ :=
  (range k).image fun n => poppyProbe t.1 t.2 n

/-- A class is accepted if all its bits are in the set `S`. -/
def Accepted {M : ℕ} (k : ℕ) (S : Finset (Fin M)) (t : Fin M × Fin M) : Prop :=
  ∀ n < k, ∃ i ∈ S, (i : ℕ) = poppyProbe t.1 t.2 n

instance {M : ℕ} (k : ℕ) (S : Finset (Fin M)) (t : Fin M × Fin M) : Decidable (Accepted k S t) :=
  inferInstanceAs (Decidable (∀ n < k, ∃ i ∈ S, (i : ℕ) = poppyProbe t.1 t.2 n))

/-- The share of the classes that is accepted, on average over all sets of `X` bits. -/
noncomputable def averageShare (M k X : ℕ) : ℚ :=
  (∑ S ∈ powersetCard X (univ : Finset (Fin M)),
    (((univ : Finset (Fin M × Fin M)).filter (Accepted k S)).card : ℚ)) / (M.choose X * M ^ 2)

/-- Two of the `k` bits of a class are equal. -/
def Collides {M : ℕ} (k : ℕ) (t : Fin M × Fin M) : Prop :=
  ∃ j < k, ∃ i < j, poppyProbe t.1 t.2 i = poppyProbe t.1 t.2 j

instance {M : ℕ} (k : ℕ) (t : Fin M × Fin M) : Decidable (Collides k t) :=
  inferInstanceAs (Decidable (∃ j < k, ∃ i < j, poppyProbe t.1 t.2 i = poppyProbe t.1 t.2 j))

theorem card_classBits {M k : ℕ} {t : Fin M × Fin M} (h : ¬ Collides k t) :
    (classBits k t).card = k := by
  unfold classBits
  rw [card_image_of_injOn, card_range]
  intro i hi j hj e
  simp only [coe_range, Set.mem_Iio] at hi hj
  by_contra hne
  rcases Nat.lt_or_gt_of_ne hne with h' | h'
  · exact h ⟨j, hj, i, h', e⟩
  · exact h ⟨i, hi, j, h', e.symm⟩

theorem card_classBits_lt {M k : ℕ} {t : Fin M × Fin M} (h : Collides k t) :
    (classBits k t).card < k := by
  obtain ⟨j, hj, i, hi, e⟩ := h
  have : classBits k t ⊆ ((range k).erase j).image fun n => poppyProbe t.1 t.2 n := by
    intro x hx
    obtain ⟨n, hn, rfl⟩ := mem_image.1 hx
    by_cases hnj : n = j
    · subst hnj
      exact mem_image.2 ⟨i, mem_erase.2 ⟨hi.ne, mem_range.2 (hi.trans hj)⟩, e⟩
    · exact mem_image.2 ⟨n, mem_erase.2 ⟨hnj, hn⟩, rfl⟩
  refine (card_le_card this).trans_lt (card_image_le.trans_lt ?_)
  rw [card_erase_of_mem (mem_range.2 hj), card_range]
  omega

/-- The bits as elements of `Fin M`. -/
def finBits {M : ℕ} (hM : M = 32768) (k : ℕ) (t : Fin M × Fin M) : Finset (Fin M) :=
  (range k).image fun n => ⟨poppyProbe t.1 t.2 n, (poppyProbe_lt _ _ _).trans_eq hM.symm⟩

theorem card_finBits {M : ℕ} (hM : M = 32768) (k : ℕ) (t : Fin M × Fin M) :
    (finBits hM k t).card = (classBits k t).card := by
  have : classBits k t = (finBits hM k t).map Fin.valEmbedding := by
    unfold classBits finBits
    rw [map_eq_image, image_image]
    rfl
  rw [this, card_map]

theorem accepted_iff {M : ℕ} (hM : M = 32768) (k : ℕ) (S : Finset (Fin M)) (t : Fin M × Fin M) :
    Accepted k S t ↔ finBits hM k t ⊆ S := by
  unfold Accepted finBits
  constructor
  · intro h x hx
    obtain ⟨n, hn, rfl⟩ := mem_image.1 hx
    obtain ⟨i, hi, e⟩ := h n (mem_range.1 hn)
    have : i = ⟨poppyProbe t.1 t.2 n, (poppyProbe_lt _ _ _).trans_eq hM.symm⟩ := Fin.ext e
    rw [← this]; exact hi
  · intro h n hn
    exact ⟨_, h (mem_image.2 ⟨n, mem_range.2 hn, rfl⟩), rfl⟩

theorem sum_accepted {M : ℕ} (hM : M = 32768) (k X : ℕ) :
    (∑ S ∈ powersetCard X (univ : Finset (Fin M)),
      ((univ : Finset (Fin M × Fin M)).filter (Accepted k S)).card)
    = ∑ t : Fin M × Fin M,
        ((powersetCard X (univ : Finset (Fin M))).filter (finBits hM k t ⊆ ·)).card := by
  simp only [card_filter]
  rw [sum_comm]
  simp only [accepted_iff hM]

/-- Of the sets of `X` bits, the share that contains the bits of a class. -/
theorem share_contains {M : ℕ} (hM : M = 32768) (X : ℕ) {k : ℕ} (t : Fin M × Fin M) :
    (((powersetCard X (univ : Finset (Fin M))).filter (finBits hM k t ⊆ ·)).card : ℚ)
      * M.descFactorial (classBits k t).card
    = M.choose X * X.descFactorial (classBits k t).card := by
  have := supersets_mul (finBits hM k t) X
  rw [card_finBits, Fintype.card_fin] at this
  exact_mod_cast this

theorem classBits_le {M : ℕ} (hM : M = 32768) (k : ℕ) (t : Fin M × Fin M) :
    (classBits k t).card ≤ M := by
  rw [← card_finBits hM]
  exact (card_le_univ _).trans (by rw [Fintype.card_fin])

/-- The share is at most `(X/M)^d` for `d` different bits. -/
theorem share_le {M : ℕ} (hM : M = 32768) {X : ℕ} (hX : X ≤ M) {k : ℕ} (t : Fin M × Fin M) :
    (((powersetCard X (univ : Finset (Fin M))).filter (finBits hM k t ⊆ ·)).card : ℚ)
      ≤ M.choose X * ((X : ℚ) / M) ^ (classBits k t).card := by
  have h1 := share_contains hM X (k := k) t
  have h2 := descFactorial_ratio hX (classBits k t).card
  have hM0 : (0 : ℚ) < M := by rw [hM]; norm_num
  have hD : (0 : ℚ) < M.descFactorial (classBits k t).card := by
    exact_mod_cast Nat.pos_of_ne_zero fun h => by
      have := Nat.descFactorial_eq_zero_iff_lt.1 h
      have := classBits_le hM k t
      omega
  have h2' : (X.descFactorial (classBits k t).card : ℚ) * M ^ (classBits k t).card
      ≤ M.descFactorial (classBits k t).card * X ^ (classBits k t).card := by exact_mod_cast h2
  rw [div_pow, ← mul_div_assoc, le_div_iff₀ (by positivity)]
  refine le_of_mul_le_mul_right ?_ hD
  calc _ = (M.choose X * X.descFactorial (classBits k t).card : ℚ) * M ^ (classBits k t).card := by
        rw [← h1]; ring
    _ = M.choose X * (X.descFactorial (classBits k t).card * (M : ℚ) ^ (classBits k t).card) := by ring
    _ ≤ M.choose X * (M.descFactorial (classBits k t).card * (X : ℚ) ^ (classBits k t).card) :=
        mul_le_mul_of_nonneg_left h2' (Nat.cast_nonneg _)
    _ = _ := by ring

theorem averageShare_le {M : ℕ} (hM : M = 32768) {X : ℕ} (hX : X ≤ M) (k : ℕ) {e : ℕ}
    (he : ∀ t : Fin M × Fin M, Collides k t → e ≤ (classBits k t).card) :
    averageShare M k X ≤ ((X : ℚ) / M) ^ k + Nat.choose (k + 1) 3 / M * ((X : ℚ) / M) ^ e := by
  have hM0 : (0 : ℚ) < M := by rw [hM]; norm_num
  have hC : (0 : ℚ) < M.choose X := by exact_mod_cast Nat.choose_pos hX
  set ρ : ℚ := (X : ℚ) / M with hρ
  have hρ0 : 0 ≤ ρ := by positivity
  have hρ1 : ρ ≤ 1 := by rw [hρ, div_le_one hM0]; exact_mod_cast hX
  have hsum : (∑ S ∈ powersetCard X (univ : Finset (Fin M)),
      (((univ : Finset (Fin M × Fin M)).filter (Accepted k S)).card : ℚ))
      = ∑ t : Fin M × Fin M,
        (((powersetCard X (univ : Finset (Fin M))).filter (finBits hM k t ⊆ ·)).card : ℚ) := by
    exact_mod_cast sum_accepted hM k X
  unfold averageShare
  rw [hsum, div_le_iff₀ (by positivity)]
  have hbad := card_collide hM k
  have each : ∀ t : Fin M × Fin M,
      (((powersetCard X (univ : Finset (Fin M))).filter (finBits hM k t ⊆ ·)).card : ℚ)
        ≤ M.choose X * (ρ ^ k + if Collides k t then ρ ^ e else 0) := by
    intro t
    refine (share_le hM hX t).trans (mul_le_mul_of_nonneg_left ?_ hC.le)
    by_cases hc : Collides k t
    · rw [if_pos hc]
      have h2 := pow_le_pow_of_le_one hρ0 hρ1 (he t hc)
      have : 0 ≤ ρ ^ k := by positivity
      linarith
    · rw [if_neg hc, card_classBits hc, add_zero]
  refine (sum_le_sum fun t _ => each t).trans ?_
  rw [← mul_sum, sum_add_distrib, sum_const, card_univ, Fintype.card_prod, Fintype.card_fin,
    nsmul_eq_mul, ← sum_filter, sum_const, nsmul_eq_mul]
  have hb : (((univ : Finset (Fin M × Fin M)).filter fun t => Collides k t).card : ℚ)
      ≤ Nat.choose (k + 1) 3 * M := by exact_mod_cast hbad
  have h3 : ((Nat.choose (k + 1) 3 : ℚ) / M * ρ ^ e) * M ^ 2 = Nat.choose (k + 1) 3 * M * ρ ^ e := by
    field_simp
  calc _ ≤ (M.choose X : ℚ) * (((M * M : ℕ) : ℚ) * ρ ^ k + Nat.choose (k + 1) 3 * M * ρ ^ e) := by
        refine mul_le_mul_of_nonneg_left ?_ hC.le
        have := mul_le_mul_of_nonneg_right hb (pow_nonneg hρ0 e)
        linarith
    _ = _ := by rw [← h3]; push_cast; ring

theorem averageShare_ge {M : ℕ} (hM : M = 32768) {X : ℕ} (hX : X ≤ M) (k : ℕ) (hk : k ≤ M) :
    (1 - (Nat.choose (k + 1) 3 : ℚ) / M) * (X.descFactorial k / M.descFactorial k)
      ≤ averageShare M k X := by
  have hM0 : (0 : ℚ) < M := by rw [hM]; norm_num
  have hC : (0 : ℚ) < M.choose X := by exact_mod_cast Nat.choose_pos hX
  have hD : (0 : ℚ) < M.descFactorial k := by
    exact_mod_cast Nat.pos_of_ne_zero fun h => by
      have := Nat.descFactorial_eq_zero_iff_lt.1 h
      omega
  have hsum : (∑ S ∈ powersetCard X (univ : Finset (Fin M)),
      (((univ : Finset (Fin M × Fin M)).filter (Accepted k S)).card : ℚ))
      = ∑ t : Fin M × Fin M,
        (((powersetCard X (univ : Finset (Fin M))).filter (finBits hM k t ⊆ ·)).card : ℚ) := by
    exact_mod_cast sum_accepted hM k X
  unfold averageShare
  set r : ℚ := X.descFactorial k / M.descFactorial k with hr
  have hr0 : 0 ≤ r := by positivity
  rw [hsum, le_div_iff₀ (by positivity)]
  have hbad := card_collide hM k
  have each : ∀ t : Fin M × Fin M, M.choose X * (r - if Collides k t then r else 0)
      ≤ (((powersetCard X (univ : Finset (Fin M))).filter (finBits hM k t ⊆ ·)).card : ℚ) := by
    intro t
    by_cases hc : Collides k t
    · rw [if_pos hc, sub_self, mul_zero]; exact Nat.cast_nonneg _
    · have h1 := share_contains hM X (k := k) t
      rw [card_classBits hc] at h1
      rw [if_neg hc, sub_zero, hr, ← mul_div_assoc, ← h1, mul_div_assoc, div_self hD.ne', mul_one]
  refine le_trans ?_ (sum_le_sum fun t _ => each t)
  rw [← mul_sum, sum_sub_distrib, sum_const, card_univ, Fintype.card_prod, Fintype.card_fin,
    nsmul_eq_mul, ← sum_filter, sum_const, nsmul_eq_mul]
  have hb : (((univ : Finset (Fin M × Fin M)).filter fun t => Collides k t).card : ℚ)
      ≤ Nat.choose (k + 1) 3 * M := by exact_mod_cast hbad
  have h3 : ((Nat.choose (k + 1) 3 : ℚ) / M) * M ^ 2 = Nat.choose (k + 1) 3 * M := by field_simp
  calc _ = (M.choose X : ℚ) * (((M * M : ℕ) : ℚ) * r - Nat.choose (k + 1) 3 * M * r) := by
        rw [← h3]; push_cast; ring
    _ ≤ _ := by
        refine mul_le_mul_of_nonneg_left ?_ hC.le
        have := mul_le_mul_of_nonneg_right hb hr0
        linarith

theorem card_ne_le {M : ℕ} (hM : M = 32768) (k : ℕ) :
    ((univ : Finset (Fin M × Fin M)).filter fun t => (classBits k t).card ≠ k).card
      ≤ Nat.choose (k + 1) 3 * M := by
  refine le_trans (card_le_card fun t ht => ?_) (card_collide hM k)
  rw [mem_filter] at ht ⊢
  refine ⟨mem_univ _, ?_⟩
  by_contra hc
  exact ht.2 (card_classBits hc)

/-! ## C100 -/

/-- Of the `2^30` classes of keys, those with two equal bits among `k` are at most
`C(k+1,3) * 2^15`. -/
theorem C100_classes (k : ℕ) :
    ((univ : Finset (Fin 32768 × Fin 32768)).filter fun t => (classBits k t).card ≠ k).card
      ≤ Nat.choose (k + 1) 3 * 32768 := by
  exact card_ne_le rfl k

/-- Ten hash functions: at most 165 of 32768 keys, and there are keys of both kinds. -/
example : Nat.choose (10 + 1) 3 = 165 ∧ (classBits 10 ((⟨0, by norm_num⟩, ⟨1, by norm_num⟩) :
    Fin 32768 × Fin 32768)).card = 10 ∧ (classBits 10 ((⟨0, by norm_num⟩, ⟨0, by norm_num⟩) :
    Fin 32768 × Fin 32768)).card = 9 := by decide +kernel

/-- With up to 32 hash functions every key has at most three bits less than hash functions. -/
theorem C100_many (env : Env) {k : ℕ} (hk : k ≤ 32) (q : Key) :
    k ≤ (classBits k (keyClass env q)).card + 3 := card_probes_ge hk _ _

/-- The first insertion into a new filter sets exactly the bits of the class of the key, in its
bucket. -/
theorem C100_first {env : Env} (sp : env.libm.Spec) {cap : U64} {fpp : F64} {opt : OptLevel} {f : V2}
    (h : V2.make env cap fpp opt = .ok f) (hc : cap ≠ 0) (q : Key) :
    (∀ b i, (f.insert env q).1.bucketBit b i = true ↔
      b = f.keyBucket env q ∧ i ∈ classBits f.nHashBuck.toNat (keyClass env q)) ∧
    (f.insert env q).1.countOnes = (classBits f.nHashBuck.toNat (keyClass env q)).card := by
  have hb := V2.make_buckets sp h hc
  have hcap : f.capacity = cap := by
    obtain ⟨_, nb, nh, cbs, _, _, _, rfl⟩ := V2.make_ok h; rfl
  have hcount : f.count = 0 := (V2.make_countOnes h).2
  have hbits := V2.inserts_bits_iff (V2.Reach.make h) hb [q] (by
    rw [hcount, hcap]
    have := V1.toNat_pos hc
    show 0 + 1 ≤ _
    omega)
  have e : V2.inserts env f [q] = (f.insert env q).1 := rfl
  rw [e] at hbits
  have key : ∀ b i, (f.insert env q).1.bucketBit b i = true ↔
      b = f.keyBucket env q ∧ i ∈ classBits f.nHashBuck.toNat (keyClass env q) := by
    intro b i
    rw [hbits b i, V2.bucketBit_eq, V2.make_bit h]
    simp only [Bool.false_eq_true, List.mem_singleton, exists_eq_left, false_or, V2.Covers, classBits,
      mem_image, mem_range, keyProbe_class]
    refine and_congr_right fun _ => ?_
    exact ⟨fun ⟨n, h1, h2⟩ => ⟨n, h1, h2.symm⟩, fun ⟨n, h1, h2⟩ => ⟨n, h1, h2.symm⟩⟩
  refine ⟨key, ?_⟩
  rw [← V2.card_setBits]
  have hs : (f.insert env q).1.setBits
      = (classBits f.nHashBuck.toNat (keyClass env q)).image fun i => (f.keyBucket env q, i) := by
    ext ⟨b, i⟩
    unfold V2.setBits
    have hl : (f.insert env q).1.buckets.length = f.buckets.length :=
      (V2.insert_ext env f q).toShape.blen
    simp only [mem_filter, mem_product, mem_range, mem_image, key, hl, Prod.mk.injEq]
    constructor
    · rintro ⟨_, h1, h2⟩
      exact ⟨i, h2, h1.symm, rfl⟩
    · rintro ⟨j, h1, rfl, rfl⟩
      refine ⟨⟨Nat.mod_lt _ (List.length_pos_iff.2 hb), ?_⟩, rfl, h1⟩
      obtain ⟨n, _, rfl⟩ := mem_image.1 h1
      exact poppyProbe_lt _ _ _
  rw [hs, card_image_of_injective]
  intro a b hab
  exact (Prod.ext_iff.1 hab).2

example (q : Key) : (Sample.f2.insert Sample.env q).1.countOnes
    = (classBits Sample.f2.nHashBuck.toNat (keyClass Sample.env q)).card :=
  (C100_first Sample.libm_spec Sample.f2_make (by decide) q).2

/-- A key of a filter without index cache is a member exactly if its class is accepted by the set of
the bits of its bucket. -/
theorem C100_member {env : Env} {f : V2} (hf : V2.Reach env f) (hb : f.buckets ≠ [])
    (hc : f.capacity ≠ 0) (hi : f.indexCache.asSlice = []) (q : Key) {S : Finset (Fin 32768)}
    (hS : ∀ i : Fin 32768, i ∈ S ↔ f.bucketBit (f.keyBucket env q) i = true) :
    f.contains env q = .ok true ↔ Accepted f.nHashBuck.toNat S (keyClass env q) := by
  rw [C77_member hf hb hc hi]
  unfold Accepted
  refine forall_congr' fun n => imp_congr_right fun _ => ?_
  constructor
  · intro h
    exact ⟨⟨_, poppyProbe_lt _ _ _⟩, (hS _).2 h, rfl⟩
  · rintro ⟨i, hi, e⟩
    rw [← e]
    exact (hS i).1 hi

/-- On average over all sets of `X` bits of a bucket, the share of accepted classes is at most
`(X/m)^k + C(k+1,3)/m * (X/m)^(k-3)`, with `m = 32768`, for up to 32 hash functions. -/
theorem C100_average {X : ℕ} (hX : X ≤ 32768) {k : ℕ} (hk : k ≤ 32) :
    averageShare 32768 k X
      ≤ ((X : ℚ) / 32768) ^ k + Nat.choose (k + 1) 3 / 32768 * ((X : ℚ) / 32768) ^ (k - 3) :=
  averageShare_le rfl hX k fun t _ => Nat.sub_le_iff_le_add.2 (card_probes_ge hk t.1 t.2)

/-- Half of the bits set and ten hash functions: `2^-10` with an error of less than 5 %. -/
example : averageShare 32768 10 16384 ≤ 105 / 100 / 2 ^ 10 := by
  refine (C100_average (by norm_num) (by norm_num)).trans ?_
  rw [show Nat.choose (10 + 1) 3 = 165 from rfl]
  norm_num

/-- Any number of hash functions. -/
theorem C100_average_any {X : ℕ} (hX : X ≤ 32768) (k : ℕ) :
    averageShare 32768 k X
      ≤ ((X : ℚ) / 32768) ^ k + Nat.choose (k + 1) 3 / 32768 * ((X : ℚ) / 32768) := by
  have := averageShare_le (M := 32768) rfl hX k (e := 1) fun t ⟨j, hj, _⟩ =>
    card_pos.2 ⟨_, mem_image.2 ⟨j, mem_range.2 hj, rfl⟩⟩
  rwa [pow_one] at this

/-- And at least `X (X-1) … (X-k+1) / (m (m-1) … (m-k+1))`, up to the factor `1 - C(k+1,3)/m`. -/
theorem C100_least {X : ℕ} (hX : X ≤ 32768) {k : ℕ} (hk : k ≤ 32768) :
    (1 - (Nat.choose (k + 1) 3 : ℚ) / 32768) *
        ((X.descFactorial k : ℚ) / (Nat.descFactorial 32768 k : ℚ))
      ≤ averageShare 32768 k X :=
  averageShare_ge rfl hX k hk

example : 99 / 100 / 2 ^ 10 ≤ averageShare 32768 10 16384 := by
  refine le_trans ?_ (C100_least (by norm_num) (by norm_num))
  rw [show Nat.choose (10 + 1) 3 = 165 from rfl]
  norm_num [Nat.descFactorial]

end Poppy
