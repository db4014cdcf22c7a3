import Verif.Lemmas.AccuracySizes
import Verif.SpecReal
import Verif.Lemmas.Reload
import Verif.Lemmas.Origin
import Verif.Samples

/-! # Accuracy of sizes and estimates (C71, C72)

The textbook formulas for Bloom filters, with real numbers, against the numbers that the code
computes with `f64`. -/

namespace Poppy

open Spec

/-! ### Concrete cases -/

namespace Sample

/-- Correctly rounded functions. -/
noncomputable def envX (d : Bool) : Env := { env with libm := Libm.exact, debug := d }

theorem envX_small (d : Bool) : (envX d).Small := env_small

theorem envX_accurate (d : Bool) : (envX d).libm.Accurate := Libm.exact_accurate

/-- `0.5f64` -/
def half : F64 := 0x3FE0000000000000#64

theorem half_inRange : fppInRange half = true := (fppInRange_iff _).2 (by decide)

theorem half_eq : FVal.ofBits half = .fin (1 / 2) := by decide +kernel

/-- Two buckets with the same byte everywhere. -/
def filled (b : U8) : V2 :=
  { flags := Flags.new 2#8
    indexCache := ⟨[]⟩
    nBuckets := 2
    cacheByteSize := 0
    capacity := 5000
    fpp := half
    nHashBuck := 7
    count := 0
    buckets := List.replicate 2 ⟨Vector.replicate _ b⟩
    data := [] }

theorem filled_fits (b : U8) (d : Bool) : V2.Fits (envX d) (filled b) :=
  ⟨half_inRange, rfl, rfl, by show 2 * 4096 ≤ 2 ^ 20; norm_num, Nat.zero_le _⟩

/-- It can be read from a file. -/
theorem filled_reach (b : U8) (d : Bool) : V2.Reach (envX d) (filled b) :=
  .load (V2.fromReader_ser (filled_fits b d) (envX_small d) rfl)

theorem filled_params (a b : U8) : (filled a).hasSameParams (filled b) = true := by
  rw [V2.hasSameParams_iff]
  refine ⟨rfl, rfl, rfl, ?_, rfl, rfl⟩
  show FVal.feq (FVal.ofBits half) (FVal.ofBits half) = true
  decide +kernel

theorem filled_bit (b : U8) {n i : ℕ} (hn : n < 2) (hi : i < 32768) :
    (filled b).bucketBit n i = b.getLsbD (i % 8) := by
  have h : ((filled b).buckets.getD n (BitSet.new _)).asSlice = List.replicate 4096 b := by
    have : (filled b).buckets.getD n (BitSet.new _) = ⟨Vector.replicate _ b⟩ := by
      show (List.replicate 2 _).getD n _ = _
      rw [List.getD_eq_getElem?_getD, List.getElem?_replicate, if_pos hn]
      rfl
    rw [this]
    simp [BitSet.asSlice, BUCKET_SIZE]
  unfold V2.bucketBit bitAt
  rw [h, List.getD_eq_getElem?_getD, List.getElem?_replicate, if_pos (by omega)]
  rfl

end Sample

/-! ## C71 sizes -/

/-- A v1 filter has the textbook number of bits, rounded down. -/
theorem C71_v1_bits {env : Env} (hs : env.Small) (ac : env.libm.Accurate) {cap : U64} {fpp : F64}
    {f : V1} (h : V1.withCapacity env cap fpp = .ok f) {p : ℚ} (hp : FVal.ofBits fpp = .fin p) :
    bestBits cap.toNat p * (1 - 2 ^ (-44 : ℤ)) - 1 < f.bitSize.toNat ∧
      f.bitSize.toNat ≤ bestBits cap.toNat p * (1 + 2 ^ (-44 : ℤ)) := by
  obtain ⟨hin, hal, rfl⟩ := V1.withCapacity_ok h
  have hm := (u64SizeFor_small (lt_of_le_of_lt hal hs)).1
  obtain ⟨v, v0, hv, nv⟩ := bitSizeFor_near ac hin hp cap
  simp only
  obtain ⟨_, _, e, q0, q1, _⟩ := ac.ln_fpp hin
  rw [hp] at e
  cases e
  have hx : 0 ≤ bestBits cap.toNat p := by
    unfold bestBits
    have : Real.log (p : ℝ) ≤ 0 := Real.log_nonpos (by exact_mod_cast q0.le) (by exact_mod_cast q1)
    have : 0 ≤ -Real.log (p : ℝ) := by linarith
    positivity
  have nv := nv.mono hx (e' := 2 ^ (-44 : ℤ)) (by unfold halfUlp; norm_num)
  rw [hv] at hm ⊢
  have hf : ((⌊v⌋ : ℤ) : ℚ) < 2 ^ 64 := by
    by_contra hc
    rw [toU64_fin_big (not_lt.1 hc)] at hm
    norm_num at hm
  rw [toU64_fin hf, Int.floor_intCast]
  have h0 : 0 ≤ ⌊v⌋ := Int.floor_nonneg.2 v0
  have h1 : ((⌊v⌋.toNat : ℕ) : ℝ) = ((⌊v⌋ : ℤ) : ℝ) := by
    have : ((⌊v⌋.toNat : ℕ) : ℤ) = ⌊v⌋ := Int.toNat_of_nonneg h0
    exact_mod_cast congrArg (Int.cast (R := ℝ)) this
  rw [h1]
  have h2 : ((⌊v⌋ : ℤ) : ℝ) ≤ v := by exact_mod_cast Int.floor_le v
  have h3 : (v : ℝ) < ((⌊v⌋ : ℤ) : ℝ) + 1 := by exact_mod_cast Int.lt_floor_add_one v
  exact ⟨by linarith [nv.1], by linarith [nv.2]⟩

/-- A v1 filter has the textbook number of hash functions for its size, rounded up. -/
theorem C71_v1_hashes {env : Env} (hs : env.Small) (ac : env.libm.Accurate) {cap : U64} {fpp : F64}
    {f : V1} (h : V1.withCapacity env cap fpp = .ok f) (hc : cap ≠ 0) :
    bestHashes f.bitSize.toNat cap.toNat * (1 - 2 ^ (-44 : ℤ)) ≤ f.nHash.toNat ∧
      f.nHash.toNat < bestHashes f.bitSize.toNat cap.toNat * (1 + 2 ^ (-44 : ℤ)) + 1 := by
  obtain ⟨hin, hal, rfl⟩ := V1.withCapacity_ok h
  have hm := (u64SizeFor_small (lt_of_le_of_lt hal hs)).1
  simp only
  generalize bitSizeFor env.libm cap (FVal.ofBits fpp) = m at *
  obtain ⟨v, v0, v1, hv, nv⟩ := kHash_near ac (bits := m) hc
  have hl0 : 0 < Real.log 2 := Real.log_pos one_lt_two
  have hl := log_two_bounds
  have hcn : 1 ≤ (cap.toNat : ℝ) := by
    have : 1 ≤ cap.toNat := by
      rcases Nat.eq_zero_or_pos cap.toNat with h | h
      · exact absurd (BitVec.eq_of_toNat_eq h) hc
      · exact h
    exact_mod_cast this
  have he : Real.log 2 * m.toNat / cap.toNat = bestHashes m.toNat cap.toNat := by
    unfold bestHashes
    ring
  rw [he] at nv
  have hx : 0 ≤ bestHashes m.toNat cap.toNat := by unfold bestHashes; positivity
  have hx2 : bestHashes m.toNat cap.toNat ≤ 2 ^ 53 := by
    rw [← he, div_le_iff₀ (by linarith)]
    have h1 : (m.toNat : ℝ) ≤ 2 ^ 53 := by exact_mod_cast hm
    have h2 : Real.log 2 * m.toNat ≤ 1 * 2 ^ 53 :=
      mul_le_mul (by linarith) h1 (Nat.cast_nonneg _) (by norm_num)
    have h3 : (2 : ℝ) ^ 53 * 1 ≤ 2 ^ 53 * cap.toNat :=
      mul_le_mul_of_nonneg_left hcn (by norm_num)
    linarith
  have nv := nv.mono hx (e' := 2 ^ (-44 : ℤ)) (by unfold halfUlp; norm_num)
  have hv63 : v ≤ 2 ^ 63 := by
    have : (v : ℝ) ≤ 2 ^ 63 := by
      refine nv.2.trans (le_trans (mul_le_mul hx2 (show (1 + 2 ^ (-44 : ℤ) : ℝ) ≤ 2 by norm_num)
        (by norm_num) (by norm_num)) (by norm_num))
    exact_mod_cast this
  obtain ⟨g1, g2⟩ := toU64_ceil_near v0 hv63
  rw [hv]
  exact ⟨nv.1.trans g1, by linarith [nv.2]⟩

/-- A v1 filter has about `log₂ (1/p)` hash functions. -/
theorem C71_v1_log {env : Env} (hs : env.Small) (ac : env.libm.Accurate) {cap : U64} {fpp : F64}
    {f : V1} (h : V1.withCapacity env cap fpp = .ok f) (hc : cap ≠ 0) {p : ℚ}
    (hp : FVal.ofBits fpp = .fin p) :
    -Real.logb 2 p * (1 - 2 ^ (-43 : ℤ)) - 1 < f.nHash.toNat ∧
      f.nHash.toNat < -Real.logb 2 p * (1 + 2 ^ (-42 : ℤ)) + 1 := by
  obtain ⟨b1, b2⟩ := C71_v1_bits hs ac h hp
  obtain ⟨h1, h2⟩ := C71_v1_hashes hs ac h hc
  obtain ⟨_, _, e, q0, q1, _⟩ := ac.ln_fpp (V1.withCapacity_ok h).1
  rw [hp] at e
  cases e
  have hl := log_two_bounds
  have hcn : (1 : ℝ) ≤ cap.toNat := by exact_mod_cast toNat_pos_of_ne hc
  have hlp : 0 ≤ -Real.log (p : ℝ) := by
    have := Real.log_nonpos (x := (p : ℝ)) (by exact_mod_cast q0.le) (by exact_mod_cast q1)
    linarith
  have hL : -Real.logb 2 p = -Real.log p / Real.log 2 := by rw [Real.logb]; ring
  have hL0 : 0 ≤ -Real.logb 2 p := by rw [hL]; exact div_nonneg hlp (by linarith)
  have hx : bestBits cap.toNat p = -Real.logb 2 p * (cap.toNat / Real.log 2) := by
    rw [hL]; unfold bestBits
    have : Real.log 2 ≠ 0 := by linarith
    field_simp
  unfold bestHashes at h1 h2
  rw [hx] at b1 b2
  generalize -Real.logb 2 (p : ℝ) = L at *
  generalize (cap.toNat : ℝ) = n at *
  generalize (f.bitSize.toNat : ℝ) = m at *
  generalize (f.nHash.toNat : ℝ) = k at *
  have hn : 0 < n := by linarith
  have hlg : 0 < Real.log 2 := by linarith
  have c1 : L * (1 - 2 ^ (-44 : ℤ)) - Real.log 2 / n < m / n * Real.log 2 := by
    have : (L * (n / Real.log 2) * (1 - 2 ^ (-44 : ℤ)) - 1) / n * Real.log 2
        < m / n * Real.log 2 := by gcongr
    have e : (L * (n / Real.log 2) * (1 - 2 ^ (-44 : ℤ)) - 1) / n * Real.log 2
        = L * (1 - 2 ^ (-44 : ℤ)) - Real.log 2 / n := by field_simp
    linarith
  have c2 : m / n * Real.log 2 ≤ L * (1 + 2 ^ (-44 : ℤ)) := by
    have : m / n * Real.log 2 ≤ L * (n / Real.log 2) * (1 + 2 ^ (-44 : ℤ)) / n * Real.log 2 := by
      gcongr
    have e : L * (n / Real.log 2) * (1 + 2 ^ (-44 : ℤ)) / n * Real.log 2
        = L * (1 + 2 ^ (-44 : ℤ)) := by field_simp
    linarith
  have c3 : Real.log 2 / n ≤ 1 := by rw [div_le_one hn]; linarith
  generalize m / n * Real.log 2 = y at *
  have e44 : (2 : ℝ) ^ (-44 : ℤ) = 1 / 2 ^ 44 := by norm_num
  have e43 : (2 : ℝ) ^ (-43 : ℤ) = 1 / 2 ^ 43 := by norm_num
  have e42 : (2 : ℝ) ^ (-42 : ℤ) = 1 / 2 ^ 42 := by norm_num
  rw [e44] at h1 h2 c1 c2
  rw [e43, e42]
  constructor
  · have : (L * (1 - 1 / 2 ^ 44) - 1) * (1 - 1 / 2 ^ 44) < y * (1 - 1 / 2 ^ 44) := by
      have : L * (1 - 1 / 2 ^ 44) - 1 < y := by linarith
      refine mul_lt_mul_of_pos_right this (by norm_num)
    have e : (L * (1 - 1 / 2 ^ 44) - 1) * (1 - 1 / 2 ^ 44)
        = L * (1 - 1 / 2 ^ 43 + 1 / 2 ^ 88) - (1 - 1 / 2 ^ 44) := by ring
    have : 0 ≤ L * (1 / 2 ^ 88) := by positivity
    linarith
  · have h3 : y * (1 + 1 / 2 ^ 44) ≤ L * (1 + 1 / 2 ^ 44) * (1 + 1 / 2 ^ 44) := by gcongr
    have e : L * (1 + 1 / 2 ^ 44) * (1 + 1 / 2 ^ 44) = L * (1 + 1 / 2 ^ 43 + 1 / 2 ^ 88) := by ring
    have h4 : L * (1 + 1 / 2 ^ 43 + 1 / 2 ^ 88) ≤ L * (1 + 1 / 2 ^ 42) := by
      refine mul_le_mul_of_nonneg_left (by norm_num) hL0
    linarith

/-- A v2 filter has as many buckets of 32768 bits as the textbook formula asks for; with the level
Speed, the next power of two.  (Probabilities closer to 1 than 2⁻⁴⁰ are excluded.) -/
theorem C71_v2_buckets {env : Env} (ac : env.libm.Accurate) {cap : U64} {fpp : F64}
    {opt : OptLevel} {f : V2} (h : V2.make env cap fpp opt = .ok f) (hc : cap ≠ 0) {p : ℚ}
    (hp : FVal.ofBits fpp = .fin p) (h1 : p ≤ 1 - 1 / 2 ^ 40) :
    cap.toNat * (1 - 2 ^ (-44 : ℤ))
      ≤ f.buckets.length * (bestCapacity 32768 p * (1 + 2 ^ (-44 : ℤ))) ∧
    (opt ≠ .speed → (f.buckets.length - 1) * (bestCapacity 32768 p * (1 - 2 ^ (-44 : ℤ)) - 1)
      < cap.toNat * (1 + 2 ^ (-44 : ℤ))) ∧
    (opt = .speed → (∃ k, f.buckets.length = 2 ^ k) ∧
      (f.buckets.length / 2 - 1) * (bestCapacity 32768 p * (1 - 2 ^ (-44 : ℤ)) - 1)
        < cap.toNat * (1 + 2 ^ (-44 : ℤ))) := by
  obtain ⟨hin, nb, nh, cbs, hsz, _, _, rfl⟩ := V2.make_ok h
  obtain ⟨_, _, e, _, _, qm, _⟩ := ac.ln_fpp hin
  rw [hp] at e
  cases e
  obtain ⟨z1, _, _⟩ := bestCapacity_bounds qm h1
  obtain ⟨c1, c2⟩ := bucketCap_bounds ac hin hp h1
  obtain ⟨n1, n2⟩ := nBucketOf_bounds ac.spec hin hc
  obtain ⟨p1, p2⟩ := nBucket_pos ac.spec hin hc
  simp only [List.length_replicate]
  generalize (capFromBitSize env.libm V2.bucketBitSize (FVal.ofBits fpp)).toNat = c at *
  generalize bestCapacity 32768 (p : ℝ) = z at *
  have key : (V2.nBucketOf env.libm cap fpp).toNat ≤ nb.toNat ∧
      (opt ≠ .speed → nb = V2.nBucketOf env.libm cap fpp) ∧
      (opt = .speed → (∃ k, nb.toNat = 2 ^ k) ∧
        nb.toNat < 2 * (V2.nBucketOf env.libm cap fpp).toNat) := by
    rcases V2.sizes_ok hsz with ⟨ho, rfl, _⟩ | ⟨rfl, hn, _⟩ | ⟨rfl, rfl, _⟩
    · refine ⟨le_rfl, fun _ => rfl, fun h => ?_⟩
      rcases ho with rfl | rfl <;> cases h
    · rcases nextPow2_ok hn with ⟨_, ⟨k, _, hk⟩, g1, g2⟩ | ⟨g, _⟩
      · refine ⟨g1, fun h => absurd rfl h, fun _ => ⟨⟨k, hk⟩, ?_⟩⟩
        rwa [max_eq_left p1] at g2
      · omega
    · exact ⟨le_rfl, fun _ => rfl, by simp⟩
  obtain ⟨k1, k2, k3⟩ := key
  have hN1 : (1 : ℝ) ≤ (V2.nBucketOf env.libm cap fpp).toNat := by exact_mod_cast p1
  have k1' : ((V2.nBucketOf env.libm cap fpp).toNat : ℝ) ≤ nb.toNat := by exact_mod_cast k1
  have hup : ((V2.nBucketOf env.libm cap fpp).toNat - 1 : ℝ) * (z * (1 - 2 ^ (-44 : ℤ)) - 1)
      < cap.toNat * (1 + 2 ^ (-44 : ℤ)) :=
    lt_of_le_of_lt (mul_le_mul_of_nonneg_left c1.le (by linarith)) n2
  have hz : 0 ≤ z * (1 - 2 ^ (-44 : ℤ)) - 1 := by
    have : (22 : ℝ) * (1 / 2) ≤ z * (1 - 2 ^ (-44 : ℤ)) :=
      mul_le_mul z1 (by norm_num) (by norm_num) (by linarith)
    generalize z * (1 - 2 ^ (-44 : ℤ)) = w at this ⊢
    linarith
  refine ⟨n1.trans (mul_le_mul k1' c2 (Nat.cast_nonneg _) (Nat.cast_nonneg _)), fun ho => ?_,
    fun ho => ?_⟩
  · rw [k2 ho]
    exact hup
  · obtain ⟨g1, g2⟩ := k3 ho
    refine ⟨g1, lt_of_le_of_lt (mul_le_mul_of_nonneg_right ?_ hz) hup⟩
    have : (nb.toNat : ℝ) ≤ 2 * (V2.nBucketOf env.libm cap fpp).toNat := by exact_mod_cast g2.le
    linarith

/-- Without index cache, a v2 filter has the textbook number of hash functions, about
`log₂ (1/p)`, for buckets of 32768 bits, rounded up. -/
theorem C71_v2_hashes {env : Env} (ac : env.libm.Accurate) {cap : U64} {fpp : F64}
    {opt : OptLevel} (ho : opt = .none ∨ opt = .space) {f : V2}
    (h : V2.make env cap fpp opt = .ok f) {p : ℚ}
    (hp : FVal.ofBits fpp = .fin p) (h1 : p ≤ 1 - 1 / 2 ^ 40) :
    -Real.logb 2 p * (1 - 2 ^ (-43 : ℤ)) ≤ f.nHashBuck.toNat ∧
      (f.nHashBuck.toNat - 1) * (bestCapacity 32768 p * (1 - 2 ^ (-44 : ℤ)) - 1)
        < 32768 * Real.log 2 * (1 + 2 ^ (-44 : ℤ)) := by
  obtain ⟨hin, nb, nh, cbs, hsz, _, _, rfl⟩ := V2.make_ok h
  obtain ⟨_, _, e, _, _, qm, _⟩ := ac.ln_fpp hin
  rw [hp] at e
  cases e
  obtain ⟨z1, _, hlp⟩ := bestCapacity_bounds qm h1
  obtain ⟨c1, c2⟩ := bucketCap_bounds ac hin hp h1
  have hb := bucketCap_ge ac.spec hin
  have hnh : nh = FVal.toU64 (FVal.ceil (FVal.ofU64 (kHash env.libm V2.bucketBitSize
        (capFromBitSize env.libm V2.bucketBitSize (FVal.ofBits fpp))))) := by
    rcases V2.sizes_ok hsz with ⟨_, _, _, rfl⟩ | ⟨rfl, _⟩ | ⟨rfl, _⟩
    · rfl
    · rcases ho with h | h <;> cases h
    · rcases ho with h | h <;> cases h
  obtain ⟨n1, n2⟩ := nHash_bounds ac hb
  rw [← hnh] at n1 n2
  simp only
  have hl := log_two_bounds
  have hL : -Real.logb 2 p * bestCapacity 32768 p = 32768 * Real.log 2 := by
    rw [Real.logb]
    unfold bestCapacity
    have h2 : Real.log 2 ≠ 0 := by linarith
    have h3 : Real.log (p : ℝ) ≠ 0 := by linarith
    field_simp
  have hL0 : 0 ≤ -Real.logb 2 (p : ℝ) := by
    rw [Real.logb, ← neg_div]
    exact div_nonneg hlp.le (by linarith)
  generalize hcc : (capFromBitSize env.libm V2.bucketBitSize (FVal.ofBits fpp)).toNat = c at *
  generalize bestCapacity 32768 (p : ℝ) = z at *
  generalize -Real.logb 2 (p : ℝ) = L at *
  have hz : 0 < z := by linarith
  have e44 : (2 : ℝ) ^ (-44 : ℤ) = 1 / 2 ^ 44 := by norm_num
  have e43 : (2 : ℝ) ^ (-43 : ℤ) = 1 / 2 ^ 43 := by norm_num
  rw [e44] at n1 n2 c1 c2 ⊢
  rw [e43]
  have hn0 : (0 : ℝ) ≤ nh.toNat := Nat.cast_nonneg _
  constructor
  · have h3 : L * z * (1 - 1 / 2 ^ 44) ≤ nh.toNat * (z * (1 + 1 / 2 ^ 44)) := by
      rw [hL]
      exact n1.trans (mul_le_mul_of_nonneg_left c2 hn0)
    have h4 : L * (1 - 1 / 2 ^ 44) ≤ nh.toNat * (1 + 1 / 2 ^ 44) := by
      have : L * (1 - 1 / 2 ^ 44) * z ≤ nh.toNat * (1 + 1 / 2 ^ 44) * z := by linarith
      exact le_of_mul_le_mul_right this hz
    have h5 : L * (1 - 1 / 2 ^ 43) * (1 + 1 / 2 ^ 44) ≤ nh.toNat * (1 + 1 / 2 ^ 44) := by
      have : L * (1 - 1 / 2 ^ 43) * (1 + 1 / 2 ^ 44)
          = L * (1 - 1 / 2 ^ 44) - L * (1 / 2 ^ 87) := by ring
      have : 0 ≤ L * (1 / 2 ^ 87) := by positivity
      linarith
    exact le_of_mul_le_mul_right h5 (by norm_num)
  · rcases Nat.eq_zero_or_pos nh.toNat with h0 | h0
    · rw [h0]
      have : (0 : ℝ) ≤ z * (1 - 1 / 2 ^ 44) - 1 := by
        have : (22 : ℝ) * (1 / 2) ≤ z * (1 - 1 / 2 ^ 44) :=
          mul_le_mul z1 (by norm_num) (by norm_num) (by linarith)
        linarith
      have h2 : 0 < 32768 * Real.log 2 * (1 + 1 / 2 ^ 44) := by
        have : 0 < Real.log 2 := by linarith
        positivity
      push_cast
      linarith
    · have : (1 : ℝ) ≤ nh.toNat := by exact_mod_cast h0
      exact lt_of_le_of_lt (mul_le_mul_of_nonneg_left c1.le (by linarith)) n2

-- filters of 100 and 5000 entries exist with the correctly rounded functions
theorem Sample.half_v1 : ∃ f, V1.withCapacity (Sample.envX false) 100 Sample.half = .ok f := by
  have ac := Sample.envX_accurate false
  obtain ⟨v, v0, hv, nv⟩ := bitSizeFor_near ac Sample.half_inRange Sample.half_eq 100
  have hl := log_two_bounds
  have hx : ((100 : U64).toNat : ℝ) * -Real.log ((1 / 2 : ℚ) : ℝ) / Real.log 2 ^ 2 ≤ 200 := by
    have e : Real.log ((1 / 2 : ℚ) : ℝ) = -Real.log 2 := by
      push_cast
      rw [one_div, Real.log_inv]
    rw [e, neg_neg, div_le_iff₀ (by nlinarith)]
    show ((100 : ℕ) : ℝ) * _ ≤ _
    push_cast
    nlinarith
  have hv2 : (v : ℝ) ≤ 400 := nv.2.trans (by
    have := halfUlp_lt
    have := halfUlp_pos
    nlinarith)
  have hv2' : v ≤ 400 := by exact_mod_cast hv2
  have hn : (bitSizeFor (Sample.envX false).libm 100 (FVal.ofBits Sample.half)).toNat ≤ 400 := by
    have hf : ⌊v⌋ ≤ 400 := by
      have : ((⌊v⌋ : ℤ) : ℚ) ≤ 400 := (Int.floor_le v).trans hv2'
      exact_mod_cast this
    rw [hv, toU64_fin (lt_of_le_of_lt ((Int.floor_le v).trans hv2') (by norm_num)),
      Int.floor_intCast]
    omega
  have ha : (u64SizeFor (bitSizeFor (Sample.envX false).libm 100 (FVal.ofBits Sample.half))).toNat * 8
      ≤ (Sample.envX false).allocLimit := by
    rw [u64SizeFor_eq (by omega)]
    show _ ≤ 2 ^ 20
    omega
  unfold V1.withCapacity
  rw [Sample.half_inRange]
  simp only [Bool.not_true, Bool.false_eq_true, if_false]
  rw [Env.alloc_of_le ha]
  exact ⟨_, rfl⟩
theorem Sample.half_v2 : ∃ f, V2.make (Sample.envX false) 5000 Sample.half .none = .ok f := by
  have ac := Sample.envX_accurate false
  have hb := bucketCap_ge ac.spec Sample.half_inRange
  obtain ⟨_, n2⟩ := nBucketOf_bounds ac.spec Sample.half_inRange (cap := 5000) (by decide)
  obtain ⟨p1, _⟩ := nBucket_pos ac.spec Sample.half_inRange (cap := 5000) (by decide)
  have hN : (V2.nBucketOf (Sample.envX false).libm 5000 Sample.half).toNat ≤ 256 := by
    by_contra hc
    have h1 : (257 : ℝ) ≤ (V2.nBucketOf (Sample.envX false).libm 5000 Sample.half).toNat := by
      exact_mod_cast not_le.1 hc
    have h2 : (22 : ℝ) ≤ (capFromBitSize (Sample.envX false).libm V2.bucketBitSize
      (FVal.ofBits Sample.half)).toNat := by exact_mod_cast hb
    have h3 : ((5000 : U64).toNat : ℝ) * (1 + 2 ^ (-44 : ℤ)) ≤ 5001 := by
      show ((5000 : ℕ) : ℝ) * _ ≤ _
      norm_num
    nlinarith
  unfold V2.make
  rw [Sample.half_inRange]
  simp only [Bool.not_true, Bool.false_eq_true, if_false, V2.sizes, Res.bind_ok]
  rw [Env.alloc_of_le (by
    show (byteCapFromBitCap 0).toNat * 1 ≤ 2 ^ 20
    decide +kernel)]
  simp only [Res.bind_ok]
  have ha : (V2.nBucketOf (Sample.envX false).libm 5000 Sample.half).toNat * BUCKET_SIZE
      ≤ (Sample.envX false).allocLimit := by
    have e1 : BUCKET_SIZE = 4096 := rfl
    have e2 : (Sample.envX false).allocLimit = 2 ^ 20 := rfl
    rw [e1, e2]
    exact (Nat.mul_le_mul_right _ hN).trans (by norm_num)
  unfold V2.nBucketOf at ha
  rw [Env.alloc_of_le ha]
  exact ⟨_, rfl⟩
example : FVal.ofBits Sample.half = .fin (1 / 2) ∧ (1 / 2 : ℚ) ≤ 1 - 1 / 2 ^ 40 :=
  ⟨Sample.half_eq, by norm_num⟩

/-! ## C72 estimates -/

/-- After the union of two v2 filters without common full bucket, the count is the textbook estimate
from the bits set, summed over the buckets and rounded down in each; nothing overflows. -/
theorem C72_v2_union_partial {env : Env} (hs : env.Small) (ac : env.libm.Accurate) {s o : V2}
    (hr : V2.Reach env s) (hp : s.hasSameParams o = true) (hk : s.nHashBuck ≠ 0)
    (hf : ∀ b < s.buckets.length, ∃ i < 32768, s.bucketBit b i = false ∧ o.bucketBit b i = false) :
    ∃ g, s.unionMerge env o = (g, .ok ()) ∧
      (∑ b ∈ Finset.range s.buckets.length, entries 32768 s.nHashBuck.toNat
        (countBelow 32768 fun i => s.bucketBit b i || o.bucketBit b i)) * (1 - 2 ^ (-44 : ℤ))
        - s.buckets.length ≤ g.countEstimate.toNat ∧
      (g.countEstimate.toNat : ℝ) ≤ (∑ b ∈ Finset.range s.buckets.length,
        entries 32768 s.nHashBuck.toNat
          (countBelow 32768 fun i => s.bucketBit b i || o.bucketBit b i)) * (1 + 2 ^ (-44 : ℤ)) := by
  have sh := V2.orBits_shape hp
  have hbl := ((V2.hasSameParams_iff s o).1 hp).2.2.2.2.2
  have hbit : ∀ b i, (V2.orBits s o).bucketBit b i = (s.bucketBit b i || o.bucketBit b i) :=
    fun b i => V2.bit_orBits hbl b i
  have hlen : s.buckets.length ≤ 2 ^ 40 := by
    have h1 := hr.fits.mb
    have h2 := hs
    unfold Env.Small at h2
    omega
  obtain ⟨c, hc, c1, c2⟩ := V2.estimate_near ac (f := V2.orBits s o) (by rw [sh.blen]; exact hlen)
    hk (fun b hb => by
      obtain ⟨i, hi, h1, h2⟩ := hf b (by rwa [sh.blen] at hb)
      exact ⟨i, hi, by rw [hbit, h1, h2]; rfl⟩)
  refine ⟨{ V2.orBits s o with count := c }, ?_, ?_⟩
  · rw [V2.unionMerge_eq, if_pos hp, V2.updateCount_eq, hc]
  · rw [sh.blen] at c1 c2
    simp only [show (V2.orBits s o).nHashBuck = s.nHashBuck from rfl] at c1 c2
    have he : ∀ b, (V2.orBits s o).bucketBit b = fun i => s.bucketBit b i || o.bucketBit b i :=
      fun b => funext fun i => hbit b i
    simp only [he] at c1 c2
    exact ⟨c1, c2⟩

/-- Same for the intersection and for the number of common entries. -/
theorem C72_v2_common_partial {env : Env} (hs : env.Small) (ac : env.libm.Accurate) {s o : V2}
    (hr : V2.Reach env s) (hp : s.hasSameParams o = true) (hk : s.nHashBuck ≠ 0)
    (hf : ∀ b < s.buckets.length, ∃ i < 32768, (s.bucketBit b i && o.bucketBit b i) = false) :
    ∃ g c, s.intersectionMerge env o = (g, .ok ()) ∧ g.countEstimate = c ∧
      s.countCommonEntries env o = .ok c ∧
      (∑ b ∈ Finset.range s.buckets.length, entries 32768 s.nHashBuck.toNat
        (countBelow 32768 fun i => s.bucketBit b i && o.bucketBit b i)) * (1 - 2 ^ (-44 : ℤ))
        - s.buckets.length ≤ c.toNat ∧
      (c.toNat : ℝ) ≤ (∑ b ∈ Finset.range s.buckets.length,
        entries 32768 s.nHashBuck.toNat
          (countBelow 32768 fun i => s.bucketBit b i && o.bucketBit b i)) * (1 + 2 ^ (-44 : ℤ)) := by
  have sh := V2.andBits_shape hp
  have hbl := ((V2.hasSameParams_iff s o).1 hp).2.2.2.2.2
  have hbit : ∀ b i, (V2.andBits s o).bucketBit b i = (s.bucketBit b i && o.bucketBit b i) :=
    fun b i => V2.bit_andBits hbl b i
  have hlen : s.buckets.length ≤ 2 ^ 40 := by
    have h1 := hr.fits.mb
    have h2 := hs
    unfold Env.Small at h2
    omega
  obtain ⟨c, hc, c1, c2⟩ := V2.estimate_near ac (f := V2.andBits s o) (by rw [sh.blen]; exact hlen)
    hk (fun b hb => by
      obtain ⟨i, hi, h1⟩ := hf b (by rwa [sh.blen] at hb)
      exact ⟨i, hi, by rw [hbit, h1]⟩)
  refine ⟨{ V2.andBits s o with count := c }, c, ?_, rfl, ?_, ?_⟩
  · rw [V2.intersectionMerge_eq, if_pos hp, V2.updateCount_eq, hc]
  · rw [V2.andBits_estimate_eq env hp, hc]
  · rw [sh.blen] at c1 c2
    simp only [show (V2.andBits s o).nHashBuck = s.nHashBuck from rfl] at c1 c2
    have he : ∀ b, (V2.andBits s o).bucketBit b = fun i => s.bucketBit b i && o.bucketBit b i :=
      fun b => funext fun i => hbit b i
    simp only [he] at c1 c2
    exact ⟨c1, c2⟩

/-- The estimate after a v1 union, up to the error of the subtraction `1 - ones / bits`. -/
theorem C72_v1_union {env : Env} (ac : env.libm.Accurate) {s o g : V1}
    (h : s.unionMerge env o = (g, .ok ())) (hk : g.nHash ≠ 0) (hm : g.bitSize.toNat ≤ 2 ^ 50)
    (hx : countBelow (g.bitset.length * 64) (bitAt g.bitset) < g.bitSize.toNat) :
    |(g.countEstimate.toNat : ℝ) - entries g.bitSize.toNat g.nHash.toNat
        (countBelow (g.bitset.length * 64) (bitAt g.bitset))|
      ≤ 1 + entries g.bitSize.toNat g.nHash.toNat
          (countBelow (g.bitset.length * 64) (bitAt g.bitset)) * 2 ^ (-44 : ℤ)
        + (g.bitSize.toNat : ℝ) ^ 2 / (g.nHash.toNat *
          (g.bitSize.toNat - countBelow (g.bitset.length * 64) (bitAt g.bitset))) * 2 ^ (-50 : ℤ) := by
  obtain ⟨_, hg⟩ := V1.unionMerge_ok' h
  have hc : g.countEstimate = estimateCount env.libm g.bitSize
      (BitVec.ofNat 64 (countBelow (g.bitset.length * 64) (bitAt g.bitset))) g.nHash := by
    rw [hg]
    show V1.estimate env (V1.orBits s o) = _
    unfold V1.estimate V1.countOnes
    rw [sum_countOnes]
  rw [hc]
  generalize countBelow (g.bitset.length * 64) (bitAt g.bitset) = x at *
  have hxn : (BitVec.ofNat 64 x).toNat = x := by
    rw [BitVec.toNat_ofNat, Nat.mod_eq_of_lt (by omega)]
  obtain ⟨h1, h2⟩ := estimateCount_bounds ac hk hm (ones := BitVec.ofNat 64 x) (by rw [hxn]; exact hx)
  rw [hxn] at h1 h2
  rw [abs_le]
  constructor <;> linarith

/-- Full buckets: the estimate of each is 2⁶⁴-1, whatever was inserted.  In release builds the sum
wraps around; in debug builds two full buckets make every merge panic. -/
theorem C72_full {env : Env} (h0 : env.libm.ln (.fin 0) = .ninf) {s o : V2}
    (hp : s.hasSameParams o = true) (hk : s.nHashBuck ≠ 0)
    (hf : ∀ b < s.buckets.length, ∀ i < 32768, s.bucketBit b i = true ∨ o.bucketBit b i = true) :
    (env.debug = false → ∃ g, s.unionMerge env o = (g, .ok ()) ∧
      g.countEstimate.toNat = s.buckets.length * (2 ^ 64 - 1) % 2 ^ 64) ∧
    (env.debug = true → 2 ≤ s.buckets.length → (s.unionMerge env o).2 = .panic) := by
  have sh := V2.orBits_shape hp
  have hbl := ((V2.hasSameParams_iff s o).1 hp).2.2.2.2.2
  have hbit : ∀ b i, (V2.orBits s o).bucketBit b i = (s.bucketBit b i || o.bucketBit b i) :=
    fun b i => V2.bit_orBits hbl b i
  have hmap : ((V2.orBits s o).buckets.map fun b =>
      V2.bucketEstimate env (V2.orBits s o).nHashBuck b.countOnes)
      = List.replicate s.buckets.length (BitVec.allOnes 64) := by
    rw [List.eq_replicate_iff]
    refine ⟨by rw [List.length_map, sh.blen], fun x hx => ?_⟩
    obtain ⟨i, hi, rfl⟩ := List.getElem_of_mem hx
    rw [List.length_map] at hi
    have e : ((V2.orBits s o).buckets[i]).countOnes = 32768 := by
      rw [BitSet.countOnes_eq]
      show countBelow 32768 _ = _
      rw [countBelow_congr (q := fun _ => true) (fun j hj => ?_), countBelow_true]
      have := hbit i j
      unfold V2.bucketBit at this
      rw [List.getD_eq_getElem?_getD, List.getElem?_eq_getElem hi] at this
      rw [show (some (V2.orBits s o).buckets[i]).getD (BitSet.new BUCKET_SIZE)
        = (V2.orBits s o).buckets[i] from rfl] at this
      rw [this, Bool.or_eq_true]
      exact hf i (by rwa [sh.blen] at hi) j hj
    rw [List.getElem_map, e]
    exact estimateCount_full h0 (by decide) hk
  have hsum : ((List.replicate s.buckets.length (BitVec.allOnes 64)).map BitVec.toNat).sum
      = s.buckets.length * (2 ^ 64 - 1) := by
    rw [List.map_replicate, List.sum_replicate]
    rfl
  constructor
  · intro hd
    refine ⟨{ V2.orBits s o with count := BitVec.ofNat 64 (s.buckets.length * (2 ^ 64 - 1)) }, ?_, ?_⟩
    · rw [V2.unionMerge_eq, if_pos hp, V2.updateCount_eq, V2.estimate, hmap, V2.sumU64_eq,
        if_neg (by simp [hd]), hsum]
    · exact BitVec.toNat_ofNat _ _
  · intro hd h2
    rw [V2.unionMerge_eq, if_pos hp, V2.updateCount_eq, V2.estimate, hmap, V2.sumU64_eq,
      if_pos ⟨hd, by rw [hsum]; omega⟩]

/-- The claim of C72 fails for such filters, which can be read from a file: the union of a filter
with itself panics in debug builds and reports 2⁶⁴-2 entries in release builds. -/
theorem C72_violated : ∃ (env₁ env₂ : Env) (s g : V2), env₁.Small ∧ env₂.Small ∧
    env₁.libm.Accurate ∧ env₂.libm.Accurate ∧ V2.Reach env₁ s ∧ V2.Reach env₂ s ∧
    s.hasSameParams s = true ∧ (s.unionMerge env₁ s).2 = .panic ∧
    s.unionMerge env₂ s = (g, .ok ()) ∧ g.countEstimate.toNat = 2 ^ 64 - 2 := by
  have h0 : ∀ d, (Sample.envX d).libm.ln (.fin 0) = .ninf := by
    intro d
    show Libm.exact.ln (.fin 0) = _
    simp [Libm.exact]
  have hf : ∀ b < (Sample.filled 255).buckets.length, ∀ i < 32768,
      (Sample.filled 255).bucketBit b i = true ∨ (Sample.filled 255).bucketBit b i = true := by
    intro b hb i hi
    left
    rw [Sample.filled_bit _ hb hi]
    have : i % 8 < 8 := Nat.mod_lt _ (by norm_num)
    generalize i % 8 = j at this
    interval_cases j <;> rfl
  have hp := Sample.filled_params 255 255
  obtain ⟨g, h1, h2⟩ := (C72_full (h0 false) hp (by decide) hf).1 rfl
  exact ⟨Sample.envX true, Sample.envX false, Sample.filled 255, g, Sample.envX_small _,
    Sample.envX_small _, Sample.envX_accurate _, Sample.envX_accurate _, Sample.filled_reach _ _,
    Sample.filled_reach _ _, hp, (C72_full (h0 true) hp (by decide) hf).2 rfl le_rfl, h1, h2⟩

-- two filters with different bits set and no full bucket
example : ∀ b < (Sample.filled 1).buckets.length, ∃ i < 32768,
    (Sample.filled 1).bucketBit b i = false ∧ (Sample.filled 2).bucketBit b i = false := by
  intro b hb
  refine ⟨2, by norm_num, ?_⟩
  rw [Sample.filled_bit _ hb (by norm_num), Sample.filled_bit _ hb (by norm_num)]
  decide
example : V2.Reach (Sample.envX true) (Sample.filled 1) ∧
    (Sample.filled 1).hasSameParams (Sample.filled 2) = true ∧ (Sample.filled 1).nHashBuck ≠ 0 :=
  ⟨Sample.filled_reach _ _, Sample.filled_params _ _, by decide⟩
-- a v1 union
example : ∃ g, V1.unionMerge (Sample.envX true)
    ⟨Flags.new 1, [3], 1, Sample.half, 7, 9, 0, [], Fingerprint.new 7 9⟩
    ⟨Flags.new 1, [4], 1, Sample.half, 7, 9, 0, [], Fingerprint.new 7 9⟩ = (g, .ok ()) ∧
    g.nHash ≠ 0 ∧ g.bitSize.toNat ≤ 2 ^ 50 ∧
    countBelow (g.bitset.length * 64) (bitAt g.bitset) < g.bitSize.toNat := by
  rw [V1.unionMerge_eq, if_pos (by decide +kernel)]
  exact ⟨_, rfl, by show (7 : U64) ≠ 0; decide, by show (9 : ℕ) ≤ _; norm_num,
    by show countBelow (1 * 64) (bitAt [3 ||| 4#64]) < 9; decide +kernel⟩

end Poppy
