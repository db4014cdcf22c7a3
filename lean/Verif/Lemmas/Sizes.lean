import Verif.Lemmas.Libm
import Verif.Lemmas.V1Ops

/-! Sizes computed by the constructors. -/

namespace Poppy

theorem ofU64_bounds {x : U64} (h : x ≠ 0) :
    ∃ q, FVal.ofU64 x = .fin q ∧ IsF q ∧ 1 ≤ q ∧ q ≤ 2 ^ 64 := by
  have hx : 1 ≤ x.toNat := by
    rcases Nat.eq_zero_or_pos x.toNat with h0 | h0
    · exact absurd (BitVec.eq_of_toNat_eq h0) h
    · exact h0
  refine ⟨_, rnd_fin_u64 x, isF_rndQ _, ?_, ?_⟩
  · apply le_rndQ _ isF_one
    have : ((1 : ℕ) : ℚ) ≤ x.toNat := by exact_mod_cast hx
    simpa using this
  · apply rndQ_le _ (isF_two_zpow (e := 64) (by norm_num))
    have : ((x.toNat : ℕ) : ℚ) ≤ ((2 ^ 64 : ℕ) : ℚ) := by exact_mod_cast x.isLt.le
    push_cast at this
    simp only [Rat.cast_id]
    exact_mod_cast this

theorem isF_tiny : IsF ((2 : ℚ) ^ (-64 : ℤ)) := isF_two_zpow (by norm_num)

theorem tiny_pos : (0 : ℚ) < 2 ^ (-64 : ℤ) := two_zpow_pos _

theorem isF_big : IsF ((2 : ℚ) ^ 128) := by
  have := isF_two_zpow (e := 128) (by norm_num); exact_mod_cast this

/-- Rounding of a positive number of moderate size. -/
theorem rnd_pos {x : ℚ} (h1 : 2 ^ (-64 : ℤ) ≤ x) (h2 : x ≤ 2 ^ 128) :
    rnd x = .fin (rndQ x) ∧ 2 ^ (-64 : ℤ) ≤ rndQ x := by
  refine ⟨(rnd_fin isF_big (two_pow_lt_f64Huge (by norm_num)) ?_).1, le_rndQ x isF_tiny h1⟩
  rw [abs_of_pos (lt_of_lt_of_le tiny_pos h1)]
  exact h2

theorem toU64_fin {q : ℚ} (h : q < 2 ^ 64) : (FVal.toU64 (.fin q)).toNat = ⌊q⌋.toNat := by
  have hlt : ⌊q⌋ < 2 ^ 64 := by
    apply Int.floor_lt.2; push_cast; exact h
  unfold FVal.toU64
  simp only
  split
  · rename_i h0
    rw [Int.toNat_of_nonpos h0]; rfl
  · rw [if_neg (by omega), BitVec.toNat_ofNat, Nat.mod_eq_of_lt (by omega)]

theorem toU64_fin_big {q : ℚ} (h : 2 ^ 64 ≤ q) : FVal.toU64 (.fin q) = BitVec.allOnes 64 := by
  have hle : (2 ^ 64 : ℤ) ≤ ⌊q⌋ := by
    apply Int.le_floor.2; push_cast; exact h
  unfold FVal.toU64
  simp only
  rw [if_neg (by omega), if_pos hle]

theorem toU64_fin_ge {q : ℚ} {n : ℕ} (hn : n < 2 ^ 64) (h : (n : ℚ) ≤ q) :
    n ≤ (FVal.toU64 (.fin q)).toNat := by
  rcases lt_or_ge q (2 ^ 64) with h1 | h1
  · rw [toU64_fin h1]
    have : (n : ℤ) ≤ ⌊q⌋ := Int.le_floor.2 (by exact_mod_cast h)
    omega
  · rw [toU64_fin_big h1]
    show n ≤ 2 ^ 64 - 1
    omega

theorem toU64_ceil_pos {q : ℚ} (h : 0 < q) : 1 ≤ (FVal.toU64 (FVal.ceil (.fin q))).toNat := by
  have : (1 : ℤ) ≤ ⌈q⌉ := Int.ceil_pos.2 h
  apply toU64_fin_ge (by norm_num)
  exact_mod_cast this

theorem toU64_ceil_fin {q : ℚ} (h : q ≤ 2 ^ 63) :
    (FVal.toU64 (FVal.ceil (.fin q))).toNat = ⌈q⌉.toNat := by
  have h1 : ⌈q⌉ ≤ 2 ^ 63 := Int.ceil_le.2 (by push_cast; exact h)
  have : FVal.ceil (.fin q) = .fin ((⌈q⌉ : ℤ) : ℚ) := rfl
  rw [this, toU64_fin, Int.floor_intCast]
  have : ((⌈q⌉ : ℤ) : ℚ) ≤ 2 ^ 63 := by exact_mod_cast h1
  linarith [show (2 : ℚ) ^ 63 < 2 ^ 64 by norm_num]

/-- Quotient of two 64-bit integers converted to `f64`. -/
theorem div_ofU64 {a b : U64} (ha : a ≠ 0) (hb : b ≠ 0) :
    ∃ qa qb, FVal.ofU64 a = .fin qa ∧ FVal.ofU64 b = .fin qb ∧ 1 ≤ qa ∧ 1 ≤ qb ∧ qa ≤ 2 ^ 64 ∧
      qb ≤ 2 ^ 64 ∧ FVal.div (FVal.ofU64 a) (FVal.ofU64 b) = .fin (rndQ (qa / qb)) ∧
      0 < rndQ (qa / qb) := by
  obtain ⟨qa, h1, _, h2, h3⟩ := ofU64_bounds ha
  obtain ⟨qb, h4, _, h5, h6⟩ := ofU64_bounds hb
  have hb0 : (0 : ℚ) < qb := by linarith
  have l1 : (2 : ℚ) ^ (-64 : ℤ) ≤ qa / qb := by
    rw [le_div_iff₀ hb0]
    calc (2 : ℚ) ^ (-64 : ℤ) * qb ≤ 2 ^ (-64 : ℤ) * 2 ^ 64 :=
          mul_le_mul_of_nonneg_left h6 tiny_pos.le
      _ = 1 := by norm_num
      _ ≤ qa := h2
  have l2 : qa / qb ≤ 2 ^ 128 := by
    rw [div_le_iff₀ hb0]
    nlinarith
  obtain ⟨r1, r2⟩ := rnd_pos l1 l2
  refine ⟨qa, qb, h1, h4, h2, h5, h3, h6, ?_, lt_of_lt_of_le tiny_pos r2⟩
  rw [h1, h4]
  show (if qb = 0 then _ else rnd (qa / qb)) = _
  rw [if_neg (by linarith), r1]

/-! ### v2 -/

theorem bucketBitSize_toNat : V2.bucketBitSize.toNat = 32768 := by decide

theorem ofU64_bucketBitSize : FVal.ofU64 V2.bucketBitSize = .fin 32768 := by
  rw [ofU64_exact (by rw [bucketBitSize_toNat]; norm_num), bucketBitSize_toNat]; norm_num

/-- The capacity of a bucket is at least 22. -/
theorem bucketCap_ge {lm : Libm} (sp : lm.Spec) {fpp : F64} (h : fppInRange fpp = true) :
    22 ≤ (capFromBitSize lm V2.bucketBitSize (FVal.ofBits fpp)).toNat := by
  obtain ⟨q, hq, hq1, hq2, hqF⟩ := ofBits_of_inRange h
  obtain ⟨s, hs, hs1, hs2⟩ := sp.ln_two_sq
  unfold capFromBitSize
  rw [ofU64_bucketBitSize, show (FVal.two) = .fin 2 from rfl, hs, hq]
  have hm : FVal.mul (.fin 32768) (.fin s) = .fin (rndQ (32768 * s)) ∧ 15728 ≤ rndQ (32768 * s) := by
    have h1 : (15728 : ℚ) ≤ 32768 * s := by linarith
    have h2 : 32768 * s ≤ 2 ^ 128 := by linarith [show (2 : ℚ) ^ 15 ≤ 2 ^ 128 by norm_num]
    refine ⟨(rnd_pos (le_trans ?_ h1) h2).1, ?_⟩
    · norm_num
    · exact le_rndQ _ (by simpa using isF_nat (m := 15728) (by norm_num)) (by simpa using h1)
  obtain ⟨hm1, hm2⟩ := hm
  rw [hm1]
  rcases eq_or_lt_of_le hq2 with rfl | hlt
  · rw [sp.ln_one]
    have h0 : ∀ a : ℚ, FVal.div (.fin a) (.fin 0) = FVal.infTimes a := fun a => by simp [FVal.div]
    rw [h0]
    unfold FVal.infTimes
    rw [if_pos (by linarith)]
    show 22 ≤ (BitVec.allOnes 64).toNat
    decide
  · obtain ⟨r, hr, hr1, hr2⟩ := sp.ln_below_one q hqF hq1 hlt
    rw [hr]
    have hd : FVal.div (.fin (rndQ (32768 * s))) (.fin r) = rnd (rndQ (32768 * s) / r) := by
      show (if r = 0 then _ else rnd _) = _
      rw [if_neg (by linarith)]
    rw [hd]
    have hle : rndQ (32768 * s) / r ≤ -22 := by
      rw [div_le_iff_of_neg hr2]
      nlinarith
    have hv : rndQ (rndQ (32768 * s) / r) ≤ -22 := by
      have := rndQ_le (K := ℚ) _ (isF_int (m := -22) (by norm_num)) (by simpa using hle)
      simpa using this
    unfold rnd
    simp only
    split
    · rename_i h1
      exfalso
      have := f64Huge_pos
      linarith
    split
    · show 22 ≤ (BitVec.allOnes 64).toNat
      decide
    · show 22 ≤ (FVal.toU64 (.fin |_|)).toNat
      apply toU64_fin_ge (by norm_num)
      rw [abs_of_neg (by linarith)]
      push_cast
      linarith

theorem ne_zero_of_toNat_pos {x : U64} (h : 0 < x.toNat) : x ≠ 0 := by
  rintro rfl; simp at h

/-- Number of buckets before optimization. -/
def V2.nBucketOf (lm : Libm) (cap : U64) (fpp : F64) : U64 :=
  FVal.toU64 (FVal.ceil (FVal.div (FVal.ofU64 cap)
    (FVal.ofU64 (capFromBitSize lm V2.bucketBitSize (FVal.ofBits fpp)))))

theorem nBucket_pos {lm : Libm} (sp : lm.Spec) {fpp : F64} (h : fppInRange fpp = true) {cap : U64}
    (hc : cap ≠ 0) : 1 ≤ (V2.nBucketOf lm cap fpp).toNat ∧
      (V2.nBucketOf lm cap fpp).toNat ≤ 2 ^ 60 := by
  have hb := bucketCap_ge sp h
  obtain ⟨qa, qb, h1, h2, h3, h4, h5, h6, h7, h8⟩ := div_ofU64 hc
    (ne_zero_of_toNat_pos (x := capFromBitSize lm V2.bucketBitSize (FVal.ofBits fpp)) (by omega))
  unfold V2.nBucketOf
  rw [h7]
  refine ⟨toU64_ceil_pos h8, ?_⟩
  have hqb : 16 ≤ qb := by
    have := rnd_fin_u64 (capFromBitSize lm V2.bucketBitSize (FVal.ofBits fpp))
    rw [this] at h2
    simp only [FVal.fin.injEq] at h2
    rw [← h2]
    apply le_rndQ _ (by simpa using isF_nat (m := 16) (by norm_num))
    have : ((16 : ℕ) : ℚ) ≤ ((capFromBitSize lm V2.bucketBitSize (FVal.ofBits fpp)).toNat : ℚ) := by
      exact_mod_cast (by omega)
    simpa using this
  have hle : rndQ (qa / qb) ≤ 2 ^ 60 := by
    have hF : IsF ((2 : ℚ) ^ 60) := by
      have := isF_two_zpow (e := 60) (by norm_num); exact_mod_cast this
    apply rndQ_le _ hF
    simp only [Rat.cast_id]
    rw [div_le_iff₀ (by linarith)]
    nlinarith
  rw [toU64_ceil_fin (hle.trans (by norm_num))]
  have : ⌈rndQ (qa / qb)⌉ ≤ 2 ^ 60 := Int.ceil_le.2 (by push_cast; exact hle)
  omega

/-- For capacities up to `2^53`, there are enough buckets for the capacity. -/
theorem nBucket_cover {lm : Libm} (sp : lm.Spec) {fpp : F64} (h : fppInRange fpp = true) {cap : U64}
    (hc : cap.toNat ≤ 2 ^ 53) :
    cap.toNat ≤ (capFromBitSize lm V2.bucketBitSize (FVal.ofBits fpp)).toNat *
      (V2.nBucketOf lm cap fpp).toNat := by
  by_cases hc0 : cap = 0
  · subst hc0; simp
  have hb := bucketCap_ge sp h
  obtain ⟨hn1, _⟩ := nBucket_pos sp h hc0
  generalize hbc : capFromBitSize lm V2.bucketBitSize (FVal.ofBits fpp) = bc at *
  rcases Nat.lt_or_ge bc.toNat cap.toNat with hlt | hge
  swap
  · calc cap.toNat ≤ bc.toNat * 1 := by omega
      _ ≤ _ := Nat.mul_le_mul_left _ hn1
  obtain ⟨qa, qb, h1, h2, h3, h4, h5, h6, h7, h8⟩ := div_ofU64 hc0
    (ne_zero_of_toNat_pos (x := bc) (by omega))
  rw [ofU64_exact hc] at h1
  rw [ofU64_exact (by omega)] at h2
  simp only [FVal.fin.injEq] at h1 h2
  subst h1 h2
  have hn : (V2.nBucketOf lm cap fpp).toNat = ⌈rndQ ((cap.toNat : ℚ) / bc.toNat)⌉.toNat := by
    unfold V2.nBucketOf
    rw [hbc, h7, toU64_ceil_fin]
    have hF : IsF ((2 : ℚ) ^ 53) := by
      have := isF_two_zpow (e := 53) (by norm_num); exact_mod_cast this
    refine le_trans (rndQ_le _ hF ?_) (by norm_num : (2 : ℚ) ^ 53 ≤ 2 ^ 63)
    simp only [Rat.cast_id]
    rw [div_le_iff₀ (by linarith)]
    have : ((cap.toNat : ℕ) : ℚ) ≤ 2 ^ 53 := by exact_mod_cast hc
    nlinarith
  rw [hn]
  set x : ℚ := (cap.toNat : ℚ) / bc.toNat with hx
  have hbpos : (0 : ℚ) < bc.toNat := by linarith
  have hcq : ((cap.toNat : ℕ) : ℚ) ≤ 2 ^ 53 := by exact_mod_cast hc
  have hx1 : 1 ≤ x := by
    rw [hx, le_div_iff₀ hbpos, one_mul]; exact_mod_cast hlt.le
  by_contra hcon
  push Not at hcon
  set n : ℤ := ⌈rndQ x⌉ with hnd
  have hn0 : 0 < n := Int.ceil_pos.2 h8
  -- `x` exceeds the integer `n ≥ rndQ x` by at least `1 / bc`
  have hgap : (n : ℚ) + 1 / bc.toNat ≤ x := by
    rw [hx, ← sub_nonneg]
    have : (bc.toNat * n.toNat + 1 : ℕ) ≤ cap.toNat := hcon
    have h9 : ((bc.toNat * n.toNat + 1 : ℕ) : ℚ) ≤ cap.toNat := by exact_mod_cast this
    have h10 : ((n.toNat : ℕ) : ℚ) = n := by exact_mod_cast Int.toNat_of_nonneg hn0.le
    push_cast at h9
    rw [h10] at h9
    have : (cap.toNat : ℚ) / bc.toNat - (n + 1 / bc.toNat)
        = (cap.toNat - (bc.toNat * n + 1)) / bc.toNat := by field_simp
    rw [this]
    apply div_nonneg _ hbpos.le
    linarith
  have hnr : rndQ x ≤ n := Int.le_ceil _
  -- distance to the rounded value is at most half a unit in the last place
  have hhalf : |x - rndQ x| ≤ 2 ^ ulpExp x / 2 := by
    have hu : (0 : ℚ) < 2 ^ ulpExp x := two_zpow_pos _
    have h11 := nearest_multiple x ⌊x / 2 ^ ulpExp x⌋
    have h12 := nearest_multiple x (⌊x / 2 ^ ulpExp x⌋ + 1)
    simp only [Rat.cast_id] at h11 h12
    set u : ℚ := 2 ^ ulpExp x
    have f1 : (⌊x / u⌋ : ℚ) * u ≤ x := by
      have := Int.floor_le (x / u)
      rwa [le_div_iff₀ hu] at this
    have f2 : x < (⌊x / u⌋ + 1 : ℚ) * u := by
      have := Int.lt_floor_add_one (x / u)
      rwa [div_lt_iff₀ hu] at this
    push_cast at h12
    rw [abs_of_nonneg (a := x - ⌊x / u⌋ * u) (by linarith)] at h11
    rw [abs_of_nonpos (a := x - (⌊x / u⌋ + 1) * u) (by linarith)] at h12
    nlinarith
  have hulp : (2 : ℚ) ^ ulpExp x ≤ x / 2 ^ 52 := by
    have hx0 : x ≠ 0 := by linarith
    have hlog : (2 : ℚ) ^ Int.log 2 |x| ≤ |x| := Int.zpow_log_le_self (by norm_num) (abs_pos.2 hx0)
    rw [abs_of_pos (by linarith)] at hlog
    have hl0 : 0 ≤ Int.log 2 |x| := by
      rw [abs_of_pos (by linarith), ← Int.zpow_le_iff_le_log (by norm_num) (by linarith)]
      simpa using hx1
    have he : ulpExp x = Int.log 2 |x| - 52 := by
      unfold ulpExp; rw [max_eq_left (by omega)]
    rw [he, zpow_sub₀ (by norm_num), le_div_iff₀ (by norm_num)]
    rw [abs_of_pos (by linarith)]
    have : (2 : ℚ) ^ (52 : ℤ) = 2 ^ 52 := by norm_num
    rw [this, div_mul_cancel₀ _ (by norm_num)]
    exact hlog
  have hdist : 1 / (bc.toNat : ℚ) ≤ |x - rndQ x| := by
    rw [abs_of_nonneg] <;> linarith [div_pos one_pos hbpos]
  have hxb : x * bc.toNat = cap.toNat := by rw [hx, div_mul_cancel₀ _ hbpos.ne']
  -- so equality must hold everywhere; exclude it
  have h13 : 1 / (bc.toNat : ℚ) ≤ x / 2 ^ 53 := by
    have : (2 : ℚ) ^ 53 = 2 ^ 52 * 2 := by norm_num
    rw [this, ← div_div]
    linarith
  have h14 : (2 : ℚ) ^ 53 ≤ cap.toNat := by
    rw [div_le_div_iff₀ hbpos (by norm_num), hxb] at h13
    linarith
  have h15 : (cap.toNat : ℚ) = 2 ^ 53 := le_antisymm hcq h14
  -- capacity exactly 2^53: the half unit is reached only if `x` is a power of two, which is exact
  have h16 : (1 : ℚ) / bc.toNat = x / 2 ^ 53 := by
    rw [hx, h15]; field_simp
  have h17 : x / 2 ^ 53 ≤ 2 ^ ulpExp x / 2 := by rw [← h16]; linarith
  have h18 : x = 2 ^ (ulpExp x + 52) := by
    rw [zpow_add₀ (by norm_num)]
    have e1 : (2 : ℚ) ^ (52 : ℤ) = 2 ^ 52 := by norm_num
    rw [e1]
    have e2 : ∀ y : ℚ, y / 2 ^ 53 = y / 2 ^ 52 / 2 := fun y => by ring
    have e3 : x / 2 ^ 52 = 2 ^ ulpExp x := by
      apply le_antisymm _ hulp
      rw [e2] at h17; linarith
    rw [← e3, div_mul_cancel₀ _ (by norm_num)]
  have h19 : rndQ x = x := by
    have : IsF x := by
      rw [h18]
      exact isF_two_zpow (by have := ulpExp_ge x; omega)
    have := rndQ_of_isF (K := ℚ) this
    simpa using this
  rw [h19, sub_self, abs_zero] at hdist
  have := div_pos one_pos hbpos
  linarith

/-- Number of hash functions without optimization. -/
theorem nHash_pos {lm : Libm} (sp : lm.Spec) {bc : U64} (hb : 22 ≤ bc.toNat) :
    1 ≤ (FVal.toU64 (FVal.ceil (FVal.ofU64 (kHash lm V2.bucketBitSize bc)))).toNat ∧
    (FVal.toU64 (FVal.ceil (FVal.ofU64 (kHash lm V2.bucketBitSize bc)))).toNat ≤ 2048 := by
  obtain ⟨r, hr, hr1, hr2⟩ := sp.ln_two
  obtain ⟨q, hq, hqF, hq1, hq2⟩ := ofU64_bounds (ne_zero_of_toNat_pos (x := bc) (by omega))
  have hq16 : 16 ≤ q := by
    rw [rnd_fin_u64] at hq
    simp only [FVal.fin.injEq] at hq
    rw [← hq]
    apply le_rndQ _ (by simpa using isF_nat (m := 16) (by norm_num))
    have : ((16 : ℕ) : ℚ) ≤ (bc.toNat : ℚ) := by exact_mod_cast (by omega)
    simpa using this
  have hk : 1 ≤ (kHash lm V2.bucketBitSize bc).toNat ∧ (kHash lm V2.bucketBitSize bc).toNat ≤ 2048 := by
    unfold kHash
    rw [ofU64_bucketBitSize, show (FVal.two) = .fin 2 from rfl, hr, hq]
    have hF : ∀ n : ℕ, n ≤ 2 ^ 53 → IsF (n : ℚ) := fun n h => isF_nat h
    have m1 : (1 : ℚ) ≤ r * 32768 := by linarith
    have m2 : r * 32768 ≤ 32768 := by linarith
    obtain ⟨e1, _⟩ := rnd_pos (x := r * 32768) (le_trans (by norm_num) m1) (le_trans m2 (by norm_num))
    have e2 : (1 : ℚ) ≤ rndQ (r * 32768) := le_rndQ _ isF_one (by simpa using m1)
    have e3 : rndQ (r * 32768) ≤ 32768 := by
      have := rndQ_le (r * 32768) (hF 32768 (by norm_num)) (by simpa using m2)
      simpa using this
    have e4 : FVal.mul (.fin r) (.fin 32768) = .fin (rndQ (r * 32768)) := e1
    rw [e4]
    have d1 : (2 : ℚ) ^ (-64 : ℤ) ≤ rndQ (r * 32768) / q := by
      rw [le_div_iff₀ (by linarith)]
      calc (2 : ℚ) ^ (-64 : ℤ) * q ≤ 2 ^ (-64 : ℤ) * 2 ^ 64 :=
            mul_le_mul_of_nonneg_left hq2 tiny_pos.le
        _ = 1 := by norm_num
        _ ≤ _ := e2
    have d2 : rndQ (r * 32768) / q ≤ 2048 := by
      rw [div_le_iff₀ (by linarith)]; nlinarith
    obtain ⟨g1, g2⟩ := rnd_pos d1 (le_trans d2 (by norm_num))
    have g3 : FVal.div (.fin (rndQ (r * 32768))) (.fin q) = .fin (rndQ (rndQ (r * 32768) / q)) := by
      show (if q = 0 then _ else rnd _) = _
      rw [if_neg (by linarith), g1]
    rw [g3]
    refine ⟨toU64_ceil_pos (lt_of_lt_of_le tiny_pos g2), ?_⟩
    have g4 : rndQ (rndQ (r * 32768) / q) ≤ 2048 := by
      have := rndQ_le (rndQ (r * 32768) / q) (hF 2048 (by norm_num)) (by simpa using d2)
      simpa using this
    rw [toU64_ceil_fin (g4.trans (by norm_num))]
    have : ⌈rndQ (rndQ (r * 32768) / q)⌉ ≤ 2048 := Int.ceil_le.2 (by push_cast; exact g4)
    omega
  rw [ofU64_exact (by omega)]
  have : FVal.ceil (.fin ((kHash lm V2.bucketBitSize bc).toNat : ℚ))
      = .fin ((kHash lm V2.bucketBitSize bc).toNat : ℚ) := by
    show FVal.fin _ = _
    rw [Int.ceil_natCast]; norm_num
  rw [this, toU64_nat (by omega), BitVec.toNat_ofNat, Nat.mod_eq_of_lt (by omega)]
  exact hk

/-! ### v1 -/

theorem rnd_pos' {x : ℚ} (h1 : 2 ^ (-128 : ℤ) ≤ x) (h2 : x ≤ 2 ^ 128) :
    rnd x = .fin (rndQ x) ∧ 0 < rndQ x := by
  have ht : (0 : ℚ) < 2 ^ (-128 : ℤ) := two_zpow_pos _
  refine ⟨(rnd_fin isF_big (two_pow_lt_f64Huge (by norm_num)) ?_).1,
    lt_of_lt_of_le ht (le_rndQ x (isF_two_zpow (by norm_num)) h1)⟩
  rw [abs_of_pos (lt_of_lt_of_le ht h1)]
  exact h2

theorem ofU64_zero : FVal.ofU64 0 = .fin 0 := by
  rw [ofU64_exact (by decide)]; rfl

theorem rnd_zero : rnd (0 : ℚ) = .fin 0 := by
  have := rnd_of_isF (K := ℚ) isF_zero (by rw [abs_zero]; exact f64Huge_pos)
  simpa using this

/-- The bit size is the integer part of the computed quotient. -/
theorem bitSizeFor_eq {lm : Libm} (sp : lm.Spec) {fpp : F64} (h : fppInRange fpp = true)
    (cap : U64) : ∃ v : ℚ, 0 ≤ v ∧
      FVal.div (FVal.mul (FVal.ofU64 cap) (lm.ln (FVal.ofBits fpp)))
        (lm.powf (lm.ln (.fin 2)) (.fin 2)) = .fin (-v) ∧
      bitSizeFor lm cap (FVal.ofBits fpp) = FVal.toU64 (.fin (⌊v⌋ : ℤ)) ∧
      (cap = 0 → v = 0) := by
  obtain ⟨q, hq, hq1, hq2, hqF⟩ := ofBits_of_inRange h
  obtain ⟨s, hs, hs1, hs2⟩ := sp.ln_two_sq
  obtain ⟨r, hr, hr1, hr2⟩ : ∃ r, lm.ln (.fin q) = .fin r ∧ -709 ≤ r ∧ r ≤ 0 := by
    rcases eq_or_lt_of_le hq2 with rfl | hlt
    · exact ⟨0, sp.ln_one, by norm_num, le_refl _⟩
    · obtain ⟨r, hr, h1, h2⟩ := sp.ln_below_one q hqF hq1 hlt
      exact ⟨r, hr, h1, h2.le⟩
  obtain ⟨c, hc, hc1, hc2, hc3⟩ : ∃ c, FVal.ofU64 cap = .fin c ∧ 0 ≤ c ∧ c ≤ 2 ^ 64 ∧
      (cap = 0 → c = 0) := by
    by_cases h0 : cap = 0
    · subst h0; exact ⟨0, ofU64_zero, le_refl _, by norm_num, fun _ => rfl⟩
    · obtain ⟨c, h1, _, h2, h3⟩ := ofU64_bounds h0
      exact ⟨c, h1, by linarith, h3, fun h => absurd h h0⟩
  have hF80 : IsF ((2 : ℚ) ^ 80) := by
    have := isF_two_zpow (e := 80) (by norm_num); exact_mod_cast this
  have m1 : |c * r| ≤ 2 ^ 80 := by
    rw [abs_mul, abs_of_nonneg hc1, abs_of_nonpos hr2]
    nlinarith
  obtain ⟨g1, g2⟩ := rnd_fin hF80 (two_pow_lt_f64Huge (by norm_num)) m1
  have g3 : rndQ (c * r) ≤ 0 := rndQ_le _ isF_zero (by
    simp only [Rat.cast_id]; exact mul_nonpos_of_nonneg_of_nonpos hc1 hr2)
  have m2 : |rndQ (c * r) / s| ≤ 2 ^ 128 := by
    rw [abs_div, abs_of_pos (show 0 < s by linarith), div_le_iff₀ (by linarith)]
    nlinarith
  obtain ⟨g4, g5⟩ := rnd_fin isF_big (two_pow_lt_f64Huge (by norm_num)) m2
  have g6 : rndQ (rndQ (c * r) / s) ≤ 0 := rndQ_le _ isF_zero (by
    simp only [Rat.cast_id]; exact div_nonpos_of_nonpos_of_nonneg g3 (by linarith))
  have hdiv : FVal.div (FVal.mul (FVal.ofU64 cap) (lm.ln (FVal.ofBits fpp)))
        (lm.powf (lm.ln (.fin 2)) (.fin 2)) = .fin (rndQ (rndQ (c * r) / s)) := by
    rw [hc, hq, hr, hs]
    show FVal.div (rnd (c * r)) (.fin s) = _
    rw [g1]
    show (if s = 0 then _ else rnd _) = _
    rw [if_neg (by linarith), g4]
  refine ⟨-rndQ (rndQ (c * r) / s), by linarith, by rw [hdiv, neg_neg], ?_, fun h0 => ?_⟩
  · unfold bitSizeFor
    rw [show FVal.two = .fin 2 from rfl, hdiv]
    show FVal.toU64 (.fin |((⌈_⌉ : ℤ) : ℚ)|) = _
    have : ⌈rndQ (rndQ (c * r) / s)⌉ ≤ 0 := Int.ceil_le.2 (by simpa using g6)
    rw [abs_of_nonpos (by exact_mod_cast this), Int.floor_neg]
    push_cast
    rfl
  · have z : rndQ (0 : ℚ) = 0 := by
      have := rndQ_of_isF (K := ℚ) isF_zero
      simpa using this
    rw [hc3 h0]; simp [z]

theorem kHash_zero {lm : Libm} (sp : lm.Spec) (cap : U64) : kHash lm 0 cap = 0 := by
  obtain ⟨r, hr, hr1, hr2⟩ := sp.ln_two
  unfold kHash
  rw [show FVal.two = .fin 2 from rfl, hr, ofU64_zero]
  have h1 : FVal.mul (.fin r) (.fin 0) = .fin 0 := by
    show rnd (r * 0) = _
    rw [mul_zero, rnd_zero]
  rw [h1]
  by_cases hc : cap = 0
  · subst hc
    rw [ofU64_zero]
    have : FVal.div (.fin 0) (.fin 0) = .nan := by simp [FVal.div, FVal.infTimes]
    rw [this]; rfl
  · obtain ⟨q, hq, _, hq1, _⟩ := ofU64_bounds hc
    rw [hq]
    have : FVal.div (.fin 0) (.fin q) = .fin 0 := by
      show (if q = 0 then _ else rnd (0 / q)) = _
      rw [if_neg (by linarith), zero_div, rnd_zero]
    rw [this]
    show FVal.toU64 (.fin ((⌈(0 : ℚ)⌉ : ℤ) : ℚ)) = 0
    rw [Int.ceil_zero]
    decide +kernel

theorem kHash_pos {lm : Libm} (sp : lm.Spec) {bits cap : U64} (hb : bits ≠ 0) (hc : cap ≠ 0) :
    1 ≤ (kHash lm bits cap).toNat := by
  obtain ⟨r, hr, hr1, hr2⟩ := sp.ln_two
  obtain ⟨q, hq, _, hq1, hq2⟩ := ofU64_bounds hb
  obtain ⟨c, hc, _, hc1, hc2⟩ := ofU64_bounds hc
  unfold kHash
  rw [show FVal.two = .fin 2 from rfl, hr, hq, hc]
  have hF : IsF (1 / 2 : ℚ) := by
    have := isF_dyadic 1 1 (by norm_num) (by norm_num); simpa using this
  have m1 : (1 / 2 : ℚ) ≤ r * q := by nlinarith
  have m2 : r * q ≤ 2 ^ 64 := by nlinarith
  have hF64 : IsF ((2 : ℚ) ^ 64) := by
    have := isF_two_zpow (e := 64) (by norm_num); exact_mod_cast this
  have g1 := (rnd_pos' (le_trans (by norm_num) m1) (le_trans m2 (by norm_num))).1
  have g2 : (1 / 2 : ℚ) ≤ rndQ (r * q) := le_rndQ _ hF (by simpa using m1)
  have g3 : rndQ (r * q) ≤ 2 ^ 64 := rndQ_le _ hF64 (by simpa using m2)
  have h1 : FVal.mul (.fin r) (.fin q) = .fin (rndQ (r * q)) := g1
  rw [h1]
  have d1 : (2 : ℚ) ^ (-128 : ℤ) ≤ rndQ (r * q) / c := by
    rw [le_div_iff₀ (by linarith)]
    calc (2 : ℚ) ^ (-128 : ℤ) * c ≤ 2 ^ (-128 : ℤ) * 2 ^ 64 :=
          mul_le_mul_of_nonneg_left hc2 (two_zpow_pos _).le
      _ ≤ 1 / 2 := by norm_num
      _ ≤ _ := g2
  have d2 : rndQ (r * q) / c ≤ 2 ^ 128 := by
    rw [div_le_iff₀ (by linarith)]; nlinarith
  obtain ⟨g4, g5⟩ := rnd_pos' d1 d2
  have h2 : FVal.div (.fin (rndQ (r * q))) (.fin c) = .fin (rndQ (rndQ (r * q) / c)) := by
    show (if c = 0 then _ else rnd _) = _
    rw [if_neg (by linarith), g4]
  rw [h2]
  exact toU64_ceil_pos g5

/-! ### powers of two -/

theorem nextPow2 (d : Bool) {x : U64} (h : x.toNat ≤ 2 ^ 63) :
    ∃ p, nextPowerOfTwo d x = .ok p ∧ (∃ k < 64, p.toNat = 2 ^ k) ∧ x.toNat ≤ p.toNat ∧
      p.toNat < 2 * max x.toNat 1 := by
  unfold nextPowerOfTwo
  split
  · rename_i h1
    refine ⟨1, rfl, ⟨0, by norm_num, rfl⟩, ?_, ?_⟩
    · exact h1
    · show 1 < _
      omega
  · rename_i h1
    have hne : x.toNat - 1 ≠ 0 := by omega
    have l1 : 2 ^ Nat.log2 (x.toNat - 1) ≤ x.toNat - 1 := Nat.log2_self_le hne
    have l2 : x.toNat - 1 < 2 ^ (Nat.log2 (x.toNat - 1) + 1) := Nat.lt_log2_self
    have l3 : Nat.log2 (x.toNat - 1) < 63 := by
      rw [Nat.log2_lt hne]; omega
    have l4 : 2 ^ (Nat.log2 (x.toNat - 1) + 1) < 2 ^ 64 :=
      Nat.pow_lt_pow_right (by norm_num) (by omega)
    simp only [l4, if_true]
    have l5 : (BitVec.ofNat 64 (2 ^ (Nat.log2 (x.toNat - 1) + 1))).toNat
        = 2 ^ (Nat.log2 (x.toNat - 1) + 1) := by
      rw [BitVec.toNat_ofNat, Nat.mod_eq_of_lt l4]
    refine ⟨_, rfl, ⟨_, by omega, l5⟩, by rw [l5]; omega, ?_⟩
    rw [l5, pow_succ]; omega

theorem nextPow2_ok {d : Bool} {x p : U64} (h : nextPowerOfTwo d x = .ok p) :
    (x.toNat ≤ 2 ^ 63 ∧ (∃ k < 64, p.toNat = 2 ^ k) ∧ x.toNat ≤ p.toNat ∧
      p.toNat < 2 * max x.toNat 1) ∨ (2 ^ 63 < x.toNat ∧ d = false ∧ p = 0) := by
  rcases Nat.lt_or_ge (2 ^ 63) x.toNat with h1 | h1
  · right
    unfold nextPowerOfTwo at h
    rw [if_neg (by omega)] at h
    have l1 : 63 ≤ Nat.log2 (x.toNat - 1) := by
      rw [Nat.le_log2 (by omega)]; omega
    have l2 : ¬ 2 ^ (Nat.log2 (x.toNat - 1) + 1) < 2 ^ 64 := by
      rw [not_lt]; exact Nat.pow_le_pow_right (by norm_num) (by omega)
    simp only [l2, if_false] at h
    cases d with
    | true => simp at h
    | false => simp only [Bool.false_eq_true, if_false, Res.ok.injEq] at h; exact ⟨h1, rfl, h.symm⟩
  · left
    obtain ⟨p', h2, h3, h4, h5⟩ := nextPow2 d h1
    rw [h] at h2
    cases h2
    exact ⟨h1, h3, h4, h5⟩

end Poppy
