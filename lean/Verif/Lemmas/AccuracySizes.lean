import Verif.Lemmas.Accuracy
import Verif.Lemmas.Merge
import Verif.SpecReal

/-! # Accuracy of the numbers of buckets and of the estimates -/

namespace Poppy

open Spec

theorem toU64_ceil_near {v : ℚ} (h0 : 0 ≤ v) (h1 : v ≤ 2 ^ 63) :
    (v : ℝ) ≤ (FVal.toU64 (.fin (⌈v⌉ : ℤ))).toNat ∧
      ((FVal.toU64 (.fin (⌈v⌉ : ℤ))).toNat : ℝ) < v + 1 := by
  have e : (FVal.toU64 (.fin (⌈v⌉ : ℤ))).toNat = ⌈v⌉.toNat := toU64_ceil_fin h1
  have h2 : 0 ≤ ⌈v⌉ := Int.ceil_nonneg h0
  have h3 : ((⌈v⌉.toNat : ℕ) : ℝ) = ((⌈v⌉ : ℤ) : ℝ) := by
    have : ((⌈v⌉.toNat : ℕ) : ℤ) = ⌈v⌉ := Int.toNat_of_nonneg h2
    exact_mod_cast congrArg (Int.cast (R := ℝ)) this
  rw [e, h3]
  exact ⟨by exact_mod_cast Int.le_ceil v, by exact_mod_cast Int.ceil_lt_add_one v⟩

theorem toU64_floor_near {v : ℚ} (h0 : 0 ≤ v) (h1 : v < 2 ^ 64) :
    ((FVal.toU64 (.fin v)).toNat : ℝ) ≤ v ∧ (v : ℝ) < (FVal.toU64 (.fin v)).toNat + 1 := by
  have h2 : 0 ≤ ⌊v⌋ := Int.floor_nonneg.2 h0
  have h3 : ((⌊v⌋.toNat : ℕ) : ℝ) = ((⌊v⌋ : ℤ) : ℝ) := by
    have : ((⌊v⌋.toNat : ℕ) : ℤ) = ⌊v⌋ := Int.toNat_of_nonneg h2
    exact_mod_cast congrArg (Int.cast (R := ℝ)) this
  rw [toU64_fin h1, h3]
  exact ⟨by exact_mod_cast Int.floor_le v, by exact_mod_cast Int.lt_floor_add_one v⟩

theorem toNat_pos_of_ne {x : U64} (h : x ≠ 0) : 0 < x.toNat := by
  rcases Nat.eq_zero_or_pos x.toNat with h0 | h0
  · exact absurd (BitVec.eq_of_toNat_eq h0) h
  · exact h0

/-- Entries per bucket. -/
theorem bestCapacity_bounds {p : ℚ} (h0 : 2 ^ (-1022 : ℤ) ≤ p) (h1 : p ≤ 1 - 1 / 2 ^ 40) :
    22 ≤ bestCapacity 32768 p ∧ bestCapacity 32768 p ≤ 2 ^ 54 ∧ 0 < -Real.log (p : ℝ) := by
  have hl := log_two_bounds
  have hlo := log_ge h0
  have hp0 : (0 : ℝ) < p := by exact_mod_cast lt_of_lt_of_le (two_zpow_pos _) h0
  have h1' : (p : ℝ) ≤ 1 - 1 / 2 ^ 40 := by
    have : ((p : ℚ) : ℝ) ≤ ((1 - 1 / 2 ^ 40 : ℚ) : ℝ) := by exact_mod_cast h1
    push_cast at this
    exact this
  have hup := Real.log_le_sub_one_of_pos hp0
  have hg : 1 / 2 ^ 40 ≤ -Real.log (p : ℝ) := by linarith
  have hpos : 0 < -Real.log (p : ℝ) := lt_of_lt_of_le (by norm_num) hg
  have hsq1 : (48 : ℝ) / 100 ≤ Real.log 2 ^ 2 := by nlinarith
  have hsq2 : Real.log 2 ^ 2 ≤ 1 / 2 := by nlinarith
  unfold bestCapacity
  refine ⟨?_, ?_, hpos⟩
  · rw [le_div_iff₀ hpos]
    linarith
  · rw [div_le_iff₀ hpos]
    have : (2 : ℝ) ^ 54 * (1 / 2 ^ 40) ≤ 2 ^ 54 * -Real.log (p : ℝ) :=
      mul_le_mul_of_nonneg_left hg (by norm_num)
    linarith

/-- The capacity of a bucket is the textbook number, rounded down. -/
theorem bucketCap_bounds {lm : Libm} (ac : lm.Accurate) {fpp : F64} (h : fppInRange fpp = true)
    {p : ℚ} (hp : FVal.ofBits fpp = .fin p) (h1 : p ≤ 1 - 1 / 2 ^ 40) :
    bestCapacity 32768 p * (1 - 2 ^ (-44 : ℤ)) - 1
      < (capFromBitSize lm V2.bucketBitSize (FVal.ofBits fpp)).toNat ∧
    (capFromBitSize lm V2.bucketBitSize (FVal.ofBits fpp)).toNat
      ≤ bestCapacity 32768 p * (1 + 2 ^ (-44 : ℤ)) := by
  obtain ⟨_, _, e, q0, q1, qm, _⟩ := ac.ln_fpp h
  rw [hp] at e
  cases e
  obtain ⟨z1, z2, hl⟩ := bestCapacity_bounds qm h1
  obtain ⟨v, v0, hv, nv⟩ := bucketCap_near ac h hp (lt_of_le_of_lt h1 (by norm_num))
  have nv : Near (2 ^ (-44 : ℤ)) v (bestCapacity 32768 p) :=
    Near.mono (by linarith) (by unfold halfUlp; norm_num) nv
  have hv64 : v < 2 ^ 64 := by
    have : (v : ℝ) < 2 ^ 64 := by
      refine lt_of_le_of_lt (nv.2.trans (mul_le_mul z2
        (show (1 + 2 ^ (-44 : ℤ) : ℝ) ≤ 2 by norm_num) (by norm_num) (by norm_num))) (by norm_num)
    exact_mod_cast this
  rw [hv]
  obtain ⟨g1, g2⟩ := toU64_floor_near v0 hv64
  exact ⟨by linarith [nv.1], by linarith [nv.2]⟩

/-- The number of buckets is the quotient of the capacities, rounded up. -/
theorem nBucketOf_bounds {lm : Libm} (sp : lm.Spec) {fpp : F64} (h : fppInRange fpp = true)
    {cap : U64} (hc : cap ≠ 0) :
    (cap.toNat : ℝ) * (1 - 2 ^ (-44 : ℤ)) ≤ (V2.nBucketOf lm cap fpp).toNat *
      (capFromBitSize lm V2.bucketBitSize (FVal.ofBits fpp)).toNat ∧
    ((V2.nBucketOf lm cap fpp).toNat - 1 : ℝ) *
      (capFromBitSize lm V2.bucketBitSize (FVal.ofBits fpp)).toNat
      < cap.toNat * (1 + 2 ^ (-44 : ℤ)) := by
  have hb := bucketCap_ge sp h
  unfold V2.nBucketOf
  generalize capFromBitSize lm V2.bucketBitSize (FVal.ofBits fpp) = c at *
  have hc0 : c ≠ 0 := by rintro rfl; simp at hb
  have hcn : (22 : ℝ) ≤ c.toNat := by exact_mod_cast hb
  obtain ⟨v, v0, v1, hv, nv⟩ := div_near hc hc0
  have hx : 0 ≤ (cap.toNat : ℝ) / c.toNat := by positivity
  have nv := nv.mono hx (e' := 2 ^ (-44 : ℤ)) (by unfold halfUlp; norm_num)
  have hle : v ≤ 2 ^ 63 := by
    have h1 : (cap.toNat : ℝ) ≤ 2 ^ 64 := by exact_mod_cast cap.isLt.le
    have h2 : (cap.toNat : ℝ) / c.toNat ≤ 2 ^ 60 := by
      rw [div_le_iff₀ (by linarith)]
      linarith
    have : (v : ℝ) ≤ 2 ^ 63 := nv.2.trans (le_trans (mul_le_mul h2
        (show (1 + 2 ^ (-44 : ℤ) : ℝ) ≤ 2 by norm_num) (by norm_num) (by norm_num)) (by norm_num))
    exact_mod_cast this
  rw [hv]
  obtain ⟨g1, g2⟩ := toU64_ceil_near v0.le hle
  have e : FVal.ceil (.fin v) = .fin ((⌈v⌉ : ℤ) : ℚ) := rfl
  rw [e]
  have hcp : (0 : ℝ) < c.toNat := by linarith
  constructor
  · have := nv.1.trans g1
    rwa [div_mul_eq_mul_div, div_le_iff₀ hcp] at this
  · have h3 : ((FVal.toU64 (.fin (⌈v⌉ : ℤ))).toNat : ℝ) - 1
        < (cap.toNat : ℝ) / c.toNat * (1 + 2 ^ (-44 : ℤ)) := by linarith [nv.2]
    rwa [div_mul_eq_mul_div, lt_div_iff₀ hcp] at h3

/-- The number of hash functions without index cache. -/
theorem nHash_bounds {lm : Libm} (ac : lm.Accurate) {c : U64} (hc : 22 ≤ c.toNat) :
    32768 * Real.log 2 * (1 - 2 ^ (-44 : ℤ)) ≤ (FVal.toU64 (FVal.ceil (FVal.ofU64
      (kHash lm V2.bucketBitSize c)))).toNat * (c.toNat : ℝ) ∧
    ((FVal.toU64 (FVal.ceil (FVal.ofU64 (kHash lm V2.bucketBitSize c)))).toNat - 1 : ℝ) * c.toNat
      < 32768 * Real.log 2 * (1 + 2 ^ (-44 : ℤ)) := by
  have hl := log_two_bounds
  have hc0 : c ≠ 0 := by rintro rfl; simp at hc
  have hcn : (22 : ℝ) ≤ c.toNat := by exact_mod_cast hc
  obtain ⟨v, v0, _, hv, nv⟩ := kHash_near ac (bits := V2.bucketBitSize) hc0
  rw [bucketBitSize_toNat] at nv
  have hcp : (0 : ℝ) < c.toNat := by linarith
  have hx : 0 ≤ Real.log 2 * (32768 : ℕ) / (c.toNat : ℝ) :=
    div_nonneg (mul_nonneg (by linarith) (Nat.cast_nonneg _)) hcp.le
  have nv := nv.mono hx (e' := 2 ^ (-44 : ℤ)) (by unfold halfUlp; norm_num)
  have h2 : Real.log 2 * (32768 : ℕ) / (c.toNat : ℝ) ≤ 2000 := by
    rw [div_le_iff₀ hcp]
    push_cast
    linarith
  have hv2 : (v : ℝ) ≤ 4000 := nv.2.trans (le_trans (mul_le_mul h2
        (show (1 + 2 ^ (-44 : ℤ) : ℝ) ≤ 2 by norm_num) (by norm_num) (by norm_num)) (by norm_num))
  have hv2' : v ≤ 4000 := by exact_mod_cast hv2
  obtain ⟨g1, g2⟩ := toU64_ceil_near v0 (hv2'.trans (by norm_num))
  rw [← hv] at g1 g2
  generalize kHash lm V2.bucketBitSize c = k at *
  have hk : k.toNat ≤ 2 ^ 53 := by
    have : (k.toNat : ℝ) ≤ 2 ^ 53 := by
      have : (4001 : ℝ) ≤ 2 ^ 53 := by norm_num
      linarith
    exact_mod_cast this
  have he : (FVal.toU64 (FVal.ceil (FVal.ofU64 k))).toNat = k.toNat := by
    rw [ofU64_exact hk]
    have := toU64_ceil_fin (q := (k.toNat : ℚ)) (by
      have : (k.toNat : ℚ) ≤ 2 ^ 53 := by exact_mod_cast hk
      exact this.trans (by norm_num))
    rw [this]
    simp
  rw [he]
  push_cast at nv
  constructor
  · have := nv.1.trans g1
    rw [div_mul_eq_mul_div, div_le_iff₀ hcp] at this
    linarith
  · have h3 : (k.toNat : ℝ) - 1 < Real.log 2 * 32768 / c.toNat * (1 + 2 ^ (-44 : ℤ)) := by
      linarith [nv.2]
    rw [div_mul_eq_mul_div, lt_div_iff₀ hcp] at h3
    linarith

/-! ### Estimates -/

theorem fdiv_fin {x y : ℚ} (h : y ≠ 0) : FVal.div (.fin x) (.fin y) = rnd (x / y) := by
  unfold FVal.div
  simp only
  rw [if_neg h]

theorem fsub_one (x : ℚ) : FVal.sub .one (.fin x) = rnd (1 - x) := by
  show rnd (1 + -x) = _
  rw [← sub_eq_add_neg]

/-- The estimate of a bucket that is not full. -/
theorem V2.bucketEstimate_near {env : Env} (ac : env.libm.Accurate) {k : U64} (hk : k ≠ 0) {x : ℕ}
    (hx : x < 32768) :
    entries 32768 k.toNat x * (1 - 2 ^ (-44 : ℤ)) - 1 < (V2.bucketEstimate env k x).toNat ∧
    ((V2.bucketEstimate env k x).toNat : ℝ) ≤ entries 32768 k.toNat x * (1 + 2 ^ (-44 : ℤ)) ∧
    (V2.bucketEstimate env k x).toNat ≤ 2 ^ 20 := by
  have hl := log_two_bounds
  have hxn : (BitVec.ofNat 64 x).toNat = x := by
    rw [BitVec.toNat_ofNat, Nat.mod_eq_of_lt (by omega)]
  have hxz : ((32768 - x : ℕ) : ℤ) = 32768 - (x : ℤ) := by omega
  have haF : IsF ((((32768 - x : ℕ) : ℤ) : ℚ) / 2 ^ 15) := isF_dyadic _ 15 (by
    rw [abs_of_nonneg (by positivity)]
    have : 32768 - x ≤ 2 ^ 53 := by omega
    exact_mod_cast this) (by norm_num)
  have hdF : IsF (((x : ℤ) : ℚ) / 2 ^ 15) := isF_dyadic _ 15 (by
    rw [abs_of_nonneg (by positivity)]
    have : x ≤ 2 ^ 53 := by omega
    exact_mod_cast this) (by norm_num)
  set a : ℚ := (((32768 - x : ℕ) : ℤ) : ℚ) / 2 ^ 15 with ha
  have hxq : (x : ℚ) ≤ 32767 := by exact_mod_cast Nat.lt_succ_iff.1 hx
  have ha' : a = 1 - (x : ℚ) / 2 ^ 15 := by
    rw [ha, hxz]
    push_cast
    ring
  have ha0 : (1 : ℚ) / 2 ^ 15 ≤ a := by
    rw [ha', show (1 : ℚ) / 2 ^ 15 = 1 - 32767 / 2 ^ 15 by norm_num]
    gcongr
  have ha1 : a ≤ 1 := by
    rw [ha']
    have : (0 : ℚ) ≤ (x : ℚ) / 2 ^ 15 := by positivity
    linarith
  have hsub : FVal.sub .one (FVal.div (FVal.ofU64 (BitVec.ofNat 64 x))
      (FVal.ofU64 V2.bucketBitSize)) = .fin a := by
    rw [ofU64_bucketBitSize, ofU64_exact (by omega), hxn]
    have e1 : FVal.div (.fin (x : ℚ)) (.fin 32768) = .fin ((x : ℚ) / 2 ^ 15) := by
      rw [fdiv_fin (by norm_num), show (32768 : ℚ) = 2 ^ 15 by norm_num]
      have := rnd_of_isF (K := ℚ) hdF (by
        rw [abs_of_nonneg (by positivity)]
        refine lt_of_le_of_lt (b := 2 ^ 15) ?_ (two_pow_lt_f64Huge (by norm_num))
        rw [div_le_iff₀ (by norm_num)]
        push_cast
        linarith)
      simpa using this
    rw [e1, fsub_one, ← ha']
    have := rnd_of_isF (K := ℚ) haF (by
        rw [abs_of_nonneg (by linarith [show (0 : ℚ) < 1 / 2 ^ 15 by norm_num])]
        refine lt_of_le_of_lt (b := 2 ^ 15) ?_ (two_pow_lt_f64Huge (by norm_num))
        linarith)
    simpa using this
  obtain ⟨v, v0, hv, nv⟩ := estimateCount_near ac (by decide : V2.bucketBitSize ≠ 0) hk haF
    (tiny_le (le_trans (by norm_num) ha0)) ha1 hsub
  have he : ((V2.bucketBitSize.toNat : ℝ) * -Real.log a / k.toNat) = entries 32768 k.toNat x := by
    rw [bucketBitSize_toNat, ha']
    unfold entries
    push_cast
    norm_num
    ring
  rw [he] at nv
  have hkn : (1 : ℝ) ≤ k.toNat := by exact_mod_cast toNat_pos_of_ne hk
  have hlog : -11 ≤ Real.log (a : ℝ) := by
    have h1 : Real.log ((1 / 2 ^ 15 : ℚ) : ℝ) ≤ Real.log (a : ℝ) := by
      apply Real.log_le_log
      · norm_num
      · exact_mod_cast ha0
    have h2 : Real.log ((1 / 2 ^ 15 : ℚ) : ℝ) = -(15 * Real.log 2) := by
      push_cast
      rw [one_div, Real.log_inv, Real.log_pow]
      norm_num
    linarith
  have hlog0 : Real.log (a : ℝ) ≤ 0 := Real.log_nonpos
    (by exact_mod_cast (le_trans (by norm_num) ha0 : (0 : ℚ) ≤ a)) (by exact_mod_cast ha1)
  have hE0 : 0 ≤ entries 32768 k.toNat x := by
    rw [← he]
    exact div_nonneg (mul_nonneg (Nat.cast_nonneg _) (by linarith)) (by linarith)
  have hE1 : entries 32768 k.toNat x ≤ 360448 := by
    rw [← he, div_le_iff₀ (by linarith), bucketBitSize_toNat]
    push_cast
    nlinarith
  have nv := nv.mono hE0 (e' := 2 ^ (-44 : ℤ)) (by unfold halfUlp; norm_num)
  have hv2 : (v : ℝ) ≤ 720896 := nv.2.trans (le_trans (mul_le_mul hE1
        (show (1 + 2 ^ (-44 : ℤ) : ℝ) ≤ 2 by norm_num) (by norm_num) (by norm_num)) (by norm_num))
  have hv2' : v ≤ 720896 := by exact_mod_cast hv2
  obtain ⟨g1, g2⟩ := toU64_floor_near v0 (lt_of_le_of_lt hv2' (by norm_num))
  unfold V2.bucketEstimate
  rw [hv]
  refine ⟨by linarith [nv.1], by linarith [nv.2], ?_⟩
  have : ((FVal.toU64 (.fin v)).toNat : ℝ) ≤ 2 ^ 20 := by
    have : (720896 : ℝ) ≤ 2 ^ 20 := by norm_num
    linarith
  exact_mod_cast this

/-- The estimate of a whole filter: a sum of numbers of this kind. -/
theorem V2.sum_near {d : Bool} {n : ℕ} (hn : n ≤ 2 ^ 40) {e : ℕ → ℝ} {l : List U64}
    (hl : l.length = n) (h : ∀ (i : ℕ) (hi : i < l.length), e i * (1 - 2 ^ (-44 : ℤ)) - 1 < l[i].toNat ∧
      (l[i].toNat : ℝ) ≤ e i * (1 + 2 ^ (-44 : ℤ)) ∧ l[i].toNat ≤ 2 ^ 20) :
    ∃ c, sumU64 d l = .ok c ∧
      (∑ i ∈ Finset.range n, e i) * (1 - 2 ^ (-44 : ℤ)) - n ≤ c.toNat ∧
      (c.toNat : ℝ) ≤ (∑ i ∈ Finset.range n, e i) * (1 + 2 ^ (-44 : ℤ)) := by
  subst hl
  have key : ∀ l : List U64, ∀ e : ℕ → ℝ,
      (∀ (i : ℕ) (hi : i < l.length), e i * (1 - 2 ^ (-44 : ℤ)) - 1 < l[i].toNat ∧
      (l[i].toNat : ℝ) ≤ e i * (1 + 2 ^ (-44 : ℤ)) ∧ l[i].toNat ≤ 2 ^ 20) →
      (∑ i ∈ Finset.range l.length, e i) * (1 - 2 ^ (-44 : ℤ)) - l.length
        ≤ ((l.map BitVec.toNat).sum : ℕ) ∧
      (((l.map BitVec.toNat).sum : ℕ) : ℝ) ≤ (∑ i ∈ Finset.range l.length, e i) * (1 + 2 ^ (-44 : ℤ)) ∧
      (l.map BitVec.toNat).sum ≤ l.length * 2 ^ 20 := by
    intro l
    induction l with
    | nil => intro e _; simp
    | cons x l ih =>
      intro e h
      obtain ⟨h1, h2, h3⟩ := ih (fun i => e (i + 1)) (fun i hi => h (i + 1) (by simpa using hi))
      obtain ⟨g1, g2, g3⟩ := h 0 (by simp)
      simp only [List.getElem_cons_zero] at g1 g2 g3
      rw [List.length_cons, Finset.sum_range_succ', List.map_cons, List.sum_cons]
      generalize (l.map BitVec.toNat).sum = S at *
      push_cast
      refine ⟨by linarith, by linarith, by omega⟩
  obtain ⟨h1, h2, h3⟩ := key l e h
  have hlt : (l.map BitVec.toNat).sum < 2 ^ 64 := by
    have : l.length * 2 ^ 20 ≤ 2 ^ 40 * 2 ^ 20 := Nat.mul_le_mul_right _ hn
    omega
  refine ⟨BitVec.ofNat 64 (l.map BitVec.toNat).sum, ?_, ?_⟩
  · rw [V2.sumU64_eq, if_neg (by omega)]
  · rw [BitVec.toNat_ofNat, Nat.mod_eq_of_lt hlt]
    exact ⟨h1, h2⟩

/-- The argument of the logarithm in the estimate of a v1 filter. -/
theorem estimate_arg_near {bits ones : U64} (hb : bits.toNat ≤ 2 ^ 50) (h : ones.toNat < bits.toNat) :
    ∃ a : ℚ, FVal.sub .one (FVal.div (FVal.ofU64 ones) (FVal.ofU64 bits)) = .fin a ∧ IsF a ∧
      1 / 2 ^ 51 ≤ a ∧ a ≤ 1 ∧
      |(a : ℝ) - (1 - (ones.toNat : ℝ) / bits.toNat)| ≤ 2 * halfUlp := by
  have hu := halfUlp_pos
  have hu' := halfUlp_lt
  have hm0 : bits ≠ 0 := by rintro rfl; simp at h
  obtain ⟨a, ha, aF, a0, a1, _⟩ := estimate_arg hm0 h.le
  refine ⟨a, ha, aF, ?_⟩
  rw [ofU64_exact (by omega), ofU64_exact (by omega)] at ha
  have hm : (1 : ℚ) ≤ bits.toNat := by exact_mod_cast (by omega : 1 ≤ bits.toNat)
  have hmp : (0 : ℚ) < bits.toNat := by linarith
  have hm2 : (bits.toNat : ℚ) ≤ 2 ^ 50 := by exact_mod_cast hb
  have hx : (ones.toNat : ℚ) + 1 ≤ bits.toNat := by exact_mod_cast h
  have hx0 : (0 : ℚ) ≤ ones.toNat := Nat.cast_nonneg _
  rw [fdiv_fin hmp.ne'] at ha
  set t : ℚ := (ones.toNat : ℚ) / bits.toNat with ht
  have ht0 : 0 ≤ t := div_nonneg hx0 hmp.le
  have ht1 : t ≤ 1 - 1 / 2 ^ 50 := by
    rw [ht, div_le_iff₀ hmp]
    have : (1 : ℚ) / 2 ^ 50 * bits.toNat ≤ 1 := by
      rw [div_mul_eq_mul_div, div_le_one (by norm_num)]
      linarith
    linarith
  obtain ⟨g1, _⟩ := rnd_fin (K := ℚ) (x := t) isF_one
    (by simpa using two_pow_lt_f64Huge (n := 0) (by norm_num)) (by
    rw [abs_of_nonneg ht0, Rat.cast_one]
    have : (0 : ℚ) ≤ 1 / 2 ^ 50 := by norm_num
    linarith)
  rw [g1, fsub_one] at ha
  have hF50 : IsF (1 - 1 / 2 ^ 50) := by
    have := isF_dyadic (2 ^ 50 - 1) 50 (by norm_num) (by norm_num)
    rwa [show (((2 ^ 50 - 1 : ℤ)) : ℚ) / 2 ^ 50 = 1 - 1 / 2 ^ 50 by norm_num] at this
  have hd1 : rndQ t ≤ 1 - 1 / 2 ^ 50 := rndQ_le _ hF50 (by simpa using ht1)
  have hd0 : 0 ≤ rndQ t := le_rndQ _ isF_zero (by simpa using ht0)
  have hdt : |(rndQ t : ℝ) - t| ≤ halfUlp := by
    rcases ht0.eq_or_lt with h0 | h0
    · have e := rndQ_of_isF (K := ℚ) (y := 0) isF_zero
      rw [Rat.cast_zero] at e
      rw [← h0, e]
      simp [hu.le]
    · have ht2 : (1 : ℚ) / 2 ^ 50 ≤ t := by
        have h1 : (1 : ℚ) ≤ ones.toNat := by
          have : 0 < ones.toNat := by
            rcases Nat.eq_zero_or_pos ones.toNat with hz | hz
            · rw [ht, hz] at h0; simp at h0
            · exact hz
          exact_mod_cast this
        rw [ht, le_div_iff₀ hmp]
        have : (1 : ℚ) / 2 ^ 50 * bits.toNat ≤ 1 := by
          rw [div_mul_eq_mul_div, div_le_one (by norm_num)]
          linarith
        linarith
      have := near_rndQ (x := t) (tiny_le (le_trans (by norm_num) ht2))
      have ht1' : (t : ℝ) ≤ 1 := by
        have : t ≤ 1 := by linarith [show (0 : ℚ) ≤ 1 / 2 ^ 50 by norm_num]
        exact_mod_cast this
      have ht0' : (0 : ℝ) ≤ t := by exact_mod_cast ht0
      rw [abs_le]
      constructor
      · nlinarith [this.1]
      · nlinarith [this.2]
  have hs1 : (1 : ℚ) / 2 ^ 50 ≤ 1 - rndQ t := by linarith
  obtain ⟨g2, _⟩ := rnd_fin (K := ℚ) (x := 1 - rndQ t) isF_one
    (by simpa using two_pow_lt_f64Huge (n := 0) (by norm_num)) (by
    rw [abs_of_nonneg (by linarith [show (0 : ℚ) ≤ 1 / 2 ^ 50 by norm_num]), Rat.cast_one]
    linarith)
  rw [g2] at ha
  cases ha
  have n2 := near_rndQ (x := 1 - rndQ t) (tiny_le (le_trans (by norm_num) hs1))
  push_cast at n2
  have hd0' : (0 : ℝ) ≤ (rndQ t : ℚ) := by exact_mod_cast hd0
  have hd1' : ((rndQ t : ℚ) : ℝ) ≤ 1 := by
    have : rndQ t ≤ 1 := by linarith [show (0 : ℚ) ≤ 1 / 2 ^ 50 by norm_num]
    exact_mod_cast this
  have hF51 : IsF ((1 : ℚ) / 2 ^ 50) := by simpa using isF_dyadic 1 50 (by norm_num) (by norm_num)
  refine ⟨le_trans (by norm_num) (le_rndQ (1 - rndQ t) hF51 (by simpa using hs1)), a1, ?_⟩
  have ht' : ((ones.toNat : ℝ) / bits.toNat) = (t : ℝ) := by rw [ht]; push_cast; rfl
  rw [ht']
  have h3 := abs_le.1 hdt
  rw [abs_le]
  constructor
  · nlinarith [n2.1, h3.1, h3.2]
  · nlinarith [n2.2, h3.1, h3.2]

/-- The estimate of a v1 filter that is not full. -/
theorem estimateCount_bounds {lm : Libm} (ac : lm.Accurate) {bits ones k : U64} (hk : k ≠ 0)
    (hb : bits.toNat ≤ 2 ^ 50) (h : ones.toNat < bits.toNat) :
    entries bits.toNat k.toNat ones.toNat * (1 - 2 ^ (-44 : ℤ)) - 1
      - (bits.toNat : ℝ) ^ 2 / (k.toNat * (bits.toNat - ones.toNat)) * 2 ^ (-50 : ℤ)
      < (estimateCount lm bits ones k).toNat ∧
    ((estimateCount lm bits ones k).toNat : ℝ)
      ≤ entries bits.toNat k.toNat ones.toNat * (1 + 2 ^ (-44 : ℤ))
      + (bits.toNat : ℝ) ^ 2 / (k.toNat * (bits.toNat - ones.toNat)) * 2 ^ (-50 : ℤ) := by
  have hu := halfUlp_pos
  have hu' := halfUlp_lt
  have hl := log_two_bounds
  have hm0 : bits ≠ 0 := by rintro rfl; simp at h
  obtain ⟨a, ha, aF, a0, a1, ea⟩ := estimate_arg_near hb h
  have hax := tiny_le (le_trans (by norm_num) a0)
  obtain ⟨v, v0, hv, nv⟩ := estimateCount_near ac hm0 hk aF hax a1 ha
  have hkn : (1 : ℝ) ≤ k.toNat := by exact_mod_cast toNat_pos_of_ne hk
  have hmn : (ones.toNat : ℝ) + 1 ≤ bits.toNat := by exact_mod_cast h
  have hx0 : (0 : ℝ) ≤ ones.toNat := Nat.cast_nonneg _
  have hmb : (bits.toNat : ℝ) ≤ 2 ^ 50 := by exact_mod_cast hb
  have ha0' : (0 : ℝ) < a := by
    exact_mod_cast lt_of_lt_of_le (show (0 : ℚ) < 1 / 2 ^ 51 by norm_num) a0
  have ha1' : (a : ℝ) ≤ 1 := by exact_mod_cast a1
  generalize (bits.toNat : ℝ) = m at *
  generalize (ones.toNat : ℝ) = x at *
  generalize (k.toNat : ℝ) = kk at *
  have hm : 0 < m := by linarith
  have hmx : 0 < m - x := by linarith
  set s : ℝ := 1 - x / m with hs
  have hs' : s = (m - x) / m := by rw [hs]; field_simp
  have hs0 : 0 < s := by rw [hs']; positivity
  have hs8 : 8 * halfUlp ≤ s := by
    rw [hs', le_div_iff₀ hm]
    have : 8 * halfUlp * m ≤ 8 * halfUlp * 2 ^ 50 := mul_le_mul_of_nonneg_left hmb (by linarith)
    have h8 : 8 * halfUlp * 2 ^ 50 = 1 := by unfold halfUlp; norm_num
    linarith
  have hd := abs_le.1 ea
  -- the logarithms are close
  have hdl : |Real.log a - Real.log s| ≤ 3 * halfUlp / s := by
    rw [abs_le]
    have hdiv : Real.log a - Real.log s = Real.log (a / s) := by
      rw [Real.log_div ha0'.ne' hs0.ne']
    rw [hdiv]
    have hr : 0 < (a : ℝ) / s := by positivity
    constructor
    · have h1 := Real.one_sub_inv_le_log_of_pos hr
      rw [inv_div] at h1
      have h2 : s / a - 1 ≤ 3 * halfUlp / s := by
        rw [div_sub_one ha0'.ne', div_le_div_iff₀ ha0' hs0]
        nlinarith
      have : -(3 * halfUlp / s) ≤ 1 - s / a := by linarith
      linarith
    · have h1 := Real.log_le_sub_one_of_pos hr
      have h2 : (a : ℝ) / s - 1 ≤ 3 * halfUlp / s := by
        rw [div_sub_one hs0.ne', div_le_div_iff_of_pos_right hs0]
        linarith
      linarith
  obtain ⟨d1, d2⟩ := abs_le.1 hdl
  have hE : entries m kk x = m * -Real.log s / kk := by unfold entries; rw [← hs]; ring
  have hlogs : Real.log s ≤ 0 := Real.log_nonpos hs0.le (by
    rw [hs]; have : 0 ≤ x / m := by positivity
    linarith)
  have hloga : Real.log a ≤ 0 := Real.log_nonpos ha0'.le ha1'
  have hE0 : 0 ≤ entries m kk x := by
    rw [hE]
    exact div_nonneg (mul_nonneg hm.le (by linarith)) (by linarith)
  set B : ℝ := m ^ 2 / (kk * (m - x)) with hB
  have hkp : 0 < kk := by linarith
  have hB0 : 0 ≤ B := by rw [hB]; positivity
  have hD : m * (3 * halfUlp / s) / kk = 3 * halfUlp * B := by
    rw [hs', hB]
    field_simp
  have e1 : m * -Real.log a / kk ≤ entries m kk x + 3 * halfUlp * B := by
    rw [hE, ← hD, ← add_div]
    gcongr
    nlinarith
  have e2 : entries m kk x - 3 * halfUlp * B ≤ m * -Real.log a / kk := by
    rw [hE, ← hD, ← sub_div]
    gcongr
    nlinarith
  have hla0 : 0 ≤ m * -Real.log a / kk := div_nonneg (mul_nonneg hm.le (by linarith)) hkp.le
  have hlo := log_ge hax
  have hbig : m * -Real.log a / kk ≤ 2 ^ 60 := by
    rw [div_le_iff₀ hkp]
    have h1 : m * -Real.log a ≤ 2 ^ 50 * 1024 :=
      mul_le_mul hmb (by linarith) (by linarith) (by norm_num)
    nlinarith
  have hv2 : (v : ℝ) ≤ 2 ^ 61 := nv.2.trans (le_trans (mul_le_mul hbig
    (show 1 + 47 * halfUlp ≤ 2 by linarith) (by linarith) (by norm_num)) (by norm_num))
  have hv2' : v ≤ 2 ^ 61 := by exact_mod_cast hv2
  obtain ⟨g1, g2⟩ := toU64_floor_near v0 (lt_of_le_of_lt hv2' (by norm_num))
  rw [hv]
  have k44 : 47 * halfUlp ≤ 2 ^ (-44 : ℤ) := by unfold halfUlp; norm_num
  have k50 : 4 * halfUlp ≤ 2 ^ (-50 : ℤ) := by unfold halfUlp; norm_num
  have f1 : B * (4 * halfUlp) ≤ B * 2 ^ (-50 : ℤ) := mul_le_mul_of_nonneg_left k50 hB0
  have f2 : entries m kk x * (47 * halfUlp) ≤ entries m kk x * 2 ^ (-44 : ℤ) :=
    mul_le_mul_of_nonneg_left k44 hE0
  have f3 : halfUlp * B * (141 * halfUlp) ≤ halfUlp * B * 1 :=
    mul_le_mul_of_nonneg_left (by linarith) (mul_nonneg hu.le hB0)
  have hc1 : (0 : ℝ) ≤ 1 + 47 * halfUlp := by linarith
  have hc2 : (0 : ℝ) ≤ 1 - 47 * halfUlp := by linarith
  have f4 : 0 ≤ halfUlp * B * (141 * halfUlp) := by positivity
  generalize (2 : ℝ) ^ (-44 : ℤ) = e44 at *
  generalize (2 : ℝ) ^ (-50 : ℤ) = e50 at *
  constructor
  · have h1 := (mul_le_mul_of_nonneg_right e2 hc2).trans nv.1
    linarith
  · have h1 := nv.2.trans (mul_le_mul_of_nonneg_right e1 hc1)
    linarith

theorem countBelow_lt {n : ℕ} {p : ℕ → Bool} {i : ℕ} (hi : i < n) (h : p i = false) :
    countBelow n p < n := by
  unfold countBelow
  have : (List.range n).countP p < (List.range n).length := by
    refine lt_of_le_of_ne List.countP_le_length fun e => ?_
    have := List.countP_eq_length.1 e i (List.mem_range.2 hi)
    rw [h] at this
    cases this
  simpa using this

/-- The estimate of a filter without full bucket. -/
theorem V2.estimate_near {env : Env} (ac : env.libm.Accurate) {f : V2}
    (hl : f.buckets.length ≤ 2 ^ 40) (hk : f.nHashBuck ≠ 0)
    (hf : ∀ b < f.buckets.length, ∃ i < 32768, f.bucketBit b i = false) :
    ∃ c, V2.estimate env f = .ok c ∧
      (∑ b ∈ Finset.range f.buckets.length,
        entries 32768 f.nHashBuck.toNat (countBelow 32768 (f.bucketBit b))) * (1 - 2 ^ (-44 : ℤ))
        - f.buckets.length ≤ c.toNat ∧
      (c.toNat : ℝ) ≤ (∑ b ∈ Finset.range f.buckets.length,
        entries 32768 f.nHashBuck.toNat (countBelow 32768 (f.bucketBit b)))
        * (1 + 2 ^ (-44 : ℤ)) := by
  unfold V2.estimate
  refine V2.sum_near hl (by simp) fun i hi => ?_
  rw [List.length_map] at hi
  have e : (f.buckets[i]).countOnes = countBelow 32768 (f.bucketBit i) := by
    rw [BitSet.countOnes_eq]
    show countBelow 32768 _ = _
    refine countBelow_congr fun j _ => ?_
    unfold V2.bucketBit
    rw [List.getD_eq_getElem?_getD, List.getElem?_eq_getElem hi]
    rfl
  rw [List.getElem_map, e]
  obtain ⟨j, hj, hz⟩ := hf i hi
  exact V2.bucketEstimate_near ac hk (countBelow_lt hj hz)

/-- `ln 0` makes the estimate saturate. -/
theorem estimateCount_full {lm : Libm} (h0 : lm.ln (.fin 0) = .ninf) {bits k : U64} (hb : bits ≠ 0)
    (hk : k ≠ 0) : estimateCount lm bits bits k = BitVec.allOnes 64 := by
  obtain ⟨m, hm, _, m1, _⟩ := ofU64_bounds hb
  obtain ⟨kk, hkk, _, k1, _⟩ := ofU64_bounds hk
  have hm0 : m ≠ 0 := by linarith
  unfold estimateCount
  rw [hm, hkk, fdiv_fin hm0, div_self hm0]
  have e1 : rnd (1 : ℚ) = .fin 1 := by
    have := rnd_nat (m := 1) (by norm_num)
    simpa using this
  rw [e1, fsub_one, sub_self, rnd_zero, h0]
  have e2 : FVal.mul (.fin m) .ninf = .ninf := by
    show FVal.infTimes (-m) = _
    unfold FVal.infTimes
    rw [if_neg (by linarith), if_pos (by linarith)]
  rw [e2]
  have e3 : FVal.div .pinf (.fin kk) = .pinf := by
    unfold FVal.div
    simp only
    rw [if_pos (by linarith)]
  show FVal.toU64 (FVal.div .pinf (.fin kk)) = _
  rw [e3]
  rfl

end Poppy
