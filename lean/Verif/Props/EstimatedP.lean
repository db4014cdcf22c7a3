import Verif.Lemmas.EstimatedP
import Verif.Lemmas.Origin
import Verif.Props.FalsePos

/-!
# C103: `estimated_p` and what the accessors of a v1 filter report

`n_hash_fn` and `n_bits` are those that construction chose; `estimated_p` computes the textbook
false positive probability for the number of entries, but with the number of hash functions that
would be best for it instead of the number the filter uses.
-/

namespace Poppy

open Spec

namespace Sample

/-- The probability 1/128. -/
def p7 : F64 := 0x3F80000000000000#64

theorem p7_eq : FVal.ofBits p7 = .fin (1 / 128) := by decide +kernel
theorem p7_inRange : fppInRange p7 = true := by decide +kernel

/-- An empty filter for 100 entries with the probability 1/128. -/
def e7 : V1 :=
  { flags := Flags.new 1#8
    bitset := List.replicate 16 0#64
    capacity := 100
    fpp := p7
    nHash := 7
    bitSize := 1009
    count := 0
    data := []
    fingerprint := Fingerprint.new 7 1009 }

/-- Its first `n` keys. -/
noncomputable def e7Fill : ℕ → V1
  | 0 => e7
  | n + 1 => ((e7Fill n).insertBytes (envX false) [BitVec.ofNat 8 n]).1

theorem log_128 : Real.log ((1 / 128 : ℚ) : ℝ) = -(7 * Real.log 2) := by
  have : ((1 / 128 : ℚ) : ℝ) = ((2 : ℝ) ^ 7)⁻¹ := by norm_num
  rw [this, Real.log_inv, Real.log_pow]
  norm_num

theorem e7_make : V1.withCapacity (envX false) 100 p7 = .ok e7 := by
  have ac := envX_accurate false
  have hl := log_two_bounds
  obtain ⟨v, v0, hv, nv⟩ := bitSizeFor_near ac p7_inRange p7_eq 100
  have hx : ((100 : U64).toNat : ℝ) * -Real.log ((1 / 128 : ℚ) : ℝ) / Real.log 2 ^ 2
      = 700 / Real.log 2 := by
    rw [log_128]
    show ((100 : ℕ) : ℝ) * _ / _ = _
    have : Real.log 2 ≠ 0 := by linarith
    field_simp
    norm_num
  rw [hx] at nv
  have x1 : (1009.8 : ℝ) ≤ 700 / Real.log 2 := by
    rw [le_div_iff₀ (by linarith)]
    have := Real.log_two_lt_d9
    linarith
  have x2 : 700 / Real.log 2 ≤ (1009.95 : ℝ) := by
    rw [div_le_iff₀ (by linarith)]
    have := Real.log_two_gt_d9
    linarith
  have hu := halfUlp_lt
  have hu0 := halfUlp_pos
  have hv1 : (1009 : ℝ) ≤ v := le_trans (by nlinarith) nv.1
  have hv2 : (v : ℝ) < 1010 := lt_of_le_of_lt nv.2 (by nlinarith)
  have hf : ⌊v⌋ = 1009 := by
    rw [Int.floor_eq_iff]
    constructor
    · exact_mod_cast hv1
    · have : v < 1010 := by exact_mod_cast hv2
      push_cast
      linarith
  have hb : bitSizeFor (envX false).libm 100 (FVal.ofBits p7) = 1009 := by
    apply BitVec.eq_of_toNat_eq
    rw [hv, toU64_fin (by rw [hf]; norm_num), hf]
    rfl
  have hk : kHash (envX false).libm 1009 100 = 7 := by
    obtain ⟨k, e, _, _, k1, k2⟩ := kHash_bounds (c := 1009) (cap := 100) ac (by decide) (by decide)
      (by decide)
    apply BitVec.eq_of_toNat_eq
    rw [e]
    have b : bestHashes (1009 : U64).toNat (100 : U64).toNat = 1009 / 100 * Real.log 2 := by
      show ((1009 : ℕ) : ℝ) / ((100 : ℕ) : ℝ) * _ = _
      norm_num
    rw [b] at k1 k2
    have l1 := Real.log_two_gt_d9
    have l2 := Real.log_two_lt_d9
    have s44 : (2 : ℝ) ^ (-44 : ℤ) ≤ 1 / 1000000 := by norm_num
    have p44 : (0 : ℝ) < 2 ^ (-44 : ℤ) := by positivity
    generalize (2 : ℝ) ^ (-44 : ℤ) = ε at *
    have a1 : (6 : ℝ) < k := by nlinarith
    have a2 : (k : ℝ) < 8 := by nlinarith
    have a1 : 6 < k := by exact_mod_cast a1
    have a2 : k < 8 := by exact_mod_cast a2
    show k = 7
    omega
  unfold V1.withCapacity
  rw [p7_inRange]
  simp only [Bool.not_true, Bool.false_eq_true, if_false]
  have hz : u64SizeFor 1009 = 16 := by decide +kernel
  rw [hb, hk, hz, Env.alloc_of_le (by show 16 * 8 ≤ 2 ^ 20; norm_num)]
  rfl

theorem e7Fill_built : ∀ n, V1.Built (envX false) (e7Fill n)
  | 0 => .make e7_make
  | n + 1 => .insert _ (e7Fill_built n)

set_option maxRecDepth 100000 in
theorem e7Fill_50 : (e7Fill 50).count = 50 ∧ (e7Fill 50).bitSize = 1009 ∧ (e7Fill 50).nHash = 7
    ∧ (e7Fill 50).capacity = 100 := by decide +kernel

set_option maxRecDepth 100000 in
theorem e7Fill_100 : (e7Fill 100).count = 100 ∧ (e7Fill 100).bitSize = 1009 ∧
    (e7Fill 100).nHash = 7 ∧ (e7Fill 100).capacity = 100 ∧ (e7Fill 100).fpp = p7 := by decide +kernel

end Sample

/-- Whatever was done with a filter, its accessors report what construction chose for the capacity
and the probability that they report. -/
theorem C103_accessors {env : Env} {f : V1} (h : V1.Built env f) :
    ∃ f0, V1.withCapacity env f.capacity f.fpp = .ok f0 ∧ f.nBits = f0.nBits ∧
      f.nHashFn = f0.nHashFn := by
  obtain ⟨cap, fpp, f0, h0, s⟩ := h.origin
  have h1 := s.capacity
  have h2 := s.fpp
  simp only at h1 h2
  refine ⟨f0, ?_, s.bitSize, s.nHash⟩
  have e := (V1.withCapacity_ok h0).2.2
  rw [h1, h2, show f0.capacity = cap by rw [e], show f0.fpp = fpp by rw [e]]
  exact h0

/-- They meet the textbook formulas. -/
theorem C103_textbook {env : Env} (hs : env.Small) (ac : env.libm.Accurate) {f : V1}
    (h : V1.Built env f) {p : ℚ} (hp : FVal.ofBits f.fpp = .fin p) :
    (bestBits f.capacity.toNat p * (1 - 2 ^ (-44 : ℤ)) - 1 < f.nBits.toNat ∧
      f.nBits.toNat ≤ bestBits f.capacity.toNat p * (1 + 2 ^ (-44 : ℤ))) ∧
    (f.capacity ≠ 0 →
      bestHashes f.nBits.toNat f.capacity.toNat * (1 - 2 ^ (-44 : ℤ)) ≤ f.nHashFn.toNat ∧
      f.nHashFn.toNat < bestHashes f.nBits.toNat f.capacity.toNat * (1 + 2 ^ (-44 : ℤ)) + 1) := by
  obtain ⟨f0, h0, e1, e2⟩ := C103_accessors h
  rw [e1, e2]
  exact ⟨C71_v1_bits hs ac h0 hp, fun hc => C71_v1_hashes hs ac h0 hc⟩

/-- `estimated_p` is, to a relative error of 2^-34, the textbook false positive probability of a
filter with as many bits and entries, but with the number `k` of hash functions that is best for
these: it does not look at the number of hash functions of the filter. -/
theorem C103_estimate {env : Env} (ac : env.libm.Accurate) (ax : env.libm.AccurateExp)
    (ap : env.libm.AccuratePow) {f : V1} (h0 : f.count ≠ 0) (h1 : f.count.toNat ≤ f.nBits.toNat)
    (h2 : f.nBits.toNat ≤ 500 * f.count.toNat) :
    ∃ (k : ℕ) (v : ℚ), f.estimatedP env = .fin v ∧
      bestHashes f.nBits.toNat f.count.toNat * (1 - 2 ^ (-44 : ℤ)) ≤ k ∧
      k < bestHashes f.nBits.toNat f.count.toNat * (1 + 2 ^ (-44 : ℤ)) + 1 ∧
      |(v : ℝ) - falsePos f.nBits.toNat k f.count.toNat|
        ≤ 2 ^ (-34 : ℤ) * falsePos f.nBits.toNat k f.count.toNat := by
  obtain ⟨k, hk, _, _, k1, k2⟩ := kHash_bounds ac h0 h1 h2
  obtain ⟨v, hv, nv⟩ := estimateP_rate ac ax ap h0 h1 h2
  rw [hk] at nv
  refine ⟨k, v, hv, k1, k2, ?_⟩
  have := nv.1
  have := nv.2
  rw [abs_le]
  constructor <;> linarith

/-- When as many entries were inserted as the filter was made for, it is the false positive
probability of the filter, and at most about 1.3 times the requested one. -/
theorem C103_full_partial {env : Env} (hs : env.Small) (ac : env.libm.Accurate)
    (ax : env.libm.AccurateExp) (ap : env.libm.AccuratePow) {f : V1} (h : V1.Built env f)
    (hf : f.isFull = true) (h0 : f.capacity ≠ 0) (h1 : f.capacity.toNat ≤ f.nBits.toNat)
    (h2 : f.nBits.toNat ≤ 500 * f.capacity.toNat) {p : ℚ} (hp : FVal.ofBits f.fpp = .fin p) :
    ∃ v : ℚ, f.estimatedP env = .fin v ∧
      |(v : ℝ) - falsePos f.nBits.toNat f.nHashFn.toNat f.count.toNat|
        ≤ 2 ^ (-34 : ℤ) * falsePos f.nBits.toNat f.nHashFn.toNat f.count.toNat ∧
      v ≤ (1 + 2 ^ (-34 : ℤ)) * (Real.exp (1 / 4 + 1 / (2 * f.capacity.toNat)) *
        (p : ℝ) ^ (1 - 2 ^ (-41 : ℤ) : ℝ)) := by
  have hc : f.count = f.capacity := by
    simpa [V1.isFull, V1.countEstimate] using hf
  obtain ⟨f0, hm, e1, e2⟩ := C103_accessors h
  have hk : kHash env.libm f.bitSize f.capacity = f.nHash := by
    have e := (V1.withCapacity_ok hm).2.2
    have a : f.bitSize = f0.bitSize := e1
    have b : f.nHash = f0.nHash := e2
    rw [a, b, e]
  obtain ⟨v, hv, nv⟩ := estimateP_rate ac ax ap (cap := f.capacity) (c := f.bitSize) h0 h1 h2
  rw [hk] at nv
  have h76 := C76_v1 hs ac hm h0 hp (le_refl _)
  have a : f.bitSize = f0.bitSize := e1
  have b : f.nHash = f0.nHash := e2
  rw [← a, ← b] at h76
  have := nv.1
  have := nv.2
  refine ⟨v, by rw [V1.estimatedP, hc]; exact hv, ?_, ?_⟩
  · show |(v : ℝ) - falsePos f.bitSize.toNat f.nHash.toNat f.count.toNat|
      ≤ _ * falsePos f.bitSize.toNat f.nHash.toNat f.count.toNat
    rw [hc, abs_le]
    constructor <;> linarith
  · have p34 : (0 : ℝ) < 2 ^ (-34 : ℤ) := by positivity
    generalize (2 : ℝ) ^ (-34 : ℤ) = ε at *
    nlinarith

/-- It exceeds the textbook false positive probability of the filter by at most the factor
`exp (1/4)` (about 1.3), whatever the number of hash functions of the filter is. -/
theorem C103_upper {env : Env} (ac : env.libm.Accurate) (ax : env.libm.AccurateExp)
    (ap : env.libm.AccuratePow) {f : V1} (h0 : f.count ≠ 0) (h1 : f.count.toNat ≤ f.nBits.toNat)
    (h2 : f.nBits.toNat ≤ 500 * f.count.toNat) :
    ∃ v : ℚ, f.estimatedP env = .fin v ∧
      v ≤ Real.exp (1 / 4 + 2 ^ (-33 : ℤ)) *
        falsePos f.nBits.toNat f.nHashFn.toNat f.count.toNat := by
  obtain ⟨k, v, hv, k1, k2, hd⟩ := C103_estimate ac ax ap h0 h1 h2
  refine ⟨v, hv, ?_⟩
  have hn : (0 : ℝ) < f.count.toNat := by exact_mod_cast toNat_pos_of_ne h0
  have h1' : (f.count.toNat : ℝ) ≤ f.nBits.toNat := by exact_mod_cast h1
  have h2' : (f.nBits.toNat : ℝ) ≤ 500 * f.count.toNat := by exact_mod_cast h2
  have hm : (0 : ℝ) < f.nBits.toNat := by linarith
  have a := falsePos_le hm.le hn (e := 2 ^ (-44 : ℤ)) (by positivity) (by norm_num) k1 k2
  have b := falsePos_ge hm hn f.nHashFn.toNat
  have hl := log_two_bounds
  have r2 : bestHashes f.nBits.toNat f.count.toNat ≤ 500 * Real.log 2 := by
    unfold bestHashes
    have : (f.nBits.toNat : ℝ) / f.count.toNat ≤ 500 := by rw [div_le_iff₀ hn]; linarith
    nlinarith
  have r0 : 0 ≤ bestHashes f.nBits.toNat f.count.toNat := by
    unfold bestHashes
    have : (0 : ℝ) ≤ f.nBits.toNat / f.count.toNat := by positivity
    nlinarith
  have c := (abs_le.1 hd).2
  generalize falsePos f.nBits.toNat f.nHashFn.toNat f.count.toNat = y at *
  generalize falsePos f.nBits.toNat k f.count.toNat = x at *
  generalize bestHashes f.nBits.toNat f.count.toNat = z at *
  have e1 : (v : ℝ) ≤ Real.exp (2 ^ (-34 : ℤ)) * x := by
    have hx : 0 ≤ x := by
      by_contra hx
      have := (abs_nonneg _).trans hd
      have p34 : (0 : ℝ) < 2 ^ (-34 : ℤ) := by positivity
      nlinarith
    have := Real.add_one_le_exp ((2 : ℝ) ^ (-34 : ℤ))
    nlinarith
  refine e1.trans ((mul_le_mul_of_nonneg_left a (Real.exp_pos _).le).trans
    (le_trans ?_ (mul_le_mul_of_nonneg_left b (Real.exp_pos _).le)))
  rw [← Real.exp_add, ← Real.exp_add]
  apply Real.exp_le_exp.2
  have : z * Real.log 2 ≤ 500 := by nlinarith
  have : z * Real.log 2 * 2 ^ (-44 : ℤ) ≤ 2 ^ (-34 : ℤ) := by
    have e : (2 : ℝ) ^ (-44 : ℤ) * 2 ^ 10 = 2 ^ (-34 : ℤ) := by norm_num
    have : (0 : ℝ) < 2 ^ (-44 : ℤ) := by positivity
    nlinarith
  have e : (2 : ℝ) ^ (-33 : ℤ) = 2 ^ (-34 : ℤ) + 2 ^ (-34 : ℤ) := by norm_num
  rw [e]
  linarith

/-- With at least as many entries as it was made for, a filter is not better than requested. -/
theorem C103_requested {env : Env} (hs : env.Small) (ac : env.libm.Accurate) {f : V1}
    (h : V1.Built env f) (h0 : f.capacity ≠ 0) (hb : f.nBits ≠ 0) {p : ℚ}
    (hp : FVal.ofBits f.fpp = .fin p) {n : ℕ} (hn : f.capacity.toNat ≤ n) :
    (p : ℝ) ^ (1 + 2 ^ (-44 : ℤ) : ℝ) ≤ falsePos f.nBits.toNat f.nHashFn.toNat n := by
  obtain ⟨⟨_, b2⟩, _⟩ := C103_textbook hs ac h hp
  obtain ⟨f0, hm, _⟩ := C103_accessors h
  obtain ⟨_, _, e, q0, q1, _⟩ := ac.ln_fpp (V1.withCapacity_ok hm).1
  rw [hp] at e
  cases e
  have hc : (0 : ℝ) < f.capacity.toNat := by exact_mod_cast toNat_pos_of_ne h0
  have hm : (0 : ℝ) < f.nBits.toNat := by exact_mod_cast toNat_pos_of_ne hb
  have q0 : (0 : ℝ) < p := by exact_mod_cast q0
  refine le_trans ?_ (falsePos_mono hm.le _ hc.le (by exact_mod_cast hn))
  refine le_trans ?_ (falsePos_ge hm hc _)
  rw [Real.rpow_def_of_pos q0]
  apply Real.exp_le_exp.2
  unfold bestHashes
  unfold bestBits at b2
  have hl : 0 < Real.log 2 := Real.log_pos one_lt_two
  have : (f.nBits.toNat : ℝ) / f.capacity.toNat * Real.log 2 * Real.log 2
      ≤ -Real.log p * (1 + 2 ^ (-44 : ℤ)) := by
    have : (f.nBits.toNat : ℝ) / f.capacity.toNat * Real.log 2 * Real.log 2
      = f.nBits.toNat * (Real.log 2 ^ 2 / f.capacity.toNat) := by ring
    rw [this]
    refine (mul_le_mul_of_nonneg_right b2 (by positivity)).trans (le_of_eq ?_)
    field_simp
  linarith

/-- In general it is not: a filter made for 100 entries that holds 50 reports less than half of its
textbook false positive probability. -/
theorem C103_violated :
    ∃ (env : Env) (f : V1) (v : ℚ), env.Small ∧ env.libm.Accurate ∧ env.libm.AccurateExp ∧
      env.libm.AccuratePow ∧ V1.Built env f ∧ 2 * f.count.toNat = f.capacity.toNat ∧
      f.estimatedP env = .fin v ∧
      2 * (v : ℝ) < falsePos f.nBits.toNat f.nHashFn.toNat f.count.toNat := by
  obtain ⟨c1, c2, c3, c4⟩ := Sample.e7Fill_50
  have hb := Sample.e7Fill_built 50
  generalize Sample.e7Fill 50 = f at *
  have ax : (Sample.envX false).libm.AccurateExp := Libm.exact_accurateExp
  have ap : (Sample.envX false).libm.AccuratePow := Libm.exact_accuratePow
  obtain ⟨k, v, hv, k1, k2, hd⟩ := C103_estimate (Sample.envX_accurate false) ax ap (f := f)
    (by rw [c1]; decide) (by rw [c1, V1.nBits, c2]; decide) (by rw [c1, V1.nBits, c2]; decide)
  refine ⟨_, f, v, Sample.envX_small false, Sample.envX_accurate false, ax, ap, hb,
    by rw [c1, c4]; rfl, hv, ?_⟩
  have n1 : (f.nBits.toNat : ℝ) = 1009 := by
    rw [V1.nBits, c2]; show ((1009 : ℕ) : ℝ) = _; norm_num
  have n2 : (f.count.toNat : ℝ) = 50 := by rw [c1]; show ((50 : ℕ) : ℝ) = _; norm_num
  have n3 : f.nHashFn.toNat = 7 := by rw [V1.nHashFn, c3]; rfl
  rw [n1, n2] at k1 k2 hd
  rw [n1, n2, n3]
  have l1 := Real.log_two_gt_d9
  have l2 := Real.log_two_lt_d9
  have hk : k = 14 := by
    unfold bestHashes at k1 k2
    have s44 : (2 : ℝ) ^ (-44 : ℤ) ≤ 1 / 1000000 := by norm_num
    have p44 : (0 : ℝ) < 2 ^ (-44 : ℤ) := by positivity
    generalize (2 : ℝ) ^ (-44 : ℤ) = ε at *
    have a1 : (13 : ℝ) < k := by nlinarith
    have a2 : (k : ℝ) < 15 := by nlinarith
    have a1 : 13 < k := by exact_mod_cast a1
    have a2 : k < 15 := by exact_mod_cast a2
    omega
  subst hk
  -- one load is just above log 2, the other just above half of it
  have b1 : falsePos 1009 14 50 ≤ (51 / 100) ^ 14 := by
    unfold falsePos
    have : (49 / 100 : ℝ) ≤ Real.exp (-((14 : ℕ) * 50 / 1009)) := by
      have e : Real.exp (-(Real.log 2)) = 1 / 2 := by
        rw [Real.exp_neg, Real.exp_log two_pos, one_div]
      have h : Real.exp (-(Real.log 2)) * Real.exp (-(1 / 1000)) ≤
          Real.exp (-((14 : ℕ) * 50 / 1009)) := by
        rw [← Real.exp_add]
        apply Real.exp_le_exp.2
        push_cast
        linarith
      have := Real.add_one_le_exp (-(1 / 1000) : ℝ)
      rw [e] at h
      linarith
    have h1 : Real.exp (-((14 : ℕ) * 50 / 1009)) ≤ 1 := Real.exp_le_one_iff.2 (by norm_num)
    exact pow_le_pow_left₀ (by linarith) (by linarith) _
  have b2 : (29 / 100 : ℝ) ^ 7 ≤ falsePos 1009 7 50 := by
    unfold falsePos
    have : Real.exp (-((7 : ℕ) * 50 / 1009)) ≤ 71 / 100 := by
      have h := Real.exp_le_exp.2 (show -((7 : ℕ) * 50 / 1009 : ℝ) ≤ -(Real.log 2 / 2) by
        push_cast; linarith)
      refine h.trans ?_
      have e : Real.exp (-(Real.log 2 / 2)) ^ 2 = 1 / 2 := by
        rw [← Real.exp_nat_mul]
        rw [show ((2 : ℕ) : ℝ) * -(Real.log 2 / 2) = -Real.log 2 by push_cast; ring, Real.exp_neg,
          Real.exp_log two_pos, one_div]
      have := Real.exp_pos (-(Real.log 2 / 2))
      nlinarith
    exact pow_le_pow_left₀ (by norm_num) (by linarith) _
  have p34 : (2 : ℝ) ^ (-34 : ℤ) ≤ 1 / 1000 := by norm_num
  have p0 : 0 ≤ falsePos 1009 14 50 := by
    unfold falsePos
    have h1 : Real.exp (-((14 : ℕ) * 50 / 1009)) ≤ 1 := Real.exp_le_one_iff.2 (by norm_num)
    exact pow_nonneg (by linarith) _
  have := (abs_le.1 hd).2
  have hn : 2 * ((1 + 1 / 1000) * (51 / 100 : ℝ) ^ 14) < (29 / 100) ^ 7 := by norm_num
  generalize (2 : ℝ) ^ (-34 : ℤ) = ε at *
  have hm : ε * falsePos 1009 14 50 ≤ 1 / 1000 * falsePos 1009 14 50 :=
    mul_le_mul_of_nonneg_right p34 p0
  linarith

/-- For an empty filter with at least one bit it is 0, if `exp(0) = 1` and powers of zero are zero,
as IEEE 754 demands. -/
theorem C103_empty {env : Env} (sp : env.libm.Spec) (he : env.libm.exp (.fin 0) = .fin 1)
    (hz : ∀ k : ℚ, 0 < k → env.libm.powf (.fin 0) (.fin k) = .fin 0) {f : V1}
    (h : f.count = 0) (hb : f.nBits ≠ 0) : f.estimatedP env = .fin 0 := by
  obtain ⟨r, hr, r1, r2⟩ := sp.ln_two
  obtain ⟨d, hd, d0, _, _, d1, d64⟩ := near_ofU64 f.nBits
  have d1 := d1 hb
  have hd' : FVal.ofU64 f.bitSize = .fin d := hd
  obtain ⟨g1, g2⟩ := rnd_near (x := r * d) (by nlinarith) (by nlinarith)
  have hk : kHash env.libm f.bitSize 0 = BitVec.allOnes 64 := by
    have hp : (0 : ℝ) < (rndQ (r * d) : ℚ) := by
      have := halfUlp_lt
      refine lt_of_lt_of_le (mul_pos ?_ (by linarith)) g2.1
      have : (0 : ℚ) < r * d := by nlinarith
      exact_mod_cast this
    have hp : 0 < rndQ (r * d) := by exact_mod_cast hp
    unfold kHash
    rw [show FVal.two = .fin 2 from rfl, hr, hd']
    show FVal.toU64 (FVal.ceil (FVal.div (rnd (r * d)) (FVal.ofU64 0))) = _
    rw [g1]
    have : FVal.ofU64 0 = .fin 0 := by decide +kernel
    rw [this]
    generalize rndQ (r * d) = y at *
    show FVal.toU64 (FVal.ceil (if (0 : ℚ) = 0 then FVal.infTimes y else rnd (y / 0))) = _
    rw [if_pos rfl, FVal.infTimes, if_pos hp]
    rfl
  unfold V1.estimatedP estimateP
  rw [h]
  simp only
  rw [hk, hd']
  have e1 : FVal.mul (FVal.neg (FVal.ofU64 (BitVec.allOnes 64))) (FVal.ofU64 0) = .fin 0 := by
    decide +kernel
  have e2 : FVal.ofU64 (BitVec.allOnes 64) = .fin (2 ^ 64) := by decide +kernel
  rw [e1, fdiv_fin (by linarith), zero_div, show rnd (0 : ℚ) = .fin 0 by decide +kernel, he,
    show FVal.sub .one (.fin 1) = .fin 0 by decide +kernel, e2]
  exact hz _ (by norm_num)

-- the full filter, the half full one, and the empty one
example : ∃ v : ℚ, (Sample.e7Fill 100).estimatedP (Sample.envX false) = .fin v ∧
    |(v : ℝ) - falsePos (Sample.e7Fill 100).nBits.toNat (Sample.e7Fill 100).nHashFn.toNat
        (Sample.e7Fill 100).count.toNat|
      ≤ 2 ^ (-34 : ℤ) * falsePos (Sample.e7Fill 100).nBits.toNat (Sample.e7Fill 100).nHashFn.toNat
        (Sample.e7Fill 100).count.toNat := by
  obtain ⟨c1, c2, c3, c4, c5⟩ := Sample.e7Fill_100
  obtain ⟨v, h1, h2, -⟩ := C103_full_partial (Sample.envX_small false) (Sample.envX_accurate false)
    Libm.exact_accurateExp Libm.exact_accuratePow (Sample.e7Fill_built 100)
    (by rw [V1.isFull, V1.countEstimate, c1, c4]; decide) (by rw [c4]; decide)
    (by rw [c4, V1.nBits, c2]; decide) (by rw [c4, V1.nBits, c2]; decide)
    (by rw [c5]; exact Sample.p7_eq)
  exact ⟨v, h1, h2⟩
example : ((1 / 128 : ℚ) : ℝ) ^ (1 + 2 ^ (-44 : ℤ) : ℝ)
    ≤ falsePos (Sample.e7Fill 50).nBits.toNat (Sample.e7Fill 50).nHashFn.toNat (200 : ℕ) := by
  obtain ⟨c1, c2, c3, c4⟩ := Sample.e7Fill_50
  have c5 : (Sample.e7Fill 50).fpp = Sample.p7 := by decide +kernel
  exact C103_requested (Sample.envX_small false) (Sample.envX_accurate false)
    (Sample.e7Fill_built 50) (by rw [c4]; decide) (by rw [V1.nBits, c2]; decide)
    (by rw [c5]; exact Sample.p7_eq) (by rw [c4]; decide)
example : ∃ (k : ℕ) (v : ℚ), (Sample.e7Fill 50).estimatedP (Sample.envX false) = .fin v ∧
    bestHashes (Sample.e7Fill 50).nBits.toNat (Sample.e7Fill 50).count.toNat * (1 - 2 ^ (-44 : ℤ))
      ≤ k := by
  obtain ⟨c1, c2, -, -⟩ := Sample.e7Fill_50
  obtain ⟨k, v, h1, h2, -⟩ := C103_estimate (Sample.envX_accurate false) Libm.exact_accurateExp
    Libm.exact_accuratePow (f := Sample.e7Fill 50) (by rw [c1]; decide)
    (by rw [c1, V1.nBits, c2]; decide) (by rw [c1, V1.nBits, c2]; decide)
  exact ⟨k, v, h1, h2⟩
example : ∃ f0, V1.withCapacity (Sample.envX false) (Sample.e7Fill 50).capacity
    (Sample.e7Fill 50).fpp = .ok f0 ∧ (Sample.e7Fill 50).nBits = f0.nBits ∧
    (Sample.e7Fill 50).nHashFn = f0.nHashFn := C103_accessors (Sample.e7Fill_built 50)

example : Sample.e7.estimatedP (Sample.envX false) = .fin 0 := by
  have h1 : rnd (1 : ℝ) = .fin 1 := by
    have := rnd_of_isF (K := ℝ) isF_one (by
      have := two_pow_lt_f64Huge (n := 0) (by norm_num)
      simpa using this)
    simpa using this
  have h2 : rnd (0 : ℝ) = .fin 0 := by
    have := rnd_of_isF (K := ℝ) isF_zero (by rw [abs_zero]; exact f64Huge_pos)
    simpa using this
  refine C103_empty (Sample.envX_accurate false).spec ?_ ?_ rfl (by decide)
  · show rnd (Real.exp ((0 : ℚ) : ℝ)) = _
    rw [Rat.cast_zero, Real.exp_zero, h1]
  · intro k hk
    show Libm.exact.powf _ _ = _
    rw [Libm.exact_powf le_rfl, Rat.cast_zero, Real.zero_rpow (by exact_mod_cast hk.ne'), h2]

end Poppy
