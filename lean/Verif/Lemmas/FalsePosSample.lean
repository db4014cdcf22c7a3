import Verif.Lemmas.AccuracySizes
import Verif.Props.Accuracy

/-! # A filter of level `Best` with too few hash functions -/

namespace Poppy

open Spec

namespace Sample

/-- `2^-30` -/
def tiny : F64 := 0x3E10000000000000#64

theorem tiny_inRange : fppInRange tiny = true := (fppInRange_iff _).2 (by decide)

theorem tiny_eq : FVal.ofBits tiny = .fin (1 / 2 ^ 30) := by decide +kernel

/-- With `2^-30` a bucket takes 757 entries. -/
theorem tiny_bucket : capFromBitSize Libm.exact V2.bucketBitSize (FVal.ofBits tiny) = 757 := by
  obtain ⟨c1, c2⟩ := bucketCap_bounds Libm.exact_accurate tiny_inRange tiny_eq (by norm_num)
  have hl1 := Real.log_two_gt_d9
  have hl2 := Real.log_two_lt_d9
  have hz : bestCapacity 32768 ((1 / 2 ^ 30 : ℚ) : ℝ) = 32768 / 30 * Real.log 2 := by
    unfold bestCapacity
    have : Real.log ((1 / 2 ^ 30 : ℚ) : ℝ) = -(30 * Real.log 2) := by
      push_cast
      rw [one_div, Real.log_inv, Real.log_pow]
      push_cast
      ring
    have h0 : Real.log 2 ≠ 0 := by linarith
    rw [this]
    field_simp
  rw [hz] at c1 c2
  generalize capFromBitSize Libm.exact V2.bucketBitSize (FVal.ofBits tiny) = c at *
  have a1 : (756 : ℝ) < c.toNat := lt_of_le_of_lt (by norm_num; linarith) c1
  have a2 : (c.toNat : ℝ) < 758 := lt_of_le_of_lt c2 (by norm_num; linarith)
  have a1 : 756 < c.toNat := by exact_mod_cast a1
  have a2 : c.toNat < 758 := by exact_mod_cast a2
  exact BitVec.eq_of_toNat_eq (show c.toNat = 757 by omega)

theorem rnd_within {x a b : ℚ} (ha : IsF a) (hb : IsF b) (h1 : a ≤ x) (h2 : x ≤ b)
    (hA : -(2 ^ 64) ≤ a) (hB : b ≤ 2 ^ 64) : ∃ r, rnd x = .fin r ∧ a ≤ r ∧ r ≤ b := by
  have l1 := le_rndQ x ha (by simpa using h1)
  have l2 := rndQ_le x hb (by simpa using h2)
  refine ⟨rndQ x, ?_, l1, l2⟩
  have := neg_huge_lt hA
  have := small_lt_huge hB
  unfold rnd
  simp only
  rw [if_neg (by linarith), if_neg (by linarith)]

theorem tiny_kHash : kHash Libm.exact 131072 65537 = 2 := by
  obtain ⟨v, v0, _, hv, nv⟩ := kHash_near Libm.exact_accurate (bits := 131072) (cap := 65537) (by decide)
  have hl1 := Real.log_two_gt_d9
  have hl2 := Real.log_two_lt_d9
  have hx : 0 ≤ Real.log 2 * (131072 : U64).toNat / (65537 : U64).toNat := by positivity
  obtain ⟨b1, b2⟩ := nv.mono hx (e' := 2 ^ (-44 : ℤ)) (by unfold halfUlp; norm_num)
  have e : Real.log 2 * (131072 : U64).toNat / (65537 : U64).toNat
    = Real.log 2 * 131072 / 65537 := by
    show Real.log 2 * ((131072 : ℕ) : ℝ) / ((65537 : ℕ) : ℝ) = _
    norm_num
  rw [e] at b1 b2
  have c1 : (1 : ℝ) < v := lt_of_lt_of_le (by norm_num; linarith) b1
  have c2 : (v : ℝ) ≤ 2 := le_trans b2 (by norm_num; linarith)
  have c1 : 1 < v := by exact_mod_cast c1
  have c2 : v ≤ 2 := by exact_mod_cast c2
  have : ⌈v⌉ = 2 := by
    rw [Int.ceil_eq_iff]
    constructor <;> push_cast <;> linarith
  rw [hv, this]
  decide +kernel

theorem tiny_nHash : V2.nHashOpt Libm.exact 65537 131072 (.fin 43) = 12 := by
  have hl1 := Real.log_two_gt_d9
  have hl2 := Real.log_two_lt_d9
  have h2 : ∀ {m : ℤ} {e : ℕ}, |m| ≤ 2 ^ 53 → e ≤ 1074 → IsF ((m : ℚ) / 2 ^ e) := fun a b => isF_dyadic _ _ a b
  -- the exponential
  obtain ⟨r, hr, r1, r2, _⟩ : ∃ r, rnd (Real.exp ((-65537 / 65536 : ℚ) : ℝ)) = .fin r ∧
      ((24105 : ℤ) : ℚ) / 2 ^ 16 ≤ r ∧ r ≤ ((24112 : ℤ) : ℚ) / 2 ^ 16 ∧
      r = rndQ (Real.exp ((-65537 / 65536 : ℚ) : ℝ)) := by
    have x1 := Real.exp_one_gt_d9
    have x2 := Real.exp_one_lt_d9
    have e : Real.exp ((-65537 / 65536 : ℚ) : ℝ) = (Real.exp 1)⁻¹ * Real.exp (-(1 / 65536)) := by
      rw [← Real.exp_neg, ← Real.exp_add]
      congr 1
      norm_num
    have y1 := Real.add_one_le_exp (-(1 / 65536) : ℝ)
    have y2 : Real.exp (-(1 / 65536) : ℝ) ≤ 1 := Real.exp_le_one_iff.2 (by norm_num)
    have z1 : (36787 / 100000 : ℝ) ≤ (Real.exp 1)⁻¹ := by
      rw [le_inv_comm₀ (by norm_num) (by linarith)]
      norm_num; linarith
    have z2 : (Real.exp 1)⁻¹ ≤ (36789 / 100000 : ℝ) := by
      rw [inv_le_comm₀ (by linarith) (by norm_num)]
      norm_num; linarith
    refine rnd_between (h2 (by norm_num) (by norm_num)) (h2 (by norm_num) (by norm_num)) ?_ ?_
      (neg_huge_lt (by norm_num)) (small_lt_huge (by norm_num))
    · rw [e]
      push_cast
      nlinarith
    · rw [e]
      push_cast
      nlinarith [Real.exp_pos (-(1 / 65536) : ℝ)]
  -- one minus it
  obtain ⟨s, hs, s1, s2⟩ := rnd_within (x := 1 + -r) (a := ((41424 : ℤ) : ℚ) / 2 ^ 16)
    (b := ((41431 : ℤ) : ℚ) / 2 ^ 16) (h2 (by norm_num) (by norm_num)) (h2 (by norm_num) (by norm_num))
    (by push_cast at r2 ⊢; linarith) (by push_cast at r1 ⊢; linarith) (by norm_num) (by norm_num)
  have s0 : 0 ≤ s := le_trans (by norm_num) s1
  -- its square
  obtain ⟨w, hw, w1, w2, _⟩ := rnd_between (x := (s : ℝ) ^ ((2 : ℚ) : ℝ)) (a := ((26183 : ℤ) : ℚ) / 2 ^ 16)
    (b := ((26193 : ℤ) : ℚ) / 2 ^ 16) (h2 (by norm_num) (by norm_num)) (h2 (by norm_num) (by norm_num))
    (by
      have : ((((41424 : ℤ) : ℚ) / 2 ^ 16 : ℚ) : ℝ) ≤ s := by exact_mod_cast s1
      push_cast at this ⊢
      rw [Real.rpow_ofNat]
      nlinarith)
    (by
      have : (s : ℝ) ≤ ((((41431 : ℤ) : ℚ) / 2 ^ 16 : ℚ) : ℝ) := by exact_mod_cast s2
      have h0 : (0 : ℝ) ≤ s := by exact_mod_cast s0
      push_cast at this ⊢
      rw [Real.rpow_ofNat]
      nlinarith)
    (neg_huge_lt (by norm_num)) (small_lt_huge (by norm_num))
  -- the logarithm of two
  obtain ⟨l, hl, l1, l2, _⟩ := rnd_between (x := Real.log ((2 : ℚ) : ℝ)) (a := ((45425 : ℤ) : ℚ) / 2 ^ 16)
    (b := ((45427 : ℤ) : ℚ) / 2 ^ 16) (h2 (by norm_num) (by norm_num)) (h2 (by norm_num) (by norm_num))
    (by push_cast; linarith) (by push_cast; linarith)
    (neg_huge_lt (by norm_num)) (small_lt_huge (by norm_num))
  push_cast at w1 w2 l1 l2
  -- the products
  obtain ⟨x, hx, x1, x2⟩ := rnd_within (x := l * w) (a := ((18147 : ℤ) : ℚ) / 2 ^ 16)
    (b := ((18157 : ℤ) : ℚ) / 2 ^ 16) (h2 (by norm_num) (by norm_num)) (h2 (by norm_num) (by norm_num))
    (by push_cast; nlinarith) (by push_cast; nlinarith) (by norm_num) (by norm_num)
  push_cast at x1 x2
  obtain ⟨y, hy, y1, y2⟩ := rnd_within (x := x * 43) (a := ((23 : ℤ) : ℚ) / 2 ^ 1)
    (b := ((24 : ℤ) : ℚ) / 2 ^ 1) (h2 (by norm_num) (by norm_num)) (h2 (by norm_num) (by norm_num))
    (by push_cast; linarith) (by push_cast; linarith) (by norm_num) (by norm_num)
  have hc : ⌈y⌉ = 12 := by
    rw [Int.ceil_eq_iff]
    push_cast at y1 y2 ⊢
    constructor <;> linarith
  unfold V2.nHashOpt estimateP
  rw [tiny_kHash]
  have e1 : FVal.div (FVal.mul (FVal.neg (FVal.ofU64 2)) (FVal.ofU64 65537)) (FVal.ofU64 131072)
    = .fin (-65537 / 65536) := by decide +kernel
  have e2 : Libm.exact.exp (.fin (-65537 / 65536)) = .fin r := hr
  have e3 : FVal.sub .one (.fin r) = .fin s := hs
  have e4 : FVal.ofU64 2 = .fin 2 := by decide +kernel
  have e5 : Libm.exact.ln .two = .fin l := by rw [← hl]; exact Libm.exact_ln (by norm_num)
  have e6 : FVal.mul (.fin l) (.fin w) = .fin x := hx
  have e7 : FVal.mul (.fin x) (.fin 43) = .fin y := hy
  have e8 : FVal.ceil (.fin y) = .fin 12 := by show FVal.fin _ = _; rw [hc]; rfl
  simp only [e1, e2, e3]
  rw [e4, Libm.exact_powf s0, hw, e5, e6, e7, e8]
  decide +kernel

/-- It has 12 hash functions instead of 30. -/
theorem tiny_make : ∃ f, V2.make (envX false) 65537 tiny .best = .ok f ∧ f.nHashBuck = 12 ∧
    f.buckets.length = 87 ∧ f.indexCache.byteLen = 16384 := by
  have e1 : FVal.round (FVal.div (FVal.ofU64 V2.bucketBitSize) (FVal.ofU64 757)) = .fin 43 := by
    decide +kernel
  have e2 : (FVal.toU64 (FVal.ceil (FVal.div (FVal.ofU64 65537) (FVal.ofU64 757)))) = 87 := by
    decide +kernel
  have e3 : nextPowerOfTwo false 65537 = .ok 131072 := by decide +kernel
  have hsz : V2.sizes (envX false) 65537 tiny .best = .ok (87, 12, 131072) := by
    unfold V2.sizes
    rw [show (envX false).libm = Libm.exact from rfl, tiny_bucket]
    simp only [e1, e2]
    show (do let c ← nextPowerOfTwo false 65537
             Res.ok ((87 : U64), V2.nHashOpt Libm.exact 65537 c (.fin 43), c)) = _
    rw [e3]
    show Res.ok ((87 : U64), V2.nHashOpt Libm.exact 65537 131072 (.fin 43), (131072 : U64)) = _
    rw [tiny_nHash]
  have e4 : (byteCapFromBitCap 131072) = 16384 := by decide +kernel
  unfold V2.make
  rw [if_neg (by rw [tiny_inRange]; decide), hsz]
  simp only [Res.bind_ok]
  have a1 : (envX false).alloc (byteCapFromBitCap 131072).toNat 1 = .ok () := by
    rw [e4]; exact if_pos (by decide)
  have a2 : (envX false).alloc (87 : U64).toNat BUCKET_SIZE = .ok () := if_pos (by decide)
  rw [a1, a2]
  refine ⟨_, rfl, rfl, by simp, ?_⟩
  simp only [VecBitSet.withBitCapacity, VecBitSet.byteLen, e4, List.length_replicate]
  rfl

end Sample

end Poppy
