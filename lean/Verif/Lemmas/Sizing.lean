import Verif.Lemmas.Float
import Verif.Model.V1
import Verif.Model.BitSet

/-! Exactness of the size computations that go through `f64`. -/

namespace Poppy

theorem toU64_nat {n : ℕ} (h : n < 2 ^ 64) : FVal.toU64 (.fin n) = BitVec.ofNat 64 n := by
  unfold FVal.toU64
  have hf : ⌊((n : ℕ) : ℚ)⌋ = n := Int.floor_natCast n
  simp only [hf]
  split
  · rename_i h0
    have : n = 0 := by omega
    subst this; rfl
  · rw [if_neg (by exact_mod_cast not_le.2 h)]
    rfl

theorem ceil_natdiv (n d : ℕ) (hd : 0 < d) : ⌈((n : ℚ) / d)⌉ = ((n + d - 1) / d : ℕ) := by
  have hdq : (0 : ℚ) < d := by exact_mod_cast hd
  have h1 : d * ((n + d - 1) / d) ≤ n + d - 1 := Nat.mul_div_le _ _
  have h2 : n + d - 1 < d * ((n + d - 1) / d) + d := Nat.lt_mul_div_succ _ hd
  generalize (n + d - 1) / d = c at *
  rw [Int.ceil_eq_iff]
  push_cast
  constructor
  · rw [lt_div_iff₀ hdq]
    have : d * c < n + d := by omega
    have : ((d * c : ℕ) : ℚ) < ((n + d : ℕ) : ℚ) := by exact_mod_cast this
    push_cast at this
    linarith
  · rw [div_le_iff₀ hdq]
    have : n ≤ c * d := by rw [mul_comm]; omega
    exact_mod_cast this

theorem div_pow2_ceil {n : ℕ} {q : ℚ} (j : ℕ) (hj : j ≤ 1000) (hq : IsF q) (hn : q = n)
    (hlt : n < 2 ^ 64) :
    FVal.toU64 (FVal.ceil (FVal.div (.fin q) (.fin (2 ^ j))))
      = BitVec.ofNat 64 ((n + 2 ^ j - 1) / 2 ^ j) := by
  have h2 : (2 : ℚ) ^ j ≠ 0 := by positivity
  unfold FVal.div
  simp only [h2, if_false]
  have hle : q / 2 ^ j ≤ q := by
    apply div_le_self
    · rw [hn]; positivity
    · exact one_le_pow₀ (by norm_num)
  have hnn : 0 ≤ q / 2 ^ j := by rw [hn]; positivity
  have hF : IsF (q / 2 ^ j) := by
    rcases Nat.eq_zero_or_pos n with h0 | hpos
    · rw [hn, h0]; simpa using isF_zero
    obtain ⟨m, e, hm, he, hqe⟩ := hq
    rcases le_or_gt (-74) e with h | h
    · refine ⟨m, e - j, hm, by omega, ?_⟩
      rw [hqe, zpow_sub₀ (by norm_num), zpow_natCast]; ring
    · -- an integer, hence with a larger exponent
      have hmn : m = n * 2 ^ (-e).toNat := by
        have h1 : (m : ℚ) * 2 ^ e = n := by rw [← hqe, hn]
        have h3 : ((2 : ℚ) ^ e) * 2 ^ (-e).toNat = 1 := by
          rw [← zpow_natCast, ← zpow_add₀ (by norm_num)]
          have : e + ((-e).toNat : ℤ) = 0 := by omega
          rw [this]; simp
        have : (m : ℚ) = n * 2 ^ (-e).toNat := by
          rw [← h1, mul_assoc, h3, mul_one]
        exact_mod_cast this
      exfalso
      have h4 : (2 : ℤ) ^ 74 ≤ 2 ^ (-e).toNat := pow_le_pow_right₀ (by norm_num) (by omega)
      have h5 : (2 : ℤ) ^ 74 ≤ m := by
        rw [hmn]
        have : (1 : ℤ) ≤ n := by exact_mod_cast hpos
        nlinarith
      have h6 : m ≤ 2 ^ 53 := (le_abs_self m).trans hm
      have h7 : (2 : ℤ) ^ 53 < 2 ^ 74 := by norm_num
      omega
  have hrnd := rnd_of_isF (K := ℚ) hF (by
    rw [abs_of_nonneg hnn]
    have : (n : ℚ) < 2 ^ 64 := by exact_mod_cast hlt
    calc q / 2 ^ j ≤ q := hle
      _ < 2 ^ 64 := by rw [hn]; exact this
      _ < f64Huge := two_pow_lt_f64Huge (by norm_num))
  simp only [Rat.cast_id] at hrnd
  rw [hrnd]
  unfold FVal.ceil
  simp only
  have hc := ceil_natdiv n (2 ^ j) (by positivity)
  push_cast at hc
  rw [hn, hc]
  have : (n + 2 ^ j - 1) / 2 ^ j ≤ n := by
    have hd : 0 < 2 ^ j := Nat.two_pow_pos j
    apply Nat.lt_succ_iff.1
    apply Nat.div_lt_of_lt_mul
    have := Nat.le_mul_of_pos_left n hd
    rw [Nat.mul_succ]
    omega
  have := toU64_nat (n := (n + 2 ^ j - 1) / 2 ^ j) (by omega)
  exact_mod_cast this

/-- Number of bytes for up to `2^53` bits. -/
theorem byteCap_eq {n : U64} (h : n.toNat ≤ 2 ^ 53) :
    (byteCapFromBitCap n).toNat = (n.toNat + 7) / 8 := by
  unfold byteCapFromBitCap
  rw [ofU64_exact h]
  have := div_pow2_ceil (n := n.toNat) 3 (by norm_num) (isF_nat h) rfl n.isLt
  norm_num at this
  rw [this, BitVec.toNat_ofNat, Nat.mod_eq_of_lt (by omega)]

/-- Whole numbers of bytes are recovered exactly. -/
theorem byteCap_mul8 {len : ℕ} (h : len ≤ 2 ^ 53) :
    (byteCapFromBitCap (BitVec.ofNat 64 (len * 8))).toNat = len := by
  have hn : (BitVec.ofNat 64 (len * 8)).toNat = len * 8 := by
    rw [BitVec.toNat_ofNat, Nat.mod_eq_of_lt (by omega)]
  have hF : IsF ((len * 8 : ℕ) : ℚ) := by
    have := isF_mul_two_zpow (d := 3) (isF_nat h)
    push_cast
    norm_num at this ⊢
    exact this
  unfold byteCapFromBitCap FVal.ofU64
  rw [hn]
  have hr := rnd_of_isF (K := ℚ) hF (by
    rw [abs_of_nonneg (by positivity)]
    have : ((len * 8 : ℕ) : ℚ) < 2 ^ 64 := by exact_mod_cast (by omega : len * 8 < 2 ^ 64)
    exact this.trans (two_pow_lt_f64Huge (by norm_num)))
  rw [Rat.cast_id] at hr
  rw [hr]
  have := div_pow2_ceil (n := len * 8) 3 (by norm_num) hF rfl (by omega)
  norm_num at this ⊢
  rw [this, BitVec.toNat_ofNat]
  omega

/-- Number of words for up to `2^53` bits. -/
theorem u64SizeFor_eq {n : U64} (h : n.toNat ≤ 2 ^ 53) :
    (u64SizeFor n).toNat = (n.toNat + 63) / 64 := by
  unfold u64SizeFor
  rw [ofU64_exact h]
  have := div_pow2_ceil (n := n.toNat) 6 (by norm_num) (isF_nat h) rfl n.isLt
  norm_num at this
  rw [this, BitVec.toNat_ofNat, Nat.mod_eq_of_lt (by omega)]

theorem rnd_fin_u64 (x : U64) : FVal.ofU64 x = .fin (rndQ ((x.toNat : ℕ) : ℚ)) := by
  have hx : ((x.toNat : ℕ) : ℚ) ≤ 2 ^ 64 := by exact_mod_cast x.isLt.le
  have h64 : IsF ((2 : ℚ) ^ 64) := by simpa using isF_two_zpow (e := 64) (by norm_num)
  exact (rnd_fin h64 (two_pow_lt_f64Huge (by norm_num)) (by
    rw [abs_of_nonneg (by positivity)]; exact hx)).1

theorem toU64_ceil_ge {q : ℚ} {n : ℕ} (hn : n < 2 ^ 64) (h : (n : ℚ) ≤ q) :
    n ≤ (FVal.toU64 (FVal.ceil (.fin q))).toNat := by
  unfold FVal.ceil FVal.toU64
  simp only [Int.floor_intCast]
  have h1 : (n : ℤ) ≤ ⌈q⌉ := by
    have : ((n : ℤ) : ℚ) ≤ (⌈q⌉ : ℤ) := le_trans (by exact_mod_cast h) (Int.le_ceil q)
    exact_mod_cast this
  split
  · have : n = 0 := by omega
    omega
  split
  · simp; omega
  · rw [BitVec.toNat_ofNat, Nat.mod_eq_of_lt (by omega)]
    omega

/-- Division by a power of two of a rounded integer of at most 64 bits is exact. -/
theorem div_ofU64_ge {x : U64} {j n : ℕ} (hn : n ≤ 2 ^ 53) (h : n * 2 ^ j ≤ x.toNat) :
    n ≤ (FVal.toU64 (FVal.ceil (FVal.div (FVal.ofU64 x) (.fin (2 ^ j))))).toNat := by
  rw [rnd_fin_u64]
  have h2 : (2 : ℚ) ^ j ≠ 0 := by positivity
  unfold FVal.div
  simp only [h2, if_false]
  have hF : IsF ((n * 2 ^ j : ℕ) : ℚ) := by
    have := isF_mul_two_zpow (d := j) (isF_nat hn)
    push_cast
    exact this
  have h1 : ((n * 2 ^ j : ℕ) : ℚ) ≤ rndQ ((x.toNat : ℕ) : ℚ) :=
    le_rndQ _ hF (by rw [Rat.cast_id]; exact_mod_cast h)
  have h3 : (n : ℚ) ≤ rndQ ((x.toNat : ℕ) : ℚ) / 2 ^ j := by
    rw [le_div_iff₀ (by positivity)]
    push_cast at h1
    exact h1
  have h64 : IsF ((2 : ℚ) ^ 64) := by simpa using isF_two_zpow (e := 64) (by norm_num)
  have hx : ((x.toNat : ℕ) : ℚ) ≤ 2 ^ 64 := by exact_mod_cast x.isLt.le
  have hb : rndQ ((x.toNat : ℕ) : ℚ) ≤ 2 ^ 64 := rndQ_le _ h64 (by rw [Rat.cast_id]; exact hx)
  have hnn : 0 ≤ rndQ ((x.toNat : ℕ) : ℚ) := le_rndQ _ isF_zero (by push_cast; positivity)
  have hr := rnd_fin (x := rndQ ((x.toNat : ℕ) : ℚ) / 2 ^ j) h64
    (two_pow_lt_f64Huge (by norm_num)) (by
      rw [Rat.cast_id, abs_of_nonneg (by positivity)]
      exact (div_le_self hnn (one_le_pow₀ (by norm_num))).trans hb)
  rw [hr.1]
  apply toU64_ceil_ge (by omega)
  exact le_rndQ _ (isF_nat hn) (by rw [Rat.cast_id]; exact h3)

/-- When the computed words fit below 1 PiB, the bit size was small enough to be exact. -/
theorem u64SizeFor_small {n : U64} (h : (u64SizeFor n).toNat * 8 < 2 ^ 50) :
    n.toNat ≤ 2 ^ 53 ∧ (u64SizeFor n).toNat = (n.toNat + 63) / 64 := by
  have hle : n.toNat ≤ 2 ^ 53 := by
    by_contra hc
    have := div_ofU64_ge (x := n) (j := 6) (n := 2 ^ 47) (by norm_num) (by omega)
    unfold u64SizeFor at h
    norm_num at this h
    omega
  exact ⟨hle, u64SizeFor_eq hle⟩

theorem byteCap_small {n : U64} (h : (byteCapFromBitCap n).toNat < 2 ^ 50) :
    n.toNat ≤ 2 ^ 53 ∧ (byteCapFromBitCap n).toNat = (n.toNat + 7) / 8 := by
  have hle : n.toNat ≤ 2 ^ 53 := by
    by_contra hc
    have := div_ofU64_ge (x := n) (j := 3) (n := 2 ^ 50) (by norm_num) (by omega)
    unfold byteCapFromBitCap at h
    norm_num at this h
    omega
  exact ⟨hle, byteCap_eq hle⟩

theorem byteCap_zero : byteCapFromBitCap 0 = 0 := by
  apply BitVec.eq_of_toNat_eq
  rw [byteCap_eq (by decide)]; rfl

theorem Env.alloc_ok {env : Env} {n s : ℕ} {u : Unit} (h : env.alloc n s = .ok u) :
    n * s ≤ env.allocLimit := by
  unfold Env.alloc at h
  split at h
  · assumption
  · simp at h

theorem Env.alloc_ne_err {env : Env} {n s : ℕ} {e : Error} : env.alloc n s ≠ .err e := by
  unfold Env.alloc; split <;> simp

theorem Env.alloc_of_le {env : Env} {n s : ℕ} (h : n * s ≤ env.allocLimit) :
    env.alloc n s = .ok () := by
  unfold Env.alloc; rw [if_pos h]

end Poppy
