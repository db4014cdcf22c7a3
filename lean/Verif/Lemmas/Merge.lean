import Mathlib.Algebra.Order.BigOperators.Group.List
import Verif.Lemmas.Counting
import Verif.Lemmas.Libm

/-! Merging filters, and the estimate of the number of entries. -/

namespace Poppy
open Spec

/-! ### Floating point comparisons -/

namespace FVal

theorem le_refl_of_ne_nan {x : FVal} (h : x ≠ .nan) : le x x = true := by
  cases x <;> simp_all [le]

theorem le_trans {a b c : FVal} (h1 : le a b = true) (h2 : le b c = true) : le a c = true := by
  cases a <;> cases b <;> cases c <;> simp_all [le]
  exact h1.trans h2

theorem feq_symm {a b : FVal} (h : feq a b = true) : feq b a = true := by
  unfold feq at *
  rw [Bool.and_comm]; exact h

theorem feq_comm (a b : FVal) : feq a b = feq b a := Bool.and_comm _ _

theorem feq_trans {a b c : FVal} (h1 : feq a b = true) (h2 : feq b c = true) : feq a c = true := by
  unfold feq at *
  rw [Bool.and_eq_true] at *
  exact ⟨le_trans h1.1 h2.1, le_trans h2.2 h1.2⟩

theorem neg_le_neg {a b : FVal} (h : le a b = true) : le (neg b) (neg a) = true := by
  cases a <;> cases b <;> simp_all [le, neg]

theorem rnd_mono {x y : ℚ} (h : x ≤ y) : le (rnd x) (rnd y) = true := by
  have hm : rndQ x ≤ rndQ y := rndQ_mono h
  have hp := f64Huge_pos
  unfold rnd
  simp only
  split_ifs <;> simp_all [le] <;> linarith

theorem toU64_mono {a b : FVal} (h : le a b = true) : (toU64 a).toNat ≤ (toU64 b).toNat := by
  have hmax : ∀ x : U64, x.toNat ≤ (BitVec.allOnes 64).toNat := by
    intro x; have := x.isLt; rw [BitVec.toNat_allOnes]; omega
  cases a with
  | nan => simp [toU64]
  | ninf => simp [toU64]
  | pinf =>
    cases b <;> simp_all [le]
  | fin p =>
    cases b with
    | nan => simp [le] at h
    | ninf => simp [le] at h
    | pinf => exact hmax _
    | fin q =>
      have h' : p ≤ q := by simpa [le] using h
      have hf : ⌊p⌋ ≤ ⌊q⌋ := Int.floor_le_floor h'
      unfold toU64
      simp only
      by_cases h1 : ⌊p⌋ ≤ 0
      · rw [if_pos h1]; simp
      · rw [if_neg h1, if_neg (by omega : ¬ ⌊q⌋ ≤ 0)]
        by_cases h2 : (2 ^ 64 : ℤ) ≤ ⌊q⌋
        · rw [if_pos h2]; exact hmax _
        · rw [if_neg h2, if_neg (by omega)]
          simp only [BitVec.toNat_ofNat]
          rw [Nat.mod_eq_of_lt (by omega), Nat.mod_eq_of_lt (by omega)]
          omega

theorem mul_mono {c : ℚ} (hc : 0 < c) {a b : FVal} (h : le a b = true) :
    le (mul (.fin c) a) (mul (.fin c) b) = true := by
  have hc' : ¬ c < 0 := by linarith
  cases a with
  | nan => simp [le] at h
  | pinf => cases b <;> simp_all [le, mul, infTimes]
  | ninf =>
    cases b with
    | nan => simp [le] at h
    | pinf => simp [mul, infTimes, hc, hc', le]
    | ninf => simp [mul, infTimes, hc, hc', le]
    | fin q =>
      simp only [mul, infTimes]
      rw [if_neg (by linarith), if_pos (by linarith)]
      unfold rnd; simp only; split_ifs <;> simp [le]
  | fin p =>
    cases b with
    | nan => simp [le] at h
    | ninf => simp [le] at h
    | pinf =>
      simp only [mul, infTimes, hc, if_true]
      unfold rnd; simp only; split_ifs <;> simp [le]
    | fin q =>
      apply rnd_mono
      have : p ≤ q := by simpa [le] using h
      nlinarith

theorem toU64_div_mono {c : ℚ} (hc : 0 ≤ c) {a b : FVal} (h : le a b = true) :
    (toU64 (div a (.fin c))).toNat ≤ (toU64 (div b (.fin c))).toNat := by
  have hmax : ∀ x : U64, x.toNat ≤ (toU64 .pinf).toNat := by
    intro x; have := x.isLt; show _ ≤ (BitVec.allOnes 64).toNat; rw [BitVec.toNat_allOnes]; omega
  cases a with
  | nan => simp [le] at h
  | ninf =>
    simp only [div, hc, if_true]
    simp [toU64]
  | pinf =>
    cases b <;> simp_all [le]
  | fin p =>
    cases b with
    | nan => simp [le] at h
    | ninf => simp [le] at h
    | pinf =>
      simp only [div, hc, if_true]
      exact hmax _
    | fin q =>
      have hpq : p ≤ q := by simpa [le] using h
      simp only [div]
      split
      · unfold infTimes
        by_cases hp : 0 < p
        · rw [if_pos hp, if_pos (by linarith)]
        · rw [if_neg hp]
          split <;> simp [toU64]
      · rename_i h0
        apply toU64_mono
        apply rnd_mono
        gcongr

end FVal

/-- `u64 as f64` is finite and not negative. -/
theorem ofU64_fin (x : U64) : ∃ q : ℚ, FVal.ofU64 x = .fin q ∧ 0 ≤ q ∧ IsF q ∧ q = rndQ ((x.toNat : ℕ) : ℚ) := by
  have hx : ((x.toNat : ℕ) : ℚ) ≤ 2 ^ 64 := by exact_mod_cast x.isLt.le
  have h0 : (0 : ℚ) ≤ ((x.toNat : ℕ) : ℚ) := by positivity
  have hb : IsF ((2 : ℚ) ^ 64) := by
    have := isF_two_zpow (e := 64) (by norm_num)
    simpa using this
  obtain ⟨h1, h2⟩ := rnd_fin (K := ℚ) (x := ((x.toNat : ℕ) : ℚ)) hb (two_pow_lt_f64Huge (by norm_num))
    (by rw [abs_of_nonneg h0]; exact hx)
  exact ⟨_, h1, le_rndQ _ isF_zero (by simp), isF_rndQ _, rfl⟩

theorem ofU64_pos {x : U64} (h : x ≠ 0) : ∃ q : ℚ, FVal.ofU64 x = .fin q ∧ 1 ≤ q ∧ IsF q ∧
    q = rndQ ((x.toNat : ℕ) : ℚ) := by
  obtain ⟨q, h1, _, h3, h4⟩ := ofU64_fin x
  refine ⟨q, h1, ?_, h3, h4⟩
  rw [h4]
  apply le_rndQ _ isF_one
  have : 0 < x.toNat := V1.toNat_pos h
  exact_mod_cast this

theorem Libm.exact_lnSpec : Libm.exact.LnSpec where
  ln_one := Libm.exact_spec.ln_one
  ln_nan := rfl
  mono := by
    intro p q hp hq h0 hpq h1
    have hle1 : ∀ x : ℚ, IsF x → 0 < x → x ≤ 1 → FVal.le .ninf (Libm.exact.ln (.fin x)) = true := by
      intro x _ hx _
      rw [Libm.exact_ln hx]
      unfold rnd; simp only; split_ifs <;> rfl
    rcases h0.lt_or_eq with h0 | h0
    · rw [Libm.exact_ln h0, Libm.exact_ln (h0.trans_le hpq)]
      have hm : Real.log (p : ℝ) ≤ Real.log (q : ℝ) :=
        Real.log_le_log (by exact_mod_cast h0) (by exact_mod_cast hpq)
      have hm' := rndQ_mono hm
      have hp := f64Huge_pos
      unfold rnd
      simp only
      split_ifs <;> simp_all [FVal.le] <;> linarith
    · subst h0
      have hz : Libm.exact.ln (.fin 0) = .ninf := by
        simp [Libm.exact]
      rw [hz]
      rcases hpq.lt_or_eq with h | h
      · exact hle1 q hq h h1
      · subst h; rw [hz]; rfl

/-- The argument of the logarithm in the estimate. -/
theorem estimate_arg {bits ones : U64} (hb : bits ≠ 0) (h : ones.toNat ≤ bits.toNat) :
    ∃ q : ℚ, FVal.sub .one (FVal.div (FVal.ofU64 ones) (FVal.ofU64 bits)) = .fin q ∧ IsF q ∧
      0 ≤ q ∧ q ≤ 1 ∧
      ∀ m : ℚ, 1 ≤ m → FVal.ofU64 bits = .fin m →
        q = rndQ (1 - rndQ (rndQ ((ones.toNat : ℕ) : ℚ) / m)) := by
  obtain ⟨o, ho, ho0, _, ho'⟩ := ofU64_fin ones
  obtain ⟨m, hm, hm1, _, hm'⟩ := ofU64_pos hb
  have hmo : o ≤ m := by
    rw [ho', hm']
    apply rndQ_mono
    exact_mod_cast h
  have hd0 : 0 ≤ o / m := by positivity
  have hd1 : o / m ≤ 1 := by rw [div_le_one (by linarith)]; exact hmo
  obtain ⟨e1, _⟩ := rnd_fin (K := ℚ) (x := o / m) isF_one
    (by simpa using two_pow_lt_f64Huge (n := 0) (by norm_num)) (by rw [abs_of_nonneg hd0]; exact hd1)
  have r0 : 0 ≤ rndQ (o / m) := le_rndQ _ isF_zero (by simpa using hd0)
  have r1 : rndQ (o / m) ≤ 1 := rndQ_le _ isF_one (by simpa using hd1)
  have s0 : (0 : ℚ) ≤ 1 - rndQ (o / m) := by linarith
  have s1 : (1 : ℚ) - rndQ (o / m) ≤ 1 := by linarith
  obtain ⟨e2, _⟩ := rnd_fin (K := ℚ) (x := 1 - rndQ (o / m)) isF_one
    (by simpa using two_pow_lt_f64Huge (n := 0) (by norm_num)) (by rw [abs_of_nonneg s0]; exact s1)
  refine ⟨_, ?_, isF_rndQ (1 - rndQ (o / m)), le_rndQ _ isF_zero (by simpa using s0),
    rndQ_le _ isF_one (by simpa using s1), ?_⟩
  · rw [ho, hm]
    show FVal.add (.fin 1) (FVal.neg (if m = 0 then _ else rnd (o / m))) = _
    rw [if_neg (by linarith), e1]
    show rnd (1 + -rndQ (o / m)) = _
    rw [← sub_eq_add_neg, e2]
  · intro m' _ h'
    rw [hm] at h'
    cases h'
    rw [← ho']

/-- The estimate grows with the number of bits set. -/
theorem estimateCount_mono {lm : Libm} (sp : lm.LnSpec) (bits nHash : U64) {a b : U64}
    (hab : a.toNat ≤ b.toNat) (hb : b.toNat ≤ bits.toNat) :
    (estimateCount lm bits a nHash).toNat ≤ (estimateCount lm bits b nHash).toNat := by
  by_cases h0 : bits = 0
  · have : a = b := by
      subst h0
      apply BitVec.eq_of_toNat_eq
      have : (0 : U64).toNat = 0 := rfl
      omega
    rw [this]
  obtain ⟨m, hm, hm1, _, _⟩ := ofU64_pos h0
  obtain ⟨n, hn, hn0, _, _⟩ := ofU64_fin nHash
  obtain ⟨p, hp, fp, p0, p1, pe⟩ := estimate_arg h0 (hab.trans hb)
  obtain ⟨q, hq, fq, q0, q1, qe⟩ := estimate_arg h0 hb
  have hqp : q ≤ p := by
    rw [pe m hm1 hm, qe m hm1 hm]
    apply rndQ_mono
    have : rndQ (rndQ ((a.toNat : ℕ) : ℚ) / m) ≤ rndQ (rndQ ((b.toNat : ℕ) : ℚ) / m) := by
      apply rndQ_mono
      have : rndQ ((a.toNat : ℕ) : ℚ) ≤ rndQ ((b.toNat : ℕ) : ℚ) :=
        rndQ_mono (by exact_mod_cast hab)
      gcongr
    linarith
  unfold estimateCount
  rw [hp, hq, hm, hn]
  apply FVal.toU64_div_mono hn0
  apply FVal.neg_le_neg
  apply FVal.mul_mono (by linarith)
  exact sp.mono q p fq fp q0 hqp p1

theorem rnd_one : rnd (1 : ℚ) = .fin 1 := by
  have := rnd_of_isF (K := ℚ) isF_one
    (by simpa using two_pow_lt_f64Huge (n := 0) (by norm_num))
  simpa using this

/-- No bits, no entries. -/
theorem estimateCount_zero {lm : Libm} (sp : lm.LnSpec) (bits nHash : U64) :
    estimateCount lm bits 0 nHash = 0 := by
  have hz : FVal.ofU64 0 = .fin 0 := by
    show rnd (((0 : U64).toNat : ℕ) : ℚ) = _
    have : (0 : U64).toNat = 0 := rfl
    rw [this, Nat.cast_zero, rnd_zero]
  unfold estimateCount
  rw [hz]
  by_cases h0 : bits = 0
  · subst h0
    rw [hz]
    have : FVal.div (.fin 0) (.fin 0) = .nan := by simp [FVal.div, FVal.infTimes]
    rw [this]
    have : FVal.sub .one .nan = .nan := rfl
    rw [this, sp.ln_nan]
    rfl
  · obtain ⟨m, hm, hm1, _, _⟩ := ofU64_pos h0
    obtain ⟨n, hn, hn0, _, _⟩ := ofU64_fin nHash
    rw [hm, hn]
    have : FVal.div (.fin 0) (.fin m) = .fin 0 := by
      show (if m = 0 then _ else rnd (0 / m)) = _
      rw [if_neg (by linarith), zero_div, rnd_zero]
    rw [this]
    have : FVal.sub .one (.fin 0) = .fin 1 := by
      show rnd (1 + -0) = _
      rw [neg_zero, add_zero, rnd_one]
    rw [this, sp.ln_one]
    have : FVal.mul (.fin m) (.fin 0) = .fin 0 := by
      show rnd (m * 0) = _
      rw [mul_zero, rnd_zero]
    rw [this]
    show FVal.toU64 (if n = 0 then FVal.infTimes (-0) else rnd (-0 / n)) = 0
    split
    · simp [FVal.infTimes, FVal.toU64]
    · rw [neg_zero, zero_div, rnd_zero]; simp [FVal.toU64]

/-! ### Sums -/

theorem foldl_addU64_panic (d : Bool) (l : List U64) :
    l.foldl (fun acc x => do let a ← acc; addU64 d a x) (Res.panic : Res U64) = .panic := by
  induction l with
  | nil => rfl
  | cons y l ih => exact ih

theorem foldl_addU64 (d : Bool) (l : List U64) (a : U64) :
    l.foldl (fun acc x => do let a ← acc; addU64 d a x) (Res.ok a)
      = if d = true ∧ 2 ^ 64 ≤ a.toNat + (l.map BitVec.toNat).sum then .panic
        else .ok (BitVec.ofNat 64 (a.toNat + (l.map BitVec.toNat).sum)) := by
  induction l generalizing a with
  | nil =>
    have := a.isLt
    simp only [List.foldl_nil, List.map_nil, List.sum_nil, Nat.add_zero]
    rw [if_neg (by omega)]
    simp
  | cons x l ih =>
    simp only [List.foldl_cons, List.map_cons, List.sum_cons, Res.bind_ok]
    by_cases h : d = true ∧ 2 ^ 64 ≤ a.toNat + x.toNat
    · have : addU64 d a x = .panic := by unfold addU64; rw [if_pos (by simpa using h)]
      rw [this, foldl_addU64_panic, if_pos ⟨h.1, by omega⟩]
    · have : addU64 d a x = .ok (a + x) := by unfold addU64; rw [if_neg (by simpa using h)]
      rw [this, ih, BitVec.toNat_add]
      by_cases hd : d = true
      · have h2 : a.toNat + x.toNat < 2 ^ 64 := by
          by_contra hc; exact h ⟨hd, by omega⟩
        rw [Nat.mod_eq_of_lt h2, Nat.add_assoc]
      · rw [if_neg (by simp [hd]), if_neg (by simp [hd])]
        congr 1
        apply BitVec.eq_of_toNat_eq
        simp only [BitVec.toNat_ofNat]
        rw [Nat.mod_add_mod, Nat.add_assoc]

/-- `Iterator::sum`: panics on overflow in debug builds, wraps in release builds. -/
theorem V2.sumU64_eq (d : Bool) (l : List U64) :
    sumU64 d l = if d = true ∧ 2 ^ 64 ≤ (l.map BitVec.toNat).sum then .panic
      else .ok (BitVec.ofNat 64 (l.map BitVec.toNat).sum) := by
  have := foldl_addU64 d l 0
  simpa [sumU64] using this

/-! ### Equal parameters -/

/-- In the accepted range, `==` on `f64` is equality of representations. -/
theorem bits_eq_of_feq {a b : F64} (ha : fppInRange a = true) (hb : fppInRange b = true)
    (h : FVal.feq (FVal.ofBits a) (FVal.ofBits b) = true) : a = b := by
  rw [fppInRange_iff] at ha hb
  rw [ofBits_normal ha.1 (by omega), ofBits_normal hb.1 (by omega)] at h
  simp only [FVal.feq, FVal.le, Bool.and_eq_true, decide_eq_true_eq] at h
  have key : ∀ x y : ℕ, x / 2 ^ 52 < y / 2 ^ 52 →
      ((2 ^ 52 + x % 2 ^ 52 : ℕ) : ℚ) * 2 ^ (((x / 2 ^ 52 : ℕ) : ℤ) - 1075)
        < ((2 ^ 52 + y % 2 ^ 52 : ℕ) : ℚ) * 2 ^ (((y / 2 ^ 52 : ℕ) : ℤ) - 1075) := by
    intro x y hxy
    have h1 : ((2 ^ 52 + x % 2 ^ 52 : ℕ) : ℚ) < 2 ^ 53 := by
      have : 2 ^ 52 + x % 2 ^ 52 < 2 ^ 53 := by omega
      exact_mod_cast this
    have h2 : (2 ^ 52 : ℚ) ≤ ((2 ^ 52 + y % 2 ^ 52 : ℕ) : ℚ) := by
      have : 2 ^ 52 ≤ 2 ^ 52 + y % 2 ^ 52 := by omega
      exact_mod_cast this
    have h3 : (2 : ℚ) * 2 ^ (((x / 2 ^ 52 : ℕ) : ℤ) - 1075) ≤ 2 ^ (((y / 2 ^ 52 : ℕ) : ℤ) - 1075) := by
      rw [← zpow_one_add₀ (by norm_num)]
      exact zpow_le_zpow_right₀ (by norm_num) (by omega)
    have hx : (0 : ℚ) < 2 ^ (((x / 2 ^ 52 : ℕ) : ℤ) - 1075) := zpow_pos (by norm_num) _
    calc _ < (2 ^ 53 : ℚ) * 2 ^ (((x / 2 ^ 52 : ℕ) : ℤ) - 1075) := by
            exact mul_lt_mul_of_pos_right h1 hx
      _ = 2 ^ 52 * (2 * 2 ^ (((x / 2 ^ 52 : ℕ) : ℤ) - 1075)) := by ring
      _ ≤ 2 ^ 52 * 2 ^ (((y / 2 ^ 52 : ℕ) : ℤ) - 1075) := by gcongr
      _ ≤ _ := by
            have : (0 : ℚ) < 2 ^ (((y / 2 ^ 52 : ℕ) : ℤ) - 1075) := zpow_pos (by norm_num) _
            exact mul_le_mul_of_nonneg_right h2 this.le
  have he : a.toNat / 2 ^ 52 = b.toNat / 2 ^ 52 := by
    rcases lt_trichotomy (a.toNat / 2 ^ 52) (b.toNat / 2 ^ 52) with hl | hl | hl
    · exact absurd h.2 (not_le.2 (key _ _ hl))
    · exact hl
    · exact absurd h.1 (not_le.2 (key _ _ hl))
  rw [he] at h
  have hp : (0 : ℚ) < 2 ^ (((b.toNat / 2 ^ 52 : ℕ) : ℤ) - 1075) := zpow_pos (by norm_num) _
  have hm := le_antisymm (le_of_mul_le_mul_right h.1 hp) (le_of_mul_le_mul_right h.2 hp)
  have hm' : 2 ^ 52 + a.toNat % 2 ^ 52 = 2 ^ 52 + b.toNat % 2 ^ 52 := by exact_mod_cast hm
  apply BitVec.eq_of_toNat_eq
  omega

namespace V2

theorem hasSameParams_symm (s o : V2) : s.hasSameParams o = o.hasSameParams s := by
  rw [Bool.eq_iff_iff, hasSameParams_iff, hasSameParams_iff, FVal.feq_comm]
  simp only [eq_comm]

theorem hasSameParams_trans {s o p : V2} (h1 : s.hasSameParams o = true)
    (h2 : o.hasSameParams p = true) : s.hasSameParams p = true := by
  rw [hasSameParams_iff] at *
  exact ⟨h1.1.trans h2.1, h1.2.1.trans h2.2.1, h1.2.2.1.trans h2.2.2.1,
    FVal.feq_trans h1.2.2.2.1 h2.2.2.2.1, h1.2.2.2.2.1.trans h2.2.2.2.2.1,
    h1.2.2.2.2.2.trans h2.2.2.2.2.2⟩

theorem hasSameParams_refl {s : V2} (h : FVal.ofBits s.fpp ≠ .nan) : s.hasSameParams s = true := by
  rw [hasSameParams_iff]
  exact ⟨rfl, rfl, rfl, feq_refl_of_ne_nan h, rfl, rfl⟩

/-- Sizes decide well-formedness. -/
theorem WF.of_sameParams {s o : V2} (w : s.WF) (h : s.hasSameParams o = true) : o.WF := by
  obtain ⟨_, _, hc, _, _, hb⟩ := (hasSameParams_iff s o).1 h
  exact ⟨by rw [← hb]; exact w.1, by rw [← hc]; exact w.2⟩

theorem contains_true_iff (env : Env) {f : V2} (w : f.WF) (k : Key) :
    f.contains env k = .ok true ↔ f.capacity ≠ 0 ∧ f.buckets ≠ [] ∧
      f.cacheOk (k.hashPop env.wy) = true ∧ allSet env f (k.hashPop env.wy) = true := by
  by_cases hc : f.capacity = 0
  · rw [contains_noCap env k hc]; simp [hc]
  by_cases hb : f.buckets = []
  · rw [contains_nil env w k hc hb]; split <;> simp [hb]
  rw [contains_eq env w k hc hb]
  simp only [Res.ok.injEq, Bool.and_eq_true, ne_eq, hc, hb, not_false_eq_true, true_and]

theorem bucketBit_orBits {s o : V2} (h : s.hasSameParams o = true) (b i : ℕ) :
    (orBits s o).bit b i = (s.bit b i || o.bit b i) :=
  bit_orBits ((hasSameParams_iff s o).1 h).2.2.2.2.2 b i

/-- Filters that can differ only in the attached data have equal bits. -/
theorem same_except_data {env : Env} {s o : V2} (hs : Fits env s) (ho : Fits env o)
    (h : s.hasSameParams o = true) (hb : s.buckets = o.buckets) (hc : s.indexCache = o.indexCache)
    (hn : s.count = o.count) : o = { s with data := o.data } := by
  obtain ⟨h1, h2, h3, h4, h5, h6⟩ := (hasSameParams_iff s o).1 h
  have hf := bits_eq_of_feq hs.fpp ho.fpp h4
  have hnb : s.nBuckets = o.nBuckets := BitVec.eq_of_toNat_eq (by rw [hs.nb, ho.nb, h6])
  have hcb : s.cacheByteSize = o.cacheByteSize :=
    BitVec.eq_of_toNat_eq (by rw [hs.cb, ho.cb, h3])
  cases s; cases o
  simp_all

theorem zipWith_union_comm (a b : List Bucket) :
    List.zipWith BitSet.union a b = List.zipWith BitSet.union b a := by
  apply List.zipWith_comm_of_comm
  intro x y
  apply BitSet.ext_bits
  intro i _
  rw [BitSet.bitAt_union, BitSet.bitAt_union, Bool.or_comm]

theorem zipWith_intersection_comm (a b : List Bucket) :
    List.zipWith BitSet.intersection a b = List.zipWith BitSet.intersection b a := by
  apply List.zipWith_comm_of_comm
  intro x y
  apply BitSet.ext_bits
  intro i _
  rw [BitSet.bitAt_intersection, BitSet.bitAt_intersection, Bool.and_comm]

theorem orBits_comm_buckets (s o : V2) : (orBits s o).buckets = (orBits o s).buckets :=
  zipWith_union_comm _ _

theorem orBits_comm_cache (s o : V2) : (orBits s o).indexCache = (orBits o s).indexCache := by
  unfold orBits
  simp only
  congr 1
  exact List.zipWith_comm_of_comm (fun x y => BitVec.or_comm x y)

/-- The estimate computed after a merge. -/
def estimate (env : Env) (f : V2) : Res U64 :=
  sumU64 env.debug (f.buckets.map fun b => bucketEstimate env f.nHashBuck b.countOnes)

theorem updateCount_eq (env : Env) (f : V2) : f.updateCount env =
    match estimate env f with
    | .ok c => ({ f with count := c }, .ok ())
    | .err e => (f, .err e)
    | .panic => (f, .panic) := rfl

theorem updateCount_ok {env : Env} {f g : V2} {u : Unit} (h : f.updateCount env = (g, .ok u)) :
    ∃ c, estimate env f = .ok c ∧ g = { f with count := c } := by
  rw [updateCount_eq] at h
  cases he : estimate env f with
  | ok c =>
    rw [he] at h
    simp only [Prod.mk.injEq] at h
    exact ⟨c, rfl, h.1.symm⟩
  | err e => rw [he] at h; simp at h
  | panic => rw [he] at h; simp at h

theorem updateCount_snd (env : Env) (f : V2) : (f.updateCount env).2 = (estimate env f).map (fun _ => ()) := by
  rw [updateCount_eq]
  cases estimate env f <;> rfl

theorem estimate_congr {env : Env} {f g : V2} (hb : f.buckets = g.buckets)
    (hn : f.nHashBuck = g.nHashBuck) : estimate env f = estimate env g := by
  unfold estimate; rw [hb, hn]

theorem unionMerge_ok' {env : Env} {s o g : V2} {u : Unit} (h : s.unionMerge env o = (g, .ok u)) :
    s.hasSameParams o = true ∧ ∃ c, estimate env (orBits s o) = .ok c ∧
      g = { orBits s o with count := c } := by
  rw [unionMerge_eq] at h
  split at h
  · exact ⟨by assumption, updateCount_ok h⟩
  · simp at h

theorem intersectionMerge_ok' {env : Env} {s o g : V2} {u : Unit}
    (h : s.intersectionMerge env o = (g, .ok u)) :
    s.hasSameParams o = true ∧ ∃ c, estimate env (andBits s o) = .ok c ∧
      g = { andBits s o with count := c } := by
  rw [intersectionMerge_eq] at h
  split at h
  · exact ⟨by assumption, updateCount_ok h⟩
  · simp at h


theorem contains_congr (env : Env) {f g : V2} (hc : f.capacity = g.capacity)
    (hn : f.nHashBuck = g.nHashBuck) (hb : f.buckets = g.buckets)
    (hi : f.indexCache = g.indexCache) (k : Key) : f.contains env k = g.contains env k := by
  cases f; cases g
  simp only at hc hn hb hi
  subst hc hn hb hi
  rfl

theorem allSet_or {env : Env} {s o : V2} (h : s.hasSameParams o = true) {x : U64}
    (ha : allSet env s x = true ∨ allSet env o x = true) : allSet env (orBits s o) x = true := by
  obtain ⟨_, _, _, _, hn, hb⟩ := (hasSameParams_iff s o).1 h
  have hlen := (orBits_shape h).blen
  simp only [allSet_iff] at ha ⊢
  intro n hlt
  rw [bit_orBits hb, bucketOf_congr hlen, Bool.or_eq_true]
  rcases ha with ha | ha
  · exact Or.inl (ha n hlt)
  · right
    rw [bucketOf_congr hb]
    exact ha n (by rw [← hn]; exact hlt)

theorem cacheOk_or {s o : V2} (h : s.hasSameParams o = true) {x : U64}
    (ha : s.cacheOk x = true ∨ o.cacheOk x = true) : (orBits s o).cacheOk x = true := by
  obtain ⟨_, _, hc, _, _, _⟩ := (hasSameParams_iff s o).1 h
  have hlen := (orBits_shape h).clen
  have hz : ∀ {a b : V2}, a.indexCache.asSlice.length = b.indexCache.asSlice.length →
      a.indexCache.asSlice = [] → b.indexCache.asSlice = [] := by
    intro a b he ha
    rw [← List.length_eq_zero_iff, ← he, ha]; rfl
  simp only [cacheOk_iff] at ha ⊢
  rw [cache_orBits hc, cacheIdx_congr hlen, Bool.or_eq_true]
  rcases ha with (ha | ha) | (ha | ha)
  · exact Or.inl (hz hlen.symm ha)
  · exact Or.inr (Or.inl ha)
  · exact Or.inl (hz (hc.symm.trans hlen.symm) ha)
  · right; right
    rw [cacheIdx_congr hc]; exact ha

theorem allSet_and {env : Env} {s o : V2} (h : s.hasSameParams o = true) (x : U64) :
    allSet env (andBits s o) x = true ↔ allSet env s x = true ∧ allSet env o x = true := by
  obtain ⟨_, _, _, _, hn, hb⟩ := (hasSameParams_iff s o).1 h
  have hlen := (andBits_shape h).blen
  simp only [allSet_iff]
  have h1 : (andBits s o).nHashBuck = s.nHashBuck := rfl
  rw [h1, ← hn]
  simp only [bit_andBits hb, bucketOf_congr hlen, Bool.and_eq_true, ← bucketOf_congr hb]
  exact ⟨fun h => ⟨fun n hn => (h n hn).1, fun n hn => (h n hn).2⟩,
    fun h n hn => ⟨h.1 n hn, h.2 n hn⟩⟩

theorem cacheOk_and {s o : V2} (h : s.hasSameParams o = true) (x : U64) :
    (andBits s o).cacheOk x = true ↔ s.cacheOk x = true ∧ o.cacheOk x = true := by
  obtain ⟨_, _, hc, _, _, _⟩ := (hasSameParams_iff s o).1 h
  have hlen := (andBits_shape h).clen
  simp only [cacheOk_iff]
  rw [cache_andBits hc, cacheIdx_congr hlen, Bool.and_eq_true, ← cacheIdx_congr hc]
  have hz : ∀ {a b : V2}, a.indexCache.asSlice.length = b.indexCache.asSlice.length →
      (a.indexCache.asSlice = [] ↔ b.indexCache.asSlice = []) := by
    intro a b he
    rw [← List.length_eq_zero_iff, he, List.length_eq_zero_iff]
  rw [hz hlen, ← hz hc]
  tauto

theorem andBits_estimate_eq (env : Env) {s o : V2} (h : s.hasSameParams o = true) :
    s.countCommonEntries env o = estimate env (andBits s o) := by
  unfold countCommonEntries estimate
  rw [h]
  simp only [Bool.not_true, Bool.false_eq_true, if_false]
  congr 1
  show _ = (List.zipWith BitSet.intersection s.buckets o.buckets).map _
  rw [List.map_zipWith]
  congr 1
  funext a b
  congr 1
  rw [BitSet.countOnesInCommon_eq, BitSet.countOnes_eq]

theorem unionAll_spec {env : Env} {f g : V2} {gs : List V2} {u : Unit}
    (h : unionAll env f gs = (g, .ok u)) :
    Shape f g ∧ (∀ o ∈ gs, f.hasSameParams o = true) ∧
    (∀ b i, g.bit b i = true ↔ f.bit b i = true ∨ ∃ o ∈ gs, o.bit b i = true) ∧
    (∀ i, bitAt g.indexCache.asSlice i = true ↔ bitAt f.indexCache.asSlice i = true ∨
      ∃ o ∈ gs, bitAt o.indexCache.asSlice i = true) := by
  induction gs generalizing f with
  | nil =>
    simp only [unionAll, Prod.mk.injEq] at h
    obtain ⟨rfl, _⟩ := h
    exact ⟨Shape.refl _, by simp, by simp, by simp⟩
  | cons o gs ih =>
    rw [unionAll] at h
    cases hu : f.unionMerge env o with
    | mk f' r =>
      rw [hu] at h
      cases r with
      | ok u' =>
        obtain ⟨h1, h2, h3, h4⟩ := ih h
        have hsh : Shape f f' := by
          have := (unionMerge_ext env f o).toShape
          rwa [hu] at this
        obtain ⟨hp, c, hc⟩ := unionMerge_ok env hu
        obtain ⟨p1, p2, p3, p4, p5, p6⟩ := (hasSameParams_iff f o).1 hp
        have hb : ∀ b i, f'.bit b i = (f.bit b i || o.bit b i) := by
          intro b i; rw [hc]; exact bit_orBits p6 b i
        have hi : ∀ i, bitAt f'.indexCache.asSlice i
            = (bitAt f.indexCache.asSlice i || bitAt o.indexCache.asSlice i) := by
          intro i; rw [hc]; exact cache_orBits p3 i
        refine ⟨hsh.trans h1, ?_, ?_, ?_⟩
        · intro x hx
          rcases List.mem_cons.1 hx with rfl | hx
          · exact hp
          · have := h2 x hx
            rw [hasSameParams_iff] at this ⊢
            rwa [hsh.flags, hsh.capacity, hsh.clen, hsh.fpp, hsh.nHash, hsh.blen] at this
        · intro b i
          rw [h3, hb, Bool.or_eq_true, List.exists_mem_cons_iff, or_assoc]
        · intro i
          rw [h4, hi, Bool.or_eq_true, List.exists_mem_cons_iff, or_assoc]
      | err e => simp at h
      | panic => simp at h

theorem estimate_zero {env : Env} (sp : env.libm.LnSpec) {f : V2}
    (hz : ∀ b i, f.bit b i = false) : estimate env f = .ok 0 := by
  have hb : ∀ x ∈ f.buckets, x.countOnes = 0 := by
    intro x hx
    obtain ⟨b, hb, rfl⟩ := List.mem_iff_getElem.1 hx
    rw [BitSet.countOnes_eq, countBelow_congr (q := fun _ => false), countBelow_false]
    intro i _
    have := hz b i
    unfold bit at this
    simpa [List.getD_eq_getElem?_getD, hb] using this
  have : f.buckets.map (fun b => bucketEstimate env f.nHashBuck b.countOnes)
      = List.replicate f.buckets.length 0 := by
    rw [← List.map_const']
    apply List.map_congr_left
    intro x hx
    rw [hb x hx]
    exact estimateCount_zero sp _ _
  unfold estimate
  rw [this, sumU64_eq]
  simp

theorem estimate_mono {env : Env} (sp : env.libm.LnSpec) (hd : env.debug = true) {f g : V2}
    {c c' : U64} (hc : estimate env f = .ok c) (hc' : estimate env g = .ok c')
    (hn : f.nHashBuck = g.nHashBuck)
    (hb : List.Forall₂ (fun x y : Bucket => x.countOnes ≤ y.countOnes) f.buckets g.buckets) :
    c.toNat ≤ c'.toNat := by
  have hsum : ∀ {h : V2} {x : U64}, estimate env h = .ok x → x.toNat
      = (h.buckets.map fun b => (bucketEstimate env h.nHashBuck b.countOnes).toNat).sum := by
    intro h x hx
    unfold estimate at hx
    rw [sumU64_eq, List.map_map] at hx
    split at hx
    · cases hx
    · rename_i hov
      cases hx
      rw [BitVec.toNat_ofNat]
      refine Nat.mod_eq_of_lt ?_
      by_contra hlt
      exact hov ⟨hd, not_lt.1 hlt⟩
  rw [hsum hc, hsum hc', hn]
  apply List.Forall₂.sum_le_sum
  rw [List.forall₂_map_left_iff, List.forall₂_map_right_iff]
  refine hb.imp fun x y hxy => ?_
  have h2 := y.countOnes_le
  have hB : BUCKET_SIZE * 8 = 32768 := rfl
  have hbb : bucketBitSize.toNat = 32768 := by decide
  unfold bucketEstimate
  apply estimateCount_mono sp
  · rw [BitVec.toNat_ofNat, BitVec.toNat_ofNat, Nat.mod_eq_of_lt (by omega),
      Nat.mod_eq_of_lt (by omega)]
    exact hxy
  · rw [BitVec.toNat_ofNat, Nat.mod_eq_of_lt (by omega), hbb]
    omega

theorem inserts_shape (env : Env) (f : V2) (ks : List Key) : Shape f (inserts env f ks) := by
  induction ks generalizing f with
  | nil => exact Shape.refl f
  | cons k ks ih => exact (insert_ext env f k).toShape.trans (ih _)

end V2

namespace V1

theorem hasSameParams_symm (s o : V1) : s.hasSameParams o = o.hasSameParams s := by
  rw [Bool.eq_iff_iff, hasSameParams_iff, hasSameParams_iff, FVal.feq_comm]
  simp only [eq_comm]

theorem hasSameParams_trans {s o p : V1} (h1 : s.hasSameParams o = true)
    (h2 : o.hasSameParams p = true) : s.hasSameParams p = true := by
  rw [hasSameParams_iff] at *
  exact ⟨h1.1.trans h2.1, h1.2.1.trans h2.2.1, FVal.feq_trans h1.2.2.1 h2.2.2.1,
    h1.2.2.2.1.trans h2.2.2.2.1, h1.2.2.2.2.1.trans h2.2.2.2.2.1,
    h1.2.2.2.2.2.trans h2.2.2.2.2.2⟩

theorem hasSameParams_refl {s : V1} (h : FVal.ofBits s.fpp ≠ .nan) : s.hasSameParams s = true := by
  rw [hasSameParams_iff]
  exact ⟨rfl, rfl, V2.feq_refl_of_ne_nan h, rfl, rfl, rfl⟩

theorem contains_true_iff {env : Env} (hs : env.Small) {f : V1} (hf : Reach env f) (k : List U8) :
    f.containsBytes k = .ok true ↔ f.bitSize ≠ 0 ∧ f.allSet k = true := by
  by_cases hm : f.bitSize = 0
  · rw [containsBytes_empty (bitset_nil hf.fits hm)]; simp [hm]
  · rw [containsBytes_eq (hf.wf hs) k hm]
    simp only [Res.ok.injEq, ne_eq, hm, not_false_eq_true, true_and]

theorem containsBytes_congr {f g : V1} (hb : f.bitset = g.bitset) (hf : f.fingerprint = g.fingerprint) (k : List U8) :
    f.containsBytes k = g.containsBytes k := by
  have : ∀ fuel fp, containsLoop fuel f fp = containsLoop fuel g fp := by
    intro fuel
    induction fuel with
    | zero => intro fp; rfl
    | succ n ih =>
      intro fp
      simp only [containsLoop, getNthBit, hb, ih]
  unfold containsBytes
  simp only [hb, hf, this]

theorem allSet_or {s o : V1} (h : s.hasSameParams o = true) {k : List U8}
    (ha : s.allSet k = true ∨ o.allSet k = true) : (orBits s o).allSet k = true := by
  obtain ⟨_, _, _, hn, hm, hl⟩ := (hasSameParams_iff s o).1 h
  simp only [allSet_iff] at ha ⊢
  intro n hlt
  rw [bit_orBits hl, Bool.or_eq_true]
  rcases ha with ha | ha
  · exact Or.inl (ha n hlt)
  · right
    have := ha n (by rw [← hn]; exact hlt)
    rw [← hm] at this
    exact this

theorem orBits_comm (s o : V1) : (orBits s o).bitset = (orBits o s).bitset :=
  List.zipWith_comm_of_comm (fun x y => BitVec.or_comm x y)

/-- The estimate computed after a merge. -/
def estimate (env : Env) (f : V1) : U64 :=
  estimateCount env.libm f.bitSize (BitVec.ofNat 64 f.countOnes) f.nHash

theorem unionMerge_ok' {env : Env} {s o g : V1} {u : Unit} (h : s.unionMerge env o = (g, .ok u)) :
    s.hasSameParams o = true ∧ g = { orBits s o with count := estimate env (orBits s o) } :=
  unionMerge_ok env h

theorem estimate_congr {env : Env} {f g : V1} (hb : f.bitset = g.bitset) (hm : f.bitSize = g.bitSize)
    (hn : f.nHash = g.nHash) : estimate env f = estimate env g := by
  unfold estimate countOnes; rw [hb, hm, hn]

theorem unionAll_spec {env : Env} {f g : V1} {gs : List V1} {u : Unit}
    (h : unionAll env f gs = (g, .ok u)) :
    Shape f g ∧ (∀ o ∈ gs, f.hasSameParams o = true) ∧
    (∀ i, bitAt g.bitset i = true ↔ bitAt f.bitset i = true ∨
      ∃ o ∈ gs, bitAt o.bitset i = true) := by
  induction gs generalizing f with
  | nil =>
    simp only [unionAll, Prod.mk.injEq] at h
    obtain ⟨rfl, _⟩ := h
    exact ⟨Shape.refl _, by simp, by simp⟩
  | cons o gs ih =>
    rw [unionAll] at h
    cases hu : f.unionMerge env o with
    | mk f' r =>
      rw [hu] at h
      cases r with
      | ok u' =>
        obtain ⟨h1, h2, h3⟩ := ih h
        have hsh : Shape f f' := by
          have := (unionMerge_ext env f o).toShape
          rwa [hu] at this
        obtain ⟨hp, hc⟩ := unionMerge_ok env hu
        obtain ⟨p1, p2, p3, p4, p5, p6⟩ := (hasSameParams_iff f o).1 hp
        have hb : ∀ i, bitAt f'.bitset i = (bitAt f.bitset i || bitAt o.bitset i) := by
          intro i; rw [hc]; exact bit_orBits p6 i
        refine ⟨hsh.trans h1, ?_, ?_⟩
        · intro x hx
          rcases List.mem_cons.1 hx with rfl | hx
          · exact hp
          · have := h2 x hx
            rw [hasSameParams_iff] at this ⊢
            rwa [hsh.flags, hsh.capacity, hsh.fpp, hsh.nHash, hsh.bitSize, hsh.len] at this
        · intro i
          rw [h3, hb, Bool.or_eq_true, List.exists_mem_cons_iff, or_assoc]
      | err e => simp at h
      | panic => simp at h

theorem inserts_shape (env : Env) (f : V1) (ks : List (List U8)) : Shape f (inserts env f ks) := by
  induction ks generalizing f with
  | nil => exact Shape.refl f
  | cons k ks ih => exact (insertBytes_ext env f k).toShape.trans (ih _)

end V1

end Poppy
