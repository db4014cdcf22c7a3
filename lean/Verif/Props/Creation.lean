import Verif.Lemmas.Creation
import Verif.Props.Accuracy
import Verif.Props.Constructor

/-! # When filters can be created (C110) -/

namespace Poppy

open Spec

/-- If there is memory for `n` buckets, and by the textbook formula `n` buckets hold the capacity,
then a v2 filter is created, with at most `n` buckets.  With the levels Speed and Best there must
also be memory for the index cache; with Speed `n` must be a power of two. -/
theorem C110_v2 {env : Env} (ac : env.libm.Accurate) {cap : U64} {fpp : F64} {opt : OptLevel}
    {p : ℚ} (hr : 2 ^ 52 ≤ fpp.toNat ∧ fpp.toNat ≤ 1023 * 2 ^ 52) (hp : FVal.ofBits fpp = .fin p)
    (h1 : p ≤ 1 - 1 / 2 ^ 40) {n : ℕ}
    (hn : cap.toNat * (1 + 2 ^ (-44 : ℤ)) ≤ n * (bestCapacity 32768 p * (1 - 2 ^ (-44 : ℤ)) - 1))
    (hl : n * 4096 ≤ env.allocLimit)
    (hs : opt = .speed → ∃ k < 64, n = 2 ^ k)
    (hc : opt = .speed ∨ opt = .best →
      ∃ j ≤ 52, cap.toNat ≤ 2 ^ j ∧ (2 ^ j + 7) / 8 ≤ env.allocLimit) :
    ∃ f, V2.make env cap fpp opt = .ok f ∧ f.buckets.length ≤ n := by
  have hin := (fppInRange_iff fpp).2 hr
  exact V2.make_enough ac.spec hin (bucketCap_bounds ac hin hp h1).1.le hn hl ⟨hs, hc⟩

/-- Whatever the probability, 187 bytes for each entry and 4096 more are enough without a cache. -/
theorem C110_v2_any {env : Env} (sp : env.libm.Spec) {cap : U64} {fpp : F64} {opt : OptLevel}
    (ho : opt = .none ∨ opt = .space)
    (hr : 2 ^ 52 ≤ fpp.toNat ∧ fpp.toNat ≤ 1023 * 2 ^ 52)
    (hl : cap.toNat * 187 + 4096 ≤ env.allocLimit) : ∃ f, V2.make env cap fpp opt = .ok f := by
  have hin := (fppInRange_iff fpp).2 hr
  obtain ⟨f, hf, _⟩ := V2.make_enough sp hin (cap := cap) (opt := opt)
    (n := (cap.toNat * 187 + 4096) / 4096) (c := 22)
    (by exact_mod_cast bucketCap_ge sp hin) (by
      have h0 : cap.toNat * 187 ≤ (cap.toNat * 187 + 4096) / 4096 * 4096 := by omega
      have h1 : (cap.toNat : ℝ) * 187
          ≤ (((cap.toNat * 187 + 4096) / 4096 : ℕ) : ℝ) * 4096 := by exact_mod_cast h0
      have h2 : (cap.toNat : ℝ) * (1 + 2 ^ (-44 : ℤ)) ≤ cap.toNat * (187 * 22 / 4096) :=
        mul_le_mul_of_nonneg_left (by norm_num) (Nat.cast_nonneg _)
      linarith) (by omega)
    ⟨fun h => (by subst h; simp at ho), fun h => (by rcases h with rfl | rfl <;> simp at ho)⟩
  exact ⟨f, hf⟩

/-- Without memory for the buckets that the textbook formula asks for there is a panic. -/
theorem C110_v2_panics {env : Env} (ac : env.libm.Accurate) {cap : U64} {fpp : F64}
    {opt : OptLevel} {p : ℚ} (hr : 2 ^ 52 ≤ fpp.toNat ∧ fpp.toNat ≤ 1023 * 2 ^ 52)
    (hp : FVal.ofBits fpp = .fin p) (h1 : p ≤ 1 - 1 / 2 ^ 40)
    (hl : env.allocLimit * (bestCapacity 32768 p * (1 + 2 ^ (-44 : ℤ)))
      < 4096 * (cap.toNat * (1 - 2 ^ (-44 : ℤ)))) :
    V2.make env cap fpp opt = .panic := by
  have hin := (fppInRange_iff fpp).2 hr
  cases h : V2.make env cap fpp opt with
  | err e => exact absurd hr ((C44_v2 _ _ _ _ _).1 h).2
  | panic => rfl
  | ok f =>
    exfalso
    obtain ⟨_, _, e, _, _, qm, _⟩ := ac.ln_fpp hin
    rw [hp] at e
    cases e
    obtain ⟨z1, _, _⟩ := bestCapacity_bounds qm h1
    have hz : 0 ≤ bestCapacity 32768 (p : ℝ) * (1 + 2 ^ (-44 : ℤ)) :=
      mul_nonneg (by linarith) (by norm_num)
    by_cases hc : cap = 0
    · subst hc
      have : 0 ≤ (env.allocLimit : ℝ) * (bestCapacity 32768 p * (1 + 2 ^ (-44 : ℤ))) :=
        mul_nonneg (Nat.cast_nonneg _) hz
      have e0 : (((0 : U64).toNat : ℕ) : ℝ) = 0 := by norm_num
      rw [e0] at hl
      linarith
    have h2 := (C71_v2_buckets ac h hc hp h1).1
    obtain ⟨_, nb, nh, cbs, _, _, ha, rfl⟩ := V2.make_ok h
    simp only [List.length_replicate] at h2
    have h3 : (4096 * nb.toNat : ℝ) ≤ env.allocLimit := by
      have : 4096 * nb.toNat ≤ env.allocLimit := by
        have : nb.toNat * 4096 ≤ env.allocLimit := ha
        omega
      exact_mod_cast this
    have h4 := mul_le_mul_of_nonneg_right h3 hz
    linarith

/-- A v1 filter is created if there is memory for the textbook number of bits. -/
theorem C110_v1 {env : Env} (hs : env.Small) (ac : env.libm.Accurate) {cap : U64} {fpp : F64}
    {p : ℚ} (hr : 2 ^ 52 ≤ fpp.toNat ∧ fpp.toNat ≤ 1023 * 2 ^ 52) (hp : FVal.ofBits fpp = .fin p)
    {n : ℕ} (hn : bestBits cap.toNat p * (1 + 2 ^ (-44 : ℤ)) ≤ 64 * n)
    (hl : n * 8 ≤ env.allocLimit) :
    ∃ f, V1.withCapacity env cap fpp = .ok f ∧ f.bitset.length ≤ n := by
  have hin := (fppInRange_iff fpp).2 hr
  obtain ⟨v, v0, hv, nv⟩ := bitSizeFor_near ac hin hp cap
  obtain ⟨_, _, e, q0, q1, _⟩ := ac.ln_fpp hin
  rw [hp] at e
  cases e
  have hx : 0 ≤ bestBits cap.toNat p := by
    unfold bestBits
    have : Real.log (p : ℝ) ≤ 0 := Real.log_nonpos (by exact_mod_cast q0.le) (by exact_mod_cast q1)
    have : 0 ≤ -Real.log (p : ℝ) := by linarith
    positivity
  have nv := nv.mono hx (e' := 2 ^ (-44 : ℤ)) (by unfold halfUlp; norm_num)
  have hvn : (v : ℝ) ≤ (64 * n : ℕ) := by push_cast; exact nv.2.trans hn
  have hvn : v ≤ ((64 * n : ℕ) : ℚ) := by exact_mod_cast hvn
  unfold Env.Small at hs
  have hf : ⌊v⌋ ≤ ((64 * n : ℕ) : ℤ) := by
    have := Int.floor_le_floor hvn
    rwa [Int.floor_natCast] at this
  have h0 : 0 ≤ ⌊v⌋ := Int.floor_nonneg.2 v0
  have hm : (bitSizeFor env.libm cap (FVal.ofBits fpp)).toNat ≤ 64 * n := by
    rw [hv, toU64_fin (by
      have : ⌊v⌋ < 2 ^ 64 := by omega
      exact_mod_cast this), Int.floor_intCast]
    omega
  have hw : (u64SizeFor (bitSizeFor env.libm cap (FVal.ofBits fpp))).toNat ≤ n := by
    rw [u64SizeFor_eq (by omega)]
    omega
  unfold V1.withCapacity
  have ha : env.alloc (u64SizeFor (bitSizeFor env.libm cap (FVal.ofBits fpp))).toNat 8 = .ok () := by
    unfold Env.alloc; rw [if_pos (by omega)]
  rw [hin]
  simp only [Bool.not_true, Bool.false_eq_true, if_false, ha]
  exact ⟨_, rfl, by simpa using hw⟩

/-- Without memory for the textbook number of bits there is a panic. -/
theorem C110_v1_panics {env : Env} (hs : env.Small) (ac : env.libm.Accurate) {cap : U64}
    {fpp : F64} {p : ℚ} (hr : 2 ^ 52 ≤ fpp.toNat ∧ fpp.toNat ≤ 1023 * 2 ^ 52)
    (hp : FVal.ofBits fpp = .fin p)
    (hl : 8 * env.allocLimit + 1 ≤ bestBits cap.toNat p * (1 - 2 ^ (-44 : ℤ))) :
    V1.withCapacity env cap fpp = .panic := by
  cases h : V1.withCapacity env cap fpp with
  | err e => exact absurd hr ((C44_v1 _ _ _ _).1 h).2
  | panic => rfl
  | ok f =>
    exfalso
    have h1 := (C71_v1_bits hs ac h hp).1
    obtain ⟨_, ha, rfl⟩ := V1.withCapacity_ok h
    have h2 := (u64SizeFor_small (lt_of_le_of_lt ha hs)).2
    simp only at h1
    have h3 : (bitSizeFor env.libm cap (FVal.ofBits fpp)).toNat ≤ 8 * env.allocLimit := by omega
    have h4 : ((bitSizeFor env.libm cap (FVal.ofBits fpp)).toNat : ℝ) ≤ 8 * env.allocLimit := by
      exact_mod_cast h3
    linarith

theorem Sample.half_capacity : 22500 ≤ bestCapacity 32768 ((1 / 2 : ℚ) : ℝ) ∧
    bestCapacity 32768 ((1 / 2 : ℚ) : ℝ) ≤ 23000 := by
  have hl := log_two_bounds
  have e : bestCapacity 32768 ((1 / 2 : ℚ) : ℝ) = 32768 * Real.log 2 := by
    unfold bestCapacity
    push_cast
    rw [Real.log_div one_ne_zero two_ne_zero, Real.log_one]
    have : Real.log 2 ≠ 0 := by linarith
    field_simp
    ring
  rw [e]
  constructor <;> linarith

/-- 40000 entries with probability 1/2 fit in two buckets, with every level; for a thousand million
there is not enough memory on this machine (one megabyte). -/
example (opt : OptLevel) : (∃ f, V2.make (Sample.envX true) 40000 Sample.half opt = .ok f ∧
      f.buckets.length ≤ 2) ∧
    V2.make (Sample.envX true) 1000000000 Sample.half opt = .panic := by
  obtain ⟨c1, c2⟩ := Sample.half_capacity
  have e40 : (((40000 : U64).toNat : ℕ) : ℝ) = 40000 := by
    rw [show (40000 : U64).toNat = 40000 from by decide]; norm_num
  have e9 : (((1000000000 : U64).toNat : ℕ) : ℝ) = 1000000000 := by
    rw [show (1000000000 : U64).toNat = 1000000000 from by decide]; norm_num
  have e20 : (((Sample.envX true).allocLimit : ℕ) : ℝ) = 2 ^ 20 := by
    show (((2 ^ 20 : ℕ)) : ℝ) = 2 ^ 20
    norm_num
  have e44 : (2 : ℝ) ^ (-44 : ℤ) = 1 / 2 ^ 44 := by norm_num
  constructor
  · refine C110_v2 (Sample.envX_accurate true) (by decide) Sample.half_eq (by norm_num) ?_
      (by show 2 * 4096 ≤ 2 ^ 20; norm_num) (fun _ => ⟨1, by norm_num, rfl⟩)
      (fun _ => ⟨16, by norm_num, by decide, by show _ ≤ 2 ^ 20; norm_num⟩)
    rw [e40, e44]
    push_cast at c1 ⊢
    linarith
  · refine C110_v2_panics (Sample.envX_accurate true) (by decide) Sample.half_eq (by norm_num) ?_
    rw [e9, e20, e44]
    push_cast at c2 ⊢
    linarith

/-- 30000 bits for 20000 entries with probability 1/2. -/
example : ∃ f, V1.withCapacity (Sample.envX true) 20000 Sample.half = .ok f ∧
    f.bitset.length ≤ 469 := by
  refine C110_v1 (Sample.envX_small true) (Sample.envX_accurate true) (by decide) Sample.half_eq ?_
    (by show 469 * 8 ≤ 2 ^ 20; norm_num)
  have hl := log_two_bounds
  have h0 : 0 < Real.log 2 := by linarith
  have e : bestBits (((20000 : U64).toNat : ℕ) : ℝ) ((1 / 2 : ℚ) : ℝ) = 20000 / Real.log 2 := by
    unfold bestBits
    push_cast
    rw [Real.log_div one_ne_zero two_ne_zero, Real.log_one]
    field_simp
    norm_num
  rw [e]
  have e44 : (2 : ℝ) ^ (-44 : ℤ) = 1 / 2 ^ 44 := by norm_num
  have : 20000 / Real.log 2 ≤ 30000 := by
    rw [div_le_iff₀ h0]; linarith
  rw [e44]
  push_cast
  linarith

end Poppy
