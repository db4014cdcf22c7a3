import Verif.Lemmas.Pow2
import Verif.Props.Membership
import Verif.Props.Accuracy

/-! # DCSO filters whose number of bits is a power of two (C73)

`test_show_bug_in_v1` (`v1.rs`) observes that such filters have too many false positives; these
theorems say why, and how many. -/

namespace Poppy

open Spec

/-- Unless one of the first values of the chain is reduced by the modulus, the probes are the low
bits of the multiples of the hash: they are determined by the low bits of the hash. -/
theorem C73_probes (key : List U8) {j n : ℕ} (hj : j ≤ 64) (u : Unreduced (fnv1 key) (n + 1)) :
    dcsoProbe key (2 ^ j) n = fnv1 key % 2 ^ j * dcsoMul ^ (n + 1) % 2 ^ j := by
  unfold dcsoProbe
  rw [dcsoChain_of_lt u (fnv1_lt key), Nat.mod_mod_of_dvd _ (pow_dvd_pow 2 hj), Nat.mod_mul_mod]

-- the probes of the key "ad" in 64 bits
example : Unreduced (fnv1 [97#8, 100#8]) 7 ∧
    (List.range 7).map (dcsoProbe [97#8, 100#8] (2 ^ 6)) = [58, 46, 10, 30, 26, 14, 42] := by
  decide +kernel

/-- Two keys whose hashes have the same low bits are the same to such a filter: insertions and
queries do exactly the same with both, whatever the state of the filter. -/
theorem C73_alias {env : Env} (hs : env.Small) {f : V1} (hf : V1.Reach env f) {j : ℕ}
    (hj : f.bitSize.toNat = 2 ^ j) {a b : List U8} (hab : fnv1 a % 2 ^ j = fnv1 b % 2 ^ j)
    (ua : Unreduced (fnv1 a) f.nHash.toNat) (ub : Unreduced (fnv1 b) f.nHash.toNat) :
    f.insertBytes env a = f.insertBytes env b ∧ f.containsBytes a = f.containsBytes b := by
  have hj64 : j ≤ 64 := by
    have := f.bitSize.isLt
    rw [hj] at this
    exact ((Nat.pow_lt_pow_iff_right (by norm_num)).1 this).le
  have hm : f.bitSize ≠ 0 := by
    intro h
    rw [h] at hj
    have : 0 < 2 ^ j := by positivity
    rw [← hj] at this
    exact absurd this (by decide)
  have hpr : ∀ n < f.nHash.toNat,
      dcsoProbe a f.bitSize.toNat n = dcsoProbe b f.bitSize.toNat n := by
    intro n hn
    rw [hj, C73_probes a hj64 (fun i hi => ua i (by omega)),
      C73_probes b hj64 (fun i hi => ub i (by omega)), hab]
  have hall : f.allSet a = f.allSet b := by
    rw [Bool.eq_iff_iff, V1.allSet_iff, V1.allSet_iff]
    exact forall_congr' fun n => forall_congr' fun hn => by rw [hpr n hn]
  have hadd : f.added a = f.added b := by
    have : (List.range f.nHash.toNat).map (dcsoProbe a f.bitSize.toNat)
        = (List.range f.nHash.toNat).map (dcsoProbe b f.bitSize.toNat) :=
      List.map_congr_left fun n hn => hpr n (List.mem_range.1 hn)
    unfold V1.added
    rw [this, hall]
  have w := hf.wf hs
  refine ⟨?_, by rw [V1.containsBytes_eq w _ hm, V1.containsBytes_eq w _ hm, hall]⟩
  by_cases hc : f.capacity = 0
  · simp only [V1.insertBytes, if_pos hc]
  · rw [V1.insertBytes_eq env w _ hc hm, V1.insertBytes_eq env w _ hc hm, hall, hadd]

/-- Enough of a floating point library for the probability 1/8. -/
def Sample.libm8 : Libm where
  ln := fun x => if x = .fin 1 then .fin 0 else if x = .fin 2 then .fin (6243314768165359 / 2 ^ 53)
    else .fin (-4682486076124019 / 2 ^ 51)
  exp := fun _ => .fin (1 / 4)
  powf := fun _ _ => .fin (8655073435229077 / 2 ^ 54)

def Sample.env8 : Env := { Sample.env with libm := Sample.libm8 }

/-- `0.125f64` -/
def Sample.p8 : F64 := 0x3FC0000000000000#64

/-- A filter of 64 bits for 15 entries. -/
def Sample.f1pow : V1 := ⟨Flags.new 1, [0], 15, Sample.p8, 3, 64, 0, [], Fingerprint.new 3 64⟩

theorem Sample.f1pow_make : V1.withCapacity Sample.env8 15 Sample.p8 = .ok Sample.f1pow := by
  decide +kernel

-- the keys "a" and "ad", in that filter with any other keys
example (k : List U8) (f : V1) (h : f = (Sample.f1pow.insertBytes Sample.env8 k).1) :
    f.insertBytes Sample.env8 [97#8] = f.insertBytes Sample.env8 [97#8, 100#8] := by
  have e := V1.insertBytes_ext Sample.env8 Sample.f1pow k
  have hn : f.nHash = 3 := by rw [h, e.nHash]; rfl
  have hr : V1.Reach Sample.env8 f := by
    rw [h]; exact .insert k (.make Sample.f1pow_make)
  refine (C73_alias (j := 6) (env := Sample.env8) Sample.env_small hr ?_ ?_ ?_ ?_).1
  · rw [h, e.bitSize]; rfl
  · decide +kernel
  · rw [hn]; decide +kernel
  · rw [hn]; decide +kernel

/-- Reductions are rare: at most `59 (k + 1)` of the `2^64` hashes meet one in `k` steps. -/
theorem C73_rare (k : ℕ) : {h | h < 2 ^ 64 ∧ ¬ Unreduced h k}.ncard ≤ 59 * (k + 1) :=
  reduced_card k

/-- The hashes a v1 filter answers true for. -/
def V1.hits (f : V1) : Set ℕ :=
  {h | h < 2 ^ 64 ∧ ∀ n < f.nHash.toNat,
    bitAt f.bitset (dcsoChain h (n + 1) % f.bitSize.toNat) = true}

/-- The false positive rate of such a filter is at least the number of keys inserted (with
different low bits of their hash) over the number of bits: the same as with one hash function. -/
theorem C73_rate {env : Env} (hs : env.Small) {f : V1} {S : List (List U8)}
    (h : V1.Holds env f S) {j : ℕ} (hj : f.bitSize.toNat = 2 ^ j)
    (hu : ∀ s ∈ S, Unreduced (fnv1 s) f.nHash.toNat) :
    (∀ q, f.containsBytes q = .ok true ↔ fnv1 q ∈ f.hits) ∧
    (S.map fun s => fnv1 s % 2 ^ j).toFinset.card * 2 ^ (64 - j)
      ≤ f.hits.ncard + 59 * (f.nHash.toNat + 1) := by
  have hj64 : j ≤ 64 := by
    have := f.bitSize.isLt
    rw [hj] at this
    exact ((Nat.pow_lt_pow_iff_right (by norm_num)).1 this).le
  have hm : f.bitSize ≠ 0 := by
    intro h
    rw [h] at hj
    have : 0 < 2 ^ j := by positivity
    rw [← hj] at this
    exact absurd this (by decide)
  have w := h.built.reach.wf hs
  refine ⟨fun q => ?_, ?_⟩
  · rw [V1.containsBytes_eq w q hm]
    simp only [Res.ok.injEq, V1.allSet_iff]
    exact ⟨fun h => ⟨fnv1_lt q, h⟩, fun h => h.2⟩
  · rw [← residues_card hj64 _ (by
      intro r hr
      rw [List.mem_toFinset, List.mem_map] at hr
      obtain ⟨s, _, rfl⟩ := hr
      exact Nat.mod_lt _ (by positivity))]
    have hfin : f.hits.Finite := (Set.finite_lt_nat (2 ^ 64)).subset fun _ h => h.1
    have hfin' : {h | h < 2 ^ 64 ∧ ¬ Unreduced h f.nHash.toNat}.Finite :=
      (Set.finite_lt_nat (2 ^ 64)).subset fun _ h => h.1
    have hsub : {h | h < 2 ^ 64 ∧ h % 2 ^ j ∈ (S.map fun s => fnv1 s % 2 ^ j).toFinset}
        ⊆ f.hits ∪ {h | h < 2 ^ 64 ∧ ¬ Unreduced h f.nHash.toNat} := by
      rintro x ⟨x1, x2⟩
      by_cases ux : Unreduced x f.nHash.toNat
      · left
        refine ⟨x1, fun n hn => ?_⟩
        rw [List.mem_toFinset, List.mem_map] at x2
        obtain ⟨s, hsS, hx⟩ := x2
        rw [h.bits hs]
        refine ⟨s, hsS, n, hn, ?_⟩
        rw [hj, C73_probes s hj64 (fun i hi => hu s hsS i (by omega)), hx,
          dcsoChain_of_lt (fun i hi => ux i (by omega)) x1,
          Nat.mod_mod_of_dvd _ (pow_dvd_pow 2 hj64), Nat.mod_mul_mod]
      · right; exact ⟨x1, ux⟩
    have h1 := Set.ncard_le_ncard hsub (hfin.union hfin')
    have h2 := Set.ncard_union_le f.hits {h | h < 2 ^ 64 ∧ ¬ Unreduced h f.nHash.toNat}
    have h3 := C73_rare f.nHash.toNat
    omega

-- after the insertion of "a": at least 1/64 of the hashes, instead of 1 in 64^3
example (f : V1) (b : Bool) (h : Sample.f1pow.insertBytes Sample.env8 [97#8] = (f, .ok b)) :
    2 ^ 58 ≤ f.hits.ncard + 236 := by
  have e := V1.insertBytes_ext Sample.env8 Sample.f1pow [97#8]
  rw [h] at e
  have hn : f.nHash = 3 := by rw [e.nHash]; rfl
  have hh : V1.Holds Sample.env8 f [[97#8]] := .insert (.make Sample.f1pow_make) h
  have hb : f.bitSize.toNat = 2 ^ 6 := by rw [e.bitSize]; rfl
  have hu : ∀ s ∈ [[97#8]], Unreduced (fnv1 s) f.nHash.toNat := by rw [hn]; decide +kernel
  have := (C73_rate (env := Sample.env8) Sample.env_small hh hb hu).2
  rw [hn] at this
  exact this
example : (Sample.f1pow.insertBytes Sample.env8 [97#8]).2 = .ok true := by decide +kernel

/-- Such filters do occur: with capacity 109397 and probability 0.01 the filter has `2^20` bits. -/
theorem C73_size {env : Env} (ac : env.libm.Accurate) (hl : 2 ^ 17 ≤ env.allocLimit) :
    ∃ f, V1.withCapacity env 109397 Sample.p001 = .ok f ∧ f.bitSize.toNat = 2 ^ 20 := by
  obtain ⟨v, v0, hv, nv⟩ := bitSizeFor_near ac Sample.p001_inRange
    (q := 5764607523034235 / 2 ^ 59) (by decide +kernel) 109397
  have hb : (2 : ℝ) ^ 20 + 1 / 2 < ((109397 : U64).toNat : ℝ) *
      -Real.log ((5764607523034235 / 2 ^ 59 : ℚ) : ℝ) / Real.log 2 ^ 2 ∧
      ((109397 : U64).toNat : ℝ) *
      -Real.log ((5764607523034235 / 2 ^ 59 : ℚ) : ℝ) / Real.log 2 ^ 2 < (2 : ℝ) ^ 20 + 3 / 4 := by
    have hn : ((109397 : U64).toNat : ℝ) = 109397 := by
      show ((109397 : ℕ) : ℝ) = _
      norm_num
    have hp1 : (1 : ℝ) / 100 ≤ ((5764607523034235 / 2 ^ 59 : ℚ) : ℝ) := by norm_num
    have hp2 : ((5764607523034235 / 2 ^ 59 : ℚ) : ℝ) ≤ 1 / 100 * (1 + 1 / 10 ^ 15) := by norm_num
    have hl1 := Real.log_le_log (by norm_num) hp1
    have hl2 := Real.log_le_log (by norm_num) hp2
    rw [Real.log_mul (by norm_num) (by norm_num)] at hl2
    have hl3 := Real.log_le_sub_one_of_pos (x := 1 + 1 / 10 ^ 15) (by norm_num)
    have hl4 : Real.log (1 / 100) = -Real.log 100 := by rw [one_div, Real.log_inv]
    rw [hl4] at hl1 hl2
    obtain ⟨c1, c2⟩ := log_hundred
    have d1 := Real.log_two_gt_d9
    have d2 := Real.log_two_lt_d9
    rw [hn]
    generalize Real.log ((5764607523034235 / 2 ^ 59 : ℚ) : ℝ) = L at *
    generalize Real.log 2 = l2 at *
    have hpos : 0 < l2 ^ 2 := by positivity
    have hsq1 : l2 ^ 2 ≤ 0.6931471808 ^ 2 := pow_le_pow_left₀ (by linarith) d2.le 2
    have hsq2 : 0.6931471803 ^ 2 ≤ l2 ^ 2 := pow_le_pow_left₀ (by norm_num) d1.le 2
    constructor
    · rw [lt_div_iff₀ hpos]; norm_num at *; linarith
    · rw [div_lt_iff₀ hpos]; norm_num at *; linarith
  have nv := nv.mono (by linarith [hb.1]) (e' := 2 ^ (-44 : ℤ)) (by unfold halfUlp; norm_num)
  obtain ⟨b1, b2⟩ := hb
  generalize ((109397 : U64).toNat : ℝ) *
      -Real.log ((5764607523034235 / 2 ^ 59 : ℚ) : ℝ) / Real.log 2 ^ 2 = B at *
  have ht : B * 2 ^ (-44 : ℤ) < 1 / 4 := by
    calc B * 2 ^ (-44 : ℤ) < 2 ^ 21 * 2 ^ (-44 : ℤ) := by
          apply mul_lt_mul_of_pos_right _ (by positivity)
          norm_num at *; linarith
      _ < 1 / 4 := by norm_num
  have n1 := nv.1
  have n2 := nv.2
  rw [mul_sub, mul_one] at n1
  rw [mul_add, mul_one] at n2
  generalize B * 2 ^ (-44 : ℤ) = t at *
  have e1 : (2 : ℚ) ^ 20 ≤ v := by
    have : ((2 : ℝ) ^ 20) ≤ v := by norm_num at b1 ⊢; linarith
    exact_mod_cast this
  have e2 : v < (2 : ℚ) ^ 20 + 1 := by
    have : (v : ℝ) < (2 : ℝ) ^ 20 + 1 := by norm_num at b2 ⊢; linarith
    exact_mod_cast this
  have hfl : ⌊v⌋ = 2 ^ 20 := by
    rw [Int.floor_eq_iff]
    push_cast
    exact ⟨e1, e2⟩
  have hsz : bitSizeFor env.libm 109397 (FVal.ofBits Sample.p001) = 1048576 := by
    rw [hv, hfl]
    decide +kernel
  have h2 : u64SizeFor 1048576 = 16384 := by decide +kernel
  unfold V1.withCapacity
  simp only [Sample.p001_inRange, Bool.not_true, Bool.false_eq_true, if_false, hsz, h2]
  rw [Env.alloc_of_le (by show 16384 * 8 ≤ _; omega)]
  exact ⟨_, rfl, rfl⟩

example := C73_size (Sample.envX_accurate false) (by show 2 ^ 17 ≤ 2 ^ 20; norm_num)

end Poppy
