import Verif.Props.Accuracy

/-! # C72 The estimates of version 1 -/

namespace Poppy

open Spec

/-- The number of common entries of two v1 filters, up to the error of the subtraction
`1 - ones / bits`. -/
theorem C72_v1_common {env : Env} (ac : env.libm.Accurate) {s o : V1}
    (hp : s.hasSameParams o = true) (hk : s.nHash ≠ 0) (hm : s.bitSize.toNat ≤ 2 ^ 50) {x : ℕ}
    (hx : x = countBelow (s.bitset.length * 64) fun i => bitAt s.bitset i && bitAt o.bitset i)
    (hx' : x < s.bitSize.toNat) :
    ∃ c, s.countCommonEntries env o = .ok c ∧
      |(c.toNat : ℝ) - entries s.bitSize.toNat s.nHash.toNat x|
        ≤ 1 + entries s.bitSize.toNat s.nHash.toNat x * 2 ^ (-44 : ℤ)
          + (s.bitSize.toNat : ℝ) ^ 2 / (s.nHash.toNat * (s.bitSize.toNat - x)) * 2 ^ (-50 : ℤ) := by
  obtain ⟨_, _, _, _, _, p6⟩ := (V1.hasSameParams_iff s o).1 hp
  have hc : s.countCommonEntries env o
      = .ok (estimateCount env.libm s.bitSize (BitVec.ofNat 64 x) s.nHash) := by
    unfold V1.countCommonEntries V1.countOnesInCommon
    rw [hp, if_pos p6]
    simp only [Bool.not_true, Bool.false_eq_true, if_false, Res.bind_ok]
    rw [sum_countOnes, hx, List.length_zipWith, p6, min_self]
    congr 4
    funext i
    exact bitAt_zipWith_and p6 i
  refine ⟨_, hc, ?_⟩
  clear hx
  have hxn : (BitVec.ofNat 64 x).toNat = x := by
    rw [BitVec.toNat_ofNat, Nat.mod_eq_of_lt (by omega)]
  obtain ⟨h1, h2⟩ := estimateCount_bounds ac hk hm (ones := BitVec.ofNat 64 x) (by rw [hxn]; exact hx')
  rw [hxn] at h1 h2
  rw [abs_le]
  constructor <;> linarith

/-- If the union of two v1 filters has as many bits set as there are bits, the estimate is 2⁶⁴-1
whatever was inserted; the same for the bits in common and the number of common entries. -/
theorem C72_v1_full {env : Env} (h0 : env.libm.ln (.fin 0) = .ninf) {s o : V1}
    (hp : s.hasSameParams o = true) (hk : s.nHash ≠ 0) (hb : s.bitSize ≠ 0) :
    (countBelow (s.bitset.length * 64) (fun i => bitAt s.bitset i || bitAt o.bitset i)
        = s.bitSize.toNat →
      ∃ g, s.unionMerge env o = (g, .ok ()) ∧ g.countEstimate.toNat = 2 ^ 64 - 1) ∧
    (countBelow (s.bitset.length * 64) (fun i => bitAt s.bitset i && bitAt o.bitset i)
        = s.bitSize.toNat →
      ∃ c, s.countCommonEntries env o = .ok c ∧ c.toNat = 2 ^ 64 - 1) := by
  obtain ⟨_, _, _, _, _, p6⟩ := (V1.hasSameParams_iff s o).1 hp
  constructor
  · intro hx
    refine ⟨(V1.orBits s o).updateCount env, by rw [V1.unionMerge_eq, if_pos hp], ?_⟩
    show (V1.estimate env (V1.orBits s o)).toNat = _
    unfold V1.estimate V1.countOnes V1.orBits
    rw [sum_countOnes, List.length_zipWith, p6, min_self, countBelow_congr fun i _ =>
      bitAt_zipWith_or p6 i, ← p6, hx]
    show (estimateCount env.libm s.bitSize (BitVec.ofNat 64 s.bitSize.toNat) s.nHash).toNat = _
    rw [BitVec.ofNat_toNat, BitVec.setWidth_eq, estimateCount_full h0 hb hk]
    rfl
  · intro hx
    refine ⟨BitVec.allOnes 64, ?_, rfl⟩
    unfold V1.countCommonEntries V1.countOnesInCommon
    rw [hp, if_pos p6]
    simp only [Bool.not_true, Bool.false_eq_true, if_false, Res.bind_ok]
    rw [sum_countOnes, List.length_zipWith, p6, min_self, countBelow_congr fun i _ =>
      bitAt_zipWith_and p6 i, ← p6, hx, BitVec.ofNat_toNat, BitVec.setWidth_eq,
      estimateCount_full h0 hb hk]

-- two v1 filters with common bits
example : let s : V1 := ⟨Flags.new 1, [3], 1, Sample.half, 7, 9, 0, [], Fingerprint.new 7 9⟩
    let o : V1 := ⟨Flags.new 1, [6], 1, Sample.half, 7, 9, 0, [], Fingerprint.new 7 9⟩
    s.hasSameParams o = true ∧ s.nHash ≠ 0 ∧ s.bitSize.toNat ≤ 2 ^ 50 ∧
    countBelow (s.bitset.length * 64) (fun i => bitAt s.bitset i && bitAt o.bitset i) = 1 := by
  decide +kernel

-- full ones
example : let s : V1 := ⟨Flags.new 1, [1], 1, Sample.half, 7, 2, 0, [], Fingerprint.new 7 2⟩
    let o : V1 := ⟨Flags.new 1, [2], 1, Sample.half, 7, 2, 0, [], Fingerprint.new 7 2⟩
    s.hasSameParams o = true ∧ s.nHash ≠ 0 ∧ s.bitSize ≠ 0 ∧
    countBelow (s.bitset.length * 64) (fun i => bitAt s.bitset i || bitAt o.bitset i)
      = s.bitSize.toNat := by
  decide +kernel

end Poppy
