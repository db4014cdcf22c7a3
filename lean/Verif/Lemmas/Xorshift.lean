import Mathlib.Data.Fintype.EquivFin
import Verif.Model.V2

/-! The bucket hash is a bijection. -/

namespace Poppy

theorem xor_shl_injective (k : ℕ) (hk : 0 < k) :
    Function.Injective (fun x : U64 => x ^^^ (x <<< k)) := by
  intro x y h
  have hbit : ∀ i, i < 64 → x.getLsbD i = y.getLsbD i := by
    intro i
    induction i using Nat.strong_induction_on with
    | _ i ih =>
      intro hi
      have h' := congrArg (fun z : U64 => z.getLsbD i) h
      simp only [BitVec.getLsbD_xor, BitVec.getLsbD_shiftLeft, hi, decide_true, Bool.true_and] at h'
      by_cases hik : i < k
      · simpa [hik] using h'
      · rw [ih (i - k) (by omega) (by omega)] at h'
        simpa using h'
  exact BitVec.eq_of_getLsbD_eq hbit

theorem xor_shr_injective (k : ℕ) (hk : 0 < k) :
    Function.Injective (fun x : U64 => x ^^^ (x >>> k)) := by
  intro x y h
  have hbit : ∀ j, j ≤ 64 → ∀ i, i < 64 → 64 - j ≤ i → x.getLsbD i = y.getLsbD i := by
    intro j
    induction j with
    | zero => intro _ i hi hi'; omega
    | succ j ih =>
      intro hj i hi hi'
      have h' := congrArg (fun z : U64 => z.getLsbD i) h
      simp only [BitVec.getLsbD_xor, BitVec.getLsbD_ushiftRight] at h'
      have : x.getLsbD (k + i) = y.getLsbD (k + i) := by
        by_cases hki : k + i < 64
        · exact ih (by omega) (k + i) hki (by omega)
        · rw [BitVec.getLsbD_of_ge _ _ (by omega), BitVec.getLsbD_of_ge _ _ (by omega)]
      rw [this] at h'
      simpa using h'
  exact BitVec.eq_of_getLsbD_eq (fun i hi => hbit 64 le_rfl i hi (by omega))

theorem mul_injective_of_inv (c d : U64) (h : c * d = 1) :
    Function.Injective (fun x : U64 => x * c) := by
  intro x y hxy
  have := congrArg (· * d) hxy
  simpa [BitVec.mul_assoc, h] using this

theorem xorshiftStar_injective : Function.Injective xorshiftStar := by
  have h1 := xor_shl_injective 12 (by norm_num)
  have h2 := xor_shr_injective 25 (by norm_num)
  have h3 := xor_shl_injective 27 (by norm_num)
  have h4 := mul_injective_of_inv 2685821657736338717#64 6415128727920758069#64 (by decide)
  exact h4.comp (h3.comp (h2.comp h1))

instance : Finite U64 := Finite.of_injective (fun x : U64 => x.toFin) (fun _ _ h => BitVec.eq_of_toFin_eq h)

theorem xorshiftStar_bijective : Function.Bijective xorshiftStar :=
  Finite.injective_iff_bijective.1 xorshiftStar_injective

end Poppy
