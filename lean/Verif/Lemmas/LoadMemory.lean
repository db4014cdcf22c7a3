import Verif.Lemmas.Load
import Verif.Lemmas.Serial
import Verif.Samples

/-! # Lemmas for C109: files that announce more than they have -/

namespace Poppy

open Spec

/-- A file of 56 bytes that announces `n` buckets. -/
def announce2 (n : ℕ) : List U8 :=
  [2, 0, 0, 0, 0, 0, 0, 0] ++ le 8 0 ++ le 8 (1023 * 2 ^ 52) ++ le 8 0 ++ le 8 0 ++ le 8 0 ++ le 8 n

/-- A file of 48 bytes that announces `64 * n` bits. -/
def announce1 (n : ℕ) : List U8 :=
  [1, 0, 0, 0, 0, 0, 0, 0] ++ le 8 0 ++ le 8 (1023 * 2 ^ 52) ++ le 8 0 ++ le 8 (64 * n) ++ le 8 0

theorem of_map_panic {x : Res Bloom} {y : Res (File1 ⊕ File2)} (h : x.map Bloom.content = y)
    (hy : y = .panic) : x = .panic := by
  subst hy; cases x <;> simp_all [Res.map]

theorem of_map_err {x : Res Bloom} {y : Res (File1 ⊕ File2)} {e : Error}
    (h : x.map Bloom.content = y) (hy : y = .err e) : x = .err e := by
  subst hy; cases x <;> simp_all [Res.map]

theorem leVal_le_eight (n : ℕ) : leVal (le 8 n) = n % 2 ^ 64 := by
  simp [leVal, le, List.range_succ]
  omega

theorem announce2_num (n : ℕ) (hn : n < 2 ^ 64) : (announce2 n).length = 56 ∧
    num (announce2 n) 16 = 1023 * 2 ^ 52 ∧ num (announce2 n) 40 = 0 ∧ num (announce2 n) 48 = n ∧
    (announce2 n).getD 0 0 = 2#8 ∧ (announce2 n).getD 1 0 = 0#8 := by
  refine ⟨by simp [announce2, length_le], ?_, ?_, ?_, rfl, rfl⟩
  · unfold num announce2
    rw [List.drop_append_of_le_length (by decide), List.take_append_of_le_length (by decide)]
    decide +kernel
  · unfold num announce2
    rw [List.drop_append_of_le_length (by decide), List.take_append_of_le_length (by decide)]
    decide +kernel
  · unfold num announce2
    rw [List.drop_left' (by decide), List.take_of_length_le (by rw [length_le]), leVal_le_eight,
      Nat.mod_eq_of_lt hn]

theorem announce1_num (n : ℕ) (hn : n < 2 ^ 58) : (announce1 n).length = 48 ∧
    num (announce1 n) 32 = 64 * n ∧
    (announce1 n).getD 0 0 = 1#8 ∧ (announce1 n).getD 1 0 = 0#8 := by
  refine ⟨by simp [announce1, length_le], ?_, rfl, rfl⟩
  unfold num announce1
  rw [List.drop_append_of_le_length (by simp [length_le]), List.drop_left' (by decide),
    List.take_append_of_le_length (by rw [length_le]), List.take_of_length_le (by rw [length_le]),
    leVal_le_eight, Nat.mod_eq_of_lt (by omega)]

end Poppy
