import Verif.Lemmas.LoadMemory
import Verif.Props.Load

/-! # Memory needed to load a file (C109) -/

namespace Spec

open Poppy (U8)

/-- Number of bytes of the largest block of memory that loading a byte string asks for: read off
the numbers at fixed places. -/
def memory (bs : List U8) : ℕ :=
  if bs.length < 48 ∨ 3 < (bs.getD 1 0).toNat then 0
  else if bs.getD 0 0 = 1#8 then (num bs 32 + 63) / 64 * 8
  else if bs.getD 0 0 = 2#8 ∧ 2 ^ 52 ≤ num bs 16 ∧ num bs 16 ≤ 1023 * 2 ^ 52 then
    max ((num bs 40 + 7) / 8)
      (if bs.length < 56 + (num bs 40 + 7) / 8 then 0 else num bs (48 + (num bs 40 + 7) / 8) * 4096)
  else 0

end Spec

namespace Poppy

open Spec

/-- Loading panics exactly if less memory can be allocated than `Spec.memory` says. -/
theorem C109_exact {env : Env} (hs : env.Small) (bs : List U8) :
    Bloom.fromReader env (Reader.ofBytes bs) = .panic ↔ env.allocLimit < memory bs := by
  rw [C79_panics hs]
  unfold memory
  by_cases h48 : bs.length < 48
  · simp only [h48, true_or, if_true]; omega
  by_cases h3 : 3 < (bs.getD 1 0).toNat
  · simp only [h3, or_true, if_true]; omega
  rw [if_neg (by tauto)]
  have h8 : 8 ≤ bs.length := by omega
  have h48' : 48 ≤ bs.length := by omega
  have h3' : (bs.getD 1 0).toNat ≤ 3 := by omega
  by_cases v1 : bs.getD 0 0 = 1#8
  · have v2 : ¬ (1#8 : U8) = 2#8 := by decide
    simp only [h8, h3', h48', v1, v2, true_and, false_and, or_false, if_true]
  · by_cases v2 : bs.getD 0 0 = 2#8
    · have v3 : ¬ (2#8 : U8) = 1#8 := by decide
      simp only [h8, h3', h48', v2, v3, true_and, false_and, false_or, if_false]
      generalize (num bs 40 + 7) / 8 = c
      by_cases hp : 2 ^ 52 ≤ num bs 16 ∧ num bs 16 ≤ 1023 * 2 ^ 52
      · rw [if_pos hp, lt_max_iff]
        split_ifs <;> omega
      · rw [if_neg hp]; omega
    · rw [if_neg v1, if_neg (fun h => v2 h.1)]
      constructor
      · rintro ⟨-, -, ⟨h, -⟩ | ⟨h, -⟩⟩
        · exact absurd h v1
        · exact absurd h v2
      · intro h; omega

/-- A file that is loaded is longer than the memory asked for (at least by its header). -/
theorem C109_loaded_partial {env : Env} (hs : env.Small) {bs : List U8} {f : Bloom}
    (h : Bloom.fromReader env (Reader.ofBytes bs) = .ok f) : memory bs + 48 ≤ bs.length := by
  have hl : ∃ c, load env.allocLimit bs = .ok c := by
    have := C79_bloom hs bs
    rw [h] at this
    cases hc : load env.allocLimit bs <;> rw [hc] at this <;> simp_all [Res.map, Load.res]
  obtain ⟨c, hl⟩ := hl
  unfold load header at hl
  by_cases a : bs.length < 8
  · rw [if_pos a] at hl; cases hl
  by_cases b : 3 < (bs.getD 1 0).toNat
  · rw [if_neg a, if_pos b] at hl; cases hl
  rw [if_neg a, if_neg b] at hl
  simp only at hl
  by_cases v1 : bs.getD 0 0 = 1#8
  · rw [if_pos v1] at hl
    unfold body1 at hl
    simp only at hl
    split_ifs at hl with x y z
    all_goals first | (simp [Load.map] at hl; done) | skip
    unfold memory
    rw [if_neg (by omega), if_pos v1]
    omega
  · rw [if_neg v1] at hl
    by_cases v2 : bs.getD 0 0 = 2#8
    swap
    · rw [if_neg v2] at hl; cases hl
    rw [if_pos v2] at hl
    unfold body2 at hl
    simp only at hl
    split_ifs at hl with x y z u w t s
    all_goals first | (simp [Load.map] at hl; done) | skip
    unfold memory
    rw [if_neg (by omega), if_neg v1, if_pos ⟨v2, by tauto⟩, if_neg (by omega)]
    have : ∀ a b n : ℕ, a + 48 ≤ n → b + 48 ≤ n → max a b + 48 ≤ n := by
      intro a b n; omega
    exact this _ _ _ (by omega) (by omega)

/-- Files that are not loaded may ask for any amount: for each number of buckets there is a file of
56 bytes for which that many are allocated before its end is noticed. -/
theorem C109_v2_violated {n : ℕ} (h0 : 0 < n) (hn : n < 2 ^ 64) :
    ∃ bs : List U8, bs.length = 56 ∧ memory bs = n * 4096 ∧
      ∀ env : Env, env.Small → Bloom.fromReader env (Reader.ofBytes bs)
        = if env.allocLimit < n * 4096 then .panic else .err (.ioError .unexpectedEof) := by
  obtain ⟨h1, h2, h3, h4, h5, h6⟩ := announce2_num n hn
  refine ⟨announce2 n, h1, ?_, fun env hs => ?_⟩
  · unfold memory
    rw [h1, h2, h3, h5, h6]
    simp [h4]
  · have := C79_bloom hs (announce2 n)
    unfold load header body2 at this
    rw [h1, h2, h3, h5, h6] at this
    simp only [Nat.zero_add, show 7 / 8 = 0 from rfl, Nat.add_zero, h4] at this
    rw [if_neg (by decide), if_neg (by decide), if_neg (by decide), if_pos trivial, if_neg (by decide),
      if_neg (by decide), if_neg (by decide), if_neg (by omega), if_neg (by decide)] at this
    by_cases hm : env.allocLimit < n * 4096
    · rw [if_pos hm] at this ⊢
      exact of_map_panic this rfl
    · rw [if_neg hm, if_pos (by omega)] at this
      rw [if_neg hm]
      exact of_map_err this rfl

/-- The same for v1 with 48 bytes. -/
theorem C109_v1_violated {n : ℕ} (h0 : 0 < n) (hn : n < 2 ^ 58) :
    ∃ bs : List U8, bs.length = 48 ∧ memory bs = n * 8 ∧
      ∀ env : Env, env.Small → Bloom.fromReader env (Reader.ofBytes bs)
        = if env.allocLimit < n * 8 then .panic else .err (.ioError .unexpectedEof) := by
  obtain ⟨h1, h2, h5, h6⟩ := announce1_num n hn
  have e : (64 * n + 63) / 64 = n := by omega
  refine ⟨announce1 n, h1, ?_, fun env hs => ?_⟩
  · unfold memory
    rw [h1, h2, h5, h6]
    simp [e]
  · have := C79_bloom hs (announce1 n)
    unfold load header body1 at this
    rw [h1, h2, h5, h6] at this
    simp only [e] at this
    rw [if_neg (by decide), if_neg (by decide), if_pos trivial, if_neg (by decide)] at this
    by_cases hm : env.allocLimit < n * 8
    · rw [if_pos hm] at this ⊢
      exact of_map_panic this rfl
    · rw [if_neg hm, if_pos (by omega)] at this
      rw [if_neg hm]
      exact of_map_err this rfl

/-- Four terabytes for 56 bytes; and a complete file, for which 16 bytes are allocated. -/
example : memory (announce2 (2 ^ 30)) = 2 ^ 42 ∧ memory (v1Bytes 258 5 1 65 2 [3, 4] [9]) = 16 ∧
    (v1Bytes 258 5 1 65 2 [3, 4] [9]).length = 65 := by decide +kernel

end Poppy
