import Verif.Lemmas.DecimalSci
import Verif.Lemmas.F64Ties

/-!
# Texts read as numbers

C96, continued: which texts are numbers for `f64::from_str`, and which numbers they are.
-/

namespace Poppy

open Cli
open Spec.Line (Mantissa Scientific Infinity NotANumber)

/-- A number with or without exponent and sign is read as the nearest `f64`, or as infinity if it is
too large.  (Exponents are cut at 65536, so this is so only if they are smaller or the text is not
longer than 60000 characters.) -/
theorem C96_scientific {s : Text} {r : ℚ} {k : ℤ} (h : Scientific s r k)
    (hk : |k| < 65536 ∨ s.length ≤ 60000) :
    ∃ b b', readF64 s = some b ∧ readF64 ('+' :: s) = some b ∧ readF64 ('-' :: s) = some b' ∧
      (r * 10 ^ k < 2 ^ 1024 - 2 ^ 970 → ∃ x, FVal.ofBits b = .fin x ∧ FVal.ofBits b' = .fin (-x) ∧
        ∀ c y, FVal.ofBits c = .fin y → |r * 10 ^ k - x| ≤ |r * 10 ^ k - y|) ∧
      (2 ^ 1024 - 2 ^ 970 ≤ r * 10 ^ k → FVal.ofBits b = .pinf ∧ FVal.ofBits b' = .ninf) := by
  obtain ⟨hr, h0⟩ := readUnsigned_scientific h hk
  obtain ⟨h1, h2, h3⟩ := readF64_unsigned hr
  have hq : 0 ≤ r * 10 ^ k := mul_nonneg h0 (by positivity)
  refine ⟨_, _, h1, h2, h3, fun hlt => ?_, fun hge => ?_⟩
  · obtain ⟨e1, e2, e3⟩ := rnd_finite (q := r * 10 ^ k) (by rwa [abs_of_nonneg hq])
    have hp : 0 ≤ rndQ (r * 10 ^ k) := le_rndQ _ isF_zero (by simpa using hq)
    rw [e1]
    refine ⟨_, ofBits_bits_of_isF e2 e3, ?_, fun c y hy => ?_⟩
    · rcases eq_or_lt_of_le hp with hz | hp
      · rw [← hz]; decide +kernel
      · rw [← bits_neg hp]
        exact ofBits_bits_of_isF (isF_neg e2) (by rwa [abs_neg])
    · have hn := nearest (r * 10 ^ k) (isF_of_ofBits hy).1
      rwa [Rat.cast_id, Rat.cast_id] at hn
  · rw [rnd_pinf hge]
    decide +kernel

/-- If two `f64` are equally near, it is the one whose last bit is zero. -/
theorem C96_ties {s : Text} {r : ℚ} {k : ℤ} (h : Scientific s r k)
    (hk : |k| < 65536 ∨ s.length ≤ 60000) {b c : F64} {x y : ℚ} (hb : readF64 s = some b)
    (hx : FVal.ofBits b = .fin x) (hy : FVal.ofBits c = .fin y) (hne : y ≠ x)
    (hd : |r * 10 ^ k - y| = |r * 10 ^ k - x|) : b.toNat % 2 = 0 := by
  obtain ⟨hr, h0⟩ := readUnsigned_scientific h hk
  obtain ⟨h1, -, -⟩ := readF64_unsigned hr
  have hq : 0 ≤ r * 10 ^ k := mul_nonneg h0 (by positivity)
  generalize r * 10 ^ k = q at *
  rw [h1] at hb
  injection hb with hb
  subst hb
  rcases lt_or_ge q (2 ^ 1024 - 2 ^ 970) with hlt | hge
  · obtain ⟨e1, e2, e3⟩ := rnd_finite (q := q) (by rwa [abs_of_nonneg hq])
    rw [e1, ofBits_bits_of_isF e2 e3] at hx
    injection hx with hx
    subst hx
    rw [e1]
    rcases eq_or_lt_of_le hq with rfl | hpos
    · have hz : rndQ (0 : ℚ) = 0 := by decide +kernel
      rw [hz] at hd hne
      exact absurd (by simpa using hd) hne
    · exact rndQ_even hpos (rndQ_tie hpos (isF_of_ofBits hy).1 hne hd)
  · rw [rnd_pinf hge] at hx
    have : FVal.ofBits (FVal.bits .pinf) = .pinf := by decide +kernel
    rw [this] at hx
    cases hx

/-- The words for infinity and NaN, in upper or lower case. -/
theorem C96_words (s : Text) :
    (Infinity s → ∃ b b', readF64 s = some b ∧ readF64 ('+' :: s) = some b ∧
      readF64 ('-' :: s) = some b' ∧ FVal.ofBits b = .pinf ∧ FVal.ofBits b' = .ninf) ∧
    (NotANumber s → ∃ b b', readF64 s = some b ∧ readF64 ('+' :: s) = some b ∧
      readF64 ('-' :: s) = some b' ∧ FVal.ofBits b = .nan ∧ FVal.ofBits b' = .nan) := by
  constructor
  · intro h
    have hr : readUnsigned s = some (FVal.bits .pinf) := by
      unfold readUnsigned
      rw [readNumber_word (.inl h)]
      simp only
      rw [if_neg, if_pos (by exact h)]
      intro hc
      rcases h with h | h <;> rw [hc] at h <;> cases h
    obtain ⟨h1, h2, h3⟩ := readF64_unsigned hr
    exact ⟨_, _, h1, h2, h3, by decide +kernel, by decide +kernel⟩
  · intro h
    have hr : readUnsigned s = some (FVal.bits .nan) := by
      unfold readUnsigned
      rw [readNumber_word (.inr h)]
      simp only
      rw [if_pos (by exact h)]
    obtain ⟨h1, h2, h3⟩ := readF64_unsigned hr
    exact ⟨_, _, h1, h2, h3, by decide +kernel, by decide +kernel⟩

/-- No other text is read. -/
theorem C96_only {s : Text} {b : F64} (h : readF64 s = some b) :
    ∃ t, (s = t ∨ s = '+' :: t ∨ s = '-' :: t) ∧
      ((∃ r k, Scientific t r k) ∨ Infinity t ∨ NotANumber t) := by
  have key : ∀ t c, readUnsigned t = some c →
      (∃ r k, Scientific t r k) ∨ Infinity t ∨ NotANumber t := by
    intro t c hc
    unfold readUnsigned at hc
    split at hc
    · rename_i q hq
      exact .inl (readNumber_some hq)
    · simp only at hc
      split_ifs at hc with h1 h2
      · exact .inr (.inr h1)
      · exact .inr (.inl h2)
  unfold readF64 at h
  split at h
  · rename_i t
    obtain ⟨c, hc, _⟩ := Option.map_eq_some_iff.1 h
    exact ⟨t, .inr (.inr rfl), key t c hc⟩
  · rename_i t
    exact ⟨t, .inr (.inl rfl), key t b h⟩
  · exact ⟨s, .inl rfl, key s b h⟩

-- 2^53 + 1 is halfway between 2^53 and 2^53 + 2
example : readF64 "9007199254740993".toList = some 0x4340000000000000#64 ∧
    FVal.ofBits 0x4340000000000000#64 = .fin 9007199254740992 ∧
    FVal.ofBits 0x4340000000000001#64 = .fin 9007199254740994 := by decide +kernel
-- 12.5e-3, .5, 5. and 1e400 are numbers; infinity is a word
example : Scientific ['1', '2', '.', '5', 'e', '-', '3'] (125 / 10) (-3) ∧
    readF64 ['1', '2', '.', '5', 'e', '-', '3'] = some 0x3F8999999999999A#64 :=
  ⟨.inr ⟨['1', '2', '.', '5'], 'e', ['-', '3'], .inl rfl, rfl,
    ⟨['1', '2'], ['5'], 125, ⟨by decide, by decide, by decide⟩, .inr rfl, by norm_num⟩,
    ⟨3, .inr (.inr ⟨['3'], rfl, ⟨by decide, by decide, by decide⟩, rfl⟩)⟩⟩, by decide +kernel⟩
example : readF64 ['.', '5'] = some 0x3FE0000000000000#64 ∧
    readF64 ['-', '5', '.'] = some 0xC014000000000000#64 ∧
    readF64 ['+', '1', 'E', '4', '0', '0'] = some 0x7FF0000000000000#64 ∧
    readF64 ['-', 'I', 'n', 'f'] = some 0xFFF0000000000000#64 ∧
    readF64 ['.'] = none ∧ readF64 ['1', 'e'] = none ∧ readF64 ['+', '-', '1'] = none := by
  decide +kernel
example : Infinity ['I', 'n', 'f'] ∧ NotANumber ['N', 'a', 'N'] := by
  unfold Infinity NotANumber; decide

end Poppy
