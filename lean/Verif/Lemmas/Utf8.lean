import Verif.Model.Cli
import Verif.Spec
import Mathlib.Tactic.SplitIfs

/-! Well-formed UTF-8: the recogniser of the model accepts exactly the encodings of texts. -/

namespace Poppy
namespace Cli

open Spec

/-- The encoding of a code point, on numbers. -/
def enc (v : ℕ) : List U8 :=
  if v ≤ 0x7f then [BitVec.ofNat 8 v]
  else if v ≤ 0x7ff then [BitVec.ofNat 8 (v / 64 % 0x20 + 0xc0), BitVec.ofNat 8 (v % 0x40 + 0x80)]
  else if v ≤ 0xffff then
    [BitVec.ofNat 8 (v / 4096 % 0x10 + 0xe0), BitVec.ofNat 8 (v / 64 % 0x40 + 0x80),
      BitVec.ofNat 8 (v % 0x40 + 0x80)]
  else
    [BitVec.ofNat 8 (v / 262144 % 0x08 + 0xf0), BitVec.ofNat 8 (v / 4096 % 0x40 + 0x80),
      BitVec.ofNat 8 (v / 64 % 0x40 + 0x80), BitVec.ofNat 8 (v % 0x40 + 0x80)]

theorem utf8_eq_enc (c : Char) : utf8 c = enc c.toNat := by
  have h : c.val.toNat = c.toNat := rfl
  unfold utf8 enc String.utf8EncodeChar
  simp only [h]
  split_ifs <;> rfl

theorem validUtf8_two (a b : U8) (t : List U8) : validUtf8 (a :: b :: t) =
    if inRange a 0 0x7F then validUtf8 (b :: t)
    else if inRange a 0xC2 0xDF then inRange b 0x80 0xBF && validUtf8 t
    else
      match t with
      | [] => false
      | c :: t =>
        if inRange a 0xE0 0xEF then
          inRange b (if a = 0xE0#8 then 0xA0 else 0x80) (if a = 0xED#8 then 0x9F else 0xBF)
            && inRange c 0x80 0xBF && validUtf8 t
        else
          match t with
          | [] => false
          | d :: t =>
            inRange a 0xF0 0xF4
              && inRange b (if a = 0xF0#8 then 0x90 else 0x80) (if a = 0xF4#8 then 0x8F else 0xBF)
              && inRange c 0x80 0xBF && inRange d 0x80 0xBF && validUtf8 t := by
  rw [validUtf8.eq_def]
  rfl

theorem inRange_iff (b : U8) (lo hi : ℕ) : inRange b lo hi = true ↔ lo ≤ b.toNat ∧ b.toNat ≤ hi := by
  unfold inRange; simp

theorem ofNat_eq_iff {v n : ℕ} (hv : v < 256) (hn : n < 256) :
    BitVec.ofNat 8 v = BitVec.ofNat 8 n ↔ v = n := by
  constructor
  · intro h
    have := congrArg BitVec.toNat h
    simpa [BitVec.toNat_ofNat, Nat.mod_eq_of_lt hv, Nat.mod_eq_of_lt hn] using this
  · rintro rfl; rfl

theorem inRange_ofNat {v lo hi : ℕ} (hv : v < 256) :
    inRange (BitVec.ofNat 8 v) lo hi = (decide (lo ≤ v) && decide (v ≤ hi)) := by
  unfold inRange
  rw [BitVec.toNat_ofNat, Nat.mod_eq_of_lt (by omega)]

theorem inRange_of {v lo hi : ℕ} (hv : v < 256) (h1 : lo ≤ v) (h2 : v ≤ hi) :
    inRange (BitVec.ofNat 8 v) lo hi = true := by
  rw [inRange_ofNat hv]; simp [h1, h2]

theorem inRange_not {v lo hi : ℕ} (hv : v < 256) (h : v < lo ∨ hi < v) :
    inRange (BitVec.ofNat 8 v) lo hi = false := by
  rw [inRange_ofNat hv, Bool.eq_false_iff]
  simp; omega

theorem validUtf8_enc {v : ℕ} (h1 : v < 0xd800 ∨ 0xdfff < v) (h2 : v < 0x110000) (t : List U8) :
    validUtf8 (enc v ++ t) = validUtf8 t := by
  unfold enc
  split_ifs with a b c
  · cases t with
    | nil =>
      show inRange _ _ _ = _
      rw [inRange_of (by omega) (by omega) (by omega)]; rfl
    | cons x t =>
      rw [List.singleton_append, validUtf8_two]
      simp only [inRange_of (lo := 0) (hi := 0x7f) (v := v) (by omega) (by omega) (by omega), if_true]
  · rw [List.cons_append, List.singleton_append, validUtf8_two]
    rw [inRange_not (by omega) (by omega), inRange_of (by omega) (by omega) (by omega),
      inRange_of (by omega) (by omega) (by omega)]
    rfl
  · rw [List.cons_append, List.cons_append, List.singleton_append, validUtf8_two]
    rw [inRange_not (by omega) (by omega), inRange_not (by omega) (by omega)]
    simp only [Bool.false_eq_true, if_false]
    rw [inRange_of (lo := 0xE0) (by omega) (by omega) (by omega),
      inRange_of (v := v % 64 + 128) (by omega) (by omega) (by omega)]
    simp only [if_true, Bool.and_true]
    rw [inRange_ofNat (by omega)]
    have e1 : BitVec.ofNat 8 (v / 4096 % 16 + 224) = 224#8 ↔ v / 4096 % 16 + 224 = 224 :=
      ofNat_eq_iff (by omega) (by omega)
    have e2 : BitVec.ofNat 8 (v / 4096 % 16 + 224) = 237#8 ↔ v / 4096 % 16 + 224 = 237 :=
      ofNat_eq_iff (by omega) (by omega)
    simp only [e1, e2]
    have : (decide ((if v / 4096 % 16 + 224 = 224 then 160 else 128) ≤ v / 64 % 64 + 128) &&
      decide (v / 64 % 64 + 128 ≤ if v / 4096 % 16 + 224 = 237 then 159 else 191)) = true := by
      rw [Bool.and_eq_true, decide_eq_true_eq, decide_eq_true_eq]
      constructor <;> split_ifs <;> omega
    rw [this, Bool.true_and]
  · rw [List.cons_append, List.cons_append, List.cons_append, List.singleton_append, validUtf8_two]
    rw [inRange_not (by omega) (by omega), inRange_not (by omega) (by omega)]
    simp only [Bool.false_eq_true, if_false]
    rw [inRange_not (lo := 0xE0) (by omega) (by omega)]
    simp only [Bool.false_eq_true, if_false]
    rw [inRange_of (lo := 0xF0) (by omega) (by omega) (by omega),
      inRange_of (v := v % 64 + 128) (by omega) (by omega) (by omega),
      inRange_of (v := v / 64 % 64 + 128) (by omega) (by omega) (by omega)]
    simp only [Bool.and_true, Bool.true_and]
    rw [inRange_ofNat (by omega)]
    have e1 : BitVec.ofNat 8 (v / 262144 % 8 + 240) = 240#8 ↔ v / 262144 % 8 + 240 = 240 :=
      ofNat_eq_iff (by omega) (by omega)
    have e2 : BitVec.ofNat 8 (v / 262144 % 8 + 240) = 244#8 ↔ v / 262144 % 8 + 240 = 244 :=
      ofNat_eq_iff (by omega) (by omega)
    simp only [e1, e2]
    have : (decide ((if v / 262144 % 8 + 240 = 240 then 144 else 128) ≤ v / 4096 % 64 + 128) &&
      decide (v / 4096 % 64 + 128 ≤ if v / 262144 % 8 + 240 = 244 then 143 else 191)) = true := by
      rw [Bool.and_eq_true, decide_eq_true_eq, decide_eq_true_eq]
      constructor <;> split_ifs <;> omega
    rw [this, Bool.true_and]

theorem eq_ofNat {b : U8} {v : ℕ} (h : b.toNat = v) : b = BitVec.ofNat 8 v := by
  subst h; simp

/-- Splitting off the first code point. -/
theorem validUtf8_cons {bs : List U8} (h : validUtf8 bs = true) (hne : bs ≠ []) :
    ∃ v t, (v < 0xd800 ∨ 0xdfff < v) ∧ v < 0x110000 ∧ bs = enc v ++ t ∧ validUtf8 t = true := by
  match bs, h with
  | [a], h =>
    rw [validUtf8, inRange_iff] at h
    refine ⟨a.toNat, [], by omega, by omega, ?_, rfl⟩
    unfold enc
    rw [if_pos (by omega)]
    simp
  | a :: b :: t, h =>
    have ha := a.isLt
    have hb := b.isLt
    rw [validUtf8_two] at h
    by_cases h1 : inRange a 0 0x7F = true
    · rw [if_pos h1] at h
      rw [inRange_iff] at h1
      refine ⟨a.toNat, b :: t, by omega, by omega, ?_, h⟩
      unfold enc
      rw [if_pos (by omega)]
      simp
    rw [if_neg h1] at h
    by_cases h2 : inRange a 0xC2 0xDF = true
    · rw [if_pos h2, Bool.and_eq_true, inRange_iff] at h
      rw [inRange_iff] at h1 h2
      refine ⟨(a.toNat - 0xc0) * 64 + (b.toNat - 0x80), t, by omega, by omega, ?_, h.2⟩
      unfold enc
      rw [if_neg (by omega), if_pos (by omega)]
      simp only [List.cons_append, List.nil_append, List.cons.injEq, and_true]
      exact ⟨eq_ofNat (by omega), eq_ofNat (by omega)⟩
    · rw [if_neg h2] at h
      rw [inRange_iff] at h1 h2
      cases t with
      | nil => simp at h
      | cons c t =>
        have hc := c.isLt
        simp only at h
        by_cases h3 : inRange a 0xE0 0xEF = true
        · rw [if_pos h3] at h
          rw [inRange_iff] at h3
          simp only [Bool.and_eq_true, inRange_iff] at h
          obtain ⟨⟨⟨g1, g2⟩, g3, g4⟩, g5⟩ := h
          have e1 : a = 0xE0#8 ↔ a.toNat = 0xE0 :=
            ⟨fun h => by rw [h]; rfl, fun h => eq_ofNat h⟩
          have e2 : a = 0xED#8 ↔ a.toNat = 0xED :=
            ⟨fun h => by rw [h]; rfl, fun h => eq_ofNat h⟩
          simp only [e1] at g1
          simp only [e2] at g2
          have g1' : 0x80 ≤ b.toNat ∧ (a.toNat = 0xE0 → 0xA0 ≤ b.toNat) := by
            split_ifs at g1 <;> omega
          have g2' : b.toNat ≤ 0xBF ∧ (a.toNat = 0xED → b.toNat ≤ 0x9F) := by
            split_ifs at g2 <;> omega
          clear g1 g2
          refine ⟨(a.toNat - 0xe0) * 4096 + (b.toNat - 0x80) * 64 + (c.toNat - 0x80), t, ?_, ?_, ?_, g5⟩
          · omega
          · omega
          · unfold enc
            rw [if_neg (by omega), if_neg (by omega), if_pos (by omega)]
            simp only [List.cons_append, List.nil_append, List.cons.injEq, and_true]
            exact ⟨eq_ofNat (by omega), eq_ofNat (by omega), eq_ofNat (by omega)⟩
        · rw [if_neg h3] at h
          rw [inRange_iff] at h3
          cases t with
          | nil => simp at h
          | cons d t =>
            have hd := d.isLt
            simp only [Bool.and_eq_true, inRange_iff] at h
            obtain ⟨⟨⟨⟨g0, g1, g2⟩, g3, g4⟩, g6, g7⟩, g5⟩ := h
            have e1 : a = 0xF0#8 ↔ a.toNat = 0xF0 :=
              ⟨fun h => by rw [h]; rfl, fun h => eq_ofNat h⟩
            have e2 : a = 0xF4#8 ↔ a.toNat = 0xF4 :=
              ⟨fun h => by rw [h]; rfl, fun h => eq_ofNat h⟩
            simp only [e1] at g1
            simp only [e2] at g2
            have g1' : 0x80 ≤ b.toNat ∧ (a.toNat = 0xF0 → 0x90 ≤ b.toNat) := by
              split_ifs at g1 <;> omega
            have g2' : b.toNat ≤ 0xBF ∧ (a.toNat = 0xF4 → b.toNat ≤ 0x8F) := by
              split_ifs at g2 <;> omega
            clear g1 g2
            refine ⟨(a.toNat - 0xf0) * 262144 + (b.toNat - 0x80) * 4096 + (c.toNat - 0x80) * 64
              + (d.toNat - 0x80), t, ?_, ?_, ?_, g5⟩
            · omega
            · omega
            · unfold enc
              rw [if_neg (by omega), if_neg (by omega), if_neg (by omega)]
              simp only [List.cons_append, List.nil_append, List.cons.injEq, and_true]
              exact ⟨eq_ofNat (by omega), eq_ofNat (by omega), eq_ofNat (by omega),
                eq_ofNat (by omega)⟩

theorem scalar_ofNat {v : ℕ} (h1 : v < 0xd800 ∨ 0xdfff < v) (h2 : v < 0x110000) :
    ∃ c : Char, c.toNat = v := by
  have hv : v.isValidChar := by
    rcases h1 with h | h
    · exact Or.inl h
    · exact Or.inr ⟨h, h2⟩
  refine ⟨Char.ofNat v, ?_⟩
  unfold Char.ofNat
  rw [dif_pos hv]
  rfl

theorem scalar_range (c : Char) : (c.toNat < 0xd800 ∨ 0xdfff < c.toNat) ∧ c.toNat < 0x110000 := by
  rcases c.valid with h | ⟨h1, h2⟩
  · have : c.toNat < 0xd800 := h
    omega
  · have h1' : 0xdfff < c.toNat := h1
    have h2' : c.toNat < 0x110000 := h2
    omega

theorem validUtf8_append_utf8 (s : List Char) (t : List U8) :
    validUtf8 (s.flatMap utf8 ++ t) = validUtf8 t := by
  induction s with
  | nil => rfl
  | cons c s ih =>
    rw [List.flatMap_cons, List.append_assoc, utf8_eq_enc,
      validUtf8_enc (scalar_range c).1 (scalar_range c).2, ih]

theorem enc_ne_nil (v : ℕ) : enc v ≠ [] := by
  unfold enc; split_ifs <;> simp

/-- A byte string is valid UTF-8 when it is the encoding of a text. -/
theorem validUtf8_iff (bs : List U8) : validUtf8 bs = true ↔ ∃ s : List Char, bs = s.flatMap utf8 := by
  constructor
  · intro h
    induction hn : bs.length using Nat.strong_induction_on generalizing bs with
    | _ n ih =>
      by_cases hne : bs = []
      · exact ⟨[], hne⟩
      · obtain ⟨v, t, h1, h2, rfl, ht⟩ := validUtf8_cons h hne
        obtain ⟨c, rfl⟩ := scalar_ofNat h1 h2
        have hl : t.length < n := by
          rw [← hn, List.length_append]
          have := List.length_pos_iff.2 (enc_ne_nil c.toNat)
          omega
        obtain ⟨s, rfl⟩ := ih _ hl t ht rfl
        exact ⟨c :: s, by rw [List.flatMap_cons, utf8_eq_enc]⟩
  · rintro ⟨s, rfl⟩
    have := validUtf8_append_utf8 s []
    rw [List.append_nil] at this
    rw [this]; rfl

/-- Cutting before or after an ASCII byte does not change validity. -/
theorem validUtf8_append {a : List U8} (ha : validUtf8 a = true) (b : List U8) :
    validUtf8 (a ++ b) = validUtf8 b := by
  obtain ⟨s, rfl⟩ := (validUtf8_iff a).1 ha
  exact validUtf8_append_utf8 s b

theorem mem_enc_ascii {v : ℕ} {x : U8} (h : x ∈ enc v) (hx : x.toNat ≤ 0x7f) :
    enc v = [x] := by
  unfold enc at h ⊢
  split_ifs at h ⊢ with a b c
  · simp only [List.mem_singleton] at h; rw [h]
  · exfalso
    simp only [List.mem_cons, List.not_mem_nil, or_false] at h
    rcases h with rfl | rfl <;>
      (rw [BitVec.toNat_ofNat, Nat.mod_eq_of_lt (by omega)] at hx; omega)
  all_goals
    exfalso
    simp only [List.mem_cons, List.not_mem_nil, or_false] at h
    have hx' : ∀ n, x = BitVec.ofNat 8 (n % 0x40 + 0x80) → False := by
      rintro n rfl
      rw [BitVec.toNat_ofNat, Nat.mod_eq_of_lt (by omega)] at hx; omega
    rcases h with rfl | h
    · rw [BitVec.toNat_ofNat, Nat.mod_eq_of_lt (by omega)] at hx; omega
    · rcases h with h | h
      all_goals first
        | exact hx' _ h
        | (rcases h with h | h <;> exact hx' _ h)

theorem validUtf8_snoc (a : List U8) {x : U8} (hx : x.toNat ≤ 0x7f) :
    validUtf8 (a ++ [x]) = validUtf8 a := by
  rw [Bool.eq_iff_iff]
  constructor
  · intro h
    obtain ⟨s, hs⟩ := (validUtf8_iff _).1 h
    rcases List.eq_nil_or_concat s with rfl | ⟨s, c, rfl⟩
    · simp at hs
    · rw [List.concat_eq_append, List.flatMap_append, List.flatMap_singleton, utf8_eq_enc] at hs
      have hmem : x ∈ enc c.toNat := by
        have h1 := congrArg List.getLast? hs
        rw [List.getLast?_append, List.getLast?_append, List.getLast?_singleton,
          List.getLast?_eq_getLast_of_ne_nil (enc_ne_nil _)] at h1
        simp only [Option.some_or, Option.some.injEq] at h1
        rw [h1]; exact List.getLast_mem _
      rw [mem_enc_ascii hmem hx] at hs
      have := List.append_inj_left' hs rfl
      exact (validUtf8_iff _).2 ⟨s, this⟩
  · intro h
    rw [validUtf8_append h]
    show inRange x 0 0x7f = true
    rw [inRange_iff]; omega

end Cli
end Poppy
