import Verif.Lemmas.F64Bits

/-! Reading of numbers with signs and exponents. -/

namespace Poppy
namespace Cli

open Spec.Line (Decimal Mantissa Integer Scientific Infinity NotANumber)

/-! ## Exponents -/

def satDigits (s : Text) : ℕ :=
  s.foldl (fun n c => if n < 0x10000 then 10 * n + (c.toNat - '0'.toNat) else n) 0

theorem satDigits_spec (s : Text) : (digitsValue s < 0x10000 → satDigits s = digitsValue s) ∧
    (0x10000 ≤ digitsValue s → 0x10000 ≤ satDigits s) := by
  induction s using List.reverseRecOn with
  | nil => exact ⟨fun _ => rfl, fun h => absurd h (by decide)⟩
  | append_singleton s c ih =>
    have e1 : digitsValue (s ++ [c]) = 10 * digitsValue s + (c.toNat - '0'.toNat) := by
      unfold digitsValue; rw [List.foldl_append]; rfl
    have e2 : satDigits (s ++ [c]) =
        if satDigits s < 0x10000 then 10 * satDigits s + (c.toNat - '0'.toNat) else satDigits s := by
      unfold satDigits; rw [List.foldl_append]; rfl
    rw [e1, e2]
    obtain ⟨i1, i2⟩ := ih
    by_cases h : digitsValue s < 0x10000
    · have := i1 h
      rw [this, if_pos h]
      exact ⟨fun _ => rfl, id⟩
    · have := i2 (by omega)
      rw [if_neg (by omega)]
      exact ⟨fun h => by omega, fun _ => this⟩

/-- `N` stands for the exponent `k`. -/
def Sat (k N : ℤ) : Prop :=
  (|k| < 65536 → N = k) ∧ (65536 ≤ k → 65536 ≤ N) ∧ (k ≤ -65536 → N ≤ -65536)

theorem readExpDigits_decimal {s : Text} {n : ℕ} (h : Decimal s n) :
    readExpDigits s = some (satDigits s) := by
  obtain ⟨h1, h2, rfl⟩ := decimal_iff.1 h
  unfold readExpDigits
  rw [if_neg (by simp [h1]; exact h2)]
  rfl

theorem readExpDigits_some {s : Text} {n : ℕ} (h : readExpDigits s = some n) :
    Decimal s (digitsValue s) := by
  unfold readExpDigits at h
  split_ifs at h with hc
  simp only [not_or, not_not] at hc
  exact decimal_iff.2 ⟨hc.1, by simpa using hc.2, rfl⟩

theorem sat_pos {s : Text} {n : ℕ} (h : Decimal s n) : Sat n (satDigits s) := by
  obtain ⟨_, _, rfl⟩ := decimal_iff.1 h
  obtain ⟨h1, h2⟩ := satDigits_spec s
  refine ⟨fun h => ?_, fun h => ?_, fun h => ?_⟩
  · rw [h1 (by rw [abs_of_nonneg (by positivity)] at h; omega)]
  · have := h2 (by omega); omega
  · omega

theorem sat_neg {k N : ℤ} (h : Sat k N) : Sat (-k) (-N) := by
  obtain ⟨h1, h2, h3⟩ := h
  refine ⟨fun h => ?_, fun h => ?_, fun h => ?_⟩
  · rw [h1 (by rwa [abs_neg] at h)]
  · have := h3 (by omega); omega
  · have := h2 (by omega); omega

theorem readExp_integer {s : Text} {k : ℤ} (h : Integer s k) : ∃ N, readExp s = some N ∧ Sat k N := by
  obtain ⟨n, ⟨h, rfl⟩ | ⟨t, rfl, h, rfl⟩ | ⟨t, rfl, h, rfl⟩⟩ := h
  · refine ⟨_, ?_, sat_pos h⟩
    unfold readExp
    split
    · exact absurd (Line.decimal_head h) (by decide)
    · exact absurd (Line.decimal_head h) (by decide)
    · rw [readExpDigits_decimal h]; rfl
  · refine ⟨_, ?_, sat_pos h⟩
    show (readExpDigits t).map _ = _
    rw [readExpDigits_decimal h]; rfl
  · refine ⟨_, ?_, sat_neg (sat_pos h)⟩
    show (readExpDigits t).map _ = _
    rw [readExpDigits_decimal h]; rfl

theorem readExp_some {s : Text} {N : ℤ} (h : readExp s = some N) : ∃ k, Integer s k := by
  unfold readExp at h
  split at h
  · rename_i t
    obtain ⟨n, hn, _⟩ := Option.map_eq_some_iff.1 h
    exact ⟨_, _, .inr (.inr ⟨t, rfl, readExpDigits_some hn, rfl⟩)⟩
  · rename_i t
    obtain ⟨n, hn, _⟩ := Option.map_eq_some_iff.1 h
    exact ⟨_, _, .inr (.inl ⟨t, rfl, readExpDigits_some hn, rfl⟩)⟩
  · obtain ⟨n, hn, _⟩ := Option.map_eq_some_iff.1 h
    exact ⟨_, _, .inl ⟨readExpDigits_some hn, rfl⟩⟩

/-! ## Numbers -/

theorem mantissa_parts {m : Text} {r : ℚ} (h : Mantissa m r) {t : Text}
    (ht : ∀ c s, t = c :: s → c.isDigit = false ∧ c ≠ '.') :
    ∃ a b x, (m ++ t).span Char.isDigit = (a, x) ∧ readFraction x = (b, t) ∧
      ¬ (a = [] ∧ b = []) ∧ r = digitsValue (a ++ b) * 10 ^ (-(b.length : ℤ)) := by
  obtain ⟨a, b, n, hd, hm, rfl⟩ := h
  obtain ⟨h0, h1, rfl⟩ := decimal_iff.1 hd
  have ha : ∀ c ∈ a, c.isDigit = true := fun c hc => h1 c (by simp [hc])
  have hb : ∀ c ∈ b, c.isDigit = true := fun c hc => h1 c (by simp [hc])
  have hne : ¬ (a = [] ∧ b = []) := by
    rintro ⟨rfl, rfl⟩; exact h0 rfl
  rcases hm with ⟨rfl, rfl⟩ | rfl
  · refine ⟨m, [], t, span_digits ha fun c s e => (ht c s e).1, ?_, hne, by simp⟩
    cases t with
    | nil => rfl
    | cons c s =>
      have := (ht c s rfl).2
      unfold readFraction
      split
      · rename_i e
        injection e with e _
        exact absurd e this
      · rfl
  · refine ⟨a, b, '.' :: (b ++ t), ?_, span_digits hb fun c s e => (ht c s e).1, hne, ?_⟩
    · rw [List.append_assoc]
      exact span_digits ha (by intro c s e; cases e; decide)
    · rw [zpow_neg, zpow_natCast, div_eq_mul_inv]

theorem readNumber_scientific {s : Text} {r : ℚ} {k : ℤ} (h : Scientific s r k) :
    ∃ N, readNumber s = some (r * 10 ^ N) ∧ Sat k N := by
  have h10 : (10 : ℚ) ≠ 0 := by norm_num
  rcases h with ⟨h, rfl⟩ | ⟨m, c, e, hc, rfl, h, he⟩
  · obtain ⟨a, b, x, h1, h2, h3, rfl⟩ := mantissa_parts h (t := []) (by simp)
    rw [List.append_nil] at h1
    refine ⟨0, ?_, fun _ => rfl, fun h => by omega, fun h => by omega⟩
    unfold readNumber
    simp only [h1, h2]
    rw [if_neg h3, zpow_zero, mul_one]
  · obtain ⟨N, hN, hs⟩ := readExp_integer he
    obtain ⟨a, b, x, h1, h2, h3, rfl⟩ := mantissa_parts h (t := c :: e) (by
      rintro c' s' e'
      cases e'
      rcases hc with rfl | rfl <;> decide)
    refine ⟨N, ?_, hs⟩
    unfold readNumber
    simp only [h1, h2]
    rw [if_neg h3, if_pos hc, hN]
    simp only [Option.map_some, Option.some.injEq]
    rw [mul_assoc, ← zpow_add₀ h10]
    congr 2
    ring

theorem span_parts (s : Text) : (s.span Char.isDigit).1 ++ (s.span Char.isDigit).2 = s ∧
    ∀ c ∈ (s.span Char.isDigit).1, c.isDigit = true := by
  rw [List.span_eq_takeWhile_dropWhile]
  exact ⟨List.takeWhile_append_dropWhile, fun c hc => List.all_eq_true.1 List.all_takeWhile c hc⟩

theorem readNumber_some {s : Text} {q : ℚ} (h : readNumber s = some q) :
    ∃ r k, Scientific s r k := by
  obtain ⟨ha, ha'⟩ := span_parts s
  unfold readNumber at h
  simp only at h
  generalize s.span Char.isDigit = p at *
  obtain ⟨a, x⟩ := p
  simp only at ha ha' h
  subst ha
  -- the mantissa
  have hm : ∀ b t, readFraction x = (b, t) → ¬ (a = [] ∧ b = []) →
      ∃ m r, a ++ x = m ++ t ∧ Mantissa m r := by
    intro b t hx hne
    unfold readFraction at hx
    split at hx
    · rename_i y
      obtain ⟨hb, hb'⟩ := span_parts y
      rw [hx] at hb hb'
      simp only at hb hb'
      subst hb
      refine ⟨a ++ '.' :: b, _, by simp, a, b, digitsValue (a ++ b),
        decimal_iff.2 ⟨by simpa using hne, ?_, rfl⟩, .inr rfl, rfl⟩
      intro c hc
      rcases List.mem_append.1 hc with hc | hc
      · exact ha' c hc
      · exact hb' c hc
    · injection hx with h1 h2
      subst h1 h2
      have hne : a ≠ [] := by simpa using hne
      exact ⟨a, _, rfl, a, [], digitsValue (a ++ []), decimal_iff.2 ⟨by simpa using hne, by simpa using ha', rfl⟩,
        .inl ⟨rfl, rfl⟩, rfl⟩
  split_ifs at h with hne
  obtain ⟨m, r, e1, hr⟩ := hm (readFraction x).1 (readFraction x).2 rfl hne
  split at h
  · rename_i ht
    rw [ht, List.append_nil] at e1
    rw [e1]
    exact ⟨r, 0, .inl ⟨hr, rfl⟩⟩
  · rename_i c e ht
    rw [ht] at e1
    rw [e1]
    split_ifs at h with hc
    obtain ⟨N, hN, _⟩ := Option.map_eq_some_iff.1 h
    obtain ⟨k, hk⟩ := readExp_some hN
    exact ⟨r, k, .inr ⟨m, c, e, hc, rfl, hr, hk⟩⟩

/-! ## Size of the mantissa -/

theorem digitsValue_lt {s : Text} (h : ∀ c ∈ s, c.isDigit = true) : digitsValue s < 10 ^ s.length := by
  induction s using List.reverseRecOn with
  | nil => decide
  | append_singleton s c ih =>
    have e1 : digitsValue (s ++ [c]) = 10 * digitsValue s + (c.toNat - '0'.toNat) := by
      unfold digitsValue; rw [List.foldl_append]; rfl
    have h1 := ih fun c hc => h c (by simp [hc])
    have h2 : c.toNat - '0'.toNat ≤ 9 := by
      have := h c (by simp)
      unfold Char.isDigit at this
      simp only [Bool.and_eq_true, decide_eq_true_eq] at this
      have h3 : c.toNat ≤ '9'.toNat := this.2
      have h4 : '9'.toNat = 57 := rfl
      have h5 : '0'.toNat = 48 := rfl
      omega
    rw [e1, List.length_append, List.length_singleton, pow_succ]
    omega

theorem mantissa_bounds {m : Text} {r : ℚ} (h : Mantissa m r) :
    0 ≤ r ∧ r ≤ 10 ^ m.length ∧ (r = 0 ∨ (10 : ℚ) ^ (-(m.length : ℤ)) ≤ r) := by
  obtain ⟨a, b, n, hd, hm, rfl⟩ := h
  obtain ⟨-, h1, rfl⟩ := decimal_iff.1 hd
  have hl : a.length + b.length ≤ m.length := by
    rcases hm with ⟨rfl, rfl⟩ | rfl <;> simp
  have hlt := digitsValue_lt h1
  rw [List.length_append] at hlt
  have hp : (0 : ℚ) < 10 ^ b.length := by positivity
  refine ⟨by positivity, ?_, ?_⟩
  · have h2 : (digitsValue (a ++ b) : ℚ) ≤ 10 ^ m.length := by
      have : digitsValue (a ++ b) ≤ 10 ^ m.length :=
        hlt.le.trans (Nat.pow_le_pow_right (by norm_num) hl)
      exact_mod_cast this
    exact (div_le_self (by positivity) (one_le_pow₀ (by norm_num))).trans h2
  · rcases Nat.eq_zero_or_pos (digitsValue (a ++ b)) with h0 | h0
    · exact .inl (by rw [h0]; simp)
    · right
      rw [zpow_neg, zpow_natCast, inv_eq_one_div]
      have h1 : (1 : ℚ) ≤ digitsValue (a ++ b) := by exact_mod_cast h0
      have h2 : (10 : ℚ) ^ b.length ≤ 10 ^ m.length := pow_le_pow_right₀ (by norm_num) (by omega)
      exact div_le_div₀ (by positivity) h1 hp h2

theorem rnd_zero_of_tiny {q : ℚ} (h0 : 0 ≤ q) (h : q ≤ 2 ^ (-1076 : ℤ)) : rnd q = .fin 0 := by
  have h1 : rndQ q = 0 := by
    have h2 := rndQ_mono (K := ℚ) h
    have h3 : rndQ ((2 : ℚ) ^ (-1076 : ℤ)) = 0 := by decide +kernel
    have h4 : 0 ≤ rndQ q := le_rndQ q isF_zero (by simpa using h0)
    rw [h3] at h2
    exact le_antisymm h2 h4
  exact rnd_of_rndQ h1 (by rw [abs_zero]; exact f64Huge_pos)

theorem rnd_sat {r : ℚ} {k N : ℤ} {L : ℕ} (hs : Sat k N) (h0 : 0 ≤ r) (h1 : r ≤ 10 ^ L)
    (h2 : r = 0 ∨ (10 : ℚ) ^ (-(L : ℤ)) ≤ r) (hL : |k| < 65536 ∨ L ≤ 60000) :
    rnd (r * 10 ^ N) = rnd (r * 10 ^ k) := by
  have h10 : (10 : ℚ) ≠ 0 := by norm_num
  by_cases hk : |k| < 65536
  · rw [hs.1 hk]
  · have hL : L ≤ 60000 := hL.resolve_left hk
    rcases h2 with rfl | h2
    · rw [zero_mul, zero_mul]
    · rcases le_abs'.1 (not_lt.1 hk) with hk | hk
      · -- tiny
        have key : ∀ z : ℤ, z ≤ -65536 → rnd (r * 10 ^ z) = .fin 0 := by
          intro z hz
          apply rnd_zero_of_tiny (mul_nonneg h0 (by positivity))
          calc r * 10 ^ z ≤ 10 ^ (L : ℤ) * 10 ^ z := by
                rw [zpow_natCast]
                exact mul_le_mul_of_nonneg_right h1 (by positivity)
            _ = 10 ^ ((L : ℤ) + z) := (zpow_add₀ h10 _ _).symm
            _ ≤ 10 ^ (-1076 : ℤ) := zpow_le_zpow_right₀ (by norm_num) (by omega)
            _ ≤ 2 ^ (-1076 : ℤ) := by
                rw [zpow_neg, zpow_neg]
                apply inv_anti₀ (by positivity)
                exact zpow_le_zpow_left₀ (by norm_num) (by norm_num) (by norm_num)
        rw [key N (hs.2.2 hk), key k hk]
      · have key : ∀ z : ℤ, 65536 ≤ z → rnd (r * 10 ^ z) = .pinf := by
          intro z hz
          apply rnd_pinf
          calc (2 : ℚ) ^ 1024 - 2 ^ 970 ≤ 2 ^ 1024 := sub_le_self _ (by positivity)
            _ ≤ 10 ^ 1024 := pow_le_pow_left₀ (by norm_num) (by norm_num) _
            _ = 10 ^ (1024 : ℤ) := (zpow_natCast 10 1024).symm
            _ ≤ 10 ^ (-(L : ℤ) + z) := zpow_le_zpow_right₀ (by norm_num) (by omega)
            _ = 10 ^ (-(L : ℤ)) * 10 ^ z := zpow_add₀ h10 _ _
            _ ≤ r * 10 ^ z := mul_le_mul_of_nonneg_right h2 (by positivity)
        rw [key N (hs.2.1 hk), key k hk]

theorem readUnsigned_scientific {s : Text} {r : ℚ} {k : ℤ} (h : Scientific s r k)
    (hk : |k| < 65536 ∨ s.length ≤ 60000) :
    readUnsigned s = some (FVal.bits (rnd (r * 10 ^ k))) ∧ 0 ≤ r := by
  obtain ⟨N, hN, hs⟩ := readNumber_scientific h
  obtain ⟨m, hm, hl⟩ : ∃ m, Mantissa m r ∧ m.length ≤ s.length := by
    rcases h with ⟨h, _⟩ | ⟨m, c, e, _, rfl, h, _⟩
    · exact ⟨s, h, le_rfl⟩
    · exact ⟨m, h, by simp⟩
  obtain ⟨b0, b1, b2⟩ := mantissa_bounds hm
  refine ⟨?_, b0⟩
  unfold readUnsigned
  rw [hN]
  simp only
  rw [rnd_sat hs b0 b1 b2 (hk.imp_right fun h => hl.trans h)]

/-! ## Signs and words -/

theorem readNumber_sign (c : Char) (hc : c = '-' ∨ c = '+') (s : Text) : readNumber (c :: s) = none := by
  have h := span_digits (a := []) (r := c :: s) (by simp) (by
    intro d t e
    cases e
    rcases hc with rfl | rfl <;> decide)
  rw [List.nil_append] at h
  have h2 : readFraction (c :: s) = ([], c :: s) := by rcases hc with rfl | rfl <;> rfl
  unfold readNumber
  simp only [h, h2]
  simp

theorem readUnsigned_sign (c : Char) (hc : c = '-' ∨ c = '+') (s : Text) :
    readUnsigned (c :: s) = none := by
  unfold readUnsigned
  rw [readNumber_sign c hc]
  have : c.toLower = c := by rcases hc with rfl | rfl <;> decide
  simp only [List.map_cons, this]
  rw [if_neg, if_neg]
  · rintro (h | h) <;> injection h with h <;> subst h <;> exact absurd hc (by decide)
  · intro h; injection h with h; subst h; exact absurd hc (by decide)

theorem readF64_unsigned {s : Text} {b : F64} (h : readUnsigned s = some b) :
    readF64 s = some b ∧ readF64 ('+' :: s) = some b ∧
      readF64 ('-' :: s) = some (b ||| 0x8000000000000000#64) := by
  refine ⟨?_, h, by show (readUnsigned s).map _ = _; rw [h]; rfl⟩
  unfold readF64
  split
  · rw [readUnsigned_sign _ (.inl rfl)] at h; cases h
  · rw [readUnsigned_sign _ (.inr rfl)] at h; cases h
  · exact h

theorem readNumber_word {s : Text} (h : Infinity s ∨ NotANumber s) : readNumber s = none := by
  cases s with
  | nil => rfl
  | cons c s =>
    have hc : c.isDigit = false ∧ c ≠ '.' := by
      have hl : c.toLower = 'i' ∨ c.toLower = 'n' := by
        rcases h with (h | h) | h
        · rw [List.map_cons] at h; injection h with h _; exact .inl h
        · rw [List.map_cons] at h; injection h with h _; exact .inl h
        · unfold NotANumber at h; rw [List.map_cons] at h; injection h with h _; exact .inr h
      constructor
      · by_contra hd
        rw [Bool.not_eq_false] at hd
        have : c.toLower = c := by
          unfold Char.isDigit at hd
          simp only [Bool.and_eq_true, decide_eq_true_eq] at hd
          unfold Char.toLower
          rw [dif_neg]
          rintro ⟨h1, _⟩
          have h3 : c.toNat ≤ '9'.toNat := hd.2
          have h4 : 'A'.toNat ≤ c.toNat := h1
          exact absurd (h4.trans h3) (by decide)
        rw [this] at hl
        rcases hl with rfl | rfl <;> exact absurd hd (by decide)
      · rintro rfl
        exact absurd hl (by decide)
    have h := span_digits (a := []) (r := c :: s) (by simp) (by
      intro d t e
      cases e
      exact hc.1)
    rw [List.nil_append] at h
    have h2 : readFraction (c :: s) = ([], c :: s) := by
      unfold readFraction
      split
      · rename_i e; injection e with e _; exact absurd e hc.2
      · rfl
    unfold readNumber
    simp only [h, h2]
    simp

end Cli
end Poppy
