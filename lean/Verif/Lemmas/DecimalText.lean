import Verif.Lemmas.Decimal
import Verif.SpecDecimal

/-! Texts of numbers: what they say, and reading what was printed. -/

namespace Poppy
namespace Cli

open Spec.Line (Decimal Numeral)

/-! ## Texts of numbers -/

theorem numeral_int {s : Text} (h0 : s ≠ []) (hs : ∀ c ∈ s, c.isDigit = true) :
    Numeral s (digitsValue s) := .inl ⟨_, decimal_iff.2 ⟨h0, hs, rfl⟩, rfl⟩

theorem numeral_frac {a b : Text} (ha0 : a ≠ []) (ha : ∀ c ∈ a, c.isDigit = true) (hb0 : b ≠ [])
    (hb : ∀ c ∈ b, c.isDigit = true) :
    Numeral (a ++ '.' :: b) ((digitsValue (a ++ b) : ℚ) * 10 ^ (-(b.length : ℤ))) := by
  refine .inr ⟨a, b, _, _, rfl, decimal_iff.2 ⟨ha0, ha, rfl⟩, decimal_iff.2 ⟨hb0, hb, rfl⟩, ?_⟩
  rw [digitsValue_append, zpow_neg, zpow_natCast]
  push_cast
  field_simp

theorem numeral_read {s : Text} {q : ℚ} (h : Numeral s q) : readNumber s = some q := by
  rcases h with ⟨n, h, rfl⟩ | ⟨a, b, n, m, rfl, h1, h2, rfl⟩
  · obtain ⟨h0, h1, rfl⟩ := decimal_iff.1 h
    exact readNumber_int h0 h1
  · obtain ⟨a0, a1, rfl⟩ := decimal_iff.1 h1
    obtain ⟨b0, b1, rfl⟩ := decimal_iff.1 h2
    rw [readNumber_frac (Or.inl a0) a1 b1, digitsValue_append, zpow_neg, zpow_natCast]
    congr 1
    push_cast
    field_simp

theorem numeral_unique {s : Text} {q q' : ℚ} (h : Numeral s q) (h' : Numeral s q') : q = q' := by
  have := numeral_read h
  rw [numeral_read h'] at this
  exact (Option.some.inj this).symm

theorem numeral_head {s : Text} {q : ℚ} (h : Numeral s q) : ∃ c t, s = c :: t ∧ c.isDigit = true := by
  rcases h with ⟨n, h, rfl⟩ | ⟨a, b, n, m, rfl, h1, h2, rfl⟩
  · obtain ⟨h0, h1, _⟩ := decimal_iff.1 h
    cases s with
    | nil => exact absurd rfl h0
    | cons c t => exact ⟨c, t, rfl, h1 c (by simp)⟩
  · obtain ⟨a0, a1, _⟩ := decimal_iff.1 h1
    cases a with
    | nil => exact absurd rfl a0
    | cons c t => exact ⟨c, _, rfl, a1 c (by simp)⟩

theorem numeral_nonneg {s : Text} {q : ℚ} (h : Numeral s q) : 0 ≤ q := by
  rcases h with ⟨n, _, rfl⟩ | ⟨a, b, n, m, _, _, _, rfl⟩ <;> positivity

theorem numeral_not_dashed {s : Text} {q : ℚ} (h : Numeral s q) : ¬ Spec.Line.Dashed s := by
  rintro ⟨t, _, rfl⟩
  obtain ⟨c, u, e, hc⟩ := numeral_head h
  cases e
  exact absurd hc (by decide)

theorem readF64_numeral {s : Text} {q : ℚ} (h : Numeral s q) :
    readF64 s = some (FVal.bits (rnd q)) := by
  obtain ⟨c, t, rfl, hc⟩ := numeral_head h
  have hr := numeral_read h
  have : readF64 (c :: t) = readUnsigned (c :: t) := by
    unfold readF64
    split
    · rename_i e; cases e; exact absurd hc (by decide)
    · rename_i e; cases e; exact absurd hc (by decide)
    · rfl
  rw [this]
  unfold readUnsigned
  rw [hr]

theorem readF64_minus {s : Text} {q : ℚ} (h : Numeral s q) :
    readF64 ('-' :: s) = some (FVal.bits (rnd q) ||| 0x8000000000000000#64) := by
  change (readUnsigned s).map _ = _
  unfold readUnsigned
  rw [numeral_read h]
  rfl

theorem numeral_decText (n : ℕ) (k : ℤ) : Numeral (decText n k) ((n : ℚ) * 10 ^ k) := by
  suffices h : ∃ q, Numeral (decText n k) q by
    obtain ⟨q, h⟩ := h
    have := numeral_read h
    rw [readNumber_decText] at this
    rwa [Option.some.inj this]
  unfold decText
  have hd := isDigit_toDigits n
  have hne : Nat.toDigits 10 n ≠ [] := Nat.toDigits_ne_nil
  generalize Nat.toDigits 10 n = ds at hd hne
  simp only
  split_ifs with h1 h2
  · exact ⟨_, numeral_frac (a := ['0']) (by simp) (by decide) (by simp [hne]) (by
      intro c hc
      rcases List.mem_append.1 hc with hc | hc
      · exact isDigit_zeros _ c hc
      · exact hd c hc)⟩
  · refine ⟨_, numeral_frac ?_ (fun c hc => hd c (List.mem_of_mem_take hc)) ?_
      (fun c hc => hd c (List.mem_of_mem_drop hc))⟩
    · intro h
      rw [List.take_eq_nil_iff] at h
      rcases h with h | h
      · omega
      · exact hne h
    · intro h
      have := congrArg List.length h
      rw [List.length_drop, List.length_nil] at this
      omega
  · exact ⟨_, numeral_int (by simp [hne]) (by
      intro c hc
      rcases List.mem_append.1 hc with hc | hc
      · exact hd c hc
      · exact isDigit_zeros _ c hc)⟩

/-! ## Bits of values -/

theorem toNat_magBits {q : ℚ} (h0 : 0 < q) (hq : IsF q) (hh : q < f64Huge) :
    ∃ b : F64, FVal.ofBits b = .fin q ∧ b.toNat < 2 ^ 63 := by
  obtain ⟨r, hr⟩ := isF_multiple hq le_rfl
  have hu := ulpExp_ge q
  have hp := two_zpow_pos (K := ℚ) (ulpExp q)
  have hlt := abs_lt_ulp q
  rw [abs_of_pos h0] at hlt
  have hr0 : 0 < r := by
    by_contra hc
    push Not at hc
    have : (r : ℚ) ≤ 0 := by exact_mod_cast hc
    have := mul_nonpos_of_nonpos_of_nonneg this hp.le
    linarith
  have hr1 : r < 2 ^ 53 := by
    rw [zpow_add₀ (by norm_num), mul_comm] at hlt
    have hlt' : (r : ℚ) * 2 ^ ulpExp q < 2 ^ (53 : ℤ) * 2 ^ ulpExp q := by rw [← hr]; exact hlt
    have := lt_of_mul_lt_mul_right hlt' hp.le
    exact_mod_cast this
  obtain ⟨n, rfl⟩ : ∃ n : ℕ, r = n := ⟨r.toNat, by omega⟩
  have hn : n < 2 ^ 53 := by exact_mod_cast hr1
  have hn0 : 0 < n := by exact_mod_cast hr0
  rw [Int.cast_natCast] at hr
  -- the exponent is that of the first digit, unless the number is subnormal
  have hnorm : ulpExp q ≠ -1074 → 2 ^ 52 ≤ n := by
    intro hne
    have hlog : ulpExp q = Int.log 2 q - 52 := by
      unfold ulpExp at hne ⊢
      rw [abs_of_pos h0] at hne ⊢
      omega
    have h1 := Int.zpow_log_le_self (b := 2) (by norm_num) h0
    rw [show Int.log 2 q = 52 + ulpExp q by omega, zpow_add₀ (by norm_num)] at h1
    have h2 : ((2 : ℕ) : ℚ) ^ (52 : ℤ) * 2 ^ ulpExp q ≤ n * 2 ^ ulpExp q := by
      rw [← hr]; exact_mod_cast h1
    have := le_of_mul_le_mul_right h2 hp
    exact_mod_cast this
  have hexp : ulpExp q ≤ 971 := by
    by_contra hc
    push Not at hc
    have h2 := hnorm (by omega)
    have h3 : (2 : ℚ) ^ (52 : ℤ) ≤ n := by exact_mod_cast h2
    have : f64Huge ≤ q := by
      calc f64Huge = 2 ^ (1024 : ℤ) := (zpow_natCast (2 : ℚ) 1024).symm
        _ ≤ 2 ^ (52 + ulpExp q) := zpow_le_zpow_right₀ (by norm_num) (by omega)
        _ = 2 ^ (52 : ℤ) * 2 ^ ulpExp q := zpow_add₀ (by norm_num) _ _
        _ ≤ n * 2 ^ ulpExp q := mul_le_mul_of_nonneg_right h3 hp.le
        _ = q := hr.symm
    linarith
  obtain ⟨e, he⟩ : ∃ e : ℕ, ulpExp q = (e : ℤ) - 1074 := ⟨(ulpExp q + 1074).toNat, by omega⟩
  rw [he] at hr hnorm hexp
  have hval : n + e * 2 ^ 52 < 2 ^ 63 := by omega
  refine ⟨BitVec.ofNat 64 (n + e * 2 ^ 52), ?_, by rw [BitVec.toNat_ofNat]; omega⟩
  have htn : (BitVec.ofNat 64 (n + e * 2 ^ 52)).toNat = n + e * 2 ^ 52 := by
    rw [BitVec.toNat_ofNat]; omega
  rw [ofBits_eq, toNat_sign, htn, decide_eq_false (by omega)]
  simp only [Bool.false_eq_true, if_false]
  by_cases hsub : n < 2 ^ 52
  · have he0 : e = 0 := by
      by_contra hc
      have := hnorm (by omega)
      omega
    subst he0
    have e1 : (n + 0 * 2 ^ 52) / 2 ^ 52 % 2048 = 0 := by omega
    have e2 : (n + 0 * 2 ^ 52) % 2 ^ 52 = n := by omega
    rw [e1, e2, if_neg (by norm_num), hr]
    unfold mag
    rw [if_pos rfl]
    norm_num
  · have e1 : (n + e * 2 ^ 52) / 2 ^ 52 % 2048 = e + 1 := by omega
    have e2 : (n + e * 2 ^ 52) % 2 ^ 52 = n - 2 ^ 52 := by omega
    rw [e1, e2, if_neg (by omega), hr]
    unfold mag
    rw [if_neg (by omega), show 2 ^ 52 + (n - 2 ^ 52) = n by omega]
    congr 3
    push_cast
    ring

theorem ofBits_bits {q : ℚ} (h0 : 0 ≤ q) (hq : IsF q) (hh : q < f64Huge) :
    FVal.ofBits (FVal.bits (.fin q)) = .fin q := by
  rcases eq_or_lt_of_le h0 with rfl | h0
  · decide +kernel
  · obtain ⟨b, hb, hlt⟩ := toNat_magBits h0 hq hh
    rw [bits_ofBits hb (by rintro rfl; exact absurd hlt (by decide)), hb]

theorem ofBits_bits_rnd {q : ℚ} (h0 : 0 ≤ q) : FVal.ofBits (FVal.bits (rnd q)) = rnd q := by
  have h1 : 0 ≤ rndQ q := le_rndQ q isF_zero (by simpa using h0)
  unfold rnd
  simp only
  split_ifs with h2 h3
  · decide +kernel
  · have := f64Huge_pos
    linarith
  · exact ofBits_bits h1 (isF_rndQ q) (lt_of_not_ge h2)

theorem bits_neg {q : ℚ} (h : 0 < q) :
    FVal.bits (.fin (-q)) = FVal.bits (.fin q) ||| 0x8000000000000000#64 := by
  unfold FVal.bits
  have hu : ulpExp (-q) = ulpExp q := by unfold ulpExp; rw [abs_neg]
  simp only [hu, abs_neg]
  rw [if_neg (by linarith), if_pos (by linarith), if_neg (by linarith), if_neg (by linarith)]

/-! ## Reading what was printed -/

theorem readF64_f64Text {q : ℚ} (hq : IsF q) (hh : |q| < f64Huge) :
    readF64 (f64Text (.fin q)) = some (FVal.bits (.fin q)) := by
  simp only [f64Text]
  split_ifs with h0
  · subst h0
    decide +kernel
  · unfold signed
    split_ifs with hneg
    · rw [abs_of_neg hneg] at hh
      obtain ⟨h1, _⟩ := shortest_spec (by linarith) (isF_neg hq) hh
      rw [readF64_minus (numeral_decText _ _), h1, ← bits_neg (by linarith), neg_neg]
    · have hpos : 0 < q := lt_of_le_of_ne (not_lt.1 hneg) (Ne.symm h0)
      rw [abs_of_pos hpos] at hh
      obtain ⟨h1, _⟩ := shortest_spec hpos hq hh
      rw [readF64_numeral (numeral_decText _ _), h1]

/-! ## Durations and numbers with one decimal -/

theorem fractionDigits_spec : ∀ (j fuel r : ℕ), j < fuel → r < 10 ^ (j + 1) →
    (∀ c ∈ fractionDigits fuel r (10 ^ j), c.isDigit = true) ∧
    (r ≠ 0 → fractionDigits fuel r (10 ^ j) ≠ []) ∧
    (fractionDigits fuel r (10 ^ j)).length ≤ j + 1 ∧
    digitsValue (fractionDigits fuel r (10 ^ j)) *
      10 ^ (j + 1 - (fractionDigits fuel r (10 ^ j)).length) = r ∧
    (∀ s, fractionDigits fuel r (10 ^ j) ≠ s ++ ['0']) := by
  have dig : ∀ d : ℕ, d < 10 → (Nat.digitChar d).isDigit = true ∧ digitsValue [Nat.digitChar d] = d ∧
      (d ≠ 0 → Nat.digitChar d ≠ '0') := by decide
  intro j
  induction j with
  | zero =>
    intro fuel r hf hr
    obtain ⟨fuel, rfl⟩ : ∃ f, fuel = f + 1 := ⟨fuel - 1, by omega⟩
    simp only [fractionDigits]
    split_ifs with h0
    · subst h0
      refine ⟨by simp, by simp, by simp, by simp [digitsValue], fun s h => ?_⟩
      have := congrArg List.length h
      simp at this
    · have h1 : r / 10 ^ 0 = r := by simp
      have h2 : r % 10 ^ 0 = 0 := by simp [Nat.mod_one]
      have hr' : r < 10 := by simpa using hr
      obtain ⟨d1, d2, d3⟩ := dig r hr'
      rw [h1, h2]
      have h3 : fractionDigits fuel 0 (10 ^ 0 / 10) = [] := by
        cases fuel <;> simp [fractionDigits]
      rw [h3]
      refine ⟨by simpa using d1, by simp, by simp, by simpa using d2, fun s h => ?_⟩
      cases s with
      | nil => injection h with h; exact d3 h0 h
      | cons c t =>
        have := congrArg List.length h
        simp at this
  | succ j ih =>
    intro fuel r hf hr
    obtain ⟨fuel, rfl⟩ : ∃ f, fuel = f + 1 := ⟨fuel - 1, by omega⟩
    simp only [fractionDigits]
    split_ifs with h0
    · subst h0
      refine ⟨by simp, by simp, by simp, by simp [digitsValue], fun s h => ?_⟩
      have := congrArg List.length h
      simp at this
    · have hd : r / 10 ^ (j + 1) < 10 := by
        rw [Nat.div_lt_iff_lt_mul (by positivity)]
        calc r < 10 ^ (j + 1 + 1) := hr
          _ = 10 * 10 ^ (j + 1) := by ring
      obtain ⟨d1, d2, d3⟩ := dig _ hd
      have h10 : 10 ^ (j + 1) / 10 = 10 ^ j := by
        rw [pow_succ, Nat.mul_div_cancel _ (by norm_num)]
      rw [h10]
      obtain ⟨i1, i2, i3, i4, i5⟩ := ih fuel (r % 10 ^ (j + 1)) (by omega) (Nat.mod_lt _ (by positivity))
      have hsplit := Nat.div_add_mod r (10 ^ (j + 1))
      generalize hs : fractionDigits fuel (r % 10 ^ (j + 1)) (10 ^ j) = s at *
      refine ⟨?_, by simp, by simpa using i3, ?_, fun t h => ?_⟩
      · intro c hc
        rcases List.mem_cons.1 hc with rfl | hc
        · exact d1
        · exact i1 c hc
      · have : Nat.digitChar (r / 10 ^ (j + 1)) :: s = [Nat.digitChar (r / 10 ^ (j + 1))] ++ s := rfl
        rw [this, digitsValue_append, d2]
        simp only [List.length_append, List.length_singleton]
        have e : j + 1 + 1 - (1 + s.length) = j + 1 - s.length := by omega
        rw [e, add_mul, mul_assoc, ← pow_add, i4, show s.length + (j + 1 - s.length) = j + 1 by omega,
          mul_comm, hsplit]
      · cases t with
        | nil =>
          simp only [List.nil_append, List.cons.injEq] at h
          obtain ⟨h, rfl⟩ := h
          have hr0 : r % 10 ^ (j + 1) = 0 := by
            by_contra hc
            exact i2 hc rfl
          refine d3 ?_ h
          intro hz
          rw [hz, hr0] at hsplit
          omega
        | cons c t =>
          simp only [List.cons_append, List.cons.injEq] at h
          exact i5 t h.2

theorem fmtDecimal_spec (n j r : ℕ) (hj : j < 9) (hr : r < 10 ^ (j + 1)) (unit : Text) :
    ∃ s, fmtDecimal n r (10 ^ j) unit = s ++ unit ∧ Numeral s (n + r / 10 ^ (j + 1)) ∧
      ∀ t, ('.' ∈ t) → s ≠ t ++ ['0'] := by
  unfold fmtDecimal
  refine ⟨_, rfl, ?_⟩
  split_ifs with h0
  · subst h0
    rw [List.append_nil]
    refine ⟨?_, fun t ht h => ?_⟩
    · have := numeral_int Nat.toDigits_ne_nil (isDigit_toDigits n)
      rw [digitsValue_toDigits] at this
      simpa using this
    · have := isDigit_toDigits n '.' (by rw [h]; simp [ht])
      exact absurd this (by decide)
  · obtain ⟨i1, i2, i3, i4, i5⟩ := fractionDigits_spec j 9 r hj hr
    generalize fractionDigits 9 r (10 ^ j) = s at *
    refine ⟨?_, fun t ht h => ?_⟩
    · have := numeral_frac Nat.toDigits_ne_nil (isDigit_toDigits n) (i2 h0) i1
      convert this using 1
      rw [digitsValue_append, digitsValue_toDigits, zpow_neg, zpow_natCast, ← i4]
      push_cast
      have e : (10 : ℚ) ^ (j + 1) = 10 ^ (j + 1 - s.length) * 10 ^ s.length := by
        rw [← pow_add]; congr 1; omega
      rw [e]
      field_simp
    · rcases List.eq_nil_or_concat s with rfl | ⟨u, c, rfl⟩
      · exact i2 h0 rfl
      · rw [List.concat_eq_append] at h
        rw [← List.cons_append, ← List.append_assoc] at h
        obtain ⟨_, h⟩ := List.append_inj' h rfl
        cases h
        exact i5 u (by rw [List.concat_eq_append])

theorem f64Text1_spec {q : ℚ} (h : 0 ≤ q) : ∃ v, Numeral (f64Text1 (.fin q)) v ∧ |v - q| ≤ 1 / 20 ∧
    ∃ a c, f64Text1 (.fin q) = a ++ ['.', c] := by
  unfold f64Text1 signed
  simp only
  rw [if_neg (not_lt.2 h)]
  have hr0 : 0 ≤ rneInt (q * 10) := by
    have h1 := rneInt_nearest (q * 10) ⌊q * 10⌋
    have h2 := Int.floor_le (q * 10)
    have h3 := Int.lt_floor_add_one (q * 10)
    by_contra hc
    push Not at hc
    have hc' : ((rneInt (q * 10) : ℤ) : ℚ) ≤ -1 := by exact_mod_cast Int.le_sub_one_of_lt hc
    rw [abs_of_nonneg (by linarith), abs_of_nonneg (by linarith)] at h1
    linarith
  have hr : |q * 10 - rneInt (q * 10)| ≤ 1 / 2 := by
    have h2 := Int.floor_le (q * 10)
    have h3 := Int.lt_floor_add_one (q * 10)
    rcases le_or_gt (q * 10 - ⌊q * 10⌋) (1 / 2) with h4 | h4
    · refine (rneInt_nearest (q * 10) ⌊q * 10⌋).trans ?_
      rw [abs_of_nonneg (by linarith)]; exact h4
    · refine (rneInt_nearest (q * 10) (⌊q * 10⌋ + 1)).trans ?_
      push_cast
      rw [abs_of_nonpos (by linarith)]; linarith
  obtain ⟨n, hn⟩ : ∃ n : ℕ, rneInt (q * 10) = n := ⟨_, (Int.toNat_of_nonneg hr0).symm⟩
  rw [hn] at hr ⊢
  rw [Int.toNat_natCast]
  rw [Int.cast_natCast] at hr
  have hd : Nat.toDigits 10 (n % 10) = [Nat.digitChar (n % 10)] := Nat.toDigits_of_lt_base (by omega)
  refine ⟨n / 10, ?_, ?_, ⟨_, _, by rw [hd]⟩⟩
  · have := numeral_frac Nat.toDigits_ne_nil (isDigit_toDigits (n / 10)) Nat.toDigits_ne_nil
      (isDigit_toDigits (n % 10))
    convert this using 1
    rw [digitsValue_append, digitsValue_toDigits, digitsValue_toDigits, hd]
    simp only [List.length_singleton, pow_one]
    rw [show n / 10 * 10 + n % 10 = n by omega]
    norm_num
    ring
  · rw [abs_le] at hr ⊢
    constructor <;> linarith [hr.1, hr.2]

end Cli
end Poppy
