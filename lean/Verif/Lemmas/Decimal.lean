import Verif.Model.Decimal
import Verif.Lemmas.Args
import Verif.Lemmas.Fpp
import Mathlib.Tactic.Ring

/-! Decimal numbers: reading, printing, and reading what was printed. -/

namespace Poppy
namespace Cli

open Spec.Line (Decimal)
open Line (readDigits_eq plus_digits)

/-! ## Digits -/

theorem digitsValue_eq (s : Text) : digitsValue s = Nat.ofDigitChars 10 s 0 := by
  unfold digitsValue
  rw [Nat.ofDigitChars_eq_foldl]

theorem digitsValue_toDigits (n : ℕ) : digitsValue (Nat.toDigits 10 n) = n := by
  rw [digitsValue_eq, Nat.ofDigitChars_ten_toDigits]

theorem digitsValue_append (a b : Text) :
    digitsValue (a ++ b) = digitsValue a * 10 ^ b.length + digitsValue b := by
  rw [digitsValue_eq, digitsValue_eq, digitsValue_eq, Nat.ofDigitChars_append,
    Nat.ofDigitChars_eq_ofDigitChars_zero, mul_comm]

theorem digitsValue_zeros (n : ℕ) : digitsValue (List.replicate n '0') = 0 := by
  rw [digitsValue_eq, Nat.ofDigitChars_replicate_zero, mul_zero]

theorem isDigit_toDigits (n : ℕ) : ∀ c ∈ Nat.toDigits 10 n, c.isDigit = true :=
  fun _ h => Nat.isDigit_of_mem_toDigits (by decide) (by decide) h

theorem isDigit_zeros (n : ℕ) : ∀ c ∈ List.replicate n '0', c.isDigit = true := by
  intro c h
  rw [List.eq_of_mem_replicate h]; decide

theorem decimal_iff {s : Text} {n : ℕ} :
    Decimal s n ↔ s ≠ [] ∧ (∀ c ∈ s, c.isDigit = true) ∧ n = digitsValue s := by
  rw [← readDigits_eq]
  unfold readDigits
  rw [← digitsValue]
  by_cases hs : s = []
  · simp [hs]
  · by_cases hd : s.all Char.isDigit = true
    · rw [if_neg (by simp [hs, hd])]
      have : ∀ c ∈ s, c.isDigit = true := by simpa using hd
      simp only [Option.some.injEq]
      exact ⟨fun e => ⟨hs, this, e.symm⟩, fun e => e.2.2.symm⟩
    · rw [if_pos (Or.inr hd)]
      simp only [reduceCtorEq, false_iff]
      rintro ⟨_, h, _⟩
      exact hd (by simpa using h)

theorem decimal_toDigits (n : ℕ) : Decimal (Nat.toDigits 10 n) n :=
  decimal_iff.2 ⟨Nat.toDigits_ne_nil, isDigit_toDigits n, (digitsValue_toDigits n).symm⟩

theorem readUsize_toDigits (x : U64) : readUsize (Nat.toDigits 10 x.toNat) = some x := by
  have h : readNatural (Nat.toDigits 10 x.toNat) = some x.toNat :=
    plus_digits.2 (Or.inl (decimal_toDigits _))
  unfold readUsize
  rw [h]
  simp [x.isLt]

/-! ## Reading decimal numbers -/

theorem span_digits {a : Text} (ha : ∀ c ∈ a, c.isDigit = true) {r : Text}
    (hr : ∀ c s, r = c :: s → c.isDigit = false) : (a ++ r).span Char.isDigit = (a, r) := by
  rw [List.span_eq_takeWhile_dropWhile, List.takeWhile_append_of_pos ha,
    List.dropWhile_append_of_pos ha]
  cases r with
  | nil => simp
  | cons c s =>
    have := hr c s rfl
    simp [this]

theorem readNumber_int {a : Text} (h0 : a ≠ []) (ha : ∀ c ∈ a, c.isDigit = true) :
    readNumber a = some (digitsValue a) := by
  have h := span_digits ha (r := []) (by simp)
  rw [List.append_nil] at h
  unfold readNumber
  simp only [h, readFraction]
  rw [if_neg (by simp [h0])]
  simp

theorem readNumber_frac {a b : Text} (h0 : a ≠ [] ∨ b ≠ []) (ha : ∀ c ∈ a, c.isDigit = true)
    (hb : ∀ c ∈ b, c.isDigit = true) :
    readNumber (a ++ '.' :: b) = some ((digitsValue (a ++ b) : ℚ) * 10 ^ (-(b.length : ℤ))) := by
  have h := span_digits ha (r := '.' :: b) (by intro c s e; cases e; decide)
  have h' := span_digits hb (r := []) (by simp)
  rw [List.append_nil] at h'
  unfold readNumber
  simp only [h, readFraction, h']
  rw [if_neg (by tauto)]

theorem readNumber_decText (n : ℕ) (k : ℤ) : readNumber (decText n k) = some ((n : ℚ) * 10 ^ k) := by
  unfold decText
  have hd := isDigit_toDigits n
  have hv := digitsValue_toDigits n
  have hne : Nat.toDigits 10 n ≠ [] := Nat.toDigits_ne_nil
  generalize Nat.toDigits 10 n = ds at hd hv hne
  simp only
  have h10 : (10 : ℚ) ≠ 0 := by norm_num
  split_ifs with h1 h2
  · have := readNumber_frac (a := ['0']) (b := List.replicate (-((ds.length : ℤ) + k)).toNat '0' ++ ds)
      (Or.inl (by simp)) (by decide) (by
        intro c hc
        rcases List.mem_append.1 hc with hc | hc
        · exact isDigit_zeros _ c hc
        · exact hd c hc)
    rw [List.singleton_append] at this
    rw [this, digitsValue_append, digitsValue_append, digitsValue_zeros, hv]
    have hz : digitsValue ['0'] = 0 := by decide
    rw [hz]
    congr 2
    · simp
    · congr 1
      simp only [List.length_append, List.length_replicate]
      push_cast
      omega
  · rw [readNumber_frac (Or.inl ?_) (fun c hc => hd c (List.mem_of_mem_take hc))
      (fun c hc => hd c (List.mem_of_mem_drop hc)), List.take_append_drop, hv]
    · congr 3
      rw [List.length_drop]
      omega
    · intro h
      rw [List.take_eq_nil_iff] at h
      rcases h with h | h
      · omega
      · exact hne h
  · rw [readNumber_int (by simp [hne]) (by
        intro c hc
        rcases List.mem_append.1 hc with hc | hc
        · exact hd c hc
        · exact isDigit_zeros _ c hc),
      digitsValue_append, digitsValue_zeros, hv]
    rw [List.length_replicate]
    obtain ⟨m, rfl⟩ : ∃ m : ℕ, k = m := ⟨k.toNat, by omega⟩
    simp

/-! ## Bits -/

theorem ulpExp_of_bounds {q : ℚ} {u : ℤ} (hu : -1074 ≤ u) (h1 : 2 ^ (u + 52) ≤ q)
    (h2 : q < 2 ^ (u + 53)) : ulpExp q = u := by
  have hq : 0 < q := lt_of_lt_of_le (two_zpow_pos _) h1
  unfold ulpExp
  rw [abs_of_pos hq]
  have a1 : u + 52 ≤ Int.log 2 q := (Int.zpow_le_iff_le_log (b := 2) (by norm_num) hq).1 (by
    simpa using h1)
  have a2 : Int.log 2 q < u + 53 := (Int.lt_zpow_iff_log_lt (b := 2) (by norm_num) hq).1 (by
    simpa using h2)
  omega

theorem ulpExp_of_small {q : ℚ} (h0 : 0 < q) (h2 : q < 2 ^ (-1022 : ℤ)) : ulpExp q = -1074 := by
  unfold ulpExp
  rw [abs_of_pos h0]
  have a2 : Int.log 2 q < -1022 := (Int.lt_zpow_iff_log_lt (b := 2) (by norm_num) h0).1 (by
    simpa using h2)
  omega

/-- The magnitude of the number with these bits. -/
def mag (e m : ℕ) : ℚ := if e = 0 then (m : ℚ) * 2 ^ (-1074 : ℤ)
  else ((2 ^ 52 + m : ℕ) : ℚ) * 2 ^ ((e : ℤ) - 1075)

theorem mag_nonneg (e m : ℕ) : 0 ≤ mag e m := by
  unfold mag
  split_ifs <;> positivity

theorem mag_eq_zero {e m : ℕ} : mag e m = 0 ↔ e = 0 ∧ m = 0 := by
  unfold mag
  split_ifs with h
  · have := (two_zpow_pos (K := ℚ) (-1074)).ne'
    simp [h]
  · have := (two_zpow_pos (K := ℚ) ((e : ℤ) - 1075)).ne'
    simp only [mul_eq_zero, this, or_false, h, false_and, iff_false]
    positivity

theorem mag_bits {e m : ℕ} (hm : m < 2 ^ 52) (h0 : mag e m ≠ 0) :
    ⌊mag e m / 2 ^ ulpExp (mag e m)⌋.toNat + (ulpExp (mag e m) + 1074).toNat * 2 ^ 52
      = e * 2 ^ 52 + m := by
  have hpos : 0 < mag e m := lt_of_le_of_ne (mag_nonneg _ _) (Ne.symm h0)
  by_cases he : e = 0
  · have hv : mag e m = (m : ℚ) * 2 ^ (-1074 : ℤ) := by unfold mag; rw [if_pos he]
    have hu : ulpExp (mag e m) = -1074 := by
      refine ulpExp_of_small hpos ?_
      rw [hv]
      have : (m : ℚ) < 2 ^ (52 : ℤ) := by exact_mod_cast hm
      calc (m : ℚ) * 2 ^ (-1074 : ℤ) < 2 ^ (52 : ℤ) * 2 ^ (-1074 : ℤ) :=
            mul_lt_mul_of_pos_right this (two_zpow_pos _)
        _ = 2 ^ (-1022 : ℤ) := by rw [← zpow_add₀ (by norm_num)]; norm_num
    rw [hu, hv, mul_div_cancel_right₀ _ (two_zpow_pos (K := ℚ) _).ne', Int.floor_natCast, he]
    simp
  · have hv : mag e m = ((2 ^ 52 + m : ℕ) : ℚ) * 2 ^ ((e : ℤ) - 1075) := by
      unfold mag; rw [if_neg he]
    have hp := two_zpow_pos (K := ℚ) ((e : ℤ) - 1075)
    have hu : ulpExp (mag e m) = (e : ℤ) - 1075 := by
      refine ulpExp_of_bounds (by omega) ?_ ?_
      · rw [hv, zpow_add₀ (by norm_num), mul_comm]
        refine mul_le_mul_of_nonneg_right ?_ hp.le
        have : 2 ^ 52 ≤ 2 ^ 52 + m := by omega
        exact_mod_cast this
      · rw [hv, zpow_add₀ (by norm_num), mul_comm]
        refine mul_lt_mul_of_pos_left ?_ hp
        have : 2 ^ 52 + m < 2 ^ 53 := by omega
        exact_mod_cast this
    rw [hu, hv, mul_div_cancel_right₀ _ hp.ne', Int.floor_natCast]
    have : ((e : ℤ) - 1075 + 1074).toNat = e - 1 := by omega
    rw [this, Int.toNat_natCast]
    obtain ⟨e', rfl⟩ : ∃ e', e = e' + 1 := ⟨e - 1, by omega⟩
    simp only [Nat.add_sub_cancel]
    ring

theorem ofBits_eq (b : F64) : FVal.ofBits b =
    if b.toNat / 2 ^ 52 % 2048 = 2047 then
      if b.toNat % 2 ^ 52 = 0 then (if b.getLsbD 63 then .ninf else .pinf) else .nan
    else .fin (if b.getLsbD 63 then -mag (b.toNat / 2 ^ 52 % 2048) (b.toNat % 2 ^ 52)
      else mag (b.toNat / 2 ^ 52 % 2048) (b.toNat % 2 ^ 52)) := rfl

theorem toNat_split (b : F64) : b.toNat / 2 ^ 52 % 2048 * 2 ^ 52 + b.toNat % 2 ^ 52
    = b.toNat % 2 ^ 63 := by omega

theorem toNat_sign (b : F64) : b.getLsbD 63 = decide (2 ^ 63 ≤ b.toNat) := by
  rw [BitVec.getLsbD, Nat.testBit_eq_decide_div_mod_eq]
  have := b.isLt
  exact decide_eq_decide.2 (by omega)

theorem bits_ofBits {b : F64} {q : ℚ} (h : FVal.ofBits b = .fin q) (hb : b ≠ 0x8000000000000000#64) :
    FVal.bits (.fin q) = b := by
  rw [ofBits_eq] at h
  split at h
  · split at h
    · split at h <;> cases h
    · cases h
  · have hm : b.toNat % 2 ^ 52 < 2 ^ 52 := Nat.mod_lt _ (by norm_num)
    have hs := toNat_split b
    have hsg := toNat_sign b
    have hlt := b.isLt
    have h0 := @mag_eq_zero (b.toNat / 2 ^ 52 % 2048) (b.toNat % 2 ^ 52)
    have hbits := @mag_bits (b.toNat / 2 ^ 52 % 2048) _ hm
    have hnn := mag_nonneg (b.toNat / 2 ^ 52 % 2048) (b.toNat % 2 ^ 52)
    rw [hs] at hbits
    generalize mag (b.toNat / 2 ^ 52 % 2048) (b.toNat % 2 ^ 52) = x at *
    injection h with h
    by_cases hsign : 2 ^ 63 ≤ b.toNat
    · rw [hsg, decide_eq_true hsign, if_pos rfl] at h
      have hx0 : x ≠ 0 := by
        intro hx
        have := h0.1 hx
        apply hb
        apply BitVec.eq_of_toNat_eq
        have h2 : (0x8000000000000000#64).toNat = 2 ^ 63 := rfl
        rw [h2]
        omega
      have hxp : 0 < x := lt_of_le_of_ne hnn (Ne.symm hx0)
      unfold FVal.bits
      subst h
      have hu : ulpExp (-x) = ulpExp x := by unfold ulpExp; rw [abs_neg]
      simp only [hu, abs_neg, abs_of_pos hxp]
      rw [if_neg (by linarith), if_pos (by linarith), hbits hx0]
      apply BitVec.eq_of_toNat_eq
      rw [BitVec.toNat_or, BitVec.toNat_ofNat]
      have h2 : (0x8000000000000000#64).toNat = 2 ^ 63 * 1 := rfl
      have h3 : b.toNat % 2 ^ 63 % 2 ^ 64 = b.toNat % 2 ^ 63 := by omega
      rw [h2, h3, Nat.or_comm, ← Nat.two_pow_add_eq_or_of_lt (Nat.mod_lt _ (by norm_num))]
      omega
    · rw [hsg, decide_eq_false hsign] at h
      simp only [Bool.false_eq_true, if_false] at h
      subst h
      unfold FVal.bits
      simp only [abs_of_nonneg hnn]
      by_cases hx0 : x = 0
      · rw [if_pos hx0]
        apply BitVec.eq_of_toNat_eq
        have := h0.1 hx0
        simp only [BitVec.toNat_ofNat, Nat.zero_mod]
        omega
      · rw [if_neg hx0, if_neg (by linarith), hbits hx0]
        apply BitVec.eq_of_toNat_eq
        rw [BitVec.toNat_ofNat]
        omega

theorem isF_of_ofBits {b : F64} {q : ℚ} (h : FVal.ofBits b = .fin q) : IsF q ∧ |q| < f64Huge := by
  rw [ofBits_eq] at h
  split at h
  · split at h
    · split at h <;> cases h
    · cases h
  · rename_i he
    have hm : b.toNat % 2 ^ 52 < 2 ^ 52 := Nat.mod_lt _ (by norm_num)
    have he2 : b.toNat / 2 ^ 52 % 2048 < 2047 := by
      have := Nat.mod_lt (b.toNat / 2 ^ 52) (show 0 < 2048 by norm_num)
      omega
    generalize b.toNat / 2 ^ 52 % 2048 = e at *
    generalize b.toNat % 2 ^ 52 = m at *
    have key : IsF (mag e m) ∧ mag e m < f64Huge := by
      unfold mag
      split_ifs with h0
      · refine ⟨⟨m, -1074, ?_, le_rfl, by rw [Int.cast_natCast]⟩, ?_⟩
        · rw [abs_of_nonneg (by positivity)]
          have : m ≤ 2 ^ 53 := by omega
          exact_mod_cast this
        · have : (m : ℚ) ≤ 2 ^ (52 : ℤ) := by exact_mod_cast hm.le
          calc (m : ℚ) * 2 ^ (-1074 : ℤ) ≤ 2 ^ (52 : ℤ) * 2 ^ (-1074 : ℤ) :=
                mul_le_mul_of_nonneg_right this (two_zpow_pos _).le
            _ = 2 ^ (-1022 : ℤ) := by rw [← zpow_add₀ (by norm_num)]; norm_num
            _ < 2 ^ (1024 : ℤ) := zpow_lt_zpow_right₀ (by norm_num) (by norm_num)
            _ = f64Huge := zpow_natCast (2 : ℚ) 1024
      · refine ⟨⟨((2 ^ 52 + m : ℕ) : ℤ), (e : ℤ) - 1075, ?_, by omega, by push_cast; rfl⟩, ?_⟩
        · rw [abs_of_nonneg (by positivity)]
          have : 2 ^ 52 + m ≤ 2 ^ 53 := by omega
          exact_mod_cast this
        · have : ((2 ^ 52 + m : ℕ) : ℚ) < 2 ^ (53 : ℤ) := by
            have : 2 ^ 52 + m < 2 ^ 53 := by omega
            exact_mod_cast this
          calc ((2 ^ 52 + m : ℕ) : ℚ) * 2 ^ ((e : ℤ) - 1075) < 2 ^ (53 : ℤ) * 2 ^ ((e : ℤ) - 1075) :=
                mul_lt_mul_of_pos_right this (two_zpow_pos _)
            _ = 2 ^ ((e : ℤ) - 1022) := by rw [← zpow_add₀ (by norm_num)]; congr 1; ring
            _ ≤ 2 ^ (1024 : ℤ) := zpow_le_zpow_right₀ (by norm_num) (by omega)
            _ = f64Huge := zpow_natCast (2 : ℚ) 1024
    have hnn := mag_nonneg e m
    injection h with h
    split at h
    · subst h
      exact ⟨isF_neg key.1, by rw [abs_neg, abs_of_nonneg hnn]; exact key.2⟩
    · subst h
      exact ⟨key.1, by rw [abs_of_nonneg hnn]; exact key.2⟩

/-! ## The shortest decimal number -/

theorem isF_multiple {y : ℚ} (hy : IsF y) {e : ℤ} (he : e ≤ ulpExp y) : ∃ k : ℤ, y = k * 2 ^ e := by
  have h := rndQ_of_isF (K := ℚ) hy
  unfold rndQ at h
  obtain ⟨d, hd⟩ : ∃ d : ℕ, ulpExp y = e + d := ⟨(ulpExp y - e).toNat, by omega⟩
  refine ⟨rneInt (y / (2 : ℚ) ^ ulpExp y) * 2 ^ d, ?_⟩
  rw [Rat.cast_id] at h
  conv_lhs => rw [← h]
  generalize rneInt (y / (2 : ℚ) ^ ulpExp y) = r
  rw [hd, zpow_add₀ (by norm_num), zpow_natCast]
  push_cast
  ring

theorem ulpExp_mono {x y : ℚ} (h0 : 0 < x) (h : x ≤ y) : ulpExp x ≤ ulpExp y := by
  unfold ulpExp
  rw [abs_of_pos h0, abs_of_pos (h0.trans_le h)]
  have := Int.log_mono_right (b := 2) h0 h
  omega

/-- The next number is at least a unit in the last place away. -/
theorem gap_up {x y : ℚ} (h0 : 0 < x) (hx : IsF x) (hy : IsF y) (h : x < y) :
    x + 2 ^ ulpExp x ≤ y := by
  obtain ⟨a, ha⟩ := isF_multiple hx le_rfl
  obtain ⟨b, hb⟩ := isF_multiple hy (ulpExp_mono h0 h.le)
  have hp := two_zpow_pos (K := ℚ) (ulpExp x)
  generalize (2 : ℚ) ^ ulpExp x = u at *
  rw [ha, hb] at h
  have hab : a < b := by
    have := lt_of_mul_lt_mul_right h hp.le
    exact_mod_cast this
  have : ((a + 1 : ℤ) : ℚ) ≤ b := by exact_mod_cast hab
  have := mul_le_mul_of_nonneg_right this hp.le
  push_cast at this
  rw [ha, hb]
  linarith

/-- Two different numbers are further apart than the sixteenth part in ten of a smaller power. -/
theorem gap {x y t : ℚ} (h0 : 0 < x) (hx : IsF x) (hy : IsF y) (h : y ≠ x) (ht : 0 < t)
    (htx : t * 10 ^ 16 ≤ x) : t < |x - y| := by
  have h2 : (2 : ℚ) ^ 53 + 1 < 10 ^ 16 := by norm_num
  rcases lt_or_gt_of_ne h with h | h
  · rw [abs_of_pos (by linarith)]
    rcases le_or_gt y 0 with hy0 | hy0
    · have : t < t * 10 ^ 16 := by linarith
      linarith
    · have g := gap_up hy0 hy hx h
      have l := abs_lt_ulp y
      rw [abs_of_pos hy0, zpow_add₀ (by norm_num)] at l
      have hp := two_zpow_pos (K := ℚ) (ulpExp y)
      have e53 : (2 : ℚ) ^ (53 : ℤ) = 9007199254740992 := by norm_num
      rw [e53] at l
      generalize (2 : ℚ) ^ ulpExp y = u at *
      norm_num at htx
      linarith
  · rw [abs_of_neg (by linarith)]
    have g := gap_up h0 hx hy h
    have l := abs_lt_ulp x
    rw [abs_of_pos h0, zpow_add₀ (by norm_num)] at l
    have e53 : (2 : ℚ) ^ (53 : ℤ) = 9007199254740992 := by norm_num
    rw [e53] at l
    generalize (2 : ℚ) ^ ulpExp x = u at *
    norm_num at htx
    linarith

theorem rnd_eq_fin {v q : ℚ} : rnd v = .fin q → rndQ v = q := by
  unfold rnd
  simp only
  split_ifs <;> intro h <;> cases h
  rfl

theorem rnd_near {x v t : ℚ} (h0 : 0 < x) (hx : IsF x) (hh : x < f64Huge) (ht : 0 < t)
    (htx : t * 10 ^ 16 ≤ x) (hv : |v - x| ≤ t / 2) : rnd v = .fin x := by
  have hr : rndQ v = x := by
    by_contra hne
    have h1 := gap h0 hx (isF_rndQ v) hne ht htx
    have h2 := nearest v hx
    rw [Rat.cast_id, Rat.cast_id] at h2
    have h3 : |x - rndQ v| ≤ |x - v| + |v - rndQ v| := abs_sub_le _ _ _
    rw [abs_sub_comm x v] at h3
    linarith
  unfold rnd
  simp only [hr]
  rw [if_neg (by linarith), if_neg (by have := f64Huge_pos; linarith)]

theorem decimalAt_some {q : ℚ} {k : ℤ} {n : ℕ} (h : decimalAt q k = some n) :
    rnd ((n : ℚ) * 10 ^ k) = .fin q := by
  unfold decimalAt at h
  simp only at h
  split_ifs at h with h1 h2
  · cases h; exact h1.1
  · cases h; exact h2

theorem rndQ_between {q a b c : ℚ} (ha : rndQ a = q) (hc : rndQ c = q) (h1 : a ≤ b) (h2 : b ≤ c) :
    rndQ b = q :=
  le_antisymm ((rndQ_mono h2).trans_eq hc) (ha ▸ rndQ_mono h1)

theorem rnd_of_rndQ {v q : ℚ} (h : rndQ v = q) (hh : |q| < f64Huge) : rnd v = .fin q := by
  unfold rnd
  rw [abs_lt] at hh
  simp only [h]
  rw [if_neg (by linarith), if_neg (by linarith)]

/-- When there is no decimal number with the exponent, none is read as `q`. -/
theorem decimalAt_none {q : ℚ} (h0 : 0 < q) (hq : IsF q) (hh : q < f64Huge) {k : ℤ}
    (h : decimalAt q k = none) (n : ℕ) : rnd ((n : ℚ) * 10 ^ k) ≠ .fin q := by
  intro hn
  have hp : (0 : ℚ) < 10 ^ k := zpow_pos (by norm_num) k
  have hha : |q| < f64Huge := by rwa [abs_of_pos h0]
  unfold decimalAt at h
  simp only at h
  have hf0 : 0 ≤ ⌊q / 10 ^ k⌋ := Int.floor_nonneg.2 (by positivity)
  have hf1 := Int.floor_le (q / 10 ^ k)
  have hf2 := Int.lt_floor_add_one (q / 10 ^ k)
  obtain ⟨f, hf⟩ : ∃ f : ℕ, ⌊q / 10 ^ k⌋ = f := ⟨_, (Int.toNat_of_nonneg hf0).symm⟩
  rw [hf] at h hf1 hf2
  rw [le_div_iff₀ hp] at hf1
  rw [div_lt_iff₀ hp] at hf2
  simp only [Int.toNat_natCast] at h
  push_cast at h hf1 hf2
  have hqq : rndQ q = q := by simpa using rndQ_of_isF (K := ℚ) hq
  split_ifs at h with h1 h2
  have hlo : rnd ((f : ℚ) * 10 ^ k) ≠ .fin q := fun hl => h1 ⟨hl, Or.inl h2⟩
  have hn' := rnd_eq_fin hn
  rcases le_or_gt n f with hle | hgt
  · have : (n : ℚ) * 10 ^ k ≤ f * 10 ^ k :=
      mul_le_mul_of_nonneg_right (by exact_mod_cast hle) hp.le
    exact hlo (rnd_of_rndQ (rndQ_between hn' hqq this hf1) hha)
  · have : ((f : ℚ) + 1) * 10 ^ k ≤ n * 10 ^ k :=
      mul_le_mul_of_nonneg_right (by exact_mod_cast hgt) hp.le
    exact h2 (rnd_of_rndQ (rndQ_between hqq hn' hf2.le this) hha)

/-- The number found is the nearest of those with its exponent. -/
theorem decimalAt_nearest {q : ℚ} (h0 : 0 < q) (hq : IsF q) (hh : q < f64Huge) {k : ℤ} {m : ℕ}
    (h : decimalAt q k = some m) (n : ℕ) (hn : rnd ((n : ℚ) * 10 ^ k) = .fin q) :
    |q - m * 10 ^ k| ≤ |q - n * 10 ^ k| := by
  have hp : (0 : ℚ) < 10 ^ k := zpow_pos (by norm_num) k
  have hha : |q| < f64Huge := by rwa [abs_of_pos h0]
  unfold decimalAt at h
  simp only at h
  have hf0 : 0 ≤ ⌊q / 10 ^ k⌋ := Int.floor_nonneg.2 (by positivity)
  have hf1 := Int.floor_le (q / 10 ^ k)
  have hf2 := Int.lt_floor_add_one (q / 10 ^ k)
  obtain ⟨f, hf⟩ : ∃ f : ℕ, ⌊q / 10 ^ k⌋ = f := ⟨_, (Int.toNat_of_nonneg hf0).symm⟩
  rw [hf] at h hf1 hf2
  rw [le_div_iff₀ hp] at hf1
  rw [div_lt_iff₀ hp] at hf2
  simp only [Int.toNat_natCast] at h
  push_cast at h hf1 hf2
  have hqq : rndQ q = q := by simpa using rndQ_of_isF (K := ℚ) hq
  have hn' := rnd_eq_fin hn
  have e1 : q / 10 ^ k - f < 1 / 2 ↔ q - f * 10 ^ k < 1 / 2 * 10 ^ k := by
    rw [sub_lt_iff_lt_add, div_lt_iff₀ hp, sub_lt_iff_lt_add]
    constructor <;> intro h <;> linarith
  have c1 : n ≤ f → q - f * 10 ^ k ≤ |q - n * 10 ^ k| := by
    intro hle
    have : (n : ℚ) * 10 ^ k ≤ f * 10 ^ k :=
      mul_le_mul_of_nonneg_right (by exact_mod_cast hle) hp.le
    rw [abs_of_nonneg (by linarith)]
    linarith
  have c2 : f < n → (f + 1) * 10 ^ k - q ≤ |q - n * 10 ^ k| := by
    intro hgt
    have : ((f : ℚ) + 1) * 10 ^ k ≤ n * 10 ^ k :=
      mul_le_mul_of_nonneg_right (by exact_mod_cast hgt) hp.le
    rw [abs_of_nonpos (by linarith)]
    linarith
  split_ifs at h with h1 h2
  · cases h
    rw [abs_of_nonneg (by linarith)]
    rcases le_or_gt n m with hle | hgt
    · exact c1 hle
    · have hhi : rnd (((m : ℚ) + 1) * 10 ^ k) = .fin q := by
        have : ((m : ℚ) + 1) * 10 ^ k ≤ n * 10 ^ k :=
          mul_le_mul_of_nonneg_right (by exact_mod_cast hgt) hp.le
        exact rnd_of_rndQ (rndQ_between hqq hn' hf2.le this) hha
      rcases h1.2 with h1 | h1
      · exact absurd hhi h1
      · rw [e1] at h1
        have := c2 hgt
        linarith
  · cases h
    push_cast
    rw [abs_of_nonpos (by linarith)]
    rcases le_or_gt n f with hle | hgt
    · have hlo : rnd ((f : ℚ) * 10 ^ k) = .fin q := by
        have : (n : ℚ) * 10 ^ k ≤ f * 10 ^ k :=
          mul_le_mul_of_nonneg_right (by exact_mod_cast hle) hp.le
        exact rnd_of_rndQ (rndQ_between hn' hqq this hf1) hha
      have : ¬ (q - f * 10 ^ k < 1 / 2 * 10 ^ k) := fun hc => h1 ⟨hlo, Or.inr (e1.2 hc)⟩
      have := c1 hle
      linarith
    · have := c2 hgt
      linarith

theorem decimalAt_le {q : ℚ} (h0 : 0 < q) {k : ℤ} {m : ℕ} (h : decimalAt q k = some m) :
    (m : ℚ) ≤ q / 10 ^ k + 1 := by
  have hp : (0 : ℚ) < 10 ^ k := zpow_pos (by norm_num) k
  have hf0 : 0 ≤ ⌊q / 10 ^ k⌋ := Int.floor_nonneg.2 (by positivity)
  have hf1 := Int.floor_le (q / 10 ^ k)
  obtain ⟨f, hf⟩ : ∃ f : ℕ, ⌊q / 10 ^ k⌋ = f := ⟨_, (Int.toNat_of_nonneg hf0).symm⟩
  unfold decimalAt at h
  simp only at h
  rw [hf] at h hf1
  simp only [Int.toNat_natCast] at h
  push_cast at h hf1
  split_ifs at h
  · cases h; linarith
  · cases h; push_cast; linarith

theorem shortestFrom_spec (q : ℚ) : ∀ (fuel : ℕ) (k : ℤ),
    (∃ j : ℕ, j ≤ fuel ∧ decimalAt q (k - j) ≠ none) →
    decimalAt q (shortestFrom q fuel k).2 = some (shortestFrom q fuel k).1 ∧
    k - fuel ≤ (shortestFrom q fuel k).2 ∧ (shortestFrom q fuel k).2 ≤ k ∧
    ∀ k', (shortestFrom q fuel k).2 < k' → k' ≤ k → decimalAt q k' = none := by
  intro fuel
  induction fuel with
  | zero =>
    rintro k ⟨j, hj, h⟩
    obtain rfl : j = 0 := by omega
    simp only [Nat.cast_zero, sub_zero] at h
    obtain ⟨n, hn⟩ := Option.ne_none_iff_exists'.1 h
    simp only [shortestFrom, hn, Option.getD_some, Nat.cast_zero, sub_zero, le_refl, true_and]
    intro k' h1 h2
    omega
  | succ fuel ih =>
    rintro k ⟨j, hj, h⟩
    simp only [shortestFrom]
    cases hk : decimalAt q k with
    | some n =>
      simp only [hk, le_refl, true_and]
      refine ⟨by push_cast; omega, fun k' h1 h2 => by omega⟩
    | none =>
      simp only
      have hj0 : j ≠ 0 := by
        rintro rfl
        simp only [Nat.cast_zero, sub_zero] at h
        exact h hk
      obtain ⟨a, b, c, d⟩ := ih (k - 1) ⟨j - 1, by omega, by
        have : k - 1 - ((j - 1 : ℕ) : ℤ) = k - j := by omega
        rwa [this]⟩
      refine ⟨a, by push_cast; omega, by omega, fun k' h1 h2 => ?_⟩
      rcases eq_or_lt_of_le h2 with rfl | h2
      · exact hk
      · exact d k' h1 (by omega)

/-- Seventeen digits are enough. -/
theorem decimalAt_enough {q : ℚ} (h0 : 0 < q) (hq : IsF q) (hh : q < f64Huge) :
    decimalAt q (Int.log 10 q - 16) ≠ none := by
  intro hnone
  set t : ℚ := 10 ^ (Int.log 10 q - 16) with ht
  have hp : (0 : ℚ) < t := zpow_pos (by norm_num) _
  have hle : t * 10 ^ 16 ≤ q := by
    have := Int.zpow_log_le_self (b := 10) (by norm_num) h0
    rw [ht, ← zpow_natCast, ← zpow_add₀ (by norm_num)]
    simpa using this
  have key : ∀ n : ℕ, |(n : ℚ) * t - q| ≤ t / 2 → False := fun n hn =>
    decimalAt_none h0 hq hh hnone n (rnd_near h0 hq hh hp hle hn)
  have hf0 : 0 ≤ ⌊q / t⌋ := Int.floor_nonneg.2 (by positivity)
  have hf1 := Int.floor_le (q / t)
  have hf2 := Int.lt_floor_add_one (q / t)
  obtain ⟨f, hf⟩ : ∃ f : ℕ, ⌊q / t⌋ = f := ⟨_, (Int.toNat_of_nonneg hf0).symm⟩
  rw [hf] at hf1 hf2
  rw [le_div_iff₀ hp] at hf1
  rw [div_lt_iff₀ hp] at hf2
  push_cast at hf1 hf2
  rcases le_or_gt (q - f * t) (t / 2) with h | h
  · exact key f (by rw [abs_of_nonpos (by linarith)]; linarith)
  · refine key (f + 1) ?_
    push_cast
    rw [abs_of_nonneg (by linarith)]
    linarith

/-- What is found: a number that is read as `q`, with the greatest exponent possible, the nearest
with this exponent, of at most 17 digits, the last of which is not zero. -/
theorem shortest_spec {q : ℚ} (h0 : 0 < q) (hq : IsF q) (hh : q < f64Huge) :
    rnd (((shortest q).1 : ℚ) * 10 ^ (shortest q).2) = .fin q ∧
    (∀ (n : ℕ) (k : ℤ), rnd ((n : ℚ) * 10 ^ k) = .fin q → k ≤ (shortest q).2) ∧
    (∀ n : ℕ, rnd ((n : ℚ) * 10 ^ (shortest q).2) = .fin q →
      |q - (shortest q).1 * 10 ^ (shortest q).2| ≤ |q - n * 10 ^ (shortest q).2|) ∧
    0 < (shortest q).1 ∧ (shortest q).1 < 10 ^ 17 ∧ ¬ 10 ∣ (shortest q).1 := by
  have hex : ∃ j : ℕ, j ≤ 17 ∧ decimalAt q (Int.log 10 q + 1 - j) ≠ none := by
    refine ⟨17, le_rfl, ?_⟩
    have : Int.log 10 q + 1 - ((17 : ℕ) : ℤ) = Int.log 10 q - 16 := by push_cast; ring
    rw [this]
    exact decimalAt_enough h0 hq hh
  obtain ⟨h1, h2, h3, h4⟩ := shortestFrom_spec q 17 (Int.log 10 q + 1) hex
  change decimalAt q (shortest q).2 = some (shortest q).1 at h1
  change _ ≤ (shortest q).2 at h2
  change (shortest q).2 ≤ _ at h3
  change ∀ k', (shortest q).2 < k' → _ at h4
  generalize shortest q = s at *
  obtain ⟨m, k⟩ := s
  simp only at *
  have hr := decimalAt_some h1
  have hmax : ∀ (n : ℕ) (k' : ℤ), rnd ((n : ℚ) * 10 ^ k') = .fin q → k' ≤ k := by
    intro n k' hn
    by_contra hc
    push Not at hc
    rcases le_or_gt k' (Int.log 10 q + 1) with hle | hgt
    · exact decimalAt_none h0 hq hh (h4 k' hc hle) n hn
    · have hn' := rnd_eq_fin hn
      rcases Nat.eq_zero_or_pos n with rfl | hpos
      · have : rndQ (0 : ℚ) = 0 := by simpa using rndQ_of_isF (K := ℚ) isF_zero
        simp only [Nat.cast_zero, zero_mul, this] at hn'
        linarith
      · have a1 : q * 2 ≤ (n : ℚ) * 10 ^ k' := by
          have b1 := Int.lt_zpow_succ_log_self (b := 10) (by norm_num) q
          simp only [Nat.cast_ofNat] at b1
          have b2 : (10 : ℚ) ^ (Int.log 10 q + 1) * 10 ≤ 10 ^ k' := by
            calc (10 : ℚ) ^ (Int.log 10 q + 1) * 10 = 10 ^ (Int.log 10 q + 1 + 1) :=
                  (zpow_add_one₀ (by norm_num) _).symm
              _ ≤ 10 ^ k' := zpow_le_zpow_right₀ (by norm_num) (by omega)
          have b3 : (1 : ℚ) ≤ n := by exact_mod_cast hpos
          have b4 : (0 : ℚ) < 10 ^ k' := zpow_pos (by norm_num) _
          have b5 := mul_le_mul_of_nonneg_right b3 b4.le
          linarith
        have a2 := le_rndQ ((n : ℚ) * 10 ^ k') (y := q * 2) (by
          simpa using isF_mul_two_zpow (d := 1) hq) (by rw [Rat.cast_id]; exact a1)
        rw [hn'] at a2
        linarith
  have hm10 : ¬ 10 ∣ m := by
    rintro ⟨m', rfl⟩
    have : ((10 * m' : ℕ) : ℚ) * 10 ^ k = (m' : ℚ) * 10 ^ (k + 1) := by
      rw [zpow_add_one₀ (by norm_num)]; push_cast; ring
    rw [this] at hr
    have := hmax m' (k + 1) hr
    omega
  refine ⟨hr, hmax, decimalAt_nearest h0 hq hh h1, ?_, ?_, hm10⟩
  · rcases Nat.eq_zero_or_pos m with rfl | h
    · exact absurd (dvd_zero 10) hm10
    · exact h
  · have hle := decimalAt_le h0 h1
    have hlt : q / 10 ^ k < 10 ^ 17 := by
      have hp : (0 : ℚ) < 10 ^ k := zpow_pos (by norm_num) _
      rw [div_lt_iff₀ hp]
      have b1 := Int.lt_zpow_succ_log_self (b := 10) (by norm_num) q
      simp only [Nat.cast_ofNat] at b1
      refine b1.trans_le ?_
      rw [← zpow_natCast, ← zpow_add₀ (by norm_num)]
      exact zpow_le_zpow_right₀ (by norm_num) (by push_cast at h2 ⊢; omega)
    have : (m : ℚ) < ((10 ^ 17 + 1 : ℕ) : ℚ) := by push_cast; linarith
    have : m < 10 ^ 17 + 1 := by exact_mod_cast this
    rcases Nat.lt_or_ge m (10 ^ 17) with h | h
    · exact h
    · exfalso
      obtain rfl : m = 10 ^ 17 := by omega
      exact hm10 (by norm_num)

end Cli
end Poppy
