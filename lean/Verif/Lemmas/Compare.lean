import Verif.Model.Compare
import Verif.CompareSpec
import Verif.Lemmas.Decimal

/-!
# Lemmas about comparing parameters
-/

namespace Poppy.Compare

open Spec Cli

theorem le_iff (a b : FVal) :
    FVal.le a b = true ↔ ∃ x y, place a = some x ∧ place b = some y ∧ x ≤ y := by
  have ht : ∀ q : ℚ, ¬ (((⊤ : WithTop ℚ) : WithBot (WithTop ℚ)) ≤ ((q : WithTop ℚ) : WithBot (WithTop ℚ))) :=
    fun q h => WithTop.coe_ne_top (top_le_iff.1 (WithBot.coe_le_coe.1 h))
  cases a <;> cases b <;>
    simp [FVal.le, place, ht, WithBot.coe_le_coe, WithTop.coe_le_coe,
      -WithBot.coe_top, -le_bot_iff, -top_le_iff]

theorem place_nan {a : FVal} : place a = none ↔ a = .nan := by
  cases a <;> simp [place]

theorem place_inj {a b : FVal} {x} (ha : place a = some x) (hb : place b = some x) : a = b := by
  cases a <;> cases b <;> simp only [place, Option.some.injEq, reduceCtorEq] at ha hb <;>
    subst ha <;> simp_all [WithBot.coe_inj, WithTop.coe_inj, -WithBot.coe_top]

theorem partialCmp_some {a b : FVal} {x y} (ha : place a = some x) (hb : place b = some y) :
    FVal.partialCmp a b = some (if x < y then .lt else if x = y then .eq else .gt) := by
  have h1 : FVal.le a b = decide (x ≤ y) := by
    have := le_iff a b
    rw [ha, hb] at this
    rw [Bool.eq_iff_iff, this, decide_eq_true_iff]
    exact ⟨fun ⟨_, _, h, h', hl⟩ => by injection h with h; injection h' with h'; rwa [h, h'],
      fun h => ⟨x, y, rfl, rfl, h⟩⟩
  have h2 : FVal.le b a = decide (y ≤ x) := by
    have := le_iff b a
    rw [ha, hb] at this
    rw [Bool.eq_iff_iff, this, decide_eq_true_iff]
    exact ⟨fun ⟨_, _, h, h', hl⟩ => by injection h with h; injection h' with h'; rwa [h, h'],
      fun h => ⟨y, x, rfl, rfl, h⟩⟩
  unfold FVal.partialCmp
  rw [h1, h2]
  rcases lt_trichotomy x y with h | h | h
  · rw [decide_eq_true h.le, decide_eq_false (not_le.2 h), if_pos h]
  · subst h; rw [decide_eq_true le_rfl, if_neg (lt_irrefl x), if_pos rfl]
  · rw [decide_eq_true h.le, decide_eq_false (not_le.2 h), if_neg (not_lt.2 h.le), if_neg h.ne']

theorem partialCmp_none {a b : FVal} (h : place a = none ∨ place b = none) :
    FVal.partialCmp a b = none := by
  rw [place_nan, place_nan] at h
  rcases h with rfl | rfl
  · cases b <;> rfl
  · cases a <;> rfl

theorem cmp_lt (a b : F64) :
    FVal.partialCmp (FVal.ofBits a) (FVal.ofBits b) = some .lt ↔ Below a b := by
  unfold Below
  cases hx : place (FVal.ofBits a) with
  | none => rw [partialCmp_none (Or.inl hx)]; simp
  | some x =>
    cases hy : place (FVal.ofBits b) with
    | none => rw [partialCmp_none (Or.inr hy)]; simp
    | some y =>
      rw [partialCmp_some hx hy]
      by_cases h : x < y
      · simp [h]
      · by_cases h' : x = y <;> simp [h, h']

theorem cmp_eq (a b : F64) :
    FVal.partialCmp (FVal.ofBits a) (FVal.ofBits b) = some .eq ↔ SamePlace a b := by
  unfold SamePlace
  cases hx : place (FVal.ofBits a) with
  | none => rw [partialCmp_none (Or.inl hx)]; simp
  | some x =>
    cases hy : place (FVal.ofBits b) with
    | none => rw [partialCmp_none (Or.inr hy)]; simp
    | some y =>
      rw [partialCmp_some hx hy]
      by_cases h : x < y
      · simp [h, h.ne']
      · by_cases h' : x = y
        · simp [h']
        · simp [h, h', Ne.symm h']

theorem cmp_none (a b : F64) :
    FVal.partialCmp (FVal.ofBits a) (FVal.ofBits b) = none ↔
      FVal.ofBits a = .nan ∨ FVal.ofBits b = .nan := by
  rw [← place_nan, ← place_nan]
  cases hx : place (FVal.ofBits a) with
  | none => rw [partialCmp_none (Or.inl hx)]; simp
  | some x =>
    cases hy : place (FVal.ofBits b) with
    | none => rw [partialCmp_none (Or.inr hy)]; simp
    | some y => rw [partialCmp_some hx hy]; simp

theorem cmp_swap (a b : FVal) : FVal.partialCmp b a = (FVal.partialCmp a b).map Ordering.swap := by
  unfold FVal.partialCmp
  cases FVal.le a b <;> cases FVal.le b a <;> rfl

theorem feq_iff (a b : F64) :
    FVal.feq (FVal.ofBits a) (FVal.ofBits b) = true ↔ SamePlace a b := by
  rw [← cmp_eq]
  unfold FVal.feq FVal.partialCmp
  cases FVal.le (FVal.ofBits a) (FVal.ofBits b) <;> cases FVal.le (FVal.ofBits b) (FVal.ofBits a) <;>
    simp

theorem level_lt (a b : OptLevel) :
    OptLevel.partialCmp a b = some .lt ↔ levels.idxOf a < levels.idxOf b := by
  cases a <;> cases b <;> decide

theorem level_eq (a b : OptLevel) : OptLevel.partialCmp a b = some .eq ↔ a = b := by
  cases a <;> cases b <;> decide

theorem level_swap (a b : OptLevel) :
    OptLevel.partialCmp b a = (OptLevel.partialCmp a b).map Ordering.swap := by
  cases a <;> cases b <;> decide

theorem ofBits_pinf {b : F64} (h : FVal.ofBits b = .pinf) : b = 0x7FF0000000000000#64 := by
  rw [ofBits_eq, toNat_sign] at h
  have hlt := b.isLt
  split at h
  · split at h
    · split at h
      · cases h
      · rename_i h1 h2 h3
        simp only [decide_eq_true_eq] at h3
        apply BitVec.eq_of_toNat_eq
        have : (0x7FF0000000000000#64).toNat = 9218868437227405312 := rfl
        rw [this]; omega
    · cases h
  · cases h

theorem ofBits_ninf {b : F64} (h : FVal.ofBits b = .ninf) : b = 0xFFF0000000000000#64 := by
  rw [ofBits_eq, toNat_sign] at h
  have hlt := b.isLt
  split at h
  · split at h
    · split at h
      · rename_i h1 h2 h3
        simp only [decide_eq_true_eq] at h3
        apply BitVec.eq_of_toNat_eq
        have : (0xFFF0000000000000#64).toNat = 18442240474082181120 := rfl
        rw [this]; omega
      · cases h
    · cases h
  · cases h

theorem ofBits_zero {b : F64} (h : isZero b) : FVal.ofBits b = .fin 0 := by
  rcases h with rfl | rfl <;> decide +kernel

theorem bits_zero : FVal.bits (.fin 0) = 0x0000000000000000#64 :=
  bits_ofBits (ofBits_zero (Or.inl rfl)) (by decide)

/-- Two numbers that are `==` have the same bits, or both are zero. -/
theorem samePlace_iff (a b : F64) :
    SamePlace a b ↔ FVal.ofBits a ≠ .nan ∧ (a = b ∨ isZero a ∧ isZero b) := by
  constructor
  · rintro ⟨x, ha, hb⟩
    have hab := place_inj ha hb
    have hn : FVal.ofBits a ≠ .nan := by
      intro h; rw [h] at ha; cases ha
    refine ⟨hn, ?_⟩
    cases hv : FVal.ofBits a with
    | nan => exact absurd hv hn
    | pinf => left; rw [ofBits_pinf hv, ofBits_pinf (b := b) (hab ▸ hv)]
    | ninf => left; rw [ofBits_ninf hv, ofBits_ninf (b := b) (hab ▸ hv)]
    | fin q =>
      have hw : FVal.ofBits b = .fin q := hab ▸ hv
      have hz : ∀ c : F64, FVal.ofBits c = .fin 0 → isZero c := by
        intro c hc
        by_cases h8 : c = 0x8000000000000000#64
        · exact Or.inr h8
        · left; rw [← bits_ofBits hc h8, bits_zero]
      by_cases hq : q = 0
      · subst hq; exact Or.inr ⟨hz a hv, hz b hw⟩
      · have ne : ∀ c : F64, FVal.ofBits c = .fin q → c ≠ 0x8000000000000000#64 := by
          intro c hc h8
          rw [ofBits_zero (Or.inr h8)] at hc
          injection hc with hc
          exact hq hc.symm
        left; rw [← bits_ofBits hv (ne a hv), ← bits_ofBits hw (ne b hw)]
  · rintro ⟨hn, rfl | ⟨ha, hb⟩⟩
    · cases hx : place (FVal.ofBits a) with
      | none => exact absurd (place_nan.1 hx) hn
      | some x => exact ⟨x, hx, hx⟩
    · exact ⟨_, by rw [ofBits_zero ha]; rfl, by rw [ofBits_zero hb]; rfl⟩

theorem nat_cmp (a b : ℕ) : (compare a b = .lt ↔ a < b) ∧ (compare a b = .eq ↔ a = b) ∧
    (compare a b = .gt ↔ b < a) :=
  ⟨Nat.compare_eq_lt, Nat.compare_eq_eq, Nat.compare_eq_gt⟩

theorem zero_out {b : F64} (h : isZero b) : fppInRange b = false := by
  rcases h with rfl | rfl <;> decide +kernel

end Poppy.Compare
