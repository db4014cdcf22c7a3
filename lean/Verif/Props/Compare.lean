import Verif.Lemmas.Compare
import Verif.Samples

/-!
# C125: comparing parameters
-/

namespace Poppy

open Spec Compare

/-- Parameters are `==` just if they are the same and the probability is not NaN; the only other
case are the two zeros, which no filter can be created with. -/
theorem C125_eq (p q : Params) :
    p.eq q = true ↔ FVal.ofBits p.fpp ≠ .nan ∧
      (p = q ∨ isZero p.fpp ∧ isZero q.fpp ∧ p = { q with fpp := p.fpp }) := by
  obtain ⟨v, c, a, o⟩ := p
  obtain ⟨v', c', a', o'⟩ := q
  have h := feq_iff a a'
  rw [samePlace_iff] at h
  simp only [Params.eq, Bool.and_eq_true, beq_iff_eq, h, Params.mk.injEq]
  constructor
  · rintro ⟨⟨⟨rfl, rfl⟩, hn, hh⟩, rfl⟩
    rcases hh with hh | hh
    · exact ⟨hn, Or.inl ⟨rfl, rfl, hh, rfl⟩⟩
    · exact ⟨hn, Or.inr ⟨hh.1, hh.2, rfl, rfl, trivial, rfl⟩⟩
  · rintro ⟨hn, ⟨rfl, rfl, rfl, rfl⟩ | ⟨h1, h2, rfl, rfl, _, rfl⟩⟩
    · exact ⟨⟨⟨rfl, rfl⟩, hn, Or.inl rfl⟩, rfl⟩
    · exact ⟨⟨⟨rfl, rfl⟩, hn, Or.inr ⟨h1, h2⟩⟩, rfl⟩

/-- Parameters that are `==` create the same filter, whichever way it is created. -/
theorem C125_create (env : Env) {p q : Params} (h : p.eq q = true) :
    (∀ f, p.tryInto env = .ok f ↔ q.tryInto env = .ok f) ∧
    (p.tryInto env = .panic ↔ q.tryInto env = .panic) ∧
    (∀ f, p.tryIntoV1 env = .ok f ↔ q.tryIntoV1 env = .ok f) ∧
    (p.tryIntoV1 env = .panic ↔ q.tryIntoV1 env = .panic) ∧
    (∀ f, p.tryIntoV2 env = .ok f ↔ q.tryIntoV2 env = .ok f) ∧
    (p.tryIntoV2 env = .panic ↔ q.tryIntoV2 env = .panic) := by
  rcases ((C125_eq p q).1 h).2 with rfl | ⟨hp, hq, he⟩
  · simp
  · have h1 : ∀ {r : Params}, isZero r.fpp → r.tryIntoV1 env = .err (.wrongFpp r.fpp) := by
      intro r hr
      simp [Params.tryIntoV1, V1.withCapacity, zero_out hr]
    have h2 : ∀ {r : Params}, isZero r.fpp → r.tryIntoV2 env = .err (.wrongFpp r.fpp) := by
      intro r hr
      simp [Params.tryIntoV2, V2.make, zero_out hr]
    have h3 : ∀ {r : Params}, isZero r.fpp → ∃ e, r.tryInto env = .err e := by
      intro r hr
      have h1 := h1 hr
      have h2 := h2 hr
      unfold Params.tryIntoV1 at h1
      unfold Params.tryIntoV2 at h2
      unfold Params.tryInto Bloom.withVersionCapacityOpt
      rw [h1, h2]
      split
      · exact ⟨_, rfl⟩
      · split <;> exact ⟨_, rfl⟩
    obtain ⟨e, hep⟩ := h3 hp
    obtain ⟨e', heq⟩ := h3 hq
    rw [h1 hp, h1 hq, h2 hp, h2 hq, hep, heq]
    simp

/-- `<` is the dictionary order: version, capacity, probability, optimization level. -/
theorem C125_lt (p q : Params) : p.partialCmp q = some .lt ↔ Before p q := by
  obtain ⟨v, c, a, o⟩ := p
  obtain ⟨v', c', a', o'⟩ := q
  have hv := nat_cmp v.toNat v'.toNat
  have hc := nat_cmp c.toNat c'.toNat
  have ha := cmp_lt a a'
  have hb := cmp_eq a a'
  have ho := level_lt o o'
  unfold Params.partialCmp Before
  simp only [← ha, ← hb, ← ho, ← BitVec.toNat_inj, ← hv.1, ← hv.2.1, ← hc.1, ← hc.2.1]
  generalize compare v.toNat v'.toNat = x
  generalize compare c.toNat c'.toNat = y
  generalize FVal.partialCmp (FVal.ofBits a) (FVal.ofBits a') = z
  rcases x <;> rcases y <;> rcases z with _ | (_ | _ | _) <;> simp

/-- `>` is the same the other way round: comparing the other way round swaps the answer. -/
theorem C125_swap (p q : Params) : q.partialCmp p = (p.partialCmp q).map Ordering.swap := by
  obtain ⟨v, c, a, o⟩ := p
  obtain ⟨v', c', a', o'⟩ := q
  unfold Params.partialCmp
  simp only [← Nat.compare_swap v.toNat v'.toNat, ← Nat.compare_swap c.toNat c'.toNat,
    cmp_swap (FVal.ofBits a) (FVal.ofBits a'), level_swap o o']
  generalize compare v.toNat v'.toNat = x
  generalize compare c.toNat c'.toNat = y
  generalize FVal.partialCmp (FVal.ofBits a) (FVal.ofBits a') = z
  generalize OptLevel.partialCmp o o' = w
  rcases x <;> rcases y <;> rcases z with _ | (_ | _ | _) <;> simp [Ordering.swap]

/-- Neither before nor after: just if the parameters are `==`. -/
theorem C125_equal (p q : Params) : p.partialCmp q = some .eq ↔ p.eq q = true := by
  obtain ⟨v, c, a, o⟩ := p
  obtain ⟨v', c', a', o'⟩ := q
  have hv := nat_cmp v.toNat v'.toNat
  have hc := nat_cmp c.toNat c'.toNat
  have hb := cmp_eq a a'
  have hf := feq_iff a a'
  have ho := level_eq o o'
  unfold Params.partialCmp Params.eq
  simp only [Bool.and_eq_true, beq_iff_eq, hf, ← hb, ← ho, ← BitVec.toNat_inj, ← hv.2.1,
    ← hc.2.1]
  generalize compare v.toNat v'.toNat = x
  generalize compare c.toNat c'.toNat = y
  generalize FVal.partialCmp (FVal.ofBits a) (FVal.ofBits a') = z
  rcases x <;> rcases y <;> rcases z with _ | (_ | _ | _) <;> simp

/-- There is no answer just if a NaN has to be compared. -/
theorem C125_none (p q : Params) : p.partialCmp q = none ↔
    p.version = q.version ∧ p.capacity = q.capacity ∧
      (FVal.ofBits p.fpp = .nan ∨ FVal.ofBits q.fpp = .nan) := by
  obtain ⟨v, c, a, o⟩ := p
  obtain ⟨v', c', a', o'⟩ := q
  have hv := nat_cmp v.toNat v'.toNat
  have hc := nat_cmp c.toNat c'.toNat
  have hn := cmp_none a a'
  unfold Params.partialCmp
  simp only [← hn, ← BitVec.toNat_inj, ← hv.2.1, ← hc.2.1]
  generalize compare v.toNat v'.toNat = x
  generalize compare c.toNat c'.toNat = y
  generalize FVal.partialCmp (FVal.ofBits a) (FVal.ofBits a') = z
  rcases x <;> rcases y <;> rcases z with _ | (_ | _ | _) <;> simp [OptLevel.partialCmp]

/-- `<` is a strict order. -/
theorem C125_strict (p q r : Params) (h1 : p.lt q = true) :
    (q.lt r = true → p.lt r = true) ∧ q.lt p = false := by
  have key : ∀ p q : Params, p.lt q = true ↔ Before p q := by
    intro p q; rw [← C125_lt, Params.lt, beq_iff_eq]
  constructor
  · intro h2
    rw [key] at h1 h2 ⊢
    have tb : ∀ {a b c : F64}, Below a b → Below b c → Below a c := by
      rintro a b c ⟨x, y, hx, hy, h⟩ ⟨y', z, hy', hz, h'⟩
      rw [hy] at hy'; injection hy' with hy'; subst hy'
      exact ⟨x, z, hx, hz, h.trans h'⟩
    have tb1 : ∀ {a b c : F64}, Below a b → SamePlace b c → Below a c := by
      rintro a b c ⟨x, y, hx, hy, h⟩ ⟨y', hy', hz⟩
      rw [hy] at hy'; injection hy' with hy'; subst hy'
      exact ⟨x, y, hx, hz, h⟩
    have tb2 : ∀ {a b c : F64}, SamePlace a b → Below b c → Below a c := by
      rintro a b c ⟨x, hx, hy⟩ ⟨y', z, hy', hz, h'⟩
      rw [hy] at hy'; injection hy' with hy'; subst hy'
      exact ⟨x, z, hx, hz, h'⟩
    have tb3 : ∀ {a b c : F64}, SamePlace a b → SamePlace b c → SamePlace a c := by
      rintro a b c ⟨x, hx, hy⟩ ⟨y', hy', hz⟩
      rw [hy] at hy'; injection hy' with hy'; subst hy'
      exact ⟨x, hx, hz⟩
    rcases h1 with h1 | ⟨e1, h1 | ⟨f1, h1 | ⟨g1, h1⟩⟩⟩ <;>
      rcases h2 with h2 | ⟨e2, h2 | ⟨f2, h2 | ⟨g2, h2⟩⟩⟩
    all_goals first
      | exact Or.inl (h1.trans h2)
      | exact Or.inl (e2 ▸ h1)
      | exact Or.inl (e1 ▸ h2)
      | exact Or.inr ⟨e1.trans e2, Or.inl (h1.trans h2)⟩
      | exact Or.inr ⟨e1.trans e2, Or.inl (f2 ▸ h1)⟩
      | exact Or.inr ⟨e1.trans e2, Or.inl (f1 ▸ h2)⟩
      | exact Or.inr ⟨e1.trans e2, Or.inr ⟨f1.trans f2, Or.inl (tb h1 h2)⟩⟩
      | exact Or.inr ⟨e1.trans e2, Or.inr ⟨f1.trans f2, Or.inl (tb1 h1 g2)⟩⟩
      | exact Or.inr ⟨e1.trans e2, Or.inr ⟨f1.trans f2, Or.inl (tb2 g1 h2)⟩⟩
      | exact Or.inr ⟨e1.trans e2, Or.inr ⟨f1.trans f2, Or.inr ⟨tb3 g1 g2, h1.trans h2⟩⟩⟩
  · rw [Params.lt, beq_iff_eq] at h1
    rw [Params.lt, C125_swap, h1]
    rfl

/-! ### Concrete cases -/

/-- parameters that differ only in the sign of a zero are `==`; NaN is not `==` to itself -/
example : (Params.new 10#64 0x0000000000000000#64).eq (Params.new 10#64 0x8000000000000000#64)
    = true ∧ (Params.new 10#64 0x7FF8000000000000#64).eq (Params.new 10#64 0x7FF8000000000000#64)
    = false := by decide +kernel

/-- a larger capacity decides before the probability and the level, which decide in this order -/
example :
    ((Params.new 10#64 oneBits).withOpt .best).lt (Params.new 11#64 minPositiveBits) = true ∧
    ((Params.new 10#64 minPositiveBits).withOpt .best).lt (Params.new 10#64 oneBits) = true ∧
    ((Params.new 10#64 oneBits).withOpt .space).lt ((Params.new 10#64 oneBits).withOpt .speed) = true ∧
    (Params.new 10#64 0x7FF8000000000000#64).partialCmp (Params.new 10#64 oneBits) = none := by
  decide +kernel

end Poppy
