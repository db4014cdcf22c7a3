import Verif.Lemmas.OnFile

/-! # C123: membership can be read off the file -/

namespace Poppy

open Spec Abs

variable {env : Env}

/-- The first hash of a key. -/
def firstHash (env : Env) (k : List U8) : ℕ := ((Key.slice k).hashPop env.wy).toNat

/-- The second hash of a key. -/
def secondHash (env : Env) (k : List U8) : ℕ :=
  (digest env.wy (u64ToBe ((Key.slice k).hashPop env.wy))).toNat

/-- The bits of a file that a key is about. -/
def Probes (env : Env) (bs k : List U8) (o : ℕ) : Prop :=
  Probed bs k (firstHash env k) (secondHash env k) o

/-- **C123**: a key is in the filter that a file holds just if the filter can hold keys at all and all
bits of the file that the key is about are set. -/
theorem C123_contains (hs : env.Small) {bs : List U8} {f : Bloom}
    (h : Bloom.fromReader env (Reader.ofBytes bs) = .ok f) (k : List U8) :
    (f.containsBytes env k = .ok true ↔ Usable bs ∧ ∀ o, Probes env bs k o → bitAt bs o = true) ∧
    (f.containsBytes env k = .panic ↔ bs.getD 0 0 = 2#8 ∧ num bs 8 ≠ 0 ∧ bucketCount bs = 0 ∧
      (cacheLen bs ≠ 0 → bitAt bs (slotPlace bs (firstHash env k)) = true)) ∧
    ∀ e, f.containsBytes env k ≠ .err e := by
  have hv := Bloom.view_contains hs (Bloom.Reach.load h) k
  have hi := Bloom.load_in hs h
  cases f with
  | v1 f =>
    have hi : In1 bs f.view := hi
    have e1 : ((Bloom.v1 f).containsBytes env k).answer Answer.bool = .bool
        (decide (f.view.size ≠ 0) && f.view.covered k) := hv.symm
    have e2 := Res.of_answer_bool e1
    rw [e2]
    have n2 : ¬ bs.getD 0 0 = 2#8 := by rw [hi.version]; decide
    refine ⟨?_, ⟨fun h => (by cases h), fun h => absurd h.1 n2⟩, fun e h => by cases h⟩
    unfold Usable Probes Probed
    rw [if_pos hi.version]
    simp only [if_pos hi.version, Res.ok.injEq, Bool.and_eq_true, decide_eq_true_eq, F1.covered, hi.size,
      hi.hashes]
    refine and_congr_right fun hz => ?_
    have pb := hi.place_bit (by rw [hi.size]; exact hz) k
    rw [hi.size] at pb
    simp only [pb]
    exact ⟨fun h o ⟨i, hi, e⟩ => e ▸ h i hi, fun h i hi => h _ ⟨i, hi, rfl⟩⟩
  | v2 f =>
    have hi : In2 bs f.view := hi
    have n1 : ¬ bs.getD 0 0 = 1#8 := by rw [hi.version]; decide
    have e1 : ((Bloom.v2 f).containsBytes env k).answer Answer.bool
        = f.view.contains (Bloom.machine env).c2 k := hv.symm
    have ecap := hi.cap
    have ebuc := hi.buckets
    have ecac := hi.cacheBytes
    have sb := hi.slot_bit (c := (Bloom.machine env).c2) (k := k)
    have cov := hi.covered (c := (Bloom.machine env).c2) (k := k)
    unfold Usable Probes Probed
    simp only [hi.version, true_and]
    unfold F2.contains at e1
    rw [ecap, ebuc, ecac] at e1
    rw [ecac] at sb
    rw [ebuc] at cov
    change cacheLen bs ≠ 0 → _ = bitAt bs (slotPlace bs (firstHash env k)) at sb
    change bucketCount bs ≠ 0 → _ = decide (∀ n < num bs 24,
      bitAt bs (place2 bs (firstHash env k) (secondHash env k) n) = true) at cov
    by_cases c0 : num bs 8 = 0
    · rw [if_pos c0] at e1
      rw [Res.of_answer_bool e1]
      exact ⟨⟨fun h => (by cases h), fun h => absurd c0 h.1.1⟩,
        ⟨fun h => (by cases h), fun h => absurd c0 h.1⟩, fun e h => by cases h⟩
    rw [if_neg c0] at e1
    by_cases c1 : cacheLen bs ≠ 0 ∧ bitAt bs (slotPlace bs (firstHash env k)) = false
    · rw [if_pos ⟨c1.1, (sb c1.1).trans c1.2⟩] at e1
      rw [Res.of_answer_bool e1]
      refine ⟨⟨fun h => (by cases h), fun h => ?_⟩,
        ⟨fun h => (by cases h), fun h => ?_⟩, fun e h => by cases h⟩
      · have := h.2 _ (.inl ⟨c1.1, rfl⟩)
        rw [c1.2] at this
        cases this
      · have := h.2.2 c1.1
        rw [c1.2] at this
        cases this
    rw [if_neg fun h => c1 ⟨h.1, (sb h.1).symm.trans h.2⟩] at e1
    have c1' : cacheLen bs ≠ 0 → bitAt bs (slotPlace bs (firstHash env k)) = true := by
      intro h
      by_contra hb
      exact c1 ⟨h, by simpa using hb⟩
    by_cases c2 : bucketCount bs = 0
    · rw [if_pos c2] at e1
      rw [Res.of_answer_panic e1]
      exact ⟨⟨fun h => (by cases h), fun h => absurd c2 h.1.2⟩, ⟨fun _ => ⟨c0, c2, c1'⟩, fun _ => rfl⟩,
        fun e h => by cases h⟩
    rw [if_neg c2, cov c2] at e1
    rw [Res.of_answer_bool e1]
    refine ⟨?_, ⟨fun h => (by cases h), fun h => absurd h.2.1 c2⟩, fun e h => by cases h⟩
    simp only [Res.ok.injEq, decide_eq_true_eq]
    constructor
    · rintro h
      refine ⟨⟨c0, c2⟩, ?_⟩
      rintro o (⟨h1, rfl⟩ | ⟨i, hi, rfl⟩)
      · exact c1' h1
      · exact h i hi
    · rintro ⟨_, h⟩ i hi
      exact h _ (.inr ⟨i, hi, rfl⟩)

/-- **C123**: damage is local. A file of the same shape is loaded too, and every key none of whose
bits changed gets the same answer. -/
theorem C123_local (hs : env.Small) {bs bs' : List U8} {f : Bloom}
    (h : Bloom.fromReader env (Reader.ofBytes bs) = .ok f) (s : SameShape bs bs') :
    ∃ f', Bloom.fromReader env (Reader.ofBytes bs') = .ok f' ∧ ∀ k,
      (∀ o, Probes env bs k o → bitAt bs' o = bitAt bs o) →
      f'.containsBytes env k = f.containsBytes env k := by
  obtain ⟨f', h'⟩ := Bloom.load_sameShape hs h s
  refine ⟨f', h', fun k hk => ?_⟩
  obtain ⟨a1, a2, a3⟩ := C123_contains hs h k
  obtain ⟨b1, b2, b3⟩ := C123_contains hs h' k
  have e1 : f'.containsBytes env k = .ok true ↔ f.containsBytes env k = .ok true := by
    rw [a1, b1, s.usable]
    refine and_congr_right fun _ => forall_congr' fun o => ?_
    unfold Probes at hk ⊢
    rw [s.probed]
    exact imp_congr_right fun ho => by rw [hk o ho]
  have e2 : f'.containsBytes env k = .panic ↔ f.containsBytes env k = .panic := by
    rw [a2, b2, s.version, s.capacity]
    refine and_congr_right fun v => ?_
    have n1 : bs.getD 0 0 ≠ 1#8 := by rw [v]; decide
    have ec : cacheLen bs' = cacheLen bs := by unfold cacheLen; rw [s.cache n1]
    rw [s.buckets n1, ec]
    refine and_congr_right fun _ => and_congr_right fun _ => imp_congr_right fun hc => ?_
    have es : slotPlace bs' (firstHash env k) = slotPlace bs (firstHash env k) := by
      unfold slotPlace; rw [ec]
    rw [es, hk]
    unfold Probes Probed
    rw [if_neg n1]
    exact .inl ⟨hc, rfl⟩
  cases hf : f.containsBytes env k with
  | ok b =>
    cases b with
    | true => exact e1.2 hf
    | false =>
      rw [hf] at e1 e2
      cases hf' : f'.containsBytes env k with
      | ok b =>
        cases b with
        | true => cases e1.1 hf'
        | false => rfl
      | err e => exact absurd hf' (b3 e)
      | panic => cases e2.1 hf'
  | err e => exact absurd hf (a3 e)
  | panic => exact e2.2 hf

/-- **C123**: damage that only sets bits loses no key. -/
theorem C123_set (hs : env.Small) {bs bs' : List U8} {f f' : Bloom}
    (h : Bloom.fromReader env (Reader.ofBytes bs) = .ok f) (s : SameShape bs bs')
    (h' : Bloom.fromReader env (Reader.ofBytes bs') = .ok f')
    (hb : ∀ o, bitAt bs o = true → bitAt bs' o = true) (k : List U8)
    (hk : f.containsBytes env k = .ok true) : f'.containsBytes env k = .ok true := by
  rw [(C123_contains hs h k).1] at hk
  rw [(C123_contains hs h' k).1, s.usable]
  exact ⟨hk.1, fun o ho => hb o (hk.2 o ((s.probed _ _ _ _).1 ho))⟩

/-- **C123**: damage that clears any one of the bits a key is about loses the key. -/
theorem C123_cleared (hs : env.Small) {bs bs' : List U8} {f f' : Bloom}
    (h : Bloom.fromReader env (Reader.ofBytes bs) = .ok f) (s : SameShape bs bs')
    (h' : Bloom.fromReader env (Reader.ofBytes bs') = .ok f') (k : List U8)
    (hk : f.containsBytes env k = .ok true) {o : ℕ} (ho : Probes env bs k o)
    (hb : bitAt bs' o = false) : f'.containsBytes env k = .ok false := by
  rw [(C123_contains hs h k).1] at hk
  obtain ⟨b1, b2, b3⟩ := C123_contains hs h' k
  cases hf : f'.containsBytes env k with
  | ok b =>
    cases b with
    | true =>
      have := (b1.1 hf).2 o ((s.probed _ _ _ _).2 ho)
      rw [hb] at this
      cases this
    | false => rfl
  | err e => exact absurd hf (b3 e)
  | panic =>
    obtain ⟨v, _, hz, _⟩ := b2.1 hf
    have n1 : bs.getD 0 0 ≠ 1#8 := by rw [← s.version, v]; decide
    rw [s.buckets n1] at hz
    have := hk.1
    unfold Usable at this
    rw [if_neg n1] at this
    exact absurd hz this.2

/-- **C123**: inserting a key sets the bits of the file that the key is about, and changes nothing else
but the count. -/
theorem C123_insert (hs : env.Small) {f f' : Bloom} (hf : f.Reach env) {k : List U8} {b : Bool}
    (h : f.insertBytes env k = (f', .ok b)) :
    f'.file.length = f.file.length ∧
    num f'.file (countPlace f.file) = (num f.file (countPlace f.file) + b.toNat) % 2 ^ 64 ∧
    ∀ o, (o < 8 * countPlace f.file ∨ 8 * countPlace f.file + 64 ≤ o) →
      (bitAt f'.file o = true ↔ bitAt f.file o = true ∨ Probes env f.file k o) := by
  have hv := Bloom.view_insert hs hf k
  have hf' : f'.Reach env := by
    have := Bloom.insert_reach hf k
    rwa [h] at this
  rw [h] at hv
  obtain ⟨X, A, h1, h2, h3⟩ := Bloom.load_file hs hf
  have hi := in_of_load h1 h2
  rw [← Bloom.view_file hf] at hi
  rw [← Bloom.view_file hf, ← Bloom.view_file hf']
  unfold countPlace Probes Probed
  cases f with
  | v1 f =>
    cases A with
    | v2 A => exact absurd h3 id
    | v1 A =>
      have w : In1 f.view.file f.view := In1.of_rel h3 hi
      have hv' : (Abs.F.v1 (f.view.insert k).1, (f.view.insert k).2) = (f'.view, .bool b) := hv
      cases f' with
      | v2 f' => simp [Bloom.view] at hv'
      | v1 f' =>
        simp only [Bloom.view, Prod.mk.injEq, Abs.F.v1.injEq] at hv'
        have hw : f.view.words = (f.view.size + 63) / 64 := V1.view_words hs hf
        obtain ⟨r1, r2, r3⟩ := insert1_file w hw (Prod.ext hv'.1 hv'.2)
        show f'.view.file.length = f.view.file.length ∧ _
        have v : (Bloom.v1 f).view.file.getD 0 0 = 1#8 := w.version
        rw [if_pos v]
        refine ⟨r1, r2, fun o ho => ?_⟩
        rw [if_pos v]
        exact r3 o (by omega)
  | v2 f =>
    cases A with
    | v1 A => exact absurd h3 id
    | v2 A =>
      have w : In2 f.view.file f.view := In2.of_rel h3 hi
      have hv' : (Abs.F.v2 (f.view.insert (Bloom.machine env).c2 k).1,
        (f.view.insert (Bloom.machine env).c2 k).2) = (f'.view, .bool b) := hv
      cases f' with
      | v1 f' => simp [Bloom.view] at hv'
      | v2 f' =>
        simp only [Bloom.view, Prod.mk.injEq, Abs.F.v2.injEq] at hv'
        obtain ⟨r1, r2, r3⟩ := insert2_file w (Prod.ext hv'.1 hv'.2)
        have v : ¬ (Bloom.v2 f).view.file.getD 0 0 = 1#8 := by
          show ¬ f.view.file.getD 0 0 = 1#8
          rw [w.version]; decide
        rw [if_neg v]
        refine ⟨r1, r2, fun o ho => ?_⟩
        rw [if_neg v]
        exact r3 o (by omega)

namespace Sample

/-- A v1 file with 64 bits, two hash functions and a byte of data. -/
def small1 (w : ℕ) : List U8 := Spec.v1Bytes 5 0x3FF0000000000000 2 64 1 [w] [7]

/-- The filter in `small1`. -/
def inSmall1 (w : U64) : Bloom :=
  .v1 ⟨Flags.new 1, [w], 5, oneBits, 2, 64, 1, [7], Fingerprint.new 2 64⟩

/-- Files that differ in the bits have the same shape. -/
theorem small1_shape : SameShape (small1 (2 ^ 58 + 2 ^ 46)) (small1 (2 ^ 58 + 2 ^ 46 + 2 ^ 55)) ∧
    SameShape (small1 (2 ^ 58 + 2 ^ 46)) (small1 (2 ^ 58)) :=
  ⟨by constructor <;> decide +kernel, by constructor <;> decide +kernel⟩

-- the key `a` is about bits 58 and 46: it is a member if both are set, whatever the others
example : Bloom.fromReader Sample.env (Reader.ofBytes (small1 (2 ^ 58 + 2 ^ 46)))
      = .ok (inSmall1 (BitVec.ofNat 64 (2 ^ 58 + 2 ^ 46))) ∧
    Bloom.fromReader Sample.env (Reader.ofBytes (small1 (2 ^ 58))) = .ok (inSmall1 (BitVec.ofNat 64 (2 ^ 58))) ∧
    (inSmall1 (BitVec.ofNat 64 (2 ^ 58 + 2 ^ 46))).containsBytes Sample.env [97] = .ok true ∧
    (inSmall1 (BitVec.ofNat 64 (2 ^ 58 + 2 ^ 46 + 2 ^ 55))).containsBytes Sample.env [97] = .ok true ∧
    (inSmall1 (BitVec.ofNat 64 (2 ^ 58))).containsBytes Sample.env [97] = .ok false ∧
    Probes Sample.env (small1 (2 ^ 58 + 2 ^ 46)) [97] (384 + 46) ∧
    ¬ Probes Sample.env (small1 (2 ^ 58 + 2 ^ 46)) [97] (384 + 55) := by
  refine ⟨by decide +kernel, by decide +kernel, by decide +kernel, by decide +kernel,
    by decide +kernel, ?_, ?_⟩
  · unfold Probes Probed; rw [if_pos (by decide +kernel)]; decide +kernel
  · unfold Probes Probed; rw [if_pos (by decide +kernel)]; decide +kernel

-- inserting `a` sets bit 46, raises the count, and changes nothing else of the file
example : ∃ f', (inSmall1 (BitVec.ofNat 64 (2 ^ 58))).insertBytes Sample.env [97] = (f', .ok true) ∧
    f'.file = Spec.v1Bytes 5 0x3FF0000000000000 2 64 2 [2 ^ 58 + 2 ^ 46] [7] :=
  ⟨_, by rfl, by decide +kernel⟩

-- inserting into a v2 filter
example : ∃ f', (Bloom.v2 Sample.f2).insertBytes Sample.env [1#8, 2#8] = (f', .ok true) ∧
    (Bloom.v2 Sample.f2).Reach Sample.env ∧ f'.file.length = (Bloom.v2 Sample.f2).file.length := by
  have h : ((Bloom.v2 Sample.f2).insertBytes Sample.env [1#8, 2#8]).2 = .ok true := by decide +kernel
  have hr : (Bloom.v2 Sample.f2).Reach Sample.env := V2.Reach.make Sample.f2_make
  rcases hx : (Bloom.v2 Sample.f2).insertBytes Sample.env [1#8, 2#8] with ⟨f', r⟩
  rw [hx] at h
  subst h
  exact ⟨f', rfl, hr, (C123_insert Sample.env_small hr hx).1⟩

-- a v2 file with a capacity but without buckets: every question panics
example : ∃ f, Bloom.fromReader Sample.env (Reader.ofBytes
      (Spec.v2Bytes 0 5 0x3F847AE147AE147B 6 0 [] [] [])) = .ok f ∧
    ∀ k, f.containsBytes Sample.env k = .panic := by
  have hl : ∃ f, Bloom.fromReader Sample.env (Reader.ofBytes
      (Spec.v2Bytes 0 5 0x3F847AE147AE147B 6 0 [] [] [])) = .ok f := by
    have h := Bloom.view_load Sample.env_small (Spec.v2Bytes 0 5 0x3F847AE147AE147B 6 0 [] [] [])
    obtain ⟨X, hX⟩ : ∃ X, load Sample.env.allocLimit
      (Spec.v2Bytes 0 5 0x3F847AE147AE147B 6 0 [] [] []) = .ok X := ⟨_, by rfl⟩
    rw [hX] at h
    cases hf : Bloom.fromReader Sample.env (Reader.ofBytes
      (Spec.v2Bytes 0 5 0x3F847AE147AE147B 6 0 [] [] [])) with
    | ok f => exact ⟨f, rfl⟩
    | err e => rw [hf] at h; rcases X with X | X <;> cases h
    | panic => rw [hf] at h; rcases X with X | X <;> cases h
  obtain ⟨f, hf⟩ := hl
  exact ⟨f, hf, fun k => (C123_contains Sample.env_small hf k).2.1.2
    ⟨by decide +kernel, by decide +kernel, by decide +kernel, fun h => absurd (by decide +kernel) h⟩⟩

end Sample

end Poppy
