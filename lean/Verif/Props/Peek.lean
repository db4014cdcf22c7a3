import Verif.Lemmas.Peek
import Verif.Props.Load

/-! # Partial loading of arbitrary bytes (C80) -/

namespace Poppy

open Spec

/-- For every byte string, `partial_from_reader` gives what `Spec.peek` says. -/
theorem C80_peek (env : Env) {bs : List U8} (hb : bs.length < 2 ^ 50) :
    (Bloom.partialFromReader env (Reader.ofBytes bs)).map Bloom.peek
      = Load.res (peek env.debug bs) := by
  unfold Bloom.partialFromReader Bloom.fromReaderAux peek header
  rw [show Reader.ofBytes bs = rdAt bs 0 from rfl, readFlags_at]
  by_cases h : bs.length < 8
  · rw [if_pos h, if_pos h]; rfl
  rw [if_neg h, if_neg h]
  rcases tryFrom_cases (bs.getD 1 0) with ⟨h1, h2⟩ | ⟨h1, l, h2, h3⟩
  · rw [h2, if_pos h1]; rfl
  · rw [h2, if_neg h1]
    simp only
    by_cases hv : bs.getD 0 0 = 1#8
    · rw [if_pos hv, if_pos hv]
      have := V1.peek_body (env := env) hb (by omega) h3 (bs.getD 0 0)
      revert this
      cases V1.fromReaderWithFlags env ⟨bs.getD 0 0, l, slice bs 2 6⟩ true (rdAt bs 8) <;>
        cases peekBody1 bs <;> simp_all [Res.map, Load.res, Load.map, Bloom.peek]
    · rw [if_neg hv, if_neg hv]
      by_cases hv : bs.getD 0 0 = 2#8
      · rw [if_pos hv, if_pos hv]
        have := V2.peek_body (env := env) hb (by omega) h3 (bs.getD 0 0)
        revert this
        cases V2.fromReaderWithFlags env ⟨bs.getD 0 0, l, slice bs 2 6⟩ true (rdAt bs 8) <;>
          cases peekBody2 env.debug bs <;> simp_all [Res.map, Load.res, Load.map, Bloom.peek]
      · rw [if_neg hv, if_neg hv]; rfl

/-- Partial loading panics only in debug builds, on v2 files whose buckets would take 2^64 bytes or
more: no memory is allocated for the bits. -/
theorem C80_panics (env : Env) {bs : List U8} (hb : bs.length < 2 ^ 50) :
    Bloom.partialFromReader env (Reader.ofBytes bs) = .panic ↔
      env.debug = true ∧ bs.getD 0 0 = 2#8 ∧ (bs.getD 1 0).toNat ≤ 3 ∧
      2 ^ 52 ≤ num bs 16 ∧ num bs 16 ≤ 1023 * 2 ^ 52 ∧ 56 + (num bs 40 + 7) / 8 ≤ bs.length ∧
      2 ^ 64 ≤ num bs (48 + (num bs 40 + 7) / 8) * 4096 := by
  have key : Bloom.partialFromReader env (Reader.ofBytes bs) = .panic ↔
      peek env.debug bs = .memory ∨ peek env.debug bs = .overflow := by
    have := C80_peek env hb
    cases h1 : Bloom.partialFromReader env (Reader.ofBytes bs) <;>
      cases h2 : peek env.debug bs <;> rw [h1, h2] at this <;> simp_all [Res.map, Load.res]
  rw [key]
  have m2 : ((peekBody2 env.debug bs).map (Sum.inr (α := File1)) = .memory ∨
      (peekBody2 env.debug bs).map (Sum.inr (α := File1)) = .overflow) ↔
      (peekBody2 env.debug bs = .memory ∨ peekBody2 env.debug bs = .overflow) := by
    cases peekBody2 env.debug bs <;> simp [Load.map]
  unfold peek header
  dsimp only
  by_cases c1 : bs.length < 8
  · rw [if_pos c1]
    exact ⟨fun h => (by rcases h with h | h <;> cases h), fun h => by omega⟩
  by_cases c2 : 3 < (bs.getD 1 0).toNat
  · rw [if_neg c1, if_pos c2]
    exact ⟨fun h => (by rcases h with h | h <;> cases h), fun h => by omega⟩
  rw [if_neg c1, if_neg c2]
  by_cases v1 : bs.getD 0 0 = 1#8
  · have v2 : ¬ (1#8 : U8) = 2#8 := by decide
    rw [v1, if_pos rfl]
    refine ⟨fun h => ?_, fun h => absurd h.2.1 v2⟩
    unfold peekBody1 at h
    by_cases c : bs.length < 48
    · rw [if_pos c] at h; rcases h with h | h <;> cases h
    · rw [if_neg c] at h; rcases h with h | h <;> cases h
  · rw [if_neg v1]
    by_cases v2 : bs.getD 0 0 = 2#8
    · rw [if_pos v2, m2]
      unfold peekBody2
      simp only
      generalize num bs (48 + (num bs 40 + 7) / 8) = n
      generalize (num bs 40 + 7) / 8 = c
      by_cases d1 : bs.length < 24
      · rw [if_pos d1]
        exact ⟨fun h => (by rcases h with h | h <;> cases h), fun h => by omega⟩
      rw [if_neg d1]
      by_cases d2 : ¬ (2 ^ 52 ≤ num bs 16 ∧ num bs 16 ≤ 1023 * 2 ^ 52)
      · rw [if_pos d2]
        exact ⟨fun h => (by rcases h with h | h <;> cases h), fun h => by omega⟩
      rw [if_neg d2]
      by_cases d3 : bs.length < 56 + c
      · rw [if_pos d3]
        exact ⟨fun h => (by rcases h with h | h <;> cases h), fun h => by omega⟩
      rw [if_neg d3]
      by_cases d4 : env.debug = true ∧ 2 ^ 64 ≤ n * 4096
      · rw [if_pos d4]
        exact ⟨fun _ => ⟨d4.1, v2, by omega, by omega, by omega, by omega, d4.2⟩, fun _ => .inr rfl⟩
      · rw [if_neg d4]
        refine ⟨fun h => ?_, fun h => absurd ⟨h.1, h.2.2.2.2.2.2⟩ d4⟩
        cases hs : seekTo (56 + c) (n * 4096 % 2 ^ 64) <;> rw [hs] at h <;>
          rcases h with h | h <;> cases h
    · rw [if_neg v2]
      exact ⟨fun h => (by rcases h with h | h <;> cases h), fun h => absurd h.2.1 v2⟩

/-- A file of 4096 bytes stating 2^52 - 1 buckets: skipping them seeks backwards to the start. -/
def backwards : List U8 :=
  [2, 0, 0, 0, 0, 0, 0, 0] ++ le 8 0 ++ le 8 (1023 * 2 ^ 52) ++ le 8 1 ++ le 8 0 ++ le 8 (4040 * 8) ++
    List.replicate 4040 0 ++ le 8 (2 ^ 52 - 1)

/-- The data of a partially loaded filter need not be what follows its bits: for this file it is the
whole file, in every build, while loading it completely panics. -/
theorem C80_backwards (env : Env) (hs : env.Small) :
    Bloom.fromReader env (Reader.ofBytes backwards) = .panic ∧
    ∃ g, Bloom.partialFromReader env (Reader.ofBytes backwards) = .ok g ∧ g.data = backwards := by
  have hl : backwards.length = 4096 := by decide +kernel
  have e : ∀ d, peek d backwards = .ok (.inr ⟨⟨0, [0, 0, 0, 0, 0, 0], 0, 1023 * 2 ^ 52, 1, 0, [], [],
      backwards⟩, 4040, 2 ^ 52 - 1⟩) := by
    intro d
    have n1 : num backwards 40 = 32320 := by decide +kernel
    have n2 : num backwards 4088 = 2 ^ 52 - 1 := by decide +kernel
    have n3 : num backwards 16 = 1023 * 2 ^ 52 := by decide +kernel
    have n4 : num backwards 8 = 0 ∧ num backwards 24 = 1 ∧ num backwards 32 = 0 ∧
      slice backwards 2 6 = [0, 0, 0, 0, 0, 0] ∧ backwards.getD 0 0 = 2#8 ∧
      (backwards.getD 1 0).toNat = 0 := by decide +kernel
    obtain ⟨p1, p2, p3, p4, p5, p6⟩ := n4
    unfold peek header peekBody2
    simp only [n1, p1, p2, p3, p4, p5, p6, hl, n3, Nat.reduceAdd, Nat.reduceDiv, n2]
    norm_num [seekTo, Load.map]
    exact fun h => absurd h (by decide)
  constructor
  · rw [C79_panics hs]
    unfold Env.Small at hs
    refine ⟨by omega, by decide +kernel, .inr ⟨by decide +kernel, by omega, by decide +kernel,
      by decide +kernel, .inr ⟨by decide +kernel, ?_⟩⟩⟩
    rw [show num backwards (48 + (num backwards 40 + 7) / 8) = 2 ^ 52 - 1 by decide +kernel]
    omega
  · have h := C80_peek env (bs := backwards) (by omega)
    rw [e] at h
    cases hg : Bloom.partialFromReader env (Reader.ofBytes backwards) with
    | ok g =>
      refine ⟨g, rfl, ?_⟩
      rw [hg] at h
      cases g with
      | v1 f => simp [Res.map, Load.res, Bloom.peek] at h
      | v2 f =>
        simp only [Res.map, Load.res, Bloom.peek, Res.ok.injEq, Sum.inr.injEq, Peek2.mk.injEq] at h
        exact congrArg File2.data h.1
    | err x => rw [hg] at h; simp [Res.map, Load.res] at h
    | panic => rw [hg] at h; simp [Res.map, Load.res] at h

/-- A v2 file stating 2 buckets but with none of them is loaded partially, without data. -/
example : peek true ([2, 1, 0, 0, 0, 0, 0, 7] ++ le 8 5 ++ le 8 (1023 * 2 ^ 52) ++ le 8 6 ++ le 8 1 ++
      le 8 9 ++ [8, 9] ++ le 8 2 ++ [1, 2])
    = .ok (.inr ⟨⟨1, [0, 0, 0, 0, 0, 7], 5, 1023 * 2 ^ 52, 6, 1, [], [], []⟩, 2, 2⟩) := by decide

/-- A v1 file of 65 bits: the two words are skipped. -/
example : peek true (v1Bytes 258 5 1 65 2 [3, 4] [9])
    = .ok (.inl ⟨0, [0, 0, 0, 0, 0, 0], 258, 5, 1, 65, 2, [], [9]⟩) := by decide

/-- 2^52 buckets: a panic in debug builds, no offset at all in release builds; one bucket less is an
offset before the start. -/
example :
    peek true ([2, 1, 0, 0, 0, 0, 0, 7] ++ le 8 5 ++ le 8 (1023 * 2 ^ 52) ++ le 8 6 ++ le 8 1 ++
      le 8 0 ++ le 8 (2 ^ 52)) = .overflow ∧
    peek false ([2, 1, 0, 0, 0, 0, 0, 7] ++ le 8 5 ++ le 8 (1023 * 2 ^ 52) ++ le 8 6 ++ le 8 1 ++
      le 8 0 ++ le 8 (2 ^ 52))
      = .ok (.inr ⟨⟨1, [0, 0, 0, 0, 0, 7], 5, 1023 * 2 ^ 52, 6, 1, [], [], []⟩, 0, 2 ^ 52⟩) ∧
    peek true ([2, 1, 0, 0, 0, 0, 0, 7] ++ le 8 5 ++ le 8 (1023 * 2 ^ 52) ++ le 8 6 ++ le 8 1 ++
      le 8 0 ++ le 8 (2 ^ 52 - 1)) = .seek := by decide

end Poppy
