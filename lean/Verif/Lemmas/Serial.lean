import Verif.Lemmas.Partial
import Verif.Lemmas.Fpp

/-! # Helper lemmas for the file formats -/

namespace Poppy

open Spec

theorem feq_self {b : F64} (h : fppInRange b = true) :
    FVal.feq (FVal.ofBits b) (FVal.ofBits b) = true := by
  obtain ⟨q, hq, _⟩ := ofBits_of_inRange h
  rw [hq]; simp [FVal.feq, FVal.le]

theorem V1.insertLoop_flags (env : Env) (fl : Flags) (n : ℕ) (f : V1) (fp : Fingerprint)
    (new : Bool) : V1.insertLoop env n { f with flags := fl } fp new
      = ({ (V1.insertLoop env n f fp new).1 with flags := fl },
        (V1.insertLoop env n f fp new).2) := by
  induction n generalizing f fp new with
  | zero => rfl
  | succ n ih =>
    simp only [V1.insertLoop]
    split
    · rfl
    · split
      · rfl
      · split
        · rfl
        · rename_i index _ _ _ entry _ _
          by_cases h1 : (env.debug && decide (V1.getNthBit { f with
              bitset := f.bitset.set (index / 64#64).toNat (entry ||| wordMask index) } index
                ≠ .ok true)) = true
          · rw [if_pos h1]
            exact if_pos h1
          · rw [if_neg h1]
            exact (if_neg h1).trans (ih { f with
              bitset := f.bitset.set (index / 64#64).toNat (entry ||| wordMask index) } _ _)
    · rfl
    · rfl

theorem V1.insertBytes_flags (env : Env) (f : V1) (fl : Flags) (k : List U8) :
    (V1.insertBytes env { f with flags := fl } k).2 = (V1.insertBytes env f k).2 := by
  unfold V1.insertBytes
  simp only [V1.insertLoop_flags]
  split
  · rfl
  · cases h : V1.insertLoop env ((f.fingerprint.fingerprint k).count.toNat + 1) f
      (f.fingerprint.fingerprint k) false with
    | mk g r =>
      cases r with
      | ok new =>
        simp only
        cases new
        · rfl
        · simp only [if_true]
          cases addU64 env.debug g.count 1 <;> rfl
      | err e => rfl
      | panic => rfl

theorem u64ToLe_ofNat (n : ℕ) : u64ToLe (BitVec.ofNat 64 n) = Spec.le 8 n := by
  unfold u64ToLe
  rw [natToLe_eq, BitVec.toNat_ofNat]
  unfold Spec.le
  apply List.map_congr_left
  intro i hi
  rw [List.mem_range] at hi
  congr 1
  have h64 : (2 ^ 64 : ℕ) = 256 ^ i * (256 * 256 ^ (7 - i)) := by
    have : 256 ^ i * (256 * 256 ^ (7 - i)) = 256 ^ (i + (1 + (7 - i))) := by ring
    rw [this, show i + (1 + (7 - i)) = 8 by omega]; norm_num
  rw [h64, Nat.mod_mul_right_div_self, Nat.mod_mul_right_mod]

theorem u64ToLe_eq (x : U64) : u64ToLe x = Spec.le 8 x.toNat := by
  unfold u64ToLe; rw [natToLe_eq]

theorem length_le (n x : ℕ) : (Spec.le n x).length = n := by simp [Spec.le]

theorem optLevel_iff (b : U8) :
    (∃ o, OptLevel.tryFrom b = .ok o ∧ o.toU8 = b) ↔ b.toNat ≤ 3 := by
  constructor
  · rintro ⟨o, -, rfl⟩; cases o <;> decide
  · intro h
    have : b = 0 ∨ b = 1 ∨ b = 2 ∨ b = 3 := by revert b; decide +kernel
    rcases this with rfl | rfl | rfl | rfl
    · exact ⟨.none, rfl, rfl⟩
    · exact ⟨.space, rfl, rfl⟩
    · exact ⟨.speed, rfl, rfl⟩
    · exact ⟨.best, rfl, rfl⟩

theorem optLevel_err (b : U8) (h : 3 < b.toNat) : OptLevel.tryFrom b = .err (.optLevel b) := by
  revert b; decide +kernel

theorem readFlags_cases (bs : List U8) :
    (bs.length < 8 → readFlags (Reader.ofBytes bs) = .err (.ioError .unexpectedEof)) ∧
    (∀ v o rest, bs = v :: o :: rest → 6 ≤ rest.length →
      (3 < o.toNat → readFlags (Reader.ofBytes bs) = .err (.optLevel o)) ∧
      (o.toNat ≤ 3 → ∃ lvl : OptLevel, lvl.toU8 = o ∧
        readFlags (Reader.ofBytes bs) = .ok (⟨v, lvl, rest.take 6⟩,
          rd (v :: o :: rest.take 6) (rest.drop 6)))) := by
  refine ⟨fun h => ?_, ?_⟩
  · unfold readFlags
    rw [ofBytes_eq, readExact_rd, if_neg (by omega)]
  · rintro v o rest rfl hl
    have hread : readExact 8 (Reader.ofBytes (v :: o :: rest))
        = .ok (v :: o :: rest.take 6, rd (v :: o :: rest.take 6) (rest.drop 6)) := by
      rw [ofBytes_eq, readExact_rd, if_pos (by simp; omega)]
      rfl
    obtain ⟨a, b, c, d, e, f, tl, rfl⟩ : ∃ a b c d e f tl, rest = a :: b :: c :: d :: e :: f :: tl := by
      match rest, hl with
      | a :: b :: c :: d :: e :: f :: tl, _ => exact ⟨a, b, c, d, e, f, tl, rfl⟩
    constructor
    · intro ho
      unfold readFlags
      rw [hread]
      simp [Flags.fromBytes, optLevel_err o ho]
    · intro ho
      obtain ⟨lvl, h1, h2⟩ := (optLevel_iff o).2 ho
      refine ⟨lvl, h2, ?_⟩
      unfold readFlags
      rw [hread]
      simp [Flags.fromBytes, h1]

end Poppy
