import Mathlib.Tactic.Ring
import Verif.Spec

/-! Little-endian encoding and decoding. -/

namespace Poppy
open Spec

theorem leToNat_eq (bs : List U8) : leToNat bs = leVal bs := by
  induction bs with
  | nil => rfl
  | cons b bs ih => simp [leToNat, leVal, ih]

theorem natToLe_eq (n x : ℕ) : natToLe n x = Spec.le n x := by
  unfold Spec.le
  induction n generalizing x with
  | zero => rfl
  | succ n ih =>
    rw [natToLe, ih, List.range_succ_eq_map, List.map_cons, List.map_map]
    simp only [pow_zero, Nat.div_one, List.cons.injEq, true_and]
    apply List.map_congr_left
    intro i _
    simp [Nat.pow_succ, Nat.div_div_eq_div_mul, Nat.mul_comm]

@[simp] theorem length_natToLe (n x : ℕ) : (natToLe n x).length = n := by
  rw [natToLe_eq]; simp [Spec.le]

@[simp] theorem length_u64ToLe (x : U64) : (u64ToLe x).length = 8 := length_natToLe 8 _

theorem leToNat_lt (bs : List U8) : leToNat bs < 256 ^ bs.length := by
  induction bs with
  | nil => simp [leToNat]
  | cons b bs ih =>
    have := b.isLt
    simp only [leToNat, List.length_cons, Nat.pow_succ]
    omega

theorem leToNat_natToLe (n x : ℕ) : leToNat (natToLe n x) = x % 256 ^ n := by
  induction n generalizing x with
  | zero => simp [natToLe, leToNat, Nat.mod_one]
  | succ n ih =>
    simp only [natToLe, leToNat, ih, BitVec.toNat_ofNat]
    rw [Nat.pow_succ 256 n, Nat.mul_comm (256 ^ n) 256, Nat.mod_mul]
    omega

theorem natToLe_leToNat (bs : List U8) : natToLe bs.length (leToNat bs) = bs := by
  induction bs with
  | nil => rfl
  | cons b bs ih =>
    have := b.isLt
    simp only [List.length_cons, natToLe, leToNat]
    rw [show (b.toNat + 256 * leToNat bs) % 256 = b.toNat by omega,
      show (b.toNat + 256 * leToNat bs) / 256 = leToNat bs by omega, ih]
    simp

theorem leToNat_injective {a b : List U8} (hl : a.length = b.length)
    (h : leToNat a = leToNat b) : a = b := by
  rw [← natToLe_leToNat a, ← natToLe_leToNat b, hl, h]

theorem u64OfLe_u64ToLe (x : U64) : u64OfLe (u64ToLe x) = x := by
  unfold u64OfLe u64ToLe
  rw [leToNat_natToLe]
  apply BitVec.eq_of_toNat_eq
  have := x.isLt
  rw [BitVec.toNat_ofNat]
  omega

theorem u64ToLe_u64OfLe {bs : List U8} (h : bs.length = 8) : u64ToLe (u64OfLe bs) = bs := by
  unfold u64OfLe u64ToLe
  have := leToNat_lt bs
  rw [h] at this
  rw [BitVec.toNat_ofNat, Nat.mod_eq_of_lt (by omega), ← h, natToLe_leToNat]

theorem leToNat_append_zeros (bs : List U8) (n : ℕ) :
    leToNat (bs ++ List.replicate n 0#8) = leToNat bs := by
  induction bs with
  | nil =>
    induction n with
    | zero => rfl
    | succ n ih => simpa [List.replicate_succ, leToNat] using ih
  | cons b bs ih => simp [leToNat, ih]

theorem toNat_u64OfLe {bs : List U8} (h : bs.length ≤ 8) : (u64OfLe bs).toNat = leVal bs := by
  have := leToNat_lt bs
  have h2 : 256 ^ bs.length ≤ 256 ^ 8 := Nat.pow_le_pow_right (by norm_num) h
  unfold u64OfLe
  rw [BitVec.toNat_ofNat, Nat.mod_eq_of_lt (by omega), leToNat_eq]

theorem u64OfLe_append_zeros (bs : List U8) (n : ℕ) :
    u64OfLe (bs ++ List.replicate n 0#8) = u64OfLe bs := by
  simp [u64OfLe, leToNat_append_zeros]

end Poppy
