import Verif.Model.Messages
import Verif.Lemmas.Load
import Verif.Props.Decimal

/-! Lemmas about the texts of errors. -/

namespace Poppy

open Cli Spec

theorem f64Shown_spec (b : F64) : ∃ s, f64Shown b = String.ofList s ∧
    (FVal.ofBits b ≠ .nan → readF64 s = some b) ∧
    (FVal.ofBits b = .nan → s = ['N', 'a', 'N']) := by
  unfold f64Shown
  split
  · rename_i h
    subst h
    refine ⟨['-', '0'], by decide, fun _ => by decide +kernel, fun h => ?_⟩
    exact absurd h (by decide +kernel)
  · rename_i h
    obtain ⟨s, h1, h2, -⟩ := C96_back b h
    refine ⟨_, rfl, fun hn => ?_, fun hn => by rw [hn]; rfl⟩
    have : s = f64Text (FVal.ofBits b) := (String.ofList_injective h1).symm
    exact this ▸ h2 hn

theorem u8Shown_eq (v : U8) : u8Shown v = toString v.toNat := rfl

theorem u8Shown_injective : Function.Injective u8Shown := by
  intro v w h
  have h := String.ofList_injective h
  have hv := readUsize_toDigits (v.setWidth 64)
  have hw := readUsize_toDigits (w.setWidth 64)
  have e : ∀ x : U8, (x.setWidth 64 : U64).toNat = x.toNat := fun x => by
    rw [BitVec.toNat_setWidth]; exact Nat.mod_eq_of_lt (by have := x.isLt; omega)
  rw [e] at hv hw
  rw [h, hw] at hv
  injection hv with hv
  apply BitVec.eq_of_toNat_eq
  rw [← e v, ← e w, hv]

theorem load_ne_seek (limit : ℕ) (bs : List U8) : load limit bs ≠ .seek := by
  have h1 : (body1 limit bs).map (Sum.inl (β := File2)) ≠ .seek := by
    unfold body1
    dsimp only
    split_ifs <;> exact fun h => by cases h
  have h2 : (body2 limit bs).map (Sum.inr (α := File1)) ≠ .seek := by
    unfold body2
    dsimp only
    split_ifs <;> exact fun h => by cases h
  unfold load header
  dsimp only
  split_ifs
  all_goals first
    | exact h1
    | exact h2
    | exact fun h => by cases h

theorem f64Shown_inj {b b' : F64} (h : f64Shown b = f64Shown b') :
    b = b' ∨ FVal.ofBits b = .nan ∧ FVal.ofBits b' = .nan := by
  obtain ⟨s, h1, h2, h3⟩ := f64Shown_spec b
  obtain ⟨t, g1, g2, g3⟩ := f64Shown_spec b'
  have e : s = t := String.ofList_injective (by rw [← h1, ← g1, h])
  subst e
  have hnan : readF64 ['N', 'a', 'N'] = some (FVal.bits .nan) := by decide +kernel
  have hn : FVal.ofBits (FVal.bits .nan) = .nan := by decide +kernel
  by_cases hb : FVal.ofBits b = .nan <;> by_cases hb' : FVal.ofBits b' = .nan
  · exact .inr ⟨hb, hb'⟩
  · have := g2 hb'
    rw [h3 hb, hnan] at this
    injection this with this
    exact absurd (this ▸ hn) hb'
  · have := h2 hb
    rw [g3 hb', hnan] at this
    injection this with this
    exact absurd (this ▸ hn) hb
  · have := (h2 hb).symm.trans (g2 hb')
    exact .inl (Option.some.inj this)

theorem append_string_inj {p s t : String} (h : p ++ s = p ++ t) : s = t := by
  have := congrArg String.toList h
  rw [String.toList_append, String.toList_append] at this
  exact String.toList_injective (List.append_cancel_left this)

/-- The first ten characters of the text of an error. -/
def kind : Error → List Char
  | .wrongFpp _ => ['f', 'p', 'p', ' ', 'v', 'a', 'l', 'u', 'e', ' ']
  | .invalidVersion _ => ['i', 'n', 'v', 'a', 'l', 'i', 'd', ' ', 'v', 'e']
  | .merge _ => ['u', 'n', 'i', 'o', 'n', ' ', 'e', 'r', 'r', 'o']
  | .optLevel _ => ['i', 'n', 'v', 'a', 'l', 'i', 'd', ' ', 'o', 'p']
  | .tooManyEntries => ['t', 'o', 'o', ' ', 'm', 'a', 'n', 'y', ' ', 'e']
  | .uninitIter => ['e', 'n', 't', 'r', 'y', ' ', 'i', 'n', 'd', 'e']
  | .ioError _ => []
  | .other _ => []

theorem take_string (p s : String) (h : 10 ≤ p.toList.length) :
    (p ++ s).toList.take 10 = p.toList.take 10 := by
  rw [String.toList_append, List.take_append_of_le_length h]

theorem kind_text (io : IoKind → String) {e : Error} (hio : ∀ k, e ≠ .ioError k)
    (ho : ∀ m, e ≠ .other m) : (e.text io).toList.take 10 = kind e := by
  cases e with
  | ioError k => exact absurd rfl (hio k)
  | other m => exact absurd rfl (ho m)
  | tooManyEntries =>
    exact (by decide : "too many entries, false positive rate cannot be met".toList.take 10
      = kind .tooManyEntries)
  | uninitIter =>
    exact (by decide : "entry index iterator must be initialized".toList.take 10
      = kind .uninitIter)
  | wrongFpp b => exact (take_string _ _ (by decide)).trans (by simp only [kind]; decide)
  | invalidVersion b => exact (take_string _ _ (by decide)).trans (by simp only [kind]; decide)
  | merge b => exact (take_string _ _ (by decide)).trans (by simp only [kind]; decide)
  | optLevel b => exact (take_string _ _ (by decide)).trans (by simp only [kind]; decide)

theorem ne_of_take {p q s t : String} (hp : 10 ≤ p.toList.length) (hq : 10 ≤ q.toList.length)
    (h : p.toList.take 10 ≠ q.toList.take 10) : p ++ s ≠ q ++ t := by
  intro e
  have := congrArg (fun x : String => x.toList.take 10) e
  exact h ((take_string _ _ hp).symm.trans (this.trans (take_string _ _ hq)))

end Poppy
