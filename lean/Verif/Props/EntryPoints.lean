import Verif.Props.Hash
import Verif.Props.Membership

/-! # Other ways of inserting and querying (C01) -/

namespace Poppy

/-- No false negatives for byte strings, inserted and queried by any of the functions for byte
strings or by the generic ones. -/
theorem C01_bytes {env : Env} (hs : env.Small) {f g h : V2} (hf : V2.Reach env f) {k : List U8}
    {b : Bool} (hi : f.insertBytes env k = (g, .ok b) ∨ f.insertBytesOld env k = (g, .ok b) ∨
      f.insert env (.slice k) = (g, .ok b))
    (hk : V2.Keeps env (.slice k) g h) :
    h.containsBytes env k = .ok true ∧ h.containsBytesOld env k = .ok true ∧
      h.contains env (.slice k) = .ok true := by
  obtain ⟨e1, _, e3, _⟩ := C38_byte_keys env f (.slice k) k rfl
  obtain ⟨_, e2, _, e4⟩ := C38_byte_keys env h (.slice k) k rfl
  have hi : f.insert env (.slice k) = (g, .ok b) := by
    rcases hi with hi | hi | hi
    · rw [e1]; exact hi
    · rw [e3]; exact hi
    · exact hi
  have := C01_no_false_negative hs hf hi hk
  exact ⟨by rw [← e2]; exact this, by rw [← e4]; exact this, this⟩

/-- No false negatives when inserting or querying with an iterator prepared for the key. -/
theorem C01_iter {env : Env} (hs : env.Small) {f g h : V2} (hf : V2.Reach env f) {k : Key}
    {b : Bool} (it it' : IndexIterator)
    (hi : f.insertIter env (it.initWithHashable env.wy k) = (g, .ok b) ∨
      f.insert env k = (g, .ok b))
    (hk : V2.Keeps env k g h) :
    h.containsIter env (it'.initWithHashable env.wy k) = .ok true ∧
      h.contains env k = .ok true := by
  have hi : f.insert env k = (g, .ok b) := by
    rcases hi with hi | hi
    · rw [← (C39_prepared_iter env f it k).1]; exact hi
    · exact hi
  have := C01_no_false_negative hs hf hi hk
  refine ⟨?_, this⟩
  have h2 := (C39_prepared_iter env h it' k).2.1
  rw [this] at h2
  cases hx : h.containsIter env (it'.initWithHashable env.wy k) with
  | ok r => rw [hx] at h2; cases h2; rfl
  | err e => rw [hx] at h2; cases h2
  | panic => rw [hx] at h2; cases h2

-- such insertions succeed
example : (Sample.f2.insertBytes Sample.env [1#8, 2#8]).2 = .ok true ∧
    (Sample.f2.insertBytesOld Sample.env [1#8, 2#8]).2 = .ok true ∧
    (Sample.f2.insertIter Sample.env (IndexIterator.new.initWithHashable Sample.env.wy (.int .u8 3))).2
      = .ok true := by decide +kernel

end Poppy
