import Verif.Lemmas.ReadFull
import Verif.Props.Readers

/-!
# C108: loading partially reads little
-/

namespace Poppy

open Pieces

/-- `partial_from_reader` takes at most 49 208 bytes from the reader besides the user data, whatever the
size of the filter. -/
theorem C108_partial (sizes : ℕ → ℕ) (env : Env) (r : Reader) (es : List Event) {f : Bloom}
    {b : Buf (Buf Script)}
    (h : fromReaderAux (scripted sizes) env true { reader := r, events := es } = .ok (f, b)) :
    b.inner.inner.given ≤ 49208 + f.data.length := by
  have := fromReaderAux_partial_costs (counted_scripted sizes) env _ trivial h
  simp only [bufCap] at this
  push_cast at this
  omega

/-- `from_reader` takes every byte from the reader exactly once. -/
theorem C108_full (sizes : ℕ → ℕ) (env : Env) (r : Reader) (es : List Event) {f : Bloom}
    {b : Buf (Buf Script)} (hp : r.pos ≤ r.data.length)
    (h : fromReaderAux (scripted sizes) env false { reader := r, events := es } = .ok (f, b)) :
    b.inner.inner.given = r.data.length - r.pos := by
  have := fromReaderAux_full (keeps_scripted sizes r.data r.pos) env { reader := r, events := es }
    ⟨rfl, rfl, hp⟩ f b h
  obtain ⟨⟨_, h1, h2⟩, h3⟩ := this
  omega

-- the file has 9272 bytes
example : ((fromReaderAux (scripted fun _ => 31) Sample.env true
    { reader := Reader.ofBytes (Bloom.v2 Sample.f2).file, events := [] }).map
      fun x => x.2.inner.inner.given) = .ok 8192 := by decide +kernel
example : ((fromReaderAux (scripted fun _ => 31) Sample.env false
    { reader := Reader.ofBytes (Bloom.v2 Sample.f2).file, events := [] }).map
      fun x => x.2.inner.inner.given) = .ok 9272 := by decide +kernel

end Poppy
