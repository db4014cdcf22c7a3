import Verif.Model.Sizing

/-!
# Builds and machines

Two environments compared: the same libraries, but built with or without the checks of debug builds,
and with more or less memory.
-/

namespace Poppy

/-- The second environment has the same libraries as the first, checks no more than the first (it is
a release build, or both are debug builds), and has as much memory or more. -/
structure Env.Laxer (e e' : Env) : Prop where
  libm : e'.libm = e.libm
  wy : e'.wy = e.wy
  debug : e'.debug = true → e.debug = true
  alloc : e.allocLimit ≤ e'.allocLimit

end Poppy
