import Verif.RFMaps.Model

/-!
# Specification of the effect of accelerating structures
-/

namespace Verif.RFMaps.Spec
open Verif.RFMaps

variable {K : Type} [Field K]

/-- The momentum of a particle. -/
def momentum (p0 : K) (v : Part K) : K := p0 * (1 + v.dp)

/-- The transverse momenta, for angles as coordinates. -/
def across (p0 : K) (v : Part K) : K × K := (momentum p0 v * v.xp, momentum p0 v * v.yp)

/-- The area in the horizontal (vertical) plane which two particles of the same energy and time span with the axis. -/
def area (v w : Part K) : K × K := (v.x * w.xp - w.x * v.xp, v.y * w.yp - w.y * v.yp)

/-- A constant transverse force over the length `s`: a parabola. -/
def parabola (s x xp kick : K) : K := x + s * xp + s * kick / 2

end Verif.RFMaps.Spec
