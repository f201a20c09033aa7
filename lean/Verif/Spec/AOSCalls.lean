import Verif.Model.AOSCalls
import Verif.Spec.Calls
import Verif.Spec.PSOCalls

/-!
# Specification: calls of the user's functions by the atomic orbital search
-/

namespace Heu.Spec

section
variable {α ω : Type}

/-- the result without the log -/
def aosForget (r : AOSCallsResult α (ω × List (UserCall (List α) α))) : AOSCallsResult α ω :=
  { state := r.state, generation := r.generation, record := r.record, world := r.world.1 }

end

end Heu.Spec
