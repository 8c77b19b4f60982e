import Verif.Model.RateLimit
/-
What is meant by bytes admitted between two ticks, for C53 and C54: functions of what can be seen of a schedule.
-/
set_option autoImplicit false

namespace Verif.RateSpec
open Verif.RateLimit

/-- the sizes of all writes admitted, oldest first -/
def admitted : List Label → List Nat
  | [] => []
  | .admit _ n :: ls => n :: admitted ls
  | _ :: ls => admitted ls

/-- the sizes of all writes that were handed to the writer, oldest first -/
def written : List Label → List Nat
  | [] => []
  | .written _ n :: ls => n :: written ls
  | _ :: ls => written ls

/-- the part of a schedule since the last tick -/
def sinceTick : List Label → List Label
  | [] => []
  | l :: ls => if .tick ∈ ls then sinceTick ls else if l = .tick then ls else l :: ls

end Verif.RateSpec
