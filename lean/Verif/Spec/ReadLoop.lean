import Verif.Model.ReadLoop
/-
For C55: the data read and the number of deliveries, as functions of what can be seen of a schedule.
-/
set_option autoImplicit false

namespace Verif.ReadLoopSpec
open Verif.ReadLoop

/-- everything that the connection returned without an error, in order -/
def chunks : List Label → List Bytes
  | [] => []
  | .read c :: ls => c :: chunks ls
  | _ :: ls => chunks ls

/-- how often the consumer received something -/
def deliveries : List Label → Nat
  | [] => 0
  | .deliver :: ls => deliveries ls + 1
  | _ :: ls => deliveries ls

end Verif.ReadLoopSpec
