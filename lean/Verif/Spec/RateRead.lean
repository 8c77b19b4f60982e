import Verif.Model.RateRead
/-
What is meant by bytes read and by buffers admitted, for C81: functions of what can be seen of a schedule.
-/
set_option autoImplicit false

namespace Verif.RateReadSpec
open Verif.RateRead

/-- the sizes of all buffers admitted, oldest first -/
def admitted : List Label → List Nat
  | [] => []
  | .admit _ n :: ls => n :: admitted ls
  | _ :: ls => admitted ls

/-- the numbers of bytes that all reads have given, oldest first -/
def bytesRead : List Label → List Nat
  | [] => []
  | .got _ _ m :: ls => m :: bytesRead ls
  | _ :: ls => bytesRead ls

/-- the sizes of the buffers of all reads, oldest first -/
def buffers : List Label → List Nat
  | [] => []
  | .got _ n _ :: ls => n :: buffers ls
  | _ :: ls => buffers ls

/-- the budget is reset -/
def Resets : Label → Prop
  | .tick _ | .started _ => True
  | _ => False

instance : DecidablePred Resets := fun l => by cases l <;> unfold Resets <;> infer_instance

/-- the part of a schedule since the budget was reset -/
def sinceReset : List Label → List Label
  | [] => []
  | l :: ls => if ∃ x ∈ ls, Resets x then sinceReset ls else if Resets l then ls else l :: ls

/-- nobody is in the loop of `Run` -/
def Halted (s : State) : Prop := ∀ u, s.pcs u ≠ .running

end Verif.RateReadSpec
