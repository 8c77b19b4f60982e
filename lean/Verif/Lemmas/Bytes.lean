import Verif.Model.Go
/- A decision procedure for statements about all bytes. -/
set_option autoImplicit false

namespace Verif

/-- a statement about all 256 bytes can be decided -/
instance decForallByte (p : UInt8 → Prop) [DecidablePred p] : Decidable (∀ c : UInt8, p c) :=
  decidable_of_iff (∀ n : Fin 256, p (UInt8.ofFin n)) ⟨fun h c => by
    have := h c.toFin
    rwa [UInt8.ofFin_toFin] at this, fun h n => h _⟩

end Verif
