import Verif.Model.EncErr
/-
Which values cannot be encoded, and what is to be said about them.  Only the type of the values is taken from the model.
-/
set_option autoImplicit false

namespace Verif.EncErr.Spec
open Verif.EncErr

/-- values that can be encoded -/
inductive Fine : TValue → Prop
  | str (s : Bytes) : s ≠ [] → Fine (.str s)
  | int64 (i : Int) : Fine (.int64 i)
  | intN (i : Int) : Fine (.intN i)
  | list (vs : List TValue) : (∀ v ∈ vs, Fine v) → Fine (.list vs)
  | dict (es : List (Bytes × TValue)) : (∀ e ∈ es, e.1 ≠ []) → (∀ e ∈ es, Fine e.2) → Fine (.dict es)

/-- `Fault v t`: the first thing in `v` that cannot be encoded, in the order of the document, has the complaint `t`.  The empty key is the first of all keys. -/
inductive Fault : TValue → Bytes → Prop
  | str : Fault (.str []) (ascii "encoder error: cannot encode an empty string")
  | other (ty : Bytes) : Fault (.other ty) (ascii "encoder error: unsupported bencoding type [" ++ ty ++ ascii "]")
  | list (pre : List TValue) (v : TValue) (post : List TValue) (t : Bytes) : (∀ w ∈ pre, Fine w) → Fault v t → Fault (.list (pre ++ v :: post)) t
  | key (es : List (Bytes × TValue)) (v : TValue) : ([], v) ∈ es → Fault (.dict es) (ascii "encoder error: cannot encode an empty string")
  | value (es : List (Bytes × TValue)) (k : Bytes) (v : TValue) (t : Bytes) : (∀ e ∈ es, e.1 ≠ []) → (k, v) ∈ es → (∀ e ∈ es, e.1 < k → Fine e.2) → Fault v t →
      Fault (.dict es) t

/-- every dictionary has distinct keys, as a map of Go has -/
inductive IsMap : TValue → Prop
  | str (s : Bytes) : IsMap (.str s)
  | int64 (i : Int) : IsMap (.int64 i)
  | intN (i : Int) : IsMap (.intN i)
  | other (ty : Bytes) : IsMap (.other ty)
  | list (vs : List TValue) : (∀ v ∈ vs, IsMap v) → IsMap (.list vs)
  | dict (es : List (Bytes × TValue)) : (es.map Prod.fst).Nodup → (∀ e ∈ es, IsMap e.2) → IsMap (.dict es)

mutual
/-- the value without the names of types -/
def erase : TValue → Bencode.Value
  | .str s => .str s
  | .int64 i => .int64 i
  | .intN i => .intN i
  | .list vs => .list (eraseList vs)
  | .dict es => .dict (eraseEntries es)
  | .other _ => .other
def eraseList : List TValue → List Bencode.Value
  | [] => []
  | v :: vs => erase v :: eraseList vs
def eraseEntries : List (Bytes × TValue) → List (Bytes × Bencode.Value)
  | [] => []
  | (k, v) :: es => (k, erase v) :: eraseEntries es
end

end Verif.EncErr.Spec
