import Verif.Model.Bencode
/- Decidable equality of `Value` (only used to evaluate the model on concrete examples). -/
set_option autoImplicit false

namespace Verif.Bencode

mutual
def veq : Value → Value → Bool
  | .str s, .str t => s == t
  | .int64 i, .int64 j => i == j
  | .intN i, .intN j => i == j
  | .list vs, .list ws => veqList vs ws
  | .dict es, .dict fs => veqEntries es fs
  | .other, .other => true
  | _, _ => false
def veqList : List Value → List Value → Bool
  | [], [] => true
  | v :: vs, w :: ws => veq v w && veqList vs ws
  | _, _ => false
def veqEntries : List (Bytes × Value) → List (Bytes × Value) → Bool
  | [], [] => true
  | (k, v) :: vs, (k', w) :: ws => k == k' && veq v w && veqEntries vs ws
  | _, _ => false
end

mutual
theorem veq_iff (v w : Value) : veq v w = true ↔ v = w := by
  cases v <;> cases w <;> simp [veq]
  · exact veqList_iff _ _
  · exact veqEntries_iff _ _
theorem veqList_iff (v w : List Value) : veqList v w = true ↔ v = w := by
  cases v <;> cases w <;> simp [veqList]
  rw [veq_iff, veqList_iff]
theorem veqEntries_iff (v w : List (Bytes × Value)) : veqEntries v w = true ↔ v = w := by
  match v, w with
  | [], [] => simp [veqEntries]
  | [], _ :: _ => simp [veqEntries]
  | (_, _) :: _, [] => simp [veqEntries]
  | (_, _) :: _, (_, _) :: _ =>
    simp [veqEntries]
    rw [veq_iff, veqEntries_iff]
end

instance : DecidableEq Value := fun v w => decidable_of_iff _ (veq_iff v w)

end Verif.Bencode
