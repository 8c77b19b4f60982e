import Verif.Model.Bencode
import Verif.Spec.Size
/-
Decimal numbers of the model and of the specification.
-/
set_option autoImplicit false

namespace Verif.Utils
open Verif.Bencode Verif.Size

theorem digitsVal_foldl (ds : Bytes) (a : Nat) :
    ds.foldl (fun a d => 10 * a + (d.toNat - 48)) a = a * 10 ^ ds.length + decVal ds := by
  induction ds generalizing a with
  | nil => simp [decVal]
  | cons d ds ih =>
    rw [List.foldl_cons, ih, decVal, List.length_cons, Nat.pow_succ, Nat.add_mul]
    rw [Nat.mul_comm 10 a, Nat.mul_assoc, Nat.mul_comm 10 (10 ^ ds.length)]
    omega

theorem digitsVal_eq (ds : Bytes) : digitsVal ds = decVal ds := by
  unfold digitsVal; rw [digitsVal_foldl]; simp

theorem isDigit_iff (c : UInt8) : isDigit c = true ↔ 48 ≤ c ∧ c ≤ 57 := by
  unfold isDigit; simp

end Verif.Utils
