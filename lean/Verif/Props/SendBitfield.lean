import Verif.Model.P2P
/-
C20, the sender's side: `Encode` of a bitfield message writes into the client's own bitfield.
-/
set_option autoImplicit false

namespace Verif.P2P
open Verif.Bf

/-- **C20**, the sender: encoding the client's own bitfield writes only into the five bytes in front of the bits, which then hold the head of the
message; number of bits, counts and every bit stay as they are, what is sent ends with the bits, and the next message is the same. -/
theorem C20_sender (bf : Bitfield) (h5 : 5 ≤ bf.data5.length) :
    ∃ bs bf', (NewMsgBitfield bf).Encode = .ok bs ∧ bitfieldAfterEncode (NewMsgBitfield bf).Length bf = .ok bf' ∧
      bf'.data5 = bs ∧ bs.drop 5 = bf.data5.drop 5 ∧ bs.take 5 = putU32 (UInt32.ofInt (1 + bf.nbytes)) ++ [5] ∧ bf'.data = bf.data ∧
      bf'.nbits = bf.nbits ∧ bf'.nbytes = bf.nbytes ∧ bf'.nset = bf.nset ∧ (∀ i, bf'.Get i = bf.Get i) ∧ bf'.Complete = bf.Complete ∧
      (NewMsgBitfield bf').Encode = .ok bs := by
  have hl : ¬ bf.data5.length < 5 := by omega
  have e1 : (NewMsgBitfield bf).Encode = .ok (putU32 (UInt32.ofInt (1 + bf.nbytes)) ++ [5] ++ bf.data5.drop 5) := by
    simp only [NewMsgBitfield, Msg.Encode, Msg.fillBase, hl, ↓reduceIte, Msg.Length, Msg.Mtype]
  have hp : (putU32 (UInt32.ofInt (1 + bf.nbytes)) ++ [(5 : UInt8)]).length = 5 := rfl
  refine ⟨_, { bf with data5 := putU32 (UInt32.ofInt (1 + bf.nbytes)) ++ [5] ++ bf.data5.drop 5 }, e1, ?_, rfl, ?_, ?_, ?_, rfl, rfl, rfl, ?_, rfl, ?_⟩
  · have : Msg.bitfield (NewMsgBitfield bf).Length bf = NewMsgBitfield bf := rfl
    unfold bitfieldAfterEncode
    rw [this, e1]
    rfl
  · exact List.drop_left' hp
  · exact List.take_left' hp
  · unfold Bitfield.data; exact List.drop_left' hp
  · intro i
    unfold Bitfield.Get Bitfield.data
    rw [show List.drop 5 (putU32 (UInt32.ofInt (1 + bf.nbytes)) ++ [5] ++ bf.data5.drop 5) = bf.data5.drop 5 from List.drop_left' hp]
  · have hl' : ¬ (putU32 (UInt32.ofInt (1 + bf.nbytes)) ++ [5] ++ bf.data5.drop 5).length < 5 := by
      rw [List.length_append, hp]; omega
    simp only [NewMsgBitfield, Msg.Encode, Msg.fillBase, hl', ↓reduceIte, Msg.Length, Msg.Mtype]
    rw [List.drop_left' hp]

/-- the bitfield of nine bits with the first and the last one set -/
example : ∃ bs bf', (NewMsgBitfield ⟨[0, 0, 0, 0, 0, 128, 128], 2, 9, 2⟩).Encode = .ok bs ∧
    bitfieldAfterEncode 3 ⟨[0, 0, 0, 0, 0, 128, 128], 2, 9, 2⟩ = .ok bf' ∧ bs = [0, 0, 0, 3, 5, 128, 128] ∧ bf'.data5 = bs :=
  ⟨_, _, rfl, rfl, rfl, rfl⟩

end Verif.P2P
