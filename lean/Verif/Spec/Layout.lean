import Verif.Model.Go
/-
Specification of the piece space of a torrent: the files are concatenated, and piece `p` is the range of bytes
`[p * pieceLen, (p + 1) * pieceLen)` of the concatenation, cut at the end.
-/
set_option autoImplicit false

namespace Verif.Layout

/-- position of the first byte of file `k` in the concatenation -/
def startPos (lens : List Nat) (k : Nat) : Nat := (lens.take k).sum

/-- total length -/
def total (lens : List Nat) : Nat := lens.sum

/-- number of pieces needed for `n` bytes -/
def needed (n pieceLen : Nat) : Nat := (n + pieceLen - 1) / pieceLen

/-- the bytes of piece `p` of a byte string -/
def pieceOf (stream : Bytes) (pieceLen p : Nat) : Bytes := (stream.drop (p * pieceLen)).take pieceLen

/-- the hashes of all pieces of a byte string, one after the other -/
def pieceHashes (H : Bytes → Bytes) (stream : Bytes) (pieceLen : Nat) : Bytes :=
  ((List.range (needed stream.length pieceLen)).map fun i => H (pieceOf stream pieceLen i)).flatten

/-- `bs[from : from + n]` -/
def range (bs : Bytes) (start n : Nat) : Bytes := (bs.drop start).take n

/-- file `k` owns at least one byte of piece `p` -/
def Owns (lens : List Nat) (pieceLen k p : Nat) : Prop :=
  ∃ b, startPos lens k ≤ b ∧ b < startPos lens (k + 1) ∧ b / pieceLen = p

end Verif.Layout
