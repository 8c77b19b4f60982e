import Verif.Model.Go
/-
Specification: which numbers in the metadata of a single file get through.  `pl` is the piece length, `n` the length of the file,
`m` the number of hashes.
-/
set_option autoImplicit false

namespace Verif.Numbers

/-- the metadata of a single file with these numbers is accepted -/
inductive Taken (pl n : Int) (m : Nat) : Prop
  /-- what is meant to be accepted, and more hashes than needed -/
  | fits : 0 < pl → 0 ≤ n → n ≤ m * pl → Taken pl n m
  /-- a negative length of less than a piece -/
  | short : 0 < pl → n < 0 → 1 - n < pl → 0 < m → Taken pl n m
  /-- a negative piece length, and a file no longer than its amount -/
  | onePiece : pl < 0 → 0 < n → n ≤ -pl → 0 < m → Taken pl n m
  /-- both negative (or an empty file): enough pieces of negative length, and one byte to spare -/
  | backwards : pl < 0 → n ≤ 0 → 1 - n < m * -pl → Taken pl n m
  /-- an empty file without hashes -/
  | nothing : pl < 0 → n = 0 → m = 0 → Taken pl n m

/-- the metadata of a single file with these numbers crashes the program -/
inductive Crashes (pl n : Int) (m : Nat) : Prop
  /-- division by zero -/
  | zero : pl = 0 → Crashes pl n m
  /-- hashes for a part of the file -/
  | few : 0 < pl → 0 < m → m * pl < n → Crashes pl n m
  /-- both negative (or an empty file): too few pieces of negative length -/
  | backwards : pl < 0 → n ≤ 0 → 0 < m → m * -pl ≤ 1 - n → Crashes pl n m

end Verif.Numbers
