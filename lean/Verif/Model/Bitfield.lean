import Verif.Model.Go
/-
Model of /repo/src/bf/bitfield.go.
-/
set_option autoImplicit false

namespace Verif.Bf

/-- bitfield.go:12-18.  `data` is the slice `data5[5:]` (same backing array), hence derived.
`int64` counters are unbounded integers here: they are bounded by the size of a slice in memory. -/
structure Bitfield where
  data5 : Bytes
  nbytes : Int
  nbits : Int
  nset : Int
  deriving DecidableEq, Repr

namespace Bitfield

/-- the `data` field, bitfield.go:14, 30, 56 -/
def data (b : Bitfield) : Bytes := b.data5.drop 5

end Bitfield

/-- bitfield.go:20-38 `NewBitfield`: `make` panics for a negative length, `data5[5:]` for a short one -/
def NewBitfield (nbits : Int) : Res Bitfield :=
  let nbytes := nbits.tdiv 8 + (if nbits.tmod 8 ≠ 0 then 1 else 0)
  if 5 + nbytes < 0 then .panic
  else
    let data5 : Bytes := List.replicate (5 + nbytes).toNat 0
    if data5.length < 5 then .panic
    else .ok { data5 := data5, nbytes := nbytes, nbits := nbits, nset := 0 }

/-- `(b & (uint8(128) >> j)) > 0` for `0 ≤ j < 8`: bitfield.go:86-87, 96-97, 113-116, 122-123 -/
def bitOf (b : UInt8) (j : Nat) : Bool := (b &&& ((128 : UInt8) >>> UInt8.ofNat j)) > 0

/-- number of set bits among the first `k` bits of a byte: the inner loop bitfield.go:84-89 (k = 8) and
the loop over the last bits bitfield.go:95-100 -/
def countByte (b : UInt8) (k : Nat) : Int := ((List.range k).filter fun j => bitOf b j).length

/-- bitfield.go:69-103 `calcNset` (returns the value stored into `nset`) -/
def calcNset (data : Bytes) (nbits : Int) : Res Int :=
  let rem := nbits.tmod 8
  let last : Int := (data.length : Int) - 1 + (if rem = 0 then 1 else 0)
  let full : Int := ((data.take last.toNat).map fun b => countByte b 8).sum
  if 0 < rem then
    -- bf.data[last]
    if last < 0 then .panic
    else match data[last.toNat]? with
      | none => .panic
      | some b => .ok (full + countByte b rem.toNat)
  else .ok full

/-- bitfield.go:43-65 `FromBytes` -/
def FromBytes (bytes5 : Bytes) (nbits : Int) : Res Bitfield :=
  let lenbytes : Int := bytes5.length
  if lenbytes ≤ 5 then .err .other
  else if nbits < (lenbytes - 5 - 1) * 8 + 1 ∨ nbits > (lenbytes - 5) * 8 then .err .other
  else do
    let nset ← calcNset (bytes5.drop 5) nbits
    .ok { data5 := bytes5, nbytes := lenbytes - 5, nbits := nbits, nset := nset }

namespace Bitfield

/-- bitfield.go:105-110 `Fill`: overwrites the whole of `data5`, the five header bytes included -/
def Fill (b : Bitfield) : Bitfield :=
  { b with data5 := b.data5.map (fun _ => 255), nset := b.nbits }

/-- bitfield.go:112-119 `Get`.  A negative shift count and an index out of range panic. -/
def Get (b : Bitfield) (idx : Int) : Res Bool :=
  let maj := idx.tdiv 8
  let min := idx.tmod 8
  if min < 0 then .panic
  else if maj < 0 then .panic
  else match b.data[maj.toNat]? with
    | none => .panic
    | some e => .ok (bitOf e min.toNat)

/-- bitfield.go:121-136 `Set` -/
def Set (b : Bitfield) (idx : Int) (val : Bool) : Res Bitfield :=
  let maj := idx.tdiv 8
  let min := idx.tmod 8
  if min < 0 then .panic
  else if maj < 0 then .panic
  else match b.data[maj.toNat]? with
    | none => .panic
    | some e =>
      let mask := (128 : UInt8) >>> UInt8.ofNat min.toNat
      if !(bitOf e min.toNat) && val then
        .ok { b with data5 := b.data5.set (5 + maj.toNat) (e ||| mask), nset := b.nset + 1 }
      else if bitOf e min.toNat && !val then
        .ok { b with data5 := b.data5.set (5 + maj.toNat) (e &&& ~~~mask), nset := b.nset - 1 }
      else .ok b

/-- bitfield.go:148-150 `Complete` -/
def Complete (b : Bitfield) : Bool := b.nset = b.nbits

/-- bitfield.go:164-173 `SetNbits` -/
def SetNbits (b : Bitfield) (nbits : Int) : Res Bitfield :=
  if nbits < (b.nbytes - 1) * 8 ∨ nbits > b.nbytes * 8 then .panic
  else do
    let nset ← calcNset b.data nbits
    .ok { b with nbits := nbits, nset := nset }

end Bitfield
end Verif.Bf
