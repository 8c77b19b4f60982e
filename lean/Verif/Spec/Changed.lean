import Verif.Spec.Layout
/-
Specification for C97: the files of a torrent after other programs have changed them.
-/
set_option autoImplicit false

namespace Verif.Changed
open Verif.Layout

/-- of each file, every byte that belongs to piece `p` of the torrent is there; `lens` are the lengths that the files should have and `ds` what
is in them now -/
def Present (lens : List Nat) (pieceLen p : Nat) (ds : List Bytes) : Prop :=
  ∀ (k x : Nat) (d : Bytes), ds[k]? = some d → startPos lens k ≤ x → x < startPos lens (k + 1) → x / pieceLen = p → x - startPos lens k < d.length

/-- a file as the torrent sees it: cut, or filled up with zeros -/
def fit (n : Nat) (d : Bytes) : Bytes := d.take n ++ List.replicate (n - d.length) 0

/-- all files as the torrent sees them -/
def fitAll (lens : List Nat) (ds : List Bytes) : List Bytes := List.zipWith fit lens ds

/-- the contents of the files have been replaced by `ds` -/
def Replaced (fs : Bytes → Option Bytes) (paths : List Bytes) (ds : List Bytes) : Prop :=
  ds.length = paths.length ∧ ∀ (k : Nat) (p d : Bytes), paths[k]? = some p → ds[k]? = some d → fs p = some d

end Verif.Changed
