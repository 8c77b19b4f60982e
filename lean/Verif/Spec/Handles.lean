import Verif.Model.Handles
/-
Notions for the claims about open files: what other programs see under a name, and which answers are compared.
-/
set_option autoImplicit false

namespace Verif.HandlesSpec
open Verif.Handles Verif.FS

/-- what another program finds under a name -/
def file (s : St) (path : Bytes) : Option Bytes := (s.dir path).map s.data

def isMove : Op → Bool
  | .move _ _ _ => true
  | _ => false

def isOcat : Op → Bool
  | .ocat _ _ _ => true
  | _ => false

/-- the answers of all calls but those of `Move` -/
def answers : List Op → List (Res Bytes) → List (Res Bytes)
  | op :: ops, r :: rs => if isMove op then answers ops rs else r :: answers ops rs
  | _, _ => []

/-- a handle that is open -/
def Open (s : St) (h : Nat) : Prop := ∃ f, s.handles[h]? = some f ∧ f.isOpen = true

/-- every `CloseAll` goes through all entries of the map, each once, in some order -/
def Proper : St → List Op → Prop
  | _, [] => True
  | s, op :: ops => (∀ o, op = .closeAll o → o.Perm (s.lfps.map Prod.snd)) ∧ Proper (op.run s).1 ops

/-- a state that a `FileIO` can be in: made by `NewFileIO` on some disk, then any calls -/
def Reached (s : St) : Prop := ∃ dir data used ops, (∀ p i, dir p = some i → i < used) ∧ s = (runAll (NewFileIO dir data used) ops).1

/-- the paths of the `FileIO` with what can be read and written under them -/
def view (s : St) : FS.State := fun p => match s.handle p with
  | some f => if f.isOpen then some (s.data f.inode) else none
  | none => none

/-- all files are open and no two paths lead to the same file -/
structure Ready (s : St) : Prop where
  isOpen : ∀ p h, s.lookup p = some h → Open s h
  apart : ∀ p q f g, s.handle p = some f → s.handle q = some g → p ≠ q → f.inode ≠ g.inode

end Verif.HandlesSpec
