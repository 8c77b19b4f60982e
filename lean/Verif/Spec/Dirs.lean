import Verif.Model.Go
/-
Where a path leads (Unix, without symbolic links): independent of the model of path/filepath.
-/
set_option autoImplicit false

namespace Verif.Dirs

/-- the components of a path: the strings between the slashes -/
def components (p : Bytes) : List Bytes :=
  p.foldr (fun c acc => if c = 47 then [] :: acc else (c :: acc.headD []) :: acc.tail) [[]]

/-- one step from a directory (a list of names starting at the root) -/
def step (dir : List Bytes) (w : Bytes) : List Bytes :=
  if w = [] ∨ w = ascii "." then dir
  else if w = ascii ".." then dir.dropLast   -- the parent of the root is the root
  else dir ++ [w]

/-- several steps -/
def walk (dir : List Bytes) (ws : List Bytes) : List Bytes := ws.foldl step dir

/-- the place a path leads to for a process in directory `cwd` -/
def resolve (cwd : List Bytes) (p : Bytes) : List Bytes :=
  walk (if p.head? = some 47 then [] else cwd) (components p)

/-- the steps never leave the starting directory; `depth` is the current depth below it -/
def Stays : Nat → List Bytes → Prop
  | _, [] => True
  | depth, w :: ws =>
    if w = [] ∨ w = ascii "." then Stays depth ws
    else if w = ascii ".." then 0 < depth ∧ Stays (depth - 1) ws
    else Stays (depth + 1) ws

end Verif.Dirs
