import Verif.Model.Go
/-
Model of Go's `path/filepath` on Unix (`Clean`, `Join`), used by /repo/src/torrent/info/info.go:95,100,218,239,241, and
of `strings.Split(_, "/")` (/repo/src/torrent/filesd/entrybase.go:94).  Purely lexical: no symbolic links.
-/
set_option autoImplicit false

namespace Verif.Path

/-- `strings.Split(s, "/")` -/
def splitSlash : Bytes → List Bytes
  | [] => [[]]
  | c :: cs =>
    if c = 47 then [] :: splitSlash cs
    else match splitSlash cs with
      | [] => [[c]]
      | w :: ws => (c :: w) :: ws

/-- `strings.Join(elems, "/")` -/
def joinSlash : List Bytes → Bytes
  | [] => []
  | [w] => w
  | w :: ws => w ++ 47 :: joinSlash ws

/-- the loop of `filepath.Clean` over the path elements: "" and "." are dropped, ".." removes the last element
or, if there is none to remove, is kept in a relative path and dropped in a rooted one.  The second list is the output in
reverse order. -/
def cleanLoop (rooted : Bool) : List Bytes → List Bytes → List Bytes
  | [], out => out
  | w :: ws, out =>
    if w = [] ∨ w = [46] then cleanLoop rooted ws out
    else if w = [46, 46] then
      match out with
      | [] => if rooted then cleanLoop rooted ws [] else cleanLoop rooted ws [[46, 46]]
      | t :: out' => if t = [46, 46] then cleanLoop rooted ws ([46, 46] :: out) else cleanLoop rooted ws out'
    else cleanLoop rooted ws (w :: out)

/-- does the path start with '/'? -/
def rooted (path : Bytes) : Bool := path.head? = some 47

/-- elements of the cleaned path -/
def cleanElems (path : Bytes) : List Bytes := (cleanLoop (rooted path) (splitSlash path) []).reverse

/-- `filepath.Clean` -/
def Clean (path : Bytes) : Bytes :=
  if rooted path then 47 :: joinSlash (cleanElems path)
  else if cleanElems path = [] then [46] else joinSlash (cleanElems path)

/-- `filepath.Join(a, b)`: empty leading elements are skipped, the rest is joined by '/' and cleaned -/
def Join (a b : Bytes) : Bytes :=
  if a ≠ [] then Clean (a ++ 47 :: b)
  else if b ≠ [] then Clean b
  else []

end Verif.Path
