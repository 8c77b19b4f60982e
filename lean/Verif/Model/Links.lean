import Verif.Model.FS
import Verif.Spec.Dirs
/-
The file system with symbolic links: what the programs of Model/FS.lean (futils.go:13-101) do if the names on the way to a file may be links.  The program makes no links, follows all of
them and never looks whether a name is one (there is no call of `Lstat`, `Readlink` or `EvalSymlinks` in /repo).

Linux: path_resolution(7), open(2), mkdir(2); `os.MkdirAll` of Go 1.18.  Names of any length; no hard links, no mount points; nothing is deleted, and no other process changes anything.
-/
set_option autoImplicit false

namespace Verif.Links
open Verif.FS Verif.Dirs

/-- a place: the names on the way from the root -/
abbrev Place := List Bytes

/-- what is at a place -/
inductive Node where
  | dir
  | file (content : Bytes)
  | link (target : Bytes)
  deriving DecidableEq

abbrev Tree := Place → Option Node

def Tree.set (t : Tree) (q : Place) (n : Node) : Tree := fun x => if x = q then some n else t x

/-- path_resolution(7), along the names, from a directory; `jump` is what becomes of the names behind a link.  Only the last name may be missing. -/
def along (t : Tree) (jump : Place → List Bytes → Option Place) : Place → List Bytes → Option Place
  | cur, [] => some cur
  | cur, name :: rest =>
    if name = [] ∨ name = ascii "." then along t jump cur rest
    else if name = ascii ".." then along t jump cur.dropLast rest
    else match t (cur ++ [name]) with
      | some .dir => along t jump (cur ++ [name]) rest
      | some (.link target) => jump (if target.head? = some 47 then [] else cur) (components target ++ rest)
      | _ => if rest = [] then some (cur ++ [name]) else none

/-- path_resolution(7): where the names lead, from a directory; at most `links` links are followed -/
def follow (t : Tree) : Nat → Place → List Bytes → Option Place
  | 0 => along t fun _ _ => none
  | links + 1 => along t (follow t links)

/-- where a path begins -/
def start (cwd : Place) (path : Bytes) : Place := if path.head? = some 47 then [] else cwd

/-- the place that a path leads to, with up to 40 links (Linux: `MAXSYMLINKS`) -/
def real (t : Tree) (cwd : Place) (path : Bytes) : Option Place := follow t 40 (start cwd path) (components path)

/-- the contents of the file that a path leads to -/
def content (t : Tree) (cwd : Place) (path : Bytes) : Option Bytes :=
  match real t cwd path with
  | none => none
  | some q => match t q with
    | some (.file c) => some c
    | _ => none

/-- `os.MkdirAll(filepath.Dir(path))`, futils.go:17, from a directory: `done` are the names so far, `todo` the others.  Each directory is there (perhaps behind links), or is made, or the call
fails.  `mkdir` does not make a directory behind a link that leads nowhere. -/
inductive Mkdirs (from_ : Place) : List Bytes → List Bytes → Tree → Bool → Tree → Prop
  | done (ds : List Bytes) (t : Tree) : Mkdirs from_ ds [] t true t
  | there (ds : List Bytes) (x : Bytes) (todo : List Bytes) (t t' : Tree) (b : Bool) (q : Place) :
      follow t 40 from_ (ds ++ [x]) = some q → t q = some .dir → Mkdirs from_ (ds ++ [x]) todo t b t' → Mkdirs from_ ds (x :: todo) t b t'
  | make (ds : List Bytes) (x : Bytes) (todo : List Bytes) (t t' : Tree) (b : Bool) (q : Place) :
      follow t 40 from_ ds = some q → t q = some .dir → ¬ (x = [] ∨ x = ascii "." ∨ x = ascii "..") → t (q ++ [x]) = none →
      Mkdirs from_ (ds ++ [x]) todo (t.set (q ++ [x]) .dir) b t' → Mkdirs from_ ds (x :: todo) t b t'
  | fail (ds : List Bytes) (x : Bytes) (todo : List Bytes) (t : Tree) : Mkdirs from_ ds (x :: todo) t false t

/-- `LinkExec sp cwd prog t o t'`: as `FS.Exec`, with links.  `O_CREATE` makes the file that a link leads to. -/
inductive LinkExec (sp : Bool) (cwd : Place) : Prog → Tree → Outcome → Tree → Prop
  | ret (r : Res Unit) (t : Tree) : LinkExec sp cwd (.ret r) t (.done r) t
  | crash (p : Prog) (t : Tree) : LinkExec sp cwd p t .crashed t
  | open_ok (path : Bytes) (k : Bool → Prog) (t t' : Tree) (o : Outcome) (c : Bytes) :
      content t cwd path = some c → LinkExec sp cwd (k true) t o t' → LinkExec sp cwd (.openRW path k) t o t'
  | open_fail (path : Bytes) (k : Bool → Prog) (t t' : Tree) (o : Outcome) :
      (content t cwd path = none ∨ sp = true) → LinkExec sp cwd (k false) t o t' → LinkExec sp cwd (.openRW path k) t o t'
  | mkdir (path : Bytes) (k : Bool → Prog) (t t' t'' : Tree) (o : Outcome) (b : Bool) :
      Mkdirs (start cwd path) [] (components path).dropLast t b t' → LinkExec sp cwd (k b) t' o t'' → LinkExec sp cwd (.mkdirAll path k) t o t''
  | trunc_ok (path : Bytes) (k : Bool → Prog) (t t' : Tree) (o : Outcome) (q : Place) :
      real t cwd path = some q → (t q = none ∨ ∃ c, t q = some (.file c)) →
      LinkExec sp cwd (k true) (t.set q (.file [])) o t' → LinkExec sp cwd (.openTrunc path k) t o t'
  | trunc_fail (path : Bytes) (k : Bool → Prog) (t t' : Tree) (o : Outcome) :
      LinkExec sp cwd (k false) t o t' → LinkExec sp cwd (.openTrunc path k) t o t'
  | size_ok (path : Bytes) (k : Option Nat → Prog) (t t' : Tree) (o : Outcome) (c : Bytes) :
      content t cwd path = some c → LinkExec sp cwd (k (some c.length)) t o t' → LinkExec sp cwd (.size path k) t o t'
  | size_fail (path : Bytes) (k : Option Nat → Prog) (t t' : Tree) (o : Outcome) :
      LinkExec sp cwd (k none) t o t' → LinkExec sp cwd (.size path k) t o t'
  | truncate_ok (path : Bytes) (n : Nat) (k : Bool → Prog) (t t' : Tree) (o : Outcome) (q : Place) (c : Bytes) :
      real t cwd path = some q → t q = some (.file c) → LinkExec sp cwd (k true) (t.set q (.file (c.take n))) o t' → LinkExec sp cwd (.truncate path n k) t o t'
  | truncate_fail (path : Bytes) (n : Int) (k : Bool → Prog) (t t' : Tree) (o : Outcome) :
      LinkExec sp cwd (k false) t o t' → LinkExec sp cwd (.truncate path n k) t o t'
  | write_ok (path : Bytes) (pos : Nat) (data : Bytes) (k : Bool → Prog) (t t' : Tree) (o : Outcome) (q : Place) (c : Bytes) :
      real t cwd path = some q → t q = some (.file c) →
      LinkExec sp cwd (k true) (t.set q (.file (writeAt c pos data))) o t' → LinkExec sp cwd (.write path pos data k) t o t'
  | write_fail (path : Bytes) (pos : Nat) (data : Bytes) (k : Bool → Prog) (t t' : Tree) (o : Outcome) (q : Place) (c : Bytes) (j : Nat) :
      real t cwd path = some q → t q = some (.file c) →
      LinkExec sp cwd (k false) (t.set q (.file (writeAt c pos (data.take j)))) o t' → LinkExec sp cwd (.write path pos data k) t o t'
  | write_crash (path : Bytes) (pos : Nat) (data : Bytes) (k : Bool → Prog) (t : Tree) (q : Place) (c : Bytes) (j : Nat) :
      real t cwd path = some q → t q = some (.file c) → LinkExec sp cwd (.write path pos data k) t .crashed (t.set q (.file (writeAt c pos (data.take j))))

end Verif.Links
