import Verif.Spec.UrlParse
/-
What redirections mean: RFC 3986, section 5.2.
-/
set_option autoImplicit false

namespace Verif.RedirectSpec
open Verif.UrlSpec

/-- the last segment is removed, with the "/" in front of it if there is one -/
def DropLast (out out' : Bytes) : Prop := (∃ seg, out = out' ++ 47 :: seg ∧ 47 ∉ seg) ∨ 47 ∉ out ∧ out' = []

/-- RFC 3986, 5.2.4 `remove_dot_segments`: `Dots input output result`, where `output` is the output buffer.  The rules are those of the RFC, in their order. -/
inductive Dots : Bytes → Bytes → Bytes → Prop
  /-- nothing is left -/
  | nil (out : Bytes) : Dots [] out out
  /-- A: a prefix "../" or "./" is removed -/
  | a2 (inp out r : Bytes) : Dots inp out r → Dots (46 :: 46 :: 47 :: inp) out r
  | a1 (inp out r : Bytes) : Dots inp out r → Dots (46 :: 47 :: inp) out r
  /-- B: a prefix "/./" or "/." (a complete segment) is replaced by "/" -/
  | b (inp out r : Bytes) : Dots (47 :: inp) out r → Dots (47 :: 46 :: 47 :: inp) out r
  | bEnd (out r : Bytes) : Dots [47] out r → Dots [47, 46] out r
  /-- C: a prefix "/../" or "/.." (a complete segment) is replaced by "/", and the last segment with the "/" in front of it (if any) is removed from the output -/
  | c (inp out out' r : Bytes) : DropLast out out' → Dots (47 :: inp) out' r → Dots (47 :: 46 :: 46 :: 47 :: inp) out r
  | cEnd (out out' r : Bytes) : DropLast out out' → Dots [47] out' r → Dots [47, 46, 46] out r
  /-- D: "." or ".." alone is removed -/
  | d1 (out r : Bytes) : Dots [] out r → Dots [46] out r
  | d2 (out r : Bytes) : Dots [] out r → Dots [46, 46] out r
  /-- E: otherwise the first segment, with the "/" in front of it (if any), up to but not including the next "/", is moved to the output -/
  | e (seg inp out r : Bytes) : 47 ∉ seg → (inp = [] ∨ inp.head? = some 47) → seg ≠ [46] → seg ≠ [46, 46] → Dots inp (out ++ 47 :: seg) r → Dots (47 :: seg ++ inp) out r
  | e' (seg inp out r : Bytes) : 47 ∉ seg → (inp = [] ∨ inp.head? = some 47) → seg ≠ [46] → seg ≠ [46, 46] → seg ≠ [] → Dots inp (out ++ seg) r → Dots (seg ++ inp) out r

/-- the path in front of the removal of dots, for a base with a host: RFC 3986, 5.2.2 and 5.2.3 `merge`.  (For an empty reference the RFC takes the path of the base as it is.) -/
def Merged (base ref m : Bytes) : Prop :=
  ref = [] ∧ m = base ∨ ref.head? = some 47 ∧ m = ref ∨
  ref ≠ [] ∧ ref.head? ≠ some 47 ∧ (base = [] ∧ m = 47 :: ref ∨ ∃ a b, base = a ++ 47 :: b ∧ 47 ∉ b ∧ m = a ++ 47 :: ref)

/-- one segment after the other, as Go does it: "." stays (but counts as an empty segment if it is the first), ".." goes up -/
def walkStep (at_ : List Bytes) (seg : Bytes) : List Bytes :=
  if seg = [46] then (if at_ = [] then [[]] else at_) else if seg = [46, 46] then at_.dropLast else at_ ++ [seg]

/-- where a path leads to -/
def walk (p : Bytes) : List Bytes := (Query.splitOn 47 p).foldl walkStep []

/-- how that is written: each segment behind a slash, a slash behind the last if the path ends with "." or "..", and of two slashes in front only one -/
def walked (p : Bytes) : Bytes :=
  let r := (if walk p = [] then [47] else ((walk p).map (47 :: ·)).flatten) ++
    (if (Query.splitOn 47 p).getLast? = some [46] ∨ (Query.splitOn 47 p).getLast? = some [46, 46] then [47] else [])
  if r.take 2 = [47, 47] then r.drop 1 else r

/-- `Resolved base ref t`: the path of a request.  For paths without empty segments it is that of the RFC.  For others it is what `walked` says; if the reference is relative to the root, there
need not be a slash in front of it. -/
def Resolved (base ref t : Bytes) : Prop :=
  ∃ m, Merged base ref m ∧ (m = [] ∧ t = [47] ∨ m ≠ [] ∧ t.head? = some 47 ∧ (¬ [47, 47] <:+: m → Dots m [] t) ∧
    (t = walked m ∨ (base = [] ∨ base = [47]) ∧ m = 47 :: ref ∧ t = walked ref))

/-- how the path of a reference is written in a request: as it is written in the reference, if that is possible (and if it is not the path `*`) -/
def Written (ps : Parts) (r : Bytes) : Prop := PathChars r ∧ Text r ps.path ∧ (PathChars ps.pathText → ps.path ≠ [42] → r = ps.pathText)

/-- the reference has a `?` with nothing behind it (but perhaps a fragment) -/
def Mark (loc : Bytes) : Prop := ∃ a f, loc = a ++ 63 :: f ∧ 35 ∉ a ∧ 63 ∉ a ∧ (f = [] ∨ f.head? = some 35)

/-- the query of a request -/
def Suffix (loc query s : Bytes) : Prop := query ≠ [] ∧ s = 63 :: query ∨ query = [] ∧ (Mark loc ∧ s = [63] ∨ ¬ Mark loc ∧ s = [])

/-- `Next tls host target loc tls' host' target'`: a request (over TLS or not, to this host, with this target) that is redirected to `loc` is followed by this request.  RFC 3986, 5.2.2. -/
def Next (tls : Bool) (host target loc : Bytes) (tls' : Bool) (host' target' : Bytes) : Prop :=
  ∃ ps f r t s, Means loc ps f ∧ Written ps r ∧ target' = t ++ s ∧
    ((ps.scheme ≠ [] ∨ ps.host ≠ [] ∨ ps.user ≠ none) ∧ ps.host ≠ [] ∧ host' = ps.host ∧
        (ps.scheme = [] ∧ tls' = tls ∨ ps.scheme = ascii "http" ∧ tls' = false ∨ ps.scheme = ascii "https" ∧ tls' = true) ∧ Resolved [] r t ∧ Suffix loc ps.query s ∨
      ps.scheme = [] ∧ ps.host = [] ∧ ps.user = none ∧ host' = host ∧ tls' = tls ∧
        ∃ b q, target = b ++ q ∧ 63 ∉ b ∧ (q = [] ∨ q.head? = some 63) ∧ Resolved b r t ∧ Suffix loc (if ps.path = [] ∧ ps.query = [] then q.drop 1 else ps.query) s)

end Verif.RedirectSpec
