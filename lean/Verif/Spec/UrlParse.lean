import Verif.Spec.Query
/-
Specification of what a URL reference means (RFC 3986 as read by Go): which texts are URLs, and the parts they consist of.
-/
set_option autoImplicit false

namespace Verif.UrlSpec
open Verif.Query

/-- percent-decoding: `Decodes byte esc s t`, the text `s` stands for the bytes `t`.  Bytes that satisfy `byte` can stand for themselves (except `%`), bytes that
satisfy `esc` can be written with `%` and two hexadecimal digits. -/
inductive Decodes (byte esc : UInt8 → Prop) : Bytes → Bytes → Prop
  | nil : Decodes byte esc [] []
  | byte (c : UInt8) (s t : Bytes) : c ≠ 37 → byte c → Decodes byte esc s t → Decodes byte esc (c :: s) (c :: t)
  | esc (h l x y : UInt8) (s t : Bytes) : hexVal h = some x → hexVal l = some y → esc (x * 16 + y) → Decodes byte esc s t →
      Decodes byte esc (37 :: h :: l :: s) ((x * 16 + y) :: t)

/-- where everything is allowed -/
def Text : Bytes → Bytes → Prop := Decodes (fun _ => True) (fun _ => True)

/-- ASCII characters of a host -/
def HostChar (c : UInt8) : Prop := c ∈ ascii "ABCDEFGHIJKLMNOPQRSTUVWXYZabcdefghijklmnopqrstuvwxyz0123456789-._~!$&'()*+,;=:[]<>\""

/-- a host: escapes are for bytes that are not ASCII, and for `%` -/
def HostText : Bytes → Bytes → Prop := Decodes (fun c => HostChar c ∨ 128 ≤ c) (fun v => 128 ≤ v ∨ v = 37)

/-- the zone of an IPv6 address: escapes are for what is allowed without them, for blanks and for `%` -/
def ZoneText : Bytes → Bytes → Prop := Decodes (fun c => HostChar c ∨ 128 ≤ c) (fun v => HostChar v ∨ v = 32 ∨ v = 37)

/-- decimal digits -/
def Digits (s : Bytes) : Prop := ∀ d ∈ s, d ∈ ascii "0123456789"

/-- nothing, or a colon and digits (perhaps none) -/
def Port (s : Bytes) : Prop := s = [] ∨ ∃ ds, s = 58 :: ds ∧ Digits ds

/-- `Host h t`: the text `h` is the host (with the port) `t` -/
inductive Host : Bytes → Bytes → Prop
  /-- a name: what follows the last colon is digits -/
  | name (h t : Bytes) : h.head? ≠ some 91 → (∀ a b, h = a ++ 58 :: b → 58 ∉ b → Digits b) → HostText h t → Host h t
  /-- an address in brackets -/
  | literal (a port t : Bytes) : ¬ [37, 50, 53] <:+: 91 :: a → Port port → HostText (91 :: a ++ 93 :: port) t → Host (91 :: a ++ 93 :: port) t
  /-- an address in brackets with a zone, which begins at the first `%25` -/
  | zone (a z port t t' : Bytes) : ¬ [37, 50, 53] <:+: 91 :: a → Port port → HostText (91 :: a) t → ZoneText (37 :: 50 :: 53 :: z) t' →
      Host (91 :: a ++ (37 :: 50 :: 53 :: z) ++ 93 :: port) (t ++ t' ++ 93 :: port)

/-- characters of a user name and a password -/
def UserChars (s : Bytes) : Prop := ∀ c ∈ s, c ∈ ascii "ABCDEFGHIJKLMNOPQRSTUVWXYZabcdefghijklmnopqrstuvwxyz0123456789-._:~!$&'()*+,;=%@"

/-- user name and password -/
inductive Userinfo : Bytes → Bytes × Option Bytes → Prop
  | name (s t : Bytes) : 58 ∉ s → UserChars s → Text s t → Userinfo s (t, none)
  | password (s p t q : Bytes) : 58 ∉ s → UserChars s → UserChars p → Text s t → Text p q → Userinfo (s ++ 58 :: p) (t, some q)

/-- what is between `//` and the next `/` -/
inductive Authority : Bytes → Option (Bytes × Option Bytes) → Bytes → Prop
  | host (h t : Bytes) : 64 ∉ h → Host h t → Authority h none t
  | user (ui h t : Bytes) (u : Bytes × Option Bytes) : 64 ∉ h → Userinfo ui u → Host h t → Authority (ui ++ 64 :: h) (some u) t

/-- what is between the scheme (if there is one: `abs`) and the query: opaque text, or user, host and the text of the path -/
inductive Rest (abs : Bool) : Bytes → Bytes → Option (Bytes × Option Bytes) → Bytes → Bytes → Prop
  | opaq (h : Bytes) : abs = true → h.head? ≠ some 47 → Rest abs h h none [] []
  /-- the first segment has no colon -/
  | relative (h : Bytes) : abs = false → h.head? ≠ some 47 → (∀ a b, h = a ++ 58 :: b → 47 ∈ a) → Rest abs h [] none [] h
  | rooted (h : Bytes) : (h = [] ∨ h.head? ≠ some 47) → Rest abs (47 :: h) [] none [] (47 :: h)
  | slashes (h : Bytes) : abs = false → Rest abs (47 :: 47 :: 47 :: h) [] none [] (47 :: 47 :: 47 :: h)
  | authority (a p : Bytes) (user : Option (Bytes × Option Bytes)) (host : Bytes) : 47 ∉ a → (p = [] ∨ p.head? = some 47) → (abs = false → a = [] → p = []) →
      Authority a user host → Rest abs (47 :: 47 :: a ++ p) [] user host p

/-- a scheme: a letter, then letters, digits, `+`, `-` and `.` -/
def Scheme (s : Bytes) : Prop :=
  ∃ c cs, s = c :: cs ∧ c ∈ ascii "ABCDEFGHIJKLMNOPQRSTUVWXYZabcdefghijklmnopqrstuvwxyz" ∧
    ∀ d ∈ cs, d ∈ ascii "ABCDEFGHIJKLMNOPQRSTUVWXYZabcdefghijklmnopqrstuvwxyz0123456789+-."

/-- upper case letters are replaced -/
def lowerCase (s : Bytes) : Bytes := s.map fun c => if c ∈ ascii "ABCDEFGHIJKLMNOPQRSTUVWXYZ" then c + 32 else c

/-- the parts of a URL reference; `pathText` is the path as it is written, `path` what it stands for -/
structure Parts where
  scheme : Bytes
  opaq : Bytes
  user : Option (Bytes × Option Bytes)
  host : Bytes
  path : Bytes
  pathText : Bytes
  query : Bytes

/-- nothing, or a separator and some text -/
def Tail (sep : UInt8) (s t : Bytes) : Prop := s = [] ∧ t = [] ∨ s = sep :: t

/-- a URL reference without a fragment -/
inductive Reference : Bytes → Parts → Prop
  | absolute (scheme h q opaq : Bytes) (user : Option (Bytes × Option Bytes)) (host p path query : Bytes) : Scheme scheme → 63 ∉ h → Tail 63 q query →
      Rest true h opaq user host p → Text p path → Reference (scheme ++ 58 :: h ++ q) ⟨lowerCase scheme, opaq, user, host, path, p, query⟩
  | relative (h q opaq : Bytes) (user : Option (Bytes × Option Bytes)) (host p path query : Bytes) : 63 ∉ h → Tail 63 q query →
      Rest false h opaq user host p → Text p path → Reference (h ++ q) ⟨[], opaq, user, host, path, p, query⟩

/-- `Means url parts fragment`: a URL reference, with its parts and its fragment -/
def Means (url : Bytes) (parts : Parts) (fragment : Bytes) : Prop :=
  ∃ u f t, url = u ++ f ∧ 35 ∉ u ∧ (∀ c ∈ u, 32 ≤ c ∧ c ≠ 127) ∧ Tail 35 f t ∧ Reference u parts ∧ Text t fragment

/-- a URL reference -/
def IsURL (url : Bytes) : Prop := ∃ parts fragment, Means url parts fragment

/-- a parameter in a query that Go's `URL.Query` finds: no `;`, not empty, and both sides of the first `=` (if there is one) can be decoded -/
def Param (piece : Bytes) (p : Bytes × Bytes) : Prop :=
  piece ≠ [] ∧ 59 ∉ piece ∧ ∃ k r v, piece = k ++ r ∧ 61 ∉ k ∧ Tail 61 r v ∧ Query.unescape k = some p.1 ∧ Query.unescape v = some p.2

/-- the characters that a path can be written with -/
def PathChars (s : Bytes) : Prop :=
  ∀ c ∈ s, c ∈ ascii "ABCDEFGHIJKLMNOPQRSTUVWXYZabcdefghijklmnopqrstuvwxyz0123456789-._~!$&'()*+,;=:@[]%/"

/-- a host with its port, without a colon at the end -/
def Trimmed (host h : Bytes) : Prop := host = h ++ [58] ∨ host = h ∧ h.getLast? ≠ some 58

end Verif.UrlSpec
