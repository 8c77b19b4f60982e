import Verif.Model.Dial
import Verif.Props.Peer
import Verif.Props.Tracker
import Verif.Props.Handshake
/-
Property C79: the addresses of the peers that the tracker names can be dialled.
-/
set_option autoImplicit false

namespace Verif.Dial
open Verif.Bencode Verif.Bencode.Spec Verif.Peer

/-- an IPv4 address in dotted notation -/
def dotted : UInt8 × UInt8 × UInt8 × UInt8 → Bytes
  | (a, b, c, d) => decNat a.toNat ++ ascii "." ++ decNat b.toNat ++ ascii "." ++ decNat c.toNat ++ ascii "." ++ decNat d.toNat

/-- what is known of the text of an IPv6 address: it contains a colon and no brackets -/
def SixText (t : Bytes) : Prop := (58 : UInt8) ∈ t ∧ (91 : UInt8) ∉ t ∧ (93 : UInt8) ∉ t

theorem lastColon_none {s : Bytes} (h : (58 : UInt8) ∉ s) : lastColon s = none := by
  induction s with
  | nil => rfl
  | cons c cs ih =>
    simp only [List.mem_cons, not_or] at h
    rw [lastColon, ih h.2]
    simp only
    rw [if_neg (Ne.symm h.1)]

theorem lastColon_append (a b : Bytes) (h : (58 : UInt8) ∉ b) : lastColon (a ++ 58 :: b) = some (a, b) := by
  induction a with
  | nil => rw [List.nil_append, lastColon, lastColon_none h]; rfl
  | cons c cs ih => rw [List.cons_append, lastColon, ih]

theorem natDec_free (n : Nat) (c : UInt8) (hc : isDigit c = false) : c ∉ natDec n := fun h => by
  rw [natDec_digits n c h] at hc; cases hc

/-- a host without brackets and colons, and a port, can be taken apart; a host with a colon cannot -/
theorem split_plain (host : Bytes) (port : Nat) (h1 : (91 : UInt8) ∉ host) (h2 : (93 : UInt8) ∉ host) :
    SplitHostPort (host ++ [58] ++ natDec port) = if (58 : UInt8) ∈ host then none else some (host, natDec port) := by
  have e : host ++ [58] ++ natDec port = host ++ 58 :: natDec port := by simp
  unfold SplitHostPort
  rw [e, lastColon_append _ _ (natDec_free port 58 (by decide))]
  have hh : (host ++ 58 :: natDec port).head? ≠ some 91 := by
    cases host with
    | nil => simp
    | cons c cs => intro hh; simp at hh; simp [hh] at h1
  simp only
  rw [if_neg hh]
  split
  · rfl
  · rw [if_neg]
    simp only [List.mem_append, List.mem_cons, h1, h2, natDec_free port 91 (by decide), natDec_free port 93 (by decide)]
    decide

theorem dotted_eq (q : UInt8 × UInt8 × UInt8 × UInt8) (v6 : IP → Bytes) (ip : IP) (h : IsIPv4 ip q) : ipString v6 ip = dotted q := by
  obtain ⟨a, b, c, d⟩ := q
  rw [ipString_v4 v6 ip a b c d (isIPv4_to4 h)]
  simp only [dotted, decNat_eq]
  rfl

theorem dotted_free (q : UInt8 × UInt8 × UInt8 × UInt8) (x : UInt8) (h : isDigit x = false) (h' : x ≠ 46) : x ∉ dotted q := by
  obtain ⟨a, b, c, d⟩ := q
  have e : ascii "." = [46] := by decide
  simp [dotted, decNat_eq, natDec_free _ x h, e, h']

/-- **C79**, IPv4: `net.Dial` is given the dotted address and the port. -/
theorem C79_ipv4 (v6 : IP → Bytes) (id : Bytes) (ip : IP) (port : UInt16) (q : UInt8 × UInt8 × UInt8 × UInt8) (h : IsIPv4 ip q) :
    SplitHostPort (MakePeer v6 id ip port).addr = some (dotted q, decNat port.toNat) := by
  simp only [MakePeer, dotted_eq q v6 ip h]
  rw [split_plain _ _ (dotted_free q 91 (by decide) (by decide)) (dotted_free q 93 (by decide) (by decide)),
    if_neg (dotted_free q 58 (by decide) (by decide)), decNat_eq]

example : IsIPv4 (IPv4 10 0 0 1) (10, 0, 0, 1) ∧
    SplitHostPort (MakePeer (fun _ => []) [] (IPv4 10 0 0 1) 6881).addr = some (ascii "10.0.0.1", ascii "6881") :=
  ⟨.inr rfl, by decide +kernel⟩

/-- **C79**, IPv4: the peer is contacted precisely if somebody can be reached at this host and port and the handshake can be written; then it is sent
our handshake and nothing else, otherwise nothing, and an error is returned. -/
theorem C79_contacted (v6 : IP → Bytes) (id : Bytes) (ip : IP) (port : UInt16) (q : UInt8 × UInt8 × UInt8 × UInt8) (h : IsIPv4 ip q)
    (reach : Bytes → Bytes → Bool) (writeOk : Bool) (infohash ownId : Bytes) (h1 : infohash.length = 20) (h2 : ownId.length = 20) :
    ((FromBootstrap reach writeOk (MakePeer v6 id ip port) infohash ownId).2 = .ok (MakePeer v6 id ip port) ↔
      reach (dotted q) (decNat port.toNat) = true ∧ writeOk = true) ∧
    (∀ m ∈ (FromBootstrap reach writeOk (MakePeer v6 id ip port) infohash ownId).1, HandshakeSpec.IsHandshake m infohash ownId) ∧
    (FromBootstrap reach writeOk (MakePeer v6 id ip port) infohash ownId).1.length =
      (if reach (dotted q) (decNat port.toNat) = true ∧ writeOk = true then 1 else 0) ∧
    (¬ (reach (dotted q) (decNat port.toNat) = true ∧ writeOk = true) →
      ∃ e, (FromBootstrap reach writeOk (MakePeer v6 id ip port) infohash ownId).2 = .err e) := by
  unfold FromBootstrap
  rw [C79_ipv4 v6 id ip port q h]
  simp only [Handshake.FromBootstrap]
  cases reach (dotted q) (decNat port.toNat) <;> cases writeOk <;> simp [(Handshake.C40_made infohash ownId infohash h1 h2).1]

example : (FromBootstrap (fun h p => h = ascii "10.0.0.1" ∧ p = ascii "6881") true (MakePeer (fun _ => []) [] (IPv4 10 0 0 1) 6881) (List.replicate 20 1) (List.replicate 20 2)).1 ≠ [] ∧
    (FromBootstrap (fun h p => h = ascii "10.0.0.1" ∧ p = ascii "6881") true (MakePeer (fun _ => []) [] (IPv4 10 0 0 1) 6882) (List.replicate 20 1) (List.replicate 20 2)).1 = [] := by
  decide +kernel

theorem to4_isIPv4 {ip : IP} {q : UInt8 × UInt8 × UInt8 × UInt8} (h : To4 ip = some q) : IsIPv4 ip q := by
  unfold To4 at h
  split at h
  · cases h; exact .inl rfl
  · cases h; exact .inr rfl
  · cases h

/-- **C79**, exact: apart from the missing address (nil), a peer's address can be taken apart exactly if it is an IPv4 address. -/
theorem C79_dialable_iff (v6 : IP → Bytes) (hv6 : ∀ ip, SixText (v6 ip)) (id : Bytes) (ip : IP) (hne : ip ≠ []) (port : UInt16) :
    (∃ host p, SplitHostPort (MakePeer v6 id ip port).addr = some (host, p)) ↔ ∃ q, IsIPv4 ip q := by
  constructor
  · rintro ⟨host, p, h⟩
    cases h4 : To4 ip with
    | some q => exact ⟨q, to4_isIPv4 h4⟩
    | none =>
      obtain ⟨k1, k2, k3⟩ := hv6 ip
      simp only [MakePeer, ipString, if_neg hne, h4] at h
      rw [split_plain _ _ k2 k3, if_pos k1] at h
      cases h
  · rintro ⟨q, h⟩
    exact ⟨_, _, C79_ipv4 v6 id ip port q h⟩

/-- **C79** refuted: IPv6 peers are never contacted: whatever the network does, dialling them fails, and nothing is sent. -/
theorem C79_refuted_ipv6 (v6 : IP → Bytes) (hv6 : ∀ ip, SixText (v6 ip)) (id : Bytes) (ip : IP) (hne : ip ≠ []) (h : ∀ q, ¬ IsIPv4 ip q) (port : UInt16)
    (reach : Bytes → Bytes → Bool) (writeOk : Bool) (infohash ownId : Bytes) :
    FromBootstrap reach writeOk (MakePeer v6 id ip port) infohash ownId = ([], .err .os) := by
  unfold FromBootstrap
  cases hs : SplitHostPort (MakePeer v6 id ip port).addr with
  | none => rfl
  | some hp =>
    obtain ⟨q, hq⟩ := (C79_dialable_iff v6 hv6 id ip hne port).mp ⟨hp.1, hp.2, hs⟩
    exact absurd hq (h q)

/-- the loopback address, with a text as required -/
example : (∀ _ip : IP, SixText (ascii "::1")) ∧ (List.replicate 15 0 ++ [1] : IP) ≠ [] ∧ (∀ q, ¬ IsIPv4 (List.replicate 15 0 ++ [1]) q) ∧
    SplitHostPort (ascii "[::1]:80") = some (ascii "::1", ascii "80") := by
  refine ⟨fun _ => ⟨by decide, by decide, by decide⟩, by decide, ?_, by decide +kernel⟩
  rintro ⟨a, b, c, d⟩ (h | h)
  · cases h
  · simp [List.replicate] at h

/-- **C79** refuted: of a peer whose address in the tracker's list is no IP address (`net.ParseIP` returns nil), the host `<nil>` is looked up. -/
theorem C79_refuted_nil (v6 : IP → Bytes) (id : Bytes) (port : UInt16) :
    SplitHostPort (MakePeer v6 id [] port).addr = some (ascii "<nil>", decNat port.toNat) := by
  have : (MakePeer v6 id [] port).addr = ascii "<nil>" ++ [58] ++ natDec port.toNat := rfl
  rw [this, split_plain _ _ (by decide) (by decide), if_neg (by decide), decNat_eq]

/-- **C79** (partial: compact lists).  Every peer of a compact list is dialled at the address and port of its six bytes. -/
theorem C79_compact_partial (v6 : IP → Bytes) (s : Bytes) (ps : List Info) (h : Tracker.stringPeers v6 s = .ok ps) (k : Nat) (p : Info) (hp : ps[k]? = some p) :
    ∃ a b c d e f : UInt8, (s.drop (6 * k)).take 6 = [a, b, c, d, e, f] ∧
      SplitHostPort p.addr = some (dotted (a, b, c, d), decNat (256 * e.toNat + f.toNat)) := by
  obtain ⟨a, b, c, d, e, f, h1, -, -, -, h5⟩ := Tracker.C36_peers v6 s ps h k p hp
  refine ⟨a, b, c, d, e, f, h1, ?_⟩
  have : p.addr = dotted (a, b, c, d) ++ [58] ++ natDec (256 * e.toNat + f.toNat) := by
    rw [h5, decNat_eq (256 * e.toNat + f.toNat)]; rfl
  rw [this, split_plain _ _ (dotted_free _ 91 (by decide) (by decide)) (dotted_free _ 93 (by decide) (by decide)),
    if_neg (dotted_free _ 58 (by decide) (by decide)), decNat_eq]

example : ∃ ps, Tracker.stringPeers (fun _ => []) [10, 0, 0, 1, 26, 225, 1, 2, 3, 4, 0, 80] = .ok ps ∧
    ps.map (fun p => SplitHostPort p.addr) = [some (ascii "10.0.0.1", ascii "6881"), some (ascii "1.2.3.4", ascii "80")] :=
  ⟨_, rfl, by decide +kernel⟩

theorem decNat_inj {m n : Nat} (h : decNat m = decNat n) : m = n := Tracker.C38_numbers m n h

/-- Different addresses have different dotted notations, so nobody else is dialled. -/
theorem C79_dotted_injective (q q' : UInt8 × UInt8 × UInt8 × UInt8) (h : dotted q = dotted q') : q = q' := by
  obtain ⟨a, b, c, d⟩ := q
  obtain ⟨a', b', c', d'⟩ := q'
  have e : ascii "." = [46] := by decide
  simp only [dotted, decNat_eq, e, List.append_assoc, List.singleton_append] at h
  obtain ⟨f1, h⟩ := natDec_sep _ _ 46 _ _ (by decide) h
  obtain ⟨f2, h⟩ := natDec_sep _ _ 46 _ _ (by decide) h
  obtain ⟨f3, h⟩ := natDec_sep _ _ 46 _ _ (by decide) h
  have f4 : d.toNat = d'.toNat := by rw [← digitsVal_natDec d.toNat, h, digitsVal_natDec]
  rw [UInt8.toNat.inj f1, UInt8.toNat.inj f2, UInt8.toNat.inj f3, UInt8.toNat.inj f4]

example : dotted (1, 23, 4, 5) ≠ dotted (12, 3, 4, 5) := fun h => by cases C79_dotted_injective _ _ h

theorem brackets_ok (host : Bytes) (port : UInt16) (h1 : (91 : UInt8) ∉ host) (h2 : (93 : UInt8) ∉ host) :
    SplitHostPort (ascii "[" ++ host ++ ascii "]:" ++ decNat port.toNat) = some (host, decNat port.toNat) := by
  have e : ascii "[" ++ host ++ ascii "]:" ++ decNat port.toNat = (91 :: (host ++ [93])) ++ 58 :: natDec port.toNat := by simp [ascii, decNat_eq]
  have hp := natDec_free port.toNat 93 (by decide)
  have e2 : (91 :: (host ++ [93])) ++ 58 :: natDec port.toNat = 91 :: (host ++ 93 :: 58 :: natDec port.toNat) := by simp
  have hall : ∀ x ∈ (91 : UInt8) :: host, (decide (x ≠ 93)) = true := by
    intro x hx
    simp only [List.mem_cons] at hx
    rcases hx with rfl | hx
    · decide
    · exact decide_eq_true fun h => h2 (h ▸ hx)
  have hd : (91 :: (host ++ 93 :: 58 :: natDec port.toNat)).dropWhile (fun x => decide (x ≠ (93 : UInt8))) = 93 :: 58 :: natDec port.toNat := by
    rw [← List.cons_append, List.dropWhile_append_of_pos hall]; rfl
  have ht : (91 :: (host ++ 93 :: 58 :: natDec port.toNat)).takeWhile (fun x => decide (x ≠ (93 : UInt8))) = 91 :: host := by
    rw [← List.cons_append, List.takeWhile_append_of_pos hall]
    simp
  unfold SplitHostPort
  rw [e, lastColon_append _ _ (natDec_free port.toNat 58 (by decide)), e2]
  simp only [List.head?_cons, if_pos]
  unfold splitBracket
  rw [hd, ht, if_neg (by simp), if_pos (by simp), if_neg, decNat_eq]
  · rfl
  · simp only [List.drop_succ_cons, List.drop_zero, List.mem_append, List.mem_cons, h1, natDec_free port.toNat 91 (by decide), hp]
    decide

theorem brackets_open (host : Bytes) (port : UInt16) (h1 : (91 : UInt8) ∈ host) : SplitHostPort (ascii "[" ++ host ++ ascii "]:" ++ decNat port.toNat) = none := by
  have e : ascii "[" ++ host ++ ascii "]:" ++ decNat port.toNat = (91 :: (host ++ [93])) ++ 58 :: natDec port.toNat := by simp [ascii, decNat_eq]
  have e2 : (91 :: (host ++ [93])) ++ 58 :: natDec port.toNat = 91 :: (host ++ 93 :: 58 :: natDec port.toNat) := by simp
  unfold SplitHostPort
  rw [e, lastColon_append _ _ (natDec_free port.toNat 58 (by decide)), e2]
  simp only [List.head?_cons, if_pos]
  unfold splitBracket
  rw [if_neg (by simp), if_pos (.inl (by simp [h1]) : (91 : UInt8) ∈ (91 :: (host ++ 93 :: 58 :: natDec port.toNat)).drop 1 ∨ (93 : UInt8) ∈ natDec port.toNat)]
  split <;> rfl

theorem brackets_close (host : Bytes) (port : UInt16) (h1 : (93 : UInt8) ∈ host) : SplitHostPort (ascii "[" ++ host ++ ascii "]:" ++ decNat port.toNat) = none := by
  have e : ascii "[" ++ host ++ ascii "]:" ++ decNat port.toNat = (91 :: (host ++ [93])) ++ 58 :: natDec port.toNat := by simp [ascii, decNat_eq]
  have e2 : (91 :: (host ++ [93])) ++ 58 :: natDec port.toNat = 91 :: (host ++ 93 :: 58 :: natDec port.toNat) := by simp
  obtain ⟨u, v, hu, hv⟩ : ∃ u v, host = u ++ 93 :: v ∧ (93 : UInt8) ∉ u := List.eq_append_cons_of_mem h1
  subst hu
  have hall : ∀ x ∈ (91 : UInt8) :: u, (decide (x ≠ 93)) = true := by
    intro x hx
    simp only [List.mem_cons] at hx
    rcases hx with rfl | hx
    · decide
    · exact decide_eq_true fun h => hv (h ▸ hx)
  have hd : (91 :: ((u ++ 93 :: v) ++ 93 :: 58 :: natDec port.toNat)).dropWhile (fun x => decide (x ≠ (93 : UInt8))) = 93 :: (v ++ 93 :: 58 :: natDec port.toNat) := by
    rw [List.append_assoc, ← List.cons_append, List.dropWhile_append_of_pos hall]; rfl
  unfold SplitHostPort
  rw [e, lastColon_append _ _ (natDec_free port.toNat 58 (by decide)), e2]
  simp only [List.head?_cons, if_pos]
  unfold splitBracket
  rw [hd, if_neg (by simp), if_neg]
  intro h
  have := congrArg List.length h
  simp at this
  omega

/-- **C79**, the cause: it is only the brackets that are missing.  With them every host without brackets, with or without colons, is taken apart into itself and the port; a host
with brackets in it is not taken apart at all. -/
theorem C79_with_brackets (host : Bytes) (port : UInt16) :
    ((91 : UInt8) ∉ host → (93 : UInt8) ∉ host → SplitHostPort (ascii "[" ++ host ++ ascii "]:" ++ decNat port.toNat) = some (host, decNat port.toNat)) ∧
    ((91 : UInt8) ∈ host ∨ (93 : UInt8) ∈ host → SplitHostPort (ascii "[" ++ host ++ ascii "]:" ++ decNat port.toNat) = none) :=
  ⟨brackets_ok host port, fun h => h.elim (brackets_open host port) (brackets_close host port)⟩

example : SplitHostPort (ascii "[::1]:6881") = some (ascii "::1", ascii "6881") ∧ SplitHostPort (ascii "::1:6881") = none := by decide

end Verif.Dial
