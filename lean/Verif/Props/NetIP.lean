import Verif.Lemmas.NetText
/-
Property C120: the addresses that the tracker gives as text are understood, and addresses are shown so that they can be understood again.
-/
set_option autoImplicit false

namespace Verif.NetIP
open Verif Verif.Bencode Verif.Bencode.Spec Verif.Peer Verif.Dial Verif.NetIP.Spec

/-- **C120**, exact: `net.ParseIP` returns an address precisely for the texts that name it. -/
theorem C120_parse (t : Bytes) (ip : IP) (h : ip ≠ []) : ParseIP t = ip ↔ Names t ip := by
  rw [← scan_iff]
  unfold ParseIP
  cases parseScan t t with
  | none => simp [h.symm]
  | some x => simp

/-- **C120**: it returns nil precisely for the texts that name no address. -/
theorem C120_nil (t : Bytes) : ParseIP t = [] ↔ ∀ ip, ¬ Names t ip := by
  constructor
  · intro h ip hn
    have hne : ip ≠ [] := fun h0 => by have := names_len hn; rw [h0] at this; simp at this
    rw [(C120_parse t ip hne).mpr hn] at h
    exact hne h
  · intro h
    apply Classical.byContradiction
    intro hne
    exact h _ ((C120_parse t _ hne).mp rfl)

/-- **C120**: no text names two addresses, and every address that is named has sixteen bytes. -/
theorem C120_unambiguous (t : Bytes) (ip ip' : IP) (h : Names t ip) (h' : Names t ip') : ip = ip' ∧ ip.length = 16 := by
  have e := (scan_iff t ip).mpr h
  rw [(scan_iff t ip').mpr h'] at e
  exact ⟨(Option.some.inj e).symm, names_len h⟩

/-- ways to write an address that has to be read twice -/
example : Names (ascii "::ffff:10.0.0.1") (IPv4 10 0 0 1) ∧ Names (ascii "10.0.0.1") (IPv4 10 0 0 1) ∧ Names (ascii "::FFFF:a00:0001") (IPv4 10 0 0 1) ∧
    (∀ ip, ¬ Names (ascii "010.0.0.1") ip) ∧ (∀ ip, ¬ Names (ascii "1::2::3") ip) ∧ (∀ ip, ¬ Names (ascii "localhost") ip) := by
  have k : ∀ s, ParseIP s = IPv4 10 0 0 1 → Names s (IPv4 10 0 0 1) := fun s h => (C120_parse s _ (by decide)).mp h
  exact ⟨k _ (by decide +kernel), k _ (by decide +kernel), k _ (by decide +kernel), (C120_nil _).mp (by decide +kernel), (C120_nil _).mp (by decide +kernel), (C120_nil _).mp (by decide +kernel)⟩

theorem isIPv4_16 {ip : IP} {q : UInt8 × UInt8 × UInt8 × UInt8} (h : IsIPv4 ip q) : ip ≠ [] := by
  obtain ⟨a, b, c, d⟩ := q
  rcases h with rfl | rfl <;> simp

theorem string_v4 {ip : IP} {q : UInt8 × UInt8 × UInt8 × UInt8} (h : IsIPv4 ip q) : String ip = dotted q := dotted_eq q v6 ip h

theorem string_v6 {ip : IP} (hl : ip.length = 16) (h : ∀ q, ¬ IsIPv4 ip q) : String ip = v6 ip := by
  unfold String ipString
  rw [if_neg (fun h0 => by rw [h0] at hl; simp at hl)]
  cases h4 : To4 ip with
  | none => rfl
  | some q => exact absurd (to4_isIPv4 h4) (h q)

/-- **C120**, exact: the text of an address of sixteen bytes that is not IPv4. -/
theorem C120_text (ip : IP) (hl : ip.length = 16) (h : ∀ q, ¬ IsIPv4 ip q) (t : Bytes) : String ip = t ↔ Shown ip t := by
  rw [string_v6 hl h]
  exact ⟨fun e => e ▸ v6_shown ip hl, shown_det (v6_shown ip hl)⟩

/-- of two sequences of zeros that are equally long the first is left out, of two sequences the longer one, a single group of zeros is not -/
example : String [0x20, 1, 0x0d, 0xb8, 0, 0, 0, 0, 0, 1, 0, 0, 0, 0, 0, 1] = ascii "2001:db8::1:0:0:1" ∧
    String [0, 1, 0, 0, 0, 0, 0, 2, 0, 0, 0, 0, 0, 0, 0, 3] = ascii "1:0:0:2::3" ∧
    String [0, 1, 0, 2, 0, 3, 0, 0, 0, 5, 0, 6, 0, 7, 0xab, 8] = ascii "1:2:3:0:5:6:7:ab08" ∧ String (List.replicate 16 0) = ascii "::" := by
  decide +kernel

/-- **C120**: the text of an address names it: whatever is shown is understood again. -/
theorem C120_roundtrip (ip : IP) :
    (ip.length = 16 → ParseIP (String ip) = ip) ∧
    (∀ a b c d : UInt8, ip = [a, b, c, d] → ParseIP (String ip) = [0, 0, 0, 0, 0, 0, 0, 0, 0, 0, 255, 255, a, b, c, d]) := by
  constructor
  · intro hl
    have hne : ip ≠ [] := fun h0 => by rw [h0] at hl; simp at hl
    refine (C120_parse _ _ hne).mpr ?_
    by_cases h : ∃ q, IsIPv4 ip q
    · obtain ⟨⟨a, b, c, d⟩, h⟩ := h
      rw [string_v4 h]
      rcases h with rfl | rfl
      · simp at hl
      · exact .four a b c d
    · have h' : ∀ q, ¬ IsIPv4 ip q := fun q hq => h ⟨q, hq⟩
      rw [string_v6 hl h']
      exact .six _ _ (shown_six hl (v6_shown ip hl))
  · rintro a b c d rfl
    refine (C120_parse _ _ (by simp)).mpr ?_
    rw [string_v4 (q := (a, b, c, d)) (.inl rfl)]
    exact .four a b c d

/-- **C120**: addresses of sixteen bytes with the same text are the same. -/
theorem C120_injective (ip ip' : IP) (h : ip.length = 16) (h' : ip'.length = 16) (e : String ip = String ip') : ip = ip' := by
  rw [← (C120_roundtrip ip).1 h, e, (C120_roundtrip ip').1 h']

example : String (List.replicate 15 0 ++ [1]) ≠ String (List.replicate 14 0 ++ [1, 0]) := fun h => by
  have := C120_injective _ _ (by decide) (by decide) h
  revert this; decide

/-- the digits -/
def hexDigits : Bytes := ascii "0123456789abcdef"

/-- **C120**: a slice that is no address because of its length is shown as a question mark and two digits for each byte, and such a text is not taken for an address. -/
theorem C120_other (ip : IP) (h0 : ip ≠ []) (h4 : ip.length ≠ 4) (h16 : ip.length ≠ 16) :
    String ip = [63] ++ ip.flatMap (fun b => [hexDigits.getD (b.toNat / 16) 0, hexDigits.getD (b.toNat % 16) 0]) ∧ ParseIP (String ip) = [] := by
  have hto : To4 ip = none := by
    unfold To4
    split
    · simp at h4
    · simp at h16
    · rfl
  have hdig : ∀ n : Nat, n < 16 → hexChar n = hexDigits.getD n 0 := by decide +kernel
  have e : String ip = [63] ++ ip.flatMap (fun b => [hexDigits.getD (b.toNat / 16) 0, hexDigits.getD (b.toNat % 16) 0]) := by
    unfold String ipString
    rw [if_neg h0, hto]
    simp only [v6]
    rw [if_pos h16, List.flatMap_def]
    congr 3
    funext b
    have := b.toNat_lt
    rw [hdig _ (by omega), hdig _ (by omega)]
  refine ⟨e, ?_⟩
  have hscan : ∀ (u t : Bytes), (∀ c ∈ t, c ≠ 46 ∧ c ≠ 58) → parseScan u t = none := by
    intro u t
    induction t with
    | nil => intro _; rfl
    | cons c t ih =>
      intro hc
      obtain ⟨h1, h2⟩ := hc c (by simp)
      rw [parseScan, if_neg h1, if_neg h2]
      exact ih fun x hx => hc x (by simp [hx])
  unfold ParseIP
  rw [hscan (String ip) (String ip)]
  · rfl
  · have hd : ∀ n : Nat, n < 16 → hexDigits.getD n 0 ≠ 46 ∧ hexDigits.getD n 0 ≠ 58 := by decide +kernel
    rw [e]
    intro c hc
    rcases List.mem_append.mp hc with hc | hc
    · rw [List.mem_singleton.mp hc]; decide
    · obtain ⟨b, -, hb⟩ := List.mem_flatMap.mp hc
      have := b.toNat_lt
      simp only [List.mem_cons, List.not_mem_nil, or_false] at hb
      rcases hb with rfl | rfl
      · exact hd _ (by omega)
      · exact hd _ (by omega)

example : String [1, 0xab, 0xff] = ascii "?01abff" ∧ ParseIP (ascii "?01abff") = [] := by decide +kernel

/-- the characters of the texts of groups -/
theorem groups_free {t bs : Bytes} (h : Groups t bs) : ∀ c ∈ t, hexDigit c ≠ none ∨ c = 58 := by
  induction h with
  | one t a b h => exact fun c hc => .inl (group_digits h c hc)
  | more t a b t' bs h _ ih =>
    intro c hc
    rw [colon_one] at hc
    simp only [List.mem_append, List.mem_singleton] at hc
    rcases hc with (hc | hc) | hc
    · exact .inl (group_digits h c hc)
    · exact .inr hc
    · exact ih c hc

theorem written_free {bs t : Bytes} (h : Written bs t) : ∀ c ∈ t, hexDigit c ≠ none ∨ c = 58 := by
  by_cases hb : bs = []
  · subst hb; cases h; simp
  · exact groups_free (written_groups h hb)

theorem shown_sixText {ip : IP} {t : Bytes} (hl : ip.length = 16) (h : Shown ip t) : SixText t := by
  have free : ∀ x : UInt8, hexDigit x = none → x ≠ 58 → x ∉ t := fun x hx hx' hm => by
    have : ∀ c ∈ t, hexDigit c ≠ none ∨ c = 58 := by
      cases h with
      | plain _ _ hw => exact written_free hw
      | cut p q t t' k _ _ _ _ h5 h6 =>
        intro c hc
        rw [colon_two] at hc
        simp only [List.mem_append, List.mem_cons, List.not_mem_nil, or_false, or_self] at hc
        rcases hc with (hc | hc) | hc
        · exact written_free h5 c hc
        · exact .inr hc
        · exact written_free h6 c hc
    rcases this x hm with h | h
    · exact h hx
    · exact hx' h
  refine ⟨?_, free 91 (by decide) (by decide), free 93 (by decide) (by decide)⟩
  cases h with
  | plain _ _ hw =>
    cases hw with
    | none => simp at hl
    | one => simp at hl
    | more => rw [colon_one]; simp
  | cut => rw [colon_two]; simp

/-- **C120**, dialling: an address of sixteen bytes is taken apart into itself and the port if it is IPv4, and not at all otherwise. -/
theorem C120_dial (id : Bytes) (ip : IP) (hl : ip.length = 16) (port : UInt16) :
    (∀ q, IsIPv4 ip q → SplitHostPort (MakePeer v6 id ip port).addr = some (dotted q, decNat port.toNat)) ∧
    ((∀ q, ¬ IsIPv4 ip q) → SplitHostPort (MakePeer v6 id ip port).addr = none) := by
  refine ⟨fun q h => C79_ipv4 v6 id ip port q h, fun h => ?_⟩
  obtain ⟨k1, k2, k3⟩ := shown_sixText hl (v6_shown ip hl)
  have e : ipString v6 ip = v6 ip := string_v6 hl h
  have : (MakePeer v6 id ip port).addr = v6 ip ++ [58] ++ natDec port.toNat := by simp only [MakePeer, e]
  rw [this, split_plain _ _ k2 k3, if_pos k1]

example : (MakePeer v6 [] (List.replicate 15 0 ++ [1]) 80).addr = ascii "::1:80" ∧ SplitHostPort (ascii "::1:80") = none ∧
    SplitHostPort (MakePeer v6 [] (IPv4 10 0 0 1) 80).addr = some (ascii "10.0.0.1", ascii "80") := by decide +kernel

/-- the peer that an entry of a list stands for -/
def entryPeer (id t : Bytes) (port : UInt16) : Info := MakePeer v6 id (ParseIP t) port

/-- **C120**, lists: for each entry of a list of peers, what is dialled depends only on its text and its port: the IPv4 address that the text names; nothing if it names an IPv6 address;
the host `<nil>` if it names no address. -/
theorem C120_list (vs : List Value) (ps : List Info) (h : Tracker.listPeers v6 ParseIP vs = .ok ps) (k : Nat) (v : Value) (p : Info) (hv : vs[k]? = some v) (hp : ps[k]? = some p) :
    ∃ d t port, v = .dict d ∧ Info.strAt d (ascii "ip") = some t ∧ Info.intAt d (ascii "port") = some port ∧
      (∀ a b c d, Names t [0, 0, 0, 0, 0, 0, 0, 0, 0, 0, 255, 255, a, b, c, d] → SplitHostPort p.addr = some (dotted (a, b, c, d), decNat p.port.toNat)) ∧
      (∀ ip, Names t ip → (∀ q, ¬ IsIPv4 ip q) → SplitHostPort p.addr = none) ∧
      ((∀ ip, ¬ Names t ip) → SplitHostPort p.addr = some (ascii "<nil>", decNat p.port.toNat)) ∧
      (0 ≤ port ∧ port < 65536 → (p.port.toNat : Int) = port) := by
  rcases Tracker.listPeers_cases v6 ParseIP vs with ⟨-, ps', h1, -, h3⟩ | ⟨-, e, h1⟩
  · rw [h] at h1
    cases h1
    obtain ⟨d, t, port, id, q1, q2, q3, q4, rfl⟩ := h3 k v p hv hp
    refine ⟨d, t, port, q1, q2, q3, ?_, ?_, ?_, ?_⟩
    · intro a b c d hn
      rw [(C120_parse t _ (by simp)).mpr hn]
      exact (C120_dial id _ rfl _).1 (a, b, c, d) (.inr rfl)
    · intro ip hn hq
      have hl := names_len hn
      rw [(C120_parse t ip (fun h0 => by rw [h0] at hl; simp at hl)).mpr hn]
      exact (C120_dial id ip hl _).2 hq
    · intro hn
      rw [(C120_nil t).mpr hn]
      exact C79_refuted_nil v6 id _
    · intro hport
      show ((UInt16.ofNat (port % 2 ^ 64).toNat).toNat : Int) = port
      rw [UInt16.toNat_ofNat']
      omega
  · rw [h] at h1; cases h1

/-- **C120** refuted: BEP 3 lets the tracker give the address of a peer as an IPv6 address or as the name of a host.  Such peers are never contacted at that address: with an IPv6 address
nothing is sent, whatever the network does; with a name, another host, `<nil>`, is looked up instead. -/
theorem C120_refuted_others (id t : Bytes) (port : UInt16) :
    (∀ ip, Names t ip → (∀ q, ¬ IsIPv4 ip q) → ∀ (reach : Bytes → Bytes → Bool) (writeOk : Bool) (infohash ownId : Bytes),
      FromBootstrap reach writeOk (entryPeer id t port) infohash ownId = ([], .err .os)) ∧
    ((∀ ip, ¬ Names t ip) → ∀ (reach : Bytes → Bytes → Bool) (writeOk : Bool) (infohash ownId : Bytes), (∀ p, reach (ascii "<nil>") p = false) →
      FromBootstrap reach writeOk (entryPeer id t port) infohash ownId = ([], .err .os)) := by
  constructor
  · intro ip hn hq reach writeOk infohash ownId
    have hl := names_len hn
    unfold entryPeer
    rw [(C120_parse t ip (fun h0 => by rw [h0] at hl; simp at hl)).mpr hn]
    unfold FromBootstrap
    rw [(C120_dial id ip hl port).2 hq]
    rfl
  · intro hn reach writeOk infohash ownId hr
    unfold entryPeer
    rw [(C120_nil t).mpr hn]
    unfold FromBootstrap
    rw [C79_refuted_nil]
    simp only [hr]
    rfl

/-- an IPv6 address, the name of a host, and a network in which both can be reached -/
example : Names (ascii "2001:db8::1") [0x20, 1, 0x0d, 0xb8, 0, 0, 0, 0, 0, 0, 0, 0, 0, 0, 0, 1] ∧ (∀ q, ¬ IsIPv4 [0x20, 1, 0x0d, 0xb8, 0, 0, 0, 0, 0, 0, 0, 0, 0, 0, 0, 1] q) ∧
    (∀ ip, ¬ Names (ascii "peer.example.org") ip) ∧
    FromBootstrap (fun h _ => h = ascii "2001:db8::1" || h = ascii "peer.example.org") true (entryPeer [] (ascii "peer.example.org") 80) [] [] = ([], .err .os) := by
  refine ⟨(C120_parse _ _ (by decide)).mp (by decide +kernel), ?_, (C120_nil _).mp (by decide +kernel), by decide +kernel⟩
  rintro ⟨a, b, c, d⟩ (h | h)
  · cases h
  · simp [List.replicate] at h

theorem text_free (ip : IP) (hl : ip.length = 16) (c : UInt8) (h1 : hexDigit c = none) (h2 : c ≠ 58) (h3 : c ≠ 46) (h4 : isDigit c = false) : c ∉ String ip := by
  by_cases h : ∃ q, IsIPv4 ip q
  · obtain ⟨q, h⟩ := h
    rw [string_v4 h]
    exact dotted_free q c h4 h3
  · have h' : ∀ q, ¬ IsIPv4 ip q := fun q hq => h ⟨q, hq⟩
    have hs := (C120_text ip hl h' _).mp rfl
    intro hm
    generalize String ip = t at *
    have : ∀ c ∈ t, hexDigit c ≠ none ∨ c = 58 := by
      cases hs with
      | plain _ _ hw => exact written_free hw
      | cut p q t t' k _ _ _ _ h5 h6 =>
        intro c hc
        rw [colon_two] at hc
        simp only [List.mem_append, List.mem_cons, List.not_mem_nil, or_false, or_self] at hc
        rcases hc with (hc | hc) | hc
        · exact written_free h5 c hc
        · exact .inr hc
        · exact written_free h6 c hc
    rcases this c hm with h | h
    · exact h h1
    · exact h2 h

/-- **C61**, IPv4 and IPv6: two peers with addresses of sixteen bytes have the same key precisely if id, address and port agree. -/
theorem C61_key_six (id id' : Bytes) (ip ip' : IP) (port port' : UInt16) (h : ip.length = 16) (h' : ip'.length = 16) :
    (MakePeer v6 id ip port).str = (MakePeer v6 id' ip' port').str ↔ id = id' ∧ ip = ip' ∧ port = port' := by
  constructor
  · intro e
    have ea : ascii " @ " = [32, 64, 32] := by decide
    have hno : ∀ (x : IP) (p : Nat), x.length = 16 → (64 : UInt8) ∉ (32 :: (String x ++ 58 :: natDec p) : Bytes) := fun x p hx hm => by
      have h1 := text_free x hx 64 (by decide) (by decide) (by decide) (by decide)
      have h2 := natDec_free p 64 (by decide)
      simp only [List.mem_cons, List.mem_append, h1, h2, false_or, or_false] at hm
      revert hm; decide
    have e2 : (id ++ [32]) ++ 64 :: (32 :: (String ip ++ 58 :: natDec port.toNat)) = (id' ++ [32]) ++ 64 :: (32 :: (String ip' ++ 58 :: natDec port'.toNat)) := by
      simpa [MakePeer, ea, String] using e
    obtain ⟨e3, e4⟩ := split_last _ _ _ _ 64 (hno _ _ h) (hno _ _ h') e2
    obtain ⟨e5, e6⟩ := split_last _ _ _ _ 58 (natDec_free _ 58 (by decide)) (natDec_free _ 58 (by decide)) (List.cons.inj e4).2
    have f5 : port.toNat = port'.toNat := by rw [← digitsVal_natDec port.toNat, e6, digitsVal_natDec]
    exact ⟨List.append_cancel_right e3, C120_injective _ _ h h' e5, UInt16.toNat.inj f5⟩
  · rintro ⟨rfl, rfl, rfl⟩; rfl

/-- an IPv6 address that ends like another one with its port -/
example : (MakePeer v6 [] ([0, 1] ++ List.replicate 12 0 ++ [0, 2]) 3).str ≠ (MakePeer v6 [] ([0, 1] ++ List.replicate 12 0 ++ [0, 0]) 3).str := fun h => by
  have := ((C61_key_six _ _ _ _ _ _ (by decide) (by decide)).mp h).2.1
  revert this; decide

end Verif.NetIP
