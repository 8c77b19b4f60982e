import Verif.Model.Tracker
import Verif.Spec.Query
import Verif.Spec.Bencode
import Verif.Lemmas.Query
import Verif.Props.Hostile
import Verif.Props.Utils
/-
Properties C36-C39 and C65: the tracker client (/repo/src/tracker).
-/
set_option autoImplicit false

namespace Verif.Tracker
open Verif.Bencode Verif.Bencode.Spec Verif.Peer Verif.Url Verif.Torrent Verif.Query Verif.Info

/-! ### C36 -/

theorem compactLoop_cases (v6 : IP → Bytes) (n : Nat) : ∀ s : Bytes, s.length = 6 * n →
    (compactLoop v6 s).length = n ∧ ∀ (k : Nat) (p : Peer.Info), (compactLoop v6 s)[k]? = some p →
      ∃ a b c d e f : UInt8, (s.drop (6 * k)).take 6 = [a, b, c, d, e, f] ∧
        p = MakePeer v6 [] (IPv4 a b c d) (UInt16.ofNat (e.toNat * 256 + f.toNat)) := by
  induction n with
  | zero =>
    intro s hs
    have : s = [] := List.eq_nil_of_length_eq_zero (by omega)
    subst this
    exact ⟨rfl, fun k p h => by simp [compactLoop] at h⟩
  | succ n ih =>
    intro s hs
    match s, hs with
    | a :: b :: c :: d :: e :: f :: rest, hs =>
      simp only [List.length_cons] at hs
      obtain ⟨h1, h2⟩ := ih rest (by omega)
      rw [compactLoop]
      refine ⟨by rw [List.length_cons, h1], ?_⟩
      intro k p h
      cases k with
      | zero =>
        simp only [List.getElem?_cons_zero, Option.some.injEq] at h
        exact ⟨a, b, c, d, e, f, rfl, h.symm⟩
      | succ k =>
        rw [List.getElem?_cons_succ] at h
        obtain ⟨a', b', c', d', e', f', h3, h4⟩ := h2 k p h
        refine ⟨a', b', c', d', e', f', ?_, h4⟩
        rw [← h3]
        rfl
    | [], hs => simp at hs
    | [_], hs => simp at hs; omega
    | [_, _], hs => simp at hs; omega
    | [_, _, _], hs => simp at hs; omega
    | [_, _, _, _], hs => simp at hs; omega
    | [_, _, _, _, _], hs => simp at hs; omega

/-- **C36**, acceptance: a compact peer string is accepted exactly if its length is a multiple of 6, and rejected with an error
otherwise. -/
theorem C36_accept_iff (v6 : IP → Bytes) (s : Bytes) :
    (6 ∣ s.length → ∃ ps, stringPeers v6 s = .ok ps ∧ 6 * ps.length = s.length) ∧
    (¬ 6 ∣ s.length → stringPeers v6 s = .err .tracker) := by
  unfold stringPeers
  constructor
  · rintro ⟨n, hn⟩
    rw [if_neg (by omega)]
    exact ⟨_, rfl, by rw [(compactLoop_cases v6 n s hn).1, hn]⟩
  · intro h
    rw [if_pos (by omega)]

/-- **C36**, contents: peer `k` has the four address bytes and the big-endian port at offset `6 * k`, no id, and the address text
of these. -/
theorem C36_peers (v6 : IP → Bytes) (s : Bytes) (ps : List Peer.Info) (h : stringPeers v6 s = .ok ps) (k : Nat) (p : Peer.Info)
    (hp : ps[k]? = some p) :
    ∃ a b c d e f : UInt8, (s.drop (6 * k)).take 6 = [a, b, c, d, e, f] ∧
      p.ip = [0, 0, 0, 0, 0, 0, 0, 0, 0, 0, 255, 255, a, b, c, d] ∧ p.port.toNat = 256 * e.toNat + f.toNat ∧ p.id = [] ∧
      p.addr = decNat a.toNat ++ ascii "." ++ decNat b.toNat ++ ascii "." ++ decNat c.toNat ++ ascii "." ++ decNat d.toNat ++
        ascii ":" ++ decNat (256 * e.toNat + f.toNat) := by
  unfold stringPeers at h
  split at h
  · cases h
  · cases h
    obtain ⟨a, b, c, d, e, f, h1, h2⟩ := (compactLoop_cases v6 (s.length / 6) s (by omega)).2 k p hp
    have hport : (UInt16.ofNat (e.toNat * 256 + f.toNat)).toNat = 256 * e.toNat + f.toNat := by
      have := e.toNat_lt; have := f.toNat_lt
      rw [UInt16.toNat_ofNat']; omega
    subst h2
    refine ⟨a, b, c, d, e, f, h1, rfl, hport, rfl, ?_⟩
    simp only [MakePeer, hport, decNat_eq]
    rfl

/-- **C36**, round trip: the compact form of any list of addresses and ports is decoded to exactly these. -/
theorem C36_roundtrip (v6 : IP → Bytes) (l : List ((UInt8 × UInt8 × UInt8 × UInt8) × UInt16)) :
    ∃ ps, stringPeers v6 (l.map fun p => compactPeer p.1.1 p.1.2.1 p.1.2.2.1 p.1.2.2.2 p.2.toNat).flatten = .ok ps ∧
      ps.map (fun p => (p.ip, p.port)) = l.map fun p => ([0, 0, 0, 0, 0, 0, 0, 0, 0, 0, 255, 255, p.1.1, p.1.2.1, p.1.2.2.1, p.1.2.2.2], p.2) := by
  have hlen : (l.map fun p => compactPeer p.1.1 p.1.2.1 p.1.2.2.1 p.1.2.2.2 p.2.toNat).flatten.length = 6 * l.length := by
    induction l with
    | nil => rfl
    | cons p l ih =>
      rw [List.map_cons, List.flatten_cons, List.length_append, ih, List.length_cons]
      show 6 + _ = _
      omega
  unfold stringPeers
  rw [if_neg (by omega)]
  refine ⟨_, rfl, ?_⟩
  clear hlen
  induction l with
  | nil => rfl
  | cons p l ih =>
    obtain ⟨⟨a, b, c, d⟩, port⟩ := p
    rw [List.map_cons, List.flatten_cons]
    have e : ∀ r, compactLoop v6 (compactPeer a b c d port.toNat ++ r) = MakePeer v6 [] (IPv4 a b c d)
        (UInt16.ofNat ((UInt8.ofNat (port.toNat / 256)).toNat * 256 + (UInt8.ofNat (port.toNat % 256)).toNat)) :: compactLoop v6 r :=
      fun _ => rfl
    rw [e, List.map_cons, List.map_cons, ih]
    simp only [MakePeer, IPv4]
    have hp : UInt16.ofNat ((UInt8.ofNat (port.toNat / 256)).toNat * 256 + (UInt8.ofNat (port.toNat % 256)).toNat) = port := by
      apply UInt16.toNat.inj
      have := port.toNat_lt
      rw [UInt16.toNat_ofNat', UInt8.toNat_ofNat', UInt8.toNat_ofNat']
      omega
    rw [hp]

example : stringPeers id [127, 0, 0, 1, 0x1a, 0xe1, 10, 0, 0, 7, 0, 80] =
    .ok [MakePeer id [] (IPv4 127 0 0 1) 6881, MakePeer id [] (IPv4 10 0 0 7) 80] := rfl

/-! ### C37 -/

theorem getUint_cases (d : Dict) (k : Bytes) :
    (∃ i, intAt d k = some i ∧ Dict.getUint d k = .ok (i % 2 ^ 64).toNat) ∨ (intAt d k = none ∧ ∃ e, Dict.getUint d k = .err e) := by
  unfold Dict.getUint
  rcases getInt_cases d k with ⟨i, h1, h2⟩ | ⟨h1, e, h2⟩
  · exact .inl ⟨i, h1, by rw [h2]; rfl⟩
  · exact .inr ⟨h1, e, by rw [h2]; rfl⟩

/-- an entry of a list of peers: a dictionary with address, port and peer id -/
def IsPeer (v : Value) : Prop :=
  ∃ d, v = .dict d ∧ (strAt d (ascii "ip")).isSome ∧ (intAt d (ascii "port")).isSome ∧ (strAt d (ascii "peer id")).isSome

/-- `peers` is a valid compact or dictionary peer list -/
def HasPeers (d : Dict) : Prop :=
  (∃ s, strAt d (ascii "peers") = some s ∧ 6 ∣ s.length) ∨ (∃ vs, listAt d (ascii "peers") = some vs ∧ ∀ v ∈ vs, IsPeer v)

theorem peerEntry_cases (v6 : IP → Bytes) (parseIP : Bytes → IP) (v : Value) :
    (∃ d ip port id, v = .dict d ∧ strAt d (ascii "ip") = some ip ∧ intAt d (ascii "port") = some port ∧
      strAt d (ascii "peer id") = some id ∧
      peerEntry v6 parseIP v = .ok (MakePeer v6 id (parseIP ip) (UInt16.ofNat (port % 2 ^ 64).toNat))) ∨
    (¬ IsPeer v ∧ ∃ e, peerEntry v6 parseIP v = .err e) := by
  by_cases hv : ∃ d, v = .dict d
  · obtain ⟨d, rfl⟩ := hv
    unfold peerEntry
    simp only
    rcases getString_cases d (ascii "ip") with ⟨ip, a1, a2⟩ | ⟨a1, e, a2⟩
    · rcases getUint_cases d (ascii "port") with ⟨port, b1, b2⟩ | ⟨b1, e, b2⟩
      · rcases getString_cases d (ascii "peer id") with ⟨id, c1, c2⟩ | ⟨c1, e, c2⟩
        · exact .inl ⟨d, ip, port, id, rfl, a1, b1, c1, by rw [a2, b2, c2]; rfl⟩
        · refine .inr ⟨?_, e, by rw [a2, b2, c2]; rfl⟩
          rintro ⟨d', hd, -, -, h⟩
          cases hd
          rw [c1] at h; cases h
      · refine .inr ⟨?_, e, by rw [a2, b2]; rfl⟩
        rintro ⟨d', hd, -, h, -⟩
        cases hd
        rw [b1] at h; cases h
    · refine .inr ⟨?_, e, by rw [a2]; rfl⟩
      rintro ⟨d', hd, h, -, -⟩
      cases hd
      rw [a1] at h; cases h
  · refine .inr ⟨?_, ?_⟩
    · rintro ⟨d, h, -⟩; exact hv ⟨d, h⟩
    · cases v <;> first | exact ⟨_, rfl⟩ | exact absurd ⟨_, rfl⟩ hv

theorem listPeers_cases (v6 : IP → Bytes) (parseIP : Bytes → IP) (vs : List Value) :
    ((∀ v ∈ vs, IsPeer v) ∧ ∃ ps, listPeers v6 parseIP vs = .ok ps ∧ ps.length = vs.length ∧
      ∀ (k : Nat) (v : Value) (p : Peer.Info), vs[k]? = some v → ps[k]? = some p → ∃ d ip port id, v = .dict d ∧
        strAt d (ascii "ip") = some ip ∧ intAt d (ascii "port") = some port ∧ strAt d (ascii "peer id") = some id ∧
        p = MakePeer v6 id (parseIP ip) (UInt16.ofNat (port % 2 ^ 64).toNat)) ∨
    ((¬ ∀ v ∈ vs, IsPeer v) ∧ ∃ e, listPeers v6 parseIP vs = .err e) := by
  induction vs with
  | nil => exact .inl ⟨fun _ h => (nomatch h), [], rfl, rfl, fun _ _ _ h => (by simp at h)⟩
  | cons v vs ih =>
    rw [listPeers]
    rcases peerEntry_cases v6 parseIP v with ⟨d, ip, port, id, h1, h2, h3, h4, h5⟩ | ⟨h1, e, h2⟩
    · rw [h5, Res.ok_bind]
      rcases ih with ⟨g1, ps, g2, g3, g4⟩ | ⟨g1, e, g2⟩
      · rw [g2, Res.ok_bind]
        refine .inl ⟨?_, _, rfl, by simp [g3], ?_⟩
        · intro x hx
          rcases List.mem_cons.mp hx with rfl | hx
          · exact ⟨d, h1, by rw [h2]; rfl, by rw [h3]; rfl, by rw [h4]; rfl⟩
          · exact g1 x hx
        · intro k x p hx hp
          cases k with
          | zero =>
            cases hx; cases hp
            exact ⟨d, ip, port, id, h1, h2, h3, h4, rfl⟩
          | succ k => exact g4 k x p hx hp
      · rw [g2]
        exact .inr ⟨fun h => g1 (fun x hx => h x (by simp [hx])), e, rfl⟩
    · rw [h2]
      exact .inr ⟨fun h => h1 (h v (by simp)), e, rfl⟩

theorem getPeers_cases (v6 : IP → Bytes) (parseIP : Bytes → IP) (d : Dict) :
    (HasPeers d ∧ ∃ ps, getPeers v6 parseIP d = .ok ps) ∨ (¬ HasPeers d ∧ ∃ e, getPeers v6 parseIP d = .err e) := by
  unfold getPeers
  rcases getString_cases d (ascii "peers") with ⟨s, h1, h2⟩ | ⟨h1, e, h2⟩
  · rw [h2]
    simp only
    by_cases h6 : 6 ∣ s.length
    · obtain ⟨ps, hps, -⟩ := (C36_accept_iff v6 s).1 h6
      exact .inl ⟨.inl ⟨s, h1, h6⟩, ps, hps⟩
    · refine .inr ⟨?_, _, (C36_accept_iff v6 s).2 h6⟩
      rintro (⟨s', hs, h⟩ | ⟨vs, hvs, -⟩)
      · rw [h1] at hs; cases hs; exact h6 h
      · unfold strAt at h1
        unfold listAt at hvs
        split at h1 <;> simp_all
  · rw [h2]
    simp only
    rcases getList_cases d (ascii "peers") with ⟨vs, h3, h4⟩ | ⟨h3, e', h4⟩
    · rw [h4, Res.ok_bind]
      rcases listPeers_cases v6 parseIP vs with ⟨g1, ps, g2, -⟩ | ⟨g1, e, g2⟩
      · exact .inl ⟨.inr ⟨vs, h3, g1⟩, ps, g2⟩
      · refine .inr ⟨?_, e, g2⟩
        rintro (⟨s', hs, h⟩ | ⟨ws, hws, h⟩)
        · rw [h1] at hs; cases hs
        · rw [h3] at hws; cases hws; exact g1 h
    · rw [h4]
      refine .inr ⟨?_, e', rfl⟩
      rintro (⟨s', hs, h⟩ | ⟨ws, hws, h⟩)
      · rw [h1] at hs; cases hs
      · rw [h3] at hws; cases hws

/-- **C37**, failure: a response carrying a failure reason is always rejected. -/
theorem C37_failure (v6 : IP → Bytes) (parseIP : Bytes → IP) (d : Dict) (h : (strAt d (ascii "failure reason")).isSome) :
    newResponse v6 parseIP d = .err .tracker := by
  unfold newResponse
  rcases getString_cases d (ascii "failure reason") with ⟨s, h1, h2⟩ | ⟨h1, e, h2⟩
  · rw [h2]
  · rw [h1] at h; cases h

/-- **C37**, acceptance: without a failure reason a response is accepted exactly if interval, complete and incomplete are integers
and peers is a valid list of peers; otherwise there is an error; there is no panic. -/
theorem C37_accept_iff (v6 : IP → Bytes) (parseIP : Bytes → IP) (d : Dict) (h : strAt d (ascii "failure reason") = none) :
    ((∃ r, newResponse v6 parseIP d = .ok r) ↔
      (intAt d (ascii "interval")).isSome ∧ (intAt d (ascii "complete")).isSome ∧ (intAt d (ascii "incomplete")).isSome ∧ HasPeers d) ∧
    ((∃ r, newResponse v6 parseIP d = .ok r) ∨ ∃ e, newResponse v6 parseIP d = .err e) := by
  unfold newResponse
  rcases getString_cases d (ascii "failure reason") with ⟨s, h1, h2⟩ | ⟨h1, e, h2⟩
  · rw [h] at h1; cases h1
  · rw [h2]
    simp only
    rcases getUint_cases d (ascii "interval") with ⟨i, a1, a2⟩ | ⟨a1, e, a2⟩
    · rw [a1, a2, Res.ok_bind]
      rcases getUint_cases d (ascii "complete") with ⟨i, b1, b2⟩ | ⟨b1, e, b2⟩
      · rw [b1, b2, Res.ok_bind]
        rcases getUint_cases d (ascii "incomplete") with ⟨i, c1, c2⟩ | ⟨c1, e, c2⟩
        · rw [c1, c2, Res.ok_bind]
          rcases getPeers_cases v6 parseIP d with ⟨d1, ps, d2⟩ | ⟨d1, e, d2⟩
          · rw [d2]; simp [d1]
          · rw [d2]; simp [d1]
        · rw [c1, c2]; simp
      · rw [b1, b2]; simp
    · rw [a1, a2]; simp

/-- **C37**, contents: what an accepted response reports, for numbers that are not negative.
Missing from the property: negative numbers, which are reported modulo 2^64 (`C37_refuted_negative`). -/
theorem C37_state_partial (v6 : IP → Bytes) (parseIP : Bytes → IP) (d : Dict) (r : Response) (h : newResponse v6 parseIP d = .ok r)
    (i c n : Int) (hi : intAt d (ascii "interval") = some i) (hc : intAt d (ascii "complete") = some c)
    (hn : intAt d (ascii "incomplete") = some n) (hi0 : 0 ≤ i ∧ i < 2 ^ 63) (hc0 : 0 ≤ c ∧ c < 2 ^ 63) (hn0 : 0 ≤ n ∧ n < 2 ^ 63) :
    (r.state.interval : Int) = i ∧ (r.state.seeders : Int) = c ∧ (r.state.leechers : Int) = n ∧
    r.state.warning = (strAt d (ascii "warning message")).getD [] ∧
    (∀ m, intAt d (ascii "min interval") = some m → 0 ≤ m ∧ m < 2 ^ 63 → (r.state.minInterval : Int) = m) ∧
    (intAt d (ascii "min interval") = none → r.state.minInterval = 0) := by
  unfold newResponse at h
  rcases getString_cases d (ascii "failure reason") with ⟨s, h1, h2⟩ | ⟨h1, e, h2⟩
  · rw [h2] at h; cases h
  · rw [h2] at h
    simp only at h
    obtain ⟨i', a1, h⟩ := Res.bind_eq_ok.mp h
    obtain ⟨c', b1, h⟩ := Res.bind_eq_ok.mp h
    obtain ⟨n', c1, h⟩ := Res.bind_eq_ok.mp h
    obtain ⟨ps, d1, h⟩ := Res.bind_eq_ok.mp h
    cases h
    have key : ∀ (k : Bytes) (x : Int) (y : Nat), intAt d k = some x → Dict.getUint d k = .ok y → 0 ≤ x ∧ x < 2 ^ 63 → (y : Int) = x := by
      intro k x y hx hy hr
      rcases getUint_cases d k with ⟨z, g1, g2⟩ | ⟨g1, -⟩
      · rw [hx] at g1
        cases g1
        rw [hy] at g2
        cases g2
        omega
      · rw [hx] at g1; cases g1
    refine ⟨key _ _ _ hi a1 hi0, key _ _ _ hc b1 hc0, key _ _ _ hn c1 hn0, ?_, ?_, ?_⟩
    · show warningOf d = _
      unfold warningOf
      rcases getString_cases d (ascii "warning message") with ⟨s, g1, g2⟩ | ⟨g1, e, g2⟩
      · rw [g1, g2]; rfl
      · rw [g1, g2]; rfl
    · intro m hm hr
      show (minIntervalOf d : Int) = m
      unfold minIntervalOf
      rcases getUint_cases d (ascii "min interval") with ⟨z, g1, g2⟩ | ⟨g1, -⟩
      · rw [g2]; exact key _ _ _ hm g2 hr
      · rw [hm] at g1; cases g1
    · intro hm
      show minIntervalOf d = 0
      unfold minIntervalOf
      rcases getUint_cases d (ascii "min interval") with ⟨z, g1, g2⟩ | ⟨g1, e, g2⟩
      · rw [hm] at g1; cases g1
      · rw [g2]

/-- **C37**, peers: an accepted response has the peers of its compact string, or one peer for each entry of its list with the id,
address and port of that entry, for ports below 2^16. -/
theorem C37_peers_partial (v6 : IP → Bytes) (parseIP : Bytes → IP) (d : Dict) (r : Response) (h : newResponse v6 parseIP d = .ok r) :
    (∃ s, strAt d (ascii "peers") = some s ∧ stringPeers v6 s = .ok r.peers) ∨
    ∃ vs, listAt d (ascii "peers") = some vs ∧ r.peers.length = vs.length ∧
      ∀ (k : Nat) (v : Value) (p : Peer.Info), vs[k]? = some v → r.peers[k]? = some p → ∃ e ip port, v = .dict e ∧
        strAt e (ascii "ip") = some ip ∧ p.ip = parseIP ip ∧ strAt e (ascii "peer id") = some p.id ∧
        intAt e (ascii "port") = some port ∧ (0 ≤ port ∧ port < 65536 → (p.port.toNat : Int) = port) := by
  unfold newResponse at h
  rcases getString_cases d (ascii "failure reason") with ⟨s, h1, h2⟩ | ⟨h1, e, h2⟩
  · rw [h2] at h; cases h
  · rw [h2] at h
    simp only at h
    obtain ⟨i', a1, h⟩ := Res.bind_eq_ok.mp h
    obtain ⟨c', b1, h⟩ := Res.bind_eq_ok.mp h
    obtain ⟨n', c1, h⟩ := Res.bind_eq_ok.mp h
    obtain ⟨ps, d1, h⟩ := Res.bind_eq_ok.mp h
    cases h
    unfold getPeers at d1
    rcases getString_cases d (ascii "peers") with ⟨s, g1, g2⟩ | ⟨g1, e, g2⟩
    · rw [g2] at d1
      exact .inl ⟨s, g1, d1⟩
    · rw [g2] at d1
      simp only at d1
      obtain ⟨vs, k1, k2⟩ := Res.bind_eq_ok.mp d1
      rcases getList_cases d (ascii "peers") with ⟨vs', k3, k4⟩ | ⟨k3, e', k4⟩
      · rw [k1] at k4
        cases k4
        rcases listPeers_cases v6 parseIP vs with ⟨-, ps', m1, m2, m3⟩ | ⟨-, e, m1⟩
        · rw [k2] at m1
          cases m1
          refine .inr ⟨vs, k3, m2, ?_⟩
          intro k v p hv hp
          obtain ⟨dd, ip, port, id, q1, q2, q3, q4, q5⟩ := m3 k v p hv hp
          subst q5
          refine ⟨dd, ip, port, q1, q2, rfl, q4, q3, ?_⟩
          intro hport
          show ((UInt16.ofNat (port % 2 ^ 64).toNat).toNat : Int) = port
          rw [UInt16.toNat_ofNat']
          omega
        · rw [k2] at m1; cases m1
      · rw [k1] at k4; cases k4

/-- **C37**, processing: whatever the tracker sends, the client gets a response or an error. -/
theorem C37_no_panic (v6 : IP → Bytes) (parseIP : Bytes → IP) (body : Option Bytes) (spare : Bytes) :
    (∃ r, doRequest v6 parseIP body spare = .ok r) ∨ ∃ e, doRequest v6 parseIP body spare = .err e := by
  unfold doRequest
  cases body with
  | none => exact .inr ⟨_, rfl⟩
  | some data =>
    simp only
    rcases (C05_decode_total data spare).1 with ⟨v, hv⟩ | ⟨e, he⟩
    · rw [hv, Res.ok_bind]
      by_cases hd : ∃ d, v = .dict d
      · obtain ⟨d, rfl⟩ := hd
        simp only
        cases hf : strAt d (ascii "failure reason") with
        | none => exact (C37_accept_iff v6 parseIP d hf).2
        | some s => exact .inr ⟨_, C37_failure v6 parseIP d (by rw [hf]; rfl)⟩
      · cases v <;> first | exact .inr ⟨_, rfl⟩ | exact absurd ⟨_, rfl⟩ hd
    · rw [he]; exact .inr ⟨e, rfl⟩

/-- **C37** refuted: a negative interval is accepted and reported as an enormous one. -/
theorem C37_refuted_negative (v6 : IP → Bytes) (parseIP : Bytes → IP) :
    ∃ r, doRequest v6 parseIP (some (ascii "d8:completei1e10:incompletei2e8:intervali-1e5:peers0:e")) [] = .ok r ∧
      r.state.interval = 2 ^ 64 - 1 := by
  have hd : Decode (ascii "d8:completei1e10:incompletei2e8:intervali-1e5:peers0:e") [] =
      .ok (.dict [(ascii "complete", .int64 1), (ascii "incomplete", .int64 2), (ascii "interval", .int64 (-1)),
        (ascii "peers", .str [])]) := by decide +kernel
  unfold doRequest
  simp only [hd, Res.ok_bind]
  exact ⟨_, rfl, rfl⟩

/-- **C37** refuted: a port that does not exist is accepted and becomes a different one. -/
theorem C37_refuted_port (v6 : IP → Bytes) (parseIP : Bytes → IP) :
    ∃ r p, newResponse v6 parseIP [(ascii "interval", .int64 1), (ascii "complete", .int64 1), (ascii "incomplete", .int64 1),
        (ascii "peers", .list [.dict [(ascii "ip", .str (ascii "1.2.3.4")), (ascii "port", .int64 65616), (ascii "peer id", .str [])]])] = .ok r ∧
      r.peers = [p] ∧ p.port = 80 := by
  exact ⟨_, _, rfl, rfl, rfl⟩

example : ∃ r, newResponse id id [(ascii "interval", .int64 1800), (ascii "complete", .int64 5), (ascii "incomplete", .int64 2),
    (ascii "min interval", .int64 60), (ascii "peers", .str [127, 0, 0, 1, 0x1a, 0xe1])] = .ok r ∧ r.state = ⟨1800, 60, [], [], 5, 2⟩ := by
  exact ⟨_, rfl, rfl⟩

/-! ### C38 -/

/-- the parameters of BEP 3 as they should arrive -/
def announced (infohash peerId : Bytes) (port up down left : Nat) : List (Bytes × Bytes) :=
  [(ascii "info_hash", infohash), (ascii "peer_id", peerId), (ascii "port", decNat port), (ascii "uploaded", decNat up),
   (ascii "downloaded", decNat down), (ascii "left", decNat left), (ascii "compact", ascii "1")]

theorem unreserved_iff (c : UInt8) : unreserved c = true ↔ Unreserved c := by
  have : ∀ n : Fin 256, unreserved (UInt8.ofNat n.val) = true ↔ (UInt8.ofNat n.val) ∈ ascii "ABCDEFGHIJKLMNOPQRSTUVWXYZabcdefghijklmnopqrstuvwxyz0123456789-._~" := by
    decide +kernel
  have h := this ⟨c.toNat, c.toNat_lt⟩
  rwa [show UInt8.ofNat c.toNat = c from UInt8.ofNat_toNat] at h

theorem parseAnnounce_iff (parse : Bytes → Option (List (Bytes × Bytes))) (announce : Bytes) (extra : List (Bytes × Bytes)) :
    parseAnnounce parse announce = some extra ↔ NoControl announce ∧ parse announce = some extra := by
  have : (announce.takeWhile (· != 35)).any isCTL = true ↔ ¬ NoControl announce := by
    unfold NoControl isCTL
    simp only [List.any_eq_true, Bool.or_eq_true, decide_eq_true_eq, beq_iff_eq]
    constructor
    · rintro ⟨c, hc, h⟩ hn
      obtain ⟨h1, h2⟩ := hn c hc
      rcases h with h | h
      · rw [UInt8.lt_iff_toNat_lt] at h; rw [UInt8.le_iff_toNat_le] at h1; omega
      · exact h2 h
    · intro hn
      apply Classical.byContradiction
      intro hne
      refine hn fun c hc => ⟨?_, fun h => hne ⟨c, hc, .inr h⟩⟩
      rw [UInt8.le_iff_toNat_le]
      have : ¬ c < 32 := fun h => hne ⟨c, hc, .inl h⟩
      rw [UInt8.lt_iff_toNat_lt] at this
      omega
  unfold parseAnnounce
  by_cases h : NoControl announce
  · rw [if_neg (fun hh => this.mp hh h)]; simp [h]
  · rw [if_pos (this.mpr h)]; simp [h]

/-- what the server reads: the values of the announce URL followed by ours, where the peer id has been escaped once too often -/
theorem request_values (parse : Bytes → Option (List (Bytes × Bytes))) (tor : Torrent) (stats : Stats) (port : UInt16) (peerId : Bytes)
    (extra : List (Bytes × Bytes)) (hc : NoControl tor.announce) (h : parse tor.announce = some extra) :
    ∃ raw q, newRequest parse tor stats port peerId = .ok raw ∧ parseQuery raw = some q ∧
      ∀ k, values q k = values extra k ++ values (announced tor.infohash (QueryEscape peerId) port.toNat stats.uploaded.toNat
        stats.dnloaded.toNat stats.left.toNat) k := by
  unfold newRequest
  rw [(parseAnnounce_iff parse tor.announce extra).mpr ⟨hc, h⟩]
  have e : announceValues extra tor.infohash stats port peerId = extra ++ announced tor.infohash (QueryEscape peerId) port.toNat
      stats.uploaded.toNat stats.dnloaded.toNat stats.left.toNat := by
    unfold announceValues announced Url.Add
    simp [decNat_eq]
  refine ⟨_, sortKeys (announceValues extra tor.infohash stats port peerId), rfl, parseQuery_join _ (sortKeys_ne_nil _ ?_), ?_⟩
  · rw [e]; simp [announced]
  · intro k
    rw [(sortKeys_spec _).2, e, values_append]

/-- **C38**, for peer ids of unreserved characters (such as those of this client, C60) and announce URLs that do not contain the
same parameters: the server reads exactly the info-hash, peer id, port and counters, and the parameters of the announce URL.
Missing from the property: other peer ids (`C38_peer_id_iff_partial`). -/
theorem C38_recovered_partial (parse : Bytes → Option (List (Bytes × Bytes))) (tor : Torrent) (stats : Stats) (port : UInt16) (peerId : Bytes)
    (extra : List (Bytes × Bytes)) (hc : NoControl tor.announce) (h : parse tor.announce = some extra) (hid : ∀ c ∈ peerId, Unreserved c)
    (hex : ∀ p ∈ extra, p.1 ∉ (announced [] [] 0 0 0 0).map Prod.fst) :
    ∃ raw q, newRequest parse tor stats port peerId = .ok raw ∧ parseQuery raw = some q ∧
      values q (ascii "info_hash") = [tor.infohash] ∧ values q (ascii "peer_id") = [peerId] ∧
      values q (ascii "port") = [decNat port.toNat] ∧ values q (ascii "uploaded") = [decNat stats.uploaded.toNat] ∧
      values q (ascii "downloaded") = [decNat stats.dnloaded.toNat] ∧ values q (ascii "left") = [decNat stats.left.toNat] ∧
      values q (ascii "compact") = [ascii "1"] ∧
      ∀ k, k ∉ (announced [] [] 0 0 0 0).map Prod.fst → values q k = values extra k := by
  obtain ⟨raw, q, h1, h2, h3⟩ := request_values parse tor stats port peerId extra hc h
  rw [(escape_eq_iff peerId).mpr fun c hm => (unreserved_iff c).mpr (hid c hm)] at h3
  have hz : ∀ k, k ∈ (announced [] [] 0 0 0 0).map Prod.fst → values extra k = [] := by
    intro k hk
    unfold values
    rw [List.map_eq_nil_iff, List.filter_eq_nil_iff]
    intro p hp he
    have he : p.1 = k := by simpa using he
    exact hex p hp (he ▸ hk)
  refine ⟨raw, q, h1, h2, ?_, ?_, ?_, ?_, ?_, ?_, ?_, ?_⟩
  all_goals try (rw [h3, hz _ (by decide)]; rfl)
  intro k hk
  rw [h3]
  have : values (announced tor.infohash peerId port.toNat stats.uploaded.toNat stats.dnloaded.toNat stats.left.toNat) k = [] := by
    unfold values
    rw [List.map_eq_nil_iff, List.filter_eq_nil_iff]
    intro p hp he
    have he : p.1 = k := by simpa using he
    apply hk
    rw [← he]
    have : (announced tor.infohash peerId port.toNat stats.uploaded.toNat stats.dnloaded.toNat stats.left.toNat).map Prod.fst =
        (announced [] [] 0 0 0 0).map Prod.fst := rfl
    rw [← this]
    exact List.mem_map_of_mem hp
  rw [this, List.append_nil]

/-- **C38**, exact characterisation for peer ids: the server reads the right peer id exactly if all of its bytes are unreserved. -/
theorem C38_peer_id_iff_partial (parse : Bytes → Option (List (Bytes × Bytes))) (tor : Torrent) (stats : Stats) (port : UInt16) (peerId : Bytes)
    (hc : NoControl tor.announce) (h : parse tor.announce = some []) :
    ∃ raw q, newRequest parse tor stats port peerId = .ok raw ∧ parseQuery raw = some q ∧
      (values q (ascii "peer_id") = [peerId] ↔ ∀ c ∈ peerId, Unreserved c) := by
  obtain ⟨raw, q, h1, h2, h3⟩ := request_values parse tor stats port peerId [] hc h
  refine ⟨raw, q, h1, h2, ?_⟩
  simp only [← unreserved_iff]
  rw [h3, ← escape_eq_iff peerId]
  show [QueryEscape peerId] = [peerId] ↔ _
  simp

/-- **C38**, what is sent: the query which the server reads in this way is the one that `Get` sends, and the answer to it is the one `Get` processes. -/
theorem C38_sent_partial (parse : Bytes → Option (List (Bytes × Bytes))) (tor : Torrent) (stats : Stats) (port : UInt16) (peerId : Bytes)
    (extra : List (Bytes × Bytes)) (hc : NoControl tor.announce) (h : parse tor.announce = some extra)
    (hid : ∀ c ∈ peerId, Unreserved c) (hex : ∀ p ∈ extra, p.1 ∉ (announced [] [] 0 0 0 0).map Prod.fst) :
    ∃ raw q, parseQuery raw = some q ∧ values q (ascii "info_hash") = [tor.infohash] ∧ values q (ascii "peer_id") = [peerId] ∧
      values q (ascii "port") = [decNat port.toNat] ∧ values q (ascii "left") = [decNat stats.left.toNat] ∧
      ∀ (v6 : IP → Bytes) (parseIP : Bytes → IP) (http : Bytes → Option Bytes) (spare : Bytes),
        Get v6 parseIP parse http spare tor stats port peerId = doRequest v6 parseIP (http raw) spare := by
  obtain ⟨raw, q, h1, h2, h3, h4, h5, -, -, h6, -⟩ := C38_recovered_partial parse tor stats port peerId extra hc h hid hex
  refine ⟨raw, q, h2, h3, h4, h5, h6, fun v6 parseIP http spare => ?_⟩
  unfold Get
  rw [h1, Res.ok_bind]

/-- the decimal notation of a counter determines the counter -/
theorem C38_numbers (m n : Nat) (h : decNat m = decNat n) : m = n := by
  rw [decNat_eq, decNat_eq] at h
  have := congrArg digitsVal h
  rwa [digitsVal_natDec, digitsVal_natDec] at this

/-- **C38**, for this client: the ids it generates arrive unchanged, whatever the random source. -/
theorem C38_own_ids (fuel : Nat) (src : Nat → Nat) (peerId : Bytes) (hp : Utils.NewPeerId fuel src = .ok peerId)
    (parse : Bytes → Option (List (Bytes × Bytes))) (tor : Torrent) (stats : Stats) (port : UInt16)
    (hc : NoControl tor.announce) (h : parse tor.announce = some []) :
    ∃ raw q, newRequest parse tor stats port peerId = .ok raw ∧ parseQuery raw = some q ∧
      values q (ascii "info_hash") = [tor.infohash] ∧ values q (ascii "peer_id") = [peerId] := by
  have := (Utils.C60_peer_id fuel src peerId hp).2.2
  obtain ⟨raw, q, h1, h2, h3, h4, -⟩ := C38_recovered_partial parse tor stats port peerId [] hc h (fun c hm => (unreserved_iff c).mp ((escape_eq_iff peerId).mp this c hm))
    (fun p hp => by cases hp)
  exact ⟨raw, q, h1, h2, h3, h4⟩

/-- **C38** refuted: the peer id of another client that contains a byte outside of the unreserved characters does not arrive. -/
theorem C38_refuted_peer_id (parse : Bytes → Option (List (Bytes × Bytes))) (tor : Torrent) (stats : Stats) (port : UInt16)
    (hc : NoControl tor.announce) (h : parse tor.announce = some []) :
    ∃ raw q, newRequest parse tor stats port (ascii "-XX0001-abc!efghijkl") = .ok raw ∧ parseQuery raw = some q ∧
      values q (ascii "peer_id") = [ascii "-XX0001-abc%21efghijkl"] := by
  obtain ⟨raw, q, h1, h2, h3⟩ := request_values parse tor stats port (ascii "-XX0001-abc!efghijkl") [] hc h
  refine ⟨raw, q, h1, h2, ?_⟩
  rw [h3]
  show [QueryEscape (ascii "-XX0001-abc!efghijkl")] = _
  decide

/-- **C38** refuted: if the announce URL has a parameter of the same name, the server reads that one first. -/
theorem C38_refuted_clash (parse : Bytes → Option (List (Bytes × Bytes))) (tor : Torrent) (stats : Stats) (port : UInt16) (peerId : Bytes)
    (hc : NoControl tor.announce) (h : parse tor.announce = some [(ascii "info_hash", ascii "x")]) :
    ∃ raw q, newRequest parse tor stats port peerId = .ok raw ∧ parseQuery raw = some q ∧
      values q (ascii "info_hash") = [ascii "x", tor.infohash] := by
  obtain ⟨raw, q, h1, h2, h3⟩ := request_values parse tor stats port peerId _ hc h
  exact ⟨raw, q, h1, h2, by rw [h3]; rfl⟩

example : Url.Encode [(ascii "b", [0xff, 32]), (ascii "a", ascii "x&y")] = ascii "a=x%26y&b=%FF+" := by decide +kernel
example : parseQuery (ascii "a=x%26y&b=%FF+") = some [(ascii "a", ascii "x&y"), (ascii "b", [0xff, 32])] := by decide +kernel

/-! ### C39 -/

/-- an update of the model's counters -/
def apply (s : Stats) : Upd → Stats
  | .up n => s.IncUploaded n
  | .down n => s.IncDnloaded n
  | .got n => s.DecLeft n

/-- **C39**.  After any history, `uploaded` and `dnloaded` are the initial amounts plus the sums of the increments modulo 2^64, and
`left` is the initial amount minus the sum of the decrements, zero when that is negative. -/
theorem C39_sums (dn up left : UInt64) (us : List Upd) :
    (us.foldl apply (NewStats dn up left)).uploaded.toNat = (up.toNat + (us.map Upd.upBytes).sum) % 2 ^ 64 ∧
    (us.foldl apply (NewStats dn up left)).dnloaded.toNat = (dn.toNat + (us.map Upd.downBytes).sum) % 2 ^ 64 ∧
    ((us.foldl apply (NewStats dn up left)).left.toNat : Int) = max 0 ((left.toNat : Int) - (us.map Upd.gotBytes).sum) := by
  have key : ∀ (us : List Upd) (s : Stats),
      (us.foldl apply s).uploaded.toNat = (s.uploaded.toNat + (us.map Upd.upBytes).sum) % 2 ^ 64 ∧
      (us.foldl apply s).dnloaded.toNat = (s.dnloaded.toNat + (us.map Upd.downBytes).sum) % 2 ^ 64 ∧
      ((us.foldl apply s).left.toNat : Int) = max 0 ((s.left.toNat : Int) - (us.map Upd.gotBytes).sum) := by
    intro us
    induction us with
    | nil =>
      intro s
      have := s.uploaded.toNat_lt; have := s.dnloaded.toNat_lt
      simp only [List.foldl_nil, List.map_nil, List.sum_nil]
      omega
    | cons u us ih =>
      intro s
      obtain ⟨h1, h2, h3⟩ := ih (apply s u)
      rw [List.foldl_cons, h1, h2, h3, List.map_cons, List.map_cons, List.map_cons, List.sum_cons, List.sum_cons, List.sum_cons]
      cases u with
      | up n =>
        simp only [apply, Stats.IncUploaded, Upd.upBytes, Upd.downBytes, Upd.gotBytes, UInt64.toNat_add]
        omega
      | down n =>
        simp only [apply, Stats.IncDnloaded, Upd.upBytes, Upd.downBytes, Upd.gotBytes, UInt64.toNat_add]
        omega
      | got n =>
        simp only [apply, Stats.DecLeft, Upd.upBytes, Upd.downBytes, Upd.gotBytes]
        split
        · rename_i hle
          have hle : s.left.toNat ≤ n.toNat := hle
          simp only [UInt64.toNat_zero]
          omega
        · rename_i hle
          have hle : n.toNat < s.left.toNat := by
            have : ¬ s.left.toNat ≤ n.toNat := hle
            omega
          simp only [UInt64.toNat_sub_of_le s.left n (Nat.le_of_lt hle)]
          omega
  exact key us (NewStats dn up left)

example : ([Upd.up 5, .got 7, .down 7, .up (2 ^ 64 - 1), .got 100].foldl apply (NewStats 0 0 50)) = ⟨4, 7, 0⟩ := by decide +kernel

/-! ### C65 -/

/-- **C65**, exact: announcing panics exactly if `http.NewRequest` rejects the announce URL.
Missing from the property: that it never panics. -/
theorem C65_panic_iff_partial (v6 : IP → Bytes) (parseIP : Bytes → IP) (parse : Bytes → Option (List (Bytes × Bytes)))
    (http : Bytes → Option Bytes) (spare : Bytes) (tor : Torrent) (stats : Stats) (port : UInt16) (peerId : Bytes) :
    (Get v6 parseIP parse http spare tor stats port peerId = .panic ↔ ¬ NoControl tor.announce ∨ parse tor.announce = none) ∧
    Get v6 parseIP parse http spare tor stats port peerId ≠ .timeout := by
  unfold Get newRequest
  cases h : parseAnnounce parse tor.announce with
  | none =>
    have : ¬ NoControl tor.announce ∨ parse tor.announce = none := by
      apply Classical.byContradiction
      intro hn
      obtain ⟨h1, h2⟩ := not_or.mp hn
      obtain ⟨e, he⟩ := Option.ne_none_iff_exists'.mp h2
      rw [(parseAnnounce_iff parse _ e).mpr ⟨Classical.not_not.mp h1, he⟩] at h
      cases h
    simpa using this
  | some extra =>
    rw [Res.ok_bind]
    have hn : ¬ (¬ NoControl tor.announce ∨ parse tor.announce = none) := by
      obtain ⟨h1, h2⟩ := (parseAnnounce_iff parse _ extra).mp h
      rintro (hh | hh)
      · exact hh h1
      · rw [h2] at hh; cases hh
    simp only [hn, iff_false]
    rcases C37_no_panic v6 parseIP (http (Url.Encode (announceValues extra tor.infohash stats port peerId))) spare with ⟨r, h⟩ | ⟨e, h⟩
    · rw [h]; simp
    · rw [h]; simp

/-- an info dictionary -/
def exInfo4 : Dict :=
  [(ascii "length", .int64 4), (ascii "name", .str (ascii "n")), (ascii "piece length", .int64 4),
   (ascii "pieces", .str (ascii "aaaaaaaaaaaaaaaaaaaa"))]

/-- **C65** refuted: a torrent file with a control character in its announce URL loads, and announcing it panics. -/
theorem C65_refuted_bad_url (H : Bytes → Bytes) :
    ∃ t, FromTorrentFile H (some (ascii "d8:announce3:a\nb4:infod6:lengthi4e4:name1:n12:piece lengthi4e6:pieces20:aaaaaaaaaaaaaaaaaaaaee"))
        [] (ascii "/w") = .ok t ∧
      ∀ v6 parseIP parse http spare stats port peerId, Get v6 parseIP parse http spare t stats port peerId = .panic := by
  have hd : Decode (ascii "d8:announce3:a\nb4:infod6:lengthi4e4:name1:n12:piece lengthi4e6:pieces20:aaaaaaaaaaaaaaaaaaaaee") [] =
      .ok (.dict [(ascii "announce", .str (ascii "a\nb")), (ascii "info", .dict (exInfo4))]) := by decide +kernel
  obtain ⟨ti, h4⟩ := Res.isOk_iff (r := FromDict exInfo4 (ascii "/w")) (by decide +kernel)
  refine ⟨_, fromTorrentFile_eq (an := ascii "a\nb") (infod := exInfo4) hd (by decide +kernel) (by decide +kernel) h4 H, ?_⟩
  intro v6 parseIP parse http spare stats port peerId
  rw [(C65_panic_iff_partial v6 parseIP parse http spare _ stats port peerId).1]
  exact .inl fun h => absurd (h 10 (show (10 : UInt8) ∈ (ascii "a\nb").takeWhile (· != 35) by decide)).1 (by decide)

end Verif.Tracker
