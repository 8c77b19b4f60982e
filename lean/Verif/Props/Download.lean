import Verif.Lemmas.Lts
import Verif.Props.Peers
/-
Property C83: asking for the pieces that are missing; and C76, blocks are sent only if they were asked for.
-/
set_option autoImplicit false

namespace Verif.Peers
open Verif.P2P Verif.Bf Verif.Files Verif.FileIO Verif.PieceTracker Verif.Layout Verif.Bits Verif.Wire Verif.Avail Verif.Handshake
  Verif.HandshakeSpec Verif.MsgHandler Verif.SessionSpec Verif.PeersSpec Verif.Peer Verif.Session Verif.Lts

/-! ### form of messages -/

theorem getElem?_wire_four (w : Wire.Msg) : (wire w)[4]? = (body w)[0]? := by
  unfold wire
  rw [List.getElem?_append_right (by rw [be32_length]; omega), be32_length]

theorem isBlock_wire (w : Wire.Msg) : isBlock (wire w) = true ↔ ∃ i b blk, w = .piece i b blk := by
  unfold isBlock
  rw [getElem?_wire_four]
  cases w <;> simp [body]

theorem isBlock_handshake {x ih id : Bytes} (h : IsHandshake x ih id) : isBlock x = false := by
  obtain ⟨r, rfl⟩ := isHandshake_pstr h
  rfl

/-- handling a message writes nothing, or the answer to the request -/
theorem handleOne_asked {pl : Nat} {hashes : Bytes} {files : List EntryBase} {cs : List Bytes} {s : MsgHandler.Swarm} {st : St}
    (h : Running pl hashes files cs s st.buf) (me : PH) (ok : Bool) (w : Wire.Msg) :
    (handleOne s me (fun _ => ok) (received w) st).1.out = st.out ∨
    ∃ a : Answer, w = a.asked ∧ a.block.length = a.length.toNat ∧ (handleOne s me (fun _ => ok) (received w) st).1.out = st.out ++ [a.sent] ∧
      (handleOne s me (fun _ => ok) (received w) st).2 = .ok () := by
  cases w with
  | request i b l =>
    have hs := handleRequest_spec h i b l ok
    have e : handleOne s me (fun _ => ok) (received (.request i b l)) st = handleRequest s i b l ok st := rfl
    rw [hs] at e
    rw [e]
    by_cases hi : i.toNat < s.tor.numPieces
    · rw [if_pos hi]
      by_cases hg : s.bf.Get i.toNat = .ok true
      · rw [if_pos hg]
        by_cases hl : b.toNat + l.toNat ≤ pl
        · rw [if_pos hl]
          cases ok
          · exact .inl rfl
          · refine .inr ⟨⟨i, b, l, _⟩, rfl, ?_, rfl, rfl⟩
            have := filled_length pl cs i.toNat st.buf h.buf
            show (List.take l.toNat (List.drop b.toNat (filled pl cs i.toNat st.buf))).length = l.toNat
            rw [List.length_take, List.length_drop]
            omega
        · rw [if_neg hl]; exact .inl rfl
      · rw [if_neg hg]; exact .inl rfl
    · rw [if_neg hi]
      repeat' split
      all_goals exact .inl rfl
  | bitfield p =>
    have e : handleOne s me (fun _ => ok) (received (.bitfield p)) st = handleBitfield s me (rxBitfield p) st := rfl
    rw [e]
    unfold handleBitfield
    repeat' split
    all_goals exact .inl rfl
  | _ => exact .inl rfl

/-! ### what is true of every connection in every state -/

/-- the messages come from the buffers received; the blocks written answer requests handled -/
structure AskedOk (c : Conn) : Prop where
  came : ∀ m, m ∈ c.handled ∨ m ∈ c.todo → ∃ buf ∈ c.got, ∃ fuel dar, DecodeAll fuel buf = .ok dar ∧ m ∈ dar.msgs
  answers : ∃ l : List Answer, (l.map Answer.asked).Sublist (c.handled.map Msg.view) ∧ c.out.filter isBlock = l.map Answer.sent ∧
    ∀ a ∈ l, a.block.length = a.length.toNat

theorem greeting_noBlock {ih own bits : Bytes} {start : List Bytes} (h : Greeting ih own bits start) : start.filter isBlock = [] := by
  obtain ⟨hs, b, u, h1, hb, hu, rfl⟩ := h
  rw [List.filter_cons_of_neg (by rw [isBlock_handshake h1]; decide), List.filter_append]
  have n : ∀ w : Wire.Msg, (∀ i b blk, w ≠ .piece i b blk) → isBlock (wire w) = false := by
    intro w hw
    cases e : isBlock (wire w) with
    | false => rfl
    | true => obtain ⟨i, b, blk, e'⟩ := (isBlock_wire w).mp e; exact absurd e' (hw i b blk)
  rcases hb with rfl | rfl <;> rcases hu with rfl | rfl <;> simp [n]

theorem step_asked {pl : Nat} {hashes : Bytes} {files : List EntryBase} {cs : List Bytes} {E : Env} (h : Ready pl hashes files cs E) {σ σ' : Client}
    (hs : Sound E cs.flatten pl σ) (ha : ∀ c ∈ σ.conns, AskedOk c) (step : Step E σ σ') : ∀ c ∈ σ'.conns, AskedOk c := by
  have add : ∀ (p : Info) (ph : Handler) (ptr : Nat) (out : List Bytes), Greeting E.infohash E.ownId E.s.bf.data out →
      ∀ c ∈ σ.conns ++ [newConn p ptr ph out], AskedOk c := by
    intro p ph ptr out hg c hc
    rcases List.mem_append.mp hc with hc | hc
    · exact ha c hc
    · rw [List.mem_singleton.mp hc]
      exact ⟨nofun, [], by simp [newConn], by simp [newConn, greeting_noBlock hg], nofun⟩
  have upd : ∀ (i : Nat) (c c' : Conn), σ.conns[i]? = some c → (AskedOk c → AskedOk c') → ∀ x ∈ σ.conns.set i c', AskedOk x := by
    intro i c c' hi e x hx
    rcases List.mem_or_eq_of_mem_set hx with hx | rfl
    · exact ha x hx
    · exact e (ha c (List.mem_of_getElem? hi))
  have grow : ∀ (c c' : Conn) (buf : Bytes), c'.got = c.got ++ [buf] → c'.handled = c.handled → c'.todo = c.todo → c'.out = c.out → AskedOk c → AskedOk c' := by
    intro c c' buf e1 e2 e3 e4 k
    refine ⟨fun m hm => ?_, ?_⟩
    · rw [e2, e3] at hm
      obtain ⟨b, hb, r⟩ := k.came m hm
      exact ⟨b, by rw [e1]; exact List.mem_append_left _ hb, r⟩
    · rw [e2, e4]; exact k.answers
  have written : ∀ (i : Nat) (c : Conn) (m : P2P.Msg) (ms : List P2P.Msg) (ok : Bool) (st : St) (r : Res Unit), σ.crashed = false → σ.conns[i]? = some c →
      c.todo = m :: ms → handleOne E.s c.me (fun _ => ok) m (c.st σ.ppt) = (st, r) →
      st.out = c.out ∨ ∃ a : Answer, m.view = a.asked ∧ a.block.length = a.length.toNat ∧ st.out = c.out ++ [a.sent] ∧ r = .ok () := by
    intro i c m ms ok st r hc hi ht hh
    have hok := (hs.1 hc).conns c (List.mem_of_getElem? hi)
    obtain ⟨hd, hm⟩ := hok.todo m (by rw [ht]; simp)
    have := handleOne_asked (st := c.st σ.ppt) (h.run.withBuf hok.buf) c.me ok m.view
    rw [← hm, hh] at this
    exact this
  cases step with
  | incoming c out first p ph ptr ok hc h1 h2 h3 =>
    have hn : E.s.tor.numPieces ≤ 2 ^ 32 := let ⟨_, hr, _⟩ := (hs.1 hc).reached; hr.1
    obtain ⟨hwf, hfits⟩ := bf_fits h hn
    have hans := C41_answer E.v6 c E.infohash E.ownId E.s.bf hwf hfits p (by rw [h1])
    rw [h1] at hans
    simp only at hans
    refine add p ph ptr _ ⟨MakeHandshake E.infohash E.ownId, [wire (.bitfield E.s.bf.data)], first, (C40_made _ _ E.infohash h.ih h.own).1, .inr rfl, first_spec ok first h3, ?_⟩
    rw [hans]; rfl
  | outgoing p p' out first ph ptr ok hc h1 h2 h3 =>
    have e : out = [MakeHandshake E.infohash E.ownId] := by
      unfold FromBootstrap at h1
      simp at h1
      exact h1.1.symm
    exact add p ph ptr _ ⟨MakeHandshake E.infohash E.ownId, [], first, (C40_made _ _ E.infohash h.ih h.own).1, .inl rfl, first_spec ok first h3, by rw [e]; rfl⟩
  | incomingPanic => exact ha
  | outgoingPanic => exact ha
  | receive i c buf fuel dar hc hi hr ht hd =>
    refine upd i c _ hi fun k => ⟨?_, k.answers⟩
    rintro m (hm | hm)
    · obtain ⟨b, hb, r⟩ := k.came m (.inl hm)
      exact ⟨b, List.mem_append_left _ hb, r⟩
    · exact ⟨buf, by simp, fuel, dar, hd, hm⟩
  | receivePanic i c buf fuel hc hi hr ht hd => exact upd i c _ hi (grow c _ buf rfl rfl rfl rfl)
  | receiveHangs i c buf hc hi hr ht hd => exact upd i c _ hi (grow c _ buf rfl rfl rfl rfl)
  | handle i c m ms ok st hc hi hr ht hh =>
    refine upd i c _ hi fun k => ⟨?_, ?_⟩
    · rintro x (hx | hx)
      · rcases List.mem_append.mp hx with hx | hx
        · exact k.came x (.inl hx)
        · exact k.came x (.inr (by rw [ht, List.mem_singleton.mp hx]; simp))
      · exact k.came x (.inr (by rw [ht]; exact List.mem_cons_of_mem _ hx))
    · obtain ⟨l, l1, l2, l3⟩ := k.answers
      rcases written i c m ms ok st _ hc hi ht hh with e | ⟨a, a1, a2, a3, -⟩
      · refine ⟨l, ?_, by show st.out.filter _ = _; rw [e]; exact l2, l3⟩
        show List.Sublist _ ((c.handled ++ [m]).map Msg.view)
        rw [List.map_append]
        exact l1.trans (List.sublist_append_left _ _)
      · refine ⟨l ++ [a], ?_, ?_, ?_⟩
        · show List.Sublist _ ((c.handled ++ [m]).map Msg.view)
          rw [List.map_append, List.map_append, List.map_singleton, List.map_singleton, a1]
          exact l1.append (List.Sublist.refl _)
        · show st.out.filter _ = _
          have : isBlock a.sent = true := (isBlock_wire _).mpr ⟨_, _, _, rfl⟩
          rw [a3, List.filter_append, l2, List.map_append]
          simp [this]
        · intro x hx
          rcases List.mem_append.mp hx with hx | hx
          · exact l3 x hx
          · rw [List.mem_singleton.mp hx]; exact a2
  | handleError i c m ms ok st e hc hi hr ht hh =>
    refine upd i c _ hi fun k => ⟨k.came, ?_⟩
    rcases written i c m ms ok st _ hc hi ht hh with e | ⟨a, -, -, -, hf⟩
    · show ∃ l : List Answer, _ ∧ st.out.filter _ = _ ∧ _
      rw [e]; exact k.answers
    · cases hf
  | handlePanic => exact ha
  | handleHangs i c m ms ok st hc hi hr ht hh =>
    refine upd i c _ hi fun k => ⟨k.came, ?_⟩
    rcases written i c m ms ok st _ hc hi ht hh with e | ⟨a, -, -, -, hf⟩
    · show ∃ l : List Answer, _ ∧ st.out.filter _ = _ ∧ _
      rw [e]; exact k.answers
    · cases hf
  | request i c t n fuel ms ws out hc hi hb hx hq hn hm hw ho =>
    obtain rfl := req_empty fuel _ _ _ hm
    obtain rfl : ws = [] := by cases ws with
      | nil => rfl
      | cons => cases hw
    obtain rfl := List.sublist_nil.mp ho
    refine upd i c _ hi fun k => ⟨k.came, ?_⟩
    simp only [List.append_nil]
    exact k.answers
  | requestHangs i c t n hc hi hb hx hq hn hm => exact upd i c _ hi fun k => ⟨k.came, k.answers⟩
  | requestNone => exact ha
  | requestPanic => exact ha
  | ping i c m hc hi hm =>
    refine upd i c _ hi fun k => ⟨k.came, ?_⟩
    have : m = wire .keepAlive := (Res.ok.inj hm).symm
    subst this
    show ∃ l : List Answer, _ ∧ (c.out ++ [wire .keepAlive]).filter _ = _ ∧ _
    rw [List.filter_append, show [wire .keepAlive].filter isBlock = [] from by decide, List.append_nil]
    exact k.answers

theorem reach_asked {pl : Nat} {hashes : Bytes} {files : List EntryBase} {cs : List Bytes} {E : Env} (h : Ready pl hashes files cs E)
    (hn : E.s.tor.numPieces ≤ 2 ^ 32) {σ₀ σ : Client} (h0 : Initial E σ₀) (hr : Reach (Step E) σ₀ σ) : ∀ c ∈ σ.conns, AskedOk c := by
  induction hr with
  | refl => rw [h0.2.1]; nofun
  | tail σ1 σ2 hr hs ih => exact step_asked h (reach_sound h hn h0 hr) ih hs

/-- **C76**: in every execution, whatever the peers send: the blocks written to a connection are answers to requests that came on the same
connection, in the same order, at most one for each request, with the index, the position and the number of bytes that were asked for. -/
theorem C76_asked {pl : Nat} {hashes : Bytes} {files : List EntryBase} {cs : List Bytes} {E : Env} (h : Ready pl hashes files cs E)
    (hn : E.s.tor.numPieces ≤ 2 ^ 32) (σ₀ σ : Client) (h0 : Initial E σ₀) (hr : Reach (Step E) σ₀ σ) (c : Conn) (hm : c ∈ σ.conns) :
    ∃ l : List Answer, (l.map Answer.asked).Sublist (c.handled.map Msg.view) ∧ c.out.filter isBlock = l.map Answer.sent ∧
      ∀ a ∈ l, a.block.length = a.length.toNat :=
  (reach_asked h hn h0 hr c hm).answers

/-! ### C83 -/

theorem reach_sent {pl : Nat} {hashes : Bytes} {files : List EntryBase} {cs : List Bytes} {E : Env} (h : Ready pl hashes files cs E)
    (hn : E.s.tor.numPieces ≤ 2 ^ 32) {σ₀ σ : Client} (h0 : Initial E σ₀) (hr : Reach (Step E) σ₀ σ) (c : Conn) (hm : c ∈ σ.conns) (x : Bytes) (hx : x ∈ c.out) :
    Allowed cs.flatten pl E.s.tor.numPieces (ours E.s) E.infohash E.ownId E.s.bf.data x := by
  cases hc : σ.crashed with
  | false => exact C76_only h hn σ₀ σ h0 hr hc c hm x hx
  | true =>
    cases hr with
    | refl => rw [h0.2.2] at hc; cases hc
    | tail σ1 _ hr hs =>
      have old := C76_only h hn σ₀ σ1 h0 hr
      cases hs with
      | incomingPanic _ e => exact old e c hm x hx
      | outgoingPanic _ e => exact old e c hm x hx
      | handlePanic _ _ _ _ _ _ e => exact old e c hm x hx
      | requestPanic _ _ e => exact old e c hm x hx
      | receivePanic i c1 buf fuel e hi hr ht hd =>
        rcases List.mem_or_eq_of_mem_set hm with hm | rfl
        · exact old e c hm x hx
        · exact old e c1 (List.mem_of_getElem? hi) x hx
      | _ => simp_all [Client.set]

/-- **C83** is false: in every execution of every client, whatever it lacks and whatever the peers announce, no request is ever sent. -/
theorem C83_refuted_no_request {pl : Nat} {hashes : Bytes} {files : List EntryBase} {cs : List Bytes} {E : Env} (h : Ready pl hashes files cs E)
    (hn : E.s.tor.numPieces ≤ 2 ^ 32) (σ₀ σ : Client) (h0 : Initial E σ₀) (hr : Reach (Step E) σ₀ σ) (c : Conn) (hm : c ∈ σ.conns) (x : Bytes) (hx : x ∈ c.out)
    (i b l : UInt32) : x ≠ wire (.request i b l) := by
  have four : (wire (.request i b l))[4]? = some 6 := by rw [getElem?_wire_four]; rfl
  have ne : ∀ w : Wire.Msg, (body w)[0]? ≠ some 6 → wire w ≠ wire (.request i b l) := by
    intro w hw e
    rw [← e, getElem?_wire_four] at four
    exact hw four
  rcases reach_sent h hn h0 hr c hm x hx with hh | rfl | rfl | rfl | ⟨j, b', blk, rfl, -⟩
  · obtain ⟨r, rfl⟩ := isHandshake_pstr hh
    intro e
    rw [← e] at four
    revert four
    simp
  all_goals exact ne _ (by simp [body])

/-- the peers of a client and what was handled from them -/
def known (σ : Client) : List (Bytes × List Wire.Msg) := σ.conns.map fun x => (x.peer.str, x.handled.map Msg.view)

/-- **C83** (partial: the choice only).  In every state of every execution the tracker gives a connection a piece precisely if one is missing here and
announced by a peer with that text; it is such a piece, and none of those was announced by fewer peers. -/
theorem C83_chosen_partial {pl : Nat} {hashes : Bytes} {files : List EntryBase} {cs : List Bytes} {E : Env} (h : Ready pl hashes files cs E)
    (hn : E.s.tor.numPieces ≤ 2 ^ 32) (σ₀ σ : Client) (h0 : Initial E σ₀) (hr : Reach (Step E) σ₀ σ) (hc : σ.crashed = false) (c : Conn) (hm : c ∈ σ.conns) :
    ∃ t n found, NextPiece σ.ppt E.s.bf c.me = .ok (t, n, found) ∧
      (found = true ↔ ∃ j, j < E.s.tor.numPieces ∧ ours E.s j = false ∧ ∃ ws, (c.peer.str, ws) ∈ known σ ∧ InBitfield ws j) ∧
      (found = true → n < E.s.tor.numPieces ∧ ours E.s n = false ∧ (∃ ws, (c.peer.str, ws) ∈ known σ ∧ InBitfield ws n) ∧
        ∀ j, j < E.s.tor.numPieces → ours E.s j = false → (∃ ws, (c.peer.str, ws) ∈ known σ ∧ InBitfield ws j) →
          ∀ kn kj, Holders (known σ) n kn → Holders (known σ) j kj → kn.length ≤ kj.length) := by
  have g := (reach_sound h hn h0 hr).1 hc
  have hkey := reach_keys h0 hr
  obtain ⟨calls, hrc, -⟩ := g.reached
  obtain ⟨hsw, -⟩ := reachable_exact h.run.bf
  have h1 := hsw.data_len
  have h2 := hsw.hi
  have h3 := h.run.nbits
  have hown : E.s.tor.numPieces ≤ 8 * E.s.bf.data.length := by omega
  have hget : ∀ j : Nat, j < E.s.tor.numPieces → ∀ v, E.s.bf.Get j = .ok v ↔ ours E.s j = v := by
    intro j hj v
    rw [get_nat, if_pos (by omega)]
    exact ⟨fun e => Res.ok.inj e, fun e => by rw [← e]; rfl⟩
  have hmem : ∀ j : Nat, j < E.s.tor.numPieces → ∀ k, k ∈ after calls j ↔ ∃ ws, (k, ws) ∈ known σ ∧ InBitfield ws j := by
    intro j hj k
    rw [← hrc.inv.registered j hj, g.registered j hj]
    constructor
    · rintro ⟨x, hx, e, hb⟩
      exact ⟨_, List.mem_map.mpr ⟨x, hx, by rw [← hkey x hx, e]⟩, hb⟩
    · rintro ⟨ws, hw, hb⟩
      obtain ⟨x, hx, e⟩ := List.mem_map.mp hw
      cases e
      exact ⟨x, hx, hkey x hx, hb⟩
  obtain ⟨t, n, found, e, f1, -, f3⟩ := C47_rarest E.s.tor.numPieces calls σ.ppt hrc E.s.bf hown c.me
  rw [hkey c hm] at f1 f3
  refine ⟨t, n, found, e, ?_, ?_⟩
  · have : (∃ j : Nat, j < E.s.tor.numPieces ∧ E.s.bf.Get j = .ok false ∧ c.peer.str ∈ after calls j) ↔
        ∃ j, j < E.s.tor.numPieces ∧ ours E.s j = false ∧ ∃ ws, (c.peer.str, ws) ∈ known σ ∧ InBitfield ws j :=
      exists_congr fun j => and_congr_right fun hj => by rw [hget j hj, hmem j hj]
    rw [← this]
    cases found with
    | true => exact ⟨fun _ => Classical.byContradiction fun hno => absurd (f3.mpr hno) (by decide), fun _ => rfl⟩
    | false => exact ⟨nofun, fun hx => absurd hx (f3.mp rfl)⟩
  · intro hf
    obtain ⟨g1, g2, g3, g4⟩ := f1 hf
    refine ⟨g1, (hget n g1 _).mp g2, (hmem n g1 _).mp g3, fun j hj hoj haj kn kj hkn hkj => ?_⟩
    have := g4 j hj ((hget j hj _).mpr hoj) ((hmem j hj _).mpr haj)
    have l1 := nodup_le (after calls n) kn hkn.1 (fun k hk => (hmem n g1 k).mpr ((hkn.2 k).mp hk))
    have l2 := nodup_le kj (after calls j) (hrc.inv.nodup j) (fun k hk => (hkj.2 k).mpr ((hmem j hj k).mp hk))
    omega

/-- the number of a piece that exists makes no problem: making its requests never ends -/
theorem requests_hang {pl : Nat} {hashes : Bytes} {files : List EntryBase} {cs : List Bytes} {E : Env} (h : Ready pl hashes files cs E)
    (hn : E.s.tor.numPieces ≤ 2 ^ 32) (hpl : pl < 2 ^ 32) (hnum : needed (total (lens files)) pl = E.s.tor.numPieces) (n : Nat) (hlt : n < E.s.tor.numPieces)
    (fuel : Nat) : createReqMessages fuel E.s.tor (UInt32.ofNat n) = .timeout := by
  refine C52_refuted_all_pieces pl hashes files E.s.tor h.run.accepted hpl hnum (UInt32.ofNat n) ?_ fuel
  rw [UInt32.toNat_ofNat_of_lt' (by show n < 2 ^ 32; omega)]
  exact hlt

/-- **C83** is false: as soon as requestLoop of a connection finds a piece to ask for, it never gets any further: making the requests does not end,
however many rounds it is given.  (Piece length below 2^32 and the right number of hashes.) -/
theorem C83_refuted_hangs {pl : Nat} {hashes : Bytes} {files : List EntryBase} {cs : List Bytes} {E : Env} (h : Ready pl hashes files cs E)
    (hn : E.s.tor.numPieces ≤ 2 ^ 32) (hpl : pl < 2 ^ 32) (hnum : needed (total (lens files)) pl = E.s.tor.numPieces)
    (σ₀ σ : Client) (h0 : Initial E σ₀) (hr : Reach (Step E) σ₀ σ) (hc : σ.crashed = false) (hmiss : E.s.bf.Complete = false)
    (i : Nat) (c : Conn) (hi : σ.conns[i]? = some c) (ha : c.asking = true) (hq : c.reqs < 5)
    (hj : ∃ j, j < E.s.tor.numPieces ∧ ours E.s j = false ∧ ∃ ws, (c.peer.str, ws) ∈ known σ ∧ InBitfield ws j) :
    ∃ t n, NextPiece σ.ppt E.s.bf c.me = .ok (t, n, true) ∧ (∀ fuel, createReqMessages fuel E.s.tor (UInt32.ofNat n) = .timeout) ∧
      Step E σ { σ.set i { c with asking := false } with ppt := t } := by
  obtain ⟨t, n, found, e, f1, f2⟩ := C83_chosen_partial h hn σ₀ σ h0 hr hc c (List.mem_of_getElem? hi)
  obtain rfl := f1.mpr hj
  have hh := requests_hang h hn hpl hnum n (f2 rfl).1
  exact ⟨t, n, e, hh, .requestHangs i c t n hc hi hmiss ha hq e hh⟩

/-- **C83** is false for pieces whose length is 0 modulo 2^32 too (the last piece, if there are more hashes than the data has pieces): making the requests ends, but there are none, so nothing
is written; the piece counts as asked for, and after five of them requestLoop only waits. -/
theorem C83_refuted_silent (E : Env) (σ : Client) (hc : σ.crashed = false) (hmiss : E.s.bf.Complete = false) (i : Nat) (c : Conn) (hi : σ.conns[i]? = some c) (ha : c.asking = true)
    (hq : c.reqs < 5) (t : Tracker) (n : Nat) (hn : NextPiece σ.ppt E.s.bf c.me = .ok (t, n, true)) (hlen : (2 ^ 32 : Int) ∣ lengthOf E.s.tor (UInt32.ofNat n).toNat) :
    Step E σ { σ.set i { c with reqs := c.reqs + 1 } with ppt := t } := by
  have := Step.request (E := E) i c t n 1 [] [] [] hc hi hmiss ha hq hn (C52_empty_partial _ _ hlen 0) rfl (List.Sublist.refl _)
  rwa [List.append_nil] at this

/-- **C83** is false: it is like that forever.  In every execution no connection ever gets the requests of a single piece ready, and one whose requestLoop has
found a piece never asks for anything again. -/
theorem C83_refuted_forever {pl : Nat} {hashes : Bytes} {files : List EntryBase} {cs : List Bytes} {E : Env} (h : Ready pl hashes files cs E)
    (hn : E.s.tor.numPieces ≤ 2 ^ 32) (hpl : pl < 2 ^ 32) (hnum : needed (total (lens files)) pl = E.s.tor.numPieces)
    (σ₀ σ : Client) (h0 : Initial E σ₀) (hr : Reach (Step E) σ₀ σ) (i : Nat) (c : Conn) (hi : σ.conns[i]? = some c) :
    c.reqs = 0 ∧ (c.asking = false → ∀ σ', Reach (Step E) σ σ' → ∃ c', σ'.conns[i]? = some c' ∧ c'.peer = c.peer ∧ c'.asking = false) := by
  -- one step
  have one : ∀ σ σ' : Client, Reach (Step E) σ₀ σ → Step E σ σ' → ∀ i : Nat, (∀ c', σ'.conns[i]? = some c' → σ.conns[i]? = none → c'.reqs = 0) ∧
      ∀ c, σ.conns[i]? = some c → ∃ c', σ'.conns[i]? = some c' ∧ c'.peer = c.peer ∧ (c.reqs = 0 → c'.reqs = 0) ∧ (c.asking = false → c'.asking = false) := by
    intro σ σ' hr hs i
    have same : ∀ c, σ.conns[i]? = some c → ∃ c', σ.conns[i]? = some c' ∧ c'.peer = c.peer ∧ (c.reqs = 0 → c'.reqs = 0) ∧ (c.asking = false → c'.asking = false) :=
      fun c hc => ⟨c, hc, rfl, id, id⟩
    have add : ∀ (p : Info) (ph : Handler) (ptr : Nat) (out : List Bytes), (∀ c', (σ.conns ++ [newConn p ptr ph out])[i]? = some c' → σ.conns[i]? = none → c'.reqs = 0) ∧
        ∀ c, σ.conns[i]? = some c → ∃ c', (σ.conns ++ [newConn p ptr ph out])[i]? = some c' ∧ c'.peer = c.peer ∧ (c.reqs = 0 → c'.reqs = 0) ∧ (c.asking = false → c'.asking = false) := by
      intro p ph ptr out
      constructor
      · intro c' hc' hno
        rw [List.getElem?_append_right (List.getElem?_eq_none_iff.mp hno)] at hc'
        have := List.mem_of_getElem? hc'
        rw [List.mem_singleton.mp this]
        rfl
      · intro c hc
        exact ⟨c, by rw [List.getElem?_append_left (List.getElem?_eq_some_iff.mp hc).1]; exact hc, rfl, id, id⟩
    have upd : ∀ (j : Nat) (d d' : Conn), σ.conns[j]? = some d → d'.peer = d.peer → (d.reqs = 0 → d'.reqs = 0) → (d.asking = false → d'.asking = false) →
        (∀ c', (σ.conns.set j d')[i]? = some c' → σ.conns[i]? = none → c'.reqs = 0) ∧
        ∀ c, σ.conns[i]? = some c → ∃ c', (σ.conns.set j d')[i]? = some c' ∧ c'.peer = c.peer ∧ (c.reqs = 0 → c'.reqs = 0) ∧ (c.asking = false → c'.asking = false) := by
      intro j d d' hd e1 e2 e3
      constructor
      · intro c' hc' hno
        have := (List.getElem?_eq_some_iff.mp hc').1
        rw [List.length_set] at this
        rw [List.getElem?_eq_none_iff] at hno
        omega
      · intro c hc
        by_cases e : j = i
        · subst e
          rw [hd] at hc
          cases hc
          exact ⟨d', by rw [List.getElem?_set_self (List.getElem?_eq_some_iff.mp hd).1], e1, e2, e3⟩
        · exact ⟨c, by rw [List.getElem?_set_ne e]; exact hc, rfl, id, id⟩
    have none' : ∀ c', σ.conns[i]? = some c' → σ.conns[i]? = none → c'.reqs = 0 := fun c' h1 h2 => by rw [h1] at h2; cases h2
    cases hs with
    | incoming c out first p ph ptr ok hc h1 h2 h3 => exact add p ph ptr _
    | outgoing p p' out first ph ptr ok hc h1 h2 h3 => exact add p ph ptr _
    | incomingPanic => exact ⟨none', same⟩
    | outgoingPanic => exact ⟨none', same⟩
    | receive j d buf fuel dar hc hi hr ht hd => exact upd j d _ hi rfl id id
    | receivePanic j d buf fuel hc hi hr ht hd => exact upd j d _ hi rfl id id
    | receiveHangs j d buf hc hi hr ht hd => exact upd j d _ hi rfl id id
    | handle j d m ms ok st hc hi hr ht hh => exact upd j d _ hi rfl id id
    | handleError j d m ms ok st e hc hi hr ht hh => exact upd j d _ hi rfl id id
    | handlePanic => exact ⟨none', same⟩
    | handleHangs j d m ms ok st hc hi hr ht hh => exact upd j d _ hi rfl id id
    | request j d t n fuel ms ws out hc hi hb ha hq hnx hm hw ho =>
      obtain ⟨t', n', found, e, -, f2⟩ := C83_chosen_partial h hn σ₀ σ h0 hr hc d (List.mem_of_getElem? hi)
      rw [hnx] at e
      cases e
      rw [requests_hang h hn hpl hnum n (f2 rfl).1] at hm
      cases hm
    | requestHangs j d t n hc hi hb ha hq hn hm => exact upd j d _ hi rfl id (fun _ => rfl)
    | requestNone => exact ⟨none', same⟩
    | requestPanic => exact ⟨none', same⟩
    | ping j d m hc hi hm => exact upd j d _ hi rfl id id
  constructor
  · revert hi
    induction hr generalizing i c with
    | refl => intro hi; rw [h0.2.1] at hi; cases hi
    | tail σ1 σ2 hr hs ih =>
      intro hi
      obtain ⟨o1, o2⟩ := one σ1 σ2 hr hs i
      cases e : σ1.conns[i]? with
      | none => exact o1 c hi e
      | some d =>
        obtain ⟨c', e1, -, e2, -⟩ := o2 d e
        rw [hi] at e1
        cases e1
        exact e2 (ih i d e)
  · intro ha σ' hr'
    induction hr' with
    | refl => exact ⟨c, hi, rfl, ha⟩
    | tail σ1 σ2 hr1 hs ih =>
      obtain ⟨d, d1, d2, d3⟩ := ih
      obtain ⟨c', e1, e2, -, e3⟩ := (one σ1 σ2 (Reach.trans hr hr1) hs i).2 d d1
      exact ⟨c', e1, e2.trans d2, e3 d3⟩

/-! ### two clients -/

theorem decodeAll_group {pl : Nat} {hashes : Bytes} {files : List EntryBase} {cs : List Bytes} {E : Env} (h : Ready pl hashes files cs E)
    (hpos : 0 < E.s.tor.numPieces) (g : List Bytes)
    (hg : ∀ x ∈ g, Allowed cs.flatten pl E.s.tor.numPieces (ours E.s) E.infohash E.ownId E.s.bf.data x) (hlen : g.flatten.length < 2 ^ 32)
    (halone : ∀ x ∈ g, (∃ ih id, IsHandshake x ih id) → g = [x]) (fuel : Nat) (dar : DecodeAllResult) (hd : DecodeAll fuel g.flatten = .ok dar) :
    ∀ m ∈ dar.msgs, ∀ i b l, m.view ≠ .request i b l := by
  by_cases hhs : ∃ x ∈ g, ∃ ih id, IsHandshake x ih id
  · obtain ⟨x, hx, ih, id, hh⟩ := hhs
    have e := halone x hx ⟨ih, id, hh⟩
    obtain ⟨n, hn⟩ := decodeAll_handshake x ih id hh
    rw [e, List.flatten_singleton] at hd
    have := decodeAll_unique fuel 2 x (by rw [hd]; nofun) (by rw [hn]; nofun)
    rw [hd, hn] at this
    cases this
    nofun
  · -- messages up to the first block
    obtain ⟨hsw, -⟩ := reachable_exact h.run.bf
    have hbits : E.s.bf.data ≠ [] := by
      intro e
      have h1 := hsw.data_len
      have h2 := hsw.hi
      have h3 := h.run.nbits
      rw [e, List.length_nil] at h1
      omega
    have hw : ∀ x ∈ g, ∃ w, x = wire w ∧ (Decodable w ∨ ∃ i b blk, w = .piece i b blk) ∧ ∀ i b l, w ≠ .request i b l := by
      intro x hx
      rcases hg x hx with hh | rfl | rfl | rfl | ⟨i, b, blk, rfl, -⟩
      · exact absurd ⟨x, hx, _, _, hh⟩ hhs
      · exact ⟨_, rfl, .inl hbits, nofun⟩
      · exact ⟨_, rfl, .inl trivial, nofun⟩
      · exact ⟨_, rfl, .inl trivial, nofun⟩
      · exact ⟨_, rfl, .inr ⟨i, b, blk, rfl⟩, nofun⟩
    have split : ∀ g : List Bytes, (∀ x ∈ g, ∃ w, x = wire w ∧ (Decodable w ∨ ∃ i b blk, w = .piece i b blk) ∧ ∀ i b l, w ≠ .request i b l) →
        ∃ ws : List Wire.Msg, (∀ w ∈ ws, Decodable w ∧ ∀ i b l, w ≠ .request i b l) ∧
          (g.flatten = stream ws ∨ ∃ i b blk rest, g.flatten = stream ws ++ (wire (.piece i b blk) ++ rest)) := by
      intro g
      induction g with
      | nil => exact fun _ => ⟨[], nofun, .inl rfl⟩
      | cons x g ih =>
        intro hx
        obtain ⟨w, rfl, hk, hnr⟩ := hx x (by simp)
        obtain ⟨ws, hws, hfl⟩ := ih fun y hy => hx y (List.mem_cons_of_mem _ hy)
        rcases hk with hk | ⟨i, b, blk, rfl⟩
        · refine ⟨w :: ws, ?_, ?_⟩
          · intro y hy
            rcases List.mem_cons.mp hy with rfl | hy
            · exact ⟨hk, hnr⟩
            · exact hws y hy
          · rcases hfl with e | ⟨i, b, blk, rest, e⟩
            · left; rw [List.flatten_cons, e]; rfl
            · right; refine ⟨i, b, blk, rest, ?_⟩
              rw [List.flatten_cons, e]
              simp [stream]
        · exact ⟨[], nofun, .inr ⟨i, b, blk, g.flatten, by rw [List.flatten_cons]; rfl⟩⟩
    obtain ⟨ws, hws, e | ⟨i, b, blk, rest, e⟩⟩ := split g hw
    · rw [e] at hd hlen
      have h1 := decodeAll_stream ws (fun w hw => (hws w hw).1) hlen
      have := decodeAll_unique fuel _ _ (by rw [hd]; nofun) (by rw [h1]; nofun)
      rw [hd, h1] at this
      cases this
      intro m hm
      obtain ⟨w, hw, rfl⟩ := List.mem_map.mp hm
      rw [view_received]
      exact (hws w hw).2
    · rw [e] at hd hlen
      have h1 := C12_refuted_piece ws (fun w hw => (hws w hw).1) i b blk rest hlen (ws.length + 1) (by omega)
      have := decodeAll_unique fuel _ _ (by rw [hd]; nofun) (by rw [h1]; nofun)
      rw [hd, h1] at this
      cases this

/-- **C83** is false, for two clients of this kind: whatever happened before on both sides, whatever else they are connected to and however the messages
are put into buffers (without cutting them), the one does not send a single block to the other. -/
theorem C83_refuted_transfer {pl : Nat} {hashes : Bytes} {files : List EntryBase} {cs : List Bytes} {E : Env} (h : Ready pl hashes files cs E)
    (hn : E.s.tor.numPieces ≤ 2 ^ 32) (σ₀ σ : Client) (h0 : Initial E σ₀) (hr : Reach (Step E) σ₀ σ) (c : Conn) (hm : c ∈ σ.conns)
    {pl' : Nat} {hashes' : Bytes} {files' : List EntryBase} {cs' : List Bytes} {E' : Env} (h' : Ready pl' hashes' files' cs' E')
    (hn' : E'.s.tor.numPieces ≤ 2 ^ 32) (hpos : 0 < E'.s.tor.numPieces) (τ₀ τ : Client) (h0' : Initial E' τ₀) (hr' : Reach (Step E') τ₀ τ) (c' : Conn) (hm' : c' ∈ τ.conns)
    (hlink : Carried c'.out c.got) (i b : UInt32) (blk : Bytes) : wire (.piece i b blk) ∉ c.out := by
  intro hx
  have hok := reach_asked h hn h0 hr c hm
  obtain ⟨l, l1, l2, -⟩ := hok.answers
  have : wire (.piece i b blk) ∈ l.map Answer.sent := by
    rw [← l2]
    exact List.mem_filter.mpr ⟨hx, (isBlock_wire _).mpr ⟨i, b, blk, rfl⟩⟩
  obtain ⟨a, ha, -⟩ := List.mem_map.mp this
  obtain ⟨m, hmh, hv⟩ := List.mem_map.mp (l1.subset (List.mem_map_of_mem ha))
  obtain ⟨buf, hbuf, fuel, dar, hd, hmd⟩ := hok.came m (.inl hmh)
  obtain ⟨groups, e1, e2, e3, e4⟩ := hlink
  rw [e1] at hbuf
  obtain ⟨g, hg, rfl⟩ := List.mem_map.mp hbuf
  have hsub : ∀ x ∈ g, x ∈ c'.out := by
    intro x hxg
    have hxf : x ∈ groups.flatten := List.mem_flatten.mpr ⟨g, hg, hxg⟩
    rcases e2 with e2 | e2
    · exact e2.subset hxf
    · exact List.mem_of_mem_drop (e2.subset hxf)
  exact decodeAll_group h' hpos g (fun x hxg => reach_sent h' hn' h0' hr' c' hm' x (hsub x hxg)) (e3 g hg) (e4 g hg) fuel dar hd m hmd _ _ _ hv

/-! ### examples -/

/-- a client that has answered a request of a peer with piece 1, and lacks piece 0, which the peer has announced -/
example : ∃ (E : Env) (σ₀ σ : Client) (i : Nat) (c : Conn), Ready 4 exHashes exFiles [[1, 2, 3, 4, 5], [], [6, 7, 8, 9, 10, 11, 12, 13]] E ∧
    E.s.tor.numPieces ≤ 2 ^ 32 ∧ needed (total (lens exFiles)) 4 = E.s.tor.numPieces ∧ Initial E σ₀ ∧ Reach (Step E) σ₀ σ ∧ σ.crashed = false ∧
    E.s.bf.Complete = false ∧ σ.conns[i]? = some c ∧ wire (.piece 1 1 [6, 7]) ∈ c.out ∧ c.asking = true ∧ c.reqs < 5 ∧
    ∃ j, j < E.s.tor.numPieces ∧ ours E.s j = false ∧ ∃ ws, (c.peer.str, ws) ∈ known σ ∧ InBitfield ws j := by
  obtain ⟨E, σ₀, σ, c, h, hn, h0, hr, hc, hm, hi, ha, ht, hb, ho, hnum, -, hout, hdel⟩ := exPeers
  have hneed : needed (total (lens exFiles)) 4 = E.s.tor.numPieces := by rw [hnum]; decide
  obtain ⟨start, done, rest, -, q1, q2, -, q3, -⟩ := C76_served_partial h hn _ _ h0 hr hc c hm _ hdel
  rw [q3 ht, List.append_nil] at q1
  refine ⟨E, σ₀, σ, 0, c, h, hn, hneed, h0, hr, hc, hb, hi, hout, ha, ?_, 0, by rw [hnum]; decide, ho, _, List.mem_map.mpr ⟨c, hm, rfl⟩, [0x80], ?_, by decide⟩
  · rw [(C83_refuted_forever h hn (by decide) hneed σ₀ σ h0 hr 0 c hi).1]; decide
  · rw [q2, ← q1]
    simp [view_received]

/-- two clients: what the one has written (handshake and unchoke) has arrived, but for the handshake, in a buffer of the other -/
example : ∃ (E : Env) (σ₀ σ τ : Client) (c c' : Conn), Ready 4 exHashes exFiles [[1, 2, 3, 4, 5], [], [6, 7, 8, 9, 10, 11, 12, 13]] E ∧ 0 < E.s.tor.numPieces ∧
    Initial E σ₀ ∧ Reach (Step E) σ₀ σ ∧ Reach (Step E) σ₀ τ ∧ c ∈ σ.conns ∧ c' ∈ τ.conns ∧ Carried c'.out c.got ∧ c.got = [wire .unchoke] := by
  obtain ⟨s, t, hrun, hn, -, -, hr⟩ := exStart
  obtain ⟨-, -, t0, ht0, e⟩ := hr
  cases e
  have hE : Ready 4 exHashes exFiles [[1, 2, 3, 4, 5], [], [6, 7, 8, 9, 10, 11, 12, 13]] (⟨s, List.replicate 20 1, List.replicate 20 2, fun _ => []⟩ : Env) :=
    ⟨hrun, List.length_replicate, List.length_replicate⟩
  generalize hEd : (⟨s, List.replicate 20 1, List.replicate 20 2, fun _ => []⟩ : Env) = E at hE
  have hs : E.s = s := by rw [← hEd]
  rw [← hs] at hn ht0
  obtain ⟨b0, hp0⟩ := newHandler hE.run (MakePeer (fun _ => []) [] [1, 2, 3, 4] 1)
  have s1 := Step.outgoing (E := E) (σ := ⟨t, [], false⟩) (MakePeer (fun _ => []) [] [1, 2, 3, 4] 1) _ _ _ _ 1 true rfl rfl hp0 (show firstMessage true = .ok [wire .unchoke] from rfl)
  generalize hc0 : newConn _ 1 _ _ = c0 at s1
  have r0 : c0.recv = .running ∧ c0.todo = [] ∧ c0.got = [] ∧ c0.out = [MakeHandshake E.infohash E.ownId, wire .unchoke] := by
    rw [← hc0]; exact ⟨rfl, rfl, rfl, rfl⟩
  have hdec := decodeAll_stream [.unchoke] (by simp [Decodable]) (by decide)
  have s2 := Step.receive (E := E) (σ := ⟨t, [c0], false⟩) 0 c0 _ _ _ rfl rfl r0.1 r0.2.1 hdec
  refine ⟨E, ⟨t, [], false⟩, _, _, _, c0, hE, by rw [hn]; decide, ⟨ht0, rfl, rfl⟩, .tail _ _ (.tail _ _ .refl s1) s2, .tail _ _ .refl s1,
    List.mem_singleton.mpr rfl, List.mem_singleton.mpr rfl, ?_, ?_⟩
  · refine ⟨[[wire .unchoke]], ?_, .inr ?_, ?_, ?_⟩
    · simp [r0.2.2.1, stream]
    · rw [r0.2.2.2]; simp
    · simp only [List.mem_singleton, forall_eq]; decide
    · simp
  · simp [r0.2.2.1, stream]

/-- the hypotheses of `C83_refuted_silent`: a file of one piece with two hashes, which is accepted; a peer announces the second piece -/
def exEmpty : Res (Env × Client) := do
  let ti ← NewTorInfo (ascii "n") 4 (List.replicate 40 0) [⟨4, ascii "n", ascii "/w/n"⟩]
  let t ← NewPeerPieceTracker ti.numPieces
  let b ← Bf.NewBitfield ti.numPieces
  let t ← RegisterBF t ⟨1, (MakePeer (fun _ => []) [] [1, 2, 3, 4] 1).str⟩ ⟨[0, 0, 0, 0, 0, 0x40], 1, 2, 1⟩
  .ok (⟨⟨ti, b, openedAll ti, fun _ => some [0, 0, 0, 0]⟩, List.replicate 20 1, List.replicate 20 2, fun _ => []⟩,
    ⟨t, [newConn (MakePeer (fun _ => []) [] [1, 2, 3, 4] 1) 1 ⟨MakePeer (fun _ => []) [] [1, 2, 3, 4] 1, ⟨false, false, false, false⟩, b, [0, 0, 0, 0]⟩ []], false⟩)

example : ∃ E σ c t n, exEmpty = .ok (E, σ) ∧ σ.crashed = false ∧ E.s.bf.Complete = false ∧ σ.conns[0]? = some c ∧ c.asking = true ∧ c.reqs < 5 ∧
    NextPiece σ.ppt E.s.bf c.me = .ok (t, n, true) ∧ (2 ^ 32 : Int) ∣ lengthOf E.s.tor (UInt32.ofNat n).toNat := by
  have h : (match exEmpty with
    | .ok (E, σ) => match σ.conns[0]? with
      | some c => !σ.crashed && !E.s.bf.Complete && c.asking && decide (c.reqs < 5) && match NextPiece σ.ppt E.s.bf c.me with
        | .ok (_, n, true) => lengthOf E.s.tor (UInt32.ofNat n).toNat == 0
        | _ => false
      | none => false
    | _ => false) = true := by decide +kernel
  split at h
  · rename_i E σ e
    split at h
    · rename_i c hc
      simp only [Bool.and_eq_true, Bool.not_eq_true', decide_eq_true_eq] at h
      obtain ⟨⟨⟨⟨h1, h2⟩, h3⟩, h4⟩, h5⟩ := h
      split at h5
      · rename_i t n hn
        exact ⟨E, σ, c, t, n, e, h1, h2, hc, h3, h4, hn, 0, by simpa using h5⟩
      · cases h5
    · cases h
  · cases h

end Verif.Peers
