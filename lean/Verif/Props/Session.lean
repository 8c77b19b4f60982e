import Verif.Model.Session
import Verif.Spec.Session
import Verif.Props.MsgHandler
import Verif.Props.Create
/-
Properties C66-C69: a whole connection to a peer.
-/
set_option autoImplicit false

namespace Verif.Session
open Verif.P2P Verif.Bf Verif.Files Verif.FileIO Verif.PieceTracker Verif.Layout Verif.Bits Verif.Wire Verif.Avail Verif.Handshake
  Verif.HandshakeSpec Verif.MsgHandler Verif.SessionSpec Verif.Peer

/-! ### C66 -/

/-- the pieces we have -/
def ours (s : MsgHandler.Swarm) (i : Nat) : Bool := bit s.bf.data i

/-- at most 63 different peers have been registered so far, this one included -/
def Few (keys : List Bytes) (me : PH) (calls : List Call) : Prop :=
  keys.length ≤ 63 ∧ me.key ∈ keys ∧ ∀ c ∈ calls, c.who.key ∈ keys

theorem after_sub (keys : List Bytes) (calls : List Call) (h : ∀ c ∈ calls, c.who.key ∈ keys) (j : Nat) :
    (after calls j).Nodup ∧ ∀ k ∈ after calls j, k ∈ keys := by
  have : ∀ (ss : List Step) (a : Avail.State), (∀ j, (a j).Nodup ∧ ∀ k ∈ a j, k ∈ keys) → (∀ k i, Step.reg k i ∈ ss → k ∈ keys) →
      ∀ j, (ss.foldl Step.effect a j).Nodup ∧ ∀ k ∈ ss.foldl Step.effect a j, k ∈ keys := by
    intro ss
    induction ss with
    | nil => intro a ha _; exact ha
    | cons x ss ih =>
      intro a ha hss
      exact ih _ (effect_sub keys a x ha (fun k i e => hss k i (by simp [e]))) (fun k i hm => hss k i (by simp [hm]))
  refine this _ _ (fun j => ⟨List.nodup_nil, fun k hk => by cases hk⟩) ?_ j
  intro k i hm
  obtain ⟨c, hcm, hcs⟩ := List.mem_flatMap.mp hm
  rw [steps_who c k i hcs]
  exact h c hcm

theorem few_atMost {keys : List Bytes} {me : PH} {calls : List Call} (h : Few keys me calls) (is : List Nat) :
    AtMost 63 (after calls) (is.map (Step.reg me.key)) := by
  refine atMost_of_keys keys h.1 _ _ (after_sub keys calls h.2.2) ?_
  intro k i hm
  obtain ⟨j, -, e⟩ := List.mem_map.mp hm
  cases e
  exact h.2.1

theorem rx_wf (p : Bytes) (hp : p ≠ []) : Wf (rxBitfield p) ∧ (rxBitfield p).data = p ∧ (rxBitfield p).nbytes = p.length := by
  have hl : 0 < p.length := List.length_pos_iff.mpr hp
  have h1 : (rxBitfield p).nbytes = p.length := rfl
  have h2 : (rxBitfield p).nbits = 8 * p.length := rfl
  refine ⟨⟨?_, by omega, by omega, by omega⟩, rfl, rfl⟩
  rw [h1]
  simp only [rxBitfield, List.length_append, List.length_cons, be32_length]
  omega

theorem polite_decodable {content : Bytes} {pl n : Nat} {w : Wire.Msg} (h : Polite content pl n w) : Decodable w := by
  cases w <;> simp only [Polite, Decodable] at h ⊢
  exact h.1

/-- one message of a polite peer -/
theorem handleOne_polite {pl : Nat} {hashes : Bytes} {files : List EntryBase} {cs : List Bytes} {s : MsgHandler.Swarm} {st : St}
    (h : Running pl hashes files cs s st.buf) (calls : List Call) (hr : Reached s.tor.numPieces calls st.ppt) (me : PH) (keys : List Bytes)
    (hf : Few keys me calls) (w : Wire.Msg) (hw : Polite cs.flatten pl s.tor.numPieces w) :
    ∃ st' calls', handleOne s me (fun _ => true) (received w) st = (st', .ok ()) ∧
      st'.out = st.out ++ (replies cs.flatten pl (ours s) [w]).map wire ∧ st'.buf.length = pl ∧
      Reached s.tor.numPieces calls' st'.ppt ∧ Few keys me calls' ∧
      ∀ i : Nat, i < s.tor.numPieces → ∀ k, RegisteredFor st'.ppt i k ↔ RegisteredFor st.ppt i k ∨ (k = me.key ∧ InBitfield [w] i) := by
  have hsame : ∀ (t : Tracker), (∀ bits, w ≠ .bitfield bits) → ∀ i : Nat, i < s.tor.numPieces → ∀ k,
      RegisteredFor t i k ↔ RegisteredFor t i k ∨ (k = me.key ∧ InBitfield [w] i) := by
    intro t hn i _ k
    refine ⟨.inl, fun hh => hh.elim id ?_⟩
    rintro ⟨-, bits, hm, -⟩
    exact absurd (List.mem_singleton.mp hm).symm (hn bits)
  cases w with
  | request i b l =>
    obtain ⟨hi, hl⟩ := hw
    by_cases hg : s.bf.Get i.toNat = .ok true
    · have hbit : ours s i.toNat = true := by
        rw [get_nat, if_pos (in_range h _ hi)] at hg
        exact Res.ok.inj hg
      refine ⟨_, calls, request_answered h i b l hi hg hl, ?_, filled_length _ _ _ _ h.buf, hr, hf, hsame _ nofun⟩
      simp [replies, reply, hbit]
    · have hbit : ours s i.toNat = false := by
        rw [get_nat, if_pos (in_range h _ hi)] at hg
        cases hb : bit s.bf.data i.toNat with
        | false => exact hb
        | true => rw [hb] at hg; exact absurd rfl hg
      refine ⟨st, calls, ?_, ?_, h.buf, hr, hf, hsame _ nofun⟩
      · show handleRequest s i b l true st = _
        rw [handleRequest_spec h, if_pos hi, if_neg hg]
      · simp [replies, reply, hbit]
  | bitfield p =>
    obtain ⟨hp, hl⟩ := hw
    obtain ⟨hwf, hd, hn⟩ := rx_wf p hp
    obtain ⟨hsw, -⟩ := reachable_exact h.bf
    have h1 := hsw.lo8
    have h2 := hsw.hi
    have h3 := h.nbits
    obtain ⟨st', e, g1, g2, -, -, -, g3, g4⟩ := (bitfield_right_size h calls hr me (rxBitfield p) hwf (by rw [hn]; omega)).1
      (few_atMost hf _)
    refine ⟨st', _, e, ?_, by rw [g1]; exact h.buf, g3, ⟨hf.1, hf.2.1, ?_⟩, ?_⟩
    · simp [replies, reply, g2]
    · intro c hc
      rcases List.mem_append.mp hc with hc | hc
      · exact hf.2.2 c hc
      · rw [List.mem_singleton.mp hc]; exact hf.2.1
    · intro i hi k
      rw [g4 i hi k, get_nat, hd, if_pos (by omega)]
      simp [InBitfield]
  | piece i b blk => exact hw.elim
  | keepAlive => exact ⟨st, calls, rfl, by simp [replies, reply], h.buf, hr, hf, hsame _ nofun⟩
  | choke => exact ⟨st, calls, rfl, by simp [replies, reply], h.buf, hr, hf, hsame _ nofun⟩
  | unchoke => exact ⟨st, calls, rfl, by simp [replies, reply], h.buf, hr, hf, hsame _ nofun⟩
  | interested => exact ⟨st, calls, rfl, by simp [replies, reply], h.buf, hr, hf, hsame _ nofun⟩
  | notInterested => exact ⟨st, calls, rfl, by simp [replies, reply], h.buf, hr, hf, hsame _ nofun⟩
  | «have» i => exact ⟨st, calls, rfl, by simp [replies, reply], h.buf, hr, hf, hsame _ nofun⟩

theorem replies_append (content : Bytes) (pl : Nat) (have_ : Nat → Bool) (a b : List Wire.Msg) :
    replies content pl have_ (a ++ b) = replies content pl have_ a ++ replies content pl have_ b := by
  unfold replies; rw [List.filterMap_append]

theorem inBitfield_append (a b : List Wire.Msg) (i : Nat) : InBitfield (a ++ b) i ↔ InBitfield a i ∨ InBitfield b i := by
  unfold InBitfield
  simp only [List.mem_append]
  constructor
  · rintro ⟨bits, h | h, hb⟩
    · exact .inl ⟨bits, h, hb⟩
    · exact .inr ⟨bits, h, hb⟩
  · rintro (⟨bits, h, hb⟩ | ⟨bits, h, hb⟩)
    · exact ⟨bits, .inl h, hb⟩
    · exact ⟨bits, .inr h, hb⟩

theorem _root_.Verif.MsgHandler.Running.withBuf {pl : Nat} {hashes : Bytes} {files : List EntryBase} {cs : List Bytes} {s : MsgHandler.Swarm} {buf buf' : Bytes}
    (h : Running pl hashes files cs s buf) (hb : buf'.length = pl) : Running pl hashes files cs s buf' :=
  ⟨h.accepted, h.small, h.fio, h.stored, h.bf, h.nbits, hb⟩

/-- the messages of one buffer -/
theorem handleAll_polite {pl : Nat} {hashes : Bytes} {files : List EntryBase} {cs : List Bytes} {s : MsgHandler.Swarm} {st : St}
    (h : Running pl hashes files cs s st.buf) (calls : List Call) (hr : Reached s.tor.numPieces calls st.ppt) (me : PH) (keys : List Bytes)
    (hf : Few keys me calls) (ws : List Wire.Msg) (hw : ∀ w ∈ ws, Polite cs.flatten pl s.tor.numPieces w) :
    ∃ st' calls', handleAll s me (fun _ => true) (ws.map received) st = (st', .ok ()) ∧
      st'.out = st.out ++ (replies cs.flatten pl (ours s) ws).map wire ∧ st'.buf.length = pl ∧
      Reached s.tor.numPieces calls' st'.ppt ∧ Few keys me calls' ∧
      ∀ i : Nat, i < s.tor.numPieces → ∀ k, RegisteredFor st'.ppt i k ↔ RegisteredFor st.ppt i k ∨ (k = me.key ∧ InBitfield ws i) := by
  induction ws generalizing st calls with
  | nil => exact ⟨st, calls, rfl, by simp [replies], h.buf, hr, hf, by simp [InBitfield]⟩
  | cons w ws ih =>
    obtain ⟨st1, calls1, e1, o1, b1, r1, f1, g1⟩ := handleOne_polite h calls hr me keys hf w (hw w (by simp))
    obtain ⟨st2, calls2, e2, o2, b2, r2, f2, g2⟩ := ih (h.withBuf b1) calls1 r1 f1 (fun x hx => hw x (by simp [hx]))
    refine ⟨st2, calls2, ?_, ?_, b2, r2, f2, ?_⟩
    · rw [List.map_cons, handleAll, e1]; exact e2
    · rw [o2, o1, show w :: ws = [w] ++ ws from rfl, replies_append, List.map_append, List.append_assoc]
    · intro i hi k
      rw [g2 i hi k, g1 i hi k, show w :: ws = [w] ++ ws from rfl, inBitfield_append]
      constructor
      · rintro ((a | ⟨b, c⟩) | ⟨b, c⟩)
        · exact .inl a
        · exact .inr ⟨b, .inl c⟩
        · exact .inr ⟨b, .inr c⟩
      · rintro (a | ⟨b, c | c⟩)
        · exact .inl (.inl a)
        · exact .inl (.inr ⟨b, c⟩)
        · exact .inr ⟨b, c⟩

/-- the whole stream, cut into buffers at message boundaries -/
theorem recvAll_polite {pl : Nat} {hashes : Bytes} {files : List EntryBase} {cs : List Bytes} {s : MsgHandler.Swarm} {st : St}
    (h : Running pl hashes files cs s st.buf) (calls : List Call) (hr : Reached s.tor.numPieces calls st.ppt) (me : PH) (keys : List Bytes)
    (hf : Few keys me calls) (chunks : List (List Wire.Msg)) (hw : ∀ ws ∈ chunks, ∀ w ∈ ws, Polite cs.flatten pl s.tor.numPieces w)
    (fuel : Nat) (hfuel : ∀ ws ∈ chunks, ws.length < fuel ∧ (stream ws).length < 2 ^ 32) :
    ∃ st' calls', recvAll fuel s me (fun _ => true) (chunks.map stream) st = (st', .ok ()) ∧
      st'.out = st.out ++ (replies cs.flatten pl (ours s) chunks.flatten).map wire ∧ st'.buf.length = pl ∧
      Reached s.tor.numPieces calls' st'.ppt ∧ Few keys me calls' ∧
      ∀ i : Nat, i < s.tor.numPieces → ∀ k, RegisteredFor st'.ppt i k ↔ RegisteredFor st.ppt i k ∨ (k = me.key ∧ InBitfield chunks.flatten i) := by
  induction chunks generalizing st calls with
  | nil => exact ⟨st, calls, rfl, by simp [replies], h.buf, hr, hf, by simp [InBitfield]⟩
  | cons ws chunks ih =>
    obtain ⟨st1, calls1, e1, o1, b1, r1, f1, g1⟩ := handleAll_polite h calls hr me keys hf ws (hw ws (by simp))
    obtain ⟨st2, calls2, e2, o2, b2, r2, f2, g2⟩ := ih (h.withBuf b1) calls1 r1 f1 (fun x hx => hw x (by simp [hx])) (fun x hx => hfuel x (by simp [hx]))
    have hdec : DecodeAll fuel (stream ws) = .ok ⟨ws.map received, (stream ws).length⟩ := by
      obtain ⟨hlt, hlen⟩ := hfuel ws (by simp)
      obtain ⟨k, rfl⟩ : ∃ k, fuel = ws.length + (k + 1) := ⟨fuel - ws.length - 1, by omega⟩
      have := loop_stream ws (k + 1) [] (fun w hw' => polite_decodable (hw ws (by simp) w hw')) (by simpa using hlen) [] 0
      rw [List.append_nil] at this
      rw [DecodeAll, this, loop_nil]
      simp
    have hm : handleMessage fuel s me (fun _ => true) (stream ws) st = (st1, .ok ()) := by
      unfold handleMessage
      rw [hdec]
      exact e1
    refine ⟨st2, calls2, ?_, ?_, b2, r2, f2, ?_⟩
    · rw [List.map_cons, recvAll, hm]; exact e2
    · rw [o2, o1, List.flatten_cons, replies_append, List.map_append, List.append_assoc]
    · intro i hi k
      rw [g2 i hi k, g1 i hi k, List.flatten_cons, inBitfield_append]
      constructor
      · rintro ((a | ⟨b, c⟩) | ⟨b, c⟩)
        · exact .inl a
        · exact .inr ⟨b, .inl c⟩
        · exact .inr ⟨b, .inr c⟩
      · rintro (a | ⟨b, c | c⟩)
        · exact .inl (.inl a)
        · exact .inl (.inr ⟨b, c⟩)
        · exact .inr ⟨b, c⟩

/-- the state of a client before a peer connects: `Running` without a buffer, and a tracker that has seen at most 63 peers -/
theorem loop_polite {pl : Nat} {hashes : Bytes} {files : List EntryBase} {cs : List Bytes} {s : MsgHandler.Swarm}
    (h : Running pl hashes files cs s (List.replicate pl 0)) (calls : List Call) (ppt : Tracker) (hr : Reached s.tor.numPieces calls ppt)
    (ptr : Nat) (p : Info) (keys : List Bytes) (hf : Few keys ⟨ptr, p.str⟩ calls) (chunks : List (List Wire.Msg))
    (hw : ∀ ws ∈ chunks, ∀ w ∈ ws, Polite cs.flatten pl s.tor.numPieces w)
    (fuel : Nat) (hfuel : ∀ ws ∈ chunks, ws.length < fuel ∧ (stream ws).length < 2 ^ 32) :
    ∃ ph ppt' ph', NewPeerHandler p s.tor = .ok ph ∧
      loop fuel s ptr ph true (fun _ => true) ppt (chunks.map stream) =
        (wire .unchoke :: (replies cs.flatten pl (ours s) chunks.flatten).map wire, ppt', ph', .ok ()) ∧
      (∃ calls', Reached s.tor.numPieces calls' ppt' ∧ Few keys ⟨ptr, p.str⟩ calls') ∧
      ∀ i : Nat, i < s.tor.numPieces → ∀ k, RegisteredFor ppt' i k ↔ RegisteredFor ppt i k ∨ (k = p.str ∧ InBitfield chunks.flatten i) := by
  obtain ⟨name, hm⟩ := h.accepted.made
  obtain ⟨-, hp, -⟩ := C24_fields _ _ _ _ _ hm
  obtain ⟨b0, hb0, -⟩ := new_wf s.tor.numPieces
  have hph : NewPeerHandler p s.tor = .ok ⟨p, ⟨false, false, false, false⟩, b0, List.replicate pl 0⟩ := by
    unfold NewPeerHandler
    rw [hp, if_neg (by omega), hb0]
    rfl
  obtain ⟨st', calls', e, o, -, hr', hf', hreg⟩ := recvAll_polite (st := ⟨ppt, b0, List.replicate pl 0, []⟩) h calls hr ⟨ptr, p.str⟩ keys hf chunks hw fuel hfuel
  refine ⟨_, st'.ppt, ⟨p, ⟨false, false, false, false⟩, st'.peerBf, st'.buf⟩, hph, ?_, ⟨calls', hr', hf'⟩, hreg⟩
  unfold loop
  have hfirst : firstMessage true = .ok [wire .unchoke] := rfl
  rw [hfirst]
  simp only [e, o, List.nil_append, List.singleton_append]

/-- **C66**: a peer connects, sends its handshake for our torrent (received as a whole), and then any sequence of messages of a downloading peer,
received in buffers that end on message boundaries.  While the connection works, the bytes we send are: our handshake, our
bitfield, an unchoke message, and for each request for a piece we have, in order, a piece message with exactly the requested bytes of
the torrent.  Nothing else is sent, and there is no error.
Missing from the property: buffers that end inside of a message (see C16), and a 64th peer (see C46). -/
theorem C66_seeding_partial {pl : Nat} {hashes : Bytes} {files : List EntryBase} {cs : List Bytes} {s : MsgHandler.Swarm}
    (h : Running pl hashes files cs s (List.replicate pl 0)) (calls : List Call) (ppt : Tracker)
    (hr : Reached s.tor.numPieces calls ppt)
    (v6 : IP → Bytes) (ip : IP) (port : UInt16) (hs ih own id : Bytes) (hhs : IsHandshake hs ih id) (hown : own.length = 20)
    (ptr : Nat) (keys : List Bytes) (hf : Few keys ⟨ptr, (MakePeer v6 id ip port).str⟩ calls) (chunks : List (List Wire.Msg))
    (hw : ∀ ws ∈ chunks, ∀ w ∈ ws, Polite cs.flatten pl s.tor.numPieces w)
    (fuel : Nat) (hfuel : ∀ ws ∈ chunks, ws.length < fuel ∧ (stream ws).length < 2 ^ 32) :
    ∃ out hs', incoming fuel v6 ⟨some (ip, port), true, some hs, true, true⟩ ih own s ptr true (fun _ => true) ppt (chunks.map stream) = (out, .ok ()) ∧
      IsHandshake hs' ih own ∧
      out.flatten = hs' ++ stream (.bitfield s.bf.data :: .unchoke :: replies cs.flatten pl (ours s) chunks.flatten) := by
  obtain ⟨hsw, -⟩ := reachable_exact h.bf
  have h1 := hsw.data_len
  have h2 := hsw.lo8
  have h3 := hsw.hi
  have h4 := h.nbits
  have h5 := hr.1
  have hfits : Fits (.bitfield s.bf.data) := by simp only [Fits, body, List.length_cons]; omega
  have hlen := isHandshake_length hhs
  have hacc : (FromIncoming v6 ⟨some (ip, port), true, some hs, true, true⟩ ih own s.bf).2 = .ok (MakePeer v6 id ip port) := by
    refine (C41_accept_iff_partial v6 _ ih own s.bf hsw (fun d hd => by cases hd; omega) _).mpr ⟨ip, port, hs, id, rfl, rfl, rfl, rfl, rfl, ?_, rfl⟩
    rw [hlen, Nat.sub_self, List.replicate_zero, List.append_nil]
    exact hhs
  have hans := C41_answer v6 _ ih own s.bf hsw hfits _ hacc
  obtain ⟨ph, ppt', ph', e1, e2, -⟩ := loop_polite h calls ppt hr ptr (MakePeer v6 id ip port) keys hf chunks hw fuel hfuel
  refine ⟨[MakeHandshake ih own, wire (.bitfield s.bf.data)] ++
    (wire .unchoke :: (replies cs.flatten pl (ours s) chunks.flatten).map wire), MakeHandshake ih own, ?_, (C40_made ih own ih hhs.1 hown).1, ?_⟩
  · unfold incoming
    rw [← Prod.eta (FromIncoming v6 ⟨some (ip, port), true, some hs, true, true⟩ ih own s.bf), hans, hacc]
    simp only [e1, e2]
  · simp only [stream, List.map_cons, List.flatten_append, List.flatten_cons, List.flatten_nil, List.append_nil, List.append_assoc]

/-- **C66**, connections that we open: the peer answers with its handshake (received as a whole and on its own), and then sends messages as in
C66_seeding_partial.  The bytes we send are: our handshake, an unchoke message, and the answers to the requests. -/
theorem C66_outgoing_partial {pl : Nat} {hashes : Bytes} {files : List EntryBase} {cs : List Bytes} {s : MsgHandler.Swarm}
    (h : Running pl hashes files cs s (List.replicate pl 0)) (calls : List Call) (ppt : Tracker)
    (hr : Reached s.tor.numPieces calls ppt)
    (p : Info) (hs ih own id : Bytes) (hhs : IsHandshake hs ih id) (hown : own.length = 20)
    (ptr : Nat) (keys : List Bytes) (hf : Few keys ⟨ptr, p.str⟩ calls) (chunks : List (List Wire.Msg))
    (hw : ∀ ws ∈ chunks, ∀ w ∈ ws, Polite cs.flatten pl s.tor.numPieces w)
    (fuel : Nat) (hfuel : ∀ ws ∈ chunks, ws.length < fuel + 2 ∧ (stream ws).length < 2 ^ 32) :
    ∃ out hs', outgoing (fuel + 2) true true p ih own s ptr true (fun _ => true) ppt (hs :: chunks.map stream) = (out, .ok ()) ∧
      IsHandshake hs' ih own ∧
      out.flatten = hs' ++ stream (.unchoke :: replies cs.flatten pl (ours s) chunks.flatten) := by
  obtain ⟨ph, ppt', ph', e1, e2, -⟩ := loop_polite h calls ppt hr ptr p keys hf chunks hw (fuel + 2) hfuel
  have e3 : loop (fuel + 2) s ptr ph true (fun _ => true) ppt (hs :: chunks.map stream) = loop (fuel + 2) s ptr ph true (fun _ => true) ppt (chunks.map stream) := by
    unfold loop
    rw [C42_own_segment_partial fuel s _ _ _ hs ih id hhs]
  refine ⟨[MakeHandshake ih own] ++ (wire .unchoke :: (replies cs.flatten pl (ours s) chunks.flatten).map wire), MakeHandshake ih own, ?_,
    (C40_made ih own ih hhs.1 hown).1, ?_⟩
  · unfold outgoing
    have : FromBootstrap true true p ih own = ([MakeHandshake ih own], .ok p) := rfl
    rw [this]
    simp only [e1, e3, e2]
  · simp only [stream, List.map_cons, List.flatten_append, List.flatten_cons, List.flatten_nil, List.append_nil]

/-- **C66**, who is registered in the end: exactly what was registered before and what the peer's bitfields said. -/
theorem C66_registered_partial {pl : Nat} {hashes : Bytes} {files : List EntryBase} {cs : List Bytes} {s : MsgHandler.Swarm}
    (h : Running pl hashes files cs s (List.replicate pl 0)) (calls : List Call) (ppt : Tracker) (hr : Reached s.tor.numPieces calls ppt)
    (ptr : Nat) (p : Info) (keys : List Bytes) (hf : Few keys ⟨ptr, p.str⟩ calls) (chunks : List (List Wire.Msg))
    (hw : ∀ ws ∈ chunks, ∀ w ∈ ws, Polite cs.flatten pl s.tor.numPieces w)
    (fuel : Nat) (hfuel : ∀ ws ∈ chunks, ws.length < fuel ∧ (stream ws).length < 2 ^ 32) :
    ∃ ph out ppt' ph', NewPeerHandler p s.tor = .ok ph ∧
      loop fuel s ptr ph true (fun _ => true) ppt (chunks.map stream) = (out, ppt', ph', .ok ()) ∧
      ∀ i : Nat, i < s.tor.numPieces → ∀ k, RegisteredFor ppt' i k ↔ RegisteredFor ppt i k ∨ (k = p.str ∧ InBitfield chunks.flatten i) := by
  obtain ⟨ph, ppt', ph', e1, e2, -, e3⟩ := loop_polite h calls ppt hr ptr p keys hf chunks hw fuel hfuel
  exact ⟨ph, _, ppt', ph', e1, e2, e3⟩

/-! ### C67 -/

/-- **C67** is false: whatever the state, and whatever valid messages come before, a block that a peer sends makes the client panic, and
nothing is stored. -/
theorem C67_refuted_crash (s : MsgHandler.Swarm) (me : PH) (wok : Nat → Bool) (st : St) (ws : List Wire.Msg) (hd : ∀ w ∈ ws, Decodable w)
    (i b : UInt32) (blk rest : Bytes) (hlen : (stream ws ++ (wire (.piece i b blk) ++ rest)).length < 2 ^ 32) (fuel : Nat) (hf : ws.length < fuel)
    (later : List Bytes) :
    recvAll fuel s me wok ((stream ws ++ (wire (.piece i b blk) ++ rest)) :: later) st = (st, .panic) := by
  rw [recvAll]
  unfold handleMessage
  rw [C12_refuted_piece ws hd i b blk rest hlen fuel hf]

/-- **C67** would be false even if piece messages could be decoded: they are ignored. -/
theorem C67_refuted_ignored (s : MsgHandler.Swarm) (me : PH) (wok : Nat → Bool) (st : St) (len i b : UInt32) (blk : Bytes) :
    handleOne s me wok (.piece len i b blk) st = (st, .ok ()) := rfl

/-! ### C68 -/

/-- **C68** (partial: peers that send no `have` messages and otherwise keep to the protocol).  A peer nobody has registered so far is registered
for exactly the pieces it has announced, as long as its connection lasts.  Missing from the property: `have` messages
(C68_refuted_have), and the end of the connection (C68_refuted_gone). -/
theorem C68_without_have_partial {pl : Nat} {hashes : Bytes} {files : List EntryBase} {cs : List Bytes} {s : MsgHandler.Swarm}
    (h : Running pl hashes files cs s (List.replicate pl 0)) (calls : List Call) (ppt : Tracker) (hr : Reached s.tor.numPieces calls ppt)
    (ptr : Nat) (p : Info) (keys : List Bytes) (hf : Few keys ⟨ptr, p.str⟩ calls) (chunks : List (List Wire.Msg))
    (hw : ∀ ws ∈ chunks, ∀ w ∈ ws, Polite cs.flatten pl s.tor.numPieces w) (hno : ∀ ws ∈ chunks, ∀ j, Wire.Msg.have j ∉ ws)
    (hnew : ∀ i, i < s.tor.numPieces → ¬ RegisteredFor ppt i p.str)
    (fuel : Nat) (hfuel : ∀ ws ∈ chunks, ws.length < fuel ∧ (stream ws).length < 2 ^ 32) :
    ∃ ph out ppt' ph', NewPeerHandler p s.tor = .ok ph ∧
      loop fuel s ptr ph true (fun _ => true) ppt (chunks.map stream) = (out, ppt', ph', .ok ()) ∧
      (∀ i : Nat, i < s.tor.numPieces → (RegisteredFor ppt' i p.str ↔ Announced chunks.flatten i)) ∧
      ∀ i : Nat, i < s.tor.numPieces → ∀ k, k ≠ p.str → (RegisteredFor ppt' i k ↔ RegisteredFor ppt i k) := by
  obtain ⟨ph, out, ppt', ph', e1, e2, e3⟩ := C66_registered_partial h calls ppt hr ptr p keys hf chunks hw fuel hfuel
  refine ⟨ph, out, ppt', ph', e1, e2, ?_, ?_⟩
  · intro i hi
    rw [e3 i hi]
    constructor
    · rintro (h' | ⟨-, h'⟩)
      · exact absurd h' (hnew i hi)
      · exact .inl h'
    · rintro (h' | ⟨j, hj, -⟩)
      · exact .inr ⟨rfl, h'⟩
      · obtain ⟨ws, hws, hj⟩ := List.mem_flatten.mp hj
        exact absurd hj (hno ws hws j)
  · intro i hi k hk
    rw [e3 i hi]
    constructor
    · rintro (h' | ⟨h', -⟩)
      · exact h'
      · exact absurd h' hk
    · exact .inl

/-- **C68** is false: whatever a peer announces with `have` messages, it is never asked for a piece because of that: for a peer that
sends polite messages without bitfields the availability tracker does not change at all. -/
theorem C68_refuted_have {pl : Nat} {hashes : Bytes} {files : List EntryBase} {cs : List Bytes} {s : MsgHandler.Swarm}
    (h : Running pl hashes files cs s (List.replicate pl 0)) (ppt : Tracker) (hr : Reached s.tor.numPieces [] ppt)
    (ptr : Nat) (p : Info) (announced : List UInt32)
    (fuel : Nat) (hfuel : (announced.map Wire.Msg.have).length < fuel ∧ (stream (announced.map Wire.Msg.have)).length < 2 ^ 32) :
    ∃ ph out ppt' ph', NewPeerHandler p s.tor = .ok ph ∧
      loop fuel s ptr ph true (fun _ => true) ppt [stream (announced.map Wire.Msg.have)] = (out, ppt', ph', .ok ()) ∧
      (∀ i ∈ announced, Announced (announced.map Wire.Msg.have) i.toNat) ∧
      (∀ i, i < s.tor.numPieces → ∀ k, ¬ RegisteredFor ppt' i k) ∧
      ∀ own : Bitfield, s.tor.numPieces ≤ 8 * own.data.length → ∃ t, NextPiece ppt' own ⟨ptr, p.str⟩ = .ok (t, 0, false) := by
  have hno : ∀ i, ¬ InBitfield [announced.map Wire.Msg.have].flatten i := by
    rintro i ⟨bits, hm, -⟩
    simp at hm
  obtain ⟨ph, ppt', ph', e1, e2, ⟨calls', hr', -⟩, e3⟩ := loop_polite h [] ppt hr ptr p [p.str] ⟨by simp, by simp, by simp⟩ [announced.map Wire.Msg.have]
    (by
      intro ws hws w hw
      rw [List.mem_singleton.mp hws] at hw
      obtain ⟨i, -, rfl⟩ := List.mem_map.mp hw
      trivial) fuel (by
      intro ws hws
      rw [List.mem_singleton.mp hws]
      exact hfuel)
  have hreg : ∀ i, i < s.tor.numPieces → ∀ k, ¬ RegisteredFor ppt' i k := by
    intro i hi k hk
    rcases (e3 i hi k).mp hk with hk | ⟨-, hk⟩
    · rw [hr.inv.registered i hi] at hk
      exact absurd hk List.not_mem_nil
    · exact hno i hk
  refine ⟨ph, _, ppt', ph', e1, e2, ?_, hreg, ?_⟩
  · intro i hi
    exact .inr ⟨i, List.mem_map_of_mem hi, rfl⟩
  · intro own hown
    obtain ⟨t, i, found, e, -, h0, hiff⟩ := C47_rarest _ _ _ hr' own hown ⟨ptr, p.str⟩
    have : found = false := hiff.mpr (by
      rintro ⟨j, hj, -, hk⟩
      exact hreg j hj p.str ((hr'.inv.registered j hj p.str).mpr hk))
    subst this
    rw [h0 rfl] at e
    exact ⟨t, e⟩

/-- **C68** is false: a peer that announced a piece in a bitfield stays registered for it when its connection is gone.  The
handler's work ends here because of an error (a bitfield of the wrong size), and the tracker it leaves behind still has the peer. -/
theorem C68_refuted_gone {pl : Nat} {hashes : Bytes} {files : List EntryBase} {cs : List Bytes} {s : MsgHandler.Swarm}
    (h : Running pl hashes files cs s (List.replicate pl 0)) (calls : List Call) (ppt : Tracker) (hr : Reached s.tor.numPieces calls ppt)
    (ptr : Nat) (p : Info) (keys : List Bytes) (hf : Few keys ⟨ptr, p.str⟩ calls) (bits wrong : Bytes) (hb : Polite cs.flatten pl s.tor.numPieces (.bitfield bits))
    (hlen : (wire (.bitfield bits)).length < 2 ^ 32) (hw0 : wrong ≠ []) (hw : wrong.length ≠ (s.tor.numPieces + 7) / 8) (hlen' : (wire (.bitfield wrong)).length < 2 ^ 32)
    (fuel : Nat) (hfuel : 1 < fuel) :
    ∃ ph out ppt' ph', NewPeerHandler p s.tor = .ok ph ∧
      loop fuel s ptr ph true (fun _ => true) ppt [wire (.bitfield bits), wire (.bitfield wrong)] = (out, ppt', ph', .err .other) ∧
      ∀ i : Nat, i < s.tor.numPieces → bit bits i = true → RegisteredFor ppt' i p.str := by
  obtain ⟨name, hm⟩ := h.accepted.made
  obtain ⟨-, hp, -⟩ := C24_fields _ _ _ _ _ hm
  obtain ⟨b0, hb0, -⟩ := new_wf s.tor.numPieces
  have hph : NewPeerHandler p s.tor = .ok ⟨p, ⟨false, false, false, false⟩, b0, List.replicate pl 0⟩ := by
    unfold NewPeerHandler
    rw [hp, if_neg (by omega), hb0]
    rfl
  have hst : ∀ w, stream [w] = wire w := fun w => by simp [stream]
  obtain ⟨st', calls', e, o, hbuf, -, -, hreg⟩ := recvAll_polite (st := ⟨ppt, b0, List.replicate pl 0, []⟩) h calls hr ⟨ptr, p.str⟩ keys hf [[.bitfield bits]]
    (by
      intro ws hws w hw
      rw [List.mem_singleton.mp hws] at hw
      rw [List.mem_singleton.mp hw]
      exact hb) fuel (by
      intro ws hws
      rw [List.mem_singleton.mp hws, hst]
      exact ⟨hfuel, hlen⟩)
  obtain ⟨hsw, -⟩ := reachable_exact h.bf
  have h1 := hsw.lo8
  have h2 := hsw.hi
  have h3 := h.nbits
  have hdec : DecodeAll fuel (wire (.bitfield wrong)) = .ok ⟨[received (.bitfield wrong)], (wire (.bitfield wrong)).length⟩ := by
    obtain ⟨k, rfl⟩ : ∃ k, fuel = 1 + (k + 1) := ⟨fuel - 2, by omega⟩
    have := loop_stream [.bitfield wrong] (k + 1) [] (fun w hw' => by rw [List.mem_singleton.mp hw']; exact hw0) (by rw [hst]; simpa using hlen') [] 0
    rw [List.append_nil, hst] at this
    have h4 : DecodeAll (1 + (k + 1)) (wire (.bitfield wrong)) = _ := this
    rw [h4, loop_nil]
    simp
  have herr : handleMessage fuel s ⟨ptr, p.str⟩ (fun _ => true) (wire (.bitfield wrong)) st' = (st', .err .other) := by
    unfold handleMessage
    rw [hdec]
    have : handleBitfield s ⟨ptr, p.str⟩ (rxBitfield wrong) st' = (st', .err .other) := by
      unfold handleBitfield
      rw [if_pos (by rw [(rx_wf wrong hw0).2.2]; omega)]
    simp only [handleAll, received, handleOne, this]
  have hrec : recvAll fuel s ⟨ptr, p.str⟩ (fun _ => true) [wire (.bitfield bits), wire (.bitfield wrong)] ⟨ppt, b0, List.replicate pl 0, []⟩ =
      (st', .err .other) := by
    simp only [List.map_cons, List.map_nil, hst, recvAll] at e ⊢
    split at e
    · rename_i h'
      cases e
      simp only [herr]
    · rename_i hne _
      cases e
      exact absurd rfl (hne ())
  refine ⟨_, [wire .unchoke] ++ st'.out, st'.ppt, ⟨p, ⟨false, false, false, false⟩, st'.peerBf, st'.buf⟩, hph, ?_, fun i hi hbit => (hreg i hi p.str).mpr (.inr ⟨rfl, bits, by simp, hbit⟩)⟩
  unfold loop
  have hfirst : firstMessage true = .ok [wire .unchoke] := rfl
  rw [hfirst]
  simp only [hrec]

/-! ### C69 -/

/-- **C69** is false: a new connection is neither choked by us nor by the peer, other than in the protocol and in `MakeState`, which would be right. -/
theorem C69_refuted_initial (p : Info) (ti : TorInfo) (ph : Handler) (h : NewPeerHandler p ti = .ok ph) :
    ph.state.chokingUs = false ∧ ph.state.weChoking = false ∧ ph.state ≠ MakeState ∧
    MakeState.chokingUs = true ∧ MakeState.weChoking = true ∧ MakeState.interestedUs = false ∧ MakeState.weInterested = false := by
  unfold NewPeerHandler at h
  split at h
  · cases h
  · obtain ⟨b, -, h⟩ := Res.bind_eq_ok.mp h
    cases h
    exact ⟨rfl, rfl, show (⟨false, false, false, false⟩ : PeerState) ≠ MakeState by decide, rfl, rfl, rfl, rfl⟩

/-- **C69** (partial: the beginning, as far as interest is concerned).  A new connection is uninterested in both directions.  Missing: choking
(C69_refuted_initial) and everything that should happen later (C69_refuted_frozen, C69_refuted_choke). -/
theorem C69_uninterested_partial (p : Info) (ti : TorInfo) (ph : Handler) (h : NewPeerHandler p ti = .ok ph) :
    ph.state.interestedUs = MakeState.interestedUs ∧ ph.state.weInterested = MakeState.weInterested ∧
    ph.state.interestedUs = false ∧ ph.state.weInterested = false := by
  unfold NewPeerHandler at h
  split at h
  · cases h
  · obtain ⟨b, -, h⟩ := Res.bind_eq_ok.mp h
    cases h
    exact ⟨rfl, rfl, rfl, rfl⟩

/-- **C69** is false: no message ever changes the state of the connection. -/
theorem C69_refuted_frozen (fuel : Nat) (s : MsgHandler.Swarm) (ptr : Nat) (ph : Handler) (uok : Bool) (wok : Nat → Bool) (ppt : Tracker) (bufs : List Bytes) :
    (loop fuel s ptr ph uok wok ppt bufs).2.2.1.state = ph.state := by
  unfold loop
  cases firstMessage uok <;> rfl

/-- **C69** is false: `Choke` sends the message that allows requests. -/
theorem C69_refuted_choke : Choke true = ([wire .unchoke], .ok ()) ∧ wire .unchoke ≠ wire .choke ∧ Choke false = ([], .err .os) := by decide

/-! ### examples -/

theorem exStart : ∃ s t, Running 4 exHashes exFiles [[1, 2, 3, 4, 5], [], [6, 7, 8, 9, 10, 11, 12, 13]] s (List.replicate 4 0) ∧
    s.tor.numPieces = 4 ∧ ours s 1 = true ∧ ours s 0 = false ∧ Reached s.tor.numPieces [] t := by
  obtain ⟨s, h, hn, hb, -, h1, -, h0⟩ := exRunning
  obtain ⟨t, e, -⟩ := new_spec 4
  have hl := (reachable_exact h.bf).1.data_len
  rw [hb] at hl
  refine ⟨s, t, h.withBuf (by decide), hn, ?_, ?_, by rw [hn]; decide, (fun c hc => by cases hc), t, by rw [hn]; exact e, rfl⟩
  · rw [get_nat, if_pos (by omega)] at h1
    exact Res.ok.inj h1
  · rw [get_nat, if_pos (by omega)] at h0
    exact Res.ok.inj h0

/-- a peer says hello, sends its bitfield and asks for bytes 2 and 3 of piece 1, then (in a second buffer) for the first byte of piece 0,
which we do not have, and for the last byte of piece 1 -/
def exChunks : List (List Wire.Msg) := [[.bitfield [160], .interested, .request 1 2 2], [.request 0 0 1, .request 1 3 1, .keepAlive]]

/-- the session of C66 with this peer: exactly two blocks are sent -/
example : ∃ s t out hs', Reached s.tor.numPieces [] t ∧
    incoming 10 (fun _ => []) ⟨some (IPv4 1 2 3 4, 80), true, some (MakeHandshake (List.replicate 20 1) (List.replicate 20 2)), true, true⟩ (List.replicate 20 1)
      (List.replicate 20 3) s 7 true (fun _ => true) t (exChunks.map stream) = (out, .ok ()) ∧
    IsHandshake hs' (List.replicate 20 1) (List.replicate 20 3) ∧
    out.flatten = hs' ++ stream [.bitfield s.bf.data, .unchoke, .piece 1 2 [7, 8], .piece 1 3 [8]] := by
  obtain ⟨s, t, h, hn, h1, h0, hr⟩ := exStart
  obtain ⟨out, hs', e1, e2, e3⟩ := C66_seeding_partial h [] t hr (fun _ => []) (IPv4 1 2 3 4) 80
    (MakeHandshake (List.replicate 20 1) (List.replicate 20 2)) (List.replicate 20 1) (List.replicate 20 3) (List.replicate 20 2)
    (C40_made _ _ [] (by decide) (by decide)).1 (by decide) 7 [(MakePeer (fun _ => []) (List.replicate 20 2) (IPv4 1 2 3 4) 80).str]
    ⟨by decide, by simp, by simp⟩ exChunks (by
      rw [hn]
      intro ws hws w hw
      simp only [exChunks, List.mem_cons, List.not_mem_nil, or_false] at hws
      rcases hws with rfl | rfl <;> simp only [List.mem_cons, List.not_mem_nil, or_false] at hw <;> rcases hw with rfl | rfl | rfl <;>
        first | trivial | (simp only [Polite]; decide +kernel)) 10 (by
      intro ws hws
      simp only [exChunks, List.mem_cons, List.not_mem_nil, or_false] at hws
      rcases hws with rfl | rfl <;> decide +kernel)
  refine ⟨s, t, out, hs', hr, e1, e2, ?_⟩
  have hrep : replies [[1, 2, 3, 4, 5], [], [6, 7, 8, 9, 10, 11, 12, 13]].flatten 4 (ours s) exChunks.flatten = [.piece 1 2 [7, 8], .piece 1 3 [8]] := by
    simp only [exChunks, replies, List.flatten_cons, List.flatten_nil, List.cons_append, List.nil_append, List.filterMap_cons, List.filterMap_nil, reply,
      show (1 : UInt32).toNat = 1 from rfl, show (0 : UInt32).toNat = 0 from rfl, h1, h0, if_true, Bool.false_eq_true, if_false]
    decide +kernel
  rw [e3, hrep]

/-- C68 with this peer: it is registered for pieces 0 and 2, and for none else -/
example (p : Info) : ∃ s t ph out t' ph', Reached s.tor.numPieces [] t ∧ s.tor.numPieces = 4 ∧ NewPeerHandler p s.tor = .ok ph ∧
    loop 10 s 7 ph true (fun _ => true) t (exChunks.map stream) = (out, t', ph', .ok ()) ∧
    RegisteredFor t' 0 p.str ∧ ¬ RegisteredFor t' 1 p.str ∧ RegisteredFor t' 2 p.str ∧ ¬ RegisteredFor t' 3 p.str := by
  obtain ⟨s, t, h, hn, -, -, hr⟩ := exStart
  obtain ⟨ph, out, t', ph', e1, e2, e3, -⟩ := C68_without_have_partial h [] t hr 7 p [p.str] ⟨by simp, by simp, by simp⟩ exChunks (by
      rw [hn]
      intro ws hws w hw
      simp only [exChunks, List.mem_cons, List.not_mem_nil, or_false] at hws
      rcases hws with rfl | rfl <;> simp only [List.mem_cons, List.not_mem_nil, or_false] at hw <;> rcases hw with rfl | rfl | rfl <;>
        first | trivial | (simp only [Polite]; decide +kernel)) (by
      intro ws hws j
      simp only [exChunks, List.mem_cons, List.not_mem_nil, or_false] at hws
      rcases hws with rfl | rfl <;> simp)
    (fun i hi => by
      rw [hr.inv.registered i hi]
      simp [after, empty])
    10 (by
      intro ws hws
      simp only [exChunks, List.mem_cons, List.not_mem_nil, or_false] at hws
      rcases hws with rfl | rfl <;> decide +kernel)
  have hann : ∀ i, Announced exChunks.flatten i ↔ Bits.bit [160] i = true := by
    intro i
    simp [Announced, InBitfield, exChunks]
  refine ⟨s, t, ph, out, t', ph', hr, hn, e1, e2, ?_, ?_, ?_, ?_⟩ <;> rw [e3 _ (by rw [hn]; decide), hann] <;> decide

/-- hypotheses of C67 and C68 -/
example : (∀ w ∈ [Wire.Msg.unchoke, .have 2], Decodable w) ∧ (stream [Wire.Msg.unchoke, .have 2] ++ (wire (.piece 0 0 [1, 2]) ++ [])).length < 2 ^ 32 ∧
    Polite [1, 2, 3, 4, 5] 1 5 (.bitfield [168]) ∧ [1, 2].length ≠ (5 + 7) / 8 := by
  refine ⟨?_, by decide, ?_, by decide⟩
  · intro w hw
    simp only [List.mem_cons, List.not_mem_nil, or_false] at hw
    rcases hw with rfl | rfl <;> trivial
  · simp only [Polite]; decide

end Verif.Session
