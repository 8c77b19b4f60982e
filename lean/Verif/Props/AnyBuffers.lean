import Verif.Props.Framing
import Verif.Props.HandshakeCut
/-
C66 for received buffers that end anywhere: what is sent is determined by the messages that can be read in each buffer on its own (Spec/Framing.lean).
-/
set_option autoImplicit false

namespace Verif.Session
open Verif.P2P Verif.Bf Verif.Files Verif.FileIO Verif.PieceTracker Verif.Layout Verif.Bits Verif.Wire Verif.Avail Verif.Handshake
  Verif.HandshakeSpec Verif.MsgHandler Verif.SessionSpec Verif.Peer Verif.Framing

/-- received buffers, each with the messages that are read in it, all of which a downloading peer may send -/
def Understands (content : Bytes) (pl n fuel : Nat) (xs : List (Bytes × List Wire.Msg)) : Prop :=
  ∀ x ∈ xs, Reads x.1 x.2 .normal ∧ x.1.length < 2 ^ 32 ∧ x.1.length < fuel ∧ ∀ w ∈ x.2, Polite content pl n w

/-- the buffers -/
def bufs (xs : List (Bytes × List Wire.Msg)) : List Bytes := xs.map Prod.fst

/-- the messages -/
def msgs (xs : List (Bytes × List Wire.Msg)) : List Wire.Msg := (xs.map Prod.snd).flatten

theorem decode_reads {data : Bytes} {ws : List Wire.Msg} (h : Reads data ws .normal) (hlen : data.length < 2 ^ 32) (fuel : Nat) (hf : data.length < fuel) :
    DecodeAll fuel data = .ok ⟨ws.map received, (stream ws).length⟩ := by
  have := Verif.P2P.loop_reads data ws .normal h hlen fuel [] 0 hf
  rw [DecodeAll, this]
  simp

/-- the buffers one after the other -/
theorem recvAll_any {pl : Nat} {hashes : Bytes} {files : List EntryBase} {cs : List Bytes} {s : MsgHandler.Swarm} {st : St}
    (h : Running pl hashes files cs s st.buf) (calls : List Call) (hr : Reached s.tor.numPieces calls st.ppt) (me : PH) (keys : List Bytes)
    (hf : Few keys me calls) (fuel : Nat) (xs : List (Bytes × List Wire.Msg)) (hx : Understands cs.flatten pl s.tor.numPieces fuel xs) :
    ∃ st', (∀ more, recvAll fuel s me (fun _ => true) (bufs xs ++ more) st = recvAll fuel s me (fun _ => true) more st') ∧
      st'.out = st.out ++ (replies cs.flatten pl (ours s) (msgs xs)).map wire ∧
      ∀ i : Nat, i < s.tor.numPieces → ∀ k, RegisteredFor st'.ppt i k ↔ RegisteredFor st.ppt i k ∨ (k = me.key ∧ InBitfield (msgs xs) i) := by
  induction xs generalizing st calls with
  | nil => exact ⟨st, fun _ => rfl, by simp [replies, msgs], by simp [InBitfield, msgs]⟩
  | cons x xs ih =>
    obtain ⟨r1, r2, r3, r4⟩ := hx x (by simp)
    obtain ⟨st1, calls1, e1, o1, b1, q1, f1, g1⟩ := handleAll_polite h calls hr me keys hf x.2 r4
    obtain ⟨st2, e2, o2, g2⟩ := ih (h.withBuf b1) calls1 q1 f1 (fun y hy => hx y (by simp [hy]))
    have hm : handleMessage fuel s me (fun _ => true) x.1 st = (st1, .ok ()) := by
      unfold handleMessage
      rw [decode_reads r1 r2 fuel r3]
      exact e1
    refine ⟨st2, ?_, ?_, ?_⟩
    · intro more
      show recvAll fuel s me (fun _ => true) (x.1 :: (bufs xs ++ more)) st = _
      rw [recvAll, hm]
      exact e2 more
    · rw [o2, o1]
      simp only [msgs, List.map_cons, List.flatten_cons, replies_append, List.map_append, List.append_assoc]
    · intro i hi k
      rw [g2 i hi k, g1 i hi k]
      simp only [msgs, List.map_cons, List.flatten_cons, inBitfield_append]
      constructor
      · rintro ((a | ⟨b, c⟩) | ⟨b, c⟩)
        · exact .inl a
        · exact .inr ⟨b, .inl c⟩
        · exact .inr ⟨b, .inr c⟩
      · rintro (a | ⟨b, c | c⟩)
        · exact .inl (.inl a)
        · exact .inl (.inr ⟨b, c⟩)
        · exact .inr ⟨b, c⟩

/-- how a connection ends with a last buffer (or without one): normally, with a panic, or never -/
def ended : Option (Bytes × List Wire.Msg × End) → Res Unit
  | some (_, _, .crash) => .panic
  | some (_, _, .stuck) => .timeout
  | _ => .ok ()

/-- the last buffer -/
def lastBuf : Option (Bytes × List Wire.Msg × End) → List Bytes
  | some (b, _, _) => [b]
  | none => []

/-- a last buffer that crashes the client or keeps it for ever -/
def Fatal (fuel : Nat) (last : Option (Bytes × List Wire.Msg × End)) : Prop :=
  ∀ b ws e, last = some (b, ws, e) → Reads b ws e ∧ e ≠ .normal ∧ b.length < 2 ^ 32 ∧ b.length < fuel

theorem recvAll_last (fuel : Nat) (s : MsgHandler.Swarm) (me : PH) (wok : Nat → Bool) (st : St) (last : Option (Bytes × List Wire.Msg × End)) (h : Fatal fuel last) :
    recvAll fuel s me wok (lastBuf last) st = (st, ended last) := by
  match last, h with
  | none, _ => rfl
  | some (b, ws, e), h =>
    obtain ⟨h1, h2, h3, h4⟩ := h b ws e rfl
    show recvAll fuel s me wok [b] st = _
    rw [recvAll]
    unfold handleMessage
    cases e with
    | normal => exact absurd rfl h2
    | crash =>
      have : DecodeAll fuel b = .panic := Verif.P2P.loop_reads b ws .crash h1 h3 fuel [] 0 h4
      rw [this]; rfl
    | stuck =>
      have : DecodeAll fuel b = .timeout := Verif.P2P.loop_reads b ws .stuck h1 h3 fuel [] 0
      rw [this]; rfl

/-- the loop of a connection, for any buffers -/
theorem loop_any {pl : Nat} {hashes : Bytes} {files : List EntryBase} {cs : List Bytes} {s : MsgHandler.Swarm}
    (h : Running pl hashes files cs s (List.replicate pl 0)) (calls : List Call) (ppt : Tracker) (hr : Reached s.tor.numPieces calls ppt)
    (ptr : Nat) (p : Info) (keys : List Bytes) (hf : Few keys ⟨ptr, p.str⟩ calls) (fuel : Nat) (xs : List (Bytes × List Wire.Msg))
    (hx : Understands cs.flatten pl s.tor.numPieces fuel xs) (last : Option (Bytes × List Wire.Msg × End)) (hl : Fatal fuel last) :
    ∃ ph ppt' ph', NewPeerHandler p s.tor = .ok ph ∧
      loop fuel s ptr ph true (fun _ => true) ppt (bufs xs ++ lastBuf last) =
        (wire .unchoke :: (replies cs.flatten pl (ours s) (msgs xs)).map wire, ppt', ph', ended last) ∧
      ∀ i : Nat, i < s.tor.numPieces → ∀ k, RegisteredFor ppt' i k ↔ RegisteredFor ppt i k ∨ (k = p.str ∧ InBitfield (msgs xs) i) := by
  obtain ⟨name, hm⟩ := h.accepted.made
  obtain ⟨-, hp, -⟩ := C24_fields _ _ _ _ _ hm
  obtain ⟨b0, hb0, -⟩ := new_wf s.tor.numPieces
  have hph : NewPeerHandler p s.tor = .ok ⟨p, ⟨false, false, false, false⟩, b0, List.replicate pl 0⟩ := by
    unfold NewPeerHandler
    rw [hp, if_neg (by omega), hb0]
    rfl
  obtain ⟨st', e, o, hreg⟩ := recvAll_any (st := ⟨ppt, b0, List.replicate pl 0, []⟩) h calls hr ⟨ptr, p.str⟩ keys hf fuel xs hx
  refine ⟨_, st'.ppt, ⟨p, ⟨false, false, false, false⟩, st'.peerBf, st'.buf⟩, hph, ?_, hreg⟩
  unfold loop
  have hfirst : firstMessage true = .ok [wire .unchoke] := rfl
  rw [hfirst]
  simp only [e, recvAll_last fuel s _ _ _ last hl, o, List.nil_append, List.singleton_append]

/-- **C66**, for buffers that end anywhere (partial: what is read in them is what a downloading peer may send): a peer connects and sends its handshake, and then come any
buffers.  The bytes we send are our handshake, our bitfield, an unchoke message, and the answers to those requests that can be read in one buffer; what is in a last buffer
that crashes the client or keeps it for ever is not answered.  Missing: requests for bytes that do not exist, and bitfields of a wrong size (C43-C45). -/
theorem C66_any_partial {pl : Nat} {hashes : Bytes} {files : List EntryBase} {cs : List Bytes} {s : MsgHandler.Swarm}
    (h : Running pl hashes files cs s (List.replicate pl 0)) (calls : List Call) (ppt : Tracker) (hr : Reached s.tor.numPieces calls ppt)
    (v6 : IP → Bytes) (ip : IP) (port : UInt16) (hs ih own id : Bytes) (hhs : IsHandshake hs ih id) (hown : own.length = 20)
    (ptr : Nat) (keys : List Bytes) (hf : Few keys ⟨ptr, (MakePeer v6 id ip port).str⟩ calls) (fuel : Nat) (xs : List (Bytes × List Wire.Msg))
    (hx : Understands cs.flatten pl s.tor.numPieces fuel xs) (last : Option (Bytes × List Wire.Msg × End)) (hl : Fatal fuel last) :
    ∃ out hs', incoming fuel v6 ⟨some (ip, port), true, some hs, true, true⟩ ih own s ptr true (fun _ => true) ppt (bufs xs ++ lastBuf last) = (out, ended last) ∧
      IsHandshake hs' ih own ∧
      out.flatten = hs' ++ stream (.bitfield s.bf.data :: .unchoke :: replies cs.flatten pl (ours s) (msgs xs)) := by
  obtain ⟨hsw, -⟩ := reachable_exact h.bf
  have h1 := hsw.data_len
  have h2 := hsw.lo8
  have h3 := hsw.hi
  have h4 := h.nbits
  have h5 := hr.1
  have hfits : Fits (.bitfield s.bf.data) := by simp only [Fits, body, List.length_cons]; omega
  have hlen := isHandshake_length hhs
  have hacc : (FromIncoming v6 ⟨some (ip, port), true, some hs, true, true⟩ ih own s.bf).2 = .ok (MakePeer v6 id ip port) := by
    refine (C41_accept_iff_partial v6 _ ih own s.bf hsw (fun d hd => by cases hd; omega) _).mpr ⟨ip, port, hs, id, rfl, rfl, rfl, rfl, rfl, ?_, rfl⟩
    rw [hlen, Nat.sub_self, List.replicate_zero, List.append_nil]
    exact hhs
  have hans := C41_answer v6 _ ih own s.bf hsw hfits _ hacc
  obtain ⟨ph, ppt', ph', e1, e2, -⟩ := loop_any h calls ppt hr ptr (MakePeer v6 id ip port) keys hf fuel xs hx last hl
  refine ⟨[MakeHandshake ih own, wire (.bitfield s.bf.data)] ++
    (wire .unchoke :: (replies cs.flatten pl (ours s) (msgs xs)).map wire), MakeHandshake ih own, ?_, (C40_made ih own ih hhs.1 hown).1, ?_⟩
  · unfold incoming
    rw [← Prod.eta (FromIncoming v6 ⟨some (ip, port), true, some hs, true, true⟩ ih own s.bf), hans, hacc]
    simp only [e1, e2]
  · simp only [stream, List.map_cons, List.flatten_append, List.flatten_cons, List.flatten_nil, List.append_nil, List.append_assoc]

/-- **C66**, the same for connections that we open, for any buffers: if the bytes received begin with a handshake (for whatever torrent), then the first buffer has no effect, and
what we send is our handshake, an unchoke message and the answers to the requests that can be read in one of the other buffers. -/
theorem C66_any_outgoing_partial {pl : Nat} {hashes : Bytes} {files : List EntryBase} {cs : List Bytes} {s : MsgHandler.Swarm}
    (h : Running pl hashes files cs s (List.replicate pl 0)) (calls : List Call) (ppt : Tracker) (hr : Reached s.tor.numPieces calls ppt)
    (p : Info) (hs ih ih' own id : Bytes) (hhs : IsHandshake hs ih' id) (hown : own.length = 20) (hih : ih.length = 20)
    (ptr : Nat) (keys : List Bytes) (hf : Few keys ⟨ptr, p.str⟩ calls) (fuel : Nat) (first later : Bytes) (xs : List (Bytes × List Wire.Msg))
    (hx : Understands cs.flatten pl s.tor.numPieces (fuel + 2) xs) (last : Option (Bytes × List Wire.Msg × End)) (hl : Fatal (fuel + 2) last)
    (hfirst : first ++ (bufs xs ++ lastBuf last).flatten = hs ++ later) :
    ∃ out hs', outgoing (fuel + 2) true true p ih own s ptr true (fun _ => true) ppt (first :: (bufs xs ++ lastBuf last)) = (out, ended last) ∧
      IsHandshake hs' ih own ∧
      out.flatten = hs' ++ stream (.unchoke :: replies cs.flatten pl (ours s) (msgs xs)) := by
  obtain ⟨ph, ppt', ph', e1, e2, -⟩ := loop_any h calls ppt hr ptr p keys hf (fuel + 2) xs hx last hl
  have e3 : loop (fuel + 2) s ptr ph true (fun _ => true) ppt (first :: (bufs xs ++ lastBuf last)) =
      loop (fuel + 2) s ptr ph true (fun _ => true) ppt (bufs xs ++ lastBuf last) := by
    unfold loop
    rw [C42_first_buffer fuel s _ _ _ hs ih' id hhs later first _ (by rw [List.flatten_cons]; exact hfirst)]
  refine ⟨[MakeHandshake ih own] ++ (wire .unchoke :: (replies cs.flatten pl (ours s) (msgs xs)).map wire), MakeHandshake ih own, ?_,
    (C40_made ih own ih hih hown).1, ?_⟩
  · unfold outgoing
    have : FromBootstrap true true p ih own = ([MakeHandshake ih own], .ok p) := rfl
    rw [this]
    simp only [e1, e3, e2]
  · simp only [stream, List.map_cons, List.flatten_append, List.flatten_cons, List.flatten_nil, List.append_nil]

/-- a request, nine of the seventeen bytes of a second one; the other eight bytes; a third request -/
def exCut : List (Bytes × List Wire.Msg) :=
  [(wire (.request 1 2 2) ++ (wire (.request 1 3 1)).take 9, [.request 1 2 2]), ((wire (.request 1 3 1)).drop 9, []), (wire (.request 1 0 1), [.request 1 0 1])]

/-- a block -/
def exFatal : Option (Bytes × List Wire.Msg × End) := some (wire (.piece 0 0 []), [], .crash)

theorem exCut_understood : Understands [[1, 2, 3, 4, 5], [], [6, 7, 8, 9, 10, 11, 12, 13]].flatten 4 4 30 exCut := by
  have hw : ∀ w ∈ [Wire.Msg.request 1 2 2, .request 1 0 1], Polite [[1, 2, 3, 4, 5], [], [6, 7, 8, 9, 10, 11, 12, 13]].flatten 4 4 w := by
    intro w hw
    simp only [List.mem_cons, List.not_mem_nil, or_false] at hw
    rcases hw with rfl | rfl <;> (simp only [Polite]; decide +kernel)
  intro x hx
  simp only [exCut, List.mem_cons, List.not_mem_nil, or_false] at hx
  rcases hx with rfl | rfl | rfl
  · refine ⟨.message (.request 1 2 2) _ [] .normal trivial (.givenUp _ (.inr (.inr ⟨6, by decide +kernel, by decide +kernel, .inr (.inl ⟨by decide +kernel, by decide +kernel⟩)⟩))),
      by decide +kernel, by decide +kernel, fun w h => hw w (by simp only [List.mem_singleton] at h; simp [h])⟩
  · exact ⟨.givenUp _ (.inr (.inr ⟨0, by decide +kernel, by decide +kernel, .inl ⟨by decide, by decide +kernel⟩⟩)), by decide +kernel, by decide +kernel, fun w h => nomatch h⟩
  · refine ⟨?_, by decide +kernel, by decide +kernel, fun w h => hw w (by simp only [List.mem_singleton] at h; simp [h])⟩
    have := Reads.message (.request 1 0 1) [] [] .normal trivial .nil
    rwa [List.append_nil] at this

theorem exFatal_fatal : Fatal 30 exFatal := by
  intro b ws e he
  cases he
  refine ⟨?_, nofun, by decide +kernel, by decide +kernel⟩
  have := Reads.piece [0, 0, 0, 0, 0, 0, 0, 0] []
  rwa [show frame 7 [0, 0, 0, 0, 0, 0, 0, 0] ++ [] = wire (.piece 0 0 []) by decide +kernel] at this

/-- the session of C66 with these buffers: two blocks are sent, the one that was asked for in two buffers is not, and then the client panics -/
example : ∃ s t out hs', Reached s.tor.numPieces [] t ∧
    incoming 30 (fun _ => []) ⟨some (IPv4 1 2 3 4, 80), true, some (MakeHandshake (List.replicate 20 1) (List.replicate 20 2)), true, true⟩ (List.replicate 20 1)
      (List.replicate 20 3) s 7 true (fun _ => true) t (bufs exCut ++ [wire (.piece 0 0 [])]) = (out, .panic) ∧
    IsHandshake hs' (List.replicate 20 1) (List.replicate 20 3) ∧
    out.flatten = hs' ++ stream [.bitfield s.bf.data, .unchoke, .piece 1 2 [7, 8], .piece 1 0 [5]] := by
  obtain ⟨s, t, h, hn, h1, h0, hr⟩ := exStart
  obtain ⟨out, hs', e1, e2, e3⟩ := C66_any_partial h [] t hr (fun _ => []) (IPv4 1 2 3 4) 80
    (MakeHandshake (List.replicate 20 1) (List.replicate 20 2)) (List.replicate 20 1) (List.replicate 20 3) (List.replicate 20 2)
    (C40_made _ _ [] (by decide) (by decide)).1 (by decide) 7 [(MakePeer (fun _ => []) (List.replicate 20 2) (IPv4 1 2 3 4) 80).str]
    ⟨by decide, by simp, by simp⟩ 30 exCut (by rw [hn]; exact exCut_understood) exFatal exFatal_fatal
  refine ⟨s, t, out, hs', hr, e1, e2, ?_⟩
  have hrep : replies [[1, 2, 3, 4, 5], [], [6, 7, 8, 9, 10, 11, 12, 13]].flatten 4 (ours s) (msgs exCut) = [.piece 1 2 [7, 8], .piece 1 0 [5]] := by
    simp only [exCut, msgs, replies, List.map_cons, List.map_nil, List.flatten_cons, List.flatten_nil, List.cons_append, List.nil_append, List.filterMap_cons, List.filterMap_nil, reply,
      show (1 : UInt32).toNat = 1 from rfl, h1, if_true]
    decide +kernel
  rw [e3, hrep]

end Verif.Session
