import Verif.Props.P2P
/-
C10, C11, C12, C16: for which messages, streams and ways of cutting them the claims hold, exactly.
-/
set_option autoImplicit false

namespace Verif.P2P
open Verif.Wire Verif.Bf

/-- the message object that the constructors of the package (keepalive.go, no_payload.go, have.go, bitfield.go, request.go, piece.go) build for a message -/
inductive Built : Wire.Msg → Msg → Prop
  | keepAlive : Built .keepAlive .keepAlive
  | choke : Built .choke .choke
  | unchoke : Built .unchoke .unchoke
  | interested : Built .interested .interested
  | notInterested : Built .notInterested .notInterested
  | have (i : UInt32) : Built (.have i) (NewMsgHave i)
  | bitfield (bf : Bitfield) (h : Wf bf) : Built (.bitfield bf.data) (NewMsgBitfield bf)
  | request (i b l : UInt32) : Built (.request i b l) (NewMsgRequest i b l)
  | piece (i b : UInt32) (block : Bytes) : Built (.piece i b block) (NewMsgPiece i b block)

/-- **C10**, exact: the messages that are encoded in the wire format are those that are not requests. -/
theorem C10_exact_partial (w : Wire.Msg) (m : Msg) (h : Built w m) (hf : Fits w) : m.Encode = .ok (wire w) ↔ ∀ i b l, w ≠ .request i b l := by
  obtain ⟨h1, h2, h3, h4, h5, h6, h7, h8⟩ := C10_encode_wire_partial
  cases h with
  | keepAlive => exact ⟨fun _ _ _ _ => nofun, fun _ => h1⟩
  | choke => exact ⟨fun _ _ _ _ => nofun, fun _ => h2⟩
  | unchoke => exact ⟨fun _ _ _ _ => nofun, fun _ => h3⟩
  | interested => exact ⟨fun _ _ _ _ => nofun, fun _ => h4⟩
  | notInterested => exact ⟨fun _ _ _ _ => nofun, fun _ => h5⟩
  | «have» i => exact ⟨fun _ _ _ _ => nofun, fun _ => h6 i⟩
  | bitfield bf hw => exact ⟨fun _ _ _ _ => nofun, fun _ => h8 bf hw hf⟩
  | request i b l => exact ⟨fun e => absurd e (C10_refuted_request i b l).2, fun hn => absurd rfl (hn i b l)⟩
  | piece i b block => exact ⟨fun _ _ _ _ => nofun, fun _ => h7 i b block hf⟩

example : Built (.piece 1 2 [3]) (NewMsgPiece 1 2 [3]) ∧ Fits (.piece 1 2 [3]) := ⟨.piece 1 2 [3], by simp [Fits, body, be32_length]⟩

theorem not_decodable {w : Wire.Msg} (h : ¬ Decodable w) : (∃ i b blk, w = .piece i b blk) ∨ w = .bitfield [] := by
  cases w with
  | piece i b blk => exact .inl ⟨i, b, blk, rfl⟩
  | bitfield p =>
    cases p with
    | nil => exact .inr rfl
    | cons a l => exact absurd (show (a :: l : Bytes) ≠ [] from nofun) h
  | _ => exact absurd trivial h

/-- **C11**, exact: a message comes back from its wire form if and only if it is neither a piece nor an empty bitfield; and for no other message does `Decode` succeed at all. -/
theorem C11_iff_partial (w : Wire.Msg) (rest : Bytes) (hlen : (wire w ++ rest).length < 2 ^ 32) :
    ((∃ m n, Decode (wire w ++ rest) = .ok ⟨some m, n⟩) ↔ Decodable w) ∧
    ((∃ m, Decode (wire w ++ rest) = .ok ⟨some m, (wire w).length⟩ ∧ m.view = w) ↔ Decodable w) := by
  have bad : (∃ m n, Decode (wire w ++ rest) = .ok ⟨some m, n⟩) → Decodable w := by
    rintro ⟨m, n, e⟩
    apply Classical.byContradiction
    intro hn
    rcases not_decodable hn with ⟨i, b, blk, rfl⟩ | rfl
    · rw [C11_refuted_piece i b blk rest hlen] at e; cases e
    · have := decode_empty_bitfield rest (by rw [List.length_append] at hlen; exact hlen)
      have hw : wire (.bitfield []) = [0, 0, 0, 1, 5] := by decide
      rw [hw, this] at e; cases e
  refine ⟨⟨bad, fun h => ?_⟩, ⟨fun ⟨m, e, _⟩ => bad ⟨m, _, e⟩, fun h => ?_⟩⟩
  · obtain ⟨m, e, -⟩ := C11_roundtrip_partial w rest h hlen
    exact ⟨m, _, e⟩
  · obtain ⟨m, e, hv, -⟩ := C11_roundtrip_partial w rest h hlen
    exact ⟨m, e, hv⟩

example : Decodable (.request 1 2 3) ∧ ¬ Decodable (.piece 1 2 []) ∧ ¬ Decodable (.bitfield []) := ⟨trivial, id, fun h => h rfl⟩

theorem split_bad (ws : List Wire.Msg) (h : ¬ ∀ w ∈ ws, Decodable w) : ∃ pre w post, ws = pre ++ w :: post ∧ (∀ x ∈ pre, Decodable x) ∧ ¬ Decodable w := by
  induction ws with
  | nil => exact absurd nofun h
  | cons x xs ih =>
    by_cases hx : Decodable x
    · have : ¬ ∀ w ∈ xs, Decodable w := fun hall => h fun w hw => by
        rcases List.mem_cons.mp hw with rfl | hw
        · exact hx
        · exact hall w hw
      obtain ⟨pre, w, post, e, h1, h2⟩ := ih this
      refine ⟨x :: pre, w, post, by rw [e]; rfl, ?_, h2⟩
      intro y hy
      rcases List.mem_cons.mp hy with rfl | hy
      · exact hx
      · exact h1 y hy
    · exact ⟨[], x, xs, rfl, nofun, hx⟩

theorem stream_append (a b : List Wire.Msg) : stream (a ++ b) = stream a ++ stream b := by simp [stream]

/-- **C12**, exact: a stream of complete messages is decoded to these messages if and only if there are no pieces and no empty bitfields among them; otherwise `DecodeAll`
does not return at all. -/
theorem C12_iff_partial (ws : List Wire.Msg) (hlen : (stream ws).length < 2 ^ 32) :
    ((∃ fuel ms, DecodeAll fuel (stream ws) = .ok ⟨ms, (stream ws).length⟩ ∧ ms.map Msg.view = ws) ↔ ∀ w ∈ ws, Decodable w) ∧
    ((∃ fuel r, DecodeAll fuel (stream ws) = .ok r) ↔ ∀ w ∈ ws, Decodable w) := by
  have bad : (∃ fuel r, DecodeAll fuel (stream ws) = .ok r) → ∀ w ∈ ws, Decodable w := by
    rintro ⟨fuel, r, e⟩
    apply Classical.byContradiction
    intro hn
    obtain ⟨pre, w, post, rfl, h1, h2⟩ := split_bad ws hn
    rw [stream_append, stream_cons] at e hlen
    rcases not_decodable h2 with ⟨i, b, blk, rfl⟩ | rfl
    · by_cases hf : pre.length < fuel
      · rw [C12_refuted_piece pre h1 i b blk _ hlen fuel hf] at e; cases e
      · have : DecodeAll fuel (stream pre ++ (wire (.piece i b blk) ++ stream post)) = .timeout := by
          have key : ∀ (pre : List Wire.Msg) (fuel : Nat) (rest : Bytes) (msgs : List Msg) (rd : Nat), (∀ w ∈ pre, Decodable w) → (stream pre ++ rest).length < 2 ^ 32 → fuel ≤ pre.length →
              decodeAllLoop fuel (stream pre ++ rest) msgs rd = .timeout := by
            intro pre
            induction pre with
            | nil =>
              intro fuel rest msgs rd _ _ hf
              cases fuel with
              | zero => rfl
              | succ n => cases hf
            | cons x xs ih =>
              intro fuel rest msgs rd hd hlen hf
              cases fuel with
              | zero => rfl
              | succ n =>
                rw [stream_cons, List.append_assoc] at hlen ⊢
                rw [loop_wire n x _ (hd x (by simp)) hlen]
                refine ih n rest _ _ (fun y hy => hd y (by simp [hy])) ?_ (by simpa using hf)
                rw [List.length_append] at hlen; omega
          exact key pre fuel _ [] 0 h1 hlen (by omega)
        rw [this] at e; cases e
    · have hw : wire (.bitfield []) = [0, 0, 0, 1, 5] := by decide
      rw [hw] at e hlen
      rw [C14_refuted_empty_bitfield pre h1 _ hlen fuel] at e; cases e
  refine ⟨⟨fun ⟨fuel, ms, e, _⟩ => bad ⟨fuel, _, e⟩, fun h => ?_⟩, ⟨bad, fun h => ?_⟩⟩
  · obtain ⟨ms, hv, e⟩ := C12_stream_partial ws h hlen
    exact ⟨ws.length + 1, ms, e _ (by omega), hv⟩
  · obtain ⟨ms, hv, e⟩ := C12_stream_partial ws h hlen
    exact ⟨ws.length + 1, _, e _ (by omega)⟩

example : (∀ w ∈ [Wire.Msg.unchoke, .request 1 2 3], Decodable w) ∧ ¬ ∀ w ∈ [Wire.Msg.unchoke, .piece 1 2 [3]], Decodable w :=
  ⟨by intro w hw; simp only [List.mem_cons, List.not_mem_nil, or_false] at hw; rcases hw with rfl | rfl <;> trivial, fun h => h (.piece 1 2 [3]) (by simp)⟩

theorem chunks_bound (fuel : Nat) : ∀ (cs : List Bytes) (ms : List Msg), decodeChunks fuel cs = .ok ms →
    (stream (ms.map Msg.view)).length ≤ cs.flatten.length ∧
    ((stream (ms.map Msg.view)).length = cs.flatten.length → ∃ groups : List (List Wire.Msg), groups.flatten = ms.map Msg.view ∧ groups.map stream = cs)
  | [], ms, h => by
    cases h
    exact ⟨Nat.le_refl _, fun _ => ⟨[], rfl, rfl⟩⟩
  | c :: cs, ms, h => by
    unfold decodeChunks at h
    obtain ⟨r, hr, h⟩ := Res.bind_eq_ok.mp h
    obtain ⟨rest, hrest, h⟩ := Res.bind_eq_ok.mp h
    cases h
    obtain ⟨k1, k2, k3⟩ := C15_decodeAll_read_exact fuel c r hr
    obtain ⟨i1, i2⟩ := chunks_bound fuel cs rest hrest
    rw [List.map_append, stream_append, List.length_append, List.flatten_cons, List.length_append]
    refine ⟨by omega, fun e => ?_⟩
    obtain ⟨groups, g1, g2⟩ := i2 (by omega)
    refine ⟨r.msgs.map Msg.view :: groups, by rw [List.flatten_cons, g1], ?_⟩
    rw [List.map_cons, g2, k2.eq_of_length (by omega)]

/-- **C16**, exact: if messages arrive cut into reads, they are understood if and only if every read ends at the end of a message. -/
theorem C16_iff_partial (ws : List Wire.Msg) (hd : ∀ w ∈ ws, Decodable w) (cs : List Bytes) (hcs : cs.flatten = stream ws) (hlen : (stream ws).length < 2 ^ 32)
    (fuel : Nat) (hf : ws.length < fuel) :
    (∃ ms, decodeChunks fuel cs = .ok ms ∧ ms.map Msg.view = ws) ↔ ∃ groups : List (List Wire.Msg), groups.flatten = ws ∧ groups.map stream = cs := by
  constructor
  · rintro ⟨ms, h, hv⟩
    obtain ⟨-, h2⟩ := chunks_bound fuel cs ms h
    rw [hv, hcs] at h2
    exact h2 rfl
  · rintro ⟨groups, rfl, rfl⟩
    obtain ⟨ms, h1, -, h3⟩ := C16_boundary_chunks_partial groups (fun g hg w hw => hd w (List.mem_flatten.mpr ⟨g, hg, hw⟩)) hlen fuel hf
    exact ⟨ms, h1, h3⟩

/-- two messages in two reads; they are understood if the cut is between them, and not if it is elsewhere -/
example : (∃ groups : List (List Wire.Msg), groups.flatten = [.unchoke, .interested] ∧ groups.map stream = [[0, 0, 0, 1, 1], [0, 0, 0, 1, 2]]) ∧
    decodeChunks 9 [[0, 0, 0, 1], [1, 0, 0, 0, 1, 2]] = .ok [] := ⟨⟨[[.unchoke], [.interested]], rfl, by decide⟩, by decide +kernel⟩

end Verif.P2P
