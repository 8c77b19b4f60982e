import Verif.Props.Session
/-
C42: which bytes are lost and which are taken for messages when the remote handshake is received in parts or together with messages.
-/
set_option autoImplicit false

namespace Verif.MsgHandler
open Verif.P2P Verif.Bf Verif.Files Verif.FileIO Verif.PieceTracker Verif.Layout Verif.Wire Verif.Handshake Verif.HandshakeSpec

/-- less than five bytes that do not begin with a length of 0 are dropped -/
theorem handle_short (fuel : Nat) (s : Swarm) (me : PH) (wok : Nat → Bool) (st : St) (x : Bytes) (hx : x = [] ∨ x = [19] ∨ x = [19, 66] ∨ x = [19, 66, 105] ∨ x = [19, 66, 105, 116]) :
    handleMessage (fuel + 2) s me wok x st = (st, .ok ()) := by
  unfold handleMessage DecodeAll
  rcases hx with rfl | rfl | rfl | rfl | rfl <;> rfl

/-- **C42**, what is lost, exactly: if the remote side sends a handshake first, then the first buffer that is received, where ever it ends, inside of the handshake or
behind it, is dropped without consequences, and all further buffers are taken for messages, also if the handshake goes on in them. -/
theorem C42_first_buffer (fuel : Nat) (s : Swarm) (me : PH) (wok : Nat → Bool) (st : St) (hs ih id : Bytes) (h : IsHandshake hs ih id) (later b : Bytes) (bs : List Bytes)
    (hb : (b :: bs).flatten = hs ++ later) : recvAll (fuel + 2) s me wok (b :: bs) st = recvAll (fuel + 2) s me wok bs st := by
  obtain ⟨r, rfl⟩ := isHandshake_pstr h
  have key : handleMessage (fuel + 2) s me wok b st = (st, .ok ()) := by
    rw [List.flatten_cons, List.append_assoc] at hb
    match b, hb with
    | [], _ => exact handle_short fuel s me wok st _ (.inl rfl)
    | [b0], hb =>
      simp only [List.cons_append, List.cons.injEq] at hb
      exact handle_short fuel s me wok st _ (.inr (.inl (by rw [hb.1])))
    | [b0, b1], hb =>
      simp only [List.cons_append, List.cons.injEq] at hb
      exact handle_short fuel s me wok st _ (.inr (.inr (.inl (by rw [hb.1, hb.2.1]))))
    | [b0, b1, b2], hb =>
      simp only [List.cons_append, List.cons.injEq] at hb
      exact handle_short fuel s me wok st _ (.inr (.inr (.inr (.inl (by rw [hb.1, hb.2.1, hb.2.2.1])))))
    | [b0, b1, b2, b3], hb =>
      simp only [List.cons_append, List.cons.injEq] at hb
      exact handle_short fuel s me wok st _ (.inr (.inr (.inr (.inr (by rw [hb.1, hb.2.1, hb.2.2.1, hb.2.2.2.1])))))
    | b0 :: b1 :: b2 :: b3 :: b4 :: b', hb =>
      simp only [List.cons_append, List.cons.injEq] at hb
      rw [hb.1, hb.2.1, hb.2.2.1, hb.2.2.2.1, hb.2.2.2.2.1]
      exact handle_pstr fuel s me wok st b'
  rw [recvAll, key]

/-- a handshake, 7 bytes of it in the second of two buffers, and messages in the second and the third one -/
example (fuel : Nat) (s : Swarm) (me : PH) (wok : Nat → Bool) (st : St) (hs ih id : Bytes) (h : IsHandshake hs ih id) :
    recvAll (fuel + 2) s me wok [hs.take 61, hs.drop 61 ++ wire .choke, wire .unchoke] st = recvAll (fuel + 2) s me wok [hs.drop 61 ++ wire .choke, wire .unchoke] st :=
  C42_first_buffer fuel s me wok st hs ih id h (wire .choke ++ wire .unchoke) _ _ (by simp [← List.append_assoc])

/-- the handshake with this peer id -/
theorem handshake_with (ih pad tail : Bytes) (h1 : ih.length = 20) (h2 : (pad ++ tail).length = 20) :
    ∃ x, IsHandshake (x ++ tail) ih (pad ++ tail) :=
  ⟨[19] ++ ascii "BitTorrent protocol" ++ List.replicate 8 0 ++ ih ++ pad, h1, h2, List.replicate 8 0, List.length_replicate, by simp⟩

/-- C42 refuted: for every message of at most 20 bytes, also a request, and every info-hash there is a handshake of which the last part, received on its own, is taken for that message. -/
theorem C42_refuted_inside (ih : Bytes) (hih : ih.length = 20) (w : Wire.Msg) (hw : (wire w).length ≤ 20) :
    ∃ hs id x y, IsHandshake hs ih id ∧ hs = x ++ y ∧ ∀ (fuel : Nat) (s : Swarm) (me : PH) (wok : Nat → Bool) (st : St),
      recvAll (fuel + 2) s me wok [x, y] st = recvAll (fuel + 2) s me wok [wire w] st := by
  obtain ⟨x, hx⟩ := handshake_with ih (List.replicate (20 - (wire w).length) 65) (wire w) hih (by rw [List.length_append, List.length_replicate]; omega)
  exact ⟨_, _, x, wire w, hx, rfl, fun fuel s me wok st => C42_first_buffer fuel s me wok st _ _ _ hx [] x [wire w] (by simp)⟩

/-- a request has 17 bytes -/
example : (wire (.request 1 2 3)).length ≤ 20 := by decide +kernel

/-- C42 refuted: for every info-hash there are handshakes that, received in two parts, make the client panic, and ones that keep it busy for ever. -/
theorem C42_refuted_crash (ih : Bytes) (hih : ih.length = 20) :
    (∃ hs id x y, IsHandshake hs ih id ∧ hs = x ++ y ∧ ∀ (fuel : Nat) (s : Swarm) (me : PH) (wok : Nat → Bool) (st : St) (later : List Bytes),
      recvAll (fuel + 2) s me wok (x :: y :: later) st = (st, .panic)) ∧
    (∃ hs id x y, IsHandshake hs ih id ∧ hs = x ++ y ∧ ∀ (fuel : Nat) (s : Swarm) (me : PH) (wok : Nat → Bool) (st : St) (later : List Bytes),
      recvAll (fuel + 2) s me wok (x :: y :: later) st = (st, .timeout)) := by
  constructor
  · obtain ⟨x, hx⟩ := handshake_with ih (List.replicate 7 65) (wire (.piece 0 0 [])) hih (by decide +kernel)
    refine ⟨_, _, x, _, hx, rfl, fun fuel s me wok st later => ?_⟩
    rw [C42_first_buffer fuel s me wok st _ _ _ hx later.flatten x _ (by simp)]
    exact Session.C67_refuted_crash s me wok st [] (fun w hw => nomatch hw) 0 0 [] [] (by decide +kernel) (fuel + 2) (by show 0 < _; omega) later
  · obtain ⟨x, hx⟩ := handshake_with ih (List.replicate 15 65) [0, 0, 0, 1, 5] hih (by decide +kernel)
    refine ⟨_, _, x, _, hx, rfl, fun fuel s me wok st later => ?_⟩
    rw [C42_first_buffer fuel s me wok st _ _ _ hx later.flatten x _ (by simp)]
    have h := C14_refuted_empty_bitfield [] (fun w hw => nomatch hw) [] (by decide) (fuel + 2)
    have e2 : stream [] ++ ([0, 0, 0, 1, 5] ++ []) = [0, 0, 0, 1, 5] := rfl
    rw [e2] at h
    rw [recvAll]
    unfold handleMessage
    rw [h]

end Verif.MsgHandler
