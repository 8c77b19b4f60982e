import Verif.Lemmas.Log
import Verif.Props.P2P
/-
The log of one connection, goroutine by goroutine.
-/
set_option autoImplicit false

namespace Verif.Log
open Verif.P2P Verif.Wire Verif.Peer Verif.Handshake Verif.Bencode Verif.ShowSpec Verif.LogSpec Verif.Lts Verif.Show

/-- what one goroutine says -/
def of (p : Part) (es : List Entry) : List Entry := es.filter fun e => part e == p

theorem of_append (p : Part) (a b : List Entry) : of p (a ++ b) = of p a ++ of p b := List.filter_append ..

/-! ### pingLoop -/

/-- what `pingLoop` has said -/
def PingInv (c : Conn) (P : List Entry) : Prop :=
  match c.ping with
  | .notStarted => P = [] ∧ c.pings = 0 ∧ c.lost = 0
  | .run => P = .pingStart c.info.addr :: List.replicate c.pings (.pingSent c.info.addr) ∧ c.lost = 0
  | .sent => P ++ [.pingSent c.info.addr] = .pingStart c.info.addr :: List.replicate c.pings (.pingSent c.info.addr) ∧ 0 < c.pings ∧ c.lost = 0
  | .fail _ | .told => P = .pingStart c.info.addr :: List.replicate c.pings (.pingSent c.info.addr) ∧ c.lost = 1
  | .failed => P = .pingStart c.info.addr :: List.replicate c.pings (.pingSent c.info.addr) ++ [.pingError c.info.addr] ∧ c.lost = 1
  | .ending => ∃ l : Bool, P ++ [.pingEnd c.info.str] = pingStory c.info.addr c.info.str c.pings l ∧ c.lost = l.toNat
  | .ended => ∃ l : Bool, P = pingStory c.info.addr c.info.str c.pings l ∧ c.lost = l.toNat

theorem ping_step {E : Env} {es' : List Entry} {c c' : Conn} (he : Early c) (hs : CStep E c es' c') (P : List Entry) (h : PingInv c P) : PingInv c' (P ++ of .ping es') := by
  have q := he.quiet
  have q' := he.early
  cases hs with
  | bitfield ip port id h1 =>
    have := (q (q' (by simp [h1]))).1
    simp only [PingInv, this] at h ⊢
    simpa [of, part] using h
  | pingStart hm h1 =>
    simp only [PingInv, h1] at h ⊢
    obtain ⟨rfl, h2, h3⟩ := h
    simp [of, part, h2, h3]
  | pingWrite h1 =>
    simp only [PingInv, h1] at h ⊢
    obtain ⟨rfl, h3⟩ := h
    simp [of, h3, List.replicate_succ']
  | pingSays h1 =>
    simp only [PingInv, h1] at h ⊢
    obtain ⟨h2, h3, h4⟩ := h
    exact ⟨by rw [← h2]; rfl, h4⟩
  | pingFail e h1 =>
    simp only [PingInv, h1] at h ⊢
    obtain ⟨rfl, h3⟩ := h
    simp [of, h3]
  | pingReport e h1 hm =>
    simp only [PingInv, h1] at h ⊢
    simpa [of] using h
  | pingSaysError h1 =>
    simp only [PingInv, h1] at h ⊢
    obtain ⟨rfl, h3⟩ := h
    exact ⟨rfl, h3⟩
  | pingSaysLost h1 =>
    simp only [PingInv, h1] at h ⊢
    obtain ⟨rfl, h3⟩ := h
    refine ⟨true, ?_, h3⟩
    simp [of, part, pingStory]
  | pingEnd h1 =>
    simp only [PingInv, h1] at h ⊢
    obtain ⟨l, h2, h3⟩ := h
    exact ⟨l, by rw [← h2]; rfl, h3⟩
  | killPing hm h1 =>
    simp only [PingInv, h1] at h ⊢
    obtain ⟨rfl, h3⟩ := h
    exact ⟨false, by simp [of, pingStory], h3⟩
  | _ =>
    rw [show of .ping _ = [] from rfl, List.append_nil]
    exact h

/-! ### requestLoop and Run -/

/-- what `requestLoop` has said -/
def ReqInv (c : Conn) (R : List Entry) : Prop :=
  match c.req with
  | .notStarted => R = []
  | .run | .creating => R = [.reqStart c.info.str]
  | .ended => R = [.reqStart c.info.str, .reqEnd c.info.str]

theorem req_step {E : Env} {es' : List Entry} {c c' : Conn} (he : Early c) (hs : CStep E c es' c') (P : List Entry) (h : ReqInv c P) : ReqInv c' (P ++ of .req es') := by
  have q := he.quiet
  have q' := he.early
  cases hs with
  | bitfield ip port id h1 =>
    have := (q (q' (by simp [h1]))).2.2
    simp only [ReqInv, this] at h ⊢
    simpa [of, part] using h
  | reqStart hm h1 =>
    simp only [ReqInv, h1] at h ⊢
    rw [h]; rfl
  | reqCreate h1 hc =>
    simp only [ReqInv, h1] at h ⊢
    rw [h]; rfl
  | reqEnd h1 hc =>
    simp only [ReqInv, h1] at h ⊢
    rw [h]; rfl
  | _ =>
    rw [show of .req _ = [] from rfl, List.append_nil]
    exact h

/-- what `Run` has said -/
def ReaderInv (c : Conn) (R : List Entry) : Prop :=
  match c.reader with
  | .notStarted => R = []
  | .run => R = [.readStart c.remote]
  | .ended => R = [.readStart c.remote, .readEnd c.remote]

theorem reader_step {E : Env} {es' : List Entry} {c c' : Conn} (hs : CStep E c es' c') (P : List Entry) (h : ReaderInv c P) : ReaderInv c' (P ++ of .reader es') := by
  cases hs with
  | readStart hr h1 =>
    simp only [ReaderInv, h1] at h ⊢
    rw [h]; rfl
  | readEnd h1 =>
    simp only [ReaderInv, h1] at h ⊢
    rw [h]; rfl
  | _ =>
    rw [show of .reader _ = [] from rfl, List.append_nil]
    exact h

/-! ### Loop -/

/-- what `Loop` has said -/
def MainInv (E : Env) (c : Conn) (M : List Entry) : Prop :=
  match c.main with
  | .begin => M = []
  | .wait | .killing _ => M = [] ∨ ∃ e, M = [.unchokeError e]
  | .kill | .waitProcs | .report => ∃ e, M = [.killing c.info.str e] ∨ ∃ e', M = [.unchokeError e', .killing c.info.str e]
  | .returned => E.heard = true ∧ ∃ e, M = [.killing c.info.str e, .done c.info.addr] ∨ ∃ e', M = [.unchokeError e', .killing c.info.str e, .done c.info.addr]

theorem main_step {E : Env} {es' : List Entry} {c c' : Conn} (he : Early c) (hs : CStep E c es' c') (P : List Entry) (h : MainInv E c P) : MainInv E c' (P ++ of .main es') := by
  have q' := he.early
  cases hs with
  | bitfield ip port id h1 =>
    have := q' (by simp [h1])
    simp only [MainInv, this] at h ⊢
    rw [h]; rfl
  | unchoke h1 hm =>
    simp only [MainInv, hm] at h ⊢
    exact .inl (by rw [h]; rfl)
  | unchokeFails e h1 hm =>
    simp only [MainInv, hm] at h ⊢
    exact .inr ⟨e, by rw [h]; rfl⟩
  | pingReport e h1 hm =>
    simp only [MainInv, hm] at h ⊢
    simpa [of] using h
  | recvReport e h1 hm =>
    simp only [MainInv, hm] at h ⊢
    simpa [of] using h
  | says e hm =>
    simp only [MainInv, hm] at h ⊢
    rcases h with rfl | ⟨e', rfl⟩
    · exact ⟨e, .inl rfl⟩
    · exact ⟨e, .inr ⟨e', rfl⟩⟩
  | killPing hm h1 =>
    simp only [MainInv, hm] at h ⊢
    simpa [of] using h
  | killRecv hm h1 =>
    simp only [MainInv, hm] at h ⊢
    simpa [of] using h
  | waited hm h1 =>
    simp only [MainInv, hm] at h ⊢
    simpa [of] using h
  | report hm hh =>
    simp only [MainInv, hm] at h ⊢
    rcases h with ⟨e, rfl | ⟨e', rfl⟩⟩
    · exact ⟨hh, e, .inl rfl⟩
    · exact ⟨hh, e, .inr ⟨e', rfl⟩⟩
  | _ =>
    rw [show of .main _ = [] from rfl, List.append_nil]
    exact h

/-! ### recvLoop -/

/-- the messages that are still to be handled -/
def Recv.todo : Recv → List P2P.Msg
  | .busy ms => ms
  | _ => []

/-- what is said about buffers and bitfields -/
structure Body (c : Conn) (body : List Entry) : Prop where
  only : ∀ e ∈ body, (∃ read len pc, e = .decoded read len pc c.info.addr) ∨ e = .registered
  buffers : buffers body = c.got.map fun g => ((stream (g.2.map P2P.Msg.view)).length, g.1.length)
  found : ∀ g ∈ c.got, (stream (g.2.map P2P.Msg.view)).Sublist g.1
  regs : body.count .registered = c.regs
  bitfields : c.regs + bitfields c.recv.todo ≤ (c.got.map fun g => bitfields g.2).sum

/-- what `recvLoop` has said -/
def RecvInv (c : Conn) (R : List Entry) : Prop :=
  match c.recv with
  | .notStarted => R = [] ∧ c.got = [] ∧ c.regs = 0
  | .ended => ∃ body, R = .recvStart c.info.str :: body ++ [.recvEnd c.info.str] ∧ Body c body
  | _ => ∃ body, R = .recvStart c.info.str :: body ∧ Body c body

theorem recv_step {E : Env} {es' : List Entry} {c c' : Conn} (he : Early c) (hs : CStep E c es' c') (P : List Entry) (h : RecvInv c P) : RecvInv c' (P ++ of .recv es') := by
  have q := he.quiet
  have q' := he.early
  have keep : ∀ d : Conn, d.info = c.info → d.got = c.got → d.regs = c.regs → bitfields d.recv.todo ≤ bitfields c.recv.todo → ∀ body, Body c body → Body d body := by
    intro d e1 e2 e3 e4 body hb
    exact ⟨by rw [e1]; exact hb.only, by rw [e2]; exact hb.buffers, by rw [e2]; exact hb.found, by rw [e3]; exact hb.regs, by have := hb.bitfields; rw [e2, e3]; omega⟩
  cases hs with
  | bitfield ip port id h1 =>
    have := (q (q' (by simp [h1]))).2.1
    simp only [RecvInv, this] at h ⊢
    simpa [of, part] using h
  | recvStart hm h1 =>
    simp only [RecvInv, h1] at h ⊢
    obtain ⟨rfl, h2, h3⟩ := h
    exact ⟨[], rfl, by simp, by simp [h2, LogSpec.buffers], by simp [h2], by simp [h3], by simp [h2, h3, Recv.todo, LogSpec.bitfields]⟩
  | receive buf pc fuel dar h1 hd =>
    simp only [RecvInv, h1] at h ⊢
    obtain ⟨body, rfl, hb⟩ := h
    obtain ⟨d1, d2, -⟩ := C15_decodeAll_read_exact fuel buf dar hd
    refine ⟨body ++ [.decoded dar.read buf.length pc c.info.addr], rfl, ?_, ?_, ?_, ?_, ?_⟩
    · intro e hm
      rcases List.mem_append.mp hm with hm | hm
      · exact hb.only e hm
      · exact .inl ⟨_, _, _, List.mem_singleton.mp hm⟩
    · have := hb.buffers
      unfold LogSpec.buffers at this ⊢
      rw [List.filterMap_append, this]
      simp [d1]
    · intro g hg
      rcases List.mem_append.mp hg with hg | hg
      · exact hb.found g hg
      · rw [List.mem_singleton.mp hg]; exact d2
    · have := hb.regs
      simp [this]
    · have := hb.bitfields
      rw [h1] at this
      simp only [Recv.todo, List.map_append, List.sum_append, List.map_cons, List.map_nil, List.sum_cons, List.sum_nil] at this ⊢
      have e0 : LogSpec.bitfields [] = 0 := rfl
      omega
  | registers n b ms h1 =>
    simp only [RecvInv, h1] at h ⊢
    obtain ⟨body, rfl, hb⟩ := h
    refine ⟨body ++ [.registered], rfl, ?_, ?_, hb.found, ?_, ?_⟩
    · intro e hm
      rcases List.mem_append.mp hm with hm | hm
      · exact hb.only e hm
      · exact .inr (List.mem_singleton.mp hm)
    · have := hb.buffers
      unfold LogSpec.buffers at this ⊢
      rw [List.filterMap_append, this]
      simp
    · have := hb.regs
      simp [this]
    · have := hb.bitfields
      rw [h1] at this
      simp only [Recv.todo, LogSpec.bitfields, List.countP_cons, if_true] at this ⊢
      omega
  | rejects n b ms h1 =>
    simp only [RecvInv, h1] at h ⊢
    obtain ⟨body, rfl, hb⟩ := h
    exact ⟨body, by simp [of], by refine keep _ ?_ ?_ ?_ ?_ body hb <;> first | rfl | simp [Recv.todo, LogSpec.bitfields]⟩
  | handles m ms h1 hm =>
    simp only [RecvInv, h1] at h ⊢
    obtain ⟨body, rfl, hb⟩ := h
    refine ⟨body, by simp [of], ?_⟩
    refine keep _ ?_ ?_ ?_ ?_ body hb <;> try rfl
    rw [h1]
    simp only [Recv.todo, LogSpec.bitfields, List.countP_cons]
    omega
  | requestFails i b l ms e h1 =>
    simp only [RecvInv, h1] at h ⊢
    obtain ⟨body, rfl, hb⟩ := h
    exact ⟨body, by simp [of], by refine keep _ ?_ ?_ ?_ ?_ body hb <;> first | rfl | simp [Recv.todo, LogSpec.bitfields]⟩
  | handled h1 =>
    simp only [RecvInv, h1] at h ⊢
    obtain ⟨body, rfl, hb⟩ := h
    exact ⟨body, by simp [of], by refine keep _ ?_ ?_ ?_ ?_ body hb <;> first | rfl | simp [Recv.todo, LogSpec.bitfields]⟩
  | recvFail e h1 =>
    simp only [RecvInv, h1] at h ⊢
    obtain ⟨body, rfl, hb⟩ := h
    exact ⟨body, by simp [of], by refine keep _ ?_ ?_ ?_ ?_ body hb <;> first | rfl | simp [Recv.todo, LogSpec.bitfields]⟩
  | recvQuiet h1 =>
    simp only [RecvInv, h1] at h ⊢
    obtain ⟨body, rfl, hb⟩ := h
    exact ⟨body, by simp [of], by refine keep _ ?_ ?_ ?_ ?_ body hb <;> first | rfl | simp [Recv.todo, LogSpec.bitfields]⟩
  | recvReport e h1 hm =>
    simp only [RecvInv, h1] at h ⊢
    obtain ⟨body, rfl, hb⟩ := h
    exact ⟨body, by simp [of], by refine keep _ ?_ ?_ ?_ ?_ body hb <;> first | rfl | simp [Recv.todo, LogSpec.bitfields]⟩
  | finish h1 =>
    simp only [RecvInv, h1] at h ⊢
    obtain ⟨body, rfl, hb⟩ := h
    exact ⟨body, by simp [of], by refine keep _ ?_ ?_ ?_ ?_ body hb <;> first | rfl | simp [Recv.todo, LogSpec.bitfields]⟩
  | finishBlocks h1 =>
    simp only [RecvInv, h1] at h ⊢
    obtain ⟨body, rfl, hb⟩ := h
    exact ⟨body, by simp [of], by refine keep _ ?_ ?_ ?_ ?_ body hb <;> first | rfl | simp [Recv.todo, LogSpec.bitfields]⟩
  | recvEnd h1 =>
    simp only [RecvInv, h1] at h ⊢
    obtain ⟨body, rfl, hb⟩ := h
    exact ⟨body, rfl, by refine keep _ ?_ ?_ ?_ ?_ body hb <;> first | rfl | simp [Recv.todo, LogSpec.bitfields]⟩
  | killRecv hm h1 =>
    simp only [RecvInv, h1] at h ⊢
    obtain ⟨body, rfl, hb⟩ := h
    exact ⟨body, by simp [of], by refine keep _ ?_ ?_ ?_ ?_ body hb <;> first | rfl | simp [Recv.todo, LogSpec.bitfields]⟩
  | _ =>
    rw [show of .recv _ = [] from rfl, List.append_nil]
    unfold RecvInv at h ⊢
    first
      | exact h
      | (cases hr : c.recv <;> simp only [hr] at h ⊢ <;> first | exact h | (obtain ⟨body, h1, hb⟩ := h; exact ⟨body, h1, by refine keep _ ?_ ?_ ?_ ?_ body hb <;> first | rfl | simp [hr]⟩))

/-! ### before Loop -/

/-- what is said about a connection that was accepted, before `Loop` -/
def InInv (c : Conn) (B : List Entry) : Prop :=
  match c.stage with
  | .calling => False
  | .shaking _ _ => B = (greeting c.remote).take 1 ∧ c.hs = false ∧ c.bf = false
  | .good _ _ _ => B = (greeting c.remote).take 2 ∧ c.hs = false ∧ c.bf = false
  | .greeted _ _ _ => B = (greeting c.remote).take 3 ∧ c.hs = true ∧ c.bf = false
  | .gone => ∃ k e, 1 ≤ k ∧ k ≤ 3 ∧ B = (greeting c.remote).take k ++ [.refused e] ∧ (c.hs = true ↔ k = 3) ∧ c.bf = false
  | .looping => B = greeting c.remote ∧ c.hs = true ∧ c.bf = true

theorem in_step {E : Env} {es' : List Entry} {c c' : Conn} (hs : CStep E c es' c') (P : List Entry) (h : InInv c P) : InInv c' (P ++ of .before es') := by
  cases hs with
  | dialFails e h1 => simp only [InInv, h1] at h
  | dialled h1 => simp only [InInv, h1] at h
  | shakeFails ip port e h1 =>
    simp only [InInv, h1] at h ⊢
    obtain ⟨rfl, h2, h3⟩ := h
    exact ⟨1, e, by omega, by omega, rfl, by simp [h2], h3⟩
  | badHandshake ip port d h1 hv =>
    simp only [InInv, h1] at h ⊢
    obtain ⟨rfl, h2, h3⟩ := h
    exact ⟨1, _, by omega, by omega, rfl, by simp [h2], h3⟩
  | goodHandshake ip port d id h1 hv hid =>
    simp only [InInv, h1] at h ⊢
    obtain ⟨rfl, h2, h3⟩ := h
    exact ⟨rfl, h2, h3⟩
  | greetFails ip port id e h1 =>
    simp only [InInv, h1] at h ⊢
    obtain ⟨rfl, h2, h3⟩ := h
    exact ⟨2, e, by omega, by omega, rfl, by simp [h2], h3⟩
  | greet ip port id h1 =>
    simp only [InInv, h1] at h ⊢
    obtain ⟨rfl, h2, h3⟩ := h
    exact ⟨rfl, trivial, h3⟩
  | bitfieldFails ip port id e h1 =>
    simp only [InInv, h1] at h ⊢
    obtain ⟨rfl, h2, h3⟩ := h
    exact ⟨3, e, by omega, by omega, rfl, by simp [h2], h3⟩
  | bitfield ip port id h1 =>
    simp only [InInv, h1] at h ⊢
    obtain ⟨rfl, h2, h3⟩ := h
    exact ⟨rfl, h2, trivial⟩
  | _ =>
    rw [show of .before _ = [] from rfl, List.append_nil]
    exact h

/-- what is said about a connection that we make, before `Loop` -/
def OutInv (c : Conn) (B : List Entry) : Prop :=
  match c.stage with
  | .calling => B = [] ∧ c.hs = false ∧ c.bf = false
  | .gone => (∃ e, B = [.noBootstrap c.info.addr e]) ∧ c.hs = false ∧ c.bf = false
  | .looping => B = [] ∧ c.hs = true ∧ c.bf = false
  | _ => False

theorem out_step {E : Env} {es' : List Entry} {c c' : Conn} (hs : CStep E c es' c') (P : List Entry) (h : OutInv c P) : OutInv c' (P ++ of .before es') := by
  cases hs with
  | dialFails e h1 =>
    simp only [OutInv, h1] at h ⊢
    obtain ⟨rfl, h2, h3⟩ := h
    exact ⟨⟨e, rfl⟩, h2, h3⟩
  | dialled h1 =>
    simp only [OutInv, h1] at h ⊢
    obtain ⟨rfl, h2, h3⟩ := h
    exact ⟨rfl, trivial, h3⟩
  | shakeFails ip port e h1 => simp only [OutInv, h1] at h
  | badHandshake ip port d h1 hv => simp only [OutInv, h1] at h
  | goodHandshake ip port d id h1 hv hid => simp only [OutInv, h1] at h
  | greetFails ip port id e h1 => simp only [OutInv, h1] at h
  | greet ip port id h1 => simp only [OutInv, h1] at h
  | bitfieldFails ip port id e h1 => simp only [OutInv, h1] at h
  | bitfield ip port id h1 => simp only [OutInv, h1] at h
  | _ =>
    rw [show of .before _ = [] from rfl, List.append_nil]
    exact h

/-! ### the order -/

/-- the rest is said behind that -/
structure OrderInv (c : Conn) (es : List Entry) : Prop where
  order : es = of .before es ++ es.filter fun e => part e != .before
  quiet : c.main = .begin → c.reader = .notStarted ∧ ∀ e ∈ es, part e = .before

theorem kind_step {E : Env} {es' : List Entry} {c c' : Conn} (he : Early c) (hr : c.main = .begin → c.reader = .notStarted) (hs : CStep E c es' c') :
    (c'.main = .begin → c.main = .begin ∧ c'.reader = .notStarted ∧ ∀ e ∈ es', part e = .before) ∧ (c.main ≠ .begin → ∀ e ∈ es', part e ≠ .before) := by
  have ps : ∀ {P : Prop}, c.ping ≠ .notStarted → c.main = .begin → P := fun a b => absurd (he.quiet b).1 a
  have rs : ∀ {P : Prop}, c.recv ≠ .notStarted → c.main = .begin → P := fun a b => absurd (he.quiet b).2.1 a
  have qs : ∀ {P : Prop}, c.req ≠ .notStarted → c.main = .begin → P := fun a b => absurd (he.quiet b).2.2 a
  have out : ∀ {P : Prop}, c.stage ≠ .looping → c.main ≠ .begin → P := fun a b => absurd (he.early a) b
  cases hs with
  | dialFails _ h | dialled h | shakeFails _ _ _ h | badHandshake _ _ _ h | goodHandshake _ _ _ _ h | greetFails _ _ _ _ h | greet _ _ _ h | bitfieldFails _ _ _ _ h | bitfield _ _ _ h =>
    exact ⟨fun hm => ⟨hm, hr hm, by simp [part]⟩, fun hm => out (by simp [h]) hm⟩
  | pingStart hm h | recvStart hm h | reqStart hm h => exact ⟨fun hb => absurd hb hm, by simp [part]⟩
  | pingWrite h | pingSays h | pingFail _ h | pingSaysError h | pingSaysLost h | pingEnd h => exact ⟨fun hb => ps (by simp [h]) hb, by simp [part]⟩
  | receive _ _ _ _ h | registers _ _ _ h | rejects _ _ _ h | handles _ _ h | requestFails _ _ _ _ _ h | handled h | recvFail _ h | recvQuiet h | finish h | finishBlocks h | recvEnd h =>
    exact ⟨fun hb => rs (by simp [h]) hb, by simp [part]⟩
  | reqCreate h | reqEnd h => exact ⟨fun hb => qs (by simp [h]) hb, by simp [part]⟩
  | readStart h _ => exact ⟨fun hb => rs h hb, by simp [part]⟩
  | readEnd h => exact ⟨fun hb => absurd (hr hb) (by simp [h]), by simp [part]⟩
  | unchoke | unchokeFails | pingReport | recvReport | says | killPing | killRecv | waited | report => exact ⟨fun hb => by simp at hb, by simp [part]⟩

theorem order_step {E : Env} {es es' : List Entry} {c c' : Conn} (he : Early c) (hs : CStep E c es' c') (h : OrderInv c es) : OrderInv c' (es ++ es') := by
  obtain ⟨h1, h2⟩ := h
  obtain ⟨k1, k2⟩ := kind_step he (fun hb => (h2 hb).1) hs
  constructor
  · by_cases hb : c.main = .begin
    · have : es.filter (fun e => part e != .before) = [] := List.filter_eq_nil_iff.mpr (by simpa using (h2 hb).2)
      have hes : of .before es = es := List.filter_eq_self.mpr (by simpa using (h2 hb).2)
      have hl : es' = [] ∨ ∃ e, es' = [e] := by cases hs <;> first | exact .inl rfl | exact .inr ⟨_, rfl⟩
      rw [of_append, List.filter_append, this, hes, List.nil_append, List.append_assoc]
      congr 1
      rcases hl with rfl | ⟨e, rfl⟩
      · rfl
      · by_cases hp : part e = .before <;> simp [of, hp]
    · have : of .before es' = [] := List.filter_eq_nil_iff.mpr (by simpa using k2 hb)
      rw [of_append, this, List.filter_append, List.append_nil, ← List.append_assoc, ← h1]
      congr 1
      exact (List.filter_eq_self.mpr (by simpa using k2 hb)).symm
  · intro hb
    obtain ⟨q1, q2, q3⟩ := k1 hb
    refine ⟨q2, fun e hm => ?_⟩
    rcases List.mem_append.mp hm with hm | hm
    · exact (h2 q1).2 e hm
    · exact q3 e hm

end Verif.Log
