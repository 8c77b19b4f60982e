import Verif.Spec.Large
import Verif.Props.Fate
import Verif.Props.Download
/-
Property C96: messages that are longer than the buffer of a connection.
-/
set_option autoImplicit false

namespace Verif.Peers
open Verif.P2P Verif.Bf Verif.Files Verif.FileIO Verif.PieceTracker Verif.Layout Verif.Bits Verif.Wire Verif.Avail Verif.Handshake
  Verif.HandshakeSpec Verif.MsgHandler Verif.SessionSpec Verif.PeersSpec Verif.Peer Verif.Session Verif.Lts Verif.Framing Verif.LargeSpec

theorem mem_le_sum {l : List Nat} {a : Nat} (h : a ∈ l) : a ≤ l.sum := by
  induction l with
  | nil => cases h
  | cons b l ih =>
    rw [List.sum_cons]
    rcases List.mem_cons.mp h with rfl | h
    · omega
    · have := ih h; omega

/-- messages found in a buffer have been in it -/
theorem found_small {fuel : Nat} {buf : Bytes} {dar : DecodeAllResult} (h : DecodeAll fuel buf = .ok dar) (m : P2P.Msg) (hm : m ∈ dar.msgs) :
    (wire m.view).length ≤ buf.length := by
  obtain ⟨new, h1, -, h3, -⟩ := loop_sound fuel buf [] 0 dar h
  rw [h1, List.nil_append] at hm
  have := h3.length_le
  have hs : (wire m.view) ∈ (new.map Msg.view).map wire := List.mem_map_of_mem (List.mem_map_of_mem hm)
  have : (wire m.view).length ≤ ((new.map Msg.view).map wire).flatten.length := by
    rw [List.length_flatten]
    exact mem_le_sum (List.mem_map_of_mem hs)
  unfold stream at *
  omega

/-- the start of a message that does not end in the buffer is given up -/
theorem reads_start (w : Wire.Msg) (hf : (body w).length < 2 ^ 32 - 4) (k : Nat) (hk : k < (wire w).length) : Reads ((wire w).take k) [] .normal := by
  by_cases h0 : k = 0
  · subst h0; exact .nil
  have hl := length_wire w
  refine .givenUp _ ?_
  have hlen : ((wire w).take k).length = k := by rw [List.length_take]; omega
  by_cases h4 : k < 4
  · exact .inl ⟨by omega, by omega⟩
  have hp : prefixLen ((wire w).take k) = (body w).length := by
    rw [← prefixLen_append ((wire w).take k) ((wire w).drop k) (by omega), List.take_append_drop]
    unfold wire
    exact prefixLen_be32 _ _ (by omega)
  by_cases h5 : k = 4
  · exact .inr (.inl ⟨by omega, by rw [hp]; omega⟩)
  · have h6 : 4 < ((wire w).take k).length := by omega
    refine .inr (.inr ⟨((wire w).take k)[4], List.getElem?_eq_getElem h6, by rw [hp]; omega, ?_⟩)
    rw [hp, hlen]
    exact .inr (.inl ⟨hf, by omega⟩)

/-- **C96** (partial: exactly which messages).  A message that is understood at all can arrive in such a way that it is found in one of the buffers precisely
if its wire form has at most 16384 bytes; otherwise it is never found, however it arrives. -/
theorem C96_found_iff_partial (w : Wire.Msg) (hw : Understood w) :
    (∃ bufs, Arrives RecvBufSize (wire w) bufs ∧ ∃ b ∈ bufs, ∃ fuel dar, DecodeAll fuel b = .ok dar ∧ w ∈ dar.msgs.map Msg.view) ↔ (wire w).length ≤ 16384 := by
  constructor
  · rintro ⟨bufs, ⟨-, hs⟩, b, hb, fuel, dar, hd, hm⟩
    obtain ⟨m, hm', rfl⟩ := List.mem_map.mp hm
    exact Nat.le_trans (found_small hd m hm') (hs b hb)
  · intro hl
    refine ⟨[wire w], ⟨by simp, fun b hb => by rw [List.mem_singleton.mp hb]; exact hl⟩, wire w, by simp, ?_⟩
    obtain ⟨ms, h1, h2⟩ := (C94_exact_partial (wire w) (by omega)).2 [w] .normal (by have := reads_stream' [w] (by simpa using hw); simpa [stream] using this)
      ((wire w).length + 1) (by omega)
    exact ⟨_, _, h1, by rw [h2]; simp⟩

/-- **C96** (partial: short messages).  Messages of at most 16384 bytes that arrive in buffers of whole messages are all handled, in order. -/
theorem C96_short_partial (fuel : Nat) (s : MsgHandler.Swarm) (me : PH) (wok : Nat → Bool) (groups : List (List Wire.Msg))
    (hw : ∀ ws ∈ groups, (∀ w ∈ ws, Understood w) ∧ (stream ws).length ≤ RecvBufSize) (hf : RecvBufSize < fuel) (st : St) :
    recvAll fuel s me wok (groups.map stream) st = handleAll s me wok (groups.flatten.map received) st := by
  have app : ∀ (a b : List P2P.Msg) (st : St), handleAll s me wok (a ++ b) st =
      match handleAll s me wok a st with
      | (st', .ok _) => handleAll s me wok b st'
      | (st', r) => (st', r) := by
    intro a b
    induction a with
    | nil => intro st; rfl
    | cons m a ih =>
      intro st
      rw [List.cons_append, handleAll, handleAll]
      rcases handleOne s me wok m st with ⟨st', r⟩
      cases r with
      | ok u => exact ih st'
      | _ => rfl
  induction groups generalizing st with
  | nil => rfl
  | cons ws groups ih =>
    obtain ⟨h1, h2⟩ := hw ws (by simp)
    have hs : RecvBufSize = 16384 := rfl
    have key : handleMessage fuel s me wok (stream ws) st = _ := handle_reads fuel s me wok (stream ws) (by omega) (by omega) st ws .normal (reads_stream' ws h1)
    rw [List.map_cons, recvAll, key, List.flatten_cons, List.map_append, app]
    rcases handleAll s me wok (ws.map received) st with ⟨st', r⟩
    cases r with
    | ok u => exact ih (fun x hx => hw x (by simp [hx])) st'
    | _ => rfl

/-- bitfields that have been handled have the right size -/
theorem handled_size {E : Env} {σ₀ σ : Client} (h0 : Initial E σ₀) (hr : Reach (Step E) σ₀ σ) :
    ∀ c ∈ σ.conns, ∀ l b, P2P.Msg.bitfield l b ∈ c.handled → b.nbytes = E.s.bf.nbytes := by
  induction hr with
  | refl => rw [h0.2.1]; nofun
  | tail σ σ' hr hs ih =>
    have add : ∀ (p : Info) (ph : Handler) (ptr : Nat) (out : List Bytes),
        ∀ c ∈ σ.conns ++ [newConn p ptr ph out], ∀ l b, P2P.Msg.bitfield l b ∈ c.handled → b.nbytes = E.s.bf.nbytes := by
      intro p ph ptr out c hc
      rcases List.mem_append.mp hc with hc | hc
      · exact ih c hc
      · rw [List.mem_singleton.mp hc]; nofun
    have upd : ∀ (i : Nat) (c c' : Conn), σ.conns[i]? = some c → c'.handled = c.handled →
        ∀ x ∈ σ.conns.set i c', ∀ l b, P2P.Msg.bitfield l b ∈ x.handled → b.nbytes = E.s.bf.nbytes := by
      intro i c c' hi e x hx
      rcases List.mem_or_eq_of_mem_set hx with hx | rfl
      · exact ih x hx
      · rw [e]; exact ih c (List.mem_of_getElem? hi)
    cases hs with
    | incoming c out first p ph ptr ok hc h1 h2 h3 => exact add p ph ptr _
    | outgoing p p' out first ph ptr ok hc h1 h2 h3 => exact add p ph ptr _
    | incomingPanic => exact ih
    | outgoingPanic => exact ih
    | receive i c buf fuel dar hc hi hr ht hd => exact upd i c _ hi rfl
    | receivePanic i c buf fuel hc hi hr ht hd => exact upd i c _ hi rfl
    | receiveHangs i c buf hc hi hr ht hd => exact upd i c _ hi rfl
    | handle i c m ms ok st hc hi hr ht hh =>
      intro x hx l b hb
      rcases List.mem_or_eq_of_mem_set hx with hx | rfl
      · exact ih x hx l b hb
      · rcases List.mem_append.mp hb with hb | hb
        · exact ih c (List.mem_of_getElem? hi) l b hb
        · rw [← List.mem_singleton.mp hb] at hh
          have e : handleBitfield E.s c.me b (c.st σ.ppt) = (st, .ok ()) := hh
          unfold handleBitfield at e
          by_cases hb : b.nbytes = E.s.bf.nbytes
          · exact hb
          · rw [if_pos hb] at e; cases (Prod.mk.inj e).2
    | handleError i c m ms ok st e hc hi hr ht hh => exact upd i c _ hi rfl
    | handlePanic => exact ih
    | handleHangs i c m ms ok st hc hi hr ht hh => exact upd i c _ hi rfl
    | request i c t n fuel ms ws out hc hi hb ha hq hn hm hw ho => exact upd i c _ hi rfl
    | requestHangs i c t n hc hi hb ha hq hn hm => exact upd i c _ hi rfl
    | requestNone => exact ih
    | requestPanic => exact ih
    | ping i c m hc hi hm => exact upd i c _ hi rfl

/-- **C96** is false: for a torrent with more than 131032 pieces nothing that any peers do, in any execution, makes the client know of a single piece of theirs,
and there is never anything to ask them for. -/
theorem C96_refuted_registered {pl : Nat} {hashes : Bytes} {files : List EntryBase} {cs : List Bytes} {E : Env} (h : Ready pl hashes files cs E)
    (hn : E.s.tor.numPieces ≤ 2 ^ 32) (hbig : 131032 < E.s.tor.numPieces) (σ₀ σ : Client) (h0 : Initial E σ₀) (hr : Reach (Step E) σ₀ σ)
    (hc : σ.crashed = false) (hgot : ∀ c ∈ σ.conns, ∀ b ∈ c.got, b.length ≤ RecvBufSize) :
    (∀ i, i < E.s.tor.numPieces → ∀ k, ¬ RegisteredFor σ.ppt i k) ∧ ∀ c ∈ σ.conns, ∃ t n, NextPiece σ.ppt E.s.bf c.me = .ok (t, n, false) := by
  have none : ∀ c ∈ σ.conns, ∀ i, ¬ InBitfield (c.handled.map Msg.view) i := by
    rintro c hm i ⟨bits, hb, -⟩
    obtain ⟨m, hb, hv⟩ := List.mem_map.mp hb
    obtain ⟨buf, hbuf, fuel, dar, hd, hin⟩ := (reach_asked h hn h0 hr c hm).came m (.inl hb)
    have h1 := found_small hd m hin
    have h2 : m = received m.view := (decodeAll_received fuel buf dar hd m hin).2
    rw [hv] at h1 h2
    rw [h2] at hb
    have h3 : bits.length = E.s.bf.nbytes := handled_size h0 hr c hm _ (rxBitfield bits) hb
    have h4 := hgot c hm buf hbuf
    have h5 : (E.s.tor.numPieces : Int) ≤ 8 * E.s.bf.nbytes := by
      obtain ⟨hsw, -⟩ := reachable_exact h.run.bf
      have := hsw.hi
      have := h.run.nbits
      omega
    rw [length_wire] at h1
    have : (body (.bitfield bits)).length = bits.length + 1 := rfl
    unfold RecvBufSize at h4
    omega
  constructor
  · intro i hi k hreg
    obtain ⟨c, hm, -, hin⟩ := (C76_registered h hn σ₀ σ h0 hr hc i hi k).mp hreg
    exact none c hm i hin
  · intro c hm
    obtain ⟨t, n, found, e, hiff, -⟩ := C83_chosen_partial h hn σ₀ σ h0 hr hc c hm
    cases found with
    | false => exact ⟨t, n, e⟩
    | true =>
      obtain ⟨j, -, -, ws, hk, hin⟩ := hiff.mp rfl
      unfold known at hk
      obtain ⟨x, hx, hxe⟩ := List.mem_map.mp hk
      rw [← (Prod.mk.inj hxe).2] at hin
      exact absurd hin (none x hx j)

theorem recvAll_one (fuel : Nat) (s : MsgHandler.Swarm) (me : PH) (wok : Nat → Bool) (b : Bytes) (st : St) :
    recvAll fuel s me wok [b] st = handleMessage fuel s me wok b st := by
  rw [recvAll]
  rcases handleMessage fuel s me wok b st with ⟨st', r⟩
  cases r <;> rfl

/-- a first buffer that ends within a message is given up -/
theorem recvAll_start (fuel : Nat) (s : MsgHandler.Swarm) (me : PH) (wok : Nat → Bool) (w : Wire.Msg) (hb : (body w).length < 2 ^ 32 - 4) (k : Nat)
    (hk : k < (wire w).length) (hf : k < fuel) (bufs : List Bytes) (st : St) :
    recvAll fuel s me wok ((wire w).take k :: bufs) st = recvAll fuel s me wok bufs st := by
  have hl : ((wire w).take k).length = k := by rw [List.length_take]; omega
  have := length_wire w
  have key : handleMessage fuel s me wok ((wire w).take k) st = _ := handle_reads fuel s me wok ((wire w).take k) (by omega) (by omega) st [] .normal (reads_start w hb k hk)
  rw [recvAll, key]
  rfl

/-- **C96** is false also for blocks of the size that is usual and that this client asks for, 16 KiB: if the message with such a block arrives in buffers of full
size, what is handled is what the last 13 bytes of the block happen to mean as messages. -/
theorem C96_refuted_block (fuel : Nat) (s : MsgHandler.Swarm) (me : PH) (wok : Nat → Bool) (st : St) (i b : UInt32) (blk : Bytes) (hb : blk.length = 16384)
    (hf : RecvBufSize < fuel) :
    Arrives RecvBufSize (wire (.piece i b blk)) [(wire (.piece i b blk)).take RecvBufSize, blk.drop 16371] ∧
    recvAll fuel s me wok [(wire (.piece i b blk)).take RecvBufSize, blk.drop 16371] st = handleMessage fuel s me wok (blk.drop 16371) st := by
  have hbl : (body (.piece i b blk)).length = 16393 := by simp [body, be32_length, hb]
  have hwl : (wire (.piece i b blk)).length = 16397 := by rw [length_wire, hbl]
  have hs : RecvBufSize = 16384 := rfl
  have hd : (wire (.piece i b blk)).drop RecvBufSize = blk.drop 16371 := by
    have : wire (.piece i b blk) = (be32 (body (.piece i b blk)).length ++ 7 :: (be32 i.toNat ++ be32 b.toNat)) ++ blk := by simp [wire, body]
    rw [this, List.drop_append]
    have h13 : (be32 (body (.piece i b blk)).length ++ 7 :: (be32 i.toNat ++ be32 b.toNat)).length = 13 := by simp [be32_length]
    rw [List.drop_eq_nil_of_le (by omega), h13, hs, List.nil_append]
  refine ⟨⟨?_, ?_⟩, ?_⟩
  · rw [← hd]; simp
  · intro x hx
    simp only [List.mem_cons, List.not_mem_nil, or_false] at hx
    rcases hx with rfl | rfl
    · rw [List.length_take]; omega
    · rw [List.length_drop]; omega
  · rw [recvAll_start fuel s me wok _ (by omega) _ (by omega) hf, recvAll_one]

/-- **C96** is false: for every torrent with at least 131072 pieces the bitfield of an honest peer, one that has just four of the pieces, can end the whole process. -/
theorem C96_refuted_honest (n : Nat) (h : 131072 ≤ n) (hn : n ≤ 2 ^ 32) :
    ∃ p, OfPieces n p (· ∈ [131063, 131069, 131070, 131071]) ∧ ∃ bufs, Arrives RecvBufSize (wire (.bitfield p)) bufs ∧
      ∀ fuel s me wok st, RecvBufSize < fuel → (recvAll fuel s me wok bufs st).2 = .panic := by
  obtain ⟨r, hr⟩ : ∃ r, (n + 7) / 8 = 16384 + r := ⟨(n + 7) / 8 - 16384, by omega⟩
  obtain ⟨z, hzl, hz⟩ : ∃ z : Bytes, z.length = 16379 ∧ ∀ j : Nat, j < 16379 → z[j]? = some 0 :=
    ⟨List.replicate 16379 0, List.length_replicate, fun j hj => by rw [List.getElem?_replicate, if_pos hj]⟩
  obtain ⟨q, hq⟩ : ∃ q : Bytes, q = [0, 0, 0, 1, 7] := ⟨_, rfl⟩
  have hql : q.length = 5 := by rw [hq]; rfl
  obtain ⟨p, hp⟩ : ∃ p : Bytes, p = z ++ (q ++ List.replicate r 0) := ⟨_, rfl⟩
  have hpl : p.length = (n + 7) / 8 := by
    rw [hp, hr, List.length_append, List.length_append, List.length_replicate, hzl, hql]; omega
  have hs : RecvBufSize = 16384 := rfl
  have hbl : (body (.bitfield p)).length = 16385 + r := by
    show (5 :: p).length = _
    rw [List.length_cons, hpl, hr]; omega
  have hwl : (wire (.bitfield p)).length = 16389 + r := by rw [length_wire, hbl]; omega
  have hd : (wire (.bitfield p)).drop RecvBufSize = q ++ List.replicate r 0 := by
    have : wire (.bitfield p) = (be32 (body (.bitfield p)).length ++ 5 :: z) ++ (q ++ List.replicate r 0) := by
      unfold wire
      rw [List.append_assoc]
      show _ ++ 5 :: p = _ ++ 5 :: (z ++ _)
      rw [hp]
    have h13 : (be32 (body (.bitfield p)).length ++ 5 :: z).length = RecvBufSize := by
      rw [List.length_append, List.length_cons, be32_length, hzl]; rfl
    rw [this, ← h13, List.drop_left]
  refine ⟨p, ⟨hpl, ?_⟩, [(wire (.bitfield p)).take RecvBufSize, q] ++ (List.replicate r 0).map (fun x => [x]), ⟨?_, ?_⟩, ?_⟩
  · intro i
    have zero : ∀ k, Nat.testBit (0 : UInt8).toNat k = false := by intro k; simp
    have out : bit p i = false → ¬ i ∈ [131063, 131069, 131070, 131071] → (bit p i = true ↔ i ∈ [131063, 131069, 131070, 131071] ∧ i < n) := by
      intro h1 h2
      rw [h1]
      exact ⟨fun hh => (by cases hh), fun hh => absurd hh.1 h2⟩
    by_cases h1 : i / 8 < 16379
    · have e : p[i / 8]? = some 0 := by rw [hp, List.getElem?_append_left (by omega), hz _ h1]
      refine out (by unfold bit; rw [e]; exact zero _) ?_
      simp only [List.mem_cons, List.not_mem_nil, or_false]
      omega
    · by_cases h2 : i / 8 < 16384
      · have e : p[i / 8]? = q[i / 8 - 16379]? := by
          rw [hp, List.getElem?_append_right (by omega), hzl, List.getElem?_append_left (by omega)]
        obtain ⟨k, rfl⟩ : ∃ k, i = 131032 + k := ⟨i - 131032, by omega⟩
        have e1 : (131032 + k) / 8 - 16379 = k / 8 := by omega
        have e2 : (131032 + k) % 8 = k % 8 := by omega
        have e3 : bit p (131032 + k) = bit q k := by unfold bit; rw [e, e1, e2]
        have all : ∀ k, k < 40 → (bit [0, 0, 0, 1, 7] k = true ↔ k ∈ [31, 37, 38, 39]) := by decide +kernel
        rw [e3, hq, all k (by omega)]
        simp only [List.mem_cons, List.not_mem_nil, or_false]
        omega
      · have e : p[i / 8]? = none ∨ p[i / 8]? = some 0 := by
          rw [hp, List.getElem?_append_right (by omega), hzl, List.getElem?_append_right (by omega), List.getElem?_replicate]
          split
          · exact .inr rfl
          · exact .inl rfl
        refine out (by unfold bit; rcases e with e | e <;> rw [e]; exact zero _) ?_
        simp only [List.mem_cons, List.not_mem_nil, or_false]
        omega
  · have single : ∀ l : Bytes, (l.map (fun x => [x])).flatten = l := by
      intro l
      induction l with
      | nil => rfl
      | cons a l ih => simp [ih]
    rw [List.flatten_append, single]
    conv => rhs; rw [← List.take_append_drop RecvBufSize (wire (.bitfield p)), hd]
    simp
  · intro x hx
    rcases List.mem_append.mp hx with hx | hx
    · simp only [List.mem_cons, List.not_mem_nil, or_false] at hx
      rcases hx with rfl | rfl
      · rw [List.length_take]; omega
      · omega
    · obtain ⟨y, -, rfl⟩ := List.mem_map.mp hx
      rw [hs]; simp
  · intro fuel s me wok st hf
    rw [List.cons_append, recvAll_start fuel s me wok _ (by omega) _ (by omega) hf, List.cons_append, recvAll]
    have key : handleMessage fuel s me wok q st = _ := handle_reads fuel s me wok q (by omega) (by omega) st [] .crash
      (by rw [hq]; have := Reads.piece [] []; simpa [frame, be32] using this)
    rw [key]

/-! ### examples -/

/-- a client of a torrent with `n` pieces of one byte: it runs, and a peer has connected -/
theorem exLarge (n : Nat) (h0 : 0 < n) (h : n ≤ 2 ^ 32) (c : Bytes) (hc : c.length = n) (hashes : Bytes) (hh : hashes.length = 20 * n) :
    ∃ (E : Env) (σ₀ σ : Client), Ready 1 hashes [⟨n, ascii "a", ascii "a"⟩] [c] E ∧ E.s.tor.numPieces = n ∧ Initial E σ₀ ∧ Reach (Step E) σ₀ σ ∧
      σ.crashed = false ∧ σ.conns.length = 1 ∧ ∀ c ∈ σ.conns, ∀ b ∈ c.got, b.length ≤ RecvBufSize := by
  have hnn : ∀ f ∈ [(⟨n, ascii "a", ascii "a"⟩ : EntryBase)], 0 ≤ f.length := by
    intro f hf; rw [List.mem_singleton.mp hf]; exact Int.natCast_nonneg n
  have hneed : needed (total (lens [⟨n, ascii "a", ascii "a"⟩])) 1 ≤ hashes.length / 20 := by
    rw [needed_le_iff _ _ _ (by decide), hh]
    simp [lens, total]
  obtain ⟨ti, hti⟩ := (C24_accept_iff_partial (ascii "t") 1 (by decide) hashes _ hnn).mpr ⟨⟨n, hh⟩, hneed⟩
  have hnp := (C24_fields _ _ _ _ _ hti).2.2.2.1
  obtain ⟨b, hb, hbn⟩ : ∃ b, NewBitfield n = .ok b ∧ b.nbits = n := by
    unfold NewBitfield
    have e1 : (n : Int).tdiv 8 = ((n / 8 : Nat) : Int) := rfl
    simp only [e1]
    split
    · rw [if_neg (by omega), if_neg (by rw [List.length_replicate]; omega)]; exact ⟨_, rfl, rfl⟩
    · rw [if_neg (by omega), if_neg (by rw [List.length_replicate]; omega)]; exact ⟨_, rfl, rfl⟩
  obtain ⟨t, ht, -⟩ := new_spec ti.numPieces
  have hE : Ready 1 hashes [⟨n, ascii "a", ascii "a"⟩] [c] ⟨⟨ti, b, openedAll ti, fun p => if p = ascii "a" then some c else none⟩, List.replicate 20 1, List.replicate 20 2, fun _ => []⟩ := by
    refine ⟨⟨⟨by decide, hnn, _, hti⟩, by decide, rfl, ⟨by simp [lens, hc], ?_⟩, .new n b hb, by rw [hbn]; show (n : Int) = ti.numPieces; omega, List.length_replicate⟩,
      List.length_replicate, List.length_replicate⟩
    intro k f c' hf hc'
    match k with
    | 0 => cases hf; cases hc'; simp
    | k + 1 => cases hc'
  obtain ⟨b0, hp0⟩ := newHandler hE.run (MakePeer (fun _ => []) [] [1, 2, 3, 4] 1)
  have s1 := Step.outgoing (E := ⟨⟨ti, b, openedAll ti, fun p => if p = ascii "a" then some c else none⟩, List.replicate 20 1, List.replicate 20 2, fun _ => []⟩)
    (σ := ⟨t, [], false⟩) (MakePeer (fun _ => []) [] [1, 2, 3, 4] 1) _ _ _ _ 1 true rfl rfl hp0 (show firstMessage true = .ok [wire .unchoke] from rfl)
  refine ⟨_, _, _, hE, ?_, ⟨ht, rfl, rfl⟩, .tail _ _ .refl s1, rfl, rfl, ?_⟩
  · show ti.numPieces = n
    omega
  · intro x hx
    rw [List.nil_append] at hx
    rw [List.mem_singleton.mp hx]
    nofun

/-- C96: a client with 200000 pieces -/
example : ∃ (hashes : Bytes) (c : Bytes) (E : Env) (σ₀ σ : Client), Ready 1 hashes [⟨200000, ascii "a", ascii "a"⟩] [c] E ∧ E.s.tor.numPieces = 200000 ∧ Initial E σ₀ ∧ Reach (Step E) σ₀ σ ∧
    σ.crashed = false ∧ σ.conns.length = 1 ∧ ∀ c ∈ σ.conns, ∀ b ∈ c.got, b.length ≤ RecvBufSize :=
  ⟨List.replicate (20 * 200000) 0, List.replicate 200000 7, exLarge 200000 (by decide) (by decide) _ List.length_replicate _ List.length_replicate⟩

/-- C96: bitfields of 16379 bytes can be found, of 16380 bytes not -/
example : Understood (.bitfield (List.replicate 16379 0)) ∧ (wire (.bitfield (List.replicate 16379 0))).length ≤ 16384 ∧
    ¬ (wire (.bitfield (List.replicate 16380 0))).length ≤ 16384 := by
  have hl : ∀ n : Nat, (wire (.bitfield (List.replicate n 0))).length = 5 + n := by
    intro n
    rw [length_wire]
    show 4 + (5 :: List.replicate n 0).length = _
    rw [List.length_cons, List.length_replicate]; omega
  rw [hl, hl]
  refine ⟨?_, by decide, by decide⟩
  intro e
  have := congrArg List.length e
  rw [List.length_replicate] at this
  cases this

/-- C96: the last bytes of a block of 16 KiB that keep the connection busy for ever -/
example (fuel : Nat) (hf : RecvBufSize < fuel) (s : MsgHandler.Swarm) (me : PH) (wok : Nat → Bool) (st : St) (pre : Bytes) (hp : pre.length = 16371) :
    (recvAll fuel s me wok [(wire (.piece 0 0 (pre ++ [0, 0, 0, 1, 5, 0, 0, 0, 0, 0, 0, 0, 0]))).take RecvBufSize, [0, 0, 0, 1, 5, 0, 0, 0, 0, 0, 0, 0, 0]] st).2 = .timeout := by
  have := (C96_refuted_block fuel s me wok st 0 0 (pre ++ [0, 0, 0, 1, 5, 0, 0, 0, 0, 0, 0, 0, 0]) (by rw [List.length_append, hp]; rfl) hf).2
  rw [← hp, List.drop_left] at this
  rw [this, handle_reads fuel s me wok _ (by decide) (by unfold RecvBufSize at hf; simp; omega) st [] .stuck
    (by have := Reads.emptyBitfield [0, 0, 0, 0, 0, 0, 0, 0]; simpa [frame, be32] using this)]

end Verif.Peers
