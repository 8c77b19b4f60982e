import Verif.Model.Handshake
import Verif.Spec.Handshake
import Verif.Props.P2P
/-
Properties C40 and C41: the handshake (/repo/src/swarm/handshake.go, peerhandler.go).
-/
set_option autoImplicit false

namespace Verif.Handshake
open Verif.P2P Verif.Bf Verif.Peer Verif.HandshakeSpec Verif.Wire

/-! ### C40 -/

theorem pstr_length : HandshakePstr.length = 19 := by decide +kernel

theorem valid_iff (hs ih : Bytes) : ValidHandshake hs ih = true ↔
    hs.length = 68 ∧ hs[0]? = some 19 ∧ (hs.take 20).drop 1 = ascii "BitTorrent protocol" ∧ (hs.take 48).drop 28 = ih := by
  unfold ValidHandshake HandshakeLen HandshakePstrLen HandshakePstr
  by_cases h1 : hs.length = 68 <;> by_cases h2 : hs[0]? = some 19 <;> by_cases h3 : (hs.take 20).drop 1 = ascii "BitTorrent protocol" <;>
    by_cases h4 : (hs.take 48).drop 28 = ih <;> simp [h1, h2, h3, h4]

/-- the five parts of a string of 68 bytes -/
theorem parts (hs : Bytes) : hs = hs.take 1 ++ (hs.take 20).drop 1 ++ (hs.take 28).drop 20 ++ (hs.take 48).drop 28 ++ hs.drop 48 := by
  have h : ∀ a b : Nat, a ≤ b → hs.take b = hs.take a ++ (hs.take b).drop a := by
    intro a b hab
    conv => lhs; rw [← List.take_append_drop a (hs.take b)]
    rw [List.take_take, Nat.min_eq_left hab]
  rw [← h 1 20 (by omega), ← h 20 28 (by omega), ← h 28 48 (by omega), List.take_append_drop]

/-- **C40**: `ValidHandshake` accepts exactly the handshakes with the given info-hash. -/
theorem C40_valid_iff (hs ih : Bytes) : ValidHandshake hs ih = true ↔ ∃ id, IsHandshake hs ih id := by
  rw [valid_iff]
  constructor
  · rintro ⟨h1, h2, h3, h4⟩
    refine ⟨hs.drop 48, ?_, by rw [List.length_drop]; omega, (hs.take 28).drop 20, ?_, ?_⟩
    · rw [← h4, List.length_drop, List.length_take]; omega
    · rw [List.length_drop, List.length_take]; omega
    · conv => lhs; rw [parts hs]
      rw [h3, h4]
      cases hs with
      | nil => cases h1
      | cons x hs =>
        simp only [List.getElem?_cons_zero, Option.some.injEq] at h2
        rw [h2]; rfl
  · rintro ⟨id, h1, h2, res, h3, rfl⟩
    have hp : (ascii "BitTorrent protocol").length = 19 := pstr_length
    refine ⟨?_, rfl, ?_, ?_⟩
    · simp only [List.length_append, List.length_singleton, hp, h1, h2, h3]
    · rw [List.append_assoc, List.append_assoc, List.take_left' (by rw [List.length_append, List.length_singleton, hp]),
        List.drop_left' (by rfl)]
    · rw [List.take_left' (by simp only [List.length_append, List.length_singleton, hp, h1, h3]),
        List.drop_left' (by simp only [List.length_append, List.length_singleton, hp, h3])]

theorem copyAt_fits (dst src : Bytes) (off : Nat) (h : off + src.length ≤ dst.length) :
    copyAt dst off src = dst.take off ++ src ++ dst.drop (off + src.length) := by
  unfold copyAt
  have : src.take (dst.length - off) = src := List.take_of_length_le (by omega)
  rw [this]

theorem make_eq (ih id : Bytes) (h1 : ih.length = 20) (h2 : id.length = 20) :
    MakeHandshake ih id = [19] ++ ascii "BitTorrent protocol" ++ [0, 0, 0, 0, 0, 0, 0, 0] ++ ih ++ id := by
  unfold MakeHandshake
  have e : copyAt ((List.replicate HandshakeLen 0).set 0 HandshakePstrLen) 1 HandshakePstr =
      [19] ++ ascii "BitTorrent protocol" ++ [0, 0, 0, 0, 0, 0, 0, 0] ++ List.replicate 20 0 ++ List.replicate 20 0 := by decide +kernel
  have hpre : ([19] ++ ascii "BitTorrent protocol" ++ [0, 0, 0, 0, 0, 0, 0, 0] : Bytes).length = 28 := by decide +kernel
  rw [e]
  generalize ([19] ++ ascii "BitTorrent protocol" ++ [0, 0, 0, 0, 0, 0, 0, 0] : Bytes) = pre at hpre ⊢
  have e2 : copyAt (pre ++ List.replicate 20 0 ++ List.replicate 20 0) 28 ih = pre ++ ih ++ List.replicate 20 0 := by
    rw [copyAt_fits _ ih 28 (by simp [hpre, h1]), h1, List.drop_left' (by simp [hpre])]
    rw [List.append_assoc pre, List.take_left' hpre]
  rw [e2, copyAt_fits _ id 48 (by simp [hpre, h1, h2]), List.take_left' (by simp [hpre, h1]), h2, List.drop_of_length_le (by simp [hpre, h1]),
    List.append_nil]

theorem copyAt_length (dst src : Bytes) (off : Nat) (h : off ≤ dst.length) : (copyAt dst off src).length = dst.length := by
  unfold copyAt
  simp only [List.length_append, List.length_take, List.length_drop]
  omega

theorem copyAt_before (dst src : Bytes) (off n : Nat) (h : off ≤ dst.length) (hn : n ≤ off) : (copyAt dst off src).take n = dst.take n := by
  unfold copyAt
  rw [List.append_assoc, List.take_append_of_le_length (by rw [List.length_take]; omega), List.take_take]
  congr 1; omega

/-- **C40**, for info-hashes and ids of any length: what is sent has 68 bytes and begins like a handshake. -/
theorem C40_any_length (ih id : Bytes) : (MakeHandshake ih id).length = 68 ∧ (MakeHandshake ih id).take 28 = [19] ++ ascii "BitTorrent protocol" ++ [0, 0, 0, 0, 0, 0, 0, 0] := by
  unfold MakeHandshake
  have l0 : (copyAt ((List.replicate HandshakeLen 0).set 0 HandshakePstrLen) 1 HandshakePstr).length = 68 := by decide +kernel
  have l1 := (copyAt_length (copyAt ((List.replicate HandshakeLen 0).set 0 HandshakePstrLen) 1 HandshakePstr) ih 28 (by omega)).trans l0
  have l2 := copyAt_length (copyAt (copyAt ((List.replicate HandshakeLen 0).set 0 HandshakePstrLen) 1 HandshakePstr) 28 ih) id 48 (by omega)
  refine ⟨l2.trans l1, ?_⟩
  rw [copyAt_before _ _ _ _ (by omega) (by omega), copyAt_before _ _ _ _ (by omega) (by omega)]
  decide +kernel

example : (MakeHandshake (List.replicate 30 7) (List.replicate 50 9)).drop 28 = List.replicate 20 7 ++ List.replicate 20 9 := by decide +kernel

/-- **C40**: a handshake made by this client is one with its info-hash and peer id: it is accepted for the same info-hash, for
no other, and yields the id. -/
theorem C40_made (ih id ih' : Bytes) (h1 : ih.length = 20) (h2 : id.length = 20) :
    IsHandshake (MakeHandshake ih id) ih id ∧ (ValidHandshake (MakeHandshake ih id) ih' = true ↔ ih' = ih) ∧ Id (MakeHandshake ih id) = .ok id := by
  have hi : IsHandshake (MakeHandshake ih id) ih id := ⟨h1, h2, _, rfl, make_eq ih id h1 h2⟩
  have hpre : ([19] ++ ascii "BitTorrent protocol" ++ [0, 0, 0, 0, 0, 0, 0, 0] : Bytes).length = 28 := by decide +kernel
  refine ⟨hi, ?_, ?_⟩
  · constructor
    · intro h
      have h4 := ((valid_iff _ _).mp h).2.2.2
      have h4' := ((valid_iff _ _).mp ((C40_valid_iff _ ih).mpr ⟨id, hi⟩)).2.2.2
      rw [← h4, h4']
    · rintro rfl
      exact (C40_valid_iff _ _).mpr ⟨id, hi⟩
  · unfold Id slice
    rw [make_eq ih id h1 h2]
    have hl : ([19] ++ ascii "BitTorrent protocol" ++ [0, 0, 0, 0, 0, 0, 0, 0] ++ ih ++ id).length = 68 := by
      rw [List.length_append, List.length_append, hpre, h1, h2]
    rw [if_pos ⟨by omega, by omega⟩, List.take_of_length_le (by omega), List.drop_left' (by rw [List.length_append, hpre, h1])]

example : ValidHandshake (MakeHandshake (List.replicate 20 7) (List.replicate 20 9)) (List.replicate 20 7) = true ∧
    ValidHandshake (MakeHandshake (List.replicate 20 7) (List.replicate 20 9)) (List.replicate 20 8) = false := by decide +kernel

/-! ### C41 -/

/-- the bytes `d` are what one `Read` into a buffer of 68 bytes may return for a peer that sends `stream` -/
def Delivers (stream d : Bytes) : Prop := d ≠ [] ∧ d.length ≤ 68 ∧ d <+: stream

theorem readBuf_eq (d : Bytes) (h : d.length ≤ 68) : readBuf d = d ++ List.replicate (68 - d.length) 0 := by
  unfold readBuf HandshakeLen
  rw [copyAt_fits _ _ _ (by rw [List.length_replicate]; omega), List.take_zero, List.nil_append, List.drop_replicate, Nat.zero_add]

theorem isHandshake_length {hs ih id : Bytes} (h : IsHandshake hs ih id) : hs.length = 68 := by
  obtain ⟨h1, h2, r, h3, rfl⟩ := h
  have hp : (ascii "BitTorrent protocol").length = 19 := pstr_length
  simp only [List.length_append, List.length_singleton, hp, h1, h2, h3]

theorem isHandshake_id {hs ih id : Bytes} (h : IsHandshake hs ih id) : Id hs = .ok id := by
  have hl := isHandshake_length h
  obtain ⟨h1, h2, r, h3, rfl⟩ := h
  have hp : (ascii "BitTorrent protocol").length = 19 := pstr_length
  unfold Id slice
  rw [if_pos ⟨by omega, by omega⟩, List.take_of_length_le (by omega),
    List.drop_left' (by simp only [List.length_append, List.length_singleton, hp, h1, h3])]

/-- **C41**, exact: when a peer is accepted.  What counts is the bytes of the first `Read`, filled up with zero bytes.
Missing from the property: these need not be 68 bytes (`C41_refuted_short`). -/
theorem C41_accept_iff_partial (v6 : IP → Bytes) (c : Incoming) (ih own : Bytes) (b : Bitfield) (hb : Wf b) (hl : ∀ d, c.read = some d → d.length ≤ 68)
    (p : Info) :
    (FromIncoming v6 c ih own b).2 = .ok p ↔
      ∃ ip port d id, c.tcp = some (ip, port) ∧ c.deadline = true ∧ c.read = some d ∧ c.write1 = true ∧ c.write2 = true ∧
        IsHandshake (d ++ List.replicate (68 - d.length) 0) ih id ∧ p = MakePeer v6 id ip port := by
  unfold FromIncoming
  have henc : ∃ m, (NewMsgBitfield b).Encode = .ok m := by
    unfold NewMsgBitfield Msg.Encode Msg.fillBase
    have := hb.len; have := hb.lo; have := hb.hi
    simp only
    rw [if_neg (by omega)]
    exact ⟨_, rfl⟩
  obtain ⟨m, hm⟩ := henc
  cases ht : c.tcp with
  | none => simp
  | some a =>
    obtain ⟨ip, port⟩ := a
    by_cases hd : c.deadline = false
    · simp [hd]
    · have hd' : c.deadline = true := by simpa using hd
      cases hr : c.read with
      | none => simp [hd']
      | some d =>
        have hrb := readBuf_eq d (hl d hr)
        simp only [hd', Bool.true_eq_false, if_false, hm]
        by_cases hv : ValidHandshake (readBuf d) ih = false
        · rw [if_pos hv]
          constructor
          · intro h; cases h
          · rintro ⟨ip', port', d', id, -, -, h3, -, -, h6, -⟩
            cases h3
            rw [← hrb] at h6
            rw [(C40_valid_iff _ _).mpr ⟨id, h6⟩] at hv
            cases hv
        · rw [if_neg hv]
          have hv' : ValidHandshake (readBuf d) ih = true := by simpa using hv
          obtain ⟨id, hid⟩ := (C40_valid_iff _ _).mp hv'
          by_cases h1 : c.write1 = false
          · simp [h1]
          · by_cases h2 : c.write2 = false
            · simp [h1, h2]
            · have h1' : c.write1 = true := by simpa using h1
              have h2' : c.write2 = true := by simpa using h2
              simp only [h1', h2', Bool.true_eq_false, if_false, isHandshake_id hid, Res.ok_bind, Res.ok.injEq]
              constructor
              · rintro rfl
                exact ⟨ip, port, d, id, rfl, trivial, rfl, trivial, trivial, hrb ▸ hid, rfl⟩
              · rintro ⟨ip', port', d', id', h0, -, h3, -, -, h6, rfl⟩
                cases h0
                cases h3
                rw [← hrb] at h6
                have := (isHandshake_id hid).symm.trans (isHandshake_id h6)
                cases this; rfl

/-- **C41** (partial: the first `Read` returns all 68 bytes).  Then a peer is registered only if its stream begins with a
handshake carrying our info-hash, and the recorded id is the one sent. -/
theorem C41_full_read_partial (v6 : IP → Bytes) (c : Incoming) (ih own : Bytes) (b : Bitfield) (hb : Wf b) (stream d : Bytes)
    (hr : c.read = some d) (hd : Delivers stream d) (h68 : d.length = 68) (p : Info) (h : (FromIncoming v6 c ih own b).2 = .ok p) :
    ∃ id, IsHandshake (stream.take 68) ih id ∧ p.id = id := by
  obtain ⟨ip, port, d', id, -, -, h3, -, -, h6, rfl⟩ := (C41_accept_iff_partial v6 c ih own b hb (fun d' hd' => by rw [hr] at hd'; cases hd'; omega) p).mp h
  rw [hr] at h3
  cases h3
  rw [h68, Nat.sub_self, List.replicate_zero, List.append_nil] at h6
  refine ⟨id, ?_, rfl⟩
  obtain ⟨rest, rfl⟩ := hd.2.2
  rw [List.take_left' h68]
  exact h6

/-- **C41**: what is written to the connection: nothing before a valid handshake was seen, then our handshake and our bitfield. -/
theorem C41_answer (v6 : IP → Bytes) (c : Incoming) (ih own : Bytes) (b : Bitfield) (hb : Wf b) (hf : Fits (.bitfield b.data)) (p : Info)
    (h : (FromIncoming v6 c ih own b).2 = .ok p) : (FromIncoming v6 c ih own b).1 = [MakeHandshake ih own, wire (.bitfield b.data)] := by
  have hm := C10_encode_wire_partial.2.2.2.2.2.2.2 b hb hf
  unfold FromIncoming at h ⊢
  rw [hm] at h ⊢
  cases ht : c.tcp with
  | none => rw [ht] at h; cases h
  | some a =>
    obtain ⟨ip, port⟩ := a
    simp only [ht] at h ⊢
    by_cases hd : c.deadline = false
    · simp [hd] at h
    · cases hr : c.read with
      | none => simp [hd, hr] at h
      | some d =>
        simp only [hd, hr] at h ⊢
        by_cases hv : ValidHandshake (readBuf d) ih = false
        · simp [hv] at h
        · by_cases h1 : c.write1 = false
          · simp [hv, h1] at h
          · by_cases h2 : c.write2 = false
            · simp [hv, h1, h2] at h
            · simp [hv, h1, h2]

/-- C41 refuted: for every info-hash, a peer that sends a whole handshake with its id, of which the first `Read` returns 48
bytes, is registered with an id of 20 zero bytes instead. -/
theorem C41_refuted_short (v6 : IP → Bytes) (ih own id : Bytes) (h1 : ih.length = 20) (h2 : id.length = 20) (b : Bitfield) (hb : Wf b) (ip : IP) (port : UInt16) :
    Delivers (MakeHandshake ih id) ((MakeHandshake ih id).take 48) ∧
    (FromIncoming v6 ⟨some (ip, port), true, some ((MakeHandshake ih id).take 48), true, true⟩ ih own b).2 =
      .ok (MakePeer v6 (List.replicate 20 0) ip port) := by
  have hpre : ([19] ++ ascii "BitTorrent protocol" ++ [0, 0, 0, 0, 0, 0, 0, 0] : Bytes).length = 28 := by decide +kernel
  have ht : (MakeHandshake ih id).take 48 = [19] ++ ascii "BitTorrent protocol" ++ [0, 0, 0, 0, 0, 0, 0, 0] ++ ih := by
    rw [make_eq ih id h1 h2, List.take_left' (by rw [List.length_append, hpre, h1])]
  have hl : ((MakeHandshake ih id).take 48).length = 48 := by rw [ht, List.length_append, hpre, h1]
  refine ⟨⟨?_, by omega, List.take_prefix _ _⟩, ?_⟩
  · intro h; rw [h] at hl; cases hl
  · refine (C41_accept_iff_partial v6 _ ih own b hb (fun d hd => by cases hd; omega) _).mpr
      ⟨ip, port, _, List.replicate 20 0, rfl, rfl, rfl, rfl, rfl, ⟨h1, by simp, [0, 0, 0, 0, 0, 0, 0, 0], rfl, ?_⟩, rfl⟩
    rw [hl, ht]

/-- C41 refuted: a peer that never sends more than 48 bytes is registered as well. -/
theorem C41_refuted_incomplete (v6 : IP → Bytes) (ih own : Bytes) (h1 : ih.length = 20) (b : Bitfield) (hb : Wf b) (ip : IP) (port : UInt16) :
    ∃ stream : Bytes, stream.length = 48 ∧ Delivers stream stream ∧
      ∃ p, (FromIncoming v6 ⟨some (ip, port), true, some stream, true, true⟩ ih own b).2 = .ok p := by
  obtain ⟨h, h'⟩ := C41_refuted_short v6 ih own (List.replicate 20 1) h1 (by simp) b hb ip port
  refine ⟨_, ?_, ⟨h.1, h.2.1, List.prefix_refl _⟩, _, h'⟩
  rw [make_eq ih _ h1 (by simp), List.length_take]
  have hpre : ([19] ++ ascii "BitTorrent protocol" ++ [0, 0, 0, 0, 0, 0, 0, 0] : Bytes).length = 28 := by decide +kernel
  rw [List.length_append, List.length_append, hpre, h1]; simp

/-- **C41**, the other direction is lost too: if the info-hash does not end with a zero byte, a correct peer whose first segment
is shorter than 48 bytes is always turned away. -/
theorem C41_short_first_segment (v6 : IP → Bytes) (c : Incoming) (ih own : Bytes) (b : Bitfield) (hb : Wf b) (d : Bytes) (hr : c.read = some d)
    (hd : d.length < 48) (hz : ih.getLast? ≠ some 0) (p : Info) : (FromIncoming v6 c ih own b).2 ≠ .ok p := by
  intro h
  obtain ⟨ip, port, d', id, -, -, h3, -, -, h6, -⟩ := (C41_accept_iff_partial v6 c ih own b hb (fun d' hd' => by rw [hr] at hd'; cases hd'; omega) p).mp h
  rw [hr] at h3
  cases h3
  obtain ⟨h1, h2, r, hrl, he⟩ := h6
  have hp : (ascii "BitTorrent protocol").length = 19 := pstr_length
  have e1 : (d ++ List.replicate (68 - d.length) 0)[47]? = some 0 := by
    rw [List.getElem?_append_right (by omega), List.getElem?_replicate, if_pos (by omega)]
  rw [he, List.getElem?_append_left (by simp only [List.length_append, List.length_singleton, hp, h1, hrl]; omega),
    List.getElem?_append_right (by simp only [List.length_append, List.length_singleton, hp, hrl]; omega)] at e1
  apply hz
  rw [List.getLast?_eq_getElem?, h1, ← e1]
  congr 1
  simp only [List.length_append, List.length_singleton, hp, hrl]

example : Delivers (MakeHandshake (List.replicate 20 7) (List.replicate 20 9)) (MakeHandshake (List.replicate 20 7) (List.replicate 20 9)) ∧
    (MakeHandshake (List.replicate 20 7) (List.replicate 20 9)).length = 68 := by
  refine ⟨⟨?_, ?_, List.prefix_refl _⟩, ?_⟩ <;> decide +kernel

end Verif.Handshake
