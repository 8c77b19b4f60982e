import Verif.Model.MsgHandler
import Verif.Props.Handshake
import Verif.Props.PieceTracker
import Verif.Props.FileIO
import Verif.Props.Bitfield
/-
Properties C20, C42 and C52, and lemmas for C43, C44 and C45 (Props/MsgWire.lean): handling of messages (/repo/src/swarm/msghandler.go) and block requests.
-/
set_option autoImplicit false

namespace Verif.MsgHandler
open Verif.P2P Verif.Bf Verif.Files Verif.FileIO Verif.PieceTracker Verif.Layout Verif.Bits Verif.Wire Verif.Avail Verif.Handshake
  Verif.HandshakeSpec

/-- a running swarm: an accepted torrent with piece length `pl` (as a `uint32`, with room for a piece message), its files on disk
with the contents `cs`, our bitfield as the API leaves it, and the buffer of the peer handler -/
structure Running (pl : Nat) (hashes : Bytes) (files : List EntryBase) (cs : List Bytes) (s : Swarm) (buf : Bytes) : Prop where
  accepted : Accepted pl hashes files s.tor
  small : pl + 9 < 2 ^ 32
  fio : s.fio = openedAll s.tor
  stored : Stored s.fs files cs
  bf : Reachable s.bf
  nbits : s.bf.nbits = s.tor.numPieces
  buf : buf.length = pl

/-! ### C43, C44 -/

theorem wrap_iff (b l : UInt32) (pl : Nat) (hpl : pl < 2 ^ 32) :
    (b.toNat ≤ (b + l).toNat ∧ (b + l).toNat ≤ pl) ↔ b.toNat + l.toNat ≤ pl := by
  have h1 := b.toNat_lt
  have h2 := l.toNat_lt
  rw [UInt32.toNat_add]
  omega

theorem wrap_eq (b l : UInt32) (pl : Nat) (hpl : pl < 2 ^ 32) (h : b.toNat + l.toNat ≤ pl) : (b + l).toNat = b.toNat + l.toNat := by
  rw [UInt32.toNat_add]; omega

theorem answer_spec (buf : Bytes) (i b l : UInt32) (pl : Nat) (hpl : pl + 9 < 2 ^ 32) (hb : buf.length = pl) :
    answer buf i b l = if b.toNat + l.toNat ≤ pl then .ok (wire (.piece i b (range buf b.toNat l.toNat))) else .panic := by
  unfold answer slice
  rw [hb]
  by_cases h : b.toNat + l.toNat ≤ pl
  · rw [if_pos ((wrap_iff b l pl (by omega)).mpr h), if_pos h, Res.ok_bind, wrap_eq b l pl (by omega) h]
    have hr : (buf.take (b.toNat + l.toNat)).drop b.toNat = range buf b.toNat l.toNat := by
      unfold range
      rw [List.drop_take]
      congr 1
      omega
    rw [hr]
    refine C10_encode_wire_partial.2.2.2.2.2.2.1 i b _ ?_
    unfold Fits body
    simp only [List.length_cons, List.length_append, be32_length]
    have : (range buf b.toNat l.toNat).length ≤ l.toNat := by unfold range; rw [List.length_take]; omega
    omega
  · rw [if_neg (fun hh => h ((wrap_iff b l pl (by omega)).mp hh)), if_neg h]; rfl

/-- the buffer after piece `i` was read into it -/
def filled (pl : Nat) (cs : List Bytes) (i : Nat) (buf : Bytes) : Bytes := pieceOf cs.flatten pl i ++ buf.drop (pieceOf cs.flatten pl i).length

theorem filled_length (pl : Nat) (cs : List Bytes) (i : Nat) (buf : Bytes) (h : buf.length = pl) : (filled pl cs i buf).length = pl := by
  unfold filled
  rw [List.length_append, List.length_drop, pieceOf_length]
  omega

theorem complete_get {pl : Nat} {hashes : Bytes} {files : List EntryBase} {cs : List Bytes} {s : Swarm} {buf : Bytes}
    (h : Running pl hashes files cs s buf) (i : Nat) (hi : i < s.tor.numPieces) (hc : s.bf.Complete = true) : s.bf.Get i = .ok true :=
  (C18_counter_exact_partial s.bf h.bf).2.mp hc i (by rw [h.nbits]; omega)

theorem in_range {pl : Nat} {hashes : Bytes} {files : List EntryBase} {cs : List Bytes} {s : Swarm} {buf : Bytes}
    (h : Running pl hashes files cs s buf) (i : Nat) (hi : i < s.tor.numPieces) : i < 8 * s.bf.data.length := by
  obtain ⟨hw, -⟩ := reachable_exact h.bf
  have h1 := hw.data_len
  have h2 := hw.hi
  have h3 := h.nbits
  omega

/-- what handling a request does, in all cases -/
theorem handleRequest_spec {pl : Nat} {hashes : Bytes} {files : List EntryBase} {cs : List Bytes} {s : Swarm} {st : St}
    (h : Running pl hashes files cs s st.buf) (i b l : UInt32) (wok : Bool) :
    handleRequest s i b l wok st =
      if i.toNat < s.tor.numPieces then
        if s.bf.Get i.toNat = .ok true then
          if b.toNat + l.toNat ≤ pl then
            if wok then ({ st with buf := filled pl cs i.toNat st.buf, out := st.out ++ [wire (.piece i b (range (filled pl cs i.toNat st.buf) b.toNat l.toNat))] }, .ok ())
            else ({ st with buf := filled pl cs i.toNat st.buf }, .err .os)
          else ({ st with buf := filled pl cs i.toNat st.buf }, .panic)
        else (st, .ok ())
      else if s.bf.Complete then (st, .err .other)
      else if i.toNat < 8 * s.bf.data.length then (if bit s.bf.data i.toNat then (st, .err .other) else (st, .ok ()))
      else (st, .panic) := by
  unfold handleRequest
  by_cases hi : i.toNat < s.tor.numPieces
  · rw [if_pos hi]
    by_cases hg : s.bf.Get i.toNat = .ok true
    · rw [if_pos hg]
      have hms : mayServe s i.toNat = .ok true := by
        unfold mayServe; rw [hg]; split <;> rfl
      have hrd := C26_read pl hashes files s.tor h.accepted s.fs cs h.stored i.toNat hi st.buf (by rw [pieceOf_length, h.buf]; omega)
      rw [hms, h.fio]
      simp only [hrd]
      have ha := answer_spec (filled pl cs i.toNat st.buf) i b l pl h.small (filled_length pl cs _ _ h.buf)
      have hf : pieceOf cs.flatten pl i.toNat ++ st.buf.drop (pieceOf cs.flatten pl i.toNat).length = filled pl cs i.toNat st.buf := rfl
      rw [hf, ha]
      by_cases hbl : b.toNat + l.toNat ≤ pl
      · simp only [hbl, if_true]
      · simp only [hbl, if_false]
    · rw [if_neg hg]
      have hc : s.bf.Complete = false := by
        cases hc : s.bf.Complete with
        | false => rfl
        | true => exact absurd (complete_get h _ hi hc) hg
      have hms : mayServe s i.toNat = .ok false := by
        unfold mayServe
        rw [hc, get_nat, if_pos (in_range h _ hi)]
        rw [get_nat, if_pos (in_range h _ hi)] at hg
        cases hb : bit s.bf.data i.toNat with
        | false => rfl
        | true => rw [hb] at hg; exact absurd rfl hg
      rw [hms]
  · rw [if_neg hi]
    have hrd : ReadPiece s.fs s.fio i.toNat st.buf = .err .other := by
      unfold ReadPiece
      rw [h.fio]
      have := C23_out_of_range s.tor i.toNat (.inr (by omega))
      show (openedAll s.tor).torInfo.PieceLookup _ >>= _ = _
      rw [show (openedAll s.tor).torInfo = s.tor from rfl, this]; rfl
    by_cases hc : s.bf.Complete = true
    · rw [if_pos hc]
      have hms : mayServe s i.toNat = .ok true := by unfold mayServe; rw [if_pos hc]
      rw [hms]
      simp only [hrd]
    · rw [if_neg hc]
      have hms : mayServe s i.toNat = s.bf.Get i.toNat := by unfold mayServe; rw [if_neg hc]
      rw [hms, get_nat]
      by_cases h8 : i.toNat < 8 * s.bf.data.length
      · rw [if_pos h8, if_pos h8]
        cases hb : bit s.bf.data i.toNat with
        | false => rfl
        | true => simp only [hrd, if_true]
      · rw [if_neg h8, if_neg h8]

/-- For C44, exact: a request panics precisely if the index is beyond the bits of our incomplete bitfield, or we have the
piece and the requested range does not lie within `[0, piece length]`.
Missing from the property: these requests should not panic. -/
theorem request_panic_iff {pl : Nat} {hashes : Bytes} {files : List EntryBase} {cs : List Bytes} {s : Swarm} {st : St}
    (h : Running pl hashes files cs s st.buf) (i b l : UInt32) (wok : Bool) :
    (handleRequest s i b l wok st).2 = .panic ↔
      (s.bf.Complete = false ∧ 8 * s.bf.data.length ≤ i.toNat) ∨
      (i.toNat < s.tor.numPieces ∧ s.bf.Get i.toNat = .ok true ∧ pl < b.toNat + l.toNat) := by
  rw [handleRequest_spec h]
  by_cases hi : i.toNat < s.tor.numPieces
  · have hr := in_range h _ hi
    by_cases hg : s.bf.Get i.toNat = .ok true
    · by_cases hbl : b.toNat + l.toNat ≤ pl
      · cases wok <;> simp only [hi, hg, hbl, if_true, if_false, Bool.false_eq_true, reduceCtorEq, false_iff, true_and] <;> omega
      · simp only [hi, hg, hbl, if_true, if_false, true_and, true_iff]; omega
    · simp only [hi, hg, if_true, if_false, false_and, and_false, or_false, reduceCtorEq, false_iff]; omega
  · by_cases hc : s.bf.Complete = true
    · simp [hi, hc]
    · have hc' : s.bf.Complete = false := by simpa using hc
      by_cases h8 : i.toNat < 8 * s.bf.data.length
      · cases hb : bit s.bf.data i.toNat <;> simp [hi, hc', h8]
      · simp [hi, hc', h8]; omega

/-- For C44 (partial).  Requests for existing pieces that stay within the piece length never panic and never run on. -/
theorem request_no_panic {pl : Nat} {hashes : Bytes} {files : List EntryBase} {cs : List Bytes} {s : Swarm} {st : St}
    (h : Running pl hashes files cs s st.buf) (i b l : UInt32) (wok : Bool) (hi : i.toNat < s.tor.numPieces) (hb : b.toNat + l.toNat ≤ pl) :
    (handleRequest s i b l wok st).2 = .ok () ∨ ∃ e, (handleRequest s i b l wok st).2 = .err e := by
  rw [handleRequest_spec h]
  by_cases hg : s.bf.Get i.toNat = .ok true
  · cases wok <;> simp [hi, hg, hb]
  · simp [hi, hg]

/-- For C44, refuted: for every torrent, a client that has any piece is crashed by a request for more than the piece length. -/
theorem request_length {pl : Nat} {hashes : Bytes} {files : List EntryBase} {cs : List Bytes} {s : Swarm} {st : St}
    (h : Running pl hashes files cs s st.buf) (i : UInt32) (hi : i.toNat < s.tor.numPieces) (hg : s.bf.Get i.toNat = .ok true) (wok : Bool) :
    (handleRequest s i 0 (UInt32.ofNat (pl + 1)) wok st).2 = .panic := by
  refine (request_panic_iff h _ _ _ _).mpr (.inr ⟨hi, hg, ?_⟩)
  have := h.small
  rw [UInt32.toNat_ofNat_of_lt' (by simp only [UInt32.size]; omega)]
  show pl < 0 + (pl + 1)
  omega

/-- For C43, exactly what is served: a message is written only for a piece we have and a range within the piece length, and then
it is one piece message, with the bytes of the buffer: those of the piece, followed by older contents of the buffer. -/
theorem request_served_exact {pl : Nat} {hashes : Bytes} {files : List EntryBase} {cs : List Bytes} {s : Swarm} {st : St}
    (h : Running pl hashes files cs s st.buf) (i b l : UInt32) (wok : Bool) (hout : (handleRequest s i b l wok st).1.out ≠ st.out) :
    i.toNat < s.tor.numPieces ∧ s.bf.Get i.toNat = .ok true ∧ b.toNat + l.toNat ≤ pl ∧
    (handleRequest s i b l wok st).1.out = st.out ++ [wire (.piece i b
      (range (pieceOf cs.flatten pl i.toNat ++ st.buf.drop (pieceOf cs.flatten pl i.toNat).length) b.toNat l.toNat))] ∧
    (handleRequest s i b l wok st).2 = .ok () := by
  rw [handleRequest_spec h] at hout ⊢
  by_cases hi : i.toNat < s.tor.numPieces
  · by_cases hg : s.bf.Get i.toNat = .ok true
    · by_cases hbl : b.toNat + l.toNat ≤ pl
      · cases wok
        · simp [hi, hg, hbl] at hout
        · simp only [hi, hg, hbl, if_true, true_and, and_true]; rfl
      · simp [hi, hg, hbl] at hout
    · simp [hi, hg] at hout
  · by_cases hc : s.bf.Complete = true
    · simp [hi, hc] at hout
    · by_cases h8 : i.toNat < 8 * s.bf.data.length
      · cases hb : bit s.bf.data i.toNat <;> simp [hi, hc, h8, hb] at hout
      · simp [hi, hc, h8] at hout

theorem range_pieceOf (x : Bytes) (pl i b l : Nat) (tail : Bytes) (h : b + l ≤ (pieceOf x pl i).length) :
    range (pieceOf x pl i ++ tail) b l = range x (i * pl + b) l := by
  rw [pieceOf_length] at h
  apply List.ext_getElem?
  intro j
  rw [getElem?_range, getElem?_range]
  by_cases hj : j < l
  · rw [if_pos hj, if_pos hj, List.getElem?_append_left (by rw [pieceOf_length]; omega)]
    unfold pieceOf
    rw [List.getElem?_take, if_pos (by omega), List.getElem?_drop]
    congr 1; omega
  · rw [if_neg hj, if_neg hj]

/-- For C43 (partial: requests that stay within the piece, also the last one).  The block sent is exactly that part of the
torrent, and the piece is one we have. -/
theorem request_served {pl : Nat} {hashes : Bytes} {files : List EntryBase} {cs : List Bytes} {s : Swarm} {st : St}
    (h : Running pl hashes files cs s st.buf) (i b l : UInt32) (wok : Bool) (hout : (handleRequest s i b l wok st).1.out ≠ st.out)
    (hl : b.toNat + l.toNat ≤ (pieceOf cs.flatten pl i.toNat).length) :
    s.bf.Get i.toNat = .ok true ∧
    (handleRequest s i b l wok st).1.out = st.out ++ [wire (.piece i b (range cs.flatten (i.toNat * pl + b.toNat) l.toNat))] ∧
    (range cs.flatten (i.toNat * pl + b.toNat) l.toNat).length = l.toNat := by
  obtain ⟨h1, h2, h3, h4, h5⟩ := request_served_exact h i b l wok hout
  refine ⟨h2, ?_, ?_⟩
  · rw [h4, range_pieceOf _ _ _ _ _ _ hl]
  · rw [pieceOf_length] at hl
    by_cases hz : l.toNat = 0
    · rw [hz]; simp [range]
    · exact range_length _ _ _ (by omega)

/-- For C43: requests within a piece that we have are answered (if the connection works). -/
theorem request_answered {pl : Nat} {hashes : Bytes} {files : List EntryBase} {cs : List Bytes} {s : Swarm} {st : St}
    (h : Running pl hashes files cs s st.buf) (i b l : UInt32) (hi : i.toNat < s.tor.numPieces) (hg : s.bf.Get i.toNat = .ok true)
    (hl : b.toNat + l.toNat ≤ (pieceOf cs.flatten pl i.toNat).length) :
    handleRequest s i b l true st = ({ st with buf := filled pl cs i.toNat st.buf, out := st.out ++
      [wire (.piece i b (range cs.flatten (i.toNat * pl + b.toNat) l.toNat))] }, .ok ()) := by
  have hle : b.toNat + l.toNat ≤ pl := by
    have := pieceOf_length cs.flatten pl i.toNat
    omega
  rw [handleRequest_spec h, if_pos hi, if_pos hg, if_pos hle, if_pos rfl]
  unfold filled
  rw [range_pieceOf _ _ _ _ _ _ hl]

/-- For C43, refuted: whenever a request reaches beyond the end of the (short) last piece but stays within the piece length, the block
sent is not a part of the torrent: it ends with whatever the buffer held before. -/
theorem request_stale {pl : Nat} {hashes : Bytes} {files : List EntryBase} {cs : List Bytes} {s : Swarm} {st : St}
    (h : Running pl hashes files cs s st.buf) (i b l : UInt32) (hi : i.toNat < s.tor.numPieces) (hg : s.bf.Get i.toNat = .ok true)
    (hb : b.toNat ≤ (pieceOf cs.flatten pl i.toNat).length) (hl : (pieceOf cs.flatten pl i.toNat).length < b.toNat + l.toNat) (hle : b.toNat + l.toNat ≤ pl) :
    ∃ blk, (handleRequest s i b l true st).1.out = st.out ++ [wire (.piece i b blk)] ∧
      blk = (pieceOf cs.flatten pl i.toNat).drop b.toNat ++
        range st.buf (pieceOf cs.flatten pl i.toNat).length (b.toNat + l.toNat - (pieceOf cs.flatten pl i.toNat).length) ∧
      blk ≠ range cs.flatten (i.toNat * pl + b.toNat) l.toNat := by
  refine ⟨range (filled pl cs i.toNat st.buf) b.toNat l.toNat, ?_, ?_, ?_⟩
  · rw [handleRequest_spec h, if_pos hi, if_pos hg, if_pos hle, if_pos rfl]
  · unfold filled range
    generalize pieceOf cs.flatten pl i.toNat = P at hb hl
    rw [List.drop_append, List.take_append, List.length_drop, show b.toNat - P.length = 0 by omega, List.drop_zero,
      List.take_of_length_le (by rw [List.length_drop]; omega)]
    congr 2
    omega
  · intro he
    have h1 : (range (filled pl cs i.toNat st.buf) b.toNat l.toNat).length = l.toNat := range_length _ _ _ (by rw [filled_length _ _ _ _ h.buf]; omega)
    rw [he] at h1
    unfold range at h1
    rw [List.length_take, List.length_drop] at h1
    rw [pieceOf_length] at hl hb
    omega

/-! ### C45 -/

/-- For C45: a bitfield message of the wrong size changes nothing and is an error. -/
theorem bitfield_wrong_size (s : Swarm) (me : PH) (b : Bitfield) (st : St) (h : b.nbytes ≠ s.bf.nbytes) : handleBitfield s me b st = (st, .err .other) := by
  unfold handleBitfield; rw [if_pos h]

theorem reached_append {size : Nat} {cs : List Call} {t t' : Tracker} (h : Reached size cs t) (c : Call) (hv : c.Valid size) (hp : perform t c = .ok t') :
    Reached size (cs ++ [c]) t' := by
  obtain ⟨h1, h2, t0, h3, h4⟩ := h
  refine ⟨h1, ?_, t0, h3, ?_⟩
  · intro c' hc'
    rcases List.mem_append.mp hc' with hc' | hc'
    · exact h2 c' hc'
    · rw [List.mem_singleton.mp hc']; exact hv
  · clear h3
    induction cs generalizing t0 with
    | nil => cases h4; rw [List.nil_append, performAll, hp]; rfl
    | cons c' cs ih =>
      rw [performAll] at h4
      rw [List.cons_append, performAll]
      cases hc : perform t0 c' with
      | ok t1 =>
        rw [hc, Res.ok_bind] at h4
        rw [Res.ok_bind]
        exact ih (fun c hc => h2 c (by simp [hc])) t1 h4
      | err e => rw [hc] at h4; cases h4
      | panic => rw [hc] at h4; cases h4
      | timeout => rw [hc] at h4; cases h4

theorem foldl_reg (k : Bytes) (is : List Nat) (a : State) (j : Nat) (x : Bytes) :
    x ∈ (is.map (Step.reg k)).foldl Step.effect a j ↔ x ∈ a j ∨ (x = k ∧ j ∈ is) := by
  induction is generalizing a with
  | nil => simp
  | cons i is ih =>
    rw [List.map_cons, List.foldl_cons, ih]
    have : x ∈ (Step.reg k i).effect a j ↔ x ∈ a j ∨ (x = k ∧ j = i) := by
      simp only [Step.effect]
      by_cases h : j = i ∧ k ∉ a i
      · obtain ⟨rfl, h2⟩ := h
        simp [h2]
      · rw [if_neg h]
        constructor
        · exact .inl
        · rintro (h' | ⟨rfl, rfl⟩)
          · exact h'
          · exact Classical.not_not.mp (fun hh => h ⟨rfl, hh⟩)
    rw [this, List.mem_cons]
    constructor
    · rintro ((h1 | ⟨h1, h2⟩) | ⟨h1, h2⟩)
      · exact .inl h1
      · exact .inr ⟨h1, .inl h2⟩
      · exact .inr ⟨h1, .inr h2⟩
    · rintro (h1 | ⟨h1, h2 | h2⟩)
      · exact .inl (.inl h1)
      · exact .inl (.inr ⟨h1, h2⟩)
      · exact .inr ⟨h1, h2⟩

/-- For C45, exact for a bitfield of the right size: unless a piece gets a 64th peer (which panics), the peer's bitfield is
replaced by the announced bits for exactly the torrent's pieces, and the peer is registered for the pieces it was registered for
before and those whose bit is set; nobody else is affected.
Missing from the property: registrations from an earlier bitfield stay. -/
theorem bitfield_right_size {pl : Nat} {hashes : Bytes} {files : List EntryBase} {cs : List Bytes} {s : Swarm} {st : St}
    (h : Running pl hashes files cs s st.buf) (calls : List Call) (hr : Reached s.tor.numPieces calls st.ppt) (me : PH) (b : Bitfield) (hw : Wf b)
    (hsize : b.nbytes = s.bf.nbytes) :
    (AtMost 63 (after calls) (((List.range s.tor.numPieces).filter (bit b.data)).map (Step.reg me.key)) →
      ∃ st', handleBitfield s me b st = (st', .ok ()) ∧ st'.buf = st.buf ∧ st'.out = st.out ∧
        st'.peerBf.nbits = s.tor.numPieces ∧ st'.peerBf.nset = count (bit b.data) s.tor.numPieces ∧
        (∀ i : Nat, i < s.tor.numPieces → st'.peerBf.Get i = b.Get i) ∧
        Reached s.tor.numPieces (calls ++ [.registerBF me st'.peerBf]) st'.ppt ∧
        ∀ i : Nat, i < s.tor.numPieces → ∀ k, RegisteredFor st'.ppt i k ↔ RegisteredFor st.ppt i k ∨ (k = me.key ∧ b.Get i = .ok true)) ∧
    (¬ AtMost 63 (after calls) (((List.range s.tor.numPieces).filter (bit b.data)).map (Step.reg me.key)) →
      (handleBitfield s me b st).2 = .panic) := by
  obtain ⟨hsw, -⟩ := reachable_exact h.bf
  have h1 := hsw.lo8
  have h2 := hsw.hi
  have h3 := h.nbits
  obtain ⟨b', e, hw', hx, hd5, hn, hnb⟩ := setNbits_spec b hw s.tor.numPieces (by omega) (by omega)
  have hd : b'.data = b.data := by unfold Bitfield.data; rw [hd5]
  have hval : (Call.registerBF me b').Valid s.tor.numPieces := ⟨hw', fun i hi _ => by rw [hn] at hi; omega⟩
  obtain ⟨p1, p2⟩ := perform_spec hr.inv hr.1 (.registerBF me b') hval
  have hst : (Call.registerBF me b').steps = ((List.range s.tor.numPieces).filter (bit b.data)).map (Step.reg me.key) := by
    unfold Call.steps
    simp only [hn, hd, Int.toNat_natCast]
  rw [hst] at p1 p2
  unfold handleBitfield
  simp only [hsize, ne_eq, not_true_eq_false, if_false, e]
  have hdl := hw.data_len
  constructor
  · intro ha
    obtain ⟨t', e', iv⟩ := p1 ha
    have e'' : RegisterBF st.ppt me b' = .ok t' := e'
    refine ⟨{ st with peerBf := b', ppt := t' }, by simp only [e''], rfl, rfl, hn, ?_, ?_, ?_, ?_⟩
    · show b'.nset = _
      rw [hx, hn, hd]; rfl
    · intro i hi
      rw [get_nat, get_nat, hd]
    · exact reached_append hr _ hval e'
    · intro i hi k
      rw [iv.registered i hi, hr.inv.registered i hi, foldl_reg, get_nat, if_pos (by omega)]
      simp [hi]
  · intro hna
    have e'' : RegisterBF st.ppt me b' = .panic := p2 hna
    simp only [e'']

/-! ### C20 -/

theorem handleMessage_wire (fuel : Nat) (s : Swarm) (me : PH) (wok : Nat → Bool) (w : Wire.Msg) (st : St) (hd : Decodable w)
    (hlen : (wire w).length < 2 ^ 32) :
    handleMessage (fuel + 2) s me wok (wire w) st = handleAll s me wok [received w] st := by
  unfold handleMessage DecodeAll
  have h := loop_wire (fuel + 1) w [] hd (by rw [List.append_nil]; exact hlen) [] 0
  rw [List.append_nil, loop_nil] at h
  rw [h]
  simp only [List.nil_append]

theorem handleAll_one (s : Swarm) (me : PH) (wok : Nat → Bool) (m : P2P.Msg) (st : St) :
    handleAll s me wok [m] st = handleOne s me wok m st := by
  rw [handleAll]
  rcases h : handleOne s me wok m st with ⟨st', r⟩
  cases r <;> rfl

/-- **C20** (partial: torrents with at least one piece, no piece gets a 64th peer).  A client encodes its bitfield; another
client of the same torrent receives the bytes: it decodes and registers a bitfield with the same bit for each piece, the same
number of bits and the same count of set bits. -/
theorem C20_exchange_partial {pl : Nat} {hashes : Bytes} {files : List EntryBase} {cs : List Bytes} {s : Swarm} {st : St}
    (h : Running pl hashes files cs s st.buf) (calls : List Call) (hr : Reached s.tor.numPieces calls st.ppt) (me : PH)
    (theirs : Bitfield) (ht : Reachable theirs) (hn : theirs.nbits = s.tor.numPieces) (h0 : 0 < s.tor.numPieces) (hs : s.tor.numPieces ≤ 2 ^ 32)
    (hfew : AtMost 63 (after calls) (((List.range s.tor.numPieces).filter (bit theirs.data)).map (Step.reg me.key)))
    (fuel : Nat) (wok : Nat → Bool) :
    ∃ bs st', (NewMsgBitfield theirs).Encode = .ok bs ∧ handleMessage (fuel + 2) s me wok bs st = (st', .ok ()) ∧
      st'.peerBf.nbits = theirs.nbits ∧ st'.peerBf.nset = theirs.nset ∧
      ∀ i : Nat, i < s.tor.numPieces → st'.peerBf.Get i = theirs.Get i ∧
        (RegisteredFor st'.ppt i me.key ↔ RegisteredFor st.ppt i me.key ∨ theirs.Get i = .ok true) := by
  obtain ⟨hw, hx⟩ := reachable_exact ht
  have hdl := hw.data_len
  have h1 := hw.lo8
  have h2 := hw.hi
  obtain ⟨hsw, -⟩ := reachable_exact h.bf
  have h3 := hsw.lo8
  have h4 := hsw.hi
  have h5 := h.nbits
  have hne : theirs.data ≠ [] := by
    intro he; rw [he] at hdl; simp only [List.length_nil] at hdl; omega
  have henc := C10_encode_wire_partial.2.2.2.2.2.2.2 theirs hw (by simp only [Fits, body, List.length_cons]; omega)
  obtain ⟨bx, hbx⟩ : ∃ b, b = rxBitfield theirs.data := ⟨_, rfl⟩
  have hbd : bx.data = theirs.data := by rw [hbx]; rfl
  have hbn : bx.nbytes = theirs.data.length := by rw [hbx]; rfl
  have hbb : bx.nbits = 8 * theirs.data.length := by rw [hbx]; rfl
  have hbw : Wf bx := by
    refine ⟨?_, by omega, by omega, by omega⟩
    rw [hbx]
    simp only [rxBitfield, List.length_append, List.length_cons, be32_length]
    omega
  obtain ⟨st', e, -, -, g1, g2, g3, -, g5⟩ := (bitfield_right_size h calls hr me bx hbw (by omega)).1 (by rw [hbd]; exact hfew)
  refine ⟨_, st', henc, ?_, by rw [g1, hn], ?_, ?_⟩
  · rw [handleMessage_wire fuel s me wok (.bitfield theirs.data) st hne (by simp only [length_wire, body, List.length_cons]; omega), handleAll_one]
    simp only [received, handleOne, ← hbx, e]
  · rw [g2, hbd]
    unfold Exact at hx
    rw [hx, hn]; rfl
  · intro i hi
    have hg : bx.Get i = theirs.Get i := by rw [get_nat, get_nat, hbd]
    refine ⟨by rw [g3 i hi, hg], ?_⟩
    rw [g5 i hi, hg]
    simp

/-- C20 refuted for the torrent without pieces: the bitfield message every client sends for it makes the receiver loop for
ever. -/
theorem C20_refuted_no_pieces (theirs : Bitfield) (ht : NewBitfield (0 : Nat) = .ok theirs) (s : Swarm) (me : PH) (wok : Nat → Bool) (st : St) :
    ∃ bs, (NewMsgBitfield theirs).Encode = .ok bs ∧ ∀ fuel, (handleMessage fuel s me wok bs st).2 = .timeout := by
  have e : NewBitfield (0 : Nat) = .ok ⟨[0, 0, 0, 0, 0], 0, 0, 0⟩ := by decide
  rw [e] at ht
  cases ht
  refine ⟨[0, 0, 0, 1, 5], by decide +kernel, fun fuel => ?_⟩
  have h := C14_refuted_empty_bitfield [] (fun w hw => by cases hw) [] (by decide) fuel
  have e2 : stream [] ++ ([0, 0, 0, 1, 5] ++ []) = [0, 0, 0, 1, 5] := rfl
  rw [e2] at h
  unfold handleMessage
  rw [h]

/-! ### C42 -/

/-- a buffer that starts with the name of the protocol is dropped completely -/
theorem decode_pstr (rest : Bytes) : Decode ([19, 66, 105, 116, 84] ++ rest) = .ok ⟨none, 5 + rest.length⟩ := by
  have h := decode_cases 19 66 105 116 84 rest 323119476 (by rw [prefixLen_cons]; rfl)
  show Decode (19 :: 66 :: 105 :: 116 :: 84 :: rest) = _
  rw [h, if_neg (by decide), if_neg (by decide), if_neg (by decide : ¬ (2 ^ 32 - 4 ≤ 323119476))]
  split
  · rfl
  · rw [show (84 : UInt8).toNat = 84 from rfl]
    unfold frameCase
    simp only [List.length_cons]
    congr 2
    omega

theorem handle_pstr (fuel : Nat) (s : Swarm) (me : PH) (wok : Nat → Bool) (st : St) (rest : Bytes) :
    handleMessage (fuel + 2) s me wok ([19, 66, 105, 116, 84] ++ rest) st = (st, .ok ()) := by
  unfold handleMessage DecodeAll
  rw [decodeAllLoop, if_neg (by simp), decode_pstr]
  simp only [Res.ok_bind]
  rw [List.drop_of_length_le (by simp only [List.length_append, List.length_cons, List.length_nil]; omega), loop_nil]
  simp only [handleAll]

theorem isHandshake_pstr {hs ih id : Bytes} (h : IsHandshake hs ih id) : ∃ r, hs = [19, 66, 105, 116, 84] ++ r := by
  obtain ⟨-, -, r, -, rfl⟩ := h
  have e : ascii "BitTorrent protocol" = [66, 105, 116, 84] ++ ascii "orrent protocol" := by decide +kernel
  rw [e]
  exact ⟨ascii "orrent protocol" ++ r ++ ih ++ id, by simp⟩

/-- **C42** (partial: the answer is not checked, but does no harm if it arrives alone).  On a connection we open we send our
handshake; if the remote handshake arrives in a buffer of its own, what follows is handled as if it had not been there. -/
theorem C42_own_segment_partial (fuel : Nat) (s : Swarm) (me : PH) (wok : Nat → Bool) (st : St) (hs ih id : Bytes) (h : IsHandshake hs ih id) (bs : List Bytes) :
    recvAll (fuel + 2) s me wok (hs :: bs) st = recvAll (fuel + 2) s me wok bs st := by
  obtain ⟨r, rfl⟩ := isHandshake_pstr h
  rw [recvAll, handle_pstr]

/-- **C42**, what we send: nothing but our handshake, and only if connected; otherwise an error is returned. -/
theorem C42_sends (dialOk writeOk : Bool) (p : Peer.Info) (ih id : Bytes) (h1 : ih.length = 20) (h2 : id.length = 20) :
    (∀ m ∈ (FromBootstrap dialOk writeOk p ih id).1, IsHandshake m ih id) ∧
    (FromBootstrap dialOk writeOk p ih id).1.length = (if dialOk ∧ writeOk then 1 else 0) ∧
    ((FromBootstrap dialOk writeOk p ih id).2 = .ok p ↔ dialOk ∧ writeOk) ∧
    (¬ (dialOk ∧ writeOk) → ∃ e, (FromBootstrap dialOk writeOk p ih id).2 = .err e) := by
  unfold FromBootstrap
  cases dialOk <;> cases writeOk <;> simp [(C40_made ih id ih h1 h2).1]

/-- C42 refuted: everything that arrives in the same buffer behind the remote handshake is lost, whatever it is. -/
theorem C42_refuted_lost (fuel : Nat) (s : Swarm) (me : PH) (wok : Nat → Bool) (st : St) (hs ih id : Bytes) (h : IsHandshake hs ih id) (rest : Bytes) :
    handleMessage (fuel + 2) s me wok (hs ++ rest) st = (st, .ok ()) := by
  obtain ⟨r, rfl⟩ := isHandshake_pstr h
  rw [List.append_assoc, handle_pstr]

/-- C42 refuted: a remote side that never sends a handshake, or one with a different info-hash, is served: for each request within
a piece that we have, sent on a connection opened by us, the block is sent. -/
theorem C42_refuted_no_handshake {pl : Nat} {hashes : Bytes} {files : List EntryBase} {cs : List Bytes} {s : Swarm} {st : St}
    (h : Running pl hashes files cs s st.buf) (i b l : UInt32) (hi : i.toNat < s.tor.numPieces) (hg : s.bf.Get i.toNat = .ok true)
    (hl : b.toNat + l.toNat ≤ (pieceOf cs.flatten pl i.toNat).length) (fuel : Nat) (me : PH)
    (p : Peer.Info) (ih id : Bytes) (hs ih' id' : Bytes) (hh : IsHandshake hs ih' id') :
    (FromBootstrap true true p ih id).2 = .ok p ∧
    ∀ pre ∈ [[], [hs]], (recvAll (fuel + 2) s me (fun _ => true) (pre ++ [wire (.request i b l)]) st).1.out =
      st.out ++ [wire (.piece i b (range cs.flatten (i.toNat * pl + b.toNat) l.toNat))] := by
  refine ⟨rfl, ?_⟩
  have base : (recvAll (fuel + 2) s me (fun _ => true) [wire (.request i b l)] st).1.out =
      st.out ++ [wire (.piece i b (range cs.flatten (i.toNat * pl + b.toNat) l.toNat))] := by
    rw [recvAll, handleMessage_wire fuel s me _ (.request i b l) st trivial (by simp [length_wire, body, be32_length]), handleAll_one]
    simp only [received, handleOne, request_answered h i b l hi hg hl, recvAll]
  intro pre hpre
  simp only [List.mem_cons, List.not_mem_nil, or_false] at hpre
  rcases hpre with rfl | rfl
  · exact base
  · rw [List.singleton_append, C42_own_segment_partial fuel s me _ st hs ih' id' hh]
    exact base

/-! ### C52 -/

/-- the length of a piece that the metadata gives (all pieces but the last one are of the same length) -/
def lengthOf (ti : TorInfo) (index : Nat) : Int := if index + 1 = ti.numPieces then ti.lastPieceLen else ti.pieceLen

theorem reqLength_eq (ti : TorInfo) (index : UInt32) : reqLength ti index = UInt32.ofInt (lengthOf ti index.toNat) := by
  unfold reqLength lengthOf
  by_cases h : index.toNat + 1 = ti.numPieces
  · rw [if_pos h, if_pos (by omega)]
  · rw [if_neg h, if_neg (by omega)]

theorem ofInt_eq_zero (x : Int) : UInt32.ofInt x = 0 ↔ (2 ^ 32 : Int) ∣ x := by
  have h : (UInt32.ofInt x).toNat = (x % 2 ^ 32).toNat := by
    unfold UInt32.ofInt
    exact UInt32.toNat_ofNat_of_lt' (by show _ < 2 ^ 32; omega)
  rw [← UInt32.toNat_inj, h]
  show _ = 0 ↔ _
  omega

/-- C52 refuted: `createReqMessages` never ends, except for a piece whose length is a multiple of 2^32 (such as an empty one). -/
theorem C52_refuted_never_ends (ti : TorInfo) (index : UInt32) (h : ¬ (2 ^ 32 : Int) ∣ lengthOf ti index.toNat) (fuel : Nat) : createReqMessages fuel ti index = .timeout := by
  replace h : reqLength ti index ≠ 0 := fun hh => h ((ofInt_eq_zero _).mp (by rw [← reqLength_eq]; exact hh))
  have key : ∀ (fuel : Nat) (msgs : List P2P.Msg), reqLoop index (reqLength ti index) fuel 0 msgs = .timeout := by
    intro fuel
    induction fuel with
    | zero => intro msgs; rfl
    | succ fuel ih =>
      intro msgs
      rw [reqLoop, if_pos, ih]
      rw [UInt32.lt_iff_toNat_lt]
      have : (reqLength ti index).toNat ≠ 0 := fun hh => h (UInt32.toNat_inj.mp hh)
      show 0 < _
      omega
  exact key fuel []

/-- C52 refuted for every piece of every torrent with consistent metadata and a piece length below 2^32. -/
theorem C52_refuted_all_pieces (pl : Nat) (hashes : Bytes) (files : List EntryBase) (ti : TorInfo) (h : Accepted pl hashes files ti) (hpl : pl < 2 ^ 32)
    (hn : needed (total (lens files)) pl = ti.numPieces) (index : UInt32) (_ : index.toNat < ti.numPieces) (fuel : Nat) :
    createReqMessages fuel ti index = .timeout := by
  have hnp := h.np.1
  obtain ⟨name, hm⟩ := h.made
  have h20 := ((C24_accept_iff_partial name pl h.pos hashes files h.nonneg).mp ⟨ti, hm⟩).1
  obtain ⟨ti', hm', k1, k2, -, -⟩ := C25_last_piece name pl h.pos hashes files h.nonneg h20 (by rw [hn, hnp])
  rw [hm] at hm'
  cases hm'
  have hplen : ti.pieceLen = pl := by
    obtain ⟨pm, -, -, -, h4⟩ := newTorInfo_ok name pl h.pos hashes files h.nonneg (Nat.mod_eq_zero_of_dvd h20) ((needed_eq_iff _ _ _ h.pos).mp (by rw [hn, hnp])).1
    rw [hm] at h4
    cases h4; rfl
  have hpos := h.pos
  have nz : ∀ x : Int, 1 ≤ x → x < 2 ^ 32 → ¬ (2 ^ 32 : Int) ∣ x := by
    intro x h1 h2 he
    omega
  refine C52_refuted_never_ends ti index ?_ fuel
  unfold lengthOf
  split
  · exact nz _ k1 (by omega)
  · exact nz _ (by omega) (by omega)

/-- C52 refuted: nor does the memory suffice.  After `k` rounds the loop holds `k` messages, all for the beginning of the piece, and goes on. -/
theorem C52_refuted_memory (ti : TorInfo) (index : UInt32) (h : ¬ (2 ^ 32 : Int) ∣ lengthOf ti index.toNat) (k fuel : Nat) :
    createReqMessages (k + fuel) ti index =
      reqLoop index (reqLength ti index) fuel 0 (List.replicate k (.request index 0 (min 16384 (UInt32.ofInt (lengthOf ti index.toNat))))) := by
  replace h : reqLength ti index ≠ 0 := fun hh => h ((ofInt_eq_zero _).mp (by rw [← reqLength_eq]; exact hh))
  rw [← reqLength_eq]
  have hlt : (0 : UInt32) < reqLength ti index := by
    rw [UInt32.lt_iff_toNat_lt]
    have : (reqLength ti index).toNat ≠ 0 := fun hh => h (UInt32.toNat_inj.mp hh)
    show 0 < _
    omega
  have key : ∀ (k : Nat) (msgs : List P2P.Msg), reqLoop index (reqLength ti index) (k + fuel) 0 msgs =
      reqLoop index (reqLength ti index) fuel 0 (msgs ++ List.replicate k (.request index 0 (min 16384 (reqLength ti index)))) := by
    intro k
    induction k with
    | zero => intro msgs; simp
    | succ k ih =>
      intro msgs
      rw [show k + 1 + fuel = (k + fuel) + 1 by omega, reqLoop, if_pos hlt, ih, List.append_assoc, UInt32.sub_zero]
      rfl
  exact key k []

/-- **C52** (partial: empty pieces only).  If the length of the piece is 0 (modulo 2^32), there are no requests. -/
theorem C52_empty_partial (ti : TorInfo) (index : UInt32) (h : (2 ^ 32 : Int) ∣ lengthOf ti index.toNat) (fuel : Nat) :
    createReqMessages (fuel + 1) ti index = .ok [] := by
  unfold createReqMessages
  rw [reqLength_eq, (ofInt_eq_zero _).mpr h, reqLoop, if_neg (by decide)]

/-! ### an example for all of these -/

/-- a swarm with 13 bytes in three files and four pieces, of which we have 1 and 3 -/
theorem exRunning : ∃ s, Running 4 exHashes exFiles [[1, 2, 3, 4, 5], [], [6, 7, 8, 9, 10, 11, 12, 13]] s [91, 92, 93, 94] ∧
    s.tor.numPieces = 4 ∧ s.bf.nbytes = 1 ∧ s.bf.Complete = false ∧ s.bf.Get (1 : Nat) = .ok true ∧ s.bf.Get (3 : Nat) = .ok true ∧ s.bf.Get (0 : Nat) = .ok false := by
  refine ⟨⟨_, ⟨[0, 0, 0, 0, 0, 80], 1, 4, 2⟩, openedAll _, fun p => if p = ascii "a" then some [1, 2, 3, 4, 5] else if p = ascii "e" then some [] else
      if p = ascii "b" then some [6, 7, 8, 9, 10, 11, 12, 13] else none⟩,
    ⟨⟨by decide, exFiles_nonneg, ascii "t", rfl⟩, by decide, rfl, ⟨by decide, ?_⟩, ?_, by decide +kernel, by decide⟩, by decide +kernel⟩
  · intro k f c hf hc
    match k with
    | 0 => cases hf; cases hc; decide
    | 1 => cases hf; cases hc; decide
    | 2 => cases hf; cases hc; decide
    | k + 3 => cases hc
  · have h0 : Reachable ⟨[0, 0, 0, 0, 0, 0], 1, 4, 0⟩ := .new 4 _ (by decide)
    have h1 : Reachable ⟨[0, 0, 0, 0, 0, 64], 1, 4, 1⟩ := .set _ _ 1 true h0 (by decide) (by decide)
    exact .set _ _ 3 true h1 (by decide) (by decide)

/-- bytes 2 and 3 of piece 1 are served correctly, bytes 0 and 1 of the last piece (which has one byte) are not; both are requests as in
C43 and C42 -/
example : ∃ s, (Running 4 exHashes exFiles [[1, 2, 3, 4, 5], [], [6, 7, 8, 9, 10, 11, 12, 13]] s [91, 92, 93, 94]) ∧ ∀ ppt pb out,
    (handleRequest s 1 2 2 true ⟨ppt, pb, [91, 92, 93, 94], out⟩).1.out = out ++ [[0, 0, 0, 11, 7, 0, 0, 0, 1, 0, 0, 0, 2, 7, 8]] ∧
    (handleRequest s 3 0 2 true ⟨ppt, pb, [91, 92, 93, 94], out⟩).1.out = out ++ [[0, 0, 0, 11, 7, 0, 0, 0, 3, 0, 0, 0, 0, 13, 92]] ∧
    (handleRequest s 0 0 2 true ⟨ppt, pb, [91, 92, 93, 94], out⟩).1.out = out ∧
    (handleRequest s 8 0 2 true ⟨ppt, pb, [91, 92, 93, 94], out⟩).2 = .panic := by
  obtain ⟨s, h, hn, hb, hc, h1, h3, h0⟩ := exRunning
  refine ⟨s, h, fun ppt pb out => ⟨?_, ?_, ?_, ?_⟩⟩
  · have := request_answered (st := ⟨ppt, pb, [91, 92, 93, 94], out⟩) h 1 2 2 (by rw [hn]; decide) h1 (by decide +kernel)
    rw [this]
    simp only [List.append_cancel_left_eq]
    decide +kernel
  · obtain ⟨blk, e1, e2, -⟩ := request_stale (st := ⟨ppt, pb, [91, 92, 93, 94], out⟩) h 3 0 2 (by rw [hn]; decide) h3 (by decide +kernel) (by decide +kernel) (by decide +kernel)
    rw [e1, e2]
    simp only [List.append_cancel_left_eq]
    decide +kernel
  · have h0' : ¬ s.bf.Get ((0 : UInt32).toNat) = .ok true := by
      intro he
      have : s.bf.Get ((0 : UInt32).toNat) = .ok false := h0
      rw [this] at he; cases he
    rw [handleRequest_spec (st := ⟨ppt, pb, [91, 92, 93, 94], out⟩) h, if_pos (by rw [hn]; decide), if_neg h0']
  · refine (request_panic_iff (st := ⟨ppt, pb, [91, 92, 93, 94], out⟩) h 8 0 2 true).mpr (.inl ⟨hc, ?_⟩)
    have := (reachable_exact h.bf).1.data_len
    rw [hb] at this
    show 8 * s.bf.data.length ≤ 8
    omega

/-- the hypotheses of C20 and C45: a new tracker, a peer, a bitfield with two of the four pieces -/
example : ∃ s t, Running 4 exHashes exFiles [[1, 2, 3, 4, 5], [], [6, 7, 8, 9, 10, 11, 12, 13]] s [91, 92, 93, 94] ∧
    Reached s.tor.numPieces [] t ∧ (∀ i, i < s.tor.numPieces → ¬ RegisteredFor t i [7]) ∧
    Reachable ⟨[0, 0, 0, 0, 0, 80], 1, 4, 2⟩ ∧ s.tor.numPieces = 4 ∧
    AtMost 63 (after []) (((List.range s.tor.numPieces).filter (bit [80])).map (Step.reg [7])) := by
  obtain ⟨s, h, hn, -⟩ := exRunning
  obtain ⟨t, e, iv, -⟩ := new_spec 4
  refine ⟨s, t, h, ⟨by rw [hn]; decide, (fun c hc => by cases hc), t, by rw [hn]; exact e, rfl⟩, ?_, ?_, hn, ?_⟩
  · intro i hi
    rw [hn] at hi
    rw [iv.registered i hi]
    exact List.not_mem_nil
  · have h0 : Reachable ⟨[0, 0, 0, 0, 0, 0], 1, 4, 0⟩ := .new 4 _ (by decide)
    have h1 : Reachable ⟨[0, 0, 0, 0, 0, 64], 1, 4, 1⟩ := .set _ _ 1 true h0 (by decide) (by decide)
    exact .set _ _ 3 true h1 (by decide) (by decide)
  · refine atMost_of_keys [[7]] (by decide) _ _ (fun j => ⟨List.nodup_nil, fun k hk => by cases hk⟩) ?_
    intro k i hm
    obtain ⟨j, -, e⟩ := List.mem_map.mp hm
    cases e; simp

/-- a torrent as in C52 -/
example : ∃ ti, Accepted 4 exHashes exFiles ti ∧ needed (total (lens exFiles)) 4 = ti.numPieces ∧ (3 : UInt32).toNat < ti.numPieces :=
  ⟨_, ⟨by decide, exFiles_nonneg, ascii "t", rfl⟩, by decide +kernel, by decide +kernel⟩

/-- a torrent without content as in C20_refuted_no_pieces -/
example : ∃ ti, NewTorInfo (ascii "t") 4 [] [MakeFileEntry (ascii "a") 0] = .ok ti ∧ ti.numPieces = 0 := ⟨_, rfl, rfl⟩

end Verif.MsgHandler
