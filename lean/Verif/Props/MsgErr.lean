import Verif.Lemmas.MsgErr
import Verif.Props.Changed
/-
Properties C111 and C112: what is said about bytes that are no message (/repo/src/p2p), and why a connection is given up (/repo/src/swarm/msghandler.go).
-/
set_option autoImplicit false

namespace Verif.MsgErr
open Verif.P2P Verif.Wire Verif.Bencode Verif.MsgErrSpec

/-! ### C111 -/

/-- **C111**: the texts belong to the errors of `Decode`: a message is returned in the same cases, the program stops in the same cases, and as many bytes are skipped. -/
theorem C111_same (data : Bytes) :
    (∃ m n, P2P.Decode data = .ok ⟨some m, n⟩ ∧ DecodeT data = .ok (.ok m, n)) ∨
    (∃ e n, P2P.Decode data = .ok ⟨none, n⟩ ∧ DecodeT data = .ok (.error e, n)) ∨
    (P2P.Decode data = .panic ∧ DecodeT data = .panic) := by
  have h := decode_plain data
  have ht := decode_not_timeout data
  rw [← h] at ht ⊢
  revert ht
  cases hd : DecodeT data with
  | ok r =>
    obtain ⟨r, n⟩ := r
    cases r with
    | ok m => exact fun _ => .inl ⟨m, n, rfl, rfl⟩
    | error e => exact fun _ => .inr (.inl ⟨e, n, rfl, rfl⟩)
  | err e =>
    exact absurd hd (decodeT_noErr data e)
  | panic => exact fun _ => .inr (.inr ⟨rfl, rfl⟩)
  | timeout => exact fun ht => absurd rfl ht

/-- **C111**: what is said, exactly: `Decode` returns an error with the text `x` and skips `n` bytes precisely if the fault with this text is found in the bytes. -/
theorem C111_exact (data : Bytes) (hlen : data.length < 2 ^ 32) (x : Bytes) (n : Nat) :
    (∃ e, DecodeT data = .ok (.error e, n) ∧ e.text = x) ↔ Fault data x n := by
  constructor
  · rintro ⟨e, h, rfl⟩
    exact fault_of hlen h
  · intro h
    obtain ⟨k, hk⟩ := none_of_fault hlen h
    rcases C111_same data with ⟨m, j, h1, -⟩ | ⟨e, j, h1, h2⟩ | ⟨h1, -⟩
    · rw [hk] at h1; cases h1
    · obtain ⟨rfl, rfl⟩ := fault_unique h (fault_of hlen h2)
      exact ⟨e, h2, rfl⟩
    · rw [hk] at h1; cases h1

/-- a have message of two bytes, and a byte behind it -/
example : ∃ e, DecodeT [0, 0, 0, 3, 4, 9, 9, 1] = .ok (.error e, 9) ∧ e.text = ascii "have message must have 4 byte payload, got " ++ natDec 2 :=
  (C111_exact _ (by decide) _ _).mpr (.have (by decide) (by decide) (by decide) (by decide) (by decide))

/-- the texts begin differently -/
def begins : DecErr → Bytes
  | .short _ => ascii "message length "
  | .untyped _ => ascii "non-keep-alive "
  | .fixed _ => ascii "invalid message"
  | .incomplete _ _ => ascii "length specifie"
  | .unknown _ => ascii "unknown message"
  | .have _ => ascii "have message mu"
  | .request _ => ascii "request message"
  | .piece _ => ascii "piece message m"
  | .pieceShort _ => ascii "piece message p"
  | .noBits => ascii "bytes5 must hav"
  | .bits _ _ _ _ => ascii "invalid number "

theorem text_begins (e : DecErr) : e.text.take 15 = begins e := by
  have cut : ∀ (a b : Bytes) (x : Bytes), 15 ≤ a.length → a.take 15 = b → (a ++ x).take 15 = b := by
    intro a b x hl hb
    rw [List.take_append_of_le_length hl, hb]
  cases e <;> simp only [DecErr.text, begins, List.append_assoc] <;> first
    | exact cut _ _ _ (by decide +kernel) (by decide +kernel)
    | decide +kernel

/-- **C111**: the texts tell the errors apart, with all their numbers. -/
theorem C111_tells (e e' : DecErr) (h : e.text = e'.text) : e = e' := by
  have hb : begins e = begins e' := by rw [← text_begins, ← text_begins, h]
  cases e <;> cases e' <;> first
    | exact absurd hb (by simp only [begins]; decide +kernel)
    | (simp only [DecErr.text, List.append_assoc] at h; skip)
  case short.short => rw [natDec_inj (List.append_cancel_left h)]
  case untyped.untyped => rw [natDec_inj (List.append_cancel_left h)]
  case fixed.fixed => rw [UInt32.toNat.inj (natDec_inj (List.append_cancel_left h))]
  case unknown.unknown => rw [UInt8.toNat.inj (natDec_inj (List.append_cancel_left h))]
  case incomplete.incomplete =>
    have h := Peer.natDec_sep _ _ 44 _ _ (by decide) (List.append_cancel_left h)
    rw [UInt32.toNat.inj h.1, natDec_inj (List.append_cancel_left (as := ascii " payload length is ") h.2)]
  case have.have => rw [natDec_inj (List.append_cancel_left (List.append_cancel_left (List.append_cancel_left h)))]
  case request.request => rw [natDec_inj (List.append_cancel_left (List.append_cancel_left (List.append_cancel_left h)))]
  case piece.piece => rw [natDec_inj (List.append_cancel_left (List.append_cancel_left (List.append_cancel_left h)))]
  case pieceShort.pieceShort => rw [natDec_inj (List.append_cancel_left (List.append_cancel_left (List.append_cancel_left h)))]
  case noBits.noBits => rfl
  case bits.bits =>
    have h1 := intDec_sep _ _ 10 _ _ (by decide) (List.append_cancel_left h)
    have h2 := intDec_sep _ _ 44 _ _ (by decide) (List.append_cancel_left (as := ascii "min ") h1.2)
    have h3 := intDec_sep _ _ 44 _ _ (by decide) (List.append_cancel_left (as := ascii " max ") h2.2)
    rw [h1.1, h2.1, h3.1, intDec_inj (List.append_cancel_left (as := ascii " given ") h3.2)]

example : (DecErr.incomplete 13 7).text ≠ (DecErr.incomplete 13 8).text := fun h => by cases C111_tells _ _ h

/-- **C111** refuted: what is called the length of the payload is not: a message that announces `l` bytes and of which some are missing is said to have a payload that is
five bytes longer than what has come of it. -/
theorem C111_refuted_payload (l : Nat) (t : UInt8) (payload : Bytes) (ht : 3 < t.toNat) (hl : l < 2 ^ 32 - 4) (hp : payload.length + 1 < l) :
    ∃ e, DecodeT (be32 l ++ t :: payload) = .ok (.error e, payload.length + 5) ∧
      e.text = ascii "length specified as " ++ natDec l ++ ascii ", payload length is " ++ natDec (payload.length + 5) := by
  have hlen : (be32 l ++ t :: payload).length = payload.length + 5 := by rw [List.length_append, be32_length, List.length_cons]; omega
  have hpl := prefixLen_be32 l (t :: payload) (by omega)
  rw [← hlen]
  refine (C111_exact _ (by omega) _ _).mpr ?_
  have := Fault.incomplete (data := be32 l ++ t :: payload) t (by rw [List.getElem?_append_right (by rw [be32_length]; exact Nat.le_refl _), be32_length]; rfl) ht (by omega) (by omega)
  rwa [hpl] at this

/-- a bitfield that announces three bytes, of which one is there; "length specified as 4, payload length is 6" -/
example : ∃ e, DecodeT [0, 0, 0, 4, 5, 255] = .ok (.error e, 6) ∧ e.text = ascii "length specified as 4, payload length is 6" := by
  obtain ⟨e, h, ht⟩ := C111_refuted_payload 4 5 [255] (by decide) (by decide) (by decide)
  exact ⟨e, h, by rw [ht]; decide +kernel⟩

/-- **C111** refuted: a payload of a piece message that is not as long as it should be is said to have to have four bytes, however long it should be; and it is not even said:
`Decode` looks at the message before it looks at the error, and the program stops. -/
theorem C111_refuted_piece (payload : Bytes) (length : UInt32) (h : UInt32.ofNat payload.length ≠ length) :
    (∃ e, DecodeMsgPieceT payload length = .ok (.error e) ∧ e.text = ascii "piece message must have 4 byte payload, got " ++ natDec payload.length) ∧
    ∀ data, data.length < 2 ^ 32 → ∀ e n, DecodeT data = .ok (.error e, n) → e.text.take 15 ≠ ascii "piece message m" ∧ e.text.take 15 ≠ ascii "piece message p" := by
  refine ⟨⟨.piece payload.length, by unfold DecodeMsgPieceT; rw [if_pos h], ?_⟩, ?_⟩
  · simp only [DecErr.text]
    exact congrArg (· ++ natDec payload.length) (by decide +kernel : ascii "piece message must have " ++ natDec 4 ++ ascii " byte payload, got " = ascii "piece message must have 4 byte payload, got ")
  · intro data hlen e n hd
    have cut : ∀ (a b : Bytes) (x : Bytes), 15 ≤ a.length → a.take 15 ≠ b → (a ++ x).take 15 ≠ b := by
      intro a b x hl hb
      rwa [List.take_append_of_le_length hl]
    have hf := (C111_exact data hlen e.text n).mp ⟨e, hd, rfl⟩
    generalize e.text = x at hf
    cases hf with
    | incomplete => simp only [List.append_assoc]; exact ⟨cut _ _ _ (by decide +kernel) (by decide +kernel), cut _ _ _ (by decide +kernel) (by decide +kernel)⟩
    | noBits => exact ⟨by decide +kernel, by decide +kernel⟩
    | _ => exact ⟨cut _ _ _ (by decide +kernel) (by decide +kernel), cut _ _ _ (by decide +kernel) (by decide +kernel)⟩

/-- a payload of nine bytes, of which the message says that it has ten -/
example : UInt32.ofNat (List.replicate 9 (0 : UInt8)).length ≠ 10 := by decide

/-- **C111** refuted: nobody is told.  When bytes are refused as a whole, `DecodeAll` returns no message and no error, handling them succeeds and changes nothing, and the text is lost. -/
theorem C111_refuted_ignored (data : Bytes) (hlen : data.length < 2 ^ 32) (hne : data ≠ []) (x : Bytes) (h : Fault data x data.length) (fuel : Nat) :
    (∃ e, DecodeT data = .ok (.error e, data.length) ∧ e.text = x) ∧ DecodeAll (fuel + 2) data = .ok ⟨[], 0⟩ ∧
    ∀ oserr s me werr st, handleMessageT oserr (fuel + 2) s me werr data st = (st, .ok (.ok ())) := by
  obtain ⟨e, he, hx⟩ := (C111_exact data hlen x _).mpr h
  have hd : P2P.Decode data = .ok ⟨none, data.length⟩ := by rw [← decode_plain, he]; rfl
  have ha : DecodeAll (fuel + 2) data = .ok ⟨[], 0⟩ := by
    have hne : data.length ≠ 0 := fun h0 => hne (List.length_eq_zero_iff.mp h0)
    unfold DecodeAll
    rw [decodeAllLoop, if_neg hne, hd, Res.ok_bind]
    simp only [List.drop_length]
    rw [decodeAllLoop]; rfl
  refine ⟨⟨e, he, hx⟩, ha, fun oserr s me werr st => ?_⟩
  unfold handleMessageT
  rw [ha]
  rfl

/-- a message that is not in use and a whole message behind it -/
example : Fault [0, 0, 0, 1, 20, 0, 0, 0, 1, 2] (ascii "unknown message type " ++ natDec 20) 10 := .unknown 20 (by decide) (by decide) (by decide) (by decide) (by decide)

/-- **C111**: what is said about bytes that are no bitfield with `n` bits, exactly.  (`Decode` asks for all the bits that there are and never gets the second answer.) -/
theorem C111_bits (b : Bytes) (n : Int) (t : Bytes) : (∃ e, FromBytesT b n = .ok (.error e) ∧ e.text = t) ↔
    b.length ≤ 5 ∧ t = ascii "bytes5 must have length greater than 5 bytes" ∨
    5 < b.length ∧ ¬ (8 * ((b.length : Int) - 6) < n ∧ n ≤ 8 * ((b.length : Int) - 5)) ∧
      t = ascii "invalid number of bits specified for byte slice of len " ++ Bencode.Spec.decInt b.length ++ ascii "\nmin " ++ Bencode.Spec.decInt (8 * ((b.length : Int) - 6) + 1) ++
        ascii ", max " ++ Bencode.Spec.decInt (8 * ((b.length : Int) - 5)) ++ ascii ", given " ++ Bencode.Spec.decInt n := by
  simp only [Bencode.decInt_eq]
  unfold FromBytesT
  by_cases h5 : b.length ≤ 5
  · rw [if_pos (by omega)]
    simp only [Res.ok.injEq, Except.error.injEq, exists_eq_left', h5, true_and, DecErr.text, show ¬ 5 < b.length by omega, false_and, or_false]
    exact ⟨Eq.symm, Eq.symm⟩
  · rw [if_neg (by omega)]
    by_cases hn : 8 * ((b.length : Int) - 6) < n ∧ n ≤ 8 * ((b.length : Int) - 5)
    · rw [if_neg (by omega)]
      constructor
      · rintro ⟨e, h, -⟩
        cases hc : Bf.calcNset (b.drop 5) n <;> rw [hc] at h <;> cases h
      · rintro (⟨h, -⟩ | ⟨-, h, -⟩)
        · exact absurd h h5
        · exact absurd hn h
    · rw [if_pos (by omega)]
      simp only [Res.ok.injEq, Except.error.injEq, exists_eq_left', h5, false_and, false_or, DecErr.text, show 5 < b.length by omega, true_and, hn, not_false_eq_true]
      rw [show ((b.length : Int) - 5 - 1) * 8 + 1 = 8 * ((b.length : Int) - 6) + 1 by omega, show ((b.length : Int) - 5) * 8 = 8 * ((b.length : Int) - 5) by omega]
      exact ⟨Eq.symm, Eq.symm⟩

/-- an instance: seven bytes hold from 9 to 16 bits -/
example : ∃ e, FromBytesT [0, 0, 0, 3, 5, 1, 2] 8 = .ok (.error e) ∧
    e.text = ascii "invalid number of bits specified for byte slice of len 7\nmin 9, max 16, given 8" :=
  (C111_bits _ _ _).mpr (.inr ⟨by decide, by decide, by decide +kernel⟩)

/-- **C111**: what would be said about a piece message without an index and a position, if `Decode` did not panic: the text is right here. -/
theorem C111_piece_short (payload : Bytes) (h : payload.length < 8) : ∃ e, DecodeMsgPieceT payload (UInt32.ofNat payload.length) = .ok (.error e) ∧
    e.text = ascii "piece message payload must be at least 8 bytes, got " ++ natDec payload.length := by
  refine ⟨.pieceShort payload.length, ?_, ?_⟩
  · unfold DecodeMsgPieceT
    rw [if_neg (by simp), if_pos]
    rw [UInt32.lt_iff_toNat_lt, UInt32.toNat_ofNat_of_lt' (by show payload.length < 2 ^ 32; omega)]
    exact h
  · simp only [DecErr.text]
    exact congrArg (· ++ natDec payload.length) (by decide +kernel : ascii "piece message payload must be at least " ++ natDec 8 ++ ascii " bytes, got " = ascii "piece message payload must be at least 8 bytes, got ")

example : ([1, 2, 3] : Bytes).length < 8 := by decide

/-! ### C112 -/

open Verif.Bf Verif.FileIO Verif.Files Verif.MsgHandler Verif.PieceTracker Verif.Session Verif.Layout Verif.Changed

/-- **C112**: the texts belong to the errors of `handleMessage`: it succeeds, fails and stops the program in the same cases, and changes the same. -/
theorem C112_same (oserr : Bytes → Bytes) (fuel : Nat) (s : Swarm) (me : PH) (werr : Nat → Option Bytes) (buf : Bytes) (st : St) :
    (handleMessageT oserr fuel s me werr buf st).1 = (handleMessage fuel s me (fun n => (werr n).isNone) buf st).1 ∧
    ((handleMessageT oserr fuel s me werr buf st).2 = .ok (.ok ()) ↔ (handleMessage fuel s me (fun n => (werr n).isNone) buf st).2 = .ok ()) ∧
    (∀ e, (handleMessageT oserr fuel s me werr buf st).2 = .ok (.error e) → (handleMessage fuel s me (fun n => (werr n).isNone) buf st).2 = .err e.kind) ∧
    ((handleMessageT oserr fuel s me werr buf st).2 = .panic ↔ (handleMessage fuel s me (fun n => (werr n).isNone) buf st).2 = .panic) ∧
    ((handleMessageT oserr fuel s me werr buf st).2 = .timeout ↔ (handleMessage fuel s me (fun n => (werr n).isNone) buf st).2 = .timeout) := by
  have key : (handleMessageT oserr fuel s me werr buf st).1 = (handleMessage fuel s me (fun n => (werr n).isNone) buf st).1 ∧
      plainK (handleMessageT oserr fuel s me werr buf st).2 = (handleMessage fuel s me (fun n => (werr n).isNone) buf st).2 := by
    unfold handleMessageT handleMessage
    cases DecodeAll fuel buf with
    | ok d => exact all_plain oserr s me werr d.msgs st
    | _ => exact ⟨rfl, rfl⟩
  refine ⟨key.1, ?_⟩
  rw [← key.2]
  cases (handleMessageT oserr fuel s me werr buf st).2 with
  | ok r => cases r <;> simp [plainK]
  | _ => simp [plainK]

theorem complete_iff {pl : Nat} {hashes : Bytes} {files : List EntryBase} {cs : List Bytes} {s : Swarm} {buf : Bytes}
    (h : Running pl hashes files cs s buf) : s.bf.Complete = true ↔ ∀ j, j < s.tor.numPieces → ours s j = true := by
  have h1 := (C18_counter_exact_partial s.bf h.bf).2
  rw [h.nbits] at h1
  constructor
  · intro e j hj
    exact (get_ours h j hj).mp (h1.mp e j (by omega))
  · intro ha
    exact h1.mpr fun j hj => (get_ours h j (by omega)).mpr (ha j (by omega))

/-- one message -/
theorem one_error {pl : Nat} {hashes : Bytes} {files : List EntryBase} {cs : List Bytes} {s : Swarm} {st : St}
    (h : Running pl hashes files cs s st.buf) (oserr : Bytes → Bytes) (me : PH) (werr : Nat → Option Bytes) (w : Wire.Msg) (x : Bytes) :
    (∃ e, (handleOneT oserr s me werr (received w) st).2 = .ok (.error e) ∧ e.text = x) ↔ Offends s.tor.numPieces pl (ours s) (werr st.out.length) w x := by
  have hd := data_length h
  cases w with
  | request i b l =>
    show (∃ e, (handleRequestT oserr s i b l (werr st.out.length) st).2 = .ok (.error e) ∧ e.text = x) ↔ _
    rw [handleRequestT_spec h]
    by_cases hi : i.toNat < s.tor.numPieces
    · rw [if_pos hi]
      by_cases hg : s.bf.Get i.toNat = .ok true
      · rw [if_pos hg]
        have ho := (get_ours h _ hi).mp hg
        by_cases hb : b.toNat + l.toNat ≤ pl
        · rw [if_pos hb]
          cases hw : werr st.out.length with
          | none =>
            refine ⟨fun ⟨e, he, _⟩ => (by cases he), fun hf => ?_⟩
            cases hf with
            | beyond _ _ _ hi' => omega
            | unsent _ _ _ _ _ _ _ hw' => cases hw'
          | some t =>
            constructor
            · rintro ⟨e, he, hx⟩
              cases he
              rw [show KillErr.text (.os t) = t from rfl] at hx
              rw [← hx]
              exact .unsent i b l t hi ho hb rfl
            · intro hf
              cases hf with
              | beyond _ _ _ hi' => omega
              | unsent _ _ _ _ _ _ _ hw' => cases hw'; exact ⟨_, rfl, rfl⟩
        · rw [if_neg hb]
          refine ⟨fun ⟨e, he, _⟩ => (by cases he), fun hf => ?_⟩
          cases hf with
          | beyond _ _ _ hi' => omega
          | unsent _ _ _ _ _ _ hl => omega
      · rw [if_neg hg]
        refine ⟨fun ⟨e, he, _⟩ => (by cases he), fun hf => ?_⟩
        cases hf with
        | beyond _ _ _ hi' => omega
        | unsent _ _ _ _ _ ho => exact absurd ((get_ours h _ hi).mpr ho) hg
    · rw [if_neg hi]
      have mk : (s.bf.Complete = true ∨ (i.toNat < 8 * s.bf.data.length ∧ ours s i.toNat = true)) →
          ((∃ e, (Res.ok (Except.error KillErr.bounds) : Res (Except KillErr Unit)) = .ok (.error e) ∧ e.text = x) ↔ Offends s.tor.numPieces pl (ours s) (werr st.out.length) (.request i b l) x) := by
        intro hc
        constructor
        · rintro ⟨e, he, hx⟩
          cases he
          rw [← hx]
          refine .beyond i b l (by omega) ?_
          rcases hc with hc | hc
          · exact .inl ((complete_iff h).mp hc)
          · exact .inr ⟨by omega, hc.2⟩
        · intro hf
          cases hf with
          | beyond => exact ⟨_, rfl, rfl⟩
          | unsent _ _ _ _ hi' => omega
      by_cases hc : s.bf.Complete = true
      · rw [if_pos hc]
        exact mk (.inl hc)
      · rw [if_neg hc]
        have no : ¬ (i.toNat < 8 * s.bf.data.length ∧ ours s i.toNat = true) → ¬ Offends s.tor.numPieces pl (ours s) (werr st.out.length) (.request i b l) x := by
          intro hn hf
          cases hf with
          | beyond _ _ _ _ h' =>
            rcases h' with h' | h'
            · exact hc ((complete_iff h).mpr h')
            · exact hn ⟨by omega, h'.2⟩
          | unsent _ _ _ _ hi' => omega
        by_cases h8 : i.toNat < 8 * s.bf.data.length
        · rw [if_pos h8]
          by_cases hb : Bits.bit s.bf.data i.toNat = true
          · rw [if_pos hb]
            exact mk (.inr ⟨h8, hb⟩)
          · rw [if_neg hb]
            exact ⟨fun ⟨e, he, _⟩ => (by cases he), fun hf => absurd hf (no fun hn => hb hn.2)⟩
        · rw [if_neg h8]
          exact ⟨fun ⟨e, he, _⟩ => (by cases he), fun hf => absurd hf (no fun hn => h8 hn.1)⟩
  | bitfield p =>
    show (∃ e, (handleBitfieldT s me (rxBitfield p) st).2 = .ok (.error e) ∧ e.text = x) ↔ _
    unfold handleBitfieldT
    by_cases hn : (rxBitfield p).nbytes ≠ s.bf.nbytes
    · rw [if_pos hn]
      rw [hd.2] at hn
      constructor
      · rintro ⟨e, he, hx⟩
        cases he
        rw [← hx]
        exact .bitfield p fun hc => hn (by show (p.length : Int) = _; omega)
      · intro hf
        cases hf with
        | bitfield => exact ⟨_, rfl, rfl⟩
    · rw [if_neg hn]
      constructor
      · rintro ⟨e, he, -⟩
        cases hs : (rxBitfield p).SetNbits s.tor.numPieces with
        | ok b' =>
          rw [hs] at he
          dsimp only at he
          cases hr : RegisterBF st.ppt me b' <;> rw [hr] at he <;> cases he
        | _ => rw [hs] at he; cases he
      · intro hf
        cases hf with
        | bitfield _ h' =>
          refine absurd (fun hc => h' ?_) hn
          rw [hd.2] at hc
          have hc : (p.length : Int) = _ := hc
          omega
  | _ => exact ⟨fun ⟨e, he, _⟩ => (by cases he), fun hf => by cases hf⟩

theorem handleAllT_cons (oserr : Bytes → Bytes) (s : Swarm) (me : PH) (werr : Nat → Option Bytes) (m : P2P.Msg) (ms : List P2P.Msg) (st : St) :
    ((handleOneT oserr s me werr m st).2 = .ok (.ok ()) → handleAllT oserr s me werr (m :: ms) st = handleAllT oserr s me werr ms (handleOneT oserr s me werr m st).1) ∧
    ((handleOneT oserr s me werr m st).2 ≠ .ok (.ok ()) → handleAllT oserr s me werr (m :: ms) st = handleOneT oserr s me werr m st) := by
  rw [handleAllT]
  rcases handleOneT oserr s me werr m st with ⟨st', r⟩
  cases r with
  | ok r =>
    cases r with
    | ok u => exact ⟨fun _ => rfl, fun h => absurd rfl h⟩
    | error e => exact ⟨fun h => (by cases h), fun _ => rfl⟩
  | _ => exact ⟨fun h => (by cases h), fun _ => rfl⟩

theorem all_error {pl : Nat} {hashes : Bytes} {files : List EntryBase} {cs : List Bytes} {s : Swarm}
    (oserr : Bytes → Bytes) (me : PH) (werr : Nat → Option Bytes) (x : Bytes) : ∀ (ws : List Wire.Msg) (st : St) (_ : Running pl hashes files cs s st.buf),
    (∃ e, (handleAllT oserr s me werr (ws.map received) st).2 = .ok (.error e) ∧ e.text = x) ↔
      ∃ pre w post st', ws = pre ++ w :: post ∧ handleAllT oserr s me werr (pre.map received) st = (st', .ok (.ok ())) ∧
        Offends s.tor.numPieces pl (ours s) (werr st'.out.length) w x
  | [], st, h => by
    refine ⟨fun ⟨e, he, _⟩ => (by cases he), fun ⟨pre, w, post, st', hw, _⟩ => ?_⟩
    cases pre <;> cases hw
  | w :: ws, st, h => by
    rw [List.map_cons]
    obtain ⟨c1, c2⟩ := handleAllT_cons oserr s me werr (received w) (ws.map received) st
    by_cases ho : (handleOneT oserr s me werr (received w) st).2 = .ok (.ok ())
    · rw [c1 ho, all_error oserr me werr x ws _ (by rw [(one_plain oserr s me werr (received w) st).1]; exact running_one h me _ _)]
      constructor
      · rintro ⟨pre, w', post, st', rfl, hp, hf⟩
        refine ⟨w :: pre, w', post, st', rfl, ?_, hf⟩
        rw [List.map_cons, (handleAllT_cons oserr s me werr (received w) _ st).1 ho]
        exact hp
      · rintro ⟨pre, w', post, st', hw, hp, hf⟩
        cases pre with
        | nil =>
          cases hw
          cases hp
          obtain ⟨e, he, -⟩ := (one_error h oserr me werr w x).mpr hf
          rw [ho] at he; cases he
        | cons y pre =>
          obtain ⟨rfl, rfl⟩ := List.cons.inj hw
          rw [List.map_cons, (handleAllT_cons oserr s me werr (received w) _ st).1 ho] at hp
          exact ⟨pre, w', post, st', rfl, hp, hf⟩
    · rw [c2 ho, one_error h]
      constructor
      · intro hf
        exact ⟨[], w, ws, st, rfl, rfl, hf⟩
      · rintro ⟨pre, w', post, st', hw, hp, hf⟩
        cases pre with
        | nil =>
          cases hw
          cases hp
          exact hf
        | cons y pre =>
          obtain ⟨rfl, rfl⟩ := List.cons.inj hw
          rw [List.map_cons, (handleAllT_cons oserr s me werr (received w) _ st).2 ho] at hp
          rw [hp] at ho
          exact absurd rfl ho

theorem message_all (oserr : Bytes → Bytes) (s : Swarm) (me : PH) (werr : Nat → Option Bytes) (st : St) (ws : List Wire.Msg) (hd : ∀ w ∈ ws, Decodable w)
    (hlen : (stream ws).length < 2 ^ 32) (fuel : Nat) (hf : ws.length < fuel) :
    handleMessageT oserr fuel s me werr (stream ws) st = handleAllT oserr s me werr (ws.map received) st := by
  obtain ⟨k, rfl⟩ : ∃ k, fuel = ws.length + (k + 1) := ⟨fuel - ws.length - 1, by omega⟩
  have := loop_stream ws (k + 1) [] hd (by simpa using hlen) [] 0
  rw [List.append_nil, loop_nil] at this
  unfold handleMessageT DecodeAll
  rw [this]
  rfl

/-- **C112**: why a connection is given up, exactly: a client that has received the messages `ws` gives up the connection with the text `x` precisely if one of them is an offence
with this text, and those before it have been handled. -/
theorem C112_exact {pl : Nat} {hashes : Bytes} {files : List EntryBase} {cs : List Bytes} {s : Swarm} {st : St}
    (h : Running pl hashes files cs s st.buf) (oserr : Bytes → Bytes) (me : PH) (werr : Nat → Option Bytes) (ws : List Wire.Msg) (hd : ∀ w ∈ ws, Decodable w)
    (hlen : (stream ws).length < 2 ^ 32) (fuel : Nat) (hf : ws.length < fuel) (x : Bytes) :
    (∃ e, (handleMessageT oserr fuel s me werr (stream ws) st).2 = .ok (.error e) ∧ e.text = x) ↔
      ∃ pre w post st', ws = pre ++ w :: post ∧ handleMessageT oserr fuel s me werr (stream pre) st = (st', .ok (.ok ())) ∧
        Offends s.tor.numPieces pl (ours s) (werr st'.out.length) w x := by
  rw [message_all oserr s me werr st ws hd hlen fuel hf, all_error oserr me werr x ws st h]
  have pre_all : ∀ pre w post, ws = pre ++ w :: post → handleMessageT oserr fuel s me werr (stream pre) st = handleAllT oserr s me werr (pre.map received) st := by
    rintro pre w post rfl
    refine message_all oserr s me werr st pre (fun w hw => hd w (List.mem_append_left _ hw)) ?_ fuel ?_
    · unfold stream at hlen ⊢
      rw [List.map_append, List.flatten_append, List.length_append] at hlen
      omega
    · rw [List.length_append] at hf; omega
  constructor
  · rintro ⟨pre, w, post, st', hw, hp, ho⟩
    exact ⟨pre, w, post, st', hw, by rw [pre_all pre w post hw]; exact hp, ho⟩
  · rintro ⟨pre, w, post, st', hw, hp, ho⟩
    exact ⟨pre, w, post, st', hw, by rw [← pre_all pre w post hw]; exact hp, ho⟩

/-- the client of `exRunning` receives a keep-alive and a bitfield of two bytes; it has four pieces -/
example (oserr : Bytes → Bytes) (me : PH) (werr : Nat → Option Bytes) (ppt : Tracker) (pb : Bitfield) : ∃ s e,
    (handleMessageT oserr 3 s me werr (stream [.keepAlive, .bitfield [255, 255]]) ⟨ppt, pb, [91, 92, 93, 94], []⟩).2 = .ok (.error e) ∧ e.text = ascii "invalid bitfield" := by
  obtain ⟨s, h, hn, -⟩ := exRunning
  obtain ⟨e, he⟩ := (C112_exact (st := ⟨ppt, pb, [91, 92, 93, 94], []⟩) h oserr me werr [.keepAlive, .bitfield [255, 255]] (by simp [Decodable]) (by decide +kernel) 3 (by decide) _).mpr
    ⟨[.keepAlive], .bitfield [255, 255], [], _, rfl, rfl, .bitfield _ (by rw [hn]; decide)⟩
  exact ⟨s, e, he⟩

/-- **C112**: no client, whatever its state, says "negative index". -/
theorem C112_not_negative (oserr : Bytes → Bytes) (fuel : Nat) (s : Swarm) (me : PH) (werr : Nat → Option Bytes) (buf : Bytes) (st : St) :
    (handleMessageT oserr fuel s me werr buf st).2 ≠ .ok (.error .negative) := by
  have loop : ∀ (ls : List PieceLocation) (off : Nat) (b : Bytes), readLoopT oserr s.fs s.fio ls off b ≠ .ok (.error .negative) := by
    intro ls
    induction ls with
    | nil => intro off b hc; cases hc
    | cons l ls ih =>
      intro off b
      unfold readLoopT
      split
      · exact fun hc => by cases hc
      · split
        · exact fun hc => by cases hc
        · split
          · split
            · exact fun hc => by cases hc
            · split
              · exact fun hc => by cases hc
              · split
                · exact fun hc => by cases hc
                · exact ih _ _
          · exact fun hc => by cases hc
  have read : ∀ (i : Nat) (b : Bytes), ReadPieceT oserr s.fs s.fio i b ≠ .ok (.error .negative) := by
    intro i b
    unfold ReadPieceT PieceLookupT
    rw [if_neg (by omega)]
    split
    · exact fun hc => by cases hc
    · cases s.fio.torInfo.pm[(i : Int).toNat]? with
      | none => exact fun hc => by cases hc
      | some ls => exact loop ls 0 b
  have one : ∀ m st, (handleOneT oserr s me werr m st).2 ≠ .ok (.error .negative) := by
    intro m st
    cases m with
    | request i b l =>
      show (handleRequestT oserr s i b l (werr st.out.length) st).2 ≠ _
      unfold handleRequestT
      cases mayServe s i.toNat with
      | ok v =>
        cases v with
        | false => exact fun hc => by cases hc
        | true =>
          dsimp only
          have := read i.toNat st.buf
          cases hr : ReadPieceT oserr s.fs s.fio i.toNat st.buf with
          | ok r =>
            cases r with
            | error e =>
              rw [hr] at this
              cases e <;> first
                | exact absurd rfl this
                | exact fun hc => by cases hc
            | ok y =>
              obtain ⟨n, b'⟩ := y
              dsimp only
              cases answer b' i b l with
              | ok m => cases werr st.out.length <;> exact fun hc => by cases hc
              | _ => exact fun hc => by cases hc
          | _ => exact fun hc => by cases hc
      | _ => exact fun hc => by cases hc
    | bitfield n b =>
      show (handleBitfieldT s me b st).2 ≠ _
      unfold handleBitfieldT
      split
      · exact fun hc => by cases hc
      · cases b.SetNbits s.tor.numPieces with
        | ok b' =>
          dsimp only
          cases RegisterBF st.ppt me b' <;> exact fun hc => by cases hc
        | _ => exact fun hc => by cases hc
    | _ => exact fun hc => by cases hc
  have all : ∀ ms st, (handleAllT oserr s me werr ms st).2 ≠ .ok (.error .negative) := by
    intro ms
    induction ms with
    | nil => intro st hc; cases hc
    | cons m ms ih =>
      intro st
      obtain ⟨c1, c2⟩ := handleAllT_cons oserr s me werr m ms st
      by_cases ho : (handleOneT oserr s me werr m st).2 = .ok (.ok ())
      · rw [c1 ho]; exact ih _
      · rw [c2 ho]; exact one m st
  unfold handleMessageT
  cases DecodeAll fuel buf with
  | ok d => exact all d.msgs st
  | _ => exact fun hc => by cases hc

/-- **C112** refuted: the text does not tell which piece was asked for: a client that has everything says the same about all pieces that do not exist, whatever the ranges. -/
theorem C112_refuted_which {pl : Nat} {hashes : Bytes} {files : List EntryBase} {cs : List Bytes} {s : Swarm} {st : St}
    (h : Running pl hashes files cs s st.buf) (hc : ∀ j, j < s.tor.numPieces → ours s j = true) (oserr : Bytes → Bytes) (me : PH) (werr : Nat → Option Bytes)
    (i b l : UInt32) (hi : s.tor.numPieces ≤ i.toNat) (fuel : Nat) :
    ∃ e, (handleMessageT oserr (fuel + 2) s me werr (wire (.request i b l)) st).2 = .ok (.error e) ∧ e.text = ascii "index out of bounds" := by
  have hlen : (stream [Wire.Msg.request i b l]).length < 2 ^ 32 := by unfold stream; simp [length_wire, body, be32_length]
  have := (C112_exact h oserr me werr [.request i b l] (fun w hw => by cases List.mem_singleton.mp hw; trivial) hlen (fuel + 2) (by show 1 < _; omega) (ascii "index out of bounds")).mpr
    ⟨[], _, [], st, rfl, rfl, .beyond i b l hi (.inl hc)⟩
  rwa [show stream [Wire.Msg.request i b l] = wire (.request i b l) by unfold stream; simp] at this

/-- a client with all of the four pieces -/
example : ∃ s, Running 4 exHashes exFiles [[1, 2, 3, 4, 5], [], [6, 7, 8, 9, 10, 11, 12, 13]] s [91, 92, 93, 94] ∧ s.tor.numPieces = 4 ∧ ∀ j, j < 4 → ours s j = true := by
  refine ⟨⟨_, ⟨[0, 0, 0, 0, 0, 240], 1, 4, 4⟩, openedAll _, fun p => if p = ascii "a" then some [1, 2, 3, 4, 5] else if p = ascii "e" then some [] else
      if p = ascii "b" then some [6, 7, 8, 9, 10, 11, 12, 13] else none⟩,
    ⟨⟨by decide, exFiles_nonneg, ascii "t", rfl⟩, by decide, rfl, ⟨by decide, ?_⟩, ?_, by decide +kernel, by decide⟩, by decide +kernel, by decide⟩
  · intro k f c hf hc
    match k with
    | 0 => cases hf; cases hc; decide
    | 1 => cases hf; cases hc; decide
    | 2 => cases hf; cases hc; decide
    | k + 3 => cases hc
  · have h0 : Reachable ⟨[0, 0, 0, 0, 0, 0], 1, 4, 0⟩ := .new 4 _ (by decide)
    have h1 : Reachable ⟨[0, 0, 0, 0, 0, 64], 1, 4, 1⟩ := .set _ _ 1 true h0 (by decide) (by decide)
    have h2 : Reachable ⟨[0, 0, 0, 0, 0, 80], 1, 4, 2⟩ := .set _ _ 3 true h1 (by decide) (by decide)
    have h3 : Reachable ⟨[0, 0, 0, 0, 0, 208], 1, 4, 3⟩ := .set _ _ 0 true h2 (by decide) (by decide)
    exact .set _ _ 2 true h3 (by decide) (by decide)

/-- **C112** refuted: a client that lacks a piece says nothing about requests for pieces that do not exist: as long as its bitfield has room for the index the request
is ignored (unless the bit is set), and beyond that the program stops. -/
theorem C112_refuted_beyond {pl : Nat} {hashes : Bytes} {files : List EntryBase} {cs : List Bytes} {s : Swarm} {st : St}
    (h : Running pl hashes files cs s st.buf) (j : Nat) (hj : j < s.tor.numPieces) (hl : ours s j = false) (oserr : Bytes → Bytes)
    (i b l : UInt32) (werr : Option Bytes) (hi : s.tor.numPieces ≤ i.toNat) :
    (i.toNat < (s.tor.numPieces + 7) / 8 * 8 → ours s i.toNat = false → (handleRequestT oserr s i b l werr st).2 = .ok (.ok ())) ∧
    ((s.tor.numPieces + 7) / 8 * 8 ≤ i.toNat → (handleRequestT oserr s i b l werr st).2 = .panic) := by
  have hd := (data_length h).1
  have hc : ¬ s.bf.Complete = true := fun hc => by
    have := (complete_iff h).mp hc j hj
    rw [hl] at this; cases this
  rw [handleRequestT_spec h, if_neg (by omega), if_neg hc]
  constructor
  · intro h8 ho
    have ho : Bits.bit s.bf.data i.toNat = false := ho
    rw [if_pos (by omega), ho]
    rfl
  · intro h8
    rw [if_neg (by omega)]

/-- the client of `exRunning`, which has four pieces and lacks piece 0: a request for piece 5 is ignored, one for piece 8 stops the program -/
example (oserr : Bytes → Bytes) (ppt : Tracker) (pb : Bitfield) : ∃ s,
    (handleRequestT oserr s 8 0 1 none ⟨ppt, pb, [91, 92, 93, 94], []⟩).2 = .panic := by
  obtain ⟨s, h, hn, -, -, -, -, h0⟩ := exRunning
  have h0' : ours s 0 = false := by
    cases ho : ours s 0 with
    | false => rfl
    | true => rw [(get_ours h 0 (by rw [hn]; decide)).mpr ho] at h0; cases h0
  exact ⟨s, (C112_refuted_beyond (st := ⟨ppt, pb, [91, 92, 93, 94], []⟩) h 0 (by rw [hn]; decide) h0' oserr 8 0 1 none (by rw [hn]; decide)).2 (by rw [hn]; decide)⟩

/-- **C112** refuted: the peer gets the blame.  When one of our own files is too short for a piece that we have, any request for the piece makes us give up the connection, and
what is said about the peer is "EOF". -/
theorem C112_refuted_eof {pl : Nat} {hashes : Bytes} {files : List EntryBase} {cs : List Bytes} {s : Swarm} {st : St}
    (h : Running pl hashes files cs s st.buf) (fs : FS.State) (ds : List Bytes) (hr : Replaced fs (files.map EntryBase.localPath) ds)
    (i b l : UInt32) (hi : i.toNat < s.tor.numPieces) (ho : ours s i.toNat = true) (hp : ¬ Present (lens files) pl i.toNat ds) (oserr : Bytes → Bytes) (werr : Option Bytes) :
    ∃ e, (handleRequestT oserr { s with fs := fs } i b l werr st).2 = .ok (.error e) ∧ e.text = ascii "EOF" := by
  have hg := (get_ours h _ hi).mpr ho
  have hms : mayServe { s with fs := fs } i.toNat = .ok true := by
    show (if s.bf.Complete then Res.ok true else s.bf.Get i.toNat) = _
    rw [hg]; split <;> rfl
  have hrd := (readPiece_any h.accepted fs ds hr i.toNat hi st.buf h.buf).2 hp
  rw [← readPiece_plain oserr, ← h.fio] at hrd
  unfold handleRequestT
  rw [hms]
  dsimp only
  cases hx : ReadPieceT oserr fs s.fio i.toNat st.buf with
  | ok r =>
    rw [hx] at hrd
    cases r with
    | ok y => cases hrd
    | error e => cases e <;> first | (cases hrd; done) | exact ⟨.eof, rfl, rfl⟩
  | err e => exact absurd hx (readPieceT_noErr _ _ _ _ _ e)
  | _ => rw [hx] at hrd; cases hrd

/-- the client of `exRunning` has piece 1; its third file has been cut to two bytes -/
example (oserr : Bytes → Bytes) (ppt : Tracker) (pb : Bitfield) : ∃ s e, (handleRequestT oserr s 1 0 4 none ⟨ppt, pb, [91, 92, 93, 94], []⟩).2 = .ok (.error e) ∧ e.text = ascii "EOF" := by
  obtain ⟨s, h, hn, -, -, h1, -⟩ := exRunning
  obtain ⟨e, he⟩ := C112_refuted_eof (st := ⟨ppt, pb, [91, 92, 93, 94], []⟩) h
    (fun p => if p = ascii "a" then some [9, 9, 9, 9, 9, 9] else if p = ascii "e" then some [] else if p = ascii "b" then some [7, 7] else none) [[9, 9, 9, 9, 9, 9], [], [7, 7]]
    ⟨by decide, fun k p d hp hd => by
      match k with
      | 0 => cases hp; cases hd; decide
      | 1 => cases hp; cases hd; decide
      | 2 => cases hp; cases hd; decide
      | k + 3 => cases hd⟩ 1 0 4 (by rw [hn]; decide) ((get_ours h 1 (by rw [hn]; decide)).mp h1)
    (fun hp => absurd (hp 2 7 [7, 7] rfl (by decide) (by decide) (by decide)) (by decide)) oserr none
  exact ⟨_, e, he⟩

theorem overwrite_size (buf : Bytes) (off : Nat) (d : Bytes) (h : off + d.length ≤ buf.length) : (FileIO.overwrite buf off d).length = buf.length := by
  unfold FileIO.overwrite
  simp
  omega

/-- **C112**, files that are not open: a request for a piece that we have is the end of the connection precisely if there is a range of the piece in such a file; the text has the
path of the file of the first such range.  (`locs` are the ranges of the piece, C23.) -/
theorem C112_not_open {pl : Nat} {hashes : Bytes} {files : List EntryBase} {cs : List Bytes} {s : Swarm} {st : St}
    (h : Running pl hashes files cs s st.buf) (opened : List Bytes) (i b l : UInt32) (hi : i.toNat < s.tor.numPieces) (ho : ours s i.toNat = true)
    (locs : List PieceLocation) (hl : s.tor.PieceLookup i.toNat = .ok locs) (oserr : Bytes → Bytes) (t : Bytes) :
    (∃ e, (handleRequestT oserr { s with fio := ⟨opened, s.tor⟩ } i b l none st).2 = .ok (.error e) ∧ e.text = t) ↔
    ∃ pre l post f, locs = pre ++ l :: post ∧ files[l.fidx]? = some f ∧ f.localPath ∉ opened ∧
      (∀ l' ∈ pre, ∃ f', files[l'.fidx]? = some f' ∧ f'.localPath ∈ opened) ∧ t = ascii "path [" ++ f.localPath ++ ascii "] does not exist" := by
  obtain ⟨locs', hl', hc⟩ := h.accepted.locs _ hi
  rw [hl] at hl'
  cases hl'
  obtain ⟨-, -, hfl⟩ := h.accepted.np
  have hbase : ∀ k : Nat, (s.tor.flist[k]?).map Entry.base = files[k]? := by
    intro k
    rw [hfl, entriesFrom_get]
    cases files[k]? with
    | none => rfl
    | some f =>
      simp only [Option.map_some]
      congr 1
      unfold entryAt; split
      · rfl
      · split <;> rfl
  have hg := (get_ours h _ hi).mpr ho
  have hms : mayServe { s with fio := ⟨opened, s.tor⟩ } i.toNat = .ok true := by
    show (if s.bf.Complete then Res.ok true else s.bf.Get i.toNat) = _
    rw [hg]; split <;> rfl
  have hlk : PieceLookupT s.tor i.toNat = .ok (.ok locs) := by
    have := lookup_plain s.tor i.toNat
    rw [hl] at this
    revert this
    cases PieceLookupT s.tor i.toNat with
    | ok r =>
      cases r with
      | ok l => intro h; cases h; rfl
      | error e => intro h; cases h
    | err e => intro h; cases h
    | panic => intro h; cases h
    | timeout => intro h; cases h
  have hw : ReadPieceT oserr s.fs ⟨opened, s.tor⟩ i.toNat st.buf = readLoopT oserr s.fs ⟨opened, s.tor⟩ locs 0 st.buf := by
    show (PieceLookupT s.tor i.toNat >>= _) = _
    rw [hlk]
    rfl
  have hreq : (∃ e, (handleRequestT oserr { s with fio := ⟨opened, s.tor⟩ } i b l none st).2 = .ok (.error e) ∧ e.text = t) ↔
      ∃ e, readLoopT oserr s.fs ⟨opened, s.tor⟩ locs 0 st.buf = .ok (.error e) ∧ e.text = t := by
    unfold handleRequestT
    rw [hms]
    simp only [hw]
    cases readLoopT oserr s.fs ⟨opened, s.tor⟩ locs 0 st.buf with
    | ok r =>
      cases r with
      | ok x =>
        obtain ⟨n, buf⟩ := x
        simp only
        cases answer buf i b l <;> simp
      | error e => simp
    | err e => simp
    | panic => simp
    | timeout => simp
  rw [hreq]
  have hloop : ∀ (a b : Nat) (locs : List PieceLocation), Consec (lens files) a locs b → ∀ (off : Nat) (buf : Bytes),
      off + (b - a) ≤ buf.length →
      ((∃ e, readLoopT oserr s.fs ⟨opened, s.tor⟩ locs off buf = .ok (.error e) ∧ e.text = t) ↔
        ∃ pre l post f, locs = pre ++ l :: post ∧ files[l.fidx]? = some f ∧ f.localPath ∉ opened ∧
          (∀ l' ∈ pre, ∃ f', files[l'.fidx]? = some f' ∧ f'.localPath ∈ opened) ∧ t = ascii "path [" ++ f.localPath ++ ascii "] does not exist") := by
    intro a b locs hc
    induction hc with
    | nil a =>
      intro off buf _
      rw [readLoopT]
      constructor
      · rintro ⟨e, he, -⟩; cases he
      · rintro ⟨pre, l, post, f, he, -⟩
        cases pre <;> cases he
    | cons a b k sk r rest e1 e0 e2 hr ih =>
      intro off buf hsum
      have hle := hr.le
      have hk : k < files.length := by simpa [lens] using e0
      obtain ⟨f, hf⟩ : ∃ f, files[k]? = some f := ⟨_, List.getElem?_eq_getElem hk⟩
      have hb := hbase k
      rw [hf] at hb
      cases hfe : s.tor.flist[k]? with
      | none => rw [hfe] at hb; cases hb
      | some e =>
        rw [hfe] at hb
        simp only [Option.map_some, Option.some.injEq] at hb
        subst hb
        rw [readLoopT]
        simp only [hfe]
        rw [if_neg (by omega)]
        by_cases hop : e.base.localPath ∈ opened
        · rw [if_pos hop]
          have hcl : cs.length = files.length := by
            have := congrArg List.length h.stored.1
            simpa [lens] using this
          obtain ⟨c, hck⟩ : ∃ c, cs[k]? = some c := ⟨_, List.getElem?_eq_getElem (by omega)⟩
          have hst := startPos_succ (lens files) k c.length (by rw [← h.stored.1, List.getElem?_map, hck]; rfl)
          rw [h.stored.2 k _ c hf hck]
          simp only [Int.toNat_natCast]
          rw [if_neg (by omega), if_neg (by omega), ih (off + r) _ ?_]
          · constructor
            · rintro ⟨pre, l, post, f, rfl, g1, g2, g3, g4⟩
              refine ⟨_ :: pre, l, post, f, rfl, g1, g2, ?_, g4⟩
              intro l' hl'
              rcases List.mem_cons.mp hl' with rfl | hl'
              · exact ⟨_, hf, hop⟩
              · exact g3 l' hl'
            · rintro ⟨pre, l, post, f, g0, g1, g2, g3, g4⟩
              cases pre with
              | nil =>
                cases g0
                rw [hf] at g1
                cases g1
                exact absurd hop g2
              | cons x pre =>
                cases g0
                exact ⟨pre, l, post, f, rfl, g1, g2, fun l' hl' => g3 l' (List.mem_cons_of_mem _ hl'), g4⟩
          · rw [overwrite_size _ _ _ (by rw [List.length_take, List.length_drop]; omega)]
            omega
        · rw [if_neg hop]
          constructor
          · rintro ⟨x, hx, rfl⟩
            cases hx
            exact ⟨[], _, rest, _, rfl, hf, hop, by simp, rfl⟩
          · rintro ⟨pre, l, post, f, g0, g1, g2, g3, g4⟩
            cases pre with
            | nil =>
              cases g0
              rw [hf] at g1
              cases g1
              exact ⟨_, rfl, g4.symm⟩
            | cons x pre =>
              cases g0
              obtain ⟨f', y1, y2⟩ := g3 _ List.mem_cons_self
              rw [hf] at y1
              cases y1
              exact absurd y2 hop
  refine hloop _ _ locs hc 0 st.buf ?_
  rw [h.buf]
  unfold covered
  have : (i.toNat + 1) * pl = i.toNat * pl + pl := by rw [Nat.add_mul, Nat.one_mul]
  omega

/-- the client of `exRunning` with none of its files open -/
example (oserr : Bytes → Bytes) (ppt : Tracker) (pb : Bitfield) : ∃ s e, (handleRequestT oserr s 1 0 4 none ⟨ppt, pb, [91, 92, 93, 94], []⟩).2 = .ok (.error e) := by
  obtain ⟨s, h, hn, -, -, h1, -⟩ := exRunning
  obtain ⟨locs, hl, hc⟩ := h.accepted.locs 1 (by rw [hn]; decide)
  have hk := C112_not_open (st := ⟨ppt, pb, [91, 92, 93, 94], []⟩) h [] 1 0 4 (by rw [hn]; decide) ((get_ours h 1 (by rw [hn]; decide)).mp h1) locs hl oserr
  cases hc with
  | cons a b k sk r rest e1 e0 e2 hr =>
    have e0' := e0
    rw [lens, List.length_map] at e0'
    obtain ⟨e, he, -⟩ := (hk _).mpr ⟨[], _, rest, _, rfl, List.getElem?_eq_getElem e0', by simp, by simp, rfl⟩
    exact ⟨_, e, he⟩

end Verif.MsgErr
