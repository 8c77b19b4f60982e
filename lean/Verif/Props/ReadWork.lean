import Verif.Model.ReadWork
import Verif.Props.MsgWire
/-
C117: how much is read from the files to answer requests.
-/
set_option autoImplicit false

namespace Verif.ReadWork
open Verif.P2P Verif.Bf Verif.Files Verif.FileIO Verif.PieceTracker Verif.MsgHandler Verif.Layout Verif.Wire

/-! ### the results are the same -/

theorem readLoopN_fst (fs : FS.State) (fio : FileIO) (ls : List PieceLocation) : ∀ off buf, (readLoopN fs fio ls off buf).1 = readLoop fs fio ls off buf := by
  induction ls with
  | nil => intro off buf; rfl
  | cons l ls ih =>
    intro off buf
    rw [readLoopN, readLoop]
    split
    · rfl
    · cases fio.torInfo.flist[l.fidx]? with
      | none => rfl
      | some e =>
        simp only
        split
        · cases fs e.base.localPath with
          | none => rfl
          | some c =>
            simp only
            split
            · rfl
            · split
              · rfl
              · exact ih _ _
        · rfl

theorem readPieceN_fst (fs : FS.State) (fio : FileIO) (i : Int) (buf : Bytes) : (ReadPieceN fs fio i buf).1 = ReadPiece fs fio i buf := by
  unfold ReadPieceN ReadPiece
  cases fio.torInfo.PieceLookup i with
  | ok ls => exact readLoopN_fst fs fio ls 0 buf
  | err e => rfl
  | panic => rfl
  | timeout => rfl

theorem handleRequestN_fst (s : Swarm) (i b l : UInt32) (wok : Bool) (st : St) : (handleRequestN s i b l wok st).1 = handleRequest s i b l wok st := by
  unfold handleRequestN handleRequest
  rw [← readPieceN_fst]
  cases mayServe s i.toNat with
  | ok v =>
    cases v with
    | false => rfl
    | true =>
      simp only
      rcases ReadPieceN s.fs s.fio i.toNat st.buf with ⟨r, n⟩
      cases r with
      | ok v =>
        obtain ⟨k, buf⟩ := v
        simp only
        cases answer buf i b l <;> cases wok <;> rfl
      | _ => rfl
  | _ => rfl

theorem handleOneN_fst (s : Swarm) (me : PH) (wok : Nat → Bool) (m : P2P.Msg) (st : St) : (handleOneN s me wok m st).1 = handleOne s me wok m st := by
  cases m with
  | request i b l => exact handleRequestN_fst s i b l _ st
  | _ => rfl

theorem handleAllN_fst (s : Swarm) (me : PH) (wok : Nat → Bool) (ms : List P2P.Msg) : ∀ st, (handleAllN s me wok ms st).1 = handleAll s me wok ms st := by
  induction ms with
  | nil => intro st; rfl
  | cons m ms ih =>
    intro st
    rw [handleAllN, handleAll, ← handleOneN_fst]
    rcases handleOneN s me wok m st with ⟨⟨st', r⟩, n⟩
    cases r with
    | ok _ => exact ih st'
    | _ => rfl

/-- C117: the handler that counts does what the handler does. -/
theorem C117_same (fuel : Nat) (s : Swarm) (me : PH) (wok : Nat → Bool) (buf : Bytes) (st : St) :
    (handleMessageN fuel s me wok buf st).1 = handleMessage fuel s me wok buf st := by
  unfold handleMessageN handleMessage
  cases DecodeAll fuel buf with
  | ok dar => exact handleAllN_fst s me wok dar.msgs st
  | _ => rfl

/-! ### the number of bytes -/

theorem readLoopN_ok (fs : FS.State) (fio : FileIO) (ls : List PieceLocation) : ∀ off buf n buf', (readLoopN fs fio ls off buf).1 = .ok (n, buf') →
    n = off + (readLoopN fs fio ls off buf).2 := by
  induction ls with
  | nil => intro off buf n buf' h; cases h; rfl
  | cons l ls ih =>
    intro off buf n buf' h
    rw [readLoopN] at h ⊢
    by_cases h1 : l.loc.readAmnt < 0 ∨ (off : Int) + l.loc.readAmnt > buf.length
    · rw [if_pos h1] at h; cases h
    · rw [if_neg h1] at h ⊢
      cases hf : fio.torInfo.flist[l.fidx]? with
      | none => rw [hf] at h; cases h
      | some e =>
        rw [hf] at h
        simp only at h ⊢
        by_cases h2 : e.base.localPath ∈ fio.opened
        · rw [if_pos h2] at h ⊢
          cases hc : fs e.base.localPath with
          | none => rw [hc] at h; cases h
          | some c =>
            rw [hc] at h
            simp only at h ⊢
            by_cases h3 : l.loc.seekAmnt < 0
            · rw [if_pos h3] at h; cases h
            · rw [if_neg h3] at h ⊢
              by_cases h4 : c.length < l.loc.seekAmnt.toNat + l.loc.readAmnt.toNat ∧ 0 < l.loc.readAmnt
              · rw [if_pos h4] at h; cases h
              · rw [if_neg h4] at h ⊢
                have := ih _ _ _ _ h
                rw [this]
                have e : ((c.drop l.loc.seekAmnt.toNat).take l.loc.readAmnt.toNat).length = l.loc.readAmnt.toNat := by
                  rw [List.length_take, List.length_drop]
                  by_cases h0 : 0 < l.loc.readAmnt
                  · omega
                  · have : l.loc.readAmnt.toNat = 0 := by omega
                    omega
                simp only [e]
                omega
        · rw [if_neg h2] at h; cases h

theorem overwrite_length (buf : Bytes) (off : Nat) (d : Bytes) (h : off + d.length ≤ buf.length) : (overwrite buf off d).length = buf.length := by
  unfold overwrite
  simp only [List.length_append, List.length_take, List.length_drop]
  omega

theorem readLoopN_le (fs : FS.State) (fio : FileIO) (ls : List PieceLocation) : ∀ off buf, off ≤ buf.length →
    (readLoopN fs fio ls off buf).2 + off ≤ buf.length ∧ ∀ n buf', (readLoopN fs fio ls off buf).1 = .ok (n, buf') → buf'.length = buf.length := by
  induction ls with
  | nil => intro off buf h; exact ⟨by rw [readLoopN]; simpa using h, fun n b h => by cases h; rfl⟩
  | cons l ls ih =>
    intro off buf h
    rw [readLoopN]
    split
    · exact ⟨by simpa using h, fun _ _ h => (by cases h)⟩
    · split
      · exact ⟨by simpa using h, fun _ _ h => (by cases h)⟩
      · split
        · split
          · exact ⟨by simpa using h, fun _ _ h => (by cases h)⟩
          · split
            · exact ⟨by simpa using h, fun _ _ h => (by cases h)⟩
            · rename_i c _ _
              have e : ((c.drop l.loc.seekAmnt.toNat).take l.loc.readAmnt.toNat).length ≤ l.loc.readAmnt.toNat := by
                rw [List.length_take]; omega
              simp only
              split
              · exact ⟨by simp only; omega, fun _ _ h => (by cases h)⟩
              · have hl := overwrite_length buf off ((c.drop l.loc.seekAmnt.toNat).take l.loc.readAmnt.toNat) (by omega)
                obtain ⟨h1, h2⟩ := ih (off + l.loc.readAmnt.toNat) (overwrite buf off ((c.drop l.loc.seekAmnt.toNat).take l.loc.readAmnt.toNat)) (by omega)
                rw [hl] at h1 h2
                exact ⟨by simp only; omega, h2⟩
        · exact ⟨by simpa using h, fun _ _ h => (by cases h)⟩

theorem readPieceN_le (fs : FS.State) (fio : FileIO) (i : Int) (buf : Bytes) :
    (ReadPieceN fs fio i buf).2 ≤ buf.length ∧ ∀ n buf', (ReadPieceN fs fio i buf).1 = .ok (n, buf') → buf'.length = buf.length := by
  unfold ReadPieceN
  cases fio.torInfo.PieceLookup i with
  | ok ls =>
    have := readLoopN_le fs fio ls 0 buf (Nat.zero_le _)
    exact ⟨by simpa using this.1, this.2⟩
  | _ => exact ⟨Nat.zero_le _, fun _ _ h => (by cases h)⟩

/-- is the message a request? -/
def isRequest : P2P.Msg → Bool
  | .request .. => true
  | _ => false

theorem handleOneN_le (s : Swarm) (me : PH) (wok : Nat → Bool) (m : P2P.Msg) (st : St) :
    (handleOneN s me wok m st).2 ≤ (if isRequest m then st.buf.length else 0) ∧ (handleOneN s me wok m st).1.1.buf.length = st.buf.length := by
  cases m with
  | request i b l =>
    simp only [handleOneN, isRequest, if_true]
    unfold handleRequestN
    cases mayServe s i.toNat with
    | ok v =>
      cases v with
      | false => exact ⟨Nat.zero_le _, rfl⟩
      | true =>
        simp only
        obtain ⟨h1, h2⟩ := readPieceN_le s.fs s.fio i.toNat st.buf
        rcases h : ReadPieceN s.fs s.fio i.toNat st.buf with ⟨r, n⟩
        rw [h] at h1 h2
        cases r with
        | ok v =>
          obtain ⟨k, buf⟩ := v
          have := h2 k buf rfl
          simp only
          cases answer buf i b l <;> cases wok st.out.length <;> exact ⟨h1, this⟩
        | _ => exact ⟨h1, rfl⟩
    | _ => exact ⟨Nat.zero_le _, rfl⟩
  | bitfield n b =>
    refine ⟨Nat.zero_le _, ?_⟩
    show (handleBitfield s me b st).1.buf.length = _
    unfold handleBitfield
    repeat' split
    all_goals rfl
  | _ => exact ⟨Nat.zero_le _, rfl⟩

/-- C117: no message makes the client read more than its buffer holds, which is one piece; only requests make it read. -/
theorem C117_per_request (s : Swarm) (me : PH) (wok : Nat → Bool) (m : P2P.Msg) (st : St) :
    (handleOneN s me wok m st).2 ≤ st.buf.length ∧ (isRequest m = false → (handleOneN s me wok m st).2 = 0) := by
  have := (handleOneN_le s me wok m st).1
  cases h : isRequest m <;> simp [h] at this ⊢ <;> omega

theorem handleAllN_le (s : Swarm) (me : PH) (wok : Nat → Bool) (ms : List P2P.Msg) : ∀ st,
    (handleAllN s me wok ms st).2 ≤ (ms.filter isRequest).length * st.buf.length := by
  induction ms with
  | nil => intro st; exact Nat.zero_le _
  | cons m ms ih =>
    intro st
    obtain ⟨h1, h2⟩ := handleOneN_le s me wok m st
    rw [handleAllN]
    rcases h : handleOneN s me wok m st with ⟨⟨st', r⟩, n⟩
    rw [h] at h1 h2
    have := ih st'
    simp only at h1 h2
    have hl : n + (ms.filter isRequest).length * st.buf.length ≤ ((m :: ms).filter isRequest).length * st.buf.length := by
      rw [List.filter_cons]
      split at h1
      · rename_i hm; rw [if_pos hm, List.length_cons, Nat.add_mul]; omega
      · rename_i hm; rw [if_neg hm]; omega
    rw [h2] at this
    cases r with
    | ok _ => simp only; omega
    | _ => simp only; omega

theorem requests_le {fuel : Nat} {data : Bytes} {r : DecodeAllResult} (h : DecodeAll fuel data = .ok r) : 17 * (r.msgs.filter isRequest).length ≤ data.length := by
  obtain ⟨new, h1, -, h3, h4⟩ := P2P.loop_sound fuel data [] 0 r h
  rw [List.nil_append] at h1
  rw [h1]
  have hl := h3.length_le
  suffices 17 * (new.filter isRequest).length ≤ (Wire.stream (new.map P2P.Msg.view)).length by omega
  clear h1 h3 hl
  induction new with
  | nil => simp
  | cons m ms ih =>
    have i1 := ih fun x hx => h4 x (by simp [hx])
    simp only [Wire.stream, List.map_cons, List.flatten_cons, List.length_append, List.filter_cons] at i1 ⊢
    split
    · rename_i hm
      have : (wire m.view).length = 17 := by
        cases m with
        | request i b l => rfl
        | _ => cases hm
      simp only [List.length_cons]
      omega
    · omega

/-- C117: for every 17 bytes received no more than a piece is read from the files: whatever the bytes are, whatever is on disk, and whichever pieces we have. -/
theorem C117_message (fuel : Nat) (s : Swarm) (me : PH) (wok : Nat → Bool) (buf : Bytes) (st : St) :
    (handleMessageN fuel s me wok buf st).2 ≤ buf.length / 17 * st.buf.length := by
  unfold handleMessageN
  cases h : DecodeAll fuel buf with
  | ok r =>
    have h1 := requests_le h
    have h2 := handleAllN_le s me wok r.msgs st
    exact Nat.le_trans h2 (Nat.mul_le_mul_right _ (by omega))
  | _ => exact Nat.zero_le _

/-- C117, exact: a request for a piece we have takes reading the whole piece, wherever the block is and however long it is, also if the program stops afterwards
because the range is not in the piece; any other request takes reading nothing. -/
theorem C117_exact {pl : Nat} {hashes : Bytes} {files : List EntryBase} {cs : List Bytes} {s : Swarm} {st : St}
    (h : Running pl hashes files cs s st.buf) (i b l : UInt32) (wok : Bool) :
    (handleRequestN s i b l wok st).2 =
      if i.toNat < s.tor.numPieces ∧ s.bf.Get i.toNat = .ok true then (pieceOf cs.flatten pl i.toNat).length else 0 := by
  unfold handleRequestN
  by_cases hi : i.toNat < s.tor.numPieces
  · by_cases hg : s.bf.Get i.toNat = .ok true
    · rw [if_pos ⟨hi, hg⟩]
      have hms : mayServe s i.toNat = .ok true := by
        unfold mayServe; rw [hg]; split <;> rfl
      have hrd := C26_read pl hashes files s.tor h.accepted s.fs cs h.stored i.toNat hi st.buf (by rw [pieceOf_length, h.buf]; omega)
      rw [← h.fio, ← readPieceN_fst] at hrd
      have hn : (ReadPieceN s.fs s.fio i.toNat st.buf).2 = (pieceOf cs.flatten pl i.toNat).length := by
        unfold ReadPieceN at hrd ⊢
        cases hp : s.fio.torInfo.PieceLookup i.toNat with
        | ok ls =>
          rw [hp] at hrd
          have := readLoopN_ok _ _ _ _ _ _ _ hrd
          simp only
          omega
        | _ => rw [hp] at hrd; cases hrd
      rw [hms]
      simp only
      rcases hx : ReadPieceN s.fs s.fio i.toNat st.buf with ⟨r, n⟩
      rw [hx] at hrd hn
      simp only at hrd hn
      subst hrd
      simp only
      cases answer _ i b l <;> cases wok <;> exact hn
    · rw [if_neg (by simp [hg])]
      have hc : s.bf.Complete = false := by
        cases hc : s.bf.Complete with
        | false => rfl
        | true => exact absurd (complete_get h _ hi hc) hg
      have hms : mayServe s i.toNat ≠ .ok true := by
        unfold mayServe
        rw [hc]
        exact hg
      cases hm : mayServe s i.toNat with
      | ok v => cases v with
        | false => rfl
        | true => exact absurd hm hms
      | _ => rfl
  · rw [if_neg (by simp [hi])]
    have hrd : ReadPieceN s.fs s.fio i.toNat st.buf = (.err .other, 0) := by
      unfold ReadPieceN
      rw [h.fio]
      have := C23_out_of_range s.tor i.toNat (.inr (by omega))
      rw [show (openedAll s.tor).torInfo = s.tor from rfl, this]
    cases mayServe s i.toNat with
    | ok v => cases v with
      | false => rfl
      | true => simp only [hrd]
    | _ => rfl

/-- the bytes that a message should make the client read: the piece, for a request for one that we have -/
def due (pl : Nat) (cs : List Bytes) (s : Swarm) : P2P.Msg → Nat
  | .request i _ _ => if i.toNat < s.tor.numPieces ∧ s.bf.Get i.toNat = .ok true then (pieceOf cs.flatten pl i.toNat).length else 0
  | _ => 0

theorem running_buf {pl : Nat} {hashes : Bytes} {files : List EntryBase} {cs : List Bytes} {s : Swarm} {b b' : Bytes}
    (h : Running pl hashes files cs s b) (e : b'.length = b.length) : Running pl hashes files cs s b' :=
  ⟨h.accepted, h.small, h.fio, h.stored, h.bf, h.nbits, by rw [e, h.buf]⟩

/-- C117, exact: while messages are handled without an error, what is read is the sum of the pieces asked for, each time anew. -/
theorem C117_total {pl : Nat} {hashes : Bytes} {files : List EntryBase} {cs : List Bytes} {s : Swarm} (me : PH) (wok : Nat → Bool) (ms : List P2P.Msg) :
    ∀ {st : St} (_ : Running pl hashes files cs s st.buf) (_ : (handleAll s me wok ms st).2 = .ok ()),
      (handleAllN s me wok ms st).2 = (ms.map (due pl cs s)).sum := by
  induction ms with
  | nil => intro st _ _; rfl
  | cons m ms ih =>
    intro st h hok
    have h1 : (handleOneN s me wok m st).2 = due pl cs s m := by
      cases m with
      | request i b l => exact C117_exact h i b l _
      | _ => rfl
    have h2 := (handleOneN_le s me wok m st).2
    rw [handleAll, ← handleOneN_fst] at hok
    rw [handleAllN]
    rcases hx : handleOneN s me wok m st with ⟨⟨st', r⟩, n⟩
    rw [hx] at h1 h2 hok
    cases r with
    | ok _ =>
      simp only at h1 h2 hok ⊢
      rw [ih (running_buf h h2) hok, h1, List.map_cons, List.sum_cons]
    | err e => cases hok
    | panic => cases hok
    | timeout => cases hok

/-- C117, refuted: for every torrent, whoever asks `k` times for no bytes at all of a piece we have is answered `k` times, and each time the whole piece is read. -/
theorem C117_refuted {pl : Nat} {hashes : Bytes} {files : List EntryBase} {cs : List Bytes} {s : Swarm} {st : St}
    (h : Running pl hashes files cs s st.buf) (i : UInt32) (hi : i.toNat < s.tor.numPieces)
    (hg : s.bf.Get i.toNat = .ok true) (me : PH) (k fuel : Nat) (hk : 17 * k < 2 ^ 32) (hf : k < fuel) :
    (handleMessageN fuel s me (fun _ => true) (stream (List.replicate k (.request i 0 0))) st).2 = k * (pieceOf cs.flatten pl i.toNat).length ∧
    (handleMessageN fuel s me (fun _ => true) (stream (List.replicate k (.request i 0 0))) st).1.2 = .ok () ∧
    (handleMessageN fuel s me (fun _ => true) (stream (List.replicate k (.request i 0 0))) st).1.1.out =
      st.out ++ List.replicate k (wire (.piece i 0 [])) := by
  have hlen : ∀ k, (stream (List.replicate k (.request i 0 0))).length = 17 * k := by
    intro k
    induction k with
    | zero => rfl
    | succ k ih => rw [List.replicate_succ, stream_cons, List.length_append, ih]; have : (wire (.request i 0 0)).length = 17 := rfl; omega
  have hd : DecodeAll fuel (stream (List.replicate k (.request i 0 0))) =
      .ok ⟨List.replicate k (.request i 0 0), (stream (List.replicate k (.request i 0 0))).length⟩ := by
    obtain ⟨j, rfl⟩ : ∃ j, fuel = k + (j + 1) := ⟨fuel - k - 1, by omega⟩
    have := loop_stream (List.replicate k (.request i 0 0)) (j + 1) [] (fun w hw => by rw [List.eq_of_mem_replicate hw]; trivial)
      (by rw [List.append_nil, hlen]; exact hk) [] 0
    rw [List.append_nil, List.length_replicate] at this
    rw [DecodeAll, this, loop_nil]
    simp [received]
  have hall : ∀ (k : Nat) (st : St), Running pl hashes files cs s st.buf →
      (handleAll s me (fun _ => true) (List.replicate k (.request i 0 0)) st).2 = .ok () ∧
      (handleAll s me (fun _ => true) (List.replicate k (.request i 0 0)) st).1.out = st.out ++ List.replicate k (wire (.piece i 0 [])) := by
    intro k
    induction k with
    | zero => intro st _; simp [handleAll]
    | succ k ih =>
      intro st h
      have ha := request_answered h i 0 0 hi hg (Nat.zero_le _)
      rw [List.replicate_succ, handleAll]
      simp only [handleOne, ha]
      have hr : Running pl hashes files cs s (filled pl cs i.toNat st.buf) := running_buf h (by rw [filled_length _ _ _ _ h.buf, h.buf])
      obtain ⟨h1, h2⟩ := ih { st with buf := filled pl cs i.toNat st.buf, out := st.out ++
        [wire (.piece i 0 (range cs.flatten (i.toNat * pl + (0 : UInt32).toNat) (0 : UInt32).toNat))] } hr
      refine ⟨h1, ?_⟩
      rw [h2]
      simp [range, List.replicate_succ]
  obtain ⟨h1, h2⟩ := hall k st h
  have h3 := C117_total me (fun _ => true) _ h h1
  unfold handleMessageN
  rw [hd]
  simp only [handleAllN_fst, h1, h2, h3, and_true]
  simp [due, hi, hg]

/-- the client of `exRunning` has piece 1, of four bytes; three requests for nothing make it read twelve bytes -/
example (me : PH) (t : Tracker) (bf : Bitfield) : ∃ s, Running 4 exHashes exFiles [[1, 2, 3, 4, 5], [], [6, 7, 8, 9, 10, 11, 12, 13]] s [91, 92, 93, 94] ∧
    (handleMessageN 9 s me (fun _ => true) (stream (List.replicate 3 (.request 1 0 0))) ⟨t, bf, [91, 92, 93, 94], []⟩).2 = 12 := by
  obtain ⟨s, h, hn, -, -, h1, -⟩ := exRunning
  exact ⟨s, h, (C117_refuted (st := ⟨t, bf, [91, 92, 93, 94], []⟩) h 1 (by rw [hn]; decide) h1 me 3 9 (by decide) (by decide)).1⟩

/-- piece 3 has one byte, piece 0 is not ours: five bytes are read for three requests and a keep-alive -/
example : ∃ s, Running 4 exHashes exFiles [[1, 2, 3, 4, 5], [], [6, 7, 8, 9, 10, 11, 12, 13]] s [91, 92, 93, 94] ∧
    ([.request 0 0 4, .keepAlive, .request 1 2 1, .request 3 0 1].map (due 4 [[1, 2, 3, 4, 5], [], [6, 7, 8, 9, 10, 11, 12, 13]] s)).sum = 5 := by
  obtain ⟨s, h, hn, -, -, h1, h3, h0⟩ := exRunning
  refine ⟨s, h, ?_⟩
  have e0 : s.bf.Get (UInt32.toNat 0) = .ok false := h0
  have e1 : s.bf.Get (UInt32.toNat 1) = .ok true := h1
  have e3 : s.bf.Get (UInt32.toNat 3) = .ok true := h3
  simp only [List.map_cons, List.map_nil, due, e0, e1, e3, hn]
  decide

/-- the bound is reached: three requests, 51 bytes, 3 · 4 bytes read -/
example : (stream (List.replicate 3 (.request 1 0 0))).length / 17 * 4 = 12 := by decide

end Verif.ReadWork
