import Verif.Model.Memory
import Verif.Lemmas.Memory
import Verif.Props.Places
import Verif.Props.Saved
import Verif.Props.Tracker
import Verif.Props.P2P
/-
**C91**: what others send takes memory in proportion to its size.
-/
set_option autoImplicit false

namespace Verif.Memory
open Verif.Bencode Verif.Path Verif.Dirs Verif.Files Verif.FileIO Verif.Torrent Verif.Layout Verif.Info

/-! ### values -/

/-- **C91**, values: what is decoded has no more bytes, numbers, strings, lists and dictionaries than the document has bytes (for a document that
is one string this needs that nothing follows the data in memory, compare C05). -/
theorem C91_value (data spare : Bytes) (v : Value) (h : Decode data spare = .ok v) (hs : spare = [] ∨ ∀ s, v ≠ .str s) :
    size v ≤ data.length := by
  have h0 : Decode data [] = .ok v := by
    rcases hs with rfl | hs
    · exact h
    · obtain ⟨c, r, rfl, hc⟩ := decode_nonstr_head h hs
      rw [decode_spare_eq c r spare hc] at h
      exact h
  obtain ⟨r, hr⟩ := (decode_ok_iff _ _ _).mp h0
  have := (decode_size _).1 _ _ _ hr
  omega

example : Decode (ascii "l3:abci7ee") [] = .ok (.list [.str (ascii "abc"), .int64 7]) ∧
    size (.list [.str (ascii "abc"), .int64 7]) = 6 := ⟨by decide +kernel, rfl⟩

/-! ### messages -/

/-- the bytes a message keeps -/
def buffer : P2P.Msg → Nat
  | .bitfield _ b => b.data5.length
  | .piece _ _ _ block => block.length
  | _ => 0

theorem wire_four (w : Wire.Msg) : 4 ≤ (Wire.wire w).length := by
  unfold Wire.wire
  have : (Wire.be32 (Wire.body w).length).length = 4 := rfl
  rw [List.length_append]; omega

theorem buffer_wire (w : Wire.Msg) : buffer (P2P.received w) ≤ (Wire.wire w).length := by
  cases w with
  | bitfield p => simp [P2P.received, P2P.rxBitfield, buffer, Wire.wire, Wire.body, Wire.be32]
  | piece i b blk => simp only [P2P.received, buffer, Wire.wire, Wire.body, List.length_append, List.length_cons]; omega
  | _ => exact Nat.zero_le _

/-- **C91**, messages: every message decoded took at least four of the received bytes, and the bitfields and blocks kept are not more than what was
received. -/
theorem C91_messages (fuel : Nat) (data : Bytes) (r : P2P.DecodeAllResult) (h : P2P.DecodeAll fuel data = .ok r) :
    4 * r.msgs.length ≤ data.length ∧ (r.msgs.map buffer).sum ≤ data.length := by
  obtain ⟨new, h1, -, h3, h4⟩ := P2P.loop_sound fuel data [] 0 r h
  rw [List.nil_append] at h1
  rw [h1]
  have hl := h3.length_le
  clear h h1 h3
  have : 4 * new.length ≤ (Wire.stream (new.map P2P.Msg.view)).length ∧ (new.map buffer).sum ≤ (Wire.stream (new.map P2P.Msg.view)).length := by
    clear hl
    induction new with
    | nil => simp [Wire.stream]
    | cons m ms ih =>
      obtain ⟨i1, i2⟩ := ih fun x hx => h4 x (by simp [hx])
      have hm := (h4 m (by simp)).2
      have hb := buffer_wire m.view
      have h4' := wire_four m.view
      rw [← hm] at hb
      simp only [Wire.stream, List.map_cons, List.flatten_cons, List.length_append, List.length_cons, List.sum_cons] at i1 i2 ⊢
      omega
  omega

/-! ### the tracker's response -/

theorem compactLoop_len (v6 : Peer.IP → Bytes) (s : Bytes) : (Tracker.compactLoop v6 s).length ≤ s.length := by
  fun_induction Tracker.compactLoop v6 s <;> simp_all <;> omega

theorem listPeers_len (v6 : Peer.IP → Bytes) (parseIP : Bytes → Peer.IP) (vs : List Value) (ps : List Peer.Info)
    (h : Tracker.listPeers v6 parseIP vs = .ok ps) : ps.length = vs.length := by
  induction vs generalizing ps with
  | nil => cases h; rfl
  | cons v vs ih =>
    rw [Tracker.listPeers] at h
    obtain ⟨p, -, h⟩ := Res.bind_eq_ok.mp h
    obtain ⟨qs, h2, h⟩ := Res.bind_eq_ok.mp h
    cases h
    simp [ih qs h2]

theorem getPeers_len {v6 : Peer.IP → Bytes} {parseIP : Bytes → Peer.IP} {dict : Dict} {ps : List Peer.Info}
    (h : Tracker.getPeers v6 parseIP dict = .ok ps) : ps.length ≤ sizese dict := by
  unfold Tracker.getPeers at h
  split at h
  · rename_i s hs
    have hl := sizese_lookup (getString_lookup hs)
    unfold Tracker.stringPeers at h
    split at h
    · cases h
    · cases h
      have := compactLoop_len v6 s
      simp only [size] at hl
      omega
  · obtain ⟨l, hl, h⟩ := Res.bind_eq_ok.mp h
    have hz := sizese_lookup (getList_lookup hl)
    have := listPeers_len v6 parseIP l ps h
    have := sizes_length l
    simp only [size] at hz
    omega
  · cases h
  · cases h

/-- **C91**, the tracker: a response has no more peers than bytes. -/
theorem C91_peers (v6 : Peer.IP → Bytes) (parseIP : Bytes → Peer.IP) (body spare : Bytes) (resp : Tracker.Response)
    (h : Tracker.doRequest v6 parseIP (some body) spare = .ok resp) : resp.peers.length ≤ body.length := by
  unfold Tracker.doRequest at h
  obtain ⟨v, h1, h⟩ := Res.bind_eq_ok.mp h
  cases v with
  | dict d =>
    have hv := C91_value _ _ _ h1 (.inr (by simp))
    simp only [size] at hv
    simp only at h
    unfold Tracker.newResponse at h
    split at h
    · cases h
    · obtain ⟨x1, -, h⟩ := Res.bind_eq_ok.mp h
      obtain ⟨x2, -, h⟩ := Res.bind_eq_ok.mp h
      obtain ⟨x3, -, h⟩ := Res.bind_eq_ok.mp h
      obtain ⟨ps, h2, h⟩ := Res.bind_eq_ok.mp h
      cases h
      have := getPeers_len h2
      simp only
      omega
    · cases h
    · cases h
  | _ => cases h

/-! ### metadata -/

theorem pathLoop_len (vs : List Value) (strb r : Bytes) (h : pathLoop vs strb = .ok r) : r.length ≤ strb.length + sizes vs := by
  induction vs generalizing strb with
  | nil => cases h; simp
  | cons v vs ih =>
    cases v with
    | str s =>
      rw [pathLoop] at h
      have := ih _ h
      simp only [List.length_append, List.length_cons, List.length_nil, sizes, size] at this ⊢
      omega
    | _ => cases h

theorem benEntry_len {v : Value} {e : EntryBase} (h : benEntry v = .ok e) : e.torPath.length + 1 ≤ size v := by
  cases v with
  | dict d =>
    unfold benEntry at h
    obtain ⟨l, -, h⟩ := Res.bind_eq_ok.mp h
    obtain ⟨vs, h2, h⟩ := Res.bind_eq_ok.mp h
    obtain ⟨strb, h3, h⟩ := Res.bind_eq_ok.mp h
    split at h
    · cases h
    · cases h
      have := pathLoop_len _ _ _ h3
      have hz := sizese_lookup (getList_lookup h2)
      simp only [size, MakeFileEntry, List.length_take, List.length_nil] at *
      omega
  | _ => cases h

theorem fromBenList_len (vs : List Value) (es : List EntryBase) (h : FromBenList vs = .ok es) :
    bytes (es.map EntryBase.torPath) + es.length ≤ sizes vs := by
  induction vs generalizing es with
  | nil => cases h; simp [bytes]
  | cons v vs ih =>
    rw [FromBenList] at h
    obtain ⟨e, h1, h⟩ := Res.bind_eq_ok.mp h
    obtain ⟨es', h2, h⟩ := Res.bind_eq_ok.mp h
    cases h
    have := ih _ h2
    have := benEntry_len h1
    simp only [List.map_cons, bytes_cons, List.length_cons, sizes]
    omega

/-- the number of locations in a piece map -/
def locations (pm : List (List PieceLocation)) : Nat := (pm.map List.length).sum

theorem locations_set (pm : List (List PieceLocation)) (i : Nat) (locs : List PieceLocation) (l : PieceLocation) (h : pm[i]? = some locs) :
    locations (pm.set i (locs ++ [l])) = locations pm + 1 := by
  induction pm generalizing i with
  | nil => cases h
  | cons x xs ih =>
    cases i with
    | zero =>
      simp only [List.getElem?_cons_zero, Option.some.injEq] at h
      subst h
      simp [locations]; omega
    | succ i =>
      have := ih i (by simpa using h)
      simp only [locations, List.set_cons_succ, List.map_cons, List.sum_cons] at this ⊢
      omega

theorem pieceMapInner_len (fuel fidx : Nat) (fe : Entry) (pl : Int) (st st' : PMState) (h : pieceMapInner fuel fidx fe pl st = .ok st')
    (n k : Nat) (h0 : 0 ≤ st.pieceIdx) (hn : st.pieceIdx ≤ n) (hl : st.pm.length = n) (hk : (locations st.pm : Int) ≤ st.pieceIdx + k) :
    0 ≤ st'.pieceIdx ∧ st'.pieceIdx ≤ n ∧ st'.pm.length = n ∧ (locations st'.pm : Int) ≤ st'.pieceIdx + (k + 1 : Nat) := by
  induction fuel generalizing st with
  | zero => cases h; refine ⟨h0, hn, hl, by omega⟩
  | succ fuel ih =>
    rw [pieceMapInner] at h
    split at h
    · rename_i pinfo _
      split at h
      · cases h
      · split at h
        · cases h
        · rename_i locs hlocs
          have hlt : st.pieceIdx.toNat < st.pm.length := (List.getElem?_eq_some_iff.mp hlocs).1
          split at h
          · refine ih _ h ?_ ?_ ?_ ?_
            · simp only; omega
            · simp only; omega
            · simpa using hl
            · simp only
              rw [locations_set _ _ _ _ hlocs]
              omega
          · cases h
            refine ⟨h0, hn, by simpa using hl, ?_⟩
            simp only
            rw [locations_set _ _ _ _ hlocs]
            omega
    · cases h; refine ⟨h0, hn, hl, by omega⟩

theorem pieceMapLoop_len (npieces pl : Int) (fidx : Nat) (fl : List Entry) (st st' : PMState) (h : pieceMapLoop npieces pl fidx fl st = .ok st')
    (n k : Nat) (h0 : 0 ≤ st.pieceIdx) (hn : st.pieceIdx ≤ n) (hl : st.pm.length = n) (hk : (locations st.pm : Int) ≤ st.pieceIdx + k) :
    (locations st'.pm : Int) ≤ n + (k + fl.length : Nat) ∧ st'.pm.length = n := by
  induction fl generalizing fidx st k with
  | nil => rw [pieceMapLoop] at h; cases h; exact ⟨by simp only [List.length_nil]; omega, hl⟩
  | cons e es ih =>
    rw [pieceMapLoop] at h
    split at h
    · cases h; exact ⟨by simp only [List.length_cons]; omega, hl⟩
    · obtain ⟨st1, h1, h⟩ := Res.bind_eq_ok.mp h
      obtain ⟨a, b, c, d⟩ := pieceMapInner_len _ _ _ _ _ _ h1 n k h0 hn hl hk
      have := ih (fidx + 1) st1 h (k + 1) a b c d
      rw [List.length_cons]
      refine ⟨by omega, this.2⟩

theorem newTorInfo_pm {name : Bytes} {pl : Int} {hashes : Bytes} {files : List EntryBase} {ti : TorInfo} (h : NewTorInfo name pl hashes files = .ok ti) :
    20 * ti.numPieces = hashes.length ∧ ti.pm.length = ti.numPieces ∧ locations ti.pm ≤ ti.numPieces + files.length := by
  have hfl := (newTorInfo_fields h).2.2.2.2.2
  unfold NewTorInfo at h
  split at h
  · cases h
  · rename_i h20
    obtain ⟨fl, -, h⟩ := Res.bind_eq_ok.mp h
    obtain ⟨pm, h2, h⟩ := Res.bind_eq_ok.mp h
    cases h
    simp only at hfl ⊢
    unfold MakePieceMap at h2
    obtain ⟨st, h3, h2⟩ := Res.bind_eq_ok.mp h2
    split at h2
    · cases h2
    · cases h2
      have := pieceMapLoop_len _ _ _ _ _ _ h3 (hashes.length / 20) 0 (Int.le_refl _) (by simp only; omega) (by simp) (by simp [locations])
      have hlen := congrArg List.length hfl
      rw [List.length_map] at hlen
      refine ⟨by omega, this.2, by omega⟩

/-- the entries of an info dictionary -/
theorem entriesOf_len {d : Dict} {name wd : Bytes} {fes : List EntryBase} (h : entriesOf d name wd = .ok fes) (hn : name.length + 1 ≤ sizese d) :
    bytes (fes.map EntryBase.torPath) + fes.length ≤ sizese d ∧
      ∀ e ∈ fes, e.localPath.length ≤ wd.length + name.length + e.torPath.length + 2 := by
  unfold entriesOf at h
  split at h
  · cases h
    refine ⟨by simpa [bytes, MakeFileEntry, EntryBase.SetLocalPath] using hn, ?_⟩
    intro e he
    rw [List.mem_singleton] at he
    subst he
    have := join_len wd name
    simp only [MakeFileEntry, EntryBase.SetLocalPath]
    omega
  · split at h
    · rename_i fs hfs
      obtain ⟨es, h1, h⟩ := Res.bind_eq_ok.mp h
      cases h
      have := fromBenList_len _ _ h1
      have hz := sizese_lookup (getList_lookup hfs)
      simp only [size] at hz
      refine ⟨?_, ?_⟩
      · rw [List.map_map, List.length_map]
        have he : (EntryBase.torPath ∘ fun fe : EntryBase => fe.SetLocalPath (Join (Join wd name) fe.torPath)) = EntryBase.torPath := rfl
        rw [he]; omega
      · intro e he
        obtain ⟨x, -, rfl⟩ := List.mem_map.mp he
        have h1 := join_len (Join wd name) x.torPath
        have h2 := join_len wd name
        simp only [EntryBase.SetLocalPath]
        omega
    · cases h
    · cases h
    · cases h
  · cases h
  · cases h

/-- **C91**, metadata: what is kept of a torrent file of `n` bytes, except for the paths of its files on the disk, is at most `n` bytes of text each for the
announce URL, the name, the hashes and the paths in the torrent; at most `n / 20` pieces, at most `n` files, and a location of a piece for every file
and every piece at most. -/
theorem C91_torrent (H : Bytes → Bytes) (data spare wd : Bytes) (t : Torrent) (h : FromTorrentFile H (some data) spare wd = .ok t) :
    t.announce.length ≤ data.length ∧ t.info.name.length ≤ data.length ∧ t.info.hashes.length ≤ data.length ∧
    20 * t.info.numPieces ≤ data.length ∧ bytes (t.info.flist.map fun e => e.base.torPath) + t.info.flist.length ≤ data.length ∧
    t.info.pm.length = t.info.numPieces ∧ locations t.info.pm ≤ t.info.numPieces + t.info.flist.length ∧
    ∀ e ∈ t.info.flist, e.base.localPath.length ≤ wd.length + t.info.name.length + e.base.torPath.length + 2 := by
  unfold FromTorrentFile at h
  obtain ⟨v, h1, h⟩ := Res.bind_eq_ok.mp h
  cases v with
  | dict d =>
    have hv := C91_value _ _ _ h1 (.inr (by simp))
    simp only at h
    obtain ⟨an, h2, h⟩ := Res.bind_eq_ok.mp h
    obtain ⟨inf, h3, h⟩ := Res.bind_eq_ok.mp h
    obtain ⟨ti, h4, h⟩ := Res.bind_eq_ok.mp h
    cases h
    have a := sizese_lookup (getString_lookup h2)
    have b := sizese_lookup (getDict_lookup h3)
    obtain ⟨n, p, ps, fes, k1, -, k3, k4, k5⟩ := fromDict_ok h4
    obtain ⟨g1, -, g3, -, -, g6⟩ := newTorInfo_fields k5
    have c := sizese_lookup k1
    have e := sizese_lookup k3
    simp only [size] at hv a b c e
    obtain ⟨m1, m2⟩ := entriesOf_len k4 (by omega)
    obtain ⟨q1, q2, q3⟩ := newTorInfo_pm k5
    have hlen : ti.flist.length = fes.length := by rw [← g6, List.length_map]
    have hpaths : (ti.flist.map fun e => e.base.torPath) = fes.map EntryBase.torPath := by rw [← g6, List.map_map]; rfl
    simp only [g1, g3, hpaths]
    refine ⟨by omega, by omega, by omega, by omega, by omega, q2, by omega, ?_⟩
    intro e he
    exact m2 _ (by rw [← g6]; exact List.mem_map_of_mem he)
  | _ => cases h

/-! ### how long an encoded value is -/

theorem natDec_len (k n : Nat) (hk : 0 < k) (h : n < 10 ^ k) : (natDec n).length ≤ k := by
  induction k generalizing n with
  | zero => omega
  | succ k ih =>
    rw [natDec]
    split
    · simp
    · rename_i h10
      rw [List.length_append, List.length_cons, List.length_nil]
      cases k with
      | zero => simp at h; omega
      | succ k =>
        have := ih (n / 10) (by omega) (by rw [Nat.pow_succ] at h; omega)
        omega

theorem intDec_small (i : Int) (h0 : 0 ≤ i) (h : i < 10) : (intDec i).length ≤ 1 := by
  unfold intDec
  rw [if_neg (by omega)]
  exact natDec_len 1 _ (by decide) (by omega)

theorem key_len {k : Bytes} {n : Nat} (h : k.length = n) (hn : n < 100) : (natDec k.length).length + 1 + k.length ≤ n + 3 := by
  have := natDec_len 2 k.length (by decide) (by omega)
  omega

mutual
/-- the bytes of an encoded value, if there is no error -/
def cost : Value → Nat
  | .str s => (natDec s.length).length + 1 + s.length
  | .int64 i => (intDec i).length + 2
  | .intN i => (intDec i).length + 2
  | .list vs => 2 + costs vs
  | .dict es => 2 + costse es
  | .other => 0
/-- the elements of a list -/
def costs : List Value → Nat
  | [] => 0
  | v :: vs => cost v + costs vs
/-- the entries of a dictionary -/
def costse : List (Bytes × Value) → Nat
  | [] => 0
  | (k, v) :: es => (natDec k.length).length + 1 + k.length + cost v + costse es
end

theorem entry_le {k : Bytes} {v : Value} {es : Dict} {n c r : Nat} (hk : k.length = n) (hn : n < 100) (hv : cost v ≤ c) (hr : costse es ≤ r) :
    costse ((k, v) :: es) ≤ n + 3 + c + r := by
  have := key_len hk hn
  rw [costse]; omega

theorem dict_le {es : Dict} {r : Nat} (hr : costse es ≤ r) : cost (.dict es) ≤ 2 + r := by rw [cost]; omega

theorem list_le {vs : List Value} {r : Nat} (hr : costs vs ≤ r) : cost (.list vs) ≤ 2 + r := by rw [cost]; omega

theorem str_le {s : Bytes} {n d : Nat} (hs : s.length = n) (hd : (natDec n).length ≤ d) : cost (.str s) ≤ d + 1 + n := by rw [cost, hs]; omega

theorem int_le {i : Int} {n : Nat} (h : (intDec i).length ≤ n) : cost (.int64 i) ≤ n + 2 := by rw [cost]; omega

theorem nil_le : costse [] ≤ 0 := Nat.le_refl _

theorem seqEnc_len (l : List Enc) : (seqEnc l).1.length ≤ (l.map fun e => e.1.length).sum := by
  induction l with
  | nil => simp [seqEnc]
  | cons e es ih =>
    obtain ⟨b, o⟩ := e
    cases o with
    | some x => simp [seqEnc]
    | none => simp only [seqEnc, List.length_append, List.map_cons, List.sum_cons]; omega

theorem encodeString_len (s : Bytes) : (encodeString s).1.length ≤ (natDec s.length).length + 1 + s.length := by
  unfold encodeString
  split
  · simp
  · simp; omega

theorem wrapEnc_len (c : UInt8) (e : Enc) : (wrapEnc c e).1.length ≤ 2 + e.1.length := by
  obtain ⟨b, o⟩ := e
  cases o with
  | none => simp [wrapEnc]; omega
  | some x => simp [wrapEnc]; omega

mutual
theorem encode_cost (v : Value) : (encode v).1.length ≤ cost v := by
  cases v with
  | str s => rw [encode, cost]; exact encodeString_len s
  | int64 i => simp [encode, cost, encodeInt]
  | intN i => simp [encode, cost, encodeInt]
  | list vs =>
    rw [encode, cost]
    have h1 := wrapEnc_len 108 (seqEnc (encodeList vs))
    have h2 := seqEnc_len (encodeList vs)
    have h3 := encodeList_cost vs
    omega
  | dict es =>
    rw [encode, cost]
    have h1 := wrapEnc_len 100 (encodeSorted (encodeEntries es))
    have h2 : (encodeSorted (encodeEntries es)).1.length ≤ ((encodeEntries es).map fun p => (encodeString p.1).1.length + p.2.1.length).sum := by
      unfold encodeSorted
      refine Nat.le_trans (seqEnc_len _) ?_
      rw [List.map_map]
      have hp := List.mergeSort_perm (encodeEntries es) fun x y => bytesLe x.1 y.1
      rw [(hp.map _).sum_nat]
      generalize encodeEntries es = l
      induction l with
      | nil => simp
      | cons p l ih =>
        have := seqEnc_len [encodeString p.1, p.2]
        simp only [List.map_cons, List.map_nil, List.sum_cons, List.sum_nil, Function.comp] at this ih ⊢
        omega
    have h3 := encodeEntries_cost es
    omega
  | other => simp [encode, cost]
theorem encodeList_cost (vs : List Value) : ((encodeList vs).map fun e => e.1.length).sum ≤ costs vs := by
  cases vs with
  | nil => simp [encodeList, costs]
  | cons v vs =>
    have h1 := encode_cost v
    have h2 := encodeList_cost vs
    simp only [encodeList, costs, List.map_cons, List.sum_cons]
    omega
theorem encodeEntries_cost (es : List (Bytes × Value)) :
    ((encodeEntries es).map fun p => (encodeString p.1).1.length + p.2.1.length).sum ≤ costse es := by
  cases es with
  | nil => simp [encodeEntries, costse]
  | cons e es =>
    obtain ⟨k, v⟩ := e
    have h1 := encode_cost v
    have h2 := encodeEntries_cost es
    have h3 := encodeString_len k
    simp only [encodeEntries, costse, List.map_cons, List.sum_cons]
    omega
end

/-! ### long names -/

/-- `F` files of one byte each, with short names -/
def manyFiles (F : Nat) : List EntryBase := (List.range F).map fun i => ⟨1, natDec i, []⟩

theorem manyFiles_lens (F : Nat) : lens (manyFiles F) = List.replicate F 1 := by
  unfold lens manyFiles
  rw [List.map_map]
  apply List.ext_getElem
  · simp
  · intro i h1 h2; simp

theorem sum_replicate_one (n : Nat) : (List.replicate n 1).sum = n := by simp

theorem manyFiles_sum (F : Nat) : ((manyFiles F).map EntryBase.length).sum = F := by
  have : (manyFiles F).map EntryBase.length = List.replicate F 1 := by
    unfold manyFiles
    rw [List.map_map]
    apply List.ext_getElem
    · simp
    · intro i h1 h2; simp
  rw [this]
  clear this
  induction F with
  | zero => rfl
  | succ n ih => rw [List.replicate_succ, List.sum_cons, ih]; omega

theorem natDec_noslash (n : Nat) : (47 : UInt8) ∉ natDec n := by
  intro h
  have := natDec_digits n 47 h
  revert this
  decide

theorem natDec_ne (n : Nat) : natDec n ≠ [] := by
  obtain ⟨c, r, h, -⟩ := natDec_cons n
  rw [h]; simp

theorem splitSlash_name {s : Bytes} (h : (47 : UInt8) ∉ s) : splitSlash s = [s] := by
  induction s with
  | nil => rfl
  | cons c cs ih =>
    rw [splitSlash, if_neg (fun hc => h (by simp [hc])), ih (fun hc => h (by simp [hc]))]

theorem costs_map {α : Type} (l : List α) (f : α → Value) (n : Nat) (h : ∀ a ∈ l, cost (f a) ≤ n) : costs (l.map f) ≤ l.length * n := by
  induction l with
  | nil => simp [costs]
  | cons a l ih =>
    have h1 := ih fun b hb => h b (by simp [hb])
    have h2 := h a (by simp)
    rw [List.map_cons, costs, List.length_cons, Nat.add_mul]
    omega

theorem bytes_ge (ps : List Bytes) (n : Nat) (h : ∀ p ∈ ps, n ≤ p.length) : ps.length * n ≤ bytes ps := by
  induction ps with
  | nil => simp
  | cons p ps ih =>
    have h1 := ih fun b hb => h b (by simp [hb])
    have h2 := h p (by simp)
    rw [bytes_cons, List.length_cons, Nat.add_mul]
    omega

/-- the path of a file in a directory is at least as long as the directory's name -/
theorem join_ge (wd name file : Bytes) (hwd : wd ≠ []) (hn : (47 : UInt8) ∉ name) (h1 : name ≠ []) (h2 : name ≠ [46]) (h3 : name ≠ [46, 46])
    (hf : (47 : UInt8) ∉ file) (f1 : file ≠ []) (f2 : file ≠ [46]) (f3 : file ≠ [46, 46]) : name.length ≤ (Join (Join wd name) file).length := by
  apply resolve_len
  rw [resolve_join _ _ _ (join_ne_nil _ _ hwd), resolve_join _ _ _ hwd, components_eq, components_eq, splitSlash_name hn, splitSlash_name hf,
    walk_cons, walk_nil, walk_cons, walk_nil, step_name _ (by simp [h1, h2]) h3, step_name _ (by simp [f1, f2]) f3]
  simp

/-- **C91** is false for the paths on the disk: every file's path has the torrent's name in it.  A torrent file of little more than `F * F` bytes (with a
long name, and `F` files of one byte with different names that make up a piece) is accepted, and the paths of its files take `F * F * F` bytes. -/
theorem C91_refuted_paths (F : Nat) (h2 : 2 ≤ F) (hF : F < 2 ^ 31) :
    ∃ file : Bytes, file.length ≤ F * F + 36 * F + 250 ∧ ∀ (H : Bytes → Bytes) (spare wd : Bytes), wd ≠ [] →
      ∃ t, FromTorrentFile H (some file) spare wd = .ok t ∧ (t.info.flist.map fun e => e.base.torPath) = (List.range F).map natDec ∧
        t.info.length = F ∧ t.info.pieceLen = F ∧ t.info.numPieces = 1 ∧
        F * (F * F) ≤ bytes (t.info.flist.map fun e => e.base.localPath) := by
  have hFF : F * F < 2 ^ 62 := by
    have : F * F < 2 ^ 31 * 2 ^ 31 := Nat.mul_lt_mul'' hF hF
    omega
  have hpos : 1 ≤ F * F := Nat.mul_pos (by omega) (by omega)
  have hfour : 4 ≤ F * F := Nat.mul_le_mul h2 h2
  have hf0 : ∀ f ∈ manyFiles F, 0 ≤ f.length := by
    intro f hf
    obtain ⟨i, -, rfl⟩ := List.mem_map.mp hf
    show (0 : Int) ≤ 1
    decide
  have hlenF : (manyFiles F).length = F := by simp [manyFiles]
  obtain ⟨ti, hti⟩ := (C24_accept_iff_partial (List.replicate (F * F) 97) F (by omega) (List.replicate 20 0) (manyFiles F) hf0).mpr (by
    rw [manyFiles_lens]
    unfold total needed
    rw [sum_replicate_one, List.length_replicate]
    refine ⟨⟨1, rfl⟩, ?_⟩
    rw [Nat.div_le_iff_le_mul_add_pred (by omega)]
    omega)
  obtain ⟨g1, g2, g3, g4, g5, g6⟩ := newTorInfo_fields hti
  have hsave := (C70_saves_iff _ _ _ _ _ hti (ascii "a")).mpr ⟨by decide, by
    intro h
    have := congrArg List.length h
    rw [List.length_replicate] at this
    simp only [List.length_nil] at this
    omega, by decide, .inr (by
      intro f hf c hc
      obtain ⟨i, -, rfl⟩ := List.mem_map.mp hf
      rw [components_eq, splitSlash_name (natDec_noslash i), List.mem_singleton] at hc
      rw [hc]
      exact natDec_ne i)⟩
  have hsingle : ti.isSingle = false := by
    cases hh : ti.isSingle with
    | false => rfl
    | true => have := g4.mp hh; omega
  have hcost : cost (metainfo (ascii "a") ti) ≤ F * F + 36 * F + 250 := by
    have hfl : (ti.flist.map fun e => Value.dict (benDict e.base)) = (List.range F).map fun i => Value.dict (benDict ⟨1, natDec i, []⟩) := by
      have : (ti.flist.map fun e => Value.dict (benDict e.base)) = (ti.flist.map Entry.base).map fun b => Value.dict (benDict b) := by
        rw [List.map_map]; rfl
      rw [this, g6, manyFiles, List.map_map]
      rfl
    have hone := intDec_small 1 (by decide) (by decide)
    have hzero := intDec_small 0 (by decide) (by decide)
    have hcf := costs_map (List.range F) (fun i => Value.dict (benDict ⟨1, natDec i, []⟩)) 36 (by
      intro i hi
      have hi := List.mem_range.mp hi
      have hl := natDec_len 10 i (by omega) (by omega)
      have hl2 := natDec_len 2 (natDec i).length (by omega) (by omega)
      have := dict_le (entry_le (k := ascii "length") (n := 6) rfl (by decide) (int_le hone)
        (entry_le (k := ascii "path") (n := 4) rfl (by decide) (list_le (vs := (splitSlash (natDec i)).map Value.str) (r := 2 + 1 + 10) (by
          rw [splitSlash_name (natDec_noslash i), List.map_cons, List.map_nil, costs, costs]
          have := str_le (s := natDec i) rfl hl2
          omega)) nil_le))
      exact Nat.le_trans this (by decide))
    rw [List.length_range] at hcf
    have hpl : (intDec (F : Int)).length ≤ 10 := by
      have := natDec_len 10 F (by omega) (by omega)
      unfold intDec
      rw [if_neg (by omega)]
      simpa using this
    have hnm := natDec_len 19 (F * F) (by omega) (by omega)
    have hbig := list_le hcf
    have := dict_le (entry_le (k := ascii "announce") (n := 8) rfl (by decide) (str_le (s := ascii "a") (n := 1) rfl (natDec_len 1 1 (by decide) (by decide)))
      (entry_le (k := ascii "info") (n := 4) rfl (by decide) (dict_le
        (entry_le (k := ascii "name") (n := 4) rfl (by decide) (str_le (s := List.replicate (F * F) 97) List.length_replicate hnm)
        (entry_le (k := ascii "piece length") (n := 12) rfl (by decide) (int_le hpl)
        (entry_le (k := ascii "pieces") (n := 6) rfl (by decide) (str_le (s := List.replicate 20 0) (n := 20) rfl (natDec_len 2 20 (by decide) (by decide)))
        (entry_le (k := ascii "private") (n := 7) rfl (by decide) (int_le hzero)
        (entry_le (k := ascii "files") (n := 5) rfl (by decide) hbig nil_le)))))) nil_le))
    unfold metainfo benInfo
    rw [hsingle, hfl, g1, g2, g3]
    simp only [Bool.false_eq_true, if_false]
    exact Nat.le_trans this (by omega)
  have hlen : (Encode (metainfo (ascii "a") ti)).1.length ≤ F * F + 36 * F + 250 := Nat.le_trans (encode_cost _) hcost
  refine ⟨(Encode (metainfo (ascii "a") ti)).1, hlen, ?_⟩
  intro H spare wd hwd
  obtain ⟨t, ti', -, -, -, q1, q2, q3, q4, q5, q6, q7, q8, -⟩ := C70_roundtrip H (List.replicate (F * F) 97) F (by omega) (List.replicate 20 0)
    (manyFiles F) hf0 ti hti (by omega) (by rw [manyFiles_sum]; omega) (ascii "a") (Encode (metainfo (ascii "a") ti)).1 spare wd
    (Prod.ext rfl hsave) (by omega)
  have hnum := (C24_fields _ _ _ _ _ hti).2.2.2.1
  rw [List.length_replicate] at hnum
  have hplaced : placed wd (List.replicate (F * F) 97) (manyFiles F) =
      (List.range F).map fun i => ⟨1, natDec i, Join (Join wd (List.replicate (F * F) 97)) (natDec i)⟩ := by
    unfold placed
    rw [if_neg (by omega), manyFiles, List.map_map]
    rfl
  rw [hplaced] at q8
  have ht : ∀ g : EntryBase → Bytes, (ti'.flist.map fun e => g e.base) = (ti'.flist.map Entry.base).map g := fun g => by rw [List.map_map]; rfl
  refine ⟨_, q1, ?_, by rw [q6, g5, manyFiles_sum], by rw [q3, g2], by simp only; omega, ?_⟩
  · rw [ht EntryBase.torPath, q8, List.map_map]
    rfl
  · rw [ht EntryBase.localPath, q8, List.map_map]
    have := bytes_ge ((List.range F).map (EntryBase.localPath ∘ fun i => ⟨1, natDec i, Join (Join wd (List.replicate (F * F) 97)) (natDec i)⟩)) (F * F) (by
      intro p hp
      obtain ⟨i, -, rfl⟩ := List.mem_map.mp hp
      have hrep : ∀ s : Bytes, s.length ≤ 2 → List.replicate (F * F) 97 ≠ s := by
        intro s hs h
        have := congrArg List.length h
        rw [List.length_replicate] at this
        omega
      have hdot : ∀ x ∈ natDec i, x ≠ (46 : UInt8) := by
        intro x hx h
        subst h
        have := natDec_digits i 46 hx
        revert this
        decide
      have := join_ge wd (List.replicate (F * F) 97) (natDec i) hwd (by
          intro h
          have := List.eq_of_mem_replicate h
          revert this
          decide) (hrep _ (by simp)) (hrep _ (by simp)) (hrep _ (by simp)) (natDec_noslash i) (natDec_ne i)
        (fun h => hdot 46 (by rw [h]; simp) rfl) (fun h => hdot 46 (by rw [h]; simp) rfl)
      rw [List.length_replicate] at this
      exact this)
    rw [List.length_map, List.length_range] at this
    exact this

/-! ### the buffer for a piece -/

theorem make_ok (mem : Nat) (n : Int) (h0 : 0 ≤ n) (h : n ≤ mem) : make mem n = .ok (List.replicate n.toNat 0) := by
  unfold make; rw [if_neg (by omega)]

theorem make_panic (mem : Nat) (n : Int) (h : n < 0 ∨ mem < n) : make mem n = .panic := by
  unfold make; rw [if_pos h]

/-- **C91**, the buffer that `Validate` and every peer's handler allocate: with room for `mem` bytes the check of the files goes as without a limit exactly if
the piece length is not above it, whatever the size of the torrent; otherwise the process ends.  Missing: the piece length of an accepted torrent is
not bounded by the size of its files (`C91_refuted_buffer`). -/
theorem C91_buffer_partial (H : Bytes → Bytes) (mem : Nat) (fs : FS.State) (fio : FileIO) (b : Bf.Bitfield) (p : Peer.Info) :
    (fio.torInfo.pieceLen ≤ mem → ValidateM H mem fs fio b = Swarm.Validate H fs fio b ∧
      NewPeerHandlerM mem p fio.torInfo = Session.NewPeerHandler p fio.torInfo) ∧
    (mem < fio.torInfo.pieceLen → ValidateM H mem fs fio b = .panic ∧ NewPeerHandlerM mem p fio.torInfo = .panic) := by
  refine ⟨fun h => ?_, fun h => ?_⟩
  · unfold ValidateM Swarm.Validate NewPeerHandlerM Session.NewPeerHandler
    by_cases h0 : fio.torInfo.pieceLen < 0
    · rw [if_pos h0, if_pos h0, make_panic _ _ (.inl h0)]
      exact ⟨rfl, rfl⟩
    · rw [if_neg h0, if_neg h0, make_ok _ _ (by omega) h]
      exact ⟨rfl, rfl⟩
  · unfold ValidateM NewPeerHandlerM
    rw [make_panic _ _ (.inr h)]
    exact ⟨rfl, rfl⟩

theorem newBitfield_ok (n : Nat) : ∃ b, Bf.NewBitfield n = .ok b := by
  unfold Bf.NewBitfield
  have h : 0 ≤ (n : Int).tdiv 8 := Int.tdiv_nonneg (by omega) (by omega)
  have h' : 0 ≤ (n : Int).tdiv 8 + (if (n : Int).tmod 8 ≠ 0 then 1 else 0) := by
    split <;> omega
  revert h'
  generalize (n : Int).tdiv 8 + (if (n : Int).tmod 8 ≠ 0 then 1 else 0) = k
  intro h'
  simp only
  rw [if_neg (by omega), if_neg (by rw [List.length_replicate]; omega)]
  exact ⟨_, rfl⟩

/-- **C91**, many peers: each has a buffer of a whole piece, so there is room for exactly as many peers at a time as pieces fit into the memory.  Missing: the
piece length is not bounded by the size of the files, and the number of peers not at all. -/
theorem C91_handlers_iff_partial (mem : Nat) (ti : TorInfo) (hpl : 0 ≤ ti.pieceLen) (ps : List Peer.Info) :
    (∃ hs, handlersM mem ti ps = .ok hs) ↔ (ps.length : Int) * ti.pieceLen ≤ mem := by
  obtain ⟨b, hb⟩ := newBitfield_ok ti.numPieces
  induction ps generalizing mem with
  | nil => simp [handlersM]
  | cons p ps ih =>
    have hc : ((p :: ps).length : Int) * ti.pieceLen = (ps.length : Int) * ti.pieceLen + ti.pieceLen := by
      rw [List.length_cons, Int.natCast_add, Int.add_mul]; simp
    have hnn : 0 ≤ (ps.length : Int) * ti.pieceLen := Int.mul_nonneg (by omega) hpl
    rw [hc]
    by_cases h : ti.pieceLen ≤ mem
    · have h1 : NewPeerHandlerM mem p ti = .ok ⟨p, ⟨false, false, false, false⟩, b, List.replicate ti.pieceLen.toNat 0⟩ := by
        unfold NewPeerHandlerM
        rw [make_ok _ _ hpl h, Res.ok_bind, hb, Res.ok_bind]
      have h2 : (((mem - ti.pieceLen.toNat : Nat)) : Int) = mem - ti.pieceLen := by omega
      rw [handlersM, h1, Res.ok_bind]
      constructor
      · rintro ⟨hs, h⟩
        obtain ⟨hs', h3, -⟩ := Res.bind_eq_ok.mp h
        have := (ih _).mp ⟨hs', h3⟩
        omega
      · intro h
        obtain ⟨hs', h3⟩ := (ih (mem - ti.pieceLen.toNat)).mpr (by omega)
        exact ⟨_, by rw [h3, Res.ok_bind]⟩
    · have h1 : NewPeerHandlerM mem p ti = .panic := by
        unfold NewPeerHandlerM
        rw [make_panic _ _ (.inr (by omega))]
        rfl
      rw [handlersM, h1]
      constructor
      · rintro ⟨hs, h⟩
        cases h
      · intro h; omega

/-- **C91** is false for the buffer: however much memory there is (below the largest number), there is a torrent file of less than 150 bytes, with one file of
one byte and the one piece it needs, which is accepted and for which the process ends when it checks the file, whatever is on the disk. -/
theorem C91_refuted_buffer (mem : Nat) (hm : mem + 1 < 2 ^ 63) :
    ∃ file : Bytes, file.length ≤ 150 ∧ ∀ (H : Bytes → Bytes) (spare wd : Bytes),
      ∃ t, FromTorrentFile H (some file) spare wd = .ok t ∧ t.info.length = 1 ∧ t.info.flist.length = 1 ∧ t.info.numPieces = 1 ∧
        (∀ fs fio b, fio.torInfo = t.info → ValidateM H mem fs fio b = .panic) ∧ ∀ p, NewPeerHandlerM mem p t.info = .panic := by
  have hf0 : ∀ f ∈ [(⟨1, ascii "a", []⟩ : EntryBase)], 0 ≤ f.length := by
    intro f hf
    rw [List.mem_singleton.mp hf]
    decide
  obtain ⟨ti, hti⟩ := (C24_accept_iff_partial (ascii "a") (mem + 1) (by omega) (List.replicate 20 0) [⟨1, ascii "a", []⟩] hf0).mpr (by
    refine ⟨⟨1, rfl⟩, ?_⟩
    have h1 : total (lens [(⟨1, ascii "a", []⟩ : EntryBase)]) = 1 := rfl
    have h2 : (List.replicate 20 (0 : UInt8)).length / 20 = 1 := rfl
    rw [h1, h2]
    unfold needed
    rw [Nat.div_le_iff_le_mul_add_pred (by omega)]
    omega)
  obtain ⟨g1, g2, g3, g4, g5, g6⟩ := newTorInfo_fields hti
  have hsave := (C70_saves_iff _ _ _ _ _ hti (ascii "a")).mpr ⟨by decide, by decide, by decide, .inl rfl⟩
  have hsingle : ti.isSingle = true := g4.mpr rfl
  have hcost : cost (metainfo (ascii "a") ti) ≤ 150 := by
    have hpl : (intDec ((mem + 1 : Nat) : Int)).length ≤ 19 := by
      have := natDec_len 19 (mem + 1) (by omega) (by omega)
      unfold intDec
      rw [if_neg (by omega), Int.natAbs_natCast]
      exact this
    have hone : (intDec ([(⟨1, ascii "a", []⟩ : EntryBase)].map EntryBase.length).sum).length ≤ 1 := intDec_small _ (by decide) (by decide)
    have hzero := intDec_small 0 (by decide) (by decide)
    have := dict_le (entry_le (k := ascii "announce") (n := 8) rfl (by decide) (str_le (s := ascii "a") (n := 1) rfl (natDec_len 1 1 (by decide) (by decide)))
      (entry_le (k := ascii "info") (n := 4) rfl (by decide) (dict_le
        (entry_le (k := ascii "name") (n := 4) rfl (by decide) (str_le (s := ascii "a") (n := 1) rfl (natDec_len 1 1 (by decide) (by decide)))
        (entry_le (k := ascii "piece length") (n := 12) rfl (by decide) (int_le hpl)
        (entry_le (k := ascii "pieces") (n := 6) rfl (by decide) (str_le (s := List.replicate 20 0) (n := 20) rfl (natDec_len 2 20 (by decide) (by decide)))
        (entry_le (k := ascii "private") (n := 7) rfl (by decide) (int_le hzero)
        (entry_le (k := ascii "length") (n := 6) rfl (by decide) (int_le hone) nil_le)))))) nil_le))
    unfold metainfo benInfo
    rw [hsingle, g1, g2, g3, g5]
    simp only [if_true]
    exact Nat.le_trans this (by decide)
  have hlen : (Encode (metainfo (ascii "a") ti)).1.length ≤ 150 := Nat.le_trans (encode_cost _) hcost
  refine ⟨(Encode (metainfo (ascii "a") ti)).1, hlen, ?_⟩
  intro H spare wd
  obtain ⟨t, ti', -, -, -, q1, q2, q3, q4, q5, q6, q7, q8, -⟩ := C70_roundtrip H (ascii "a") (mem + 1) (by omega) (List.replicate 20 0)
    [⟨1, ascii "a", []⟩] hf0 ti hti hm (by decide) (ascii "a") (Encode (metainfo (ascii "a") ti)).1 spare wd
    (Prod.ext rfl hsave) (by omega)
  have hnum := (C24_fields _ _ _ _ _ hti).2.2.2.1
  rw [List.length_replicate] at hnum
  have hl := congrArg List.length q8
  rw [List.length_map] at hl
  have hpl : ti'.pieceLen = ((mem + 1 : Nat) : Int) := by rw [q3, g2]
  refine ⟨_, q1, by rw [q6, g5]; rfl, by rw [hl]; rfl, by simp only [q5]; omega, fun fs fio b hfio => ?_, fun p => ?_⟩
  · unfold ValidateM
    rw [hfio, make_panic _ _ (.inr (by simp only; omega))]
    rfl
  · unfold NewPeerHandlerM
    rw [make_panic _ _ (.inr (by simp only; omega))]
    rfl

/-! ### examples -/

/-- a keep-alive message and a bitfield of one byte: ten bytes, of which the bitfield keeps six -/
example : P2P.DecodeAll 11 [0, 0, 0, 0, 0, 0, 0, 2, 5, 128] = .ok ⟨[.keepAlive, .bitfield 2 ⟨[0, 0, 0, 2, 5, 128], 1, 8, 1⟩], 10⟩ ∧
    ([P2P.Msg.keepAlive, .bitfield 2 ⟨[0, 0, 0, 2, 5, 128], 1, 8, 1⟩].map buffer).sum = 6 := by decide +kernel

/-- a torrent of one file of three bytes in two pieces: each piece has one location -/
example : ∃ ti, NewTorInfo (ascii "f") 2 (List.replicate 40 7) [⟨3, ascii "f", ascii "/d/f"⟩] = .ok ti ∧ ti.numPieces = 2 ∧ locations ti.pm = 2 :=
  ⟨_, rfl, rfl, rfl⟩

/-- a file of about a megabyte, of which more than a gigabyte is made -/
example : ∃ file : Bytes, file.length ≤ 1036250 ∧ ∀ (H : Bytes → Bytes) (spare wd : Bytes), wd ≠ [] →
    ∃ t, FromTorrentFile H (some file) spare wd = .ok t ∧ 1000000000 ≤ bytes (t.info.flist.map fun e => e.base.localPath) := by
  obtain ⟨file, h1, h2⟩ := C91_refuted_paths 1000 (by decide) (by decide)
  refine ⟨file, h1, fun H sp wd hwd => ?_⟩
  obtain ⟨t, a, -, -, -, -, b⟩ := h2 H sp wd hwd
  exact ⟨t, a, b⟩

/-- two handlers for pieces of four bytes need eight bytes -/
example (ti : TorInfo) (h : ti.pieceLen = 4) (p q : Peer.Info) :
    (∃ hs, handlersM 8 ti [p, q] = .ok hs) ∧ ¬ ∃ hs, handlersM 7 ti [p, q] = .ok hs := by
  rw [C91_handlers_iff_partial _ _ (by omega), C91_handlers_iff_partial _ _ (by omega), h]
  show (2 : Int) * 4 ≤ 8 ∧ ¬ (2 : Int) * 4 ≤ 7
  decide

/-- a response with two peers in the compact form -/
example (v6 : Peer.IP → Bytes) : ∃ s, Tracker.stringPeers v6 [1, 2, 3, 4, 0, 80, 5, 6, 7, 8, 0, 81] = .ok s ∧ s.length = 2 := ⟨_, rfl, rfl⟩

end Verif.Memory
