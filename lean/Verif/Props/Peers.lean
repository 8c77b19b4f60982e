import Verif.Model.Peers
import Verif.Spec.Peers
import Verif.Spec.Lts
import Verif.Props.Session
/-
Property C76: all connections of a client together.
-/
set_option autoImplicit false

namespace Verif.Peers
open Verif.P2P Verif.Bf Verif.Files Verif.FileIO Verif.PieceTracker Verif.Layout Verif.Bits Verif.Wire Verif.Avail Verif.Handshake
  Verif.HandshakeSpec Verif.MsgHandler Verif.SessionSpec Verif.PeersSpec Verif.Peer Verif.Session Verif.Lts

/-! ### decoding with different bounds -/

theorem loop_more (fuel k : Nat) (data : Bytes) (msgs : List P2P.Msg) (read : Nat) (h : decodeAllLoop fuel data msgs read ≠ .timeout) :
    decodeAllLoop (fuel + k) data msgs read = decodeAllLoop fuel data msgs read := by
  induction fuel generalizing data msgs read with
  | zero => exact absurd rfl h
  | succ fuel ih =>
    rw [show fuel + 1 + k = (fuel + k) + 1 by omega, decodeAllLoop, decodeAllLoop]
    rw [decodeAllLoop] at h
    by_cases h0 : data.length = 0
    · rw [if_pos h0, if_pos h0]
    · rw [if_neg h0] at h ⊢
      rw [if_neg h0]
      cases hd : Decode data with
      | ok dr =>
        rw [hd] at h
        simp only [Res.ok_bind] at h ⊢
        cases hm : dr.msg with
        | none => rw [hm] at h; exact ih _ _ _ h
        | some m => rw [hm] at h; exact ih _ _ _ h
      | err e => rfl
      | panic => rfl
      | timeout => rfl

theorem decodeAll_unique (f g : Nat) (data : Bytes) (hf : DecodeAll f data ≠ .timeout) (hg : DecodeAll g data ≠ .timeout) :
    DecodeAll f data = DecodeAll g data := by
  rcases Nat.le_total f g with h | h
  · obtain ⟨k, rfl⟩ := Nat.le.dest h
    exact (loop_more f k data [] 0 hf).symm
  · obtain ⟨k, rfl⟩ := Nat.le.dest h
    exact loop_more g k data [] 0 hg

theorem decodeAll_stream (ws : List Wire.Msg) (hd : ∀ w ∈ ws, Decodable w) (hlen : (stream ws).length < 2 ^ 32) :
    DecodeAll (ws.length + 1) (stream ws) = .ok ⟨ws.map received, (stream ws).length⟩ := by
  have := loop_stream ws 1 [] hd (by simpa using hlen) [] 0
  rw [List.append_nil] at this
  rw [DecodeAll, this, loop_nil]
  simp

theorem decodeAll_handshake (hs ih id : Bytes) (h : IsHandshake hs ih id) : ∃ n, DecodeAll 2 hs = .ok ⟨[], n⟩ := by
  obtain ⟨r, rfl⟩ := isHandshake_pstr h
  unfold DecodeAll
  rw [decodeAllLoop, if_neg (by simp), decode_pstr]
  simp only [Res.ok_bind]
  rw [List.drop_of_length_le (by simp only [List.length_append, List.length_cons, List.length_nil]; omega), loop_nil]
  exact ⟨_, rfl⟩

/-! ### one message, whatever it is -/

/-- what is certain about the result of a message -/
def AnyResult (s : MsgHandler.Swarm) (pl : Nat) (calls : List Call) (me : PH) (w : Wire.Msg) (st : St) (x : St × Res Unit) : Prop :=
  x.2 = .panic ∨
  (x.2 ≠ .timeout ∧ x.1.buf.length = pl ∧
    ∃ calls', Reached s.tor.numPieces calls' x.1.ppt ∧ (∀ c ∈ calls', c ∈ calls ∨ c.who = me) ∧
      ∀ i : Nat, i < s.tor.numPieces → ∀ k, RegisteredFor x.1.ppt i k ↔ RegisteredFor st.ppt i k ∨ (x.2 = .ok () ∧ k = me.key ∧ InBitfield [w] i))

theorem handleOne_any {pl : Nat} {hashes : Bytes} {files : List EntryBase} {cs : List Bytes} {s : MsgHandler.Swarm} {st : St}
    (h : Running pl hashes files cs s st.buf) (calls : List Call) (hr : Reached s.tor.numPieces calls st.ppt) (me : PH) (ok : Bool) (w : Wire.Msg)
    (hd : Decodable w) : AnyResult s pl calls me w st (handleOne s me (fun _ => ok) (received w) st) := by
  have hsame : ∀ (st' : St) (r : Res Unit), handleOne s me (fun _ => ok) (received w) st = (st', r) → st'.ppt = st.ppt → st'.buf.length = pl → r ≠ .timeout →
      (r = .ok () → ∀ bits, w ≠ .bitfield bits) → AnyResult s pl calls me w st (handleOne s me (fun _ => ok) (received w) st) := by
    intro st' r e hp hb ht hn
    rw [e]
    refine .inr ⟨ht, hb, calls, by simp only [hp]; exact hr, fun c hc => .inl hc, ?_⟩
    intro i _ k
    simp only [hp]
    refine ⟨.inl, fun hh => hh.elim id ?_⟩
    rintro ⟨hok, -, bits, hm, -⟩
    exact absurd (List.mem_singleton.mp hm).symm (hn hok bits)
  cases w with
  | request i b l =>
    have hs := handleRequest_spec h i b l ok
    have e : handleOne s me (fun _ => ok) (received (.request i b l)) st = handleRequest s i b l ok st := rfl
    rw [hs] at e
    by_cases hi : i.toNat < s.tor.numPieces
    · rw [if_pos hi] at e
      by_cases hg : s.bf.Get i.toNat = .ok true
      · rw [if_pos hg] at e
        by_cases hl : b.toNat + l.toNat ≤ pl
        · rw [if_pos hl] at e
          cases ok
          · exact hsame _ _ e rfl (filled_length _ _ _ _ h.buf) nofun nofun
          · exact hsame _ _ e rfl (filled_length _ _ _ _ h.buf) nofun nofun
        · rw [if_neg hl] at e
          exact .inl (by rw [e])
      · rw [if_neg hg] at e
        exact hsame _ _ e rfl h.buf nofun nofun
    · rw [if_neg hi] at e
      by_cases hc : s.bf.Complete = true
      · rw [if_pos hc] at e
        exact hsame _ _ e rfl h.buf nofun nofun
      · rw [if_neg hc] at e
        by_cases h8 : i.toNat < 8 * s.bf.data.length
        · rw [if_pos h8] at e
          by_cases hb : bit s.bf.data i.toNat = true
          · rw [if_pos hb] at e
            exact hsame _ _ e rfl h.buf nofun nofun
          · rw [if_neg hb] at e
            exact hsame _ _ e rfl h.buf nofun nofun
        · rw [if_neg h8] at e
          exact .inl (by rw [e])
  | bitfield p =>
    obtain ⟨hwf, hdt, hn⟩ := rx_wf p hd
    have e : handleOne s me (fun _ => ok) (received (.bitfield p)) st = handleBitfield s me (rxBitfield p) st := rfl
    by_cases hsz : (rxBitfield p).nbytes = s.bf.nbytes
    · obtain ⟨h1, h2⟩ := bitfield_right_size h calls hr me (rxBitfield p) hwf hsz
      by_cases ha : AtMost 63 (after calls) (((List.range s.tor.numPieces).filter (bit (rxBitfield p).data)).map (Step.reg me.key))
      · obtain ⟨st', e', g1, -, -, -, -, g3, g4⟩ := h1 ha
        rw [e'] at e
        rw [e]
        refine .inr ⟨nofun, by simp only [g1]; exact h.buf, _, g3, ?_, ?_⟩
        · intro c hc
          rcases List.mem_append.mp hc with hc | hc
          · exact .inl hc
          · rw [List.mem_singleton.mp hc]; exact .inr rfl
        · intro i hi k
          obtain ⟨hsw, -⟩ := reachable_exact h.bf
          have b1 := hsw.lo8
          have b2 := hsw.hi
          have b3 := h.nbits
          have b4 : s.bf.nbytes = (p.length : Int) := by rw [← hsz, hn]
          simp only
          rw [g4 i hi k, get_nat, hdt, if_pos (by omega)]
          simp [InBitfield]
      · exact .inl (by rw [e, h2 ha])
    · rw [bitfield_wrong_size s me _ st hsz] at e
      exact hsame _ _ e rfl h.buf nofun nofun
  | piece i b blk => exact hd.elim
  | keepAlive => exact hsame _ _ rfl rfl h.buf nofun nofun
  | choke => exact hsame _ _ rfl rfl h.buf nofun nofun
  | unchoke => exact hsame _ _ rfl rfl h.buf nofun nofun
  | interested => exact hsame _ _ rfl rfl h.buf nofun nofun
  | notInterested => exact hsame _ _ rfl rfl h.buf nofun nofun
  | «have» i => exact hsame _ _ rfl rfl h.buf nofun nofun

/-- what is certain about the result of a message of a polite peer: it is answered as it should be if there is no error; an error means that writing
failed; there is a panic only for the 64th peer of a piece -/
def PoliteResult (s : MsgHandler.Swarm) (content : Bytes) (pl : Nat) (calls : List Call) (me : PH) (ok : Bool) (w : Wire.Msg) (st : St) (x : St × Res Unit) : Prop :=
  (x.2 = .ok () → x.1.out = st.out ++ (replies content pl (ours s) [w]).map wire) ∧ (x.2 ≠ .ok () → x.1.out = st.out) ∧
  (∀ e, x.2 = .err e → ok = false) ∧ (∀ keys, Few keys me calls → x.2 ≠ .panic)

theorem handleOne_out {pl : Nat} {hashes : Bytes} {files : List EntryBase} {cs : List Bytes} {s : MsgHandler.Swarm} {st : St}
    (h : Running pl hashes files cs s st.buf) (calls : List Call) (hr : Reached s.tor.numPieces calls st.ppt) (me : PH) (ok : Bool) (w : Wire.Msg)
    (hw : Polite cs.flatten pl s.tor.numPieces w) :
    PoliteResult s cs.flatten pl calls me ok w st (handleOne s me (fun _ => ok) (received w) st) := by
  have hsame : handleOne s me (fun _ => ok) (received w) st = (st, .ok ()) → replies cs.flatten pl (ours s) [w] = [] →
      PoliteResult s cs.flatten pl calls me ok w st (handleOne s me (fun _ => ok) (received w) st) := by
    intro e hn
    rw [e]
    exact ⟨fun _ => by simp [hn], fun hh => absurd rfl hh, nofun, fun _ _ => nofun⟩
  cases w with
  | request i b l =>
    obtain ⟨hi, hl⟩ := hw
    have hs := handleRequest_spec h i b l ok
    have e : handleOne s me (fun _ => ok) (received (.request i b l)) st = handleRequest s i b l ok st := rfl
    rw [hs, if_pos hi] at e
    have hle : b.toNat + l.toNat ≤ pl := by
      have := pieceOf_length cs.flatten pl i.toNat
      omega
    by_cases hg : s.bf.Get i.toNat = .ok true
    · have hbit : ours s i.toNat = true := by
        rw [get_nat, if_pos (in_range h _ hi)] at hg
        exact Res.ok.inj hg
      rw [if_pos hg, if_pos hle] at e
      cases ok
      · rw [e]
        exact ⟨nofun, fun _ => rfl, fun _ _ => rfl, fun _ _ => nofun⟩
      · rw [if_pos rfl] at e
        rw [e]
        refine ⟨fun _ => ?_, fun hh => absurd rfl hh, nofun, fun _ _ => nofun⟩
        simp only [replies, reply, hbit, if_true, List.filterMap_cons, List.filterMap_nil, List.map_cons, List.map_nil]
        unfold filled
        rw [range_pieceOf _ _ _ _ _ _ hl]
    · rw [if_neg hg] at e
      have hbit : ours s i.toNat = false := by
        rw [get_nat, if_pos (in_range h _ hi)] at hg
        cases hb : bit s.bf.data i.toNat with
        | false => exact hb
        | true => rw [hb] at hg; exact absurd rfl hg
      exact hsame e (by simp [replies, reply, hbit])
  | bitfield p =>
    obtain ⟨hp, hl⟩ := hw
    obtain ⟨hwf, hdt, hn⟩ := rx_wf p hp
    obtain ⟨hsw, -⟩ := reachable_exact h.bf
    have b1 := hsw.lo8
    have b2 := hsw.hi
    have b3 := h.nbits
    have e : handleOne s me (fun _ => ok) (received (.bitfield p)) st = handleBitfield s me (rxBitfield p) st := rfl
    obtain ⟨h1, h2⟩ := bitfield_right_size h calls hr me (rxBitfield p) hwf (by rw [hn]; omega)
    by_cases ha : AtMost 63 (after calls) (((List.range s.tor.numPieces).filter (bit (rxBitfield p).data)).map (Step.reg me.key))
    · obtain ⟨st', e', -, g2, -⟩ := h1 ha
      rw [e'] at e
      rw [e]
      exact ⟨fun _ => by simp [replies, reply, g2], fun hh => absurd rfl hh, nofun, fun _ _ => nofun⟩
    · rw [e]
      have hpn := h2 ha
      refine ⟨fun hh => (by rw [hpn] at hh; cases hh), fun _ => ?_, fun e' hh => (by rw [hpn] at hh; cases hh), fun keys hf => absurd (few_atMost hf _) ha⟩
      unfold handleBitfield at hpn ⊢
      rw [if_neg (by rw [hn]; simp only [ne_eq, Decidable.not_not]; omega)] at hpn ⊢
      cases h3 : (rxBitfield p).SetNbits s.tor.numPieces with
      | ok b' =>
        rw [h3] at hpn
        simp only at hpn ⊢
        cases h4 : RegisterBF st.ppt me b' <;> rfl
      | err e => rfl
      | panic => rfl
      | timeout => rfl
  | piece i b blk => exact hw.elim
  | keepAlive => exact hsame rfl rfl
  | choke => exact hsame rfl rfl
  | unchoke => exact hsame rfl rfl
  | interested => exact hsame rfl rfl
  | notInterested => exact hsame rfl rfl
  | «have» i => exact hsame rfl rfl

/-- whatever the message is, only clean bytes get into the buffer and only allowed messages are written -/
theorem handleOne_clean {pl : Nat} {hashes : Bytes} {files : List EntryBase} {cs : List Bytes} {s : MsgHandler.Swarm} {st : St}
    (h : Running pl hashes files cs s st.buf) (hb : Clean cs.flatten pl s.tor.numPieces (ours s) 0 st.buf) (ih own : Bytes) (me : PH) (ok : Bool) (w : Wire.Msg) :
    Clean cs.flatten pl s.tor.numPieces (ours s) 0 (handleOne s me (fun _ => ok) (received w) st).1.buf ∧
    ∀ x ∈ (handleOne s me (fun _ => ok) (received w) st).1.out, x ∈ st.out ∨ Allowed cs.flatten pl s.tor.numPieces (ours s) ih own s.bf.data x := by
  have hsame : (handleOne s me (fun _ => ok) (received w) st).1.buf = st.buf → (handleOne s me (fun _ => ok) (received w) st).1.out = st.out →
      Clean cs.flatten pl s.tor.numPieces (ours s) 0 (handleOne s me (fun _ => ok) (received w) st).1.buf ∧
      ∀ x ∈ (handleOne s me (fun _ => ok) (received w) st).1.out, x ∈ st.out ∨ Allowed cs.flatten pl s.tor.numPieces (ours s) ih own s.bf.data x := by
    intro e1 e2
    rw [e1, e2]
    exact ⟨hb, fun x hx => .inl hx⟩
  cases w with
  | request i b l =>
    have hs := handleRequest_spec h i b l ok
    have e : handleOne s me (fun _ => ok) (received (.request i b l)) st = handleRequest s i b l ok st := rfl
    rw [hs] at e
    by_cases hi : i.toNat < s.tor.numPieces
    · rw [if_pos hi] at e
      by_cases hg : s.bf.Get i.toNat = .ok true
      · rw [if_pos hg] at e
        have hbit : ours s i.toNat = true := by
          rw [get_nat, if_pos (in_range h _ hi)] at hg
          exact Res.ok.inj hg
        have hcl : Clean cs.flatten pl s.tor.numPieces (ours s) 0 (filled pl cs i.toNat st.buf) := by
          intro j v hv
          unfold filled at hv
          by_cases hj : j < (pieceOf cs.flatten pl i.toNat).length
          · rw [List.getElem?_append_left hj] at hv
            exact .inr ⟨i.toNat, hi, hbit, by rw [Nat.zero_add]; exact hv⟩
          · rw [List.getElem?_append_right (by omega), List.getElem?_drop] at hv
            have := hb _ v hv
            rw [show (pieceOf cs.flatten pl i.toNat).length + (j - (pieceOf cs.flatten pl i.toNat).length) = j by omega] at this
            exact this
        by_cases hl : b.toNat + l.toNat ≤ pl
        · rw [if_pos hl] at e
          cases ok
          · rw [if_neg (by decide)] at e
            rw [e]
            exact ⟨hcl, fun x hx => .inl hx⟩
          · rw [if_pos rfl] at e
            rw [e]
            refine ⟨hcl, fun x hx => ?_⟩
            rcases List.mem_append.mp hx with hx | hx
            · exact .inl hx
            · refine .inr (.inr (.inr (.inr (.inr ⟨i, b, _, List.mem_singleton.mp hx, hi, hbit, ?_, ?_⟩))))
              · have : (range (filled pl cs i.toNat st.buf) b.toNat l.toNat).length ≤ l.toNat := by
                  unfold range; rw [List.length_take]; omega
                omega
              · intro j v hv
                rw [getElem?_range] at hv
                split at hv
                · have := hcl _ v hv
                  rw [Nat.zero_add] at this
                  exact this
                · cases hv
        · rw [if_neg hl] at e
          rw [e]
          exact ⟨hcl, fun x hx => .inl hx⟩
      · rw [if_neg hg] at e
        exact hsame (by rw [e]) (by rw [e])
    · rw [if_neg hi] at e
      apply hsame
      · rw [e]; repeat' split
        all_goals rfl
      · rw [e]; repeat' split
        all_goals rfl
  | bitfield p =>
    have e : handleOne s me (fun _ => ok) (received (.bitfield p)) st = handleBitfield s me (rxBitfield p) st := rfl
    apply hsame
    · rw [e]; unfold handleBitfield; repeat' split
      all_goals rfl
    · rw [e]; unfold handleBitfield; repeat' split
      all_goals rfl
  | piece i b blk => exact hsame rfl rfl
  | keepAlive => exact hsame rfl rfl
  | choke => exact hsame rfl rfl
  | unchoke => exact hsame rfl rfl
  | interested => exact hsame rfl rfl
  | notInterested => exact hsame rfl rfl
  | «have» i => exact hsame rfl rfl

/-! ### what is true of every state -/

/-- what is true of a connection -/
structure ConnOk (E : Env) (content : Bytes) (pl : Nat) (c : Conn) : Prop where
  buf : c.buf.length = pl
  clean : Clean content pl E.s.tor.numPieces (ours E.s) 0 c.buf
  sent : ∀ x ∈ c.out, Allowed content pl E.s.tor.numPieces (ours E.s) E.infohash E.ownId E.s.bf.data x
  todo : ∀ m ∈ c.todo, Decodable m.view ∧ m = received m.view
  served : ∃ start, Greeting E.infohash E.ownId E.s.bf.data start ∧
    ∀ ws, Delivered content pl E.s.tor.numPieces c.got ws → ∃ done rest, ws = done ++ rest ∧ c.handled = done.map received ∧ c.todo = rest.map received ∧
      c.out.filter (· ≠ wire .keepAlive) = start ++ (replies content pl (ours E.s) done).map wire ∧ c.recv ≠ .hangs

/-- what is true of the client as long as it runs -/
structure Good (E : Env) (content : Bytes) (pl : Nat) (σ : Client) : Prop where
  reached : ∃ calls, Reached E.s.tor.numPieces calls σ.ppt ∧ ∀ x ∈ calls, ∃ c ∈ σ.conns, x.who.key = c.me.key
  conns : ∀ c ∈ σ.conns, ConnOk E content pl c
  registered : ∀ i, i < E.s.tor.numPieces → ∀ k, RegisteredFor σ.ppt i k ↔ ∃ c ∈ σ.conns, c.me.key = k ∧ InBitfield (c.handled.map Msg.view) i

/-- all peers keep to the protocol, and there are at most 63 -/
def AllPolite (E : Env) (content : Bytes) (pl : Nat) (σ : Client) : Prop :=
  (∀ c ∈ σ.conns, ∃ ws, Delivered content pl E.s.tor.numPieces c.got ws) ∧ ∃ keys : List Bytes, keys.length ≤ 63 ∧ ∀ c ∈ σ.conns, c.me.key ∈ keys

def Sound (E : Env) (content : Bytes) (pl : Nat) (σ : Client) : Prop :=
  (σ.crashed = false → Good E content pl σ) ∧ (σ.crashed = true → ¬ AllPolite E content pl σ)

theorem mem_set_iff {α : Type} (l : List α) (i : Nat) (a b x : α) (h : l[i]? = some a) :
    x ∈ l.set i b ↔ x = b ∨ ∃ j : Nat, j ≠ i ∧ l[j]? = some x := by
  have hlt := (List.getElem?_eq_some_iff.mp h).1
  rw [List.mem_iff_getElem?]
  constructor
  · rintro ⟨j, hj⟩
    by_cases e : j = i
    · subst e
      rw [List.getElem?_set_self hlt] at hj
      exact .inl (Option.some.inj hj).symm
    · rw [List.getElem?_set_ne (fun x => e x.symm)] at hj
      exact .inr ⟨j, e, hj⟩
  · rintro (rfl | ⟨j, e, hj⟩)
    · exact ⟨i, List.getElem?_set_self hlt⟩
    · exact ⟨j, by rw [List.getElem?_set_ne (fun x => e x.symm)]; exact hj⟩

theorem mem_split {α : Type} (l : List α) (i : Nat) (a x : α) (h : l[i]? = some a) :
    x ∈ l ↔ x = a ∨ ∃ j : Nat, j ≠ i ∧ l[j]? = some x := by
  rw [List.mem_iff_getElem?]
  constructor
  · rintro ⟨j, hj⟩
    by_cases e : j = i
    · subst e
      rw [h] at hj
      exact .inl (Option.some.inj hj).symm
    · exact .inr ⟨j, e, hj⟩
  · rintro (rfl | ⟨j, e, hj⟩)
    · exact ⟨i, h⟩
    · exact ⟨j, hj⟩

/-- one connection and the tracker change -/
theorem Good.update {E : Env} {content : Bytes} {pl : Nat} {σ : Client} (g : Good E content pl σ) {i : Nat} {c : Conn} (hi : σ.conns[i]? = some c)
    (c' : Conn) (t : Tracker) (new : List Wire.Msg) (hme : c'.me = c.me) (hok : ConnOk E content pl c')
    (hr : ∃ calls', Reached E.s.tor.numPieces calls' t ∧ ∀ x ∈ calls', ∃ y ∈ σ.conns, x.who.key = y.me.key)
    (hreg : ∀ i, i < E.s.tor.numPieces → ∀ k, RegisteredFor t i k ↔ RegisteredFor σ.ppt i k ∨ (k = c.me.key ∧ InBitfield new i))
    (hh : c'.handled.map Msg.view = c.handled.map Msg.view ++ new) : Good E content pl { σ.set i c' with ppt := t } := by
  refine ⟨?_, ?_, ?_⟩
  · obtain ⟨calls', h1, h2⟩ := hr
    refine ⟨calls', h1, fun x hx => ?_⟩
    obtain ⟨y, hy, e⟩ := h2 x hx
    rcases (mem_split σ.conns i c y hi).mp hy with rfl | ⟨j, hj, hy⟩
    · exact ⟨c', (mem_set_iff _ _ _ _ _ hi).mpr (.inl rfl), by rw [e, hme]⟩
    · exact ⟨y, (mem_set_iff _ _ _ _ _ hi).mpr (.inr ⟨j, hj, hy⟩), e⟩
  · intro x hx
    rcases (mem_set_iff _ _ _ _ _ hi).mp hx with rfl | ⟨j, -, hx⟩
    · exact hok
    · exact g.conns x (List.mem_of_getElem? hx)
  · intro n hn k
    show RegisteredFor t n k ↔ ∃ x ∈ σ.conns.set i c', _
    rw [hreg n hn, g.registered n hn]
    constructor
    · rintro (⟨y, hy, e1, e2⟩ | ⟨rfl, e2⟩)
      · rcases (mem_split σ.conns i c y hi).mp hy with rfl | ⟨j, hj, hy⟩
        · exact ⟨c', (mem_set_iff _ _ _ _ _ hi).mpr (.inl rfl), by rw [hme, e1], by rw [hh, inBitfield_append]; exact .inl e2⟩
        · exact ⟨y, (mem_set_iff _ _ _ _ _ hi).mpr (.inr ⟨j, hj, hy⟩), e1, e2⟩
      · exact ⟨c', (mem_set_iff _ _ _ _ _ hi).mpr (.inl rfl), hme ▸ rfl, by rw [hh, inBitfield_append]; exact .inr e2⟩
    · rintro ⟨y, hy, e1, e2⟩
      rcases (mem_set_iff _ _ _ _ _ hi).mp hy with rfl | ⟨j, hj, hy⟩
      · rw [hh, inBitfield_append] at e2
        rcases e2 with e2 | e2
        · exact .inl ⟨c, List.mem_of_getElem? hi, by rw [← hme, e1], e2⟩
        · exact .inr ⟨by rw [← e1, hme], e2⟩
      · exact .inl ⟨y, List.mem_of_getElem? hy, e1, e2⟩

/-- only one connection changes, and no message was handled -/
theorem Good.conn {E : Env} {content : Bytes} {pl : Nat} {σ : Client} (g : Good E content pl σ) {i : Nat} {c : Conn} (hi : σ.conns[i]? = some c)
    (c' : Conn) (hme : c'.me = c.me) (hh : c'.handled = c.handled) (hok : ConnOk E content pl c') : Good E content pl (σ.set i c') :=
  g.update hi c' σ.ppt [] hme hok g.reached (fun i _ k => ⟨.inl, fun hx => hx.elim id (fun y => by obtain ⟨_, _, hm, _⟩ := y; cases hm)⟩) (by rw [hh, List.append_nil])

/-- a new connection -/
theorem Good.add {E : Env} {content : Bytes} {pl : Nat} {σ : Client} (g : Good E content pl σ) (c : Conn) (hh : c.handled = []) (hok : ConnOk E content pl c) :
    Good E content pl { σ with conns := σ.conns ++ [c] } := by
  refine ⟨?_, ?_, ?_⟩
  · obtain ⟨calls, h1, h2⟩ := g.reached
    exact ⟨calls, h1, fun x hx => let ⟨y, hy, e⟩ := h2 x hx; ⟨y, List.mem_append_left _ hy, e⟩⟩
  · intro x hx
    rcases List.mem_append.mp hx with hx | hx
    · exact g.conns x hx
    · rw [List.mem_singleton.mp hx]; exact hok
  · intro n hn k
    rw [g.registered n hn]
    constructor
    · rintro ⟨y, hy, e⟩
      exact ⟨y, List.mem_append_left _ hy, e⟩
    · rintro ⟨y, hy, e⟩
      rcases List.mem_append.mp hy with hy | hy
      · exact ⟨y, hy, e⟩
      · rw [List.mem_singleton.mp hy, hh] at e
        obtain ⟨-, _, hm, -⟩ := e
        cases hm

theorem delivered_nil {content : Bytes} {pl n : Nat} {ws : List Wire.Msg} (h : Delivered content pl n [] ws) : ws = [] := by
  generalize e : ([] : List Bytes) = bufs at h
  cases h with
  | nothing => rfl
  | messages => exact absurd e (by simp)
  | handshake => exact absurd e (by simp)

theorem delivered_snoc {content : Bytes} {pl n : Nat} {bufs : List Bytes} {buf : Bytes} {ws : List Wire.Msg} (h : Delivered content pl n (bufs ++ [buf]) ws) :
    ∃ ws' new fuel r, ws = ws' ++ new ∧ Delivered content pl n bufs ws' ∧ DecodeAll fuel buf = .ok ⟨new.map received, r⟩ := by
  generalize e : bufs ++ [buf] = all at h
  cases h with
  | nothing => exact absurd e (by simp)
  | messages bufs' ws' new h hp hl =>
    obtain ⟨rfl, e2⟩ := List.append_inj' e rfl
    obtain rfl := (List.cons.inj e2).1
    exact ⟨ws', new, _, _, rfl, h, decodeAll_stream new (fun w hw => polite_decodable (hp w hw)) hl⟩
  | handshake bufs' _ hs ih id h hh =>
    obtain ⟨rfl, e2⟩ := List.append_inj' e rfl
    obtain rfl := (List.cons.inj e2).1
    obtain ⟨r, hr⟩ := decodeAll_handshake _ _ _ hh
    exact ⟨ws, [], 2, r, by simp, h, hr⟩

theorem delivered_polite {content : Bytes} {pl n : Nat} {bufs : List Bytes} {ws : List Wire.Msg} (h : Delivered content pl n bufs ws) :
    ∀ w ∈ ws, Polite content pl n w := by
  induction h with
  | nothing => simp
  | messages bufs ws new h hp hl ih =>
    intro w hw
    rcases List.mem_append.mp hw with hw | hw
    · exact ih w hw
    · exact hp w hw
  | handshake bufs ws hs i id h hh ih => exact ih

theorem decodeAll_received (fuel : Nat) (buf : Bytes) (dar : DecodeAllResult) (h : DecodeAll fuel buf = .ok dar) :
    ∀ m ∈ dar.msgs, Decodable m.view ∧ m = received m.view := by
  obtain ⟨new, h1, -, -, h4⟩ := loop_sound fuel buf [] 0 dar h
  rw [h1, List.nil_append]
  exact h4

theorem reply_wire_ne (content : Bytes) (pl : Nat) (f : Nat → Bool) (ws : List Wire.Msg) :
    ((replies content pl f ws).map wire).filter (· ≠ wire .keepAlive) = (replies content pl f ws).map wire := by
  rw [List.filter_eq_self]
  intro x hx
  obtain ⟨w, hw, rfl⟩ := List.mem_map.mp hx
  obtain ⟨w', -, hr⟩ := List.mem_filterMap.mp hw
  cases w' with
  | request i b l =>
    simp only [reply] at hr
    split at hr
    · cases hr
      simp only [decide_eq_true_eq]
      intro e
      have := congrArg List.length e
      simp [length_wire, body, be32_length] at this
    · cases hr
  | _ => cases hr

theorem received_inj {a b : List Wire.Msg} (h : a.map received = b.map received) : a = b := by
  have := congrArg (List.map Msg.view) h
  simpa [List.map_map, Function.comp_def, view_received] using this

theorem greeting_filter {ih own bits : Bytes} {start : List Bytes} (h : Greeting ih own bits start) :
    start.filter (· ≠ wire .keepAlive) = start := by
  obtain ⟨hs, b, u, ⟨h1, h2, r, h3, rfl⟩, hb, hu, rfl⟩ := h
  have len : ∀ x : Bytes, 4 < x.length → x ≠ wire .keepAlive := by
    intro x hx e
    rw [e] at hx
    exact absurd hx (by decide)
  rw [List.filter_eq_self]
  intro x hx
  simp only [decide_eq_true_eq]
  apply len
  rcases List.mem_cons.mp hx with rfl | hx
  · simp only [List.length_append, List.length_cons, List.length_nil]; omega
  · rcases List.mem_append.mp hx with hx | hx
    · rcases hb with rfl | rfl
      · cases hx
      · rw [List.mem_singleton.mp hx]
        simp [length_wire, body]
    · rcases hu with rfl | rfl
      · cases hx
      · rw [List.mem_singleton.mp hx]
        decide

theorem first_spec (ok : Bool) (first : List Bytes) (h : firstMessage ok = .ok first) : first = [] ∨ first = [wire .unchoke] := by
  cases ok
  · exact .inl (Res.ok.inj h).symm
  · exact .inr (Res.ok.inj h).symm

theorem greeting_allowed {ih own bits : Bytes} {start : List Bytes} (h : Greeting ih own bits start) (content : Bytes) (pl n : Nat) (f : Nat → Bool) :
    ∀ x ∈ start, Allowed content pl n f ih own bits x := by
  obtain ⟨hs, b, u, h1, hb, hu, rfl⟩ := h
  intro x hx
  rcases List.mem_cons.mp hx with rfl | hx
  · exact .inl h1
  · rcases List.mem_append.mp hx with hx | hx
    · rcases hb with rfl | rfl
      · cases hx
      · exact .inr (.inl (List.mem_singleton.mp hx))
    · rcases hu with rfl | rfl
      · cases hx
      · exact .inr (.inr (.inl (List.mem_singleton.mp hx)))

/-- what a client is like when it can serve: see `Running`; the info-hash and the own id have 20 bytes -/
structure Ready (pl : Nat) (hashes : Bytes) (files : List EntryBase) (cs : List Bytes) (E : Env) : Prop where
  run : Running pl hashes files cs E.s (List.replicate pl 0)
  ih : E.infohash.length = 20
  own : E.ownId.length = 20

theorem newHandler {pl : Nat} {hashes : Bytes} {files : List EntryBase} {cs : List Bytes} {s : MsgHandler.Swarm} {buf : Bytes}
    (h : Running pl hashes files cs s buf) (p : Info) : ∃ b0, NewPeerHandler p s.tor = .ok ⟨p, ⟨false, false, false, false⟩, b0, List.replicate pl 0⟩ := by
  obtain ⟨name, hm⟩ := h.accepted.made
  obtain ⟨-, hp, -⟩ := C24_fields _ _ _ _ _ hm
  obtain ⟨b0, hb0, -⟩ := new_wf s.tor.numPieces
  refine ⟨b0, ?_⟩
  unfold NewPeerHandler
  rw [hp, if_neg (by omega), hb0]
  rfl

theorem newConn_ok {pl : Nat} {hashes : Bytes} {files : List EntryBase} {cs : List Bytes} {E : Env} (h : Ready pl hashes files cs E) (p : Info) (ph : Handler)
    (hp : NewPeerHandler p E.s.tor = .ok ph) (ptr : Nat) (start : List Bytes) (hg : Greeting E.infohash E.ownId E.s.bf.data start) :
    ConnOk E cs.flatten pl (newConn p ptr ph start) := by
  obtain ⟨b0, hb0⟩ := newHandler h.run p
  rw [hp] at hb0
  cases hb0
  refine ⟨by simp [newConn], ?_, ?_, by simp [newConn], start, hg, ?_⟩
  · intro j v hv
    simp only [newConn, List.getElem?_replicate] at hv
    split at hv
    · exact .inl (Option.some.inj hv).symm
    · cases hv
  · exact greeting_allowed hg _ _ _ _
  intro ws hws
  rw [delivered_nil hws]
  exact ⟨[], [], rfl, rfl, rfl, by simp only [newConn, replies, List.filterMap_nil, List.map_nil, List.append_nil]; exact greeting_filter hg, nofun⟩

theorem bf_fits {pl : Nat} {hashes : Bytes} {files : List EntryBase} {cs : List Bytes} {E : Env} (h : Ready pl hashes files cs E)
    (hn : E.s.tor.numPieces ≤ 2 ^ 32) : Wf E.s.bf ∧ Fits (.bitfield E.s.bf.data) := by
  obtain ⟨hsw, -⟩ := reachable_exact h.run.bf
  refine ⟨hsw, ?_⟩
  have h1 := hsw.data_len
  have h2 := hsw.lo8
  have h3 := hsw.hi
  have h4 := h.run.nbits
  simp only [Fits, body, List.length_cons]
  omega

theorem incoming_no_panic (v6 : IP → Bytes) (c : Incoming) (ih own : Bytes) (b : Bitfield) (hb : Wf b) (hf : Fits (.bitfield b.data)) :
    (FromIncoming v6 c ih own b).2 ≠ .panic := by
  have hm := C10_encode_wire_partial.2.2.2.2.2.2.2 b hb hf
  unfold FromIncoming
  rw [hm]
  cases c.tcp with
  | none => nofun
  | some a =>
    simp only
    split
    · nofun
    · cases c.read with
      | none => nofun
      | some d =>
        simp only
        split
        · nofun
        · rename_i hv
          split
          · nofun
          · split
            · nofun
            · have hlen : (readBuf d).length = 68 := by
                unfold ValidHandshake at hv
                apply Classical.byContradiction
                intro hne
                rw [if_pos (show (readBuf d).length ≠ HandshakeLen from hne)] at hv
                exact hv rfl
              have hid : Handshake.Id (readBuf d) = .ok (((readBuf d).take 68).drop 48) := slice_ok (by decide) (by omega)
              simp only [hid, Res.ok_bind]
              nofun

theorem nextPiece_good {pl : Nat} {hashes : Bytes} {files : List EntryBase} {cs : List Bytes} {E : Env} (h : Ready pl hashes files cs E) {σ : Client}
    (g : Good E cs.flatten pl σ) {i : Nat} {c : Conn} (hi : σ.conns[i]? = some c) :
    ∃ t n b, NextPiece σ.ppt E.s.bf c.me = .ok (t, n, b) ∧
      (∃ calls', Reached E.s.tor.numPieces calls' t ∧ ∀ x ∈ calls', ∃ y ∈ σ.conns, x.who.key = y.me.key) ∧
      (∀ i, i < E.s.tor.numPieces → ∀ k, RegisteredFor t i k ↔ RegisteredFor σ.ppt i k) := by
  obtain ⟨calls, hr, hk⟩ := g.reached
  obtain ⟨hsw, -⟩ := reachable_exact h.run.bf
  have h1 := hsw.data_len
  have h2 := hsw.hi
  have h3 := h.run.nbits
  have hval : (Call.next c.me E.s.bf).Valid E.s.tor.numPieces := by
    show E.s.tor.numPieces ≤ 8 * E.s.bf.data.length
    omega
  have hmem := List.mem_of_getElem? hi
  have keys : ∀ x ∈ calls ++ [Call.next c.me E.s.bf], ∃ y ∈ σ.conns, x.who.key = y.me.key := by
    intro x hx
    rcases List.mem_append.mp hx with hx | hx
    · exact hk x hx
    · rw [List.mem_singleton.mp hx]; exact ⟨c, hmem, rfl⟩
  rcases nextPiece_spec hr.inv E.s.bf hval c.me with ⟨n, e, -⟩ | ⟨e, -⟩
  · refine ⟨_, n, true, e, ⟨_, reached_append hr _ hval ?_, keys⟩, fun j hj k => ?_⟩
    · show (do let (t', _, _) ← NextPiece σ.ppt E.s.bf c.me; Res.ok t') = _
      rw [e, Res.ok_bind]
    · rfl
  · refine ⟨_, 0, false, e, ⟨calls, hr, hk⟩, fun j hj k => Iff.rfl⟩

theorem req_empty (fuel : Nat) (ti : TorInfo) (n : UInt32) (ms : List P2P.Msg) (h : createReqMessages fuel ti n = .ok ms) : ms = [] := by
  by_cases h0 : (2 ^ 32 : Int) ∣ lengthOf ti n.toNat
  · cases fuel with
    | zero => cases h
    | succ fuel => rw [C52_empty_partial ti n h0] at h; cases h; rfl
  · rw [C52_refuted_never_ends ti n h0] at h; cases h

/-- a message was handled, with or without error -/
theorem handled_ok {pl : Nat} {hashes : Bytes} {files : List EntryBase} {cs : List Bytes} {E : Env} (h : Ready pl hashes files cs E) {σ : Client}
    (g : Good E cs.flatten pl σ) {i : Nat} {c : Conn} (hi : σ.conns[i]? = some c) {m : P2P.Msg} {ms : List P2P.Msg} (ht : c.todo = m :: ms)
    {ok : Bool} {st : St} {r : Res Unit} (hh : handleOne E.s c.me (fun _ => ok) m (c.st σ.ppt) = (st, r)) :
    r ≠ .timeout ∧
    (r = .panic → ¬ AllPolite E cs.flatten pl σ) ∧
    (r = .ok () → Good E cs.flatten pl { σ.set i { c.after st with todo := ms, handled := c.handled ++ [m] } with ppt := st.ppt }) ∧
    (∀ e, r = .err e → Good E cs.flatten pl { σ.set i { c.after st with recv := .ended } with ppt := st.ppt }) := by
  have hmem := List.mem_of_getElem? hi
  obtain ⟨calls, hr, hk⟩ := g.reached
  have hc := g.conns c hmem
  obtain ⟨hd, hm⟩ := hc.todo m (by rw [ht]; simp)
  have hrun : Running pl hashes files cs E.s (c.st σ.ppt).buf := h.run.withBuf hc.buf
  have hany := handleOne_any (st := c.st σ.ppt) hrun calls hr c.me ok m.view hd
  rw [← hm, hh] at hany
  obtain ⟨hcl, hsent⟩ := handleOne_clean (st := c.st σ.ppt) hrun hc.clean E.infohash E.ownId c.me ok m.view
  rw [← hm, hh] at hcl hsent
  simp only at hcl hsent
  have hsent : ∀ x ∈ st.out, Allowed cs.flatten pl E.s.tor.numPieces (ours E.s) E.infohash E.ownId E.s.bf.data x :=
    fun x hx => (hsent x hx).elim (fun y => hc.sent x y) id
  have hpol : ∀ ws, Delivered cs.flatten pl E.s.tor.numPieces c.got ws → PoliteResult E.s cs.flatten pl calls c.me ok m.view (c.st σ.ppt) (st, r) := by
    intro ws hws
    obtain ⟨start, -, hs⟩ := hc.served
    obtain ⟨done, rest, e1, -, e3, -⟩ := hs ws hws
    have hp : Polite cs.flatten pl E.s.tor.numPieces m.view := by
      rw [ht] at e3
      cases rest with
      | nil => cases e3
      | cons w rest =>
        rw [List.map_cons] at e3
        rw [(List.cons.inj e3).1, view_received]
        exact delivered_polite hws w (by rw [e1]; simp)
    have := handleOne_out (st := c.st σ.ppt) hrun calls hr c.me ok m.view hp
    rw [← hm, hh] at this
    exact this
  have hcalls : ∀ calls' : List Call, (∀ x ∈ calls', x ∈ calls ∨ x.who = c.me) → ∀ x ∈ calls', ∃ y ∈ σ.conns, x.who.key = y.me.key := by
    intro calls' hx x hxm
    rcases hx x hxm with hx | hx
    · exact hk x hx
    · exact ⟨c, hmem, by rw [hx]⟩
  have hout : ∀ ws, Delivered cs.flatten pl E.s.tor.numPieces c.got ws → ∀ start done rest, ws = done ++ rest → c.handled = done.map received → c.todo = rest.map received →
      c.out.filter (· ≠ wire .keepAlive) = start ++ (replies cs.flatten pl (ours E.s) done).map wire →
      ∃ rest', rest = m.view :: rest' ∧ ms = rest'.map received ∧ c.handled ++ [m] = (done ++ [m.view]).map received ∧
        (r = .ok () → st.out.filter (· ≠ wire .keepAlive) = start ++ (replies cs.flatten pl (ours E.s) (done ++ [m.view])).map wire) ∧
        (r ≠ .ok () → st.out = c.out) := by
    intro ws hws start done rest e1 e2 e3 e4
    rw [ht] at e3
    cases rest with
    | nil => cases e3
    | cons w rest =>
      rw [List.map_cons] at e3
      obtain ⟨e5, e6⟩ := List.cons.inj e3
      have hw : m.view = w := by rw [e5, view_received]
      obtain ⟨p1, p2, -, -⟩ := hpol ws hws
      refine ⟨rest, by rw [hw], e6, by rw [e2, List.map_append, List.map_cons, List.map_nil, ← hm], fun hok => ?_, fun hno => p2 hno⟩
      have := p1 hok
      simp only at this
      rw [this]
      show (c.out ++ _).filter _ = _
      rw [List.filter_append, e4, reply_wire_ne, replies_append, List.map_append, List.append_assoc]
  refine ⟨?_, ?_, ?_, ?_⟩
  · rcases hany with hp | hp
    · simp only at hp; rw [hp]; nofun
    · exact hp.1
  · rintro rfl ⟨hall, keys, hl, hkeys⟩
    obtain ⟨ws, hws⟩ := hall c hmem
    obtain ⟨-, -, -, p4⟩ := hpol ws hws
    refine p4 keys ⟨hl, hkeys c hmem, fun x hx => ?_⟩ rfl
    obtain ⟨y, hy, e⟩ := hk x hx
    rw [e]
    exact hkeys y hy
  · rintro rfl
    rcases hany with hp | ⟨-, hb, calls', h1, h2, h3⟩
    · cases hp
    · refine g.update hi _ st.ppt [m.view] rfl ⟨hb, hcl, hsent, ?_, ?_⟩ ⟨calls', h1, hcalls calls' h2⟩ ?_ (by simp)
      · intro x hx
        exact hc.todo x (by rw [ht]; exact List.mem_cons_of_mem _ hx)
      · obtain ⟨start, hg, hs⟩ := hc.served
        refine ⟨start, hg, fun ws hws => ?_⟩
        obtain ⟨done, rest, e1, e2, e3, e4, e5⟩ := hs ws hws
        obtain ⟨rest', f1, f2, f3, f4, -⟩ := hout ws hws start done rest e1 e2 e3 e4
        exact ⟨done ++ [m.view], rest', by rw [e1, f1, List.append_assoc]; rfl, f3, f2, f4 rfl, e5⟩
      · intro n hn k
        rw [h3 n hn k]
        simp [Conn.st]
  · rintro e rfl
    rcases hany with hp | ⟨-, hb, calls', h1, h2, h3⟩
    · cases hp
    · refine g.update hi _ st.ppt [] rfl ⟨hb, hcl, hsent, hc.todo, ?_⟩ ⟨calls', h1, hcalls calls' h2⟩ ?_ (by simp [Conn.after])
      · obtain ⟨start, hg, hs⟩ := hc.served
        refine ⟨start, hg, fun ws hws => ?_⟩
        obtain ⟨done, rest, e1, e2, e3, e4, e5⟩ := hs ws hws
        obtain ⟨rest', -, -, -, -, f5⟩ := hout ws hws start done rest e1 e2 e3 e4
        exact ⟨done, rest, e1, e2, e3, by rw [← e4]; show st.out.filter _ = _; rw [f5 nofun], nofun⟩
      · intro n hn k
        rw [h3 n hn k]
        simp [Conn.st, InBitfield]

theorem step_sound {pl : Nat} {hashes : Bytes} {files : List EntryBase} {cs : List Bytes} {E : Env} (h : Ready pl hashes files cs E) {σ σ' : Client}
    (hs : Sound E cs.flatten pl σ) (step : Step E σ σ') : Sound E cs.flatten pl σ' := by
  have good : σ.crashed = false → Good E cs.flatten pl σ := hs.1
  have keep : σ'.crashed = false → Good E cs.flatten pl σ' → Sound E cs.flatten pl σ' := fun e g => ⟨fun _ => g, fun h => (by rw [e] at h; cases h)⟩
  have dead : σ'.crashed = true → ¬ AllPolite E cs.flatten pl σ' → Sound E cs.flatten pl σ' := fun e g => ⟨fun h => (by rw [e] at h; cases h), fun _ => g⟩
  have npieces : σ.crashed = false → E.s.tor.numPieces ≤ 2 ^ 32 := fun e => let ⟨_, hr, _⟩ := (good e).reached; hr.1
  cases step with
  | incoming c out first p ph ptr ok hc h1 h2 h3 =>
    obtain ⟨hwf, hfits⟩ := bf_fits h (npieces hc)
    have hans := C41_answer E.v6 c E.infohash E.ownId E.s.bf hwf hfits p (by rw [h1])
    rw [h1] at hans
    simp only at hans
    refine keep hc ((good hc).add _ rfl (newConn_ok h p ph h2 ptr _ ?_))
    refine ⟨MakeHandshake E.infohash E.ownId, [wire (.bitfield E.s.bf.data)], first, (C40_made _ _ E.infohash h.ih h.own).1, .inr rfl, first_spec ok first h3, ?_⟩
    rw [hans]; rfl
  | incomingPanic c hc hp =>
    obtain ⟨hwf, hfits⟩ := bf_fits h (npieces hc)
    rcases hp with hp | ⟨p, -, hp⟩
    · exact absurd hp (incoming_no_panic _ _ _ _ _ hwf hfits)
    · obtain ⟨b0, e⟩ := newHandler h.run p
      rw [hp] at e; cases e
  | outgoing p p' out first ph ptr ok hc h1 h2 h3 =>
    have e : out = [MakeHandshake E.infohash E.ownId] := by
      unfold FromBootstrap at h1
      simp at h1
      exact h1.1.symm
    refine keep hc ((good hc).add _ rfl (newConn_ok h p ph (by unfold FromBootstrap at h1; simp at h1; rw [h1.2]; exact h2) ptr _ ?_))
    exact ⟨MakeHandshake E.infohash E.ownId, [], first, (C40_made _ _ E.infohash h.ih h.own).1, .inl rfl, first_spec ok first h3, by rw [e]; rfl⟩
  | outgoingPanic p hc hp =>
    obtain ⟨b0, e⟩ := newHandler h.run p
    rw [hp] at e; cases e
  | receive i c buf fuel dar hc hi hr ht hd =>
    have hcok := (good hc).conns c (List.mem_of_getElem? hi)
    refine keep hc ((good hc).conn hi _ rfl rfl ⟨hcok.buf, hcok.clean, hcok.sent, decodeAll_received fuel buf dar hd, ?_⟩)
    obtain ⟨start, hg, hsv⟩ := hcok.served
    refine ⟨start, hg, fun ws hws => ?_⟩
    obtain ⟨ws', new, f, r, e1, hd', hf⟩ := delivered_snoc hws
    obtain ⟨done, rest, e2, e3, e4, e5, e6⟩ := hsv ws' hd'
    rw [ht] at e4
    obtain rfl := List.map_eq_nil_iff.mp e4.symm
    have := decodeAll_unique fuel f buf (by rw [hd]; nofun) (by rw [hf]; nofun)
    rw [hd, hf] at this
    cases this
    exact ⟨done, new, by rw [e1, e2, List.append_nil], e3, rfl, e5, e6⟩
  | receivePanic i c buf fuel hc hi hr ht hd =>
    refine dead rfl ?_
    rintro ⟨hall, -⟩
    obtain ⟨ws, hws⟩ := hall { c with got := c.got ++ [buf] } ((mem_set_iff _ _ _ _ _ hi).mpr (.inl rfl))
    obtain ⟨ws', new, f, r, -, -, hf⟩ := delivered_snoc hws
    have := decodeAll_unique fuel f buf (by rw [hd]; nofun) (by rw [hf]; nofun)
    rw [hd, hf] at this
    cases this
  | receiveHangs i c buf hc hi hr ht hd =>
    have hcok := (good hc).conns c (List.mem_of_getElem? hi)
    refine keep hc ((good hc).conn hi _ rfl rfl ⟨hcok.buf, hcok.clean, hcok.sent, hcok.todo, ?_⟩)
    obtain ⟨start, hg, hsv⟩ := hcok.served
    refine ⟨start, hg, fun ws hws => ?_⟩
    obtain ⟨ws', new, f, r, -, -, hf⟩ := delivered_snoc hws
    rw [hd f] at hf
    cases hf
  | handle i c m ms ok st hc hi hr ht hh => exact keep hc ((handled_ok h (good hc) hi ht hh).2.2.1 rfl)
  | handleError i c m ms ok st e hc hi hr ht hh => exact keep hc ((handled_ok h (good hc) hi ht hh).2.2.2 e rfl)
  | handlePanic i c m ms ok st hc hi hr ht hh => exact dead rfl ((handled_ok h (good hc) hi ht hh).2.1 rfl)
  | handleHangs i c m ms ok st hc hi hr ht hh => exact absurd rfl (handled_ok h (good hc) hi ht hh).1
  | request i c t n fuel ms ws out hc hi hb ha hq hn hm hw ho =>
    obtain ⟨t', n', b', e, h1, h2⟩ := nextPiece_good h (good hc) hi
    rw [hn] at e
    cases e
    have hcok := (good hc).conns c (List.mem_of_getElem? hi)
    obtain rfl := req_empty fuel _ _ _ hm
    obtain rfl : ws = [] := by cases ws with
      | nil => rfl
      | cons => cases hw
    obtain rfl := List.sublist_nil.mp ho
    refine keep hc ((good hc).update hi _ t [] rfl ⟨hcok.buf, hcok.clean, by rw [List.append_nil]; exact hcok.sent, hcok.todo, ?_⟩ h1 ?_ (by simp))
    · rw [List.append_nil]; exact hcok.served
    · intro j hj k; rw [h2 j hj k]; simp [InBitfield]
  | requestHangs i c t n hc hi hb ha hq hn hm =>
    obtain ⟨t', n', b', e, h1, h2⟩ := nextPiece_good h (good hc) hi
    rw [hn] at e
    cases e
    have hcok := (good hc).conns c (List.mem_of_getElem? hi)
    refine keep hc ((good hc).update hi _ t [] rfl ⟨hcok.buf, hcok.clean, hcok.sent, hcok.todo, hcok.served⟩ h1 ?_ (by simp))
    intro j hj k; rw [h2 j hj k]; simp [InBitfield]
  | requestNone i c t n hc hi hb ha hq hn =>
    obtain ⟨t', n', b', e, h1, h2⟩ := nextPiece_good h (good hc) hi
    rw [hn] at e
    cases e
    refine keep hc ⟨h1, (good hc).conns, fun j hj k => ?_⟩
    show RegisteredFor t j k ↔ _
    rw [h2 j hj k]
    exact (good hc).registered j hj k
  | requestPanic i c hc hi hb ha hq hn =>
    obtain ⟨t', n', b', e, -⟩ := nextPiece_good h (good hc) hi
    rw [hn] at e
    cases e
  | ping i c m hc hi hm =>
    have hcok := (good hc).conns c (List.mem_of_getElem? hi)
    refine keep hc ((good hc).conn hi _ rfl rfl ⟨hcok.buf, hcok.clean, ?_, hcok.todo, ?_⟩)
    · intro x hx
      rcases List.mem_append.mp hx with hx | hx
      · exact hcok.sent x hx
      · rw [List.mem_singleton.mp hx]
        exact .inr (.inr (.inr (.inl (Res.ok.inj hm).symm)))
    obtain ⟨start, hg, hsv⟩ := hcok.served
    refine ⟨start, hg, fun ws hws => ?_⟩
    obtain ⟨done, rest, e1, e2, e3, e4, e5⟩ := hsv ws hws
    refine ⟨done, rest, e1, e2, e3, ?_, e5⟩
    show (c.out ++ [m]).filter _ = _
    have : m = wire .keepAlive := (Res.ok.inj hm).symm
    rw [List.filter_append, e4, this]
    simp

theorem initial_sound (E : Env) (content : Bytes) (pl : Nat) (σ : Client) (h : Initial E σ) (hn : E.s.tor.numPieces ≤ 2 ^ 32) : Sound E content pl σ := by
  obtain ⟨h1, h2, h3⟩ := h
  refine ⟨fun _ => ⟨⟨[], ⟨hn, nofun, σ.ppt, h1, rfl⟩, nofun⟩, by rw [h2]; nofun, ?_⟩, fun hc => (by rw [h3] at hc; cases hc)⟩
  intro i hi k
  obtain ⟨t, e, iv, -⟩ := new_spec E.s.tor.numPieces
  rw [h1] at e
  cases e
  rw [iv.registered i hi, h2]
  simp [Avail.empty]

theorem reach_sound {pl : Nat} {hashes : Bytes} {files : List EntryBase} {cs : List Bytes} {E : Env} (h : Ready pl hashes files cs E)
    (hn : E.s.tor.numPieces ≤ 2 ^ 32) {σ₀ σ : Client} (h0 : Initial E σ₀) (hr : Reach (Step E) σ₀ σ) : Sound E cs.flatten pl σ := by
  induction hr with
  | refl => exact initial_sound E _ _ _ h0 hn
  | tail σ1 σ2 _ hs ih => exact step_sound h ih hs

/-! ### C76 -/

/-- every connection has the text of its peer as its key -/
theorem reach_keys {E : Env} {σ₀ σ : Client} (h0 : Initial E σ₀) (hr : Reach (Step E) σ₀ σ) : ∀ c ∈ σ.conns, c.me.key = c.peer.str := by
  induction hr with
  | refl => rw [h0.2.1]; nofun
  | tail σ σ' hr hs ih =>
    have add : ∀ (p p' : Info) (ph : Handler) (ptr : Nat) (out : List Bytes), p' = p → NewPeerHandler p' E.s.tor = .ok ph →
        ∀ c ∈ σ.conns ++ [newConn p ptr ph out], c.me.key = c.peer.str := by
      intro p p' ph ptr out e hp c hc
      rcases List.mem_append.mp hc with hc | hc
      · exact ih c hc
      · rw [List.mem_singleton.mp hc]
        unfold NewPeerHandler at hp
        split at hp
        · cases hp
        · obtain ⟨b, -, hb⟩ := Res.bind_eq_ok.mp hp
          cases hb
          rw [e]; rfl
    have upd : ∀ (i : Nat) (c c' : Conn), σ.conns[i]? = some c → c'.me = c.me → c'.peer = c.peer → ∀ x ∈ σ.conns.set i c', x.me.key = x.peer.str := by
      intro i c c' hi e1 e2 x hx
      rcases List.mem_or_eq_of_mem_set hx with hx | rfl
      · exact ih x hx
      · rw [e1, e2]; exact ih c (List.mem_of_getElem? hi)
    cases hs with
    | incoming c out first p ph ptr ok hc h1 h2 h3 => exact add p p ph ptr _ rfl h2
    | outgoing p p' out first ph ptr ok hc h1 h2 h3 => exact add p p' ph ptr _ (by unfold FromBootstrap at h1; simp at h1; exact h1.2.symm) h2
    | incomingPanic => exact ih
    | outgoingPanic => exact ih
    | receive i c buf fuel dar hc hi hr ht hd => exact upd i c _ hi rfl rfl
    | receivePanic i c buf fuel hc hi hr ht hd => exact upd i c _ hi rfl rfl
    | receiveHangs i c buf hc hi hr ht hd => exact upd i c _ hi rfl rfl
    | handle i c m ms ok st hc hi hr ht hh => exact upd i c _ hi rfl rfl
    | handleError i c m ms ok st e hc hi hr ht hh => exact upd i c _ hi rfl rfl
    | handlePanic => exact ih
    | handleHangs i c m ms ok st hc hi hr ht hh => exact upd i c _ hi rfl rfl
    | request i c t n fuel ms ws out hc hi hb ha hq hn hm hw ho => exact upd i c _ hi rfl rfl
    | requestHangs i c t n hc hi hb ha hq hn hm => exact upd i c _ hi rfl rfl
    | requestNone => exact ih
    | requestPanic => exact ih
    | ping i c m hc hi hm => exact upd i c _ hi rfl rfl

/-- **C76**: in every execution, with any number of peers, each doing anything at all: a peer whose own messages keep to the protocol is served
correctly.  Apart from keep-alive messages, what has been written to its connection is the greeting and exactly the answers to its messages handled so far,
which are the first of those it has sent; all of them, if its receiving loop waits for the next buffer.  It never gets stuck.
Missing from the property: another peer can end the whole process (`C76_refuted_crash`). -/
theorem C76_served_partial {pl : Nat} {hashes : Bytes} {files : List EntryBase} {cs : List Bytes} {E : Env} (h : Ready pl hashes files cs E)
    (hn : E.s.tor.numPieces ≤ 2 ^ 32) (σ₀ σ : Client) (h0 : Initial E σ₀) (hr : Reach (Step E) σ₀ σ) (hc : σ.crashed = false) (c : Conn) (hm : c ∈ σ.conns)
    (ws : List Wire.Msg) (hw : Delivered cs.flatten pl E.s.tor.numPieces c.got ws) :
    ∃ start done rest, Greeting E.infohash E.ownId E.s.bf.data start ∧ ws = done ++ rest ∧ c.handled = done.map received ∧
      c.out.filter (· ≠ wire .keepAlive) = start ++ (replies cs.flatten pl (ours E.s) done).map wire ∧ (c.todo = [] → rest = []) ∧ c.recv ≠ .hangs := by
  obtain ⟨start, hg, hs⟩ := ((reach_sound h hn h0 hr).1 hc).conns c hm |>.served
  obtain ⟨done, rest, e1, e2, e3, e4, e5⟩ := hs ws hw
  exact ⟨start, done, rest, hg, e1, e2, e4, fun e => by rw [e] at e3; exact List.map_eq_nil_iff.mp e3.symm, e5⟩

/-- **C76**, and its next message can be handled, whatever the others have done: with a working connection the next step of its receiving loop
answers the message, unless a piece gets its 64th peer. -/
theorem C76_next_partial {pl : Nat} {hashes : Bytes} {files : List EntryBase} {cs : List Bytes} {E : Env} (h : Ready pl hashes files cs E)
    (hn : E.s.tor.numPieces ≤ 2 ^ 32) (σ₀ σ : Client) (h0 : Initial E σ₀) (hr : Reach (Step E) σ₀ σ) (hc : σ.crashed = false) (i : Nat) (c : Conn)
    (hi : σ.conns[i]? = some c) (hrun : c.recv = .running) (m : P2P.Msg) (ms : List P2P.Msg) (ht : c.todo = m :: ms)
    (ws : List Wire.Msg) (hw : Delivered cs.flatten pl E.s.tor.numPieces c.got ws)
    (hfew : ∃ keys : List Bytes, keys.length ≤ 63 ∧ ∀ x ∈ σ.conns, x.peer.str ∈ keys) :
    ∃ σ' c', Step E σ σ' ∧ σ'.crashed = false ∧ σ'.conns = σ.conns.set i c' ∧ c'.todo = ms ∧ c'.handled = c.handled ++ [m] ∧ c'.recv = .running ∧
      c'.got = c.got ∧ c'.me = c.me ∧ c'.peer = c.peer ∧ c'.asking = c.asking := by
  have g := (reach_sound h hn h0 hr).1 hc
  have hmem := List.mem_of_getElem? hi
  have hok := g.conns c hmem
  obtain ⟨hd, hmv⟩ := hok.todo m (by rw [ht]; simp)
  have hrn : Running pl hashes files cs E.s (c.st σ.ppt).buf := h.run.withBuf hok.buf
  obtain ⟨start, -, hs⟩ := hok.served
  obtain ⟨done, rest, e1, -, e3, -⟩ := hs ws hw
  have hp : Polite cs.flatten pl E.s.tor.numPieces m.view := by
    rw [ht] at e3
    cases rest with
    | nil => cases e3
    | cons w rest =>
      rw [List.map_cons] at e3
      rw [(List.cons.inj e3).1, view_received]
      exact delivered_polite hw w (by rw [e1]; simp)
  obtain ⟨calls, hcr, hk⟩ := g.reached
  obtain ⟨-, -, p3, p4⟩ := handleOne_out (st := c.st σ.ppt) hrn calls hcr c.me true m.view hp
  have hto := (handled_ok h g hi ht (ok := true) (st := (handleOne E.s c.me (fun _ => true) m (c.st σ.ppt)).1) (r := (handleOne E.s c.me (fun _ => true) m (c.st σ.ppt)).2) rfl).1
  obtain ⟨keys, hl, hkeys'⟩ := hfew
  have hkeys : ∀ x ∈ σ.conns, x.me.key ∈ keys := fun x hx => by rw [reach_keys h0 hr x hx]; exact hkeys' x hx
  have hnp := p4 keys ⟨hl, hkeys c hmem, fun x hx => by obtain ⟨y, hy, e⟩ := hk x hx; rw [e]; exact hkeys y hy⟩
  rw [← hmv] at p3 hnp
  obtain ⟨st, r, e⟩ : ∃ st r, handleOne E.s c.me (fun _ => true) m (c.st σ.ppt) = (st, r) := ⟨_, _, rfl⟩
  rw [e] at p3 hnp hto
  cases r with
  | ok u => exact ⟨_, _, .handle i c m ms true st hc hi hrun ht e, hc, rfl, rfl, rfl, hrun, rfl, rfl, rfl, rfl⟩
  | err er => exact absurd (p3 er rfl) (by decide)
  | panic => exact absurd rfl hnp
  | timeout => exact absurd rfl hto

/-- **C76**: whatever a peer does, nothing else is ever sent to it than our handshake, our bitfield, unchoke and keep-alive messages, and blocks
of pieces that we have; these contain only bytes of pieces that we have, or zero bytes. -/
theorem C76_only {pl : Nat} {hashes : Bytes} {files : List EntryBase} {cs : List Bytes} {E : Env} (h : Ready pl hashes files cs E)
    (hn : E.s.tor.numPieces ≤ 2 ^ 32) (σ₀ σ : Client) (h0 : Initial E σ₀) (hr : Reach (Step E) σ₀ σ) (hc : σ.crashed = false) (c : Conn) (hm : c ∈ σ.conns)
    (x : Bytes) (hx : x ∈ c.out) : Allowed cs.flatten pl E.s.tor.numPieces (ours E.s) E.infohash E.ownId E.s.bf.data x :=
  ((reach_sound h hn h0 hr).1 hc).conns c hm |>.sent x hx

/-- **C76**: at any time a peer is registered for a piece precisely if a bitfield with that piece came on one of its connections and was handled. -/
theorem C76_registered {pl : Nat} {hashes : Bytes} {files : List EntryBase} {cs : List Bytes} {E : Env} (h : Ready pl hashes files cs E)
    (hn : E.s.tor.numPieces ≤ 2 ^ 32) (σ₀ σ : Client) (h0 : Initial E σ₀) (hr : Reach (Step E) σ₀ σ) (hc : σ.crashed = false)
    (i : Nat) (hi : i < E.s.tor.numPieces) (k : Bytes) :
    RegisteredFor σ.ppt i k ↔ ∃ c ∈ σ.conns, c.peer.str = k ∧ InBitfield (c.handled.map Msg.view) i := by
  rw [((reach_sound h hn h0 hr).1 hc).registered i hi k]
  refine exists_congr fun c => and_congr_right fun hm => ?_
  rw [reach_keys h0 hr c hm]

/-- **C76** (partial: at most 63 peers, all keeping to the protocol).  Then the client never crashes. -/
theorem C76_no_crash_partial {pl : Nat} {hashes : Bytes} {files : List EntryBase} {cs : List Bytes} {E : Env} (h : Ready pl hashes files cs E)
    (hn : E.s.tor.numPieces ≤ 2 ^ 32) (σ₀ σ : Client) (h0 : Initial E σ₀) (hr : Reach (Step E) σ₀ σ)
    (hp : ∀ c ∈ σ.conns, ∃ ws, Delivered cs.flatten pl E.s.tor.numPieces c.got ws)
    (hk : ∃ keys : List Bytes, keys.length ≤ 63 ∧ ∀ c ∈ σ.conns, c.peer.str ∈ keys) : σ.crashed = false := by
  obtain ⟨keys, hl, hk⟩ := hk
  have hk : ∃ keys : List Bytes, keys.length ≤ 63 ∧ ∀ c ∈ σ.conns, c.me.key ∈ keys := ⟨keys, hl, fun c hm => by rw [reach_keys h0 hr c hm]; exact hk c hm⟩
  cases e : σ.crashed with
  | false => rfl
  | true => exact absurd ⟨hp, hk⟩ ((reach_sound h hn h0 hr).2 e)

theorem crashed_stuck {E : Env} {σ : Client} (h : σ.crashed = true) : Stuck (Step E) σ := by
  intro σ' hs
  cases hs <;> simp_all

/-- **C76** is false: in every state of every client a new peer that sends a handshake and 13 bytes ends the process, and no other
connection is ever served again. -/
theorem C76_refuted_crash {pl : Nat} {hashes : Bytes} {files : List EntryBase} {cs : List Bytes} {E : Env} (h : Ready pl hashes files cs E)
    (hn : E.s.tor.numPieces ≤ 2 ^ 32) (σ : Client) (hc : σ.crashed = false) :
    ∃ σ' c, Reach (Step E) σ σ' ∧ σ'.crashed = true ∧ σ'.conns = σ.conns ++ [c] ∧ (c.got.flatten).length = 13 ∧ Stuck (Step E) σ' := by
  obtain ⟨hwf, hfits⟩ := bf_fits h hn
  have hid : (List.replicate 20 7 : Bytes).length = 20 := by decide
  have hmade := (C40_made E.infohash (List.replicate 20 7) E.infohash h.ih hid).1
  have hlen := isHandshake_length hmade
  have hacc : (FromIncoming E.v6 ⟨some ([1, 2, 3, 4], 9), true, some (MakeHandshake E.infohash (List.replicate 20 7)), true, true⟩ E.infohash E.ownId E.s.bf).2 =
      .ok (MakePeer E.v6 (List.replicate 20 7) [1, 2, 3, 4] 9) := by
    refine (C41_accept_iff_partial _ _ _ _ _ hwf (fun d hd => by cases hd; omega) _).mpr ⟨_, _, _, _, rfl, rfl, rfl, rfl, rfl, ?_, rfl⟩
    rw [hlen, Nat.sub_self, List.replicate_zero, List.append_nil]
    exact hmade
  obtain ⟨b0, hph⟩ := newHandler h.run (MakePeer E.v6 (List.replicate 20 7) [1, 2, 3, 4] 9)
  have h1 := Step.incoming (E := E) (σ := σ) _ _ _ _ _ 0 true hc (Prod.ext rfl hacc) hph (show firstMessage true = .ok [wire .unchoke] from rfl)
  obtain ⟨c, hcd⟩ : ∃ c, c = newConn (MakePeer E.v6 (List.replicate 20 7) [1, 2, 3, 4] 9) 0 ⟨MakePeer E.v6 (List.replicate 20 7) [1, 2, 3, 4] 9, ⟨false, false, false, false⟩, b0, List.replicate pl 0⟩
    ((FromIncoming E.v6 ⟨some ([1, 2, 3, 4], 9), true, some (MakeHandshake E.infohash (List.replicate 20 7)), true, true⟩ E.infohash E.ownId E.s.bf).1 ++ [wire .unchoke]) := ⟨_, rfl⟩
  rw [← hcd] at h1
  have e1 : c.recv = .running := by rw [hcd]; rfl
  have e2 : c.todo = [] := by rw [hcd]; rfl
  have e3 : c.got = [] := by rw [hcd]; rfl
  have h2 := Step.receivePanic (E := E) (σ := { σ with conns := σ.conns ++ [c] }) σ.conns.length c [0, 0, 0, 9, 7, 0, 0, 0, 0, 0, 0, 0, 0] 1 hc
    (by simp) e1 e2 (by decide +kernel)
  refine ⟨_, { c with got := c.got ++ [[0, 0, 0, 9, 7, 0, 0, 0, 0, 0, 0, 0, 0]] }, .tail _ _ (.tail _ _ .refl h1) h2, rfl, ?_, by simp [e3], crashed_stuck rfl⟩
  show (σ.conns ++ [c]).set σ.conns.length _ = _
  simp

/-! ### an example -/

/-- a client with a peer that has sent its bitfield and asked for a block of piece 1, and has got it, while another peer has sent garbage -/
theorem exPeers : ∃ (E : Env) (σ₀ σ : Client) (c : Conn), Ready 4 exHashes exFiles [[1, 2, 3, 4, 5], [], [6, 7, 8, 9, 10, 11, 12, 13]] E ∧ E.s.tor.numPieces ≤ 2 ^ 32 ∧
    Initial E σ₀ ∧ Reach (Step E) σ₀ σ ∧ σ.crashed = false ∧ c ∈ σ.conns ∧ σ.conns[0]? = some c ∧ c.asking = true ∧ c.todo = [] ∧ E.s.bf.Complete = false ∧ ours E.s 0 = false ∧
    E.s.tor.numPieces = 4 ∧ σ.conns.length = 2 ∧ wire (.piece 1 1 [6, 7]) ∈ c.out ∧
    Delivered [1, 2, 3, 4, 5, 6, 7, 8, 9, 10, 11, 12, 13] 4 E.s.tor.numPieces c.got [.bitfield [0x80], .request 1 1 2] := by
  obtain ⟨s, t, hrun, hn, h1, h0m, hr⟩ := exStart
  obtain ⟨-, -, t0, ht0, e⟩ := hr
  cases e
  have hE : Ready 4 exHashes exFiles [[1, 2, 3, 4, 5], [], [6, 7, 8, 9, 10, 11, 12, 13]] (⟨s, List.replicate 20 1, List.replicate 20 2, fun _ => []⟩ : Env) :=
    ⟨hrun, List.length_replicate, List.length_replicate⟩
  have hlt : s.tor.numPieces ≤ 2 ^ 32 := by rw [hn]; decide
  generalize hEd : (⟨s, List.replicate 20 1, List.replicate 20 2, fun _ => []⟩ : Env) = E at hE
  have hs : E.s = s := by rw [← hEd]
  rw [← hs] at hn h1 ht0 hlt h0m
  have hcompl : E.s.bf.Complete = false := by
    cases hc : E.s.bf.Complete with
    | false => rfl
    | true =>
      have := complete_get hE.run 0 (by rw [hn]; decide) hc
      rw [get_nat, if_pos (in_range hE.run 0 (by rw [hn]; decide))] at this
      exact absurd (Res.ok.inj this) (by rw [show bit E.s.bf.data 0 = false from h0m]; decide)
  obtain ⟨b0, hp0⟩ := newHandler hE.run (MakePeer (fun _ => []) [] [1, 2, 3, 4] 1)
  obtain ⟨b1, hp1⟩ := newHandler hE.run (MakePeer (fun _ => []) [] [1, 2, 3, 5] 1)
  have s1 := Step.outgoing (E := E) (σ := ⟨t, [], false⟩) (MakePeer (fun _ => []) [] [1, 2, 3, 4] 1) _ _ _ _ 1 true rfl rfl hp0 (show firstMessage true = .ok [wire .unchoke] from rfl)
  generalize hc0 : newConn _ 1 _ _ = c0 at s1
  have r0 : c0.recv = .running ∧ c0.todo = [] ∧ c0.got = [] ∧ c0.asking = true := by rw [← hc0]; exact ⟨rfl, rfl, rfl, rfl⟩
  have s2 := Step.outgoing (E := E) (σ := ⟨t, [] ++ [c0], false⟩) (MakePeer (fun _ => []) [] [1, 2, 3, 5] 1) _ _ _ _ 2 true rfl rfl hp1 (show firstMessage true = .ok [wire .unchoke] from rfl)
  generalize hc1 : newConn _ 2 _ _ = c1 at s2
  have r1 : c1.recv = .running ∧ c1.todo = [] := by rw [← hc1]; exact ⟨rfl, rfl⟩
  have s3 := Step.receive (E := E) (σ := ⟨t, [] ++ [c0] ++ [c1], false⟩) 1 c1 [0, 0, 0, 2, 9, 9, 1] 9 ⟨[], 0⟩ rfl rfl r1.1 r1.2 (by decide +kernel)
  generalize hc2 : ({ c1 with got := c1.got ++ [[0, 0, 0, 2, 9, 9, 1]], todo := (DecodeAllResult.mk [] 0).msgs } : Conn) = c2 at s3
  have hdec := decodeAll_stream [.bitfield [0x80], .request 1 1 2] (by intro w hw; simp only [List.mem_cons, List.not_mem_nil, or_false] at hw; rcases hw with rfl | rfl <;> simp [Decodable]) (by decide)
  have s4 := Step.receive (E := E) (σ := ⟨t, [c0, c2], false⟩) 0 c0 _ _ _ rfl rfl r0.1 r0.2.1 hdec
  generalize hc3 : ({ c0 with got := _, todo := _ } : Conn) = c3 at s4
  have r3 : c3.recv = .running ∧ c3.todo = [received (.bitfield [0x80]), received (.request 1 1 2)] ∧ c3.got = [stream [.bitfield [0x80], .request 1 1 2]] ∧ c3.asking = true := by
    rw [← hc3]; exact ⟨r0.1, rfl, by simp [r0.2.2.1], r0.2.2.2⟩
  have hin : Initial E ⟨t, [], false⟩ := ⟨ht0, rfl, rfl⟩
  have reach4 : Reach (Step E) ⟨t, [], false⟩ ⟨t, [c3, c2], false⟩ := .tail _ _ (.tail _ _ (.tail _ _ (.tail _ _ .refl s1) s2) s3) s4
  have hdel : Delivered [1, 2, 3, 4, 5, 6, 7, 8, 9, 10, 11, 12, 13] 4 E.s.tor.numPieces c3.got [.bitfield [0x80], .request 1 1 2] := by
    rw [r3.2.2.1]
    refine Delivered.messages [] [] _ .nothing ?_ (by decide)
    intro w hw
    simp only [List.mem_cons, List.not_mem_nil, or_false] at hw
    rcases hw with rfl | rfl
    · exact ⟨by decide, by rw [hn]; decide⟩
    · exact ⟨by rw [hn]; decide, by decide⟩
  obtain ⟨σ5, c5, s5, k1, k2, k3, k4, k5, k6, k7, k8, k9⟩ := C76_next_partial hE hlt _ _ hin reach4 rfl 0 c3 rfl r3.1 _ _ r3.2.1 _ hdel
    ⟨[c3.peer.str, c2.peer.str], by simp, by simp⟩
  have hi5 : σ5.conns[0]? = some c5 := by rw [k2]; rfl
  obtain ⟨σ6, c6, s6, m1, m2, m3, m4, m5, m6, m7, m8, m9⟩ := C76_next_partial hE hlt _ _ hin (.tail _ _ reach4 s5) k1 0 c5 hi5 k5 _ _ k3 _ (by rw [k6]; exact hdel)
    ⟨[c3.peer.str, c2.peer.str], by simp, by rw [k2]; simp [k8]⟩
  have hmem : c6 ∈ σ6.conns := by rw [m2, k2]; simp
  have hdel6 : Delivered [1, 2, 3, 4, 5, 6, 7, 8, 9, 10, 11, 12, 13] 4 E.s.tor.numPieces c6.got [.bitfield [0x80], .request 1 1 2] := by rw [m6, k6]; exact hdel
  refine ⟨E, _, σ6, c6, hE, hlt, hin, .tail _ _ (.tail _ _ reach4 s5) s6, m1, hmem, by rw [m2, k2]; rfl, by rw [m9, k9]; exact r3.2.2.2, m3, hcompl, h0m, hn, by rw [m2, k2]; rfl, ?_, hdel6⟩
  obtain ⟨start, done, rest, -, q1, -, q2, q3, -⟩ := C76_served_partial hE hlt _ _ hin (.tail _ _ (.tail _ _ reach4 s5) s6) m1 c6 hmem _ hdel6
  rw [q3 m3, List.append_nil] at q1
  subst q1
  have : wire (.piece 1 1 [6, 7]) ∈ c6.out.filter (· ≠ wire .keepAlive) := by
    rw [q2]
    apply List.mem_append_right
    apply List.mem_map_of_mem
    have h1' : ours E.s (UInt32.toNat 1) = true := h1
    simp only [replies, reply, List.filterMap_cons, List.filterMap_nil, h1', if_true]
    decide
  exact (List.mem_filter.mp this).1

end Verif.Peers
