import Verif.Spec.Seeder
import Verif.Props.MsgWire
import Verif.Props.AnyBuffers
/-
C66, exactly: whatever a peer sends, and however it is received, what is sent to it and how the connection ends.
-/
set_option autoImplicit false

namespace Verif.Session
open Verif.P2P Verif.Bf Verif.Files Verif.FileIO Verif.PieceTracker Verif.Layout Verif.Bits Verif.Wire Verif.Avail Verif.Handshake
  Verif.HandshakeSpec Verif.MsgHandler Verif.SessionSpec Verif.Peer Verif.Framing Verif.Seeder

/-- a result of the program and how something ends -/
def Ends : Outcome → Res Unit → Prop
  | .fine, r => r = .ok ()
  | .error, r => ∃ e, r = .err e
  | .crash, r => r = .panic
  | .stuck, r => r = .timeout

theorem complete_iff {pl : Nat} {hashes : Bytes} {files : List EntryBase} {cs : List Bytes} {s : MsgHandler.Swarm} {buf : Bytes}
    (h : Running pl hashes files cs s buf) : s.bf.Complete = (List.range s.tor.numPieces).all (ours s) := by
  have h1 := (C18_counter_exact_partial s.bf h.bf).2
  rw [h.nbits] at h1
  apply Bool.eq_iff_iff.mpr
  rw [List.all_eq_true]
  constructor
  · intro e j hj
    have hj := List.mem_range.mp hj
    exact (get_ours h j hj).mp (h1.mp e j (by omega))
  · intro e
    exact h1.mpr (fun j hj => (get_ours h j (by omega)).mpr (e j (List.mem_range.mpr (by omega))))

theorem full_iff (a : Avail.State) (who : Bytes) (i : Nat) : full a who i = true ↔ who ∉ a i ∧ 63 ≤ (a i).length := by
  simp [full]

/-- registering a peer for a piece does not change which pieces it cannot be registered for -/
theorem full_reg (a : Avail.State) (who : Bytes) (i : Nat) (h : full a who i = false) : full (Step.effect a (.reg who i)) who = full a who := by
  funext j
  apply Bool.eq_iff_iff.mpr
  rw [full_iff, full_iff]
  simp only [Step.effect]
  by_cases hj : j = i ∧ who ∉ a i
  · obtain ⟨rfl, hw⟩ := hj
    have : ¬ (who ∉ a j ∧ 63 ≤ (a j).length) := fun hh => by rw [(full_iff _ _ _).mpr hh] at h; cases h
    rw [if_pos ⟨rfl, hw⟩]
    exact ⟨fun hh => absurd (List.mem_append.mpr (.inr (List.mem_singleton.mpr rfl))) hh.1, fun hh => absurd hh this⟩
  · rw [if_neg hj]

/-- registering a peer for some pieces -/
theorem atMost_regs (who : Bytes) (is : List Nat) (a : Avail.State) (h : ∀ j, (a j).length ≤ 63) :
    AtMost 63 a (is.map (Step.reg who)) ↔ ∀ i ∈ is, full a who i = false := by
  induction is generalizing a with
  | nil => simp [AtMost]
  | cons i is ih =>
    rw [List.map_cons, AtMost]
    by_cases hi : full a who i = true
    · constructor
      · rintro ⟨h1, -⟩
        obtain ⟨p, q⟩ := (full_iff _ _ _).mp hi
        have := h1 i
        simp only [Step.effect, true_and, p, not_false_eq_true, if_true, List.length_append, List.length_singleton] at this
        omega
      · intro h1
        rw [h1 i (by simp)] at hi
        cases hi
    · rw [Bool.not_eq_true] at hi
      have hn : ∀ j, ((Step.reg who i).effect a j).length ≤ 63 := by
        intro j
        simp only [Step.effect]
        split
        · rename_i hj
          obtain ⟨rfl, hw⟩ := hj
          have : ¬ 63 ≤ (a j).length := fun hh => by rw [(full_iff _ _ _).mpr ⟨hw, hh⟩] at hi; cases hi
          rw [List.length_append, List.length_singleton]
          omega
        · exact h j
      rw [ih _ hn, full_reg a who i hi]
      constructor
      · rintro ⟨-, h1⟩ j hj
        rcases List.mem_cons.mp hj with rfl | hj
        · exact hi
        · exact h1 j hj
      · exact fun h1 => ⟨hn, fun j hj => h1 j (by simp [hj])⟩

theorem full_regs (who : Bytes) (is : List Nat) (a : Avail.State) (h : ∀ i ∈ is, full a who i = false) :
    full ((is.map (Step.reg who)).foldl Step.effect a) who = full a who := by
  induction is generalizing a with
  | nil => rfl
  | cons i is ih =>
    have h1 := full_reg a who i (h i (by simp))
    rw [List.map_cons, List.foldl_cons, ih, h1]
    intro j hj
    rw [h1]
    exact h j (by simp [hj])

theorem atMost_append (m : Nat) (a : Avail.State) (x y : List Step) : AtMost m a (x ++ y) ↔ AtMost m a x ∧ AtMost m (x.foldl Step.effect a) y := by
  induction x generalizing a with
  | nil => simp [AtMost]
  | cons s x ih => simp only [List.cons_append, AtMost, ih, List.foldl_cons, and_assoc]

theorem atMost_end (m : Nat) (a : Avail.State) (x : List Step) (h : AtMost m a x) (ha : ∀ j, (a j).length ≤ m) : ∀ j, (x.foldl Step.effect a j).length ≤ m := by
  induction x generalizing a with
  | nil => exact ha
  | cons s x ih => exact ih _ h.2 h.1

theorem reached_atMost {size : Nat} {calls : List Call} {t : Tracker} (h : Reached size calls t) : AtMost 63 Avail.empty (calls.flatMap Call.steps) := by
  obtain ⟨hs, hv, t0, h0, hp⟩ := h
  obtain ⟨t0', e0, h1, -⟩ := C46_panic_iff_partial size hs calls hv
  rw [h0] at e0
  cases e0
  exact h1.mp ⟨t, hp⟩

theorem reached_le {size : Nat} {calls : List Call} {t : Tracker} (h : Reached size calls t) : ∀ j, (after calls j).length ≤ 63 :=
  atMost_end 63 _ _ (reached_atMost h) (fun _ => Nat.zero_le _)

/-- a bitfield of this peer does not change which pieces it cannot be registered for -/
theorem reached_full {size : Nat} {calls : List Call} {me : PH} {b : Bitfield} {t : Tracker} (h : Reached size (calls ++ [.registerBF me b]) t) :
    full (after (calls ++ [.registerBF me b])) me.key = full (after calls) me.key := by
  have h1 := reached_atMost h
  rw [List.flatMap_append, atMost_append] at h1
  obtain ⟨h1, h2⟩ := h1
  simp only [List.flatMap_cons, List.flatMap_nil, List.append_nil] at h2
  have hle : ∀ j, (after calls j).length ≤ 63 := atMost_end 63 _ _ h1 (fun _ => Nat.zero_le _)
  have h3 := (atMost_regs _ _ _ hle).mp h2
  unfold after
  rw [List.flatMap_append, List.foldl_append]
  simp only [List.flatMap_cons, List.flatMap_nil, List.append_nil]
  exact full_regs _ _ _ h3

theorem handleBitfield_out (s : MsgHandler.Swarm) (me : PH) (b : Bitfield) (st : St) : (handleBitfield s me b st).1.out = st.out := by
  unfold handleBitfield
  split
  · rfl
  · split
    · split <;> rfl
    all_goals rfl

/-- one message -/
theorem handleOne_serve {pl : Nat} {hashes : Bytes} {files : List EntryBase} {cs : List Bytes} {s : MsgHandler.Swarm} {st : St}
    (h : Running pl hashes files cs s st.buf) (calls : List Call) (hr : Reached s.tor.numPieces calls st.ppt) (me : PH) (fl : Nat → Bool)
    (hf : full (after calls) me.key = fl) (wok : Nat → Bool) (w : Wire.Msg) (hd : Decodable w) (out : List Wire.Msg) (new : Bytes) (o : Outcome)
    (hs : serveOne cs.flatten pl s.tor.numPieces (ours s) fl (wok st.out.length) st.buf w = (out, new, o)) :
    ∃ st' r, handleOne s me wok (received w) st = (st', r) ∧ Ends o r ∧ st'.out = st.out ++ out.map wire ∧
      (o = .fine → st'.buf = new ∧ new.length = pl ∧ ∃ calls', Reached s.tor.numPieces calls' st'.ppt ∧ full (after calls') me.key = fl) := by
  have same : ∀ r, handleOne s me wok (received w) st = (st, r) → Ends o r → out = [] → new = st.buf →
      ∃ st' r, handleOne s me wok (received w) st = (st', r) ∧ Ends o r ∧ st'.out = st.out ++ out.map wire ∧
      (o = .fine → st'.buf = new ∧ new.length = pl ∧ ∃ calls', Reached s.tor.numPieces calls' st'.ppt ∧ full (after calls') me.key = fl) := by
    intro r e he ho hn
    subst ho hn
    exact ⟨st, r, e, he, by simp, fun _ => ⟨rfl, h.buf, calls, hr, hf⟩⟩
  cases w with
  | request i b l =>
    have e : handleOne s me wok (received (.request i b l)) st = handleRequest s i b l (wok st.out.length) st := rfl
    rw [handleRequest_spec h, complete_iff h, (data_length h).1, Nat.mul_comm 8] at e
    simp only [serveOne] at hs
    by_cases hi : i.toNat < s.tor.numPieces
    · rw [if_pos hi] at e hs
      by_cases hg : ours s i.toNat = true
      · rw [if_pos ((get_ours h _ hi).mpr hg)] at e
        rw [if_pos hg] at hs
        by_cases hl : b.toNat + l.toNat ≤ pl
        · rw [if_pos hl] at e hs
          cases hw : wok st.out.length with
          | false =>
            rw [hw] at e hs
            cases hs
            exact ⟨_, _, e, ⟨_, rfl⟩, by simp, fun he => nomatch he⟩
          | true =>
          rw [hw] at e hs
          cases hs
          exact ⟨_, _, e, rfl, by simp [filled], fun _ => ⟨rfl, filled_length pl cs i.toNat st.buf h.buf, calls, hr, hf⟩⟩
        · rw [if_neg hl] at e hs
          cases hs
          exact ⟨_, _, e, rfl, by simp, fun he => nomatch he⟩
      · rw [if_neg (fun hh => hg ((get_ours h _ hi).mp hh))] at e
        rw [if_neg hg] at hs
        cases hs
        exact same _ e rfl rfl rfl
    · rw [if_neg hi] at e hs
      by_cases hc : (List.range s.tor.numPieces).all (ours s) = true
      · rw [if_pos hc] at e hs
        cases hs
        exact same _ e ⟨_, rfl⟩ rfl rfl
      · rw [if_neg hc] at e hs
        by_cases h8 : i.toNat < (s.tor.numPieces + 7) / 8 * 8
        · rw [if_pos h8] at e hs
          cases hb : ours s i.toNat with
          | true =>
            rw [if_pos (show bit s.bf.data i.toNat = true from hb)] at e
            rw [hb] at hs
            cases hs
            exact same _ e ⟨_, rfl⟩ rfl rfl
          | false =>
            rw [if_neg (show ¬ bit s.bf.data i.toNat = true from fun hh => by rw [show bit s.bf.data i.toNat = false from hb] at hh; cases hh)] at e
            rw [hb] at hs
            cases hs
            exact same _ e rfl rfl rfl
        · rw [if_neg h8] at e hs
          cases hs
          exact same _ e rfl rfl rfl
  | bitfield p =>
    obtain ⟨hwf, hdt, hn⟩ := rx_wf p hd
    have e : handleOne s me wok (received (.bitfield p)) st = handleBitfield s me (rxBitfield p) st := rfl
    simp only [serveOne] at hs
    by_cases hsz : p.length = (s.tor.numPieces + 7) / 8
    · rw [if_neg (by omega)] at hs
      cases hs
      obtain ⟨hgood, hbad⟩ := bitfield_right_size h calls hr me (rxBitfield p) hwf (by rw [hn, (data_length h).2, hsz])
      rw [hdt] at hgood hbad
      have hiff := atMost_regs me.key ((List.range s.tor.numPieces).filter (bit p)) (after calls) (reached_le hr)
      by_cases hc : (List.range s.tor.numPieces).any (fun i => bit p i && fl i) = true
      · rw [hc]
        have hp := hbad (fun ha => by
          obtain ⟨i, hi, hb⟩ := List.any_eq_true.mp hc
          rw [Bool.and_eq_true] at hb
          have := hiff.mp ha i (List.mem_filter.mpr ⟨hi, hb.1⟩)
          rw [hf, hb.2] at this
          cases this)
        exact ⟨(handleBitfield s me (rxBitfield p) st).1, (handleBitfield s me (rxBitfield p) st).2, e, hp,
          (handleBitfield_out s me (rxBitfield p) st).trans (List.append_nil _).symm, fun he => nomatch he⟩
      · rw [Bool.not_eq_true] at hc
        rw [hc]
        obtain ⟨st', e', g1, g2, -, -, -, g3, -⟩ := hgood (hiff.mpr (fun i hi => by
          obtain ⟨h1, h2⟩ := List.mem_filter.mp hi
          have := List.any_eq_false.mp hc i h1
          rw [h2, Bool.true_and] at this
          rw [hf]
          exact Bool.not_eq_true _ ▸ this))
        exact ⟨st', _, e.trans e', rfl, by simp [g2], fun _ => ⟨g1, h.buf, _, g3, by rw [reached_full g3, hf]⟩⟩
    · rw [if_pos hsz] at hs
      cases hs
      exact same _ (e.trans (bitfield_wrong_size s me _ st (by rw [hn, (data_length h).2]; omega))) ⟨_, rfl⟩ rfl rfl
  | piece i b blk => exact hd.elim
  | keepAlive => cases hs; exact same _ rfl rfl rfl rfl
  | choke => cases hs; exact same _ rfl rfl rfl rfl
  | unchoke => cases hs; exact same _ rfl rfl rfl rfl
  | interested => cases hs; exact same _ rfl rfl rfl rfl
  | notInterested => cases hs; exact same _ rfl rfl rfl rfl
  | «have» i => cases hs; exact same _ rfl rfl rfl rfl

theorem handleAll_stop (s : MsgHandler.Swarm) (me : PH) (wok : Nat → Bool) (m : P2P.Msg) (ms : List P2P.Msg) (st st' : St) (r : Res Unit)
    (e : handleOne s me wok m st = (st', r)) (hr : r ≠ .ok ()) : handleAll s me wok (m :: ms) st = (st', r) := by
  rw [handleAll, e]
  cases r with
  | ok u => cases u; exact absurd rfl hr
  | _ => rfl

theorem ends_ok {o : Outcome} {r : Res Unit} (h : Ends o r) : r = .ok () ↔ o = .fine := by
  cases o with
  | fine => exact ⟨fun _ => rfl, fun _ => h⟩
  | error => obtain ⟨e, rfl⟩ := h; exact ⟨nofun, nofun⟩
  | crash => cases h; exact ⟨nofun, nofun⟩
  | stuck => cases h; exact ⟨nofun, nofun⟩

/-- the messages of one buffer -/
theorem handleAll_serve {pl : Nat} {hashes : Bytes} {files : List EntryBase} {cs : List Bytes} {s : MsgHandler.Swarm} {st : St}
    (h : Running pl hashes files cs s st.buf) (calls : List Call) (hr : Reached s.tor.numPieces calls st.ppt) (me : PH) (fl : Nat → Bool)
    (hf : full (after calls) me.key = fl) (wok : Nat → Bool) (ws : List Wire.Msg) (hd : ∀ w ∈ ws, Decodable w) (out : List Wire.Msg) (new : Bytes) (o : Outcome)
    (hs : serve cs.flatten pl s.tor.numPieces (ours s) fl wok st.out.length st.buf ws = (out, new, o)) :
    ∃ st' r, handleAll s me wok (ws.map received) st = (st', r) ∧ Ends o r ∧ st'.out = st.out ++ out.map wire ∧
      (o = .fine → st'.buf = new ∧ new.length = pl ∧ ∃ calls', Reached s.tor.numPieces calls' st'.ppt ∧ full (after calls') me.key = fl) := by
  induction ws generalizing st calls out new o with
  | nil => cases hs; exact ⟨st, _, rfl, rfl, by simp, fun _ => ⟨rfl, h.buf, calls, hr, hf⟩⟩
  | cons w ws ih =>
    rw [serve] at hs
    rcases hone : serveOne cs.flatten pl s.tor.numPieces (ours s) fl (wok st.out.length) st.buf w with ⟨out1, new1, o1⟩
    obtain ⟨st1, r1, e1, q1, p1, g1⟩ := handleOne_serve h calls hr me fl hf wok w (hd w (by simp)) out1 new1 o1 hone
    rw [hone] at hs
    by_cases ho : o1 = .fine
    · subst ho
      obtain ⟨b1, l1, calls1, c1, c2⟩ := g1 rfl
      rcases htwo : serve cs.flatten pl s.tor.numPieces (ours s) fl wok (st.out.length + out1.length) new1 ws with ⟨out2, new2, o2⟩
      simp only [htwo] at hs
      cases hs
      obtain ⟨st2, r2, e2, q2, p2, g2⟩ := ih (st := st1) (h.withBuf (by rw [b1, l1])) calls1 c1 c2 (fun x hx => hd x (by simp [hx])) out2 new o (by rw [b1, p1, List.length_append, List.length_map]; exact htwo)
      refine ⟨st2, r2, ?_, q2, ?_, g2⟩
      · rw [List.map_cons, handleAll, e1, show r1 = .ok () from q1]; exact e2
      · rw [p2, p1, List.map_append, List.append_assoc]
    · have hs' : (out1, new1, o1) = (out, new, o) := by
        cases o1 <;> first | exact absurd rfl ho | exact hs
      cases hs'
      refine ⟨st1, r1, ?_, q1, p1, fun hh => absurd hh ho⟩
      exact handleAll_stop s me _ _ _ st st1 r1 e1 (fun hh => ho ((ends_ok q1).mp hh))

theorem reads_decodable {data : Bytes} {ws : List Wire.Msg} {e : End} (h : Reads data ws e) : ∀ w ∈ ws, Decodable w := by
  induction h with
  | message w rest ws e hw _ ih =>
    intro x hx
    rcases List.mem_cons.mp hx with rfl | hx
    · exact (understood_iff _).mp hw
    · exact ih x hx
  | oddHave _ _ _ _ _ _ ih => exact ih
  | oddRequest _ _ _ _ _ _ ih => exact ih
  | _ => intro x hx; cases hx

theorem recvAll_stop (fuel : Nat) (s : MsgHandler.Swarm) (me : PH) (wok : Nat → Bool) (b : Bytes) (bs : List Bytes) (st st' : St) (r : Res Unit)
    (e : handleMessage fuel s me wok b st = (st', r)) (hr : r ≠ .ok ()) : recvAll fuel s me wok (b :: bs) st = (st', r) := by
  rw [recvAll, e]
  cases r with
  | ok u => cases u; exact absurd rfl hr
  | _ => rfl

/-- the buffers -/
theorem recvAll_talk {pl : Nat} {hashes : Bytes} {files : List EntryBase} {cs : List Bytes} {s : MsgHandler.Swarm} (me : PH) (fl : Nat → Bool) (fuel : Nat) (wok : Nat → Bool)
    {k : Nat} {old : Bytes} {bs : List Bytes} {sent : List Wire.Msg} {o : Outcome} (ht : Talk cs.flatten pl s.tor.numPieces (ours s) fl wok k old bs sent o)
    (hb : ∀ b ∈ bs, b.length < 2 ^ 32 ∧ b.length < fuel) :
    ∀ (st : St) (calls : List Call), st.out.length = k → st.buf = old → Running pl hashes files cs s st.buf → Reached s.tor.numPieces calls st.ppt → full (after calls) me.key = fl →
      ∃ st' r, recvAll fuel s me wok bs st = (st', r) ∧ Ends o r ∧ st'.out = st.out ++ sent.map wire := by
  induction ht with
  | nil k old => intro st calls _ _ _ _ _; exact ⟨st, _, rfl, rfl, by simp⟩
  | crash k old b bs ws hrd =>
    intro st calls _ _ _ _ _
    obtain ⟨h3, h4⟩ := hb b (by simp)
    have : DecodeAll fuel b = .panic := Verif.P2P.loop_reads b ws .crash hrd h3 fuel [] 0 h4
    refine ⟨st, .panic, recvAll_stop fuel s me _ b bs st st _ ?_ nofun, rfl, by simp⟩
    unfold handleMessage
    rw [this]
  | stuck k old b bs ws hrd =>
    intro st calls _ _ _ _ _
    obtain ⟨h3, h4⟩ := hb b (by simp)
    have : DecodeAll fuel b = .timeout := Verif.P2P.loop_reads b ws .stuck hrd h3 fuel [] 0
    refine ⟨st, .timeout, recvAll_stop fuel s me _ b bs st st _ ?_ nofun, rfl, by simp⟩
    unfold handleMessage
    rw [this]
  | last k old b bs ws hrd out new o hs ho =>
    intro st calls hk hbuf h hr hf
    subst hk hbuf
    obtain ⟨h3, h4⟩ := hb b (by simp)
    obtain ⟨st1, r1, e1, q1, p1, -⟩ := handleAll_serve h calls hr me fl hf wok ws (reads_decodable hrd) out new o hs
    refine ⟨st1, r1, recvAll_stop fuel s me _ b bs st st1 r1 ?_ (fun hh => ho ((ends_ok q1).mp hh)), q1, p1⟩
    unfold handleMessage
    rw [decode_reads hrd h3 fuel h4]
    exact e1
  | more k old b bs ws hrd out new hs out' o _ ih =>
    intro st calls hk hbuf h hr hf
    subst hk hbuf
    obtain ⟨h3, h4⟩ := hb b (by simp)
    obtain ⟨st1, r1, e1, q1, p1, g1⟩ := handleAll_serve h calls hr me fl hf wok ws (reads_decodable hrd) out new .fine hs
    obtain ⟨b1, l1, calls1, c1, c2⟩ := g1 rfl
    obtain ⟨st2, r2, e2, q2, p2⟩ := ih (fun x hx => hb x (by simp [hx])) st1 calls1 (by rw [p1, List.length_append, List.length_map]) b1 (h.withBuf (by rw [b1, l1])) c1 c2
    refine ⟨st2, r2, ?_, q2, ?_⟩
    · have hm : handleMessage fuel s me wok b st = (st1, .ok ()) := by
        unfold handleMessage
        rw [decode_reads hrd h3 fuel h4]
        rw [← show r1 = .ok () from q1]
        exact e1
      rw [recvAll, hm]
      exact e2
    · rw [p2, p1, List.map_append, List.append_assoc]

/-- every sequence of buffers leads to something -/
theorem talk_exists (content : Bytes) (pl n : Nat) (have_ fl ok : Nat → Bool) (bs : List Bytes) (hb : ∀ b ∈ bs, b.length < 2 ^ 32) :
    ∀ k old, ∃ sent o, Talk content pl n have_ fl ok k old bs sent o := by
  induction bs with
  | nil => intro k old; exact ⟨_, _, .nil k old⟩
  | cons b bs ih =>
    intro k old
    obtain ⟨ws, e, hr⟩ := reads_total b.length b (Nat.le_refl _) (hb b (by simp))
    cases e with
    | crash => exact ⟨_, _, .crash k old b bs ws hr⟩
    | stuck => exact ⟨_, _, .stuck k old b bs ws hr⟩
    | normal =>
      rcases hs : serve content pl n have_ fl ok k old ws with ⟨out, new, o⟩
      by_cases ho : o = .fine
      · subst ho
        obtain ⟨out', o', ht⟩ := ih (fun x hx => hb x (by simp [hx])) (k + out.length) new
        exact ⟨_, _, .more k old b bs ws hr out new hs out' o' ht⟩
      · exact ⟨_, _, .last k old b bs ws hr out new o hs ho⟩

/-- the loop of a connection -/
theorem loop_talk {pl : Nat} {hashes : Bytes} {files : List EntryBase} {cs : List Bytes} {s : MsgHandler.Swarm}
    (h : Running pl hashes files cs s (List.replicate pl 0)) (calls : List Call) (ppt : Tracker) (hr : Reached s.tor.numPieces calls ppt)
    (ptr : Nat) (p : Info) (fl : Nat → Bool) (hf : full (after calls) p.str = fl) (fuel : Nat) (uok : Bool) (wok : Nat → Bool) (bs : List Bytes) (hb : ∀ b ∈ bs, b.length < 2 ^ 32 ∧ b.length < fuel)
    (sent : List Wire.Msg) (o : Outcome) (ht : Talk cs.flatten pl s.tor.numPieces (ours s) fl wok 0 (List.replicate pl 0) bs sent o) :
    ∃ ph ppt' ph' r, NewPeerHandler p s.tor = .ok ph ∧ Ends o r ∧
      loop fuel s ptr ph uok wok ppt bs = ((if uok then [wire .unchoke] else []) ++ sent.map wire, ppt', ph', r) := by
  obtain ⟨name, hm⟩ := h.accepted.made
  obtain ⟨-, hp, -⟩ := C24_fields _ _ _ _ _ hm
  obtain ⟨b0, hb0, -⟩ := new_wf s.tor.numPieces
  have hph : NewPeerHandler p s.tor = .ok ⟨p, ⟨false, false, false, false⟩, b0, List.replicate pl 0⟩ := by
    unfold NewPeerHandler
    rw [hp, if_neg (by omega), hb0]
    rfl
  obtain ⟨st', r, e, q, g⟩ := recvAll_talk ⟨ptr, p.str⟩ fl fuel wok ht hb ⟨ppt, b0, List.replicate pl 0, []⟩ calls rfl rfl h hr hf
  refine ⟨_, st'.ppt, ⟨p, ⟨false, false, false, false⟩, st'.peerBf, st'.buf⟩, r, hph, q, ?_⟩
  unfold loop
  have hfirst : firstMessage uok = .ok (if uok then [wire .unchoke] else []) := rfl
  rw [hfirst]
  simp only [e, g, List.nil_append]

/-- **C66**, exactly.  A peer connects and sends its handshake, and then any bytes in any buffers; `uok` and `wok` tell which
of our messages can be sent, and `calls` is what happened to the tracker of pieces before.  There is always an answer to
what should happen (`Talk`), and it does happen: the bytes sent are our handshake, our bitfield, an unchoke message (if possible) and these messages, and the connection ends in this way. -/
theorem C66_exact {pl : Nat} {hashes : Bytes} {files : List EntryBase} {cs : List Bytes} {s : MsgHandler.Swarm}
    (h : Running pl hashes files cs s (List.replicate pl 0)) (calls : List Call) (ppt : Tracker) (hr : Reached s.tor.numPieces calls ppt)
    (v6 : IP → Bytes) (ip : IP) (port : UInt16) (hs ih own id : Bytes) (hhs : IsHandshake hs ih id) (hown : own.length = 20)
    (ptr : Nat) (fuel : Nat) (uok : Bool) (wok : Nat → Bool) (bs : List Bytes)
    (hb : ∀ b ∈ bs, b.length < 2 ^ 32 ∧ b.length < fuel) :
    (∃ sent o, Talk cs.flatten pl s.tor.numPieces (ours s) (full (after calls) (MakePeer v6 id ip port).str) wok 0 (List.replicate pl 0) bs sent o) ∧
    ∀ sent o, Talk cs.flatten pl s.tor.numPieces (ours s) (full (after calls) (MakePeer v6 id ip port).str) wok 0 (List.replicate pl 0) bs sent o →
      ∃ out hs' r, incoming fuel v6 ⟨some (ip, port), true, some hs, true, true⟩ ih own s ptr uok wok ppt bs = (out, r) ∧ Ends o r ∧
        IsHandshake hs' ih own ∧ out.flatten = hs' ++ stream (.bitfield s.bf.data :: ((if uok then [.unchoke] else []) ++ sent)) := by
  refine ⟨talk_exists _ _ _ _ _ _ bs (fun b hm => (hb b hm).1) _ _, fun sent o ht => ?_⟩
  obtain ⟨hsw, -⟩ := reachable_exact h.bf
  have h1 := hsw.data_len
  have h2 := hsw.lo8
  have h3 := hsw.hi
  have h4 := h.nbits
  have h5 := hr.1
  have hfits : Fits (.bitfield s.bf.data) := by simp only [Fits, body, List.length_cons]; omega
  have hlen := isHandshake_length hhs
  have hacc : (FromIncoming v6 ⟨some (ip, port), true, some hs, true, true⟩ ih own s.bf).2 = .ok (MakePeer v6 id ip port) := by
    refine (C41_accept_iff_partial v6 _ ih own s.bf hsw (fun d hd => by cases hd; omega) _).mpr ⟨ip, port, hs, id, rfl, rfl, rfl, rfl, rfl, ?_, rfl⟩
    rw [hlen, Nat.sub_self, List.replicate_zero, List.append_nil]
    exact hhs
  have hans := C41_answer v6 _ ih own s.bf hsw hfits _ hacc
  obtain ⟨ph, ppt', ph', r, e1, q, e2⟩ := loop_talk h calls ppt hr ptr (MakePeer v6 id ip port) _ rfl fuel uok wok bs hb sent o ht
  refine ⟨[MakeHandshake ih own, wire (.bitfield s.bf.data)] ++ ((if uok then [wire .unchoke] else []) ++ sent.map wire), MakeHandshake ih own, r, ?_, q, (C40_made ih own ih hhs.1 hown).1, ?_⟩
  · unfold incoming
    rw [← Prod.eta (FromIncoming v6 ⟨some (ip, port), true, some hs, true, true⟩ ih own s.bf), hans, hacc]
    simp only [e1, e2]
  · cases uok <;> simp [stream]

/-- **C66**, exactly, for a connection that we open.  Whatever the peer sends, with or without a handshake, is handled like the messages of a peer that connected to us;
the bytes sent are our handshake, an unchoke message (if possible) and these messages. -/
theorem C66_exact_outgoing {pl : Nat} {hashes : Bytes} {files : List EntryBase} {cs : List Bytes} {s : MsgHandler.Swarm}
    (h : Running pl hashes files cs s (List.replicate pl 0)) (calls : List Call) (ppt : Tracker) (hr : Reached s.tor.numPieces calls ppt)
    (p : Info) (ih own : Bytes) (hih : ih.length = 20) (hown : own.length = 20)
    (ptr : Nat) (fuel : Nat) (uok : Bool) (wok : Nat → Bool) (bs : List Bytes)
    (hb : ∀ b ∈ bs, b.length < 2 ^ 32 ∧ b.length < fuel) :
    (∃ sent o, Talk cs.flatten pl s.tor.numPieces (ours s) (full (after calls) p.str) wok 0 (List.replicate pl 0) bs sent o) ∧
    ∀ sent o, Talk cs.flatten pl s.tor.numPieces (ours s) (full (after calls) p.str) wok 0 (List.replicate pl 0) bs sent o →
      ∃ out hs' r, outgoing fuel true true p ih own s ptr uok wok ppt bs = (out, r) ∧ Ends o r ∧
        IsHandshake hs' ih own ∧ out.flatten = hs' ++ stream ((if uok then [.unchoke] else []) ++ sent) := by
  refine ⟨talk_exists _ _ _ _ _ _ bs (fun b hm => (hb b hm).1) _ _, fun sent o ht => ?_⟩
  obtain ⟨ph, ppt', ph', r, e1, q, e2⟩ := loop_talk h calls ppt hr ptr p _ rfl fuel uok wok bs hb sent o ht
  refine ⟨[MakeHandshake ih own] ++ ((if uok then [wire .unchoke] else []) ++ sent.map wire), MakeHandshake ih own, r, ?_, q, (C40_made ih own ih hih hown).1, ?_⟩
  · unfold outgoing
    have : FromBootstrap true true p ih own = ([MakeHandshake ih own], .ok p) := rfl
    rw [this]
    simp only [e1, e2]
  · cases uok <;> simp [stream]

/-- with these buffers a block is sent, and then the client crashes because of an index that does not exist; the last buffer is not looked at -/
example : ∃ s t out hs' r, Reached s.tor.numPieces [] t ∧
    incoming 30 (fun _ => []) ⟨some (IPv4 1 2 3 4, 80), true, some (MakeHandshake (List.replicate 20 1) (List.replicate 20 2)), true, true⟩ (List.replicate 20 1)
      (List.replicate 20 3) s 7 true (fun _ => true) t [wire (.request 1 2 2), wire (.request 99 0 1), wire (.request 1 0 1)] = (out, r) ∧ r = .panic ∧
    IsHandshake hs' (List.replicate 20 1) (List.replicate 20 3) ∧
    out.flatten = hs' ++ stream [.bitfield s.bf.data, .unchoke, .piece 1 2 [7, 8]] := by
  obtain ⟨s, t, h, hn, h1, h0, hr⟩ := exStart
  obtain ⟨-, hall⟩ := C66_exact h [] t hr (fun _ => []) (IPv4 1 2 3 4) 80
    (MakeHandshake (List.replicate 20 1) (List.replicate 20 2)) (List.replicate 20 1) (List.replicate 20 3) (List.replicate 20 2)
    (C40_made _ _ [] (by decide) (by decide)).1 (by decide) 7 30 true (fun _ => true) [wire (.request 1 2 2), wire (.request 99 0 1), wire (.request 1 0 1)] (by
      intro b hb
      simp only [List.mem_cons, List.not_mem_nil, or_false] at hb
      rcases hb with rfl | rfl | rfl <;> decide +kernel)
  have reads : ∀ w : Wire.Msg, Understood w → Reads (wire w) [w] .normal := by
    intro w hw
    have := Reads.message w [] [] .normal hw .nil
    rwa [List.append_nil] at this
  have hnot : (List.range s.tor.numPieces).all (ours s) = false := by
    rw [hn]
    simp only [List.range, List.range.loop, List.all_cons, h0, Bool.false_and]
  obtain ⟨out, hs', r, e1, e2, e3, e4⟩ := hall [.piece 1 2 [7, 8]] .crash
    (.more _ _ _ _ [.request 1 2 2] (reads _ trivial) [.piece 1 2 [7, 8]] [5, 6, 7, 8] (by
      simp only [serve, serveOne, hn, show (1 : UInt32).toNat = 1 from rfl, h1]
      rw [if_pos (by decide), if_pos trivial]
      decide +kernel) [] .crash
    (.last _ _ _ _ [.request 99 0 1] (reads _ trivial) [] [5, 6, 7, 8] .crash (by
      simp only [serve, serveOne, hnot]
      rw [hn, if_neg (by decide), if_neg (by decide), if_neg (by decide)]) nofun))
  exact ⟨s, t, out, hs', r, hr, e1, e2, e3, e4⟩

/-- a piece with 63 peers, and one more or one of them -/
example : full (fun _ => (List.range 63).map fun i => [UInt8.ofNat i]) [200] 0 = true ∧ full (fun _ => (List.range 63).map fun i => [UInt8.ofNat i]) [62] 0 = false := by
  decide +kernel

end Verif.Session
