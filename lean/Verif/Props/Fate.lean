import Verif.Props.Framing
import Verif.Props.MsgWire
import Verif.Spec.Fate
/-
Property C95: /repo/src/swarm/msghandler.go and /repo/src/swarm/peerhandler.go:208-227 (recvLoop), what arbitrary received bytes
do to the client.
-/
set_option autoImplicit false

namespace Verif.MsgHandler
open Verif.P2P Verif.Bf Verif.Files Verif.FileIO Verif.PieceTracker Verif.Layout Verif.Bits Verif.Wire Verif.Avail Verif.Session Verif.Framing Verif.Fate

/-- a running swarm, as the specification sees it -/
def seen (pl : Nat) (s : Swarm) : Client := ⟨s.tor.numPieces, pl, ours s⟩

/-- the fate of a connection, as the result of a handler -/
def Result : Fate.Fate → Res Unit → Prop
  | .goesOn, r => r = .ok ()
  | .ends, r => ∃ e, r = .err e
  | .crashes, r => r = .panic

/-- the state of the model and that of the specification -/
def Agree (s : Swarm) (st : St) (σ : Now) : Prop :=
  (∃ calls, Reached s.tor.numPieces calls st.ppt ∧ after calls = σ.registered) ∧ st.out.length = σ.written

theorem effect_reg (k : Bytes) (i : Nat) (a : State) (j : Nat) :
    (Step.reg k i).effect a j = if j = i ∧ k ∉ a j then a j ++ [k] else a j := by
  simp only [Step.effect]
  by_cases hj : j = i
  · subst hj; rfl
  · simp [hj]

/-- registering for different pieces one after the other -/
theorem regs_effect (k : Bytes) (is : List Nat) (hd : is.Nodup) (a : State) (j : Nat) :
    (is.map (Step.reg k)).foldl Step.effect a j = if j ∈ is ∧ k ∉ a j then a j ++ [k] else a j := by
  induction is generalizing a with
  | nil => simp
  | cons x xs ih =>
    rw [List.nodup_cons] at hd
    rw [List.map_cons, List.foldl_cons, ih hd.2, effect_reg]
    by_cases hj : j = x
    · subst hj
      simp [hd.1]
    · simp [hj]

theorem regs_atMost (k : Bytes) (is : List Nat) (hd : is.Nodup) (a : State) (hle : ∀ j, (a j).length ≤ 63) :
    AtMost 63 a (is.map (Step.reg k)) ↔ ∀ i ∈ is, k ∉ a i → (a i).length < 63 := by
  induction is generalizing a with
  | nil => simp [AtMost]
  | cons i is ih =>
    rw [List.nodup_cons] at hd
    have other : ∀ j, j ≠ i → (Step.reg k i).effect a j = a j := fun j hj => by rw [effect_reg, if_neg (fun h => hj h.1)]
    have self : (Step.reg k i).effect a i = if k ∉ a i then a i ++ [k] else a i := by rw [effect_reg]; simp
    show ((∀ j, ((Step.reg k i).effect a j).length ≤ 63) ∧ AtMost 63 _ (is.map (Step.reg k))) ↔ _
    constructor
    · rintro ⟨h1, h2⟩ x hx hkx
      rcases List.mem_cons.mp hx with rfl | hx
      · have := h1 x
        rw [self, if_pos hkx, List.length_append] at this
        simp at this
        omega
      · have hne : x ≠ i := fun e => hd.1 (e ▸ hx)
        have := (ih hd.2 _ h1).mp h2 x hx
        rw [other x hne] at this
        exact this hkx
    · intro h
      have hle' : ∀ j, ((Step.reg k i).effect a j).length ≤ 63 := by
        intro j
        by_cases hj : j = i
        · subst hj
          rw [self]
          split
          · rename_i hk
            have := h j (by simp) hk
            rw [List.length_append]
            simp
            omega
          · exact hle j
        · rw [other j hj]; exact hle j
      refine ⟨hle', (ih hd.2 _ hle').mpr fun x hx hkx => ?_⟩
      have hne : x ≠ i := fun e => hd.1 (e ▸ hx)
      rw [other x hne] at hkx ⊢
      exact h x (by simp [hx]) hkx

theorem complete_iff {pl : Nat} {hashes : Bytes} {files : List EntryBase} {cs : List Bytes} {s : Swarm} {buf : Bytes}
    (h : Running pl hashes files cs s buf) : s.bf.Complete = (seen pl s).complete := by
  have h1 := (C18_counter_exact_partial s.bf h.bf).2
  rw [h.nbits] at h1
  rw [Bool.eq_iff_iff, h1]
  unfold Client.complete seen
  rw [List.all_eq_true]
  constructor
  · intro hh i hi
    have hi : i < s.tor.numPieces := List.mem_range.mp hi
    exact (get_ours h i hi).mp (hh i (by omega))
  · intro hh i hi
    have hi : i < s.tor.numPieces := by exact_mod_cast hi
    exact (get_ours h i hi).mpr (hh i (List.mem_range.mpr hi))

/-- one message -/
theorem hear_spec {pl : Nat} {hashes : Bytes} {files : List EntryBase} {cs : List Bytes} {s : Swarm} {st : St}
    (h : Running pl hashes files cs s st.buf) (me : PH) (wok : Nat → Bool) (σ : Now) (ha : Agree s st σ) (w : Wire.Msg) (hw : Understood w)
    (hlen : (wire w).length < 2 ^ 32) :
    Result (hear (seen pl s) me.key wok σ w).2 (handleOne s me wok (received w) st).2 ∧
    ((hear (seen pl s) me.key wok σ w).2 = .goesOn →
      Running pl hashes files cs s (handleOne s me wok (received w) st).1.buf ∧
      Agree s (handleOne s me wok (received w) st).1 (hear (seen pl s) me.key wok σ w).1) := by
  obtain ⟨⟨calls, hr, hc⟩, ho⟩ := ha
  have same : Result .goesOn ((st, Res.ok ()) : St × Res Unit).2 ∧ (Fate.Fate.goesOn = .goesOn → Running pl hashes files cs s st.buf ∧ Agree s st σ) :=
    ⟨rfl, fun _ => ⟨h, ⟨calls, hr, hc⟩, ho⟩⟩
  cases w with
  | keepAlive => exact same
  | choke => exact same
  | unchoke => exact same
  | interested => exact same
  | notInterested => exact same
  | «have» i => exact same
  | piece i b blk => exact hw.elim
  | request i b l =>
    show Result _ (handleRequest s i b l (wok st.out.length) st).2 ∧ (_ → Running pl hashes files cs s (handleRequest s i b l (wok st.out.length) st).1.buf ∧ _)
    show Result _ (handleRequest s i b l (wok st.out.length) st).2 ∧ (_ → _ ∧ Agree s (handleRequest s i b l (wok st.out.length) st).1 _)
    rw [handleRequest_spec h]
    simp only [hear, seen]
    by_cases hi : i.toNat < s.tor.numPieces
    · simp only [hi, ↓reduceIte]
      by_cases hg : ours s i.toNat = true
      · simp only [(get_ours h _ hi).mpr hg, hg, ↓reduceIte]
        by_cases hb : b.toNat + l.toNat ≤ pl
        · simp only [hb, ← ho, ↓reduceIte]
          by_cases hk : wok st.out.length = true
          · simp only [hk, ↓reduceIte]
            refine ⟨rfl, fun _ => ⟨?_, ⟨calls, hr, hc⟩, ?_⟩⟩
            · exact { h with buf := filled_length pl cs i.toNat st.buf h.buf }
            · simp
          · simp only [hk, ↓reduceIte, Bool.false_eq_true]
            exact ⟨⟨_, rfl⟩, fun e => by cases e⟩
        · simp only [hb, ↓reduceIte]
          exact ⟨rfl, fun e => by cases e⟩
      · simp only [show ¬ s.bf.Get i.toNat = .ok true from fun e => hg ((get_ours h _ hi).mp e), hg, ↓reduceIte, Bool.false_eq_true]
        exact ⟨same.1, fun _ => same.2 rfl⟩
    · simp only [hi, ↓reduceIte]
      have hcomp := complete_iff h
      rw [seen] at hcomp
      rw [hcomp]
      by_cases hco : (Client.mk s.tor.numPieces pl (ours s)).complete = true
      · simp only [hco, ↓reduceIte]
        exact ⟨⟨_, rfl⟩, fun e => by cases e⟩
      · simp only [hco, (data_length h).1, Nat.mul_comm 8, ↓reduceIte, Bool.false_eq_true]
        by_cases hp : i.toNat < (s.tor.numPieces + 7) / 8 * 8
        · simp only [hp, ↓reduceIte]
          by_cases hg : ours s i.toNat = true
          · have hg' : bit s.bf.data i.toNat = true := hg
            simp only [hg, hg', ↓reduceIte]
            exact ⟨⟨_, rfl⟩, fun e => by cases e⟩
          · have hg' : ¬ bit s.bf.data i.toNat = true := hg
            simp only [hg, hg', ↓reduceIte, Bool.false_eq_true]
            exact ⟨same.1, fun _ => same.2 rfl⟩
        · simp only [hp, ↓reduceIte]
          exact ⟨rfl, fun e => by cases e⟩
  | bitfield p =>
    have hp : p ≠ [] := hw
    have hpl : p.length + 5 < 2 ^ 32 := by rw [length_wire] at hlen; simp [body] at hlen; omega
    show Result _ (handleBitfield s me (rxBitfield p) st).2 ∧ (_ → Running pl hashes files cs s (handleBitfield s me (rxBitfield p) st).1.buf ∧ _)
    show Result _ (handleBitfield s me (rxBitfield p) st).2 ∧ (_ → _ ∧ Agree s (handleBitfield s me (rxBitfield p) st).1 _)
    simp only [hear, seen]
    by_cases hl : p.length ≠ (s.tor.numPieces + 7) / 8
    · simp only [hl, ↓reduceIte, ne_eq, not_false_eq_true]
      rw [bitfield_wrong_size s me (rxBitfield p) st (by rw [(data_length h).2]; show (p.length : Int) ≠ _; omega)]
      exact ⟨⟨_, rfl⟩, fun e => by cases e⟩
    · simp only [hl, ↓reduceIte]
      have hl : p.length = (s.tor.numPieces + 7) / 8 := Classical.not_not.mp hl
      have hdata : (rxBitfield p).data = p := rfl
      obtain ⟨b1, b2⟩ := bitfield_right_size h calls hr me (rxBitfield p) (rx_wf p hp).1 (by rw [(data_length h).2]; show (p.length : Int) = _; omega)
      rw [hdata, hc] at b1 b2
      have hle : ∀ j, (σ.registered j).length ≤ 63 := by rw [← hc]; exact hr.inv.le
      have hnd : ((List.range s.tor.numPieces).filter (bit p)).Nodup := List.nodup_range.filter _
      have r1 := regs_atMost me.key _ hnd σ.registered hle
      have hcrowd : crowded ⟨s.tor.numPieces, pl, ours s⟩ me.key p σ.registered = false ↔
          AtMost 63 σ.registered (((List.range s.tor.numPieces).filter (bit p)).map (Step.reg me.key)) := by
        rw [r1]
        unfold crowded
        rw [List.any_eq_false]
        constructor
        · intro hh i hi hk
          rw [List.mem_filter, List.mem_range] at hi
          have := hh i (List.mem_range.mpr hi.1)
          simp [hi.2, hk] at this
          exact this
        · intro hh i hi hb
          simp only [Bool.and_eq_true, Bool.not_eq_true', decide_eq_false_iff_not, decide_eq_true_eq] at hb
          have := hh i (List.mem_filter.mpr ⟨hi, hb.1.1⟩) hb.1.2
          omega
      by_cases hcr : crowded ⟨s.tor.numPieces, pl, ours s⟩ me.key p σ.registered = true
      · simp only [hcr, ↓reduceIte]
        rw [b2 (fun e => by rw [hcrowd.mpr e] at hcr; cases hcr)]
        exact ⟨rfl, fun e => by cases e⟩
      · simp only [hcr, ↓reduceIte, Bool.false_eq_true]
        have hAt := hcrowd.mp (by simpa using hcr)
        obtain ⟨st', e, hbuf, hout, hnb, -, hget, hre, -⟩ := b1 hAt
        rw [e]
        refine ⟨rfl, fun _ => ⟨by rw [hbuf]; exact h, ⟨_, hre, ?_⟩, by rw [hout]; exact ho⟩⟩
        show after (calls ++ [.registerBF me st'.peerBf]) = announce ⟨s.tor.numPieces, pl, ours s⟩ me.key p σ.registered
        have hd' : ∀ i, i < s.tor.numPieces → bit st'.peerBf.data i = bit p i := by
          intro i hi
          have := hget i hi
          rw [get_nat, get_nat, hdata, if_pos (show i < 8 * p.length by omega)] at this
          split at this
          · exact Res.ok.inj this
          · cases this
        funext j
        unfold after
        rw [List.flatMap_append, List.foldl_append]
        have : (calls.flatMap Call.steps).foldl Step.effect empty = σ.registered := hc
        rw [this]
        have hst : [Call.registerBF me st'.peerBf].flatMap Call.steps = ((List.range s.tor.numPieces).filter (bit p)).map (Step.reg me.key) := by
          simp only [List.flatMap_cons, List.flatMap_nil, List.append_nil, Call.steps, hnb, Int.toNat_natCast]
          congr 1
          exact List.filter_congr fun i hi => hd' i (List.mem_range.mp hi)
        rw [hst, regs_effect _ _ hnd]
        unfold announce
        simp only [List.mem_filter, List.mem_range, and_assoc]

/-- a sequence of messages -/
theorem hearAll_spec {pl : Nat} {hashes : Bytes} {files : List EntryBase} {cs : List Bytes} {s : Swarm} (me : PH) (wok : Nat → Bool)
    (ws : List Wire.Msg) (hw : ∀ w ∈ ws, Understood w ∧ (wire w).length < 2 ^ 32) :
    ∀ {st : St} (_ : Running pl hashes files cs s st.buf) (σ : Now) (_ : Agree s st σ),
    Result (hearAll (seen pl s) me.key wok σ ws).2 (handleAll s me wok (ws.map received) st).2 ∧
    ((hearAll (seen pl s) me.key wok σ ws).2 = .goesOn →
      Running pl hashes files cs s (handleAll s me wok (ws.map received) st).1.buf ∧
      Agree s (handleAll s me wok (ws.map received) st).1 (hearAll (seen pl s) me.key wok σ ws).1) := by
  induction ws with
  | nil => intro st h σ ha; exact ⟨rfl, fun _ => ⟨h, ha⟩⟩
  | cons w ws ih =>
    intro st h σ ha
    obtain ⟨h1, h2⟩ := hear_spec h me wok σ ha w (hw w (by simp)).1 (hw w (by simp)).2
    rw [List.map_cons, handleAll, hearAll]
    rcases hh : hear (seen pl s) me.key wok σ w with ⟨σ', f⟩
    rcases ho : handleOne s me wok (received w) st with ⟨st', r⟩
    rw [hh, ho] at h1 h2
    cases f with
    | goesOn =>
      obtain ⟨h3, h4⟩ := h2 rfl
      have : r = .ok () := h1
      subst this
      exact ih (fun x hx => hw x (by simp [hx])) h3 σ' h4
    | ends =>
      obtain ⟨e, rfl⟩ := h1
      exact ⟨⟨e, rfl⟩, fun e => by cases e⟩
    | crashes =>
      have : r = .panic := h1
      subst this
      exact ⟨rfl, fun e => by cases e⟩

theorem hearAll_append (c : Client) (key : Bytes) (wok : Nat → Bool) (ws vs : List Wire.Msg) (σ : Now) :
    hearAll c key wok σ (ws ++ vs) =
      match hearAll c key wok σ ws with
      | (σ', .goesOn) => hearAll c key wok σ' vs
      | r => r := by
  induction ws generalizing σ with
  | nil => rfl
  | cons w ws ih =>
    rw [List.cons_append, hearAll, hearAll]
    rcases hear c key wok σ w with ⟨σ', f⟩
    cases f with
    | goesOn => exact ih σ'
    | ends => rfl
    | crashes => rfl

/-- what is read from a buffer has been in it -/
theorem reads_small {data : Bytes} {ws : List Wire.Msg} {e : End} (h : Reads data ws e) :
    ∀ w ∈ ws, Understood w ∧ (wire w).length ≤ data.length := by
  induction h with
  | nil => simp
  | message w rest ws e hw h ih =>
    intro x hx
    rcases List.mem_cons.mp hx with rfl | hx
    · exact ⟨hw, by rw [List.length_append]; omega⟩
    · exact ⟨(ih x hx).1, by rw [List.length_append]; have := (ih x hx).2; omega⟩
  | oddHave p rest ws e hp h ih =>
    intro x hx
    have := (ih x hx).2
    rw [List.length_drop] at this
    exact ⟨(ih x hx).1, by omega⟩
  | oddRequest p rest ws e hp h ih =>
    intro x hx
    have := (ih x hx).2
    rw [List.length_drop] at this
    exact ⟨(ih x hx).1, by omega⟩
  | givenUp data h => simp
  | piece p rest => simp
  | overflow data t ht h3 hp => simp
  | emptyBitfield rest => simp

/-- the three ends of reading a buffer, as handled -/
theorem handle_reads (fuel : Nat) (s : Swarm) (me : PH) (wok : Nat → Bool) (data : Bytes) (hlen : data.length < 2 ^ 32) (hf : data.length < fuel)
    (st : St) (ws : List Wire.Msg) (e : End) (hr : Reads data ws e) :
    match e with
    | .normal => handleMessage fuel s me wok data st = handleAll s me wok (ws.map received) st
    | .crash => handleMessage fuel s me wok data st = (st, .panic)
    | .stuck => ∀ f, handleMessage f s me wok data st = (st, .timeout) := by
  have := loop_reads data ws e hr hlen
  cases e with
  | normal =>
    have h := this fuel [] 0 hf
    simp only [handleMessage, DecodeAll, h, List.nil_append]
  | crash =>
    have h := this fuel [] 0 hf
    simp only [handleMessage, DecodeAll, h]
  | stuck =>
    intro f
    have h := this f [] 0
    simp only [handleMessage, DecodeAll, h]

/-- **C95** (partial: it says exactly what happens).  Whatever bytes (less than 2^32 of them) arrive in a buffer, in whatever state: they can be taken apart,
and then the client crashes if this leads to a piece message or an overflowing length, it never comes back from this buffer if it leads to an
empty bitfield, and otherwise what happens is what `hearAll` says of the messages: the connection goes on, or ends, or the client crashes.
Missing from the property: that the client never crashes and always comes back. -/
theorem C95_exact_partial {pl : Nat} {hashes : Bytes} {files : List EntryBase} {cs : List Bytes} {s : Swarm} {st : St}
    (h : Running pl hashes files cs s st.buf) (calls : List Call) (hr : Reached s.tor.numPieces calls st.ppt) (me : PH) (wok : Nat → Bool)
    (data : Bytes) (hlen : data.length < 2 ^ 32) (fuel : Nat) (hf : data.length < fuel) :
    (∃ ws e, Reads data ws e) ∧
    ∀ ws e, Reads data ws e →
      match e with
      | .crash => (handleMessage fuel s me wok data st).2 = .panic
      | .stuck => ∀ f, (handleMessage f s me wok data st).2 = .timeout
      | .normal =>
        match (hearAll ⟨s.tor.numPieces, pl, ours s⟩ me.key wok ⟨after calls, st.out.length⟩ ws).2 with
        | .goesOn => (handleMessage fuel s me wok data st).2 = .ok ()
        | .ends => ∃ err, (handleMessage fuel s me wok data st).2 = .err err
        | .crashes => (handleMessage fuel s me wok data st).2 = .panic := by
  refine ⟨reads_total data.length data (Nat.le_refl _) hlen, ?_⟩
  intro ws e hre
  have key := handle_reads fuel s me wok data hlen hf st ws e hre
  cases e with
  | crash => simp only at key ⊢; rw [key]
  | stuck => simp only at key ⊢; intro f; rw [key f]
  | normal =>
    simp only at key ⊢
    rw [key]
    have hsm := reads_small hre
    have := (hearAll_spec me wok ws (fun w hw => ⟨(hsm w hw).1, by have := (hsm w hw).2; omega⟩) h ⟨after calls, st.out.length⟩ ⟨⟨calls, hr, rfl⟩, rfl⟩).1
    unfold seen at this
    cases hfate : (hearAll ⟨s.tor.numPieces, pl, ours s⟩ me.key wok ⟨after calls, st.out.length⟩ ws).2 with
    | goesOn => rw [hfate] at this; exact this
    | ends => rw [hfate] at this; exact this
    | crashes => rw [hfate] at this; exact this

/-- **C95**, exactly when the client survives a buffer. -/
theorem C95_survives_iff {pl : Nat} {hashes : Bytes} {files : List EntryBase} {cs : List Bytes} {s : Swarm} {st : St}
    (h : Running pl hashes files cs s st.buf) (calls : List Call) (hr : Reached s.tor.numPieces calls st.ppt) (me : PH) (wok : Nat → Bool)
    (data : Bytes) (hlen : data.length < 2 ^ 32) (fuel : Nat) (hf : data.length < fuel) :
    ((handleMessage fuel s me wok data st).2 = .ok () ∨ ∃ err, (handleMessage fuel s me wok data st).2 = .err err) ↔
      ∃ ws, Reads data ws .normal ∧ (hearAll ⟨s.tor.numPieces, pl, ours s⟩ me.key wok ⟨after calls, st.out.length⟩ ws).2 ≠ .crashes := by
  obtain ⟨⟨ws, e, hre⟩, hall⟩ := C95_exact_partial h calls hr me wok data hlen fuel hf
  constructor
  · intro hs
    have := hall ws e hre
    cases e with
    | crash => simp only at this; rw [this] at hs; rcases hs with hs | ⟨_, hs⟩ <;> cases hs
    | stuck => simp only at this; rw [this fuel] at hs; rcases hs with hs | ⟨_, hs⟩ <;> cases hs
    | normal =>
      refine ⟨ws, hre, fun hc => ?_⟩
      simp only [hc] at this
      rw [this] at hs
      rcases hs with hs | ⟨_, hs⟩ <;> cases hs
  · rintro ⟨ws, hre, hne⟩
    have := hall ws .normal hre
    cases hfate : (hearAll ⟨s.tor.numPieces, pl, ours s⟩ me.key wok ⟨after calls, st.out.length⟩ ws).2 with
    | goesOn => simp only [hfate] at this; exact .inl this
    | ends => simp only [hfate] at this; exact .inr this
    | crashes => exact absurd hfate hne

/-- **C95**, a whole connection: buffers that can all be taken apart without a crash or a loop are handled as the sequence of all their messages,
wherever the borders of the buffers are. -/
theorem C95_connection_partial {pl : Nat} {hashes : Bytes} {files : List EntryBase} {cs : List Bytes} {s : Swarm} {st : St}
    (h : Running pl hashes files cs s st.buf) (calls : List Call) (hr : Reached s.tor.numPieces calls st.ppt) (me : PH) (wok : Nat → Bool)
    (bufs : List (Bytes × List Wire.Msg)) (hre : ∀ b ∈ bufs, Reads b.1 b.2 .normal) (fuel : Nat) (hf : ∀ b ∈ bufs, b.1.length < fuel ∧ b.1.length < 2 ^ 32) :
    match (hearAll ⟨s.tor.numPieces, pl, ours s⟩ me.key wok ⟨after calls, st.out.length⟩ (bufs.map Prod.snd).flatten).2 with
    | .goesOn => (recvAll fuel s me wok (bufs.map Prod.fst) st).2 = .ok ()
    | .ends => ∃ err, (recvAll fuel s me wok (bufs.map Prod.fst) st).2 = .err err
    | .crashes => (recvAll fuel s me wok (bufs.map Prod.fst) st).2 = .panic := by
  have gen : ∀ (bufs : List (Bytes × List Wire.Msg)), (∀ b ∈ bufs, Reads b.1 b.2 .normal) → (∀ b ∈ bufs, b.1.length < fuel ∧ b.1.length < 2 ^ 32) →
      ∀ {st : St} (_ : Running pl hashes files cs s st.buf) (σ : Now) (_ : Agree s st σ),
      Result (hearAll (seen pl s) me.key wok σ (bufs.map Prod.snd).flatten).2 (recvAll fuel s me wok (bufs.map Prod.fst) st).2 := by
    intro bufs
    induction bufs with
    | nil => intro _ _ st h σ ha; exact rfl
    | cons b bufs ih =>
      intro hre hf st h σ ha
      have hb := hf b (by simp)
      have hsm := reads_small (hre b (by simp))
      have key : handleMessage fuel s me wok b.1 st = _ := handle_reads fuel s me wok b.1 hb.2 hb.1 st b.2 .normal (hre b (by simp))
      obtain ⟨h1, h2⟩ := hearAll_spec me wok b.2 (fun w hw => ⟨(hsm w hw).1, by have := (hsm w hw).2; omega⟩) h σ ha
      rw [List.map_cons, List.map_cons, List.flatten_cons, hearAll_append, recvAll, key]
      rcases hh : hearAll (seen pl s) me.key wok σ b.2 with ⟨σ', f⟩
      rcases ho : handleAll s me wok (b.2.map received) st with ⟨st', r⟩
      rw [hh, ho] at h1 h2
      cases f with
      | goesOn =>
        obtain ⟨h3, h4⟩ := h2 rfl
        have : r = .ok () := h1
        subst this
        exact ih (fun x hx => hre x (by simp [hx])) (fun x hx => hf x (by simp [hx])) h3 σ' h4
      | ends => obtain ⟨e, rfl⟩ := h1; exact ⟨e, rfl⟩
      | crashes => have : r = .panic := h1; subst this; rfl
  have := gen bufs hre hf h ⟨after calls, st.out.length⟩ ⟨⟨calls, hr, rfl⟩, rfl⟩
  unfold seen at this
  cases hfate : (hearAll ⟨s.tor.numPieces, pl, ours s⟩ me.key wok ⟨after calls, st.out.length⟩ (bufs.map Prod.snd).flatten).2 with
  | goesOn => rw [hfate] at this; exact this
  | ends => rw [hfate] at this; exact this
  | crashes => rw [hfate] at this; exact this

/-- C95 refuted: in every state of every client, five bytes of any peer end the process, and five other bytes keep the connection's goroutine busy
for ever. -/
theorem C95_refuted (s : Swarm) (me : PH) (wok : Nat → Bool) (st : St) (fuel : Nat) :
    (handleMessage (fuel + 1) s me wok [255, 255, 255, 255, 4] st).2 = .panic ∧
    ∀ f, (handleMessage f s me wok [0, 0, 0, 1, 5] st).2 = .timeout := by
  constructor
  · rw [handleMessage, DecodeAll, decodeAllLoop, C13_refuted_length_overflow]; rfl
  · intro f
    have h := loop_empty_bitfield f [] (by decide) [] 0
    rw [List.append_nil] at h
    simp only [handleMessage, DecodeAll, h]

/-- the messages of a session and what becomes of it, as examples: served, ended by a bitfield of the wrong size, crashed by a request that is too long -/
example : (hearAll ⟨10, 4, fun i => i == 3⟩ (ascii "p") (fun _ => true) ⟨empty, 0⟩ [.bitfield [255, 0], .request 3 0 4, .request 2 0 4]).2 = .goesOn ∧
    (hearAll ⟨10, 4, fun i => i == 3⟩ (ascii "p") (fun _ => true) ⟨empty, 0⟩ [.request 3 0 4, .bitfield [255], .request 3 0 9]).2 = .ends ∧
    (hearAll ⟨10, 4, fun i => i == 3⟩ (ascii "p") (fun _ => true) ⟨empty, 0⟩ [.request 3 0 4, .request 3 0 9]).2 = .crashes := by decide +kernel

/-- C95, a case that meets the hypotheses: a running client with an empty tracker, and a buffer with three requests (for a piece that is there, for
one that is not, and for one beyond the bitfield's bytes): taken apart normally, and it crashes -/
example : ∃ s t, Running 4 exHashes exFiles [[1, 2, 3, 4, 5], [], [6, 7, 8, 9, 10, 11, 12, 13]] s [91, 92, 93, 94] ∧ Reached s.tor.numPieces [] t ∧
    ∃ data ws, Reads data ws .normal ∧ data.length = 51 ∧ ws = [.request 1 0 4, .request 0 0 4, .request 8 0 2] ∧
      (hearAll ⟨s.tor.numPieces, 4, ours s⟩ [7] (fun _ => true) ⟨after [], 0⟩ ws).2 = .crashes := by
  obtain ⟨s, h, hn, hb, hc, h1, h3, h0⟩ := exRunning
  obtain ⟨t, e, iv, -⟩ := new_spec 4
  refine ⟨s, t, h, ⟨by rw [hn]; decide, (fun c hc => by cases hc), t, by rw [hn]; exact e, rfl⟩, _, _,
    .message (.request 1 0 4) _ _ _ trivial (.message (.request 0 0 4) _ _ _ trivial (.message (.request 8 0 2) [] _ _ trivial .nil)), by decide +kernel, rfl, ?_⟩
  have o1 : ours s 1 = true := by exact (get_ours h 1 (by rw [hn]; decide)).mp h1
  have o0 : ours s 0 = false := by
    cases ho : ours s 0 with
    | false => rfl
    | true => have := (get_ours h 0 (by rw [hn]; decide)).mpr ho; rw [h0] at this; cases this
  have hcm : Client.complete ⟨4, 4, ours s⟩ = false := by
    unfold Client.complete
    simp only [List.all_eq_false, List.mem_range]
    exact ⟨0, by decide, by simp [o0]⟩
  rw [hn]
  simp [hearAll, hear, o1, o0, hcm]

end Verif.MsgHandler
