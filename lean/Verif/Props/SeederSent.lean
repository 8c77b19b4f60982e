import Verif.Props.Seeder
/-
C66: what can be sent at all, whatever is received.
-/
set_option autoImplicit false

namespace Verif.Session
open Verif.P2P Verif.Bf Verif.Files Verif.FileIO Verif.PieceTracker Verif.Layout Verif.Bits Verif.Wire Verif.Avail Verif.Handshake
  Verif.HandshakeSpec Verif.MsgHandler Verif.SessionSpec Verif.Peer Verif.Framing Verif.Seeder

/-- a block that answers a request for a piece we have; the bytes are those of the piece, as far as there are such -/
def Answers (content : Bytes) (pl n : Nat) (have_ : Nat → Bool) (ws : List Wire.Msg) (m : Wire.Msg) : Prop :=
  ∃ i b l blk, m = .piece i b blk ∧ .request i b l ∈ ws ∧ i.toNat < n ∧ have_ i.toNat = true ∧ b.toNat + l.toNat ≤ pl ∧ blk.length = l.toNat ∧
    ∀ k, k < l.toNat → b.toNat + k < (pieceOf content pl i.toNat).length → blk[k]? = (pieceOf content pl i.toNat)[b.toNat + k]?

theorem pieceOf_le (content : Bytes) (pl i : Nat) : (pieceOf content pl i).length ≤ pl := by
  unfold pieceOf
  rw [List.length_take]
  omega

theorem serveOne_sent (content : Bytes) (pl n : Nat) (have_ fl : Nat → Bool) (ok : Bool) (old : Bytes) (ho : old.length = pl) (w : Wire.Msg) :
    (serveOne content pl n have_ fl ok old w).2.1.length = pl ∧ ∀ m ∈ (serveOne content pl n have_ fl ok old w).1, Answers content pl n have_ [w] m := by
  cases w with
  | request i b l =>
    have hp := pieceOf_le content pl i.toNat
    have hn : (pieceOf content pl i.toNat ++ old.drop (pieceOf content pl i.toNat).length).length = pl := by
      rw [List.length_append, List.length_drop]; omega
    simp only [serveOne]
    split
    · rename_i h1
      split
      · rename_i h2
        split
        · rename_i h3
          split
          · refine ⟨hn, ?_⟩
            intro m hm
            refine ⟨i, b, l, _, List.mem_singleton.mp hm, List.mem_singleton.mpr rfl, h1, h2, h3, ?_, ?_⟩
            · unfold range
              rw [List.length_take, List.length_drop, hn]
              omega
            · intro k hk hin
              unfold range
              rw [List.getElem?_take_of_lt hk, List.getElem?_drop, List.getElem?_append_left hin]
          · exact ⟨hn, fun m hm => nomatch hm⟩
        · exact ⟨hn, fun m hm => nomatch hm⟩
      · exact ⟨ho, fun m hm => nomatch hm⟩
    · split
      · exact ⟨ho, fun m hm => nomatch hm⟩
      · split <;> exact ⟨ho, fun m hm => nomatch hm⟩
  | _ => exact ⟨ho, fun m hm => nomatch hm⟩

theorem answers_mono {content : Bytes} {pl n : Nat} {have_ : Nat → Bool} {ws ws' : List Wire.Msg} (h : ∀ w ∈ ws, w ∈ ws') {m : Wire.Msg}
    (ha : Answers content pl n have_ ws m) : Answers content pl n have_ ws' m := by
  obtain ⟨i, b, l, blk, h1, h2, h3⟩ := ha
  exact ⟨i, b, l, blk, h1, h _ h2, h3⟩

theorem serve_sent (content : Bytes) (pl n : Nat) (have_ fl ok : Nat → Bool) (ws : List Wire.Msg) :
    ∀ (k : Nat) (old : Bytes), old.length = pl → (serve content pl n have_ fl ok k old ws).2.1.length = pl ∧
      ∀ m ∈ (serve content pl n have_ fl ok k old ws).1, Answers content pl n have_ ws m := by
  induction ws with
  | nil => intro k old ho; exact ⟨ho, fun m hm => nomatch hm⟩
  | cons w ws ih =>
    intro k old ho
    obtain ⟨h1, h2⟩ := serveOne_sent content pl n have_ fl (ok k) old ho w
    rw [serve]
    rcases hone : serveOne content pl n have_ fl (ok k) old w with ⟨out, new, o⟩
    rw [hone] at h1 h2
    have h2' : ∀ m ∈ out, Answers content pl n have_ (w :: ws) m := fun m hm =>
      answers_mono (fun x hx => List.mem_cons.mpr (.inl (List.mem_singleton.mp hx))) (h2 m hm)
    cases o with
    | fine =>
      obtain ⟨h3, h4⟩ := ih (k + out.length) new h1
      refine ⟨h3, fun m hm => ?_⟩
      rcases List.mem_append.mp hm with hm | hm
      · exact h2' m hm
      · exact answers_mono (fun x hx => List.mem_cons_of_mem _ hx) (h4 m hm)
    | error => exact ⟨h1, h2'⟩
    | crash => exact ⟨h1, h2'⟩
    | stuck => exact ⟨h1, h2'⟩

theorem talk_sent {content : Bytes} {pl n : Nat} {have_ fl ok : Nat → Bool} {k : Nat} {old : Bytes} {bs : List Bytes} {sent : List Wire.Msg} {o : Outcome}
    (h : Talk content pl n have_ fl ok k old bs sent o) (ho : old.length = pl) :
    ∀ m ∈ sent, ∃ buf ws, buf ∈ bs ∧ Reads buf ws .normal ∧ Answers content pl n have_ ws m := by
  induction h with
  | nil => exact fun m hm => nomatch hm
  | crash => exact fun m hm => nomatch hm
  | stuck => exact fun m hm => nomatch hm
  | last k old b bs ws hr out new o hs _ =>
    intro m hm
    have := (serve_sent content pl n have_ fl ok ws k old ho).2
    rw [hs] at this
    exact ⟨b, ws, by simp, hr, this m hm⟩
  | more k old b bs ws hr out new hs out' o _ ih =>
    intro m hm
    obtain ⟨h1, h2⟩ := serve_sent content pl n have_ fl ok ws k old ho
    rw [hs] at h1 h2
    rcases List.mem_append.mp hm with hm | hm
    · exact ⟨b, ws, by simp, hr, h2 m hm⟩
    · obtain ⟨buf, ws', h3, h4⟩ := ih h1 m hm
      exact ⟨buf, ws', by simp [h3], h4⟩

/-- how a buffer is taken apart is determined -/
theorem reads_unique {data : Bytes} (hlen : data.length < 2 ^ 32) {ws ws' : List Wire.Msg} {e e' : End} (h : Reads data ws e) (h' : Reads data ws' e') :
    e = e' ∧ (e = .normal → ws = ws') := by
  have k := Verif.P2P.loop_reads data ws e h hlen (data.length + 1) [] 0
  have k' := Verif.P2P.loop_reads data ws' e' h' hlen (data.length + 1) [] 0
  have hl : data.length < data.length + 1 := Nat.lt_succ_self _
  cases e with
  | normal =>
    have k := k hl
    cases e' with
    | normal =>
      have k' := k' hl
      rw [k] at k'
      refine ⟨rfl, fun _ => ?_⟩
      have e1 : ws.map received = ws'.map received := by
        have := congrArg DecodeAllResult.msgs (Res.ok.inj k')
        simpa using this
      have e2 := congrArg (List.map Msg.view) e1
      have e3 : ∀ l : List Wire.Msg, (l.map received).map Msg.view = l := by
        intro l
        rw [List.map_map]
        conv => rhs; rw [← List.map_id l]
        exact List.map_congr_left (fun w _ => view_received w)
      rwa [e3, e3] at e2
    | crash => have k' := k' hl; rw [k] at k'; cases k'
    | stuck => have k' : _ = Res.timeout := k'; rw [k] at k'; cases k'
  | crash =>
    have k := k hl
    cases e' with
    | normal => have k' := k' hl; rw [k] at k'; cases k'
    | crash => exact ⟨rfl, nofun⟩
    | stuck => have k' : _ = Res.timeout := k'; rw [k] at k'; cases k'
  | stuck =>
    have k : _ = Res.timeout := k
    cases e' with
    | normal => have k' := k' hl; rw [k] at k'; cases k'
    | crash => have k' := k' hl; rw [k] at k'; cases k'
    | stuck => exact ⟨rfl, nofun⟩

/-- **C66**: the specification leaves no choice: what should be sent and how it should end is determined by what is received. -/
theorem C66_unique {content : Bytes} {pl n : Nat} {have_ fl ok : Nat → Bool} {k : Nat} {old : Bytes} {bs : List Bytes} (hb : ∀ b ∈ bs, b.length < 2 ^ 32)
    {sent : List Wire.Msg} {o : Outcome} (h : Talk content pl n have_ fl ok k old bs sent o) :
    ∀ sent' o', Talk content pl n have_ fl ok k old bs sent' o' → sent = sent' ∧ o = o' := by
  induction h with
  | nil => intro sent' o' h'; cases h'; exact ⟨rfl, rfl⟩
  | crash k old b bs ws hr =>
    intro sent' o' h'
    have hl := hb b (by simp)
    cases h' with
    | crash => exact ⟨rfl, rfl⟩
    | stuck => exact absurd (reads_unique hl hr (show Reads b _ .stuck from by assumption)).1 nofun
    | last => exact absurd (reads_unique hl hr (show Reads b _ .normal from by assumption)).1 nofun
    | more => exact absurd (reads_unique hl hr (show Reads b _ .normal from by assumption)).1 nofun
  | stuck k old b bs ws hr =>
    intro sent' o' h'
    have hl := hb b (by simp)
    cases h' with
    | crash => exact absurd (reads_unique hl hr (show Reads b _ .crash from by assumption)).1 nofun
    | stuck => exact ⟨rfl, rfl⟩
    | last => exact absurd (reads_unique hl hr (show Reads b _ .normal from by assumption)).1 nofun
    | more => exact absurd (reads_unique hl hr (show Reads b _ .normal from by assumption)).1 nofun
  | last k old b bs ws hr out new o hs ho =>
    intro sent' o' h'
    have hl := hb b (by simp)
    cases h' with
    | crash => exact absurd (reads_unique hl hr (show Reads b _ .crash from by assumption)).1 nofun
    | stuck => exact absurd (reads_unique hl hr (show Reads b _ .stuck from by assumption)).1 nofun
    | last =>
      rename_i hr' ho' hs'
      obtain rfl := (reads_unique hl hr hr').2 rfl
      rw [hs] at hs'
      cases hs'
      exact ⟨rfl, rfl⟩
    | more =>
      rename_i hs' hr' ht'
      obtain rfl := (reads_unique hl hr hr').2 rfl
      rw [hs] at hs'
      cases hs'
      exact absurd rfl ho
  | more k old b bs ws hr out new hs out2 o _ ih =>
    intro sent' o' h'
    have hl := hb b (by simp)
    cases h' with
    | crash => exact absurd (reads_unique hl hr (show Reads b _ .crash from by assumption)).1 nofun
    | stuck => exact absurd (reads_unique hl hr (show Reads b _ .stuck from by assumption)).1 nofun
    | last =>
      rename_i hr' ho' hs'
      obtain rfl := (reads_unique hl hr hr').2 rfl
      rw [hs] at hs'
      cases hs'
      exact absurd rfl ho'
    | more =>
      rename_i hs' hr' ht'
      obtain rfl := (reads_unique hl hr hr').2 rfl
      rw [hs] at hs'
      cases hs'
      obtain ⟨e1, e2⟩ := ih (fun x hx => hb x (by simp [hx])) _ _ ht'
      rw [e1, e2]
      exact ⟨rfl, rfl⟩

/-- an instance: with no buffers nothing is sent -/
example : Talk [1, 2] 2 1 (fun _ => true) (fun _ => false) (fun _ => true) 0 [0, 0] [] [] .fine := .nil _ _

/-- **C66**: whatever a peer sends, behind our handshake, our bitfield and an unchoke message it gets nothing but blocks of pieces that we have, each of which it requested in one of the
buffers, of the requested length, and with the bytes of the piece (as far as the piece is that long, see C43). -/
theorem C66_sent {pl : Nat} {hashes : Bytes} {files : List EntryBase} {cs : List Bytes} {s : MsgHandler.Swarm}
    (h : Running pl hashes files cs s (List.replicate pl 0)) (calls : List Call) (ppt : Tracker) (hr : Reached s.tor.numPieces calls ppt)
    (v6 : IP → Bytes) (ip : IP) (port : UInt16) (hs ih own id : Bytes) (hhs : IsHandshake hs ih id) (hown : own.length = 20)
    (ptr fuel : Nat) (uok : Bool) (wok : Nat → Bool) (bs : List Bytes) (hb : ∀ b ∈ bs, b.length < 2 ^ 32 ∧ b.length < fuel) :
    ∃ hs' sent, IsHandshake hs' ih own ∧
      (incoming fuel v6 ⟨some (ip, port), true, some hs, true, true⟩ ih own s ptr uok wok ppt bs).1.flatten =
        hs' ++ stream (.bitfield s.bf.data :: ((if uok then [.unchoke] else []) ++ sent)) ∧
      ∀ m ∈ sent, ∃ buf ws, buf ∈ bs ∧ Reads buf ws .normal ∧ Answers cs.flatten pl s.tor.numPieces (ours s) ws m := by
  obtain ⟨⟨sent, o, ht⟩, hall⟩ := C66_exact h calls ppt hr v6 ip port hs ih own id hhs hown ptr fuel uok wok bs hb
  obtain ⟨out, hs', r, e, -, g, q⟩ := hall sent o ht
  rw [e]
  exact ⟨hs', sent, g, q, talk_sent ht (List.length_replicate ..)⟩

/-- **C66**, the same for a connection that we open. -/
theorem C66_sent_outgoing {pl : Nat} {hashes : Bytes} {files : List EntryBase} {cs : List Bytes} {s : MsgHandler.Swarm}
    (h : Running pl hashes files cs s (List.replicate pl 0)) (calls : List Call) (ppt : Tracker) (hr : Reached s.tor.numPieces calls ppt)
    (p : Info) (ih own : Bytes) (hih : ih.length = 20) (hown : own.length = 20)
    (ptr fuel : Nat) (uok : Bool) (wok : Nat → Bool) (bs : List Bytes) (hb : ∀ b ∈ bs, b.length < 2 ^ 32 ∧ b.length < fuel) :
    ∃ hs' sent, IsHandshake hs' ih own ∧
      (outgoing fuel true true p ih own s ptr uok wok ppt bs).1.flatten = hs' ++ stream ((if uok then [.unchoke] else []) ++ sent) ∧
      ∀ m ∈ sent, ∃ buf ws, buf ∈ bs ∧ Reads buf ws .normal ∧ Answers cs.flatten pl s.tor.numPieces (ours s) ws m := by
  obtain ⟨⟨sent, o, ht⟩, hall⟩ := C66_exact_outgoing h calls ppt hr p ih own hih hown ptr fuel uok wok bs hb
  obtain ⟨out, hs', r, e, -, g, q⟩ := hall sent o ht
  rw [e]
  exact ⟨hs', sent, g, q, talk_sent ht (List.length_replicate ..)⟩

/-- there is a running seeder and a peer that sends odd bytes: an index that does not exist in the second buffer -/
example : ∃ s t hs' sent, Reached s.tor.numPieces [] t ∧ IsHandshake hs' (List.replicate 20 1) (List.replicate 20 3) ∧
    (incoming 30 (fun _ => []) ⟨some (IPv4 1 2 3 4, 80), true, some (MakeHandshake (List.replicate 20 1) (List.replicate 20 2)), true, true⟩ (List.replicate 20 1)
      (List.replicate 20 3) s 7 true (fun _ => true) t [wire (.request 1 2 2), wire (.request 99 0 1)]).1.flatten =
        hs' ++ stream (.bitfield s.bf.data :: .unchoke :: sent) := by
  obtain ⟨s, t, h, -, -, -, hr⟩ := exStart
  obtain ⟨hs', sent, h1, h2, -⟩ := C66_sent h [] t hr (fun _ => []) (IPv4 1 2 3 4) 80
    (MakeHandshake (List.replicate 20 1) (List.replicate 20 2)) (List.replicate 20 1) (List.replicate 20 3) (List.replicate 20 2)
    (C40_made _ _ [] (by decide) (by decide)).1 (by decide) 7 30 true (fun _ => true) [wire (.request 1 2 2), wire (.request 99 0 1)] (by
      intro b hb
      simp only [List.mem_cons, List.not_mem_nil, or_false] at hb
      rcases hb with rfl | rfl <;> decide +kernel)
  exact ⟨s, t, hs', sent, hr, h1, h2⟩

end Verif.Session
