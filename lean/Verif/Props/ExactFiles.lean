import Verif.Props.Create
import Verif.Props.Paths
import Verif.Props.Session
import Verif.Props.DS
import Verif.Props.SendBitfield
/-
C20, C28, C30, C34, C51, C52, C68: exactly when they hold.
-/
set_option autoImplicit false

namespace Verif.FileIO
open Verif.FS

/-- **C28**, exact: how a successful OCAT can leave the files.  If opening an existing file does not fail, the file has its old data, cut or filled up with zeros,
and nothing else is possible; if it may fail, the file of zeros is possible as well, and nothing else. -/
theorem C28_exact_partial (path : Bytes) (n : Nat) (fs fs' : State) :
    (Exec false (OCAT path n) fs (.done (.ok ())) fs' ↔ fs' = fs.set path (prepared (old fs path) n)) ∧
    (Exec true (OCAT path n) fs (.done (.ok ())) fs' ↔
      fs' = fs.set path (prepared (old fs path) n) ∨ fs' = fs.set path (List.replicate n 0)) := by
  refine ⟨⟨fun h => ?_, ?_⟩, ⟨fun h => ?_, ?_⟩⟩
  · rcases ocat_end path n fs fs' _ h with ⟨-, hne, -⟩ | ⟨c', rfl, -, hok, -⟩
    · exact absurd rfl hne
    · rw [hok rfl]
  · rintro rfl; exact ocat_run false path n fs
  · unfold OCAT at h
    cases h with
    | open_ok _ _ _ _ _ c hc h =>
      have : old fs path = c := by unfold old; rw [hc]; rfl
      obtain ⟨c', e, -, hok, -⟩ := checkSize_end true path n c fs fs' _ hc h
      rw [this, e, hok rfl]
      exact .inl rfl
    | open_fail _ _ _ _ _ hc h =>
      rcases ocat_end_missing true path n fs fs' _ h with ⟨-, hne, -⟩ | ⟨c', e, -, hok, -⟩
      · exact absurd rfl hne
      · rw [e, hok rfl]
        exact .inr (by simp [prepared])
  · rintro (rfl | rfl)
    · exact ocat_run true path n fs
    · unfold OCAT
      refine .open_fail _ _ _ _ _ (.inr rfl) ?_
      have h1 : Exec true (CreateZeroFilledFile path n) fs (.done (.ok ())) (fs.set path (List.replicate n 0)) := by
        refine .mkdir _ _ _ _ _ true (.trunc_ok _ _ _ _ _ ?_)
        have := appendZeros_run true path n [] (fs.set path []) (set_get _ _ _)
        rw [set_set, List.nil_append] at this
        exact this
      refine Exec.bind h1 ?_
      have := checkSize_run true path n (List.replicate n 0) (fs.set path (List.replicate n 0)) (set_get _ _ _)
      rw [set_set, prepared_of_length _ _ (by simp)] at this
      exact this

example : prepared (old (fun _ => some [7]) (ascii "f")) 2 = [7, 0] ∧ List.replicate 2 (0 : UInt8) ≠ [7, 0] := by decide

end Verif.FileIO

namespace Verif.Create
open Verif.Files Verif.FS Verif.Path Verif.Utils Verif.Layout Verif.FileIO Verif.Swarm Verif.Bf Verif.Bits

/-- **C30**, exact: if there is at least one file, all files can be read and no read fails, a torrent is created – and it is the right one – if and only if the piece length is
between 1 and 5 MiB, however the reads are split; for any other piece length nothing comes back, or there is a panic. -/
theorem C30_iff_partial (H : Bytes → Bytes) (hH : ∀ x, (H x).length = 20) (reads : Nat → Option Nat) (hr : ∀ t, (reads t).isSome) (fs : State)
    (path : Bytes) (paths : List Bytes) (wd name : Bytes) (pl : Nat) (cs : List Bytes)
    (hcs : Contents fs (filesDir (path :: paths) wd name) (path :: paths) cs) :
    ((∃ fuel ti, CreateTorInfo H reads fs fuel (path :: paths) wd name pl = .ok ti) ↔ 0 < pl ∧ pl ≤ 5 * 1024 * 1024) ∧
    ((∃ fuel ti, CreateTorInfo H reads fs fuel (path :: paths) wd name pl = .ok ti ∧ Describes H (filesDir (path :: paths) wd name) (path :: paths) cs name pl ti) ↔
      0 < pl ∧ pl ≤ 5 * 1024 * 1024) := by
  have good : 0 < pl ∧ pl ≤ 5 * 1024 * 1024 → ∃ fuel ti, CreateTorInfo H reads fs fuel (path :: paths) wd name pl = .ok ti ∧
      Describes H (filesDir (path :: paths) wd name) (path :: paths) cs name pl ti := by
    rintro ⟨h1, h2⟩
    refine ⟨(cs.map List.length).sum + 1, C30_succeeds_partial H hH reads fs _ _ wd name pl h1 h2 cs hcs hr ?_⟩
    intro c hc
    have : ∀ (l : List Bytes), c ∈ l → c.length ≤ (l.map List.length).sum := by
      intro l
      induction l with
      | nil => nofun
      | cons x l ih =>
        intro hm
        rw [List.map_cons, List.sum_cons]
        rcases List.mem_cons.mp hm with rfl | hm
        · omega
        · have := ih hm; omega
    have := this cs hc
    omega
  have bad : (∃ fuel ti, CreateTorInfo H reads fs fuel (path :: paths) wd name pl = .ok ti) → 0 < pl ∧ pl ≤ 5 * 1024 * 1024 := by
    rintro ⟨fuel, ti, e⟩
    refine ⟨?_, ?_⟩
    · apply Nat.pos_of_ne_zero
      rintro rfl
      rw [show ((0 : Nat) : Int) = 0 from rfl] at e
      rw [C30_refuted_zero] at e
      cases e
    · apply Nat.le_of_not_lt
      intro hlt
      cases cs with
      | nil => simp [Contents] at hcs
      | cons c cs =>
        have hc : fs (Join (filesDir (path :: paths) wd name) path) = some c := by
          unfold Contents at hcs
          simp only [List.map_cons] at hcs
          exact (List.cons.inj hcs).1
        rw [C30_refuted_large_pieces H reads hr fs fuel path paths wd name pl hlt c hc] at e
        cases e
  exact ⟨⟨bad, fun h => by obtain ⟨f, ti, e, -⟩ := good h; exact ⟨f, ti, e⟩⟩, ⟨fun ⟨f, ti, e, _⟩ => bad ⟨f, ti, e⟩, good⟩⟩

example : Contents (fun _ => some [1, 2, 3]) (filesDir [ascii "a", ascii "b"] (ascii "/w") (ascii "n")) [ascii "a", ascii "b"] [[1, 2, 3], [1, 2, 3]] := rfl

end Verif.Create

namespace Verif.Torrent
open Verif.Files Verif.Bencode Verif.Bencode.Spec Verif.Path Verif.Dirs Verif.Info

theorem not_mem_walk (x : Bytes) (ws dir : List Bytes) (hw : x ∉ ws) (hd : x ∉ dir) : x ∉ walk dir ws := by
  induction ws generalizing dir with
  | nil => exact hd
  | cons w ws ih =>
    simp only [List.mem_cons, not_or] at hw
    refine ih _ hw.2 ?_
    unfold step
    split
    · exact hd
    split
    · exact fun h => hd (List.dropLast_subset _ h)
    · simp [hd, hw.1]

/-- steps that leave a directory do not come back into it if its name is not among them -/
theorem leaves (x : Bytes) (ws dir : List Bytes) (hw : x ∉ ws) (hd : x ∉ dir) (hs : ¬ Stays dir.length ws) : x ∉ walk (x :: dir) ws := by
  induction ws generalizing dir with
  | nil => exact absurd trivial hs
  | cons w ws ih =>
    simp only [List.mem_cons, not_or] at hw
    unfold Stays at hs
    show x ∉ walk (step (x :: dir) w) ws
    unfold step
    split
    · rw [if_pos (by assumption)] at hs; exact ih _ hw.2 hd hs
    rw [if_neg (by assumption)] at hs
    split
    · rw [if_pos (by assumption)] at hs
      cases dir with
      | nil => exact not_mem_walk x ws [] hw.2 (by simp)
      | cons y dir =>
        rw [List.dropLast_cons_of_ne_nil (by simp)]
        refine ih _ hw.2 (fun h => hd (List.dropLast_subset _ h)) fun h => hs ⟨by simp, ?_⟩
        rw [List.length_dropLast] at h
        exact h
    · rw [if_neg (by assumption)] at hs
      refine ih (dir ++ [w]) hw.2 (by simp [hd, hw.1]) ?_
      rw [List.length_append]
      exact hs

/-- a name that is not in a list -/
theorem fresh (ws : List Bytes) : ∃ x : Bytes, x ∉ ws := by
  refine ⟨List.replicate ((ws.map List.length).sum + 1) 97, fun h => ?_⟩
  have : ∀ (l : List Bytes) (c : Bytes), c ∈ l → c.length ≤ (l.map List.length).sum := by
    intro l
    induction l with
    | nil => nofun
    | cons x l ih =>
      intro c hm
      rw [List.map_cons, List.sum_cons]
      rcases List.mem_cons.mp hm with rfl | hm
      · omega
      · have := ih c hm; omega
  have := this ws _ h
  rw [List.length_replicate] at this
  omega

/-- **C34**, exact, for a working directory given as the current one (such as "." or "./"): a file is below the working directory wherever the program is started if and only if
the steps to it never lead above the place where they begin. -/
theorem C34_iff_partial (d : Dict) (wd : Bytes) (hwd : wd ≠ []) (hcur : ∀ cwd, resolve cwd wd = cwd) (ti : TorInfo) (h : FromDict d wd = .ok ti) :
    ∀ e ∈ ti.flist, (∀ cwd, ∃ below, resolve cwd e.base.localPath = resolve cwd wd ++ below) ↔ Stays 0 (stepsTo d ti.name e.base.torPath) := by
  intro e he
  refine ⟨fun hall => ?_, fun hs cwd => C34_inside_partial d wd hwd ti h cwd e he hs⟩
  apply Classical.byContradiction
  intro hs
  obtain ⟨x, hx⟩ := fresh (stepsTo d ti.name e.base.torPath)
  obtain ⟨below, hb⟩ := hall [x]
  rw [C34_location d wd hwd ti h [x] e he, hcur] at hb
  exact leaves x _ [] hx (by simp) hs (by rw [hb]; simp)

example : ∀ cwd, resolve cwd (ascii "./") = cwd := by
  intro cwd
  show walk cwd (components (ascii "./")) = cwd
  rw [show components (ascii "./") = [ascii ".", []] by decide]
  rfl

end Verif.Torrent

namespace Verif.DS
open Verif.SeqSpec

/-- **C51**, exact: `Items` lists exactly the members, each once, if and only if there are none. -/
theorem C51_iff_partial {τ : Type} (key : τ → Bytes) (zero : τ) (os : List (SOp τ)) :
    ((((setRun key os).Items zero).map key).Nodup ∧ ∀ k, k ∈ ((setRun key os).Items zero).map key ↔ SOp.member key os.reverse k = true) ↔
    ∀ k, SOp.member key os.reverse k = false := by
  obtain ⟨xs, h1, h2, h3⟩ := C51_items_partial key zero os
  rw [h1]
  constructor
  · rintro ⟨hn, hm⟩ k
    apply Classical.byContradiction
    intro hk
    have hk : k ∈ xs.map key := (h3 k).mpr (by simpa using hk)
    have hz : key zero ∈ xs.map key := (h3 _).mpr ((hm _).mp (by
      rw [List.map_append]
      apply List.mem_append_left
      rw [List.map_replicate]
      refine List.mem_replicate.mpr ⟨?_, rfl⟩
      intro h0
      rw [List.length_eq_zero_iff] at h0
      rw [h0] at hk; cases hk))
    rw [List.map_append, List.map_replicate, List.nodup_append] at hn
    refine hn.2.2 (key zero) (List.mem_replicate.mpr ⟨?_, rfl⟩) (key zero) hz rfl
    intro h0
    rw [List.length_eq_zero_iff] at h0
    rw [h0] at hk; cases hk
  · intro h0
    have : xs = [] := by
      cases xs with
      | nil => rfl
      | cons x xs =>
        have := (h3 (key x)).mp (by simp)
        rw [h0] at this; cases this
    subst this
    simp [h0]

example : ((setRun id [.add [1], .add [2], .remove [1]]).Items []) = [[], [2]] ∧ ((setRun id [.add [1], .remove [1]]).Items []) = [] := by decide

end Verif.DS

namespace Verif.MsgHandler
open Verif.P2P Verif.Bf Verif.Files Verif.FileIO Verif.PieceTracker Verif.Layout Verif.Bits Verif.Wire Verif.Avail Verif.Handshake

/-- **C52**, exact: the requests for a piece are created if and only if the length of the piece is a multiple of 2^32, and then there are none. -/
theorem C52_iff_partial (ti : TorInfo) (index : UInt32) :
    ((∃ fuel ms, createReqMessages fuel ti index = .ok ms) ↔ (2 ^ 32 : Int) ∣ lengthOf ti index.toNat) ∧
    ∀ fuel ms, createReqMessages fuel ti index = .ok ms → ms = [] := by
  have key : ∀ fuel ms, createReqMessages fuel ti index = .ok ms → (2 ^ 32 : Int) ∣ lengthOf ti index.toNat ∧ ms = [] := by
    intro fuel ms h
    by_cases hd : (2 ^ 32 : Int) ∣ lengthOf ti index.toNat
    · cases fuel with
      | zero => cases h
      | succ fuel => rw [C52_empty_partial ti index hd] at h; cases h; exact ⟨hd, rfl⟩
    · rw [C52_refuted_never_ends ti index hd] at h; cases h
  exact ⟨⟨fun ⟨f, ms, h⟩ => (key f ms h).1, fun hd => ⟨1, [], C52_empty_partial ti index hd 0⟩⟩, fun f ms h => (key f ms h).2⟩

example : ¬ (2 ^ 32 : Int) ∣ 16384 ∧ (2 ^ 32 : Int) ∣ 0 := by omega

/-- **C20**, exact: a client that gets the bitfield of another client of the same torrent (and does not become the 64th peer of a piece thereby) sees the same bits and the same
count if and only if the torrent has a piece. -/
theorem C20_iff_partial {pl : Nat} {hashes : Bytes} {files : List EntryBase} {cs : List Bytes} {s : Swarm} {st : St}
    (h : Running pl hashes files cs s st.buf) (calls : List Call) (hr : Reached s.tor.numPieces calls st.ppt) (me : PH)
    (theirs : Bitfield) (ht : Reachable theirs) (hn : theirs.nbits = s.tor.numPieces) (hs : s.tor.numPieces ≤ 2 ^ 32)
    (hfew : AtMost 63 (after calls) (((List.range s.tor.numPieces).filter (bit theirs.data)).map (Step.reg me.key))) (wok : Nat → Bool) :
    (∃ fuel bs st', (NewMsgBitfield theirs).Encode = .ok bs ∧ handleMessage fuel s me wok bs st = (st', .ok ()) ∧
      st'.peerBf.nbits = theirs.nbits ∧ st'.peerBf.nset = theirs.nset ∧
      ∀ i : Nat, i < s.tor.numPieces → st'.peerBf.Get i = theirs.Get i ∧
        (RegisteredFor st'.ppt i me.key ↔ RegisteredFor st.ppt i me.key ∨ theirs.Get i = .ok true)) ↔ 0 < s.tor.numPieces := by
  constructor
  · rintro ⟨fuel, bs, st', e1, e2, -⟩
    apply Nat.pos_of_ne_zero
    intro h0
    have hw := (reachable_exact ht).1
    have hl := hw.data_len
    have hlo := hw.lo
    have hlo8 := hw.lo8
    have hhi := hw.hi
    have hlen := hw.len
    rw [h0] at hn
    have hb : theirs.nbytes = 0 := by omega
    obtain ⟨bs', bf', k1, -, -, k2, k3, -⟩ := C20_sender theirs (by omega)
    rw [e1] at k1
    cases k1
    have : bs = [0, 0, 0, 1, 5] := by
      rw [← List.take_append_drop 5 bs, k2, k3, hb]
      have : theirs.data5.drop 5 = [] := by
        apply List.eq_nil_of_length_eq_zero
        have : theirs.data.length = 0 := by omega
        exact this
      rw [this]
      decide
    subst this
    have hx := C14_refuted_empty_bitfield [] (fun w hw => by cases hw) [] (by decide) fuel
    have e3 : stream [] ++ ([0, 0, 0, 1, 5] ++ []) = [0, 0, 0, 1, 5] := rfl
    rw [e3] at hx
    unfold handleMessage at e2
    rw [hx] at e2
    cases e2
  · intro h0
    obtain ⟨bs, st', k⟩ := C20_exchange_partial h calls hr me theirs ht hn h0 hs hfew 0 wok
    exact ⟨_, bs, st', k⟩

/-- a bitfield for a torrent without pieces, and one for a torrent with four -/
example : Reachable ⟨[0, 0, 0, 0, 0], 0, 0, 0⟩ ∧ Reachable ⟨[0, 0, 0, 0, 0, 0], 1, 4, 0⟩ ∧ ((List.range 4).filter (bit [0])).map (Step.reg [7]) = [] :=
  ⟨.new 0 _ (by decide), .new 4 _ (by decide), by decide +kernel⟩

end Verif.MsgHandler

namespace Verif.Session
open Verif.P2P Verif.Bf Verif.Files Verif.FileIO Verif.PieceTracker Verif.Layout Verif.Bits Verif.Wire Verif.Avail Verif.Handshake Verif.SessionSpec Verif.Peer Verif.MsgHandler

/-- **C68**, exact, while the connection lasts: a peer that keeps to the protocol and that nobody has registered so far is registered for exactly the pieces it has announced if and only
if each piece of its `have` messages is also in one of its bitfields. -/
theorem C68_iff_partial {pl : Nat} {hashes : Bytes} {files : List EntryBase} {cs : List Bytes} {s : MsgHandler.Swarm}
    (h : Running pl hashes files cs s (List.replicate pl 0)) (calls : List Call) (ppt : Tracker) (hr : Reached s.tor.numPieces calls ppt)
    (ptr : Nat) (p : Info) (keys : List Bytes) (hf : Few keys ⟨ptr, p.str⟩ calls) (chunks : List (List Wire.Msg))
    (hw : ∀ ws ∈ chunks, ∀ w ∈ ws, Polite cs.flatten pl s.tor.numPieces w)
    (hnew : ∀ i, i < s.tor.numPieces → ¬ RegisteredFor ppt i p.str)
    (fuel : Nat) (hfuel : ∀ ws ∈ chunks, ws.length < fuel ∧ (stream ws).length < 2 ^ 32) :
    ∃ ph out ppt' ph', NewPeerHandler p s.tor = .ok ph ∧
      loop fuel s ptr ph true (fun _ => true) ppt (chunks.map stream) = (out, ppt', ph', .ok ()) ∧
      ((∀ i : Nat, i < s.tor.numPieces → (RegisteredFor ppt' i p.str ↔ Announced chunks.flatten i)) ↔
        ∀ ws ∈ chunks, ∀ j, Wire.Msg.have j ∈ ws → j.toNat < s.tor.numPieces → InBitfield chunks.flatten j.toNat) := by
  obtain ⟨ph, out, ppt', ph', e1, e2, e3⟩ := C66_registered_partial h calls ppt hr ptr p keys hf chunks hw fuel hfuel
  refine ⟨ph, out, ppt', ph', e1, e2, ?_⟩
  have e4 : ∀ i, i < s.tor.numPieces → (RegisteredFor ppt' i p.str ↔ InBitfield chunks.flatten i) := by
    intro i hi
    rw [e3 i hi]
    exact ⟨fun h' => h'.elim (fun h' => absurd h' (hnew i hi)) (·.2), fun h' => .inr ⟨rfl, h'⟩⟩
  constructor
  · intro hall ws hws j hj hlt
    exact (e4 _ hlt).mp ((hall _ hlt).mpr (.inr ⟨j, List.mem_flatten.mpr ⟨ws, hws, hj⟩, rfl⟩))
  · intro hin i hi
    rw [e4 i hi]
    refine ⟨.inl, ?_⟩
    rintro (h' | ⟨j, hj, rfl⟩)
    · exact h'
    · obtain ⟨ws, hws, hj⟩ := List.mem_flatten.mp hj
      exact hin ws hws j hj hi

/-- a peer that announces pieces 0 and 2 in a bitfield and piece 3 in a `have` message is not registered for exactly these -/
example (p : Info) : ∃ s t ph out t' ph', Reached s.tor.numPieces [] t ∧ NewPeerHandler p s.tor = .ok ph ∧
    loop 10 s 7 ph true (fun _ => true) t [stream [.bitfield [160], .have 3]] = (out, t', ph', .ok ()) ∧
    ¬ ∀ i : Nat, i < s.tor.numPieces → (RegisteredFor t' i p.str ↔ Announced [.bitfield [160], .have 3] i) := by
  obtain ⟨s, t, h, hn, -, -, hr⟩ := exStart
  obtain ⟨ph, out, t', ph', e1, e2, e3⟩ := C68_iff_partial h [] t hr 7 p [p.str] ⟨by simp, by simp, by simp⟩ [[.bitfield [160], .have 3]] (by
      rw [hn]
      intro ws hws w hw
      simp only [List.mem_cons, List.not_mem_nil, or_false] at hws
      subst hws
      simp only [List.mem_cons, List.not_mem_nil, or_false] at hw
      rcases hw with rfl | rfl
      · simp only [Polite]; decide +kernel
      · trivial)
    (fun i hi => by rw [hr.inv.registered i hi]; simp [after, empty]) 10 (by
      intro ws hws
      simp only [List.mem_cons, List.not_mem_nil, or_false] at hws
      subst hws
      decide +kernel)
  refine ⟨s, t, ph, out, t', ph', hr, e1, e2, fun hall => ?_⟩
  obtain ⟨bits, hm, hb⟩ := e3.mp hall _ (List.mem_singleton.mpr rfl) 3 (by simp) (by rw [hn]; decide)
  simp only [List.flatten_cons, List.flatten_nil, List.append_nil, List.mem_cons, List.not_mem_nil, or_false, Wire.Msg.bitfield.injEq, reduceCtorEq] at hm
  subst hm
  revert hb
  decide

end Verif.Session
