import Verif.Props.Startup
import Verif.Props.Doc
/-
C93: starting again.
-/
set_option autoImplicit false

namespace Verif.Startup
open Verif.Files Verif.FS Verif.FileIO Verif.Bf Verif.Torrent Verif.Bencode Verif.Bencode.Spec Verif.PieceTracker

/-! ### files of the right size are left alone -/

theorem ocat_right {path : Bytes} {n : Nat} {fs fs' : State} {o : Outcome} {c : Bytes} (hc : fs path = some c) (hl : c.length = n)
    (h : Exec false (OCAT path n) fs o fs') : fs' = fs := by
  have chk : ∀ o fs', Exec false (checkSize path n) fs o fs' → fs' = fs := by
    intro o fs' h
    unfold checkSize at h
    cases h with
    | crash => rfl
    | size_ok _ _ _ _ _ c' hc' h =>
      rw [hc] at hc'
      cases hc'
      simp only [hl, if_true] at h
      cases h <;> rfl
    | size_fail _ _ _ _ _ h =>
      simp only at h
      cases h <;> rfl
  unfold OCAT at h
  cases h with
  | crash => rfl
  | open_ok _ _ _ _ _ c' hc' h => exact chk _ _ (by simpa using h)
  | open_fail _ _ _ _ _ hn h =>
    rcases hn with hn | hn
    · rw [hc] at hn; cases hn
    · cases hn

theorem ocatAll_right {es : List Entry} {fs fs' : State} {o : Outcome}
    (hc : ∀ e ∈ es, ∃ c, fs e.base.localPath = some c ∧ (c.length : Int) = e.base.length)
    (h : Exec false (OCATAll es) fs o fs') : fs' = fs := by
  induction es with
  | nil =>
    rw [OCATAll] at h
    cases h <;> rfl
  | cons e es ih =>
    obtain ⟨c, h1, h2⟩ := hc e (by simp)
    have one : ∀ o mid, Exec false (OCAT e.base.localPath e.base.length) fs o mid → mid = fs := by
      intro o mid hx
      rw [← h2] at hx
      exact ocat_right h1 rfl hx
    rw [OCATAll] at h
    rcases h.bind_inv with ⟨-, hx⟩ | ⟨r, mid, hx, h⟩
    · exact one _ _ hx
    · obtain rfl := one _ _ hx
      cases r with
      | ok u => exact ih (fun x hx => hc x (by simp [hx])) h
      | err er => cases h <;> rfl
      | panic => cases h <;> rfl
      | timeout => cases h <;> rfl

theorem load_spare {H : Bytes → Bytes} {data sp sp' ext wd : Bytes} {t : Torrent} (h : FromTorrentFile H (some data) sp wd = .ok t) :
    FromTorrentFile H (some (data ++ ext)) sp' wd = .ok t := by
  obtain ⟨d, infod, h1, h2, h3, h4, h5⟩ := fromTorrentFile_ok h
  rw [fromTorrentFile_eq (C08_suffix_ignored data ext sp' _ h1) h2 h3 h4 H, ← h5]

/-- what loading looks at: the document at the start of the file -/
theorem load_doc {H : Bytes → Bytes} {data sp wd : Bytes} {t : Torrent} (h : FromTorrentFile H (some data) sp wd = .ok t) :
    ∃ d b rest, data = b ++ rest ∧ Parses (.dict d) b ∧
      (∀ n sp', b.length ≤ n → FromTorrentFile H (some (prepared data n)) sp' wd = .ok t) ∧
      (∀ n sp' wd', n < b.length → ∀ t', FromTorrentFile H (some (prepared data n)) sp' wd' ≠ .ok t') := by
  obtain ⟨d, infod, h1, h2, h3, h4, h5⟩ := fromTorrentFile_ok h
  obtain ⟨b, rest, rfl, hp⟩ := C64_sound data _ h1
  have hb : Decode b [] = .ok (.dict d) := by
    obtain ⟨w, hw, -⟩ := C64_complete _ b hp [] []
    rw [List.append_nil] at hw
    have := decode_append hw rest []
    rw [h1] at this
    cases this
    exact hw
  refine ⟨d, b, rest, rfl, hp, ?_, ?_⟩
  · intro n sp' hn
    have : prepared (b ++ rest) n = b ++ (rest.take (n - b.length) ++ List.replicate (n - (b ++ rest).length) 0) := by
      unfold prepared
      rw [List.take_append, List.take_of_length_le hn, List.append_assoc]
    rw [this, fromTorrentFile_eq (C08_suffix_ignored b _ sp' _ hb) h2 h3 h4 H, ← h5]
  · intro n sp' wd' hn t' ht
    obtain ⟨d', infod', g1, -⟩ := fromTorrentFile_ok ht
    obtain ⟨b', rest', he, hp'⟩ := C64_sound _ _ g1
    have hpre : prepared (b ++ rest) n = b.take n := by
      unfold prepared
      rw [List.take_append, show n - b.length = 0 by omega, show n - (b ++ rest).length = 0 by rw [List.length_append]; omega]
      simp
    rw [hpre] at he
    have hcat : b ++ [] = b' ++ (rest' ++ b.drop n) := by
      rw [← List.append_assoc, ← he, List.take_append_drop, List.append_nil]
    obtain ⟨rfl, hr, -⟩ := C64_unambiguous _ _ b b' [] _ hp hp' hcat
    have := congrArg List.length hr
    simp at this
    omega

/-- two starts with the same torrent on the same disk come to the same -/
theorem finish_same {w w' : World} (hH : w'.H = w.H) {o o' : Options} {id id' : Bytes} {tor : Torrent} {fs : State} {st st' : Started}
    (h : finish w o id tor fs = .ok st) (h' : finish w' o' id' tor fs = .ok st') : st'.tor = st.tor ∧ st'.core = st.core ∧ st'.ppt = st.ppt := by
  obtain ⟨b0, b, resp, ppt, h1, h2, -, h4, rfl⟩ := finish_ok h
  obtain ⟨b0', b', resp', ppt', g1, g2, -, g4, rfl⟩ := finish_ok h'
  rw [h1] at g1
  cases g1
  rw [hH, h2] at g2
  cases g2
  rw [h4] at g4
  cases g4
  exact ⟨rfl, rfl, rfl⟩

/-- after a start the files have their sizes -/
theorem started_sizes {w : World} {o : Options} {id : Bytes} {readOk : Bool} {fs fs' : State} {st : Started} (h : NewSwarm false w o id readOk fs (.ok st) fs')
    (hs : Sensible st.tor.info) : ∀ e ∈ st.tor.info.flist, ∃ c, fs' e.base.localPath = some c ∧ (c.length : Int) = e.base.length := by
  intro e he
  obtain ⟨data, -, -, -, hx, -⟩ := started_parts h
  obtain ⟨k, -, k2, k3⟩ := ocatAll_order _ hs.nonneg hs.distinct fs fs' _ hx
  obtain ⟨j, hj⟩ := List.getElem?_of_mem he
  refine ⟨_, (k3 j e hj).1 ?_, ?_⟩
  · rw [k2 rfl]; exact (List.getElem?_eq_some_iff.mp hj).1
  · rw [prepared_length, Int.toNat_of_nonneg (hs.nonneg e he)]

/-- the torrent file after a start, if it is none of the torrent's own files -/
theorem started_input {w : World} {o : Options} {id : Bytes} {readOk : Bool} {fs fs' : State} {st : Started} (h : NewSwarm false w o id readOk fs (.ok st) fs')
    (hs : Sensible st.tor.info) (hin : ∀ e ∈ st.tor.info.flist, e.base.localPath ≠ o.input) : fs' o.input = fs o.input := by
  obtain ⟨data, -, -, -, hx, -⟩ := started_parts h
  exact (ocatAll_end _ hs.nonneg hs.distinct fs fs' _ hx).2.1 _ fun e he heq => hin e he heq.symm

/-- **C93** (partial: the torrent file is none of the torrent's own files, and existing files can be opened): after a successful start every later one from the
same file into the same directory, whatever the tracker says and whichever calls fail, changes nothing on disk; and if it succeeds, it is for
the same torrent and has the same pieces. -/
theorem C93_again_partial (w w' : World) (hH : w'.H = w.H) (o o' : Options) (hi : o'.input = o.input) (hwd : o'.workingDir = o.workingDir) (id id' : Bytes)
    (readOk readOk' : Bool) (fs fs' fs'' : State) (st : Started) (r : Res Started) (h : NewSwarm false w o id readOk fs (.ok st) fs') (hs : Sensible st.tor.info)
    (hin : ∀ e ∈ st.tor.info.flist, e.base.localPath ≠ o.input) (h' : NewSwarm false w' o' id' readOk' fs' r fs'') :
    fs'' = fs' ∧ ∀ st', r = .ok st' → st'.tor = st.tor ∧ st'.core = st.core ∧ st'.ppt = st.ppt := by
  obtain ⟨data, -, hd, hload, -, hfin⟩ := started_parts h
  have hd' : fs' o'.input = some data := by rw [hi, started_input h hs hin, hd]
  have hload' : FromTorrentFile w'.H (some data) w'.spareFile o'.workingDir = .ok st.tor := by
    rw [hH, hwd]
    have := load_spare (ext := []) (sp' := w'.spareFile) hload
    rwa [List.append_nil] at this
  have hsz := started_sizes h hs
  have key : ∀ t, FromTorrentFile w'.H (if readOk' then fs' o'.input else none) w'.spareFile o'.workingDir = .ok t → t = st.tor := by
    intro t ht
    cases readOk' with
    | false => cases ht
    | true =>
      rw [if_pos rfl, hd', hload'] at ht
      cases ht
      rfl
  cases h' with
  | rejected e h1 => exact ⟨rfl, fun st' h => by cases h⟩
  | crashed h1 => exact ⟨rfl, fun st' h => by cases h⟩
  | noFiles _ t e h1 h2 =>
    obtain rfl := key t h1
    exact ⟨ocatAll_right hsz h2, fun st' h => by cases h⟩
  | filesCrashed _ t h1 h2 =>
    obtain rfl := key t h1
    exact ⟨ocatAll_right hsz h2, fun st' h => by cases h⟩
  | ready _ t h1 h2 =>
    obtain rfl := key t h1
    obtain rfl := ocatAll_right hsz h2
    exact ⟨rfl, fun st' h => finish_same hH hfin h⟩

/-- **C93** (partial: the same): it can be started again whenever the tracker answers. -/
theorem C93_restarts_partial (w w' : World) (hH : w'.H = w.H) (o o' : Options) (hi : o'.input = o.input) (hwd : o'.workingDir = o.workingDir) (id id' : Bytes)
    (readOk : Bool) (fs fs' : State) (st : Started) (h : NewSwarm false w o id readOk fs (.ok st) fs') (hs : Sensible st.tor.info)
    (hin : ∀ e ∈ st.tor.info.flist, e.base.localPath ≠ o.input)
    (raw : Bytes) (hraw : Tracker.newRequest w'.parseURL st.tor (Tracker.NewStats 0 0 0) o'.port id' = .ok raw) (resp : Tracker.Response)
    (hresp : Tracker.doRequest w'.v6 w'.parseIP (w'.http raw) w'.spareBody = .ok resp) :
    ∃ st', NewSwarm false w' o' id' true fs' (.ok st') fs' ∧ st'.tor = st.tor ∧ st'.core = st.core ∧ st'.ppt = st.ppt := by
  obtain ⟨data, -, hd, hload, -, -⟩ := started_parts h
  have hd' : fs' o'.input = some data := by rw [hi, started_input h hs hin, hd]
  have hload' : FromTorrentFile w'.H (some data) w'.spareFile o'.workingDir = .ok st.tor := by
    rw [hH, hwd]
    have := load_spare (ext := []) (sp' := w'.spareFile) hload
    rwa [List.append_nil] at this
  obtain ⟨⟨st', fs'', h1, -⟩, -⟩ := C71_starts w' o' id' fs' data st.tor hd' hload' hs raw hraw resp hresp
  obtain ⟨rfl, h2⟩ := C93_again_partial w w' hH o o' hi hwd id id' readOk true fs fs' fs'' st _ h hs hin h1
  exact ⟨st', h1, h2 st' rfl⟩

/-- **C93**, the exact extent of the deviation: if the torrent file is one of the torrent's own files, start-up cuts it (or fills it up) to the length of that file.  If the
document in it is longer, no later start from it succeeds, and it is lost; otherwise later starts find the same torrent. -/
theorem C93_own_file (w : World) (o : Options) (id : Bytes) (readOk : Bool) (fs fs' : State) (st : Started) (h : NewSwarm false w o id readOk fs (.ok st) fs')
    (hs : Sensible st.tor.info) (e : Entry) (he : e ∈ st.tor.info.flist) (hp : e.base.localPath = o.input) :
    ∃ d b rest, fs o.input = some (b ++ rest) ∧ Parses (.dict d) b ∧ fs' o.input = some (prepared (b ++ rest) e.base.length.toNat) ∧
      ((b.length : Int) ≤ e.base.length → ∀ sp, FromTorrentFile w.H (fs' o.input) sp o.workingDir = .ok st.tor) ∧
      (e.base.length < b.length → ∀ (sp : Bool) (w' : World) (o' : Options) (id' : Bytes) (readOk' : Bool) (r : Res Started) (fs'' : State), w'.H = w.H → o'.input = o.input →
        NewSwarm sp w' o' id' readOk' fs' r fs'' → fs'' = fs' ∧ ∀ st', r ≠ .ok st') := by
  obtain ⟨data, -, hd, hload, hx, -⟩ := started_parts h
  obtain ⟨d, b, rest, rfl, h1, h2, h3⟩ := load_doc hload
  obtain ⟨k, -, k2, k3⟩ := ocatAll_order _ hs.nonneg hs.distinct fs fs' _ hx
  obtain ⟨j, hj⟩ := List.getElem?_of_mem he
  have hf := (k3 j e hj).1 (by rw [k2 rfl]; exact (List.getElem?_eq_some_iff.mp hj).1)
  rw [hp, show old fs o.input = b ++ rest by unfold old; rw [hd]; rfl] at hf
  have hnn := hs.nonneg e he
  refine ⟨d, b, rest, hd, h1, hf, ?_, ?_⟩
  · intro hl sp
    rw [hf]
    exact h2 _ _ (by omega)
  · intro hl sp w' o' id' readOk' r fs'' hH hi hn
    refine C71_rejected sp w' o' id' readOk' fs' r fs'' ?_ hn
    intro t ht
    cases readOk' with
    | false => cases ht
    | true =>
      rw [if_pos rfl, hi, hf, hH] at ht
      exact h3 _ _ _ (by omega) t ht

/-- the torrent file `n` of the four bytes that are to be stored as `n` -/
def ownDisk : State := fun p => if p = ascii "/w/n" then some exTorrent else none

def ownOptions : Options := ⟨ascii "/w/n", ascii "/w", 7000⟩

theorem own_starts : ∃ st fs', NewSwarm false exWorld ownOptions (List.replicate 20 65) true ownDisk (.ok st) fs' ∧ Sensible st.tor.info ∧
    st.tor.info.flist.map Entry.base = [⟨4, ascii "n", ascii "/w/n"⟩] := by
  obtain ⟨t, h1, h2, h3, h4, h5, h6⟩ := ex_loads
  have hs : Sensible t.info := by
    refine ⟨by rw [h3]; decide, by rw [h3]; decide, ?_, ?_⟩
    · intro e he
      have : e.base ∈ t.info.flist.map Entry.base := List.mem_map_of_mem he
      rw [h5, List.mem_singleton] at this
      rw [this]
      decide
    · rw [show (fun e : Entry => e.base.localPath) = EntryBase.localPath ∘ Entry.base from rfl, ← List.map_map, h5]
      decide +kernel
  have hc : Query.NoControl t.announce := by rw [h2]; unfold Query.NoControl; decide +kernel
  have hp : exWorld.parseURL t.announce = some [] := by rw [h2]; decide +kernel
  obtain ⟨raw, q, r1, -⟩ := Tracker.request_values exWorld.parseURL t (Tracker.NewStats 0 0 0) 7000 (List.replicate 20 65) [] hc hp
  obtain ⟨resp, hr⟩ := Res.isOk_iff (r := Tracker.doRequest exWorld.v6 exWorld.parseIP
    (some (ascii "d8:completei1e10:incompletei2e8:intervali9e5:peers6:\u0001\u0002\u0003\u0004\u0000Pe")) []) (by decide +kernel)
  obtain ⟨⟨st, fs', e1, e2⟩, -⟩ := C71_starts exWorld ownOptions (List.replicate 20 65) ownDisk exTorrent t (by decide +kernel) h1 hs raw r1 resp hr
  exact ⟨st, fs', e1, by rw [e2]; exact hs, by rw [e2]; exact h5⟩

/-- **C93** refuted: a torrent file that bears the name of the file it describes, in the working directory: the first start succeeds and leaves four bytes of it,
and no later one succeeds. -/
theorem C93_refuted : ∃ (w : World) (o : Options) (id : Bytes) (fs fs' : State) (st : Started),
    NewSwarm false w o id true fs (.ok st) fs' ∧ Sensible st.tor.info ∧ fs o.input = some exTorrent ∧ fs' o.input = some (ascii "d8:a") ∧
      ∀ (sp : Bool) (w' : World) (o' : Options) (id' : Bytes) (readOk : Bool) (r : Res Started) (fs'' : State), w'.H = w.H → o'.input = o.input →
        NewSwarm sp w' o' id' readOk fs' r fs'' → ∀ st', r ≠ .ok st' := by
  obtain ⟨st, fs', h1, h2, h3⟩ := own_starts
  obtain ⟨e, he, heb⟩ : ∃ e ∈ st.tor.info.flist, e.base = ⟨4, ascii "n", ascii "/w/n"⟩ := by
    have : (⟨4, ascii "n", ascii "/w/n"⟩ : EntryBase) ∈ st.tor.info.flist.map Entry.base := by rw [h3]; simp
    exact List.mem_map.mp this
  obtain ⟨d, b, rest, k1, k2, k3, -, k4⟩ := C93_own_file _ _ _ _ _ _ _ h1 h2 e he (by rw [heb]; rfl)
  have hin : ownDisk ownOptions.input = some exTorrent := by decide +kernel
  rw [hin, Option.some.injEq] at k1
  rw [← k1, heb] at k3
  have hlen : 4 < b.length := by
    refine Nat.lt_of_not_le fun hle => ?_
    -- a document of at most four bytes at the start
    have hb : b = exTorrent.take b.length := by rw [k1]; simp
    obtain ⟨w, hw, -⟩ := C64_complete _ b k2 [] []
    rw [List.append_nil, hb] at hw
    have hno : ∀ n : Nat, n ≤ 4 → (match Decode (exTorrent.take n) [] with | .ok _ => true | _ => false) = false := by decide +kernel
    have := hno b.length hle
    rw [hw] at this
    cases this
  refine ⟨exWorld, ownOptions, List.replicate 20 65, ownDisk, fs', st, h1, h2, hin, ?_, ?_⟩
  · rw [k3]; decide +kernel
  · intro sp w' o' id' readOk r fs'' hH hi hn
    exact (k4 (by rw [heb]; show (4 : Int) < _; omega) sp w' o' id' readOk r fs'' hH hi hn).2

/-- the hypotheses of the positive part are met by the start of Props/Startup.lean -/
example : ∃ st fs' st', NewSwarm false exWorld exOptions (List.replicate 20 65) true exDisk (.ok st) fs' ∧
    NewSwarm false exWorld exOptions (List.replicate 20 66) true fs' (.ok st') fs' ∧ st'.core = st.core := by
  obtain ⟨st, fs', h1, h2, h3, hc, h4, h5, h6⟩ := ex_starts
  obtain ⟨raw, q, r1, -⟩ := Tracker.request_values exWorld.parseURL st.tor (Tracker.NewStats 0 0 0) 7000 (List.replicate 20 66) [] hc h4
  obtain ⟨resp, hr⟩ := Res.isOk_iff (r := Tracker.doRequest exWorld.v6 exWorld.parseIP
    (some (ascii "d8:completei1e10:incompletei2e8:intervali9e5:peers6:\u0001\u0002\u0003\u0004\u0000Pe")) []) (by decide +kernel)
  obtain ⟨data, -, hd, hload, -, -⟩ := started_parts h1
  obtain ⟨t, g1, -, -, -, g5, -⟩ := ex_loads
  have hdata : data = exTorrent := by
    have : exDisk exOptions.input = some exTorrent := by decide +kernel
    rw [hd] at this
    exact Option.some.inj this
  have ht : st.tor = t := by
    rw [hdata] at hload
    rw [show exOptions.workingDir = ascii "/w" from rfl] at hload
    rw [g1] at hload
    cases hload
    rfl
  obtain ⟨st', k1, -, k3, -⟩ := C93_restarts_partial exWorld exWorld rfl exOptions exOptions rfl rfl _ (List.replicate 20 66) true exDisk fs' st h1 h2 (by
    intro e he
    have : e.base ∈ st.tor.info.flist.map Entry.base := List.mem_map_of_mem he
    rw [ht, g5, List.mem_singleton] at this
    rw [this]
    decide +kernel) raw r1 resp hr
  exact ⟨st, fs', st', h1, k1, k3⟩

end Verif.Startup
