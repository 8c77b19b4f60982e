import Verif.Model.TrackText
import Verif.Spec.TrackText
import Verif.Props.LoadText
import Verif.Props.MsgText
import Verif.Props.Tracker
/-
Helper lemmas for C106.
-/
set_option autoImplicit false

namespace Verif.TrackText
open Verif.Bencode Verif.Bencode.Spec Verif.Peer Verif.Tracker Verif.LoadText

/-! ### agreement with Model/Tracker.lean -/

/-- the same outcome, whatever the error -/
inductive Agree {α : Type} : Res α → Out α → Prop where
  | ok (a) : Agree (.ok a) (.ok a)
  | err (e w) : Agree (.err e) (.err w)

theorem Agree.bind {α β : Type} {r : Res α} {o : Out α} {f : α → Res β} {g : α → Out β} (h : Agree r o) (hf : ∀ a, Agree (f a) (g a)) :
    Agree (r >>= f) (o.bind g) := by
  cases h with
  | ok a => exact hf a
  | err e w => exact .err e w

theorem agree_string (d : Dict) (k : Bytes) : Agree (Dict.getString d k) (getStringT d k) := by
  unfold Dict.getString Dict.get getStringT
  cases d.lookup k with
  | none => exact .err _ _
  | some v => cases v <;> first | exact .ok _ | exact .err _ _

theorem agree_int (d : Dict) (k : Bytes) : Agree (Dict.getInt d k) (getIntT d k) := by
  unfold Dict.getInt Dict.get getIntT
  cases d.lookup k with
  | none => exact .err _ _
  | some v => cases v <;> first | exact .ok _ | exact .err _ _

theorem agree_uint (d : Dict) (k : Bytes) : Agree (Dict.getUint d k) (getUintT d k) := (agree_int d k).bind fun _ => .ok _

theorem agree_list (d : Dict) (k : Bytes) : Agree (Dict.getList d k) (getListT d k) := by
  unfold Dict.getList Dict.get getListT
  cases d.lookup k with
  | none => exact .err _ _
  | some v => cases v <;> first | exact .ok _ | exact .err _ _

theorem agree_loop (v6 : IP → Bytes) (parseIP : Bytes → IP) (vs : List Value) (acc : List Info) :
    Agree (listPeers v6 parseIP vs >>= fun ps => .ok (acc ++ ps)) (listLoopT v6 parseIP acc vs) := by
  induction vs generalizing acc with
  | nil => rw [listPeers, listLoopT, Res.ok_bind, List.append_nil]; exact .ok _
  | cons v vs ih =>
    rw [listPeers]
    cases v with
    | dict d =>
      rw [listLoopT]
      unfold peerEntry
      have h1 := agree_string d (ascii "ip")
      have h2 := agree_uint d (ascii "port")
      have h3 := agree_string d (ascii "peer id")
      simp only
      generalize Dict.getString d (ascii "ip") = r1 at h1
      generalize getStringT d (ascii "ip") = o1 at h1
      generalize Dict.getUint d (ascii "port") = r2 at h2
      generalize getUintT d (ascii "port") = o2 at h2
      generalize Dict.getString d (ascii "peer id") = r3 at h3
      generalize getStringT d (ascii "peer id") = o3 at h3
      cases h1 with
      | err e w => exact .err _ _
      | ok ip =>
        cases h2 with
        | err e w => exact .err _ _
        | ok port =>
          cases h3 with
          | err e w => exact .err _ _
          | ok pid =>
            simp only [Res.ok_bind, Out.bind]
            have := ih (acc ++ [MakePeer v6 pid (parseIP ip) (UInt16.ofNat port)])
            revert this
            cases listPeers v6 parseIP vs with
            | ok ps => simp only [Res.ok_bind, List.append_assoc, List.cons_append, List.nil_append]; exact id
            | err e => exact id
            | panic => exact id
            | timeout => exact id
    | _ => exact .err _ _

theorem agree_listPeers (v6 : IP → Bytes) (parseIP : Bytes → IP) (vs : List Value) : Agree (listPeers v6 parseIP vs) (listPeersT v6 parseIP vs) := by
  have h := agree_loop v6 parseIP vs []
  unfold listPeersT
  revert h
  cases listPeers v6 parseIP vs with
  | ok ps => simp only [Res.ok_bind, List.nil_append]; exact id
  | err e => exact id
  | panic => exact id
  | timeout => exact id

theorem agree_peers (v6 : IP → Bytes) (parseIP : Bytes → IP) (d : Dict) : Agree (getPeers v6 parseIP d) (getPeersT v6 parseIP d) := by
  unfold getPeers getPeersT
  have h := agree_string d (ascii "peers")
  generalize Dict.getString d (ascii "peers") = r at h
  generalize getStringT d (ascii "peers") = o at h
  cases h with
  | ok s =>
    simp only
    unfold stringPeers stringPeersT
    split
    · exact .err _ _
    · exact .ok _
  | err e w => exact (agree_list d _).bind fun l => agree_listPeers v6 parseIP l

theorem agree_response (v6 : IP → Bytes) (parseIP : Bytes → IP) (d : Dict) : Agree (newResponse v6 parseIP d) (newResponseT v6 parseIP d) := by
  unfold newResponse newResponseT
  have h := agree_string d (ascii "failure reason")
  generalize Dict.getString d (ascii "failure reason") = r at h
  generalize getStringT d (ascii "failure reason") = o at h
  cases h with
  | ok s => exact .err _ _
  | err e w => exact (agree_uint d _).bind fun _ => (agree_uint d _).bind fun _ => (agree_uint d _).bind fun _ => (agree_peers v6 parseIP d).bind fun _ => .ok _

/-- the answer as Model/Tracker.lean has it -/
def Reply.body : Reply → Option Bytes
  | .failed _ => none
  | .answer _ b => some b

theorem agree_do (v6 : IP → Bytes) (parseIP : Bytes → IP) (reply : Reply) (sp : Bytes) : Agree (doRequest v6 parseIP reply.body sp) (doT v6 parseIP reply sp) := by
  cases reply with
  | failed t => exact .err _ _
  | answer st data =>
    unfold doRequest doT Reply.body
    rcases DecodeText.C104_same data sp with ⟨v, h1, h2⟩ | ⟨e, t, h1, h2⟩
    · simp only [h1, h2, Res.ok_bind]
      cases v with
      | dict d => exact agree_response v6 parseIP d
      | _ => exact .err _ _
    · simp only [h1, h2]
      exact .err _ _

/-! ### the getters -/

theorem fine_or {d : Dict} {b : Bytes} (hp : Parses (.dict d) b) (addr : Bytes) (p : Bytes × Kind) : Fine d p ∨ ∃ t, Unfit addr d p t := by
  cases h : d.lookup p.1 with
  | none => exact .inr ⟨_, .missing fun v hv => by unfold Has at hv; rw [h] at hv; cases hv⟩
  | some v =>
    obtain ⟨b', hb⟩ := parses_lookup hp h
    obtain ⟨k, hk⟩ := parses_kind hb
    by_cases e : k = p.2
    · subst e; exact .inl ⟨v, h, hk⟩
    · exact .inr ⟨_, .wrong v k h hk e⟩

theorem str_fine {d : Dict} {key : Bytes} (h : Fine d (key, .str)) : ∃ s, Has d key (.str s) ∧ getStringT d key = .ok s := by
  obtain ⟨v, h1, h2⟩ := h
  cases h2 with
  | str s => exact ⟨s, h1, by unfold getStringT; rw [show d.lookup key = _ from h1]⟩

theorem int_fine {d : Dict} {key : Bytes} (h : Fine d (key, .int)) : ∃ i, Has d key (.int64 i) ∧ getUintT d key = .ok (i % 2 ^ 64).toNat := by
  obtain ⟨v, h1, h2⟩ := h
  cases h2 with
  | int i => exact ⟨i, h1, by unfold getUintT getIntT; rw [show d.lookup key = _ from h1]; rfl⟩

theorem list_fine {d : Dict} {key : Bytes} (h : Fine d (key, .list)) : ∃ vs, Has d key (.list vs) ∧ getListT d key = .ok vs := by
  obtain ⟨v, h1, h2⟩ := h
  cases h2 with
  | list vs => exact ⟨vs, h1, by unfold getListT; rw [show d.lookup key = _ from h1]⟩

theorem lacks_lookup {d : Dict} {key : Bytes} (h : Lacks d key) : d.lookup key = none := by
  cases hl : d.lookup key with
  | none => rfl
  | some v => exact absurd hl (h v)

theorem str_unfit (v6 : IP → Bytes) {addr : Bytes} {d : Dict} {key t : Bytes} (h : Unfit addr d (key, .str) t) :
    ∃ w, getStringT d key = .err w ∧ w.text v6 addr = t := by
  unfold getStringT
  cases h with
  | missing h => rw [lacks_lookup h]; exact ⟨_, rfl, rfl⟩
  | wrong v k h hk hn =>
    rw [show d.lookup key = _ from h]
    cases hk with
    | str s => exact absurd rfl hn
    | _ => exact ⟨_, rfl, rfl⟩

theorem int_unfit (v6 : IP → Bytes) {addr : Bytes} {d : Dict} {key t : Bytes} (h : Unfit addr d (key, .int) t) :
    ∃ w, getUintT d key = .err w ∧ w.text v6 addr = t := by
  unfold getUintT getIntT
  cases h with
  | missing h => rw [lacks_lookup h]; exact ⟨_, rfl, rfl⟩
  | wrong v k h hk hn =>
    rw [show d.lookup key = _ from h]
    cases hk with
    | int s => exact absurd rfl hn
    | _ => exact ⟨_, rfl, rfl⟩

theorem list_unfit (v6 : IP → Bytes) {addr : Bytes} {d : Dict} {key t : Bytes} (h : Unfit addr d (key, .list) t) :
    ∃ w, getListT d key = .err w ∧ w.text v6 addr = t := by
  unfold getListT
  cases h with
  | missing h => rw [lacks_lookup h]; exact ⟨_, rfl, rfl⟩
  | wrong v k h hk hn =>
    rw [show d.lookup key = _ from h]
    cases hk with
    | list s => exact absurd rfl hn
    | _ => exact ⟨_, rfl, rfl⟩

theorem nostr_err {d : Dict} {key : Bytes} (h : ∀ s, ¬ Has d key (.str s)) : ∃ w, getStringT d key = .err w := by
  unfold getStringT
  cases hl : d.lookup key with
  | none => exact ⟨_, rfl⟩
  | some v => cases v <;> first | exact absurd hl (h _) | exact ⟨_, rfl⟩

theorem first_cons {addr : Bytes} {d : Dict} {p : Bytes × Kind} {ps : List (Bytes × Kind)} {t : Bytes} :
    First addr d (p :: ps) t ↔ Unfit addr d p t ∨ (Fine d p ∧ First addr d ps t) := by
  constructor
  · rintro ⟨before, q, after, h1, h2, h3⟩
    cases before with
    | nil => cases h1; exact .inl h3
    | cons x xs => cases h1; exact .inr ⟨h2 p (by simp), xs, q, after, rfl, fun y hy => h2 y (by simp [hy]), h3⟩
  · rintro (h | ⟨h, before, q, after, h1, h2, h3⟩)
    · exact ⟨[], p, ps, rfl, by simp, h⟩
    · refine ⟨p :: before, q, after, by rw [h1]; rfl, ?_, h3⟩
      intro y hy
      rcases List.mem_cons.mp hy with rfl | hy
      · exact h
      · exact h2 y hy

theorem first_nil {addr : Bytes} {d : Dict} {t : Bytes} : ¬ First addr d [] t := by
  rintro ⟨before, q, after, h1, -, -⟩
  simp at h1

/-! ### the peers -/

theorem listed_eq (v6 : IP → Bytes) (infos : List Info) (i : Nat) :
    Show.peerLoop v6 i infos = listed (ipString v6) i (infos.map fun p => (p.ip, p.port.toNat)) := by
  induction infos generalizing i with
  | nil => rfl
  | cons p ps ih => rw [Show.peerLoop, List.map_cons, listed, ih, decNat_eq]; simp only [List.append_assoc]

theorem listString_eq (v6 : IP → Bytes) (infos : List Info) :
    Show.ListString v6 infos = ascii "Peer List (" ++ decNat infos.length ++ ascii "):" ++ listed (ipString v6) 0 (infos.map fun p => (p.ip, p.port.toNat)) := by
  rw [Show.ListString, listed_eq, decNat_eq]

theorem port_eq (port : Int) : (UInt16.ofNat (port % 2 ^ 64).toNat).toNat = (port % 65536).toNat := by
  rw [UInt16.toNat_ofNat']
  have h1 : (0 : Int) ≤ port % 2 ^ 64 := Int.emod_nonneg _ (by decide)
  have h2 : (0 : Int) ≤ port % 65536 := Int.emod_nonneg _ (by decide)
  omega

theorem entry_loop (v6 : IP → Bytes) {parseIP : Bytes → IP} {u : Value} {p : IP × Nat} (h : Entry parseIP u p) :
    ∃ info : Info, (info.ip, info.port.toNat) = p ∧ ∀ acc rest, listLoopT v6 parseIP acc (u :: rest) = listLoopT v6 parseIP (acc ++ [info]) rest := by
  obtain ⟨d, ip, port, id, h1, h2, h3⟩ := h
  refine ⟨MakePeer v6 id (parseIP ip) (UInt16.ofNat (port % 2 ^ 64).toNat), ?_, ?_⟩
  · simp only [MakePeer, port_eq]
  · intro acc rest
    rw [listLoopT]
    unfold Has at h1 h2 h3
    simp only [getStringT, getUintT, getIntT, h1, h2, h3, Out.bind]

theorem entries_loop (v6 : IP → Bytes) (parseIP : Bytes → IP) (before : List Value) : ∀ ps : List (IP × Nat), before.length = ps.length →
    (∀ (i : Nat) u p, before[i]? = some u → ps[i]? = some p → Entry parseIP u p) →
    ∃ infos : List Info, infos.map (fun p => (p.ip, p.port.toNat)) = ps ∧
      ∀ acc rest, listLoopT v6 parseIP acc (before ++ rest) = listLoopT v6 parseIP (acc ++ infos) rest := by
  induction before with
  | nil =>
    intro ps hl _
    cases ps with
    | nil => exact ⟨[], rfl, fun acc rest => by simp⟩
    | cons p ps => cases hl
  | cons u us ih =>
    intro ps hl he
    cases ps with
    | nil => cases hl
    | cons p ps =>
      obtain ⟨info, h1, h2⟩ := entry_loop v6 (he 0 u p rfl rfl)
      obtain ⟨infos, h3, h4⟩ := ih ps (by simpa using hl) (fun i u' p' hu hp => he (i + 1) u' p' hu hp)
      refine ⟨info :: infos, by rw [List.map_cons, h1, h3], ?_⟩
      intro acc rest
      rw [List.cons_append, h2, h4, List.append_assoc]
      rfl

/-- an element of the list of peers is an entry, or something is wrong with it -/
theorem entry_or {v : Value} {b : Bytes} (hp : Parses v b) (parseIP : Bytes → IP) (addr : Bytes) :
    (∃ p, Entry parseIP v p) ∨ ¬ Is .dict v ∨ ∃ e t, v = .dict e ∧ First addr e entryKeys t := by
  by_cases hv : ∃ e, v = .dict e
  · obtain ⟨e, rfl⟩ := hv
    rcases fine_or hp addr (ascii "ip", .str) with f1 | ⟨t, u⟩
    rotate_left
    · exact .inr (.inr ⟨e, t, rfl, first_cons.mpr (.inl u)⟩)
    rcases fine_or hp addr (ascii "port", .int) with f2 | ⟨t, u⟩
    rotate_left
    · exact .inr (.inr ⟨e, t, rfl, first_cons.mpr (.inr ⟨f1, first_cons.mpr (.inl u)⟩)⟩)
    rcases fine_or hp addr (ascii "peer id", .str) with f3 | ⟨t, u⟩
    rotate_left
    · exact .inr (.inr ⟨e, t, rfl, first_cons.mpr (.inr ⟨f1, first_cons.mpr (.inr ⟨f2, first_cons.mpr (.inl u)⟩)⟩)⟩)
    obtain ⟨ip, h1, -⟩ := str_fine f1
    obtain ⟨port, h2, -⟩ := int_fine f2
    obtain ⟨id, h3, -⟩ := str_fine f3
    exact .inl ⟨_, .mk e ip port id h1 h2 h3⟩
  · refine .inr (.inl ?_)
    intro h
    cases h with
    | dict e => exact hv ⟨e, rfl⟩

theorem list_or (v6 : IP → Bytes) (parseIP : Bytes → IP) (addr : Bytes) (vs : List Value) (hp : ∀ v ∈ vs, ∃ b, Parses v b) :
    (∃ infos, ∀ acc, listLoopT v6 parseIP acc vs = .ok (acc ++ infos)) ∨
    ∃ v ps, FirstBad parseIP vs v ps ∧ (¬ Is .dict v ∨ ∃ e t, v = .dict e ∧ First addr e entryKeys t) := by
  induction vs with
  | nil => exact .inl ⟨[], fun acc => by rw [listLoopT, List.append_nil]⟩
  | cons v vs ih =>
    obtain ⟨b, hb⟩ := hp v (by simp)
    rcases entry_or hb parseIP addr with ⟨p, he⟩ | hbad
    · obtain ⟨info, h1, h2⟩ := entry_loop v6 he
      rcases ih (fun u hu => hp u (by simp [hu])) with ⟨infos, h3⟩ | ⟨u, ps, ⟨before, after, h3, h4, h5⟩, h6⟩
      · refine .inl ⟨info :: infos, fun acc => ?_⟩
        rw [h2, h3, List.append_assoc]
        rfl
      · refine .inr ⟨u, p :: ps, ⟨v :: before, after, by rw [h3]; rfl, by simp [h4], ?_⟩, h6⟩
        intro i u' p' hu hp'
        cases i with
        | zero => cases hu; cases hp'; exact he
        | succ i => exact h5 i u' p' hu hp'
    · exact .inr ⟨v, [], ⟨[], vs, rfl, rfl, by intro i u p h; simp at h⟩, hbad⟩

/-! ### everything together -/

theorem numbers_fine {d : Dict} (h : ∀ q ∈ numbers, Fine d q) :
    Fine d (ascii "interval", .int) ∧ Fine d (ascii "complete", .int) ∧ Fine d (ascii "incomplete", .int) :=
  ⟨h _ (by simp [numbers]), h _ (by simp [numbers]), h _ (by simp [numbers])⟩

/-- without failure reason and with the numbers, the peers decide -/
theorem response_peers (v6 : IP → Bytes) (parseIP : Bytes → IP) {d : Dict} (hr : NoReason d) (hn : ∀ q ∈ numbers, Fine d q) :
    (∀ w, getPeersT v6 parseIP d = .err w → newResponseT v6 parseIP d = .err w) ∧
    (∀ ps, getPeersT v6 parseIP d = .ok ps → ∃ r, newResponseT v6 parseIP d = .ok r) := by
  obtain ⟨f1, f2, f3⟩ := numbers_fine hn
  obtain ⟨w0, h0⟩ := nostr_err hr
  obtain ⟨i1, -, h1⟩ := int_fine f1
  obtain ⟨i2, -, h2⟩ := int_fine f2
  obtain ⟨i3, -, h3⟩ := int_fine f3
  unfold newResponseT
  simp only [h0, h1, h2, h3, Out.bind]
  exact ⟨fun w h => by rw [h], fun ps h => by rw [h]; exact ⟨_, rfl⟩⟩

theorem peers_list (v6 : IP → Bytes) (parseIP : Bytes → IP) {d : Dict} {vs : List Value} (h : Has d (ascii "peers") (.list vs)) :
    getPeersT v6 parseIP d = listLoopT v6 parseIP [] vs := by
  unfold Has at h
  unfold getPeersT getStringT getListT
  rw [h]
  rfl

theorem fault_err (v6 : IP → Bytes) (parseIP : Bytes → IP) {addr : Bytes} {d : Dict} {t : Bytes} (h : Fault (ipString v6) parseIP addr d t) :
    ∃ w, newResponseT v6 parseIP d = .err w ∧ w.text v6 addr = t := by
  cases h with
  | reason s h =>
    refine ⟨.failure s, ?_, rfl⟩
    unfold Has at h
    unfold newResponseT getStringT
    rw [h]
  | number _ hr h =>
    obtain ⟨w0, h0⟩ := nostr_err hr
    unfold newResponseT
    rw [h0]
    simp only
    rcases first_cons.mp h with u | ⟨f1, h⟩
    · obtain ⟨w, h1, h2⟩ := int_unfit v6 u
      exact ⟨w, by rw [h1]; rfl, h2⟩
    obtain ⟨i1, -, g1⟩ := int_fine f1
    rw [g1]
    simp only [Out.bind]
    rcases first_cons.mp h with u | ⟨f1, h⟩
    · obtain ⟨w, h1, h2⟩ := int_unfit v6 u
      exact ⟨w, by rw [h1], h2⟩
    obtain ⟨i2, -, g2⟩ := int_fine f1
    rw [g2]
    simp only
    rcases first_cons.mp h with u | ⟨f1, h⟩
    · obtain ⟨w, h1, h2⟩ := int_unfit v6 u
      exact ⟨w, by rw [h1], h2⟩
    exact absurd h first_nil
  | peers _ hr hn hs u =>
    obtain ⟨w, h1, h2⟩ := list_unfit v6 u
    obtain ⟨w0, h0⟩ := nostr_err hs
    exact ⟨w, (response_peers v6 parseIP hr hn).1 w (by unfold getPeersT; rw [h0]; simp only [h1, Out.bind]), h2⟩
  | compact s hr hn hs h6 =>
    refine ⟨.compact s.length, (response_peers v6 parseIP hr hn).1 _ ?_, ?_⟩
    · unfold Has at hs
      unfold getPeersT getStringT
      rw [hs]
      simp only [stringPeersT]
      rw [if_pos (fun e => h6 (Nat.dvd_of_mod_eq_zero e))]
    · simp only [Why.text, trackerError, decNat_eq, ← List.append_assoc]
      rfl
  | entry vs v ps hr hn hl hb hd =>
    obtain ⟨before, after, h1, h2, h3⟩ := hb
    obtain ⟨infos, h4, h5⟩ := entries_loop v6 parseIP before ps h2 h3
    refine ⟨.entry infos, (response_peers v6 parseIP hr hn).1 _ ?_, ?_⟩
    · rw [peers_list v6 parseIP hl, h1, h5, List.nil_append]
      cases v with
      | dict e => exact absurd (.dict e) hd
      | _ => rfl
    · have hlen : infos.length = ps.length := by rw [← h4, List.length_map]
      simp only [Why.text, trackerError, listString_eq, h4, hlen, ← List.append_assoc]
      rfl
  | entryKey vs e ps _ hr hn hl hb h =>
    obtain ⟨before, after, h1, h2, h3⟩ := hb
    obtain ⟨infos, h4, h5⟩ := entries_loop v6 parseIP before ps h2 h3
    suffices hs : ∃ w, listLoopT v6 parseIP infos (.dict e :: after) = .err w ∧ w.text v6 addr = t by
      obtain ⟨w, g1, g2⟩ := hs
      exact ⟨w, (response_peers v6 parseIP hr hn).1 _ (by rw [peers_list v6 parseIP hl, h1, h5, List.nil_append, g1]), g2⟩
    rw [listLoopT]
    rcases first_cons.mp h with u | ⟨f1, h⟩
    · obtain ⟨w, h1, h2⟩ := str_unfit v6 u
      exact ⟨w, by rw [h1]; rfl, h2⟩
    obtain ⟨i1, -, g1⟩ := str_fine f1
    rw [g1]
    simp only [Out.bind]
    rcases first_cons.mp h with u | ⟨f1, h⟩
    · obtain ⟨w, h1, h2⟩ := int_unfit v6 u
      exact ⟨w, by rw [h1], h2⟩
    obtain ⟨i2, -, g2⟩ := int_fine f1
    rw [g2]
    simp only
    rcases first_cons.mp h with u | ⟨f1, h⟩
    · obtain ⟨w, h1, h2⟩ := str_unfit v6 u
      exact ⟨w, by rw [h1], h2⟩
    exact absurd h first_nil

theorem nofault_ok (v6 : IP → Bytes) (parseIP : Bytes → IP) {addr : Bytes} {d : Dict} {b : Bytes} (hp : Parses (.dict d) b)
    (h : ∀ t, ¬ Fault (ipString v6) parseIP addr d t) : ∃ r, newResponseT v6 parseIP d = .ok r := by
  have hr : NoReason d := fun s hs => h _ (.reason s hs)
  have f1 : Fine d (ascii "interval", .int) := (fine_or hp addr _).elim id fun ⟨t, u⟩ => absurd (.number t hr (first_cons.mpr (.inl u))) (h t)
  have f2 : Fine d (ascii "complete", .int) := (fine_or hp addr _).elim id fun ⟨t, u⟩ =>
    absurd (.number t hr (first_cons.mpr (.inr ⟨f1, first_cons.mpr (.inl u)⟩))) (h t)
  have f3 : Fine d (ascii "incomplete", .int) := (fine_or hp addr _).elim id fun ⟨t, u⟩ =>
    absurd (.number t hr (first_cons.mpr (.inr ⟨f1, first_cons.mpr (.inr ⟨f2, first_cons.mpr (.inl u)⟩)⟩))) (h t)
  have hn : ∀ q ∈ numbers, Fine d q := by
    intro q hq
    simp only [numbers, List.mem_cons, List.not_mem_nil, or_false] at hq
    rcases hq with rfl | rfl | rfl
    · exact f1
    · exact f2
    · exact f3
  suffices hs : ∃ ps, getPeersT v6 parseIP d = .ok ps by
    obtain ⟨ps, hs⟩ := hs
    exact (response_peers v6 parseIP hr hn).2 ps hs
  by_cases hstr : ∃ s, Has d (ascii "peers") (.str s)
  · obtain ⟨s, hs⟩ := hstr
    have h6 : 6 ∣ s.length := Classical.byContradiction fun h6 => h _ (.compact s hr hn hs h6)
    unfold Has at hs
    unfold getPeersT getStringT
    rw [hs]
    simp only [stringPeersT]
    rw [if_neg (fun e => e (Nat.mod_eq_zero_of_dvd h6))]
    exact ⟨_, rfl⟩
  · rcases fine_or hp addr (ascii "peers", .list) with f | ⟨t, u⟩
    · obtain ⟨vs, hl, -⟩ := list_fine f
      obtain ⟨bl, hpl⟩ := parses_lookup hp hl
      rw [peers_list v6 parseIP hl]
      rcases list_or v6 parseIP addr vs (fun v hv => parses_mem hpl hv) with ⟨infos, hi⟩ | ⟨v, ps, hb, hbad⟩
      · exact ⟨_, hi []⟩
      · rcases hbad with hd | ⟨e, t, rfl, hf⟩
        · exact absurd (.entry vs v ps hr hn hl hb hd) (h _)
        · exact absurd (.entryKey vs e ps t hr hn hl hb hf) (h t)
    · exact absurd (.peers t hr hn (fun s hs => hstr ⟨s, hs⟩) u) (h t)

end Verif.TrackText
