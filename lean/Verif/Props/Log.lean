import Verif.Lemmas.Log
import Verif.Props.Handshake
import Verif.Props.Startup
import Verif.Lemmas.Lts
/-
C109: whether the log can be forged.
-/
set_option autoImplicit false

namespace Verif.Log
open Verif.P2P Verif.Peer Verif.Handshake Verif.Bencode Verif.Bencode.Spec Verif.ShowSpec Verif.LogSpec Verif.Lts Verif.Show Verif.Startup

/-! ### the log of a start -/

/-- **C109**: the executions of `NewSwarm` with a log are those without (C71) -/
theorem C109_starts_iff (sp : Bool) (w : World) (o : Options) (id : Bytes) (readOk : Bool) (pc : Bytes) (fs : FS.State) (r : Res Started) (fs' : FS.State) :
    NewSwarm sp w o id readOk fs r fs' ↔ ∃ es, Starts sp w o id readOk pc fs r fs' es := by
  constructor
  · intro h
    cases h with
    | rejected e h => exact ⟨_, .rejected _ _ h⟩
    | crashed h => exact ⟨_, .crashed _ h⟩
    | noFiles _ tor e h hx => exact ⟨_, .noFiles _ _ tor _ h hx⟩
    | filesCrashed _ tor h hx => exact ⟨_, .filesCrashed _ _ tor h hx⟩
    | ready _ tor h hx => exact ⟨_, .ready _ _ tor h hx⟩
  · rintro ⟨es, h⟩
    cases h with
    | rejected e h => exact .rejected _ _ h
    | crashed h => exact .crashed _ h
    | noFiles _ tor e h hx => exact .noFiles _ _ tor _ h hx
    | filesCrashed _ tor h hx => exact .filesCrashed _ _ tor h hx
    | ready _ tor h hx => exact .ready _ _ tor h hx

/-- the log of a start that succeeds -/
theorem started_log {sp : Bool} {w : World} {o : Options} {id : Bytes} {readOk : Bool} {pc : Bytes} {fs fs' : FS.State} {st : Started} {es : List Entry}
    (h : Starts sp w o id readOk pc fs (.ok st) fs' es) :
    es = [.reading o.input, .opening, .has st.core.bf.nset st.core.bf.nbits pc, .asking st.tor.announce] ∧ Query.NoControl st.tor.announce := by
  generalize hr : Res.ok st = r at h
  cases h with
  | rejected | crashed | noFiles | filesCrashed => cases hr
  | ready _ tor h hx =>
    obtain ⟨b0, b, resp, ppt, h1, h2, h3, -, h5⟩ := finish_ok hr.symm
    subst h5
    constructor
    · simp only [restLog, checked, h1, Res.ok_bind, h2]
      rfl
    · unfold Tracker.Get at h3
      obtain ⟨raw, h3, -⟩ := Res.bind_eq_ok.mp h3
      unfold Tracker.newRequest at h3
      split at h3
      · cases h3
      · rename_i extra he
        exact ((Tracker.parseAnnounce_iff _ _ _).mp he).1

theorem noControl_oneLine {s : Bytes} (h : Query.NoControl s) (hf : OneLine (s.dropWhile (· != 35))) : OneLine s := by
  intro hm
  rw [← List.takeWhile_append_dropWhile (p := (· != 35)) (l := s), List.mem_append] at hm
  rcases hm with hm | hm
  · exact absurd (h 10 hm).1 (by decide)
  · exact hf hm

/-! ### who the texts belong to -/

theorem id_length {d id : Bytes} (h : Id (readBuf d) = .ok id) : id.length ≤ 20 := by
  unfold Handshake.Id slice at h
  split at h
  · cases h
    simp
    omega
  · cases h

/-- the id of somebody who connects has at most 20 bytes -/
theorem short_step {E : Env} {es' : List Entry} {c c' : Conn} (hs : CStep E c es' c')
    (h : c.stage ≠ .calling ∧ c.info.id.length ≤ 20 ∧ (∀ id ip port, c.stage = .good id ip port → id.length ≤ 20) ∧ ∀ id ip port, c.stage = .greeted id ip port → id.length ≤ 20) :
    c'.stage ≠ .calling ∧ c'.info.id.length ≤ 20 ∧ (∀ id ip port, c'.stage = .good id ip port → id.length ≤ 20) ∧ ∀ id ip port, c'.stage = .greeted id ip port → id.length ≤ 20 := by
  obtain ⟨h1, h2, h3, h4⟩ := h
  cases hs with
  | dialFails e h => exact absurd h h1
  | dialled h => exact absurd h h1
  | shakeFails ip port e h => exact ⟨by simp, h2, by simp, by simp⟩
  | badHandshake ip port d h hv => exact ⟨by simp, h2, by simp, by simp⟩
  | goodHandshake ip port d id h hv hid => exact ⟨by simp, h2, by intro _ _ _ e; cases e; exact id_length hid, by simp⟩
  | greetFails ip port id e h => exact ⟨by simp, h2, by simp, by simp⟩
  | greet ip port id h => exact ⟨by simp, h2, by simp, by intro _ _ _ e; cases e; exact h3 _ _ _ h⟩
  | bitfieldFails ip port id e h => exact ⟨by simp, h2, by simp, by simp⟩
  | bitfield ip port id h => exact ⟨by simp, h4 _ _ _ h, by simp, by simp⟩
  | _ => exact ⟨h1, h2, h3, h4⟩

theorem short_run {E : Env} {ip : IP} {port : UInt16} {es : List Entry} {c : Conn} (hr : CRun E (accepted E ip port) es c) :
    c.stage ≠ .calling ∧ c.info.id.length ≤ 20 ∧ (∀ id ip port, c.stage = .good id ip port → id.length ≤ 20) ∧ ∀ id ip port, c.stage = .greeted id ip port → id.length ≤ 20 := by
  induction hr with
  | nil => exact ⟨by simp [accepted], by simp [accepted, MakePeer], by simp [accepted], by simp [accepted]⟩
  | snoc es es' c c' _ hs ih => exact short_step hs ih

theorem not_newClient_step {E : Env} {es' : List Entry} {c c' : Conn} (hs : CStep E c es' c') (r : Bytes) : Entry.newClient r ∉ es' := by
  cases hs <;> simp

theorem not_newClient {E : Env} {c0 c : Conn} {es : List Entry} (hr : CRun E c0 es c) (r : Bytes) : Entry.newClient r ∉ es := by
  induction hr with
  | nil => simp
  | snoc es es' c c' _ hs ih =>
    intro hm
    rcases List.mem_append.mp hm with hm | hm
    · exact ih hm
    · exact not_newClient_step hs r hm

/-- what stands in a line of the log, and where it comes from -/
theorem known {E : Env} {input announce : Bytes} {start : List Entry} {σ₀ σ : State} (h0 : Initial start σ₀)
    (hst : ∀ e ∈ start, strs e = [] ∧ addrs e = [] ∧ (∀ s ∈ given e, s = input ∨ s = announce)) (hr : Reach (Step E) σ₀ σ) {l : Line} (hl : l ∈ σ.log) :
    (∀ s ∈ given l.entry, s = input ∨ s = announce) ∧
    (∀ s ∈ addrs l.entry, ∃ ip port, s = (MakePeer E.v6 [] ip port).addr ∨ s = E.remote ip port) ∧
    (∀ s ∈ strs l.entry, ∃ (i : Nat) (c : Conn) (ip : IP) (port : UInt16), σ.conns[i]? = some c ∧ c.info = MakePeer E.v6 c.info.id ip port ∧ s = c.info.str ∧
      ((∃ r, .newClient r ∈ own σ i) → c.info.id.length ≤ 20)) := by
  obtain ⟨p1, p2⟩ := project h0 hst hr
  have := p1 l hl
  cases hc : l.conn with
  | none =>
    rw [hc] at this
    obtain ⟨q1, q2, q3⟩ := this
    rw [q1, q2]
    exact ⟨q3, by simp, by simp⟩
  | some i =>
    rw [hc] at this
    obtain ⟨hlt, hm⟩ := this
    obtain ⟨first, c0, es, hb, hrun, ho⟩ := p2 i _ (List.getElem?_eq_getElem hlt)
    obtain ⟨id, ip, port, ht⟩ := texts hb hrun
    rw [ho] at hm
    have hid : σ.conns[i].info.id = id := by rw [ht.info]; rfl
    refine ⟨?_, ?_, ?_⟩
    · rw [ht.given _ hm]; simp
    · intro s hs
      refine ⟨ip, port, ?_⟩
      have := ht.addrs _ hm s hs
      rw [ht.info, ht.remote] at this
      exact this
    · intro s hs
      refine ⟨i, _, ip, port, List.getElem?_eq_getElem hlt, by rw [hid]; exact ht.info, (ht.strs _ hm s hs).1, ?_⟩
      rintro ⟨r, hr⟩
      rw [ho] at hr
      cases hb with
      | outgoing id ip port => exact absurd hr (not_newClient hrun r)
      | accepted ip port => exact (short_run hrun).2.1

theorem ipString_oneLine {v6 : IP → Bytes} (hv6 : ∀ ip, OneLine (v6 ip)) (ip : IP) : OneLine (ipString v6 ip) := by
  have n := natDec_oneLine
  unfold ipString
  split
  · decide
  · split
    · exact ((((((n _).append (by decide)).append (n _)).append (by decide)).append (n _)).append (by decide)).append (n _)
    · exact hv6 ip

theorem addr_oneLine {v6 : IP → Bytes} (hv6 : ∀ ip, OneLine (v6 ip)) (id : Bytes) (ip : IP) (port : UInt16) : OneLine (MakePeer v6 id ip port).addr :=
  ((ipString_oneLine hv6 ip).append (by decide)).append (natDec_oneLine _)

theorem str_eq (v6 : IP → Bytes) (id : Bytes) (ip : IP) (port : UInt16) :
    (MakePeer v6 id ip port).str = id ++ 32 :: 64 :: 32 :: (MakePeer v6 id ip port).addr := by
  have : ascii " @ " = [32, 64, 32] := by decide
  simp [MakePeer, this]

theorem stderr_lines (ls : List Line) : lines (ls.map Line.bytes).flatten = (ls.map fun l => lines (l.time.header ++ chomp l.entry.text)).flatten ++ [[]] := by
  induction ls with
  | nil => rfl
  | cons l ls ih =>
    rw [List.map_cons, List.flatten_cons, bytes_eq, List.append_assoc, List.singleton_append, lines_lf, ih, List.map_cons, List.flatten_cons, List.append_assoc]

theorem start_texts {o : Options} {st : Started} {pc : Bytes} :
    ∀ e ∈ [Entry.reading o.input, .opening, .has st.core.bf.nset st.core.bf.nbits pc, .asking st.tor.announce],
      strs e = [] ∧ addrs e = [] ∧ (∀ s ∈ given e, s = o.input ∨ s = st.tor.announce) := by
  intro e he
  simp only [List.mem_cons, List.not_mem_nil, or_false] at he
  rcases he with rfl | rfl | rfl | rfl <;> simp [strs, addrs, given]

/-- **C109** (partial: the ids of the peers and what follows the first `#` in the announce URL have no line feeds; see the refutations).  Then everything that is written to the log of a program that has started is one line for each
call, with the date and the time in front and nothing else in between. -/
theorem C109_lines_partial (sp : Bool) (w : World) (o : Options) (id : Bytes) (readOk : Bool) (pc : Bytes) (fs fs' : FS.State) (st : Started) (es : List Entry)
    (h : Starts sp w o id readOk pc fs (.ok st) fs' es) (E : Env) (σ₀ σ : State) (h0 : Initial es σ₀) (hr : Reach (Step E) σ₀ σ)
    (hin : OneLine o.input) (hv6 : ∀ ip, OneLine (E.v6 ip)) (hrem : ∀ ip port, OneLine (E.remote ip port)) (hrep : ∀ l ∈ σ.log, ∀ s ∈ reports l.entry, OneLine s)
    (hid : ∀ c ∈ σ.conns, OneLine c.info.id) (hfrag : OneLine (st.tor.announce.dropWhile (· != 35))) :
    lines σ.stderr = (σ.log.map fun l => l.time.header ++ chomp l.entry.text) ++ [[]] ∧ ∀ l ∈ σ.log, Dated l.time.header := by
  obtain ⟨he, hc⟩ := started_log h
  subst he
  refine ⟨?_, fun l _ => header_dated _⟩
  have hone : ∀ l ∈ σ.log, OneLine (l.time.header ++ chomp l.entry.text) := by
    intro l hl
    obtain ⟨q1, q2, q3⟩ := known (start := _) h0 start_texts hr hl
    refine (Dated.oneLine (header_dated _)).append (text_oneLine _ ?_ ?_ ?_ (hrep l hl))
    · intro s hs
      obtain ⟨i, c, ip, port, k1, k2, rfl, -⟩ := q3 s hs
      rw [k2, str_eq]
      refine (hid c (List.mem_of_getElem? k1)).append ?_
      exact OneLine.append (a := [32, 64, 32]) (by decide) (addr_oneLine hv6 _ _ _)
    · intro s hs
      obtain ⟨ip, port, rfl | rfl⟩ := q2 s hs
      · exact addr_oneLine hv6 _ _ _
      · exact hrem _ _
    · intro s hs
      rcases q1 s hs with rfl | rfl
      · exact hin
      · exact noControl_oneLine hc hfrag
  unfold State.stderr
  rw [stderr_lines]
  congr 1
  clear h0 hr hrep hid
  generalize σ.log = ls at hone
  induction ls with
  | nil => rfl
  | cons l ls ih =>
    rw [List.map_cons, List.flatten_cons, List.map_cons, lines_one _ (hone l (List.mem_cons_self ..)), ih fun l hl => hone l (List.mem_cons_of_mem _ hl), List.singleton_append]

/-! ### short ids -/

theorem tail_lines (post : Bytes) (hp : OneLine post) (y : Bytes) : ∀ line ∈ lines (y ++ 32 :: 64 :: post), line.length ≤ y.length ∨
    ∃ z, z.length ≤ y.length ∧ line = z ++ 32 :: 64 :: post := by
  generalize hn : y.length = n
  induction n using Nat.strongRecOn generalizing y with
  | _ n ih =>
    intro line hm
    by_cases h : OneLine y
    · have hone : OneLine (y ++ 32 :: 64 :: post) := h.append (OneLine.append (a := [32, 64]) (by decide) hp)
      rw [lines_one _ hone, List.mem_singleton] at hm
      exact .inr ⟨y, by omega, hm⟩
    · obtain ⟨a, b, e, ha⟩ := List.eq_append_cons_of_mem (Classical.not_not.mp h)
      subst e
      rw [List.append_assoc, List.cons_append, lines_cons _ _ ha, List.mem_cons] at hm
      simp only [List.length_append, List.length_cons] at hn
      rcases hm with rfl | hm
      · exact .inl (by omega)
      · rcases ih b.length (by omega) b rfl line hm with q | ⟨z, q1, q2⟩
        · exact .inl (by omega)
        · exact .inr ⟨z, by omega, q2⟩

theorem dated_no_at {t : Bytes} (h : Dated t) : (64 : UInt8) ∉ t := by
  intro hm
  obtain ⟨i, hi, he⟩ := List.mem_iff_getElem.mp hm
  have := h.2 i 64 (by rw [List.getElem?_eq_getElem hi, he])
  revert this
  repeat' split
  all_goals decide

/-- a line behind the first one of a text with a short id in it does not begin like an entry -/
theorem short_lines (pre id post : Bytes) (hpre : OneLine pre) (hpost : OneLine post) (hid : OneLine id ∨ id.length ≤ 20) (line t r : Bytes) (c : UInt8)
    (ht : Dated t) (hl : line = t ++ c :: r) (hc : c ≠ 64) (hm : line ∈ lines (pre ++ (id ++ 32 :: 64 :: post))) :
    (lines (pre ++ (id ++ 32 :: 64 :: post))).head? = some line := by
  by_cases ho : OneLine id
  · have hone : OneLine (pre ++ (id ++ 32 :: 64 :: post)) := hpre.append (ho.append (OneLine.append (a := [32, 64]) (by decide) hpost))
    rw [lines_one _ hone] at hm ⊢
    rw [List.mem_singleton] at hm
    rw [hm]
    rfl
  · have hlen := hid.resolve_left ho
    obtain ⟨a, b, e, ha⟩ := List.eq_append_cons_of_mem (Classical.not_not.mp ho)
    subst e
    have e1 : pre ++ (a ++ 10 :: b ++ 32 :: 64 :: post) = (pre ++ a) ++ 10 :: (b ++ 32 :: 64 :: post) := by simp
    rw [e1, lines_cons _ _ (hpre.append ha)] at hm ⊢
    simp only [List.length_append, List.length_cons] at hlen
    rcases List.mem_cons.mp hm with q | hm
    · rw [q]; rfl
    · exfalso
      have hll : line.length = 21 + r.length := by rw [hl]; simp [ht.1]; omega
      rcases tail_lines post hpost b line hm with q | ⟨z, q1, q2⟩
      · omega
      · have hz : line[z.length + 1]? = some 64 := by
          rw [q2, List.getElem?_append_right (by omega)]
          simp
        rw [hl] at hz
        by_cases hzl : z.length + 1 < 20
        · rw [List.getElem?_append_left (by rw [ht.1]; exact hzl)] at hz
          exact dated_no_at ht (List.mem_of_getElem? hz)
        · have : z.length + 1 = 20 := by omega
          rw [this, List.getElem?_append_right (by rw [ht.1]; omega), ht.1] at hz
          simp at hz
          exact hc hz

theorem chomp_append {a b : Bytes} (hne : b ≠ []) (hb : OneLine b) : chomp (a ++ b) = a ++ b := by
  unfold chomp
  rw [if_neg]
  intro h
  rw [List.getLast?_append, List.getLast?_eq_some_getLast hne] at h
  exact hb (by rw [← Option.some.inj h]; exact List.getLast_mem hne)

/-- the texts with a peer in them -/
theorem text_str (e : Entry) (s : Bytes) (hs : s ∈ strs e) (hrep : ∀ r ∈ reports e, OneLine r) :
    ∃ pre post, e.text = pre ++ (s ++ post) ∧ OneLine pre ∧ OneLine post ∧ post ≠ [] := by
  have key : ∀ a b : Bytes, a ++ s ++ b = a ++ (s ++ b) := fun a b => List.append_assoc ..
  cases e <;> simp only [strs, List.mem_singleton, List.not_mem_nil] at hs <;> subst hs
  case killing e =>
    refine ⟨ascii "error peer [", ascii "] (killing): " ++ e, ?_, by decide, OneLine.append (by decide) (hrep e (by simp [reports])), by simp [ascii]⟩
    unfold Entry.text
    simp
  all_goals exact ⟨_, _, key _ _, by decide, by decide, by decide⟩

/-- **C109** (partial: everybody whom the tracker named by something else than its address has an id of at most 20 bytes or without line feeds;
what follows the first `#` in the announce URL has no line feeds; and the text of a line that is to be
believed does not begin with `@`).  Then a line of the log that begins with a date and a time is the first line of an entry: nobody who connects can make one up. -/
theorem C109_safe_partial (sp : Bool) (w : World) (o : Options) (id : Bytes) (readOk : Bool) (pc : Bytes) (fs fs' : FS.State) (st : Started) (es : List Entry)
    (h : Starts sp w o id readOk pc fs (.ok st) fs' es) (E : Env) (σ₀ σ : State) (h0 : Initial es σ₀) (hr : Reach (Step E) σ₀ σ)
    (hin : OneLine o.input) (hv6 : ∀ ip, OneLine (E.v6 ip)) (hrem : ∀ ip port, OneLine (E.remote ip port)) (hrep : ∀ l ∈ σ.log, ∀ s ∈ reports l.entry, OneLine s)
    (hid : ∀ (i : Nat) (c : Conn), σ.conns[i]? = some c → (∃ r, .newClient r ∈ own σ i) ∨ OneLine c.info.id ∨ c.info.id.length ≤ 20)
    (hfrag : OneLine (st.tor.announce.dropWhile (· != 35)))
    (t : Bytes) (c : UInt8) (r : Bytes) (ht : Dated t) (hc : c ≠ 64) (hm : t ++ c :: r ∈ lines σ.stderr) :
    ∃ l ∈ σ.log, (lines l.bytes).head? = some (t ++ c :: r) := by
  obtain ⟨he, hctl⟩ := started_log h
  subst he
  unfold State.stderr at hm
  rw [stderr_lines, List.mem_append] at hm
  rcases hm with hm | hm
  · obtain ⟨x, hx, hm⟩ := List.mem_flatten.mp hm
    obtain ⟨l, hl, rfl⟩ := List.mem_map.mp hx
    refine ⟨l, hl, ?_⟩
    have hne : ∀ x : Bytes, lines x ≠ [] := by
      intro x hx
      have := lines_lf x []
      rw [hx] at this
      by_cases ho : OneLine x
      · rw [lines_one _ ho] at hx; cases hx
      · obtain ⟨a, b, e, ha⟩ := List.eq_append_cons_of_mem (Classical.not_not.mp ho)
        rw [e, lines_cons _ _ ha] at hx
        cases hx
    have hhead : (lines l.bytes).head? = (lines (l.time.header ++ chomp l.entry.text)).head? := by
      rw [bytes_eq, lines_lf, List.head?_append]
      cases hq : (lines (l.time.header ++ chomp l.entry.text)).head? with
      | none => exact absurd (List.head?_eq_none_iff.mp hq) (hne _)
      | some y => rfl
    rw [hhead]
    obtain ⟨q1, q2, q3⟩ := known (start := _) h0 start_texts hr hl
    cases hs : strs l.entry with
    | nil =>
      have ho : OneLine (l.time.header ++ chomp l.entry.text) := by
        refine (Dated.oneLine (header_dated _)).append (text_oneLine _ (by rw [hs]; simp) ?_ ?_ (hrep l hl))
        · intro s hs
          obtain ⟨ip, port, rfl | rfl⟩ := q2 s hs
          · exact addr_oneLine hv6 _ _ _
          · exact hrem _ _
        · intro s hs
          rcases q1 s hs with rfl | rfl
          · exact hin
          · exact noControl_oneLine hctl hfrag
      rw [lines_one _ ho] at hm ⊢
      rw [List.mem_singleton] at hm
      rw [hm]
      rfl
    | cons s ss =>
      have hsm : s ∈ strs l.entry := by rw [hs]; exact List.mem_cons_self ..
      obtain ⟨i, c', ip, port, k1, k2, k3, k4⟩ := q3 s hsm
      obtain ⟨pre, post, e1, e2, e3, e4⟩ := text_str l.entry s hsm (hrep l hl)
      have e5 : chomp l.entry.text = l.entry.text := by
        rw [e1, ← List.append_assoc]
        exact chomp_append e4 e3
      rw [k3, k2, str_eq] at e1
      have e6 : l.time.header ++ chomp l.entry.text = (l.time.header ++ pre) ++ (c'.info.id ++ 32 :: 64 :: (32 :: (MakePeer E.v6 c'.info.id ip port).addr ++ post)) := by
        rw [e5, e1]
        simp
      rw [e6] at hm ⊢
      refine short_lines _ _ _ ((Dated.oneLine (header_dated _)).append e2) ?_ ?_ _ t r c ht rfl hc hm
      · exact OneLine.append (OneLine.append (a := [32]) (by decide) (addr_oneLine hv6 _ _ _)) e3
      · rcases hid i c' k1 with hq | hq
        · exact .inr (k4 hq)
        · exact hq
  · rw [List.mem_singleton] at hm
    exact absurd hm (by simp)

/-! ### what can be forged -/

theorem go_on {E : Env} {σ : State} {cs : List Conn} {o : Bool} {c c' : Conn} {L : List Line} {es : List Entry} (h : Reach (Step E) σ ⟨cs ++ [c], o, L⟩) (hs : CStep E c es c')
    (t : Time) : Reach (Step E) σ ⟨cs ++ [c'], o, L ++ es.map fun e => ⟨t, some cs.length, e⟩⟩ := by
  have := Step.work (E := E) (σ := ⟨cs ++ [c], o, L⟩) cs.length t c c' es (by simp) hs
  rw [show (cs ++ [c]).set cs.length c' = cs ++ [c'] by simp] at this
  exact .tail _ _ h this

/-- a moment -/
def aTime : Time := ⟨2009, 11, 10, 23, 0, 0⟩

/-- somebody whom the tracker named is called, answers, and is listened to -/
theorem called (E : Env) (σ : State) (id : Bytes) (ip : IP) (port : UInt16) : ∃ c, c.info = MakePeer E.v6 id ip port ∧
    Reach (Step E) σ ⟨σ.conns ++ [c], σ.open, σ.log ++ [⟨aTime, some σ.conns.length, .recvStart (MakePeer E.v6 id ip port).str⟩]⟩ := by
  have s0 : Reach (Step E) σ ⟨σ.conns ++ [outgoing E (MakePeer E.v6 id ip port)], σ.open, σ.log⟩ := .tail _ _ .refl (.call id ip port)
  have s1 := go_on s0 (.dialled rfl) aTime
  have s2 := go_on s1 (.unchoke rfl rfl) aTime
  have s3 := go_on s2 (.recvStart (by simp) rfl) aTime
  simp only [List.map_nil, List.append_nil, List.map_cons] at s3
  exact ⟨_, rfl, s3⟩

/-- somebody connects, tells this id, and is listened to -/
theorem connected (E : Env) (hih : E.infohash.length = 20) (σ : State) (ho : σ.open = true) (id : Bytes) (hid : id.length = 20) (ip : IP) (port : UInt16) :
    ∃ c, c.info = MakePeer E.v6 id ip port ∧
    Reach (Step E) σ ⟨σ.conns ++ [c], σ.open, σ.log ++ [⟨aTime, some σ.conns.length, .newClient (E.remote ip port)⟩,
      ⟨aTime, some σ.conns.length, .goodHandshake (E.remote ip port)⟩, ⟨aTime, some σ.conns.length, .sentHandshake (E.remote ip port)⟩,
      ⟨aTime, some σ.conns.length, .sentBitfield (E.remote ip port)⟩, ⟨aTime, some σ.conns.length, .recvStart (MakePeer E.v6 id ip port).str⟩]⟩ := by
  have hrb : readBuf (MakeHandshake E.infohash id) = MakeHandshake E.infohash id := by
    have hl := (C40_any_length E.infohash id).1
    rw [readBuf_eq _ (by omega), hl]
    simp
  obtain ⟨-, m2, m3⟩ := C40_made E.infohash id E.infohash hih hid
  have s0 : Reach (Step E) σ ⟨σ.conns ++ [accepted E ip port], σ.open, σ.log ++ [⟨aTime, some σ.conns.length, .newClient (E.remote ip port)⟩]⟩ :=
    .tail _ _ .refl (.accept aTime ip port ho)
  have s1 := go_on s0 (.goodHandshake ip port (MakeHandshake E.infohash id) id rfl (by rw [hrb]; exact m2.mpr rfl) (by rw [hrb]; exact m3)) aTime
  have s2 := go_on s1 (.greet ip port id rfl) aTime
  have s3 := go_on s2 (.bitfield ip port id rfl) aTime
  have s4 := go_on s3 (.unchoke rfl rfl) aTime
  have s5 := go_on s4 (.recvStart (by simp) rfl) aTime
  simp only [List.map_nil, List.append_nil, List.map_cons, List.append_assoc, List.cons_append, List.nil_append, accepted] at s5
  exact ⟨_, rfl, s5⟩

/-- the lines of a log that ends with the entry about a peer with a line feed at the beginning of its id -/
theorem forged_lines (L : List Line) (t : Time) (i : Option Nat) (v6 : IP → Bytes) (x : Bytes) (ip : IP) (port : UInt16) :
    ∃ before, lines ((L ++ [(⟨t, i, .recvStart (MakePeer v6 (10 :: x) ip port).str⟩ : Line)]).map Line.bytes).flatten =
      before ++ lines (x ++ 32 :: 64 :: 32 :: (MakePeer v6 [] ip port).addr ++ [93]) ++ [[]] := by
  rw [stderr_lines, List.map_append, List.flatten_append]
  have e : (Entry.recvStart (MakePeer v6 (10 :: x) ip port).str).text = ascii "start recvLoop [" ++ 10 :: (x ++ 32 :: 64 :: 32 :: (MakePeer v6 [] ip port).addr ++ [93]) := by
    have : ascii "]" = [93] := by decide
    rw [Entry.text, str_eq, this]
    simp [MakePeer]
  have e' : chomp (Entry.recvStart (MakePeer v6 (10 :: x) ip port).str).text = (Entry.recvStart (MakePeer v6 (10 :: x) ip port).str).text := by
    rw [e, ← List.cons_append, ← List.append_assoc]
    exact chomp_append (by simp) (by decide)
  refine ⟨(L.map fun l => lines (l.time.header ++ chomp l.entry.text)).flatten ++ lines (t.header ++ ascii "start recvLoop ["), ?_⟩
  simp only [List.map_cons, List.map_nil, List.flatten_cons, List.flatten_nil, List.append_nil]
  rw [e', e, ← List.append_assoc, lines_lf]
  simp only [List.append_assoc]

/-- **C109** refuted: anybody who can connect can have any line of 18 bytes written to the log. -/
theorem C109_refuted_peer (E : Env) (hih : E.infohash.length = 20) (σ : State) (ho : σ.open = true) (ip : IP) (port : UInt16) (x : Bytes) (hx : OneLine x) (hl : x.length = 18) :
    ∃ σ' c, Reach (Step E) σ σ' ∧ σ'.conns = σ.conns ++ [c] ∧ c.info.id = 10 :: x ++ [10] ∧ x ∈ lines σ'.stderr := by
  obtain ⟨c, h1, h2⟩ := connected E hih σ ho (10 :: (x ++ [10])) (by simp [hl]) ip port
  refine ⟨_, c, h2, rfl, by rw [h1]; rfl, ?_⟩
  obtain ⟨before, hb⟩ := forged_lines (σ.log ++ [⟨aTime, some σ.conns.length, .newClient (E.remote ip port)⟩,
      ⟨aTime, some σ.conns.length, .goodHandshake (E.remote ip port)⟩, ⟨aTime, some σ.conns.length, .sentHandshake (E.remote ip port)⟩,
      ⟨aTime, some σ.conns.length, .sentBitfield (E.remote ip port)⟩]) aTime (some σ.conns.length) E.v6 (x ++ [10]) ip port
  rw [List.append_assoc] at hb
  unfold State.stderr
  rw [show ∀ (a b c d e : Line), [a, b, c, d, e] = [a, b, c, d] ++ [e] from fun _ _ _ _ _ => rfl, hb,
    show x ++ [10] ++ 32 :: 64 :: 32 :: (MakePeer E.v6 [] ip port).addr ++ [93] = x ++ 10 :: (32 :: 64 :: 32 :: (MakePeer E.v6 [] ip port).addr ++ [93]) by simp,
    lines_cons _ _ hx]
  simp

/-- **C109** refuted: anybody who can connect can have a line written to the log that begins with any date and time, although all that follows is `@` and the address. -/
theorem C109_refuted_date (E : Env) (hih : E.infohash.length = 20) (hv6 : ∀ ip, OneLine (E.v6 ip)) (σ : State) (ho : σ.open = true) (ip : IP) (port : UInt16) (t : Bytes) (ht : Dated t) :
    ∃ σ' c, Reach (Step E) σ σ' ∧ σ'.conns = σ.conns ++ [c] ∧ t ++ ascii "@ " ++ c.info.addr ++ ascii "]" ∈ lines σ'.stderr := by
  have hlast : t = t.take 19 ++ [32] := by
    have h19 : t[19]? = some 32 := by
      have hlt : 19 < t.length := by rw [ht.1]; decide
      have := ht.2 19 t[19] (List.getElem?_eq_getElem hlt)
      simp at this
      rw [List.getElem?_eq_getElem hlt, this]
    have h1 : t.drop 19 = [32] := by
      have hlt : 19 < t.length := by rw [ht.1]; decide
      rw [List.drop_eq_getElem_cons hlt, List.drop_eq_nil_of_le (by rw [ht.1]; decide)]
      rw [List.getElem?_eq_getElem hlt] at h19
      rw [Option.some.inj h19]
    rw [← h1, List.take_append_drop]
  obtain ⟨c, h1, h2⟩ := connected E hih σ ho (10 :: t.take 19) (by simp [ht.1]) ip port
  refine ⟨_, c, h2, rfl, ?_⟩
  obtain ⟨before, hb⟩ := forged_lines (σ.log ++ [⟨aTime, some σ.conns.length, .newClient (E.remote ip port)⟩,
      ⟨aTime, some σ.conns.length, .goodHandshake (E.remote ip port)⟩, ⟨aTime, some σ.conns.length, .sentHandshake (E.remote ip port)⟩,
      ⟨aTime, some σ.conns.length, .sentBitfield (E.remote ip port)⟩]) aTime (some σ.conns.length) E.v6 (t.take 19) ip port
  rw [List.append_assoc] at hb
  unfold State.stderr
  have hone : OneLine (t ++ ascii "@ " ++ c.info.addr ++ ascii "]") := by
    rw [h1]
    exact (((Dated.oneLine ht).append (by decide)).append (addr_oneLine hv6 _ _ _)).append (by decide)
  have e : t.take 19 ++ 32 :: 64 :: 32 :: (MakePeer E.v6 [] ip port).addr ++ [93] = t ++ ascii "@ " ++ c.info.addr ++ ascii "]" := by
    rw [h1, show ascii "@ " = [64, 32] by decide, show ascii "]" = [93] by decide]
    conv => rhs; rw [hlast]
    simp [MakePeer]
  rw [show ∀ (a b c d e : Line), [a, b, c, d, e] = [a, b, c, d] ++ [e] from fun _ _ _ _ _ => rfl, hb, e, lines_one _ hone]
  simp

/-- a list of texts, one in each line -/
def poster (ls : List Bytes) : Bytes := (ls.map (· ++ [10])).flatten

theorem canon_answer (id ip : Bytes) (port : Nat) (hid : id ≠ []) (hip : ip ≠ []) :
    ∃ b, Canon (.dict [(ascii "complete", .int64 0), (ascii "incomplete", .int64 0), (ascii "interval", .int64 9),
      (ascii "peers", .list [.dict [(ascii "ip", .str ip), (ascii "peer id", .str id), (ascii "port", .int64 port)]])]) b :=
  ⟨_, .dict _ _ (.cons _ _ _ _ _ (by decide) (.int _) (.cons _ _ _ _ _ (by decide) (.int _) (.cons _ _ _ _ _ (by decide) (.int _)
    (.cons _ _ _ _ _ (by decide) (.list _ _ (.cons _ _ _ _ (.dict _ _ (.cons _ _ _ _ _ (by decide) (.str _ hip) (.cons _ _ _ _ _ (by decide) (.str _ hid)
      (.cons _ _ _ _ _ (by decide) (.int _) .nil))) (by simp; decide)) .nil)) .nil)))) (by simp; decide)⟩

/-- **C109** refuted: the tracker can have any lines written to the log, with any dates, one behind the other: it names a peer with them as its id. -/
theorem C109_refuted_tracker (ls : List Bytes) (hls : ∀ l ∈ ls, OneLine l) (hlen : (poster ls).length < 2 ^ 62) (ip : Bytes) (hip : ip ≠ []) (hipl : ip.length < 2 ^ 62) (port : UInt16) :
    ∃ id body, ∀ (E : Env) (parseIP : Bytes → IP) (spare : Bytes),
      (∃ resp, Tracker.doRequest E.v6 parseIP (some body) spare = .ok resp ∧ resp.peers = [MakePeer E.v6 id (parseIP ip) port]) ∧
      ∀ σ, ∃ σ', Reach (Step E) σ σ' ∧ σ'.conns.map Conn.info = σ.conns.map Conn.info ++ [MakePeer E.v6 id (parseIP ip) port] ∧ ls <:+: lines σ'.stderr := by
  obtain ⟨body, hb⟩ := canon_answer (10 :: poster ls) ip port.toNat (by simp) hip
  refine ⟨10 :: poster ls, body, fun E parseIP spare => ⟨?_, fun σ => ?_⟩⟩
  · have hd := (decode_canon hb ?_ [] spare).1 ?_
    · rw [List.append_nil] at hd
      unfold Tracker.doRequest
      simp only [hd, Res.ok_bind]
      have hp : UInt16.ofNat ((port.toNat : Int) % 2 ^ 64).toNat = port := by
        have := port.toNat_lt
        rw [Int.emod_eq_of_lt (by omega) (by omega), Int.toNat_natCast, UInt16.ofNat_toNat]
      refine ⟨_, rfl, ?_⟩
      show [MakePeer E.v6 (10 :: poster ls) (parseIP ip) (UInt16.ofNat ((port.toNat : Int) % 2 ^ 64).toNat)] = _
      rw [hp]
    · refine .dict _ (by simp [ascii]) ?_
      simp only [List.mem_cons, List.not_mem_nil, or_false, forall_eq_or_imp, forall_eq]
      refine ⟨.int64 _, .int64 _, .int64 _, .list _ ?_⟩
      simp only [List.mem_singleton, forall_eq]
      refine .dict _ (by simp [ascii]) ?_
      simp only [List.mem_cons, List.not_mem_nil, or_false, forall_eq_or_imp, forall_eq]
      exact ⟨.str _ (by omega), .str _ (by simp; omega), .int64 _⟩
    · refine .dict _ ?_
      simp only [List.mem_cons, List.not_mem_nil, or_false, forall_eq_or_imp, forall_eq]
      refine ⟨.int64 _ (by unfold DecInt; decide), .int64 _ (by unfold DecInt; decide), .int64 _ (by unfold DecInt; decide), .list _ ?_⟩
      simp only [List.mem_singleton, forall_eq]
      refine .dict _ ?_
      simp only [List.mem_cons, List.not_mem_nil, or_false, forall_eq_or_imp, forall_eq]
      refine ⟨.str _, .str _, .int64 _ ?_⟩
      have := port.toNat_lt
      unfold DecInt
      omega
  · obtain ⟨c, h1, h2⟩ := called E σ (10 :: poster ls) (parseIP ip) port
    refine ⟨_, h2, by simp [h1], ?_⟩
    obtain ⟨before, hb⟩ := forged_lines σ.log aTime (some σ.conns.length) E.v6 (poster ls) (parseIP ip) port
    unfold State.stderr
    rw [hb, poster, List.append_assoc _ _ [93], lines_flatten ls _ hls]
    exact ⟨before, _, by simp only [List.append_assoc]; rfl⟩

theorem canon_torrent (announce : Bytes) (ha : announce ≠ []) :
    ∃ b, Canon (.dict [(ascii "announce", .str announce), (ascii "info", .dict Tracker.exInfo4)]) b :=
  ⟨_, .dict _ _ (.cons _ _ _ _ _ (by decide) (.str _ ha) (.cons _ _ _ _ _ (by decide) (.dict _ _ (.cons _ _ _ _ _ (by decide) (.int _)
    (.cons _ _ _ _ _ (by decide) (.str _ (by decide)) (.cons _ _ _ _ _ (by decide) (.int _) (.cons _ _ _ _ _ (by decide) (.str _ (by decide)) .nil))))
    (by decide)) .nil)) (by simp; decide)⟩

/-- a torrent file with any announce URL -/
theorem torrent_file (an : Bytes) (ha : an ≠ []) (hlen : an.length < 2 ^ 63) :
    ∃ file, ∀ spare, Decode file spare = .ok (.dict [(ascii "announce", .str an), (ascii "info", .dict Tracker.exInfo4)]) := by
  obtain ⟨file, hb⟩ := canon_torrent an ha
  refine ⟨file, fun spare => ?_⟩
  have hd := (decode_canon hb ?_ [] spare).1 ?_
  · rwa [List.append_nil] at hd
  · refine .dict _ (by simp [ascii]) ?_
    simp only [List.mem_cons, List.not_mem_nil, or_false, forall_eq_or_imp, forall_eq]
    refine ⟨.str _ hlen, .dict _ (by decide) ?_⟩
    simp only [Tracker.exInfo4, List.mem_cons, List.not_mem_nil, or_false, forall_eq_or_imp, forall_eq]
    exact ⟨.int64 _, .str _ (by decide), .int64 _, .str _ (by decide)⟩
  · refine .dict _ ?_
    simp only [List.mem_cons, List.not_mem_nil, or_false, forall_eq_or_imp, forall_eq]
    refine ⟨.str _, .dict _ ?_⟩
    simp only [Tracker.exInfo4, List.mem_cons, List.not_mem_nil, or_false, forall_eq_or_imp, forall_eq]
    exact ⟨.int64 _ (by unfold DecInt; decide), .str _, .int64 _ (by unfold DecInt; decide), .str _⟩

/-- its info dictionary -/
theorem torrent_info : ∃ ti, Torrent.FromDict Tracker.exInfo4 (ascii "/w") = .ok ti ∧ Sensible ti := by
  obtain ⟨ti, h4⟩ := Torrent.Res.isOk_iff (r := Torrent.FromDict Tracker.exInfo4 (ascii "/w")) (by decide +kernel)
  have hti : (match Torrent.FromDict Tracker.exInfo4 (ascii "/w") with
    | .ok ti => decide (ti.pieceLen = 4 ∧ ti.hashes = ascii "aaaaaaaaaaaaaaaaaaaa" ∧ ti.flist.map Files.Entry.base = [⟨4, ascii "n", ascii "/w/n"⟩])
    | _ => false) = true := by decide +kernel
  rw [h4] at hti
  simp only [decide_eq_true_eq] at hti
  obtain ⟨i1, i2, i3⟩ := hti
  refine ⟨ti, h4, by rw [i1]; decide, by rw [i1]; decide, ?_, ?_⟩
  · intro e he
    have : e.base ∈ ti.flist.map Files.Entry.base := List.mem_map_of_mem he
    rw [i3, List.mem_singleton] at this
    rw [this]
    decide
  · rw [show (fun e : Files.Entry => e.base.localPath) = Files.EntryBase.localPath ∘ Files.Entry.base from rfl, ← List.map_map, i3]
    decide +kernel

/-- the lines of a log in which the announce URL is shown -/
theorem asked_lines {L : List Line} {before : List Entry} {pre : Bytes} {ls : List Bytes} (hls : ∀ l ∈ ls, OneLine l)
    (h : L.map Line.entry = before ++ [.asking (pre ++ 10 :: poster ls)]) : ls <:+: lines (L.map Line.bytes).flatten := by
  obtain ⟨L1, L2, hL, -, hL'⟩ := List.map_eq_append_iff.mp h
  cases L2 with
  | nil => cases hL'
  | cons l L2 =>
    rw [List.map_cons, List.cons.injEq, List.map_eq_nil_iff] at hL'
    obtain ⟨hl, rfl⟩ := hL'
    have e : chomp l.entry.text = (ascii "sending get to tracker [" ++ pre) ++ 10 :: (poster ls ++ [93]) := by
      rw [hl, Entry.text, show ascii "]\n" = [93] ++ [10] by decide, ← List.append_assoc, chomp_lf]
      simp
    rw [stderr_lines, hL, List.map_append, List.flatten_append, List.map_cons, List.flatten_cons, e, ← List.append_assoc l.time.header, lines_lf, poster, lines_flatten ls _ hls]
    refine ⟨(L1.map fun l => lines (l.time.header ++ chomp l.entry.text)).flatten ++ lines (l.time.header ++ (ascii "sending get to tracker [" ++ pre)), lines [93] ++ [[]], ?_⟩
    simp

/-- **C109** refuted: a torrent file can have any lines written to the log, with any dates, one behind the other: the announce URL is shown before it is looked at.  (The program
panics then, C65.) -/
theorem C109_refuted_torrent (ls : List Bytes) (hls : ∀ l ∈ ls, OneLine l) (hlen : (poster ls).length < 2 ^ 62) :
    ∃ file, ∀ (w : World) (port : UInt16) (id pc : Bytes), ∃ fs fs' es, fs (ascii "/t") = some file ∧
      Starts false w ⟨ascii "/t", ascii "/w", port⟩ id true pc fs .panic fs' es ∧ ∀ σ, Initial es σ → ls <:+: lines σ.stderr := by
  obtain ⟨file, hd⟩ := torrent_file (10 :: poster ls) (by simp) (by simp; omega)
  refine ⟨file, fun w port id pc => ?_⟩
  obtain ⟨ti, h4, hs⟩ := torrent_info
  have hf := Torrent.fromTorrentFile_eq (an := 10 :: poster ls) (infod := Tracker.exInfo4) (hd w.spareFile) (by rfl) (by rfl) h4 w.H
  obtain ⟨fs', hx⟩ := FileIO.ocatAll_run ti.flist hs.nonneg (fun p => if p = ascii "/t" then some file else none)
  have hacc := loaded_accepted hf hs
  have hprep := FileIO.C26_prepared _ _ _ _ hacc (by rw [List.map_map]; exact hs.distinct) _ fs' hx
  obtain ⟨b0, b, v1, v2, -⟩ := validated (H := w.H) hacc hprep
  have hget : ∀ t : Torrent.Torrent, t.announce = 10 :: poster ls →
      Tracker.Get w.v6 w.parseIP w.parseURL w.http w.spareBody t (Tracker.NewStats 0 0 0) port id = .panic := by
    intro t ht
    rw [(Tracker.C65_panic_iff_partial _ _ _ _ _ _ _ _ _).1, ht]
    exact .inl fun h => absurd (h 10 (by rw [List.takeWhile_cons_of_pos (by decide)]; exact List.mem_cons_self ..)).1 (by decide)
  have hfin := Starts.ready (sp := false) (w := w) (o := ⟨ascii "/t", ascii "/w", port⟩) (id := id) (readOk := true) (pc := pc)
    (fun p => if p = ascii "/t" then some file else none) fs' _ (by simpa using hf) hx
  unfold finish restLog checked at hfin
  simp only [v1, Res.ok_bind, v2, hget ⟨w.H (Encode (.dict Tracker.exInfo4)).1, 10 :: poster ls, ti⟩ rfl] at hfin
  refine ⟨_, fs', _, by simp, hfin, ?_⟩
  rintro σ ⟨-, -, hσ, -⟩
  exact asked_lines (before := [.reading (ascii "/t"), .opening, .has b.nset b.nbits pc]) (pre := []) hls hσ

/-- **C109** refuted also for torrent files that the program serves: `url.Parse` takes off what follows the first `#` before it looks for control characters, so the lines can be in
the fragment of an announce URL that works. -/
theorem C109_refuted_fragment (ls : List Bytes) (hls : ∀ l ∈ ls, OneLine l) (hlen : (poster ls).length < 2 ^ 62) :
    ∃ file announce, announce = ascii "http://t/a#" ++ 10 :: poster ls ∧
      ∀ (w : World) (port : UInt16) (id pc : Bytes), (∃ extra, w.parseURL announce = some extra) →
        (∀ raw, ∃ resp, Tracker.doRequest w.v6 w.parseIP (w.http raw) w.spareBody = .ok resp) → ∃ fs fs' st es, fs (ascii "/t") = some file ∧
          Starts false w ⟨ascii "/t", ascii "/w", port⟩ id true pc fs (.ok st) fs' es ∧ st.tor.announce = announce ∧ ∀ σ, Initial es σ → ls <:+: lines σ.stderr := by
  have hlen' : (ascii "http://t/a#").length = 11 := by decide
  obtain ⟨file, hd⟩ := torrent_file (ascii "http://t/a#" ++ 10 :: poster ls) (by simp) (by simp; omega)
  have htake : (ascii "http://t/a#" ++ 10 :: poster ls).takeWhile (· != 35) = ascii "http://t/a" := by
    rw [show ascii "http://t/a#" = ascii "http://t/a" ++ [35] by decide, List.append_assoc, List.takeWhile_append_of_pos (by decide +kernel)]
    simp
  refine ⟨file, _, rfl, fun w port id pc ⟨extra, hp⟩ hh => ?_⟩
  obtain ⟨ti, h4, hs⟩ := torrent_info
  have hf := Torrent.fromTorrentFile_eq (an := ascii "http://t/a#" ++ 10 :: poster ls) (infod := Tracker.exInfo4) (hd w.spareFile) (by rfl) (by rfl) h4 w.H
  have hc : Query.NoControl (ascii "http://t/a#" ++ 10 :: poster ls) := by
    unfold Query.NoControl
    rw [htake]
    decide +kernel
  obtain ⟨raw, q, r1, -⟩ := Tracker.request_values w.parseURL ⟨w.H (Encode (.dict Tracker.exInfo4)).1, ascii "http://t/a#" ++ 10 :: poster ls, ti⟩ (Tracker.NewStats 0 0 0) port id extra hc hp
  obtain ⟨resp, hr⟩ := hh raw
  obtain ⟨⟨st, fs', e1, e2⟩, -⟩ := C71_starts w ⟨ascii "/t", ascii "/w", port⟩ id (fun p => if p = ascii "/t" then some file else none) file _ (by simp) hf hs raw r1 resp hr
  have hann : st.tor.announce = ascii "http://t/a#" ++ 10 :: poster ls := by rw [e2]
  obtain ⟨es, h⟩ := (C109_starts_iff _ _ _ _ _ pc _ _ _).mp e1
  refine ⟨_, fs', st, es, by simp, h, hann, ?_⟩
  rintro σ ⟨-, -, hσ, -⟩
  rw [(started_log h).1, hann] at hσ
  exact asked_lines (before := [.reading (ascii "/t"), .opening, .has st.core.bf.nset st.core.bf.nbits pc]) hls hσ

/-! ### examples -/

/-- an environment -/
def exEnv : Env := ⟨List.replicate 20 7, fun _ => ascii "v6", fun _ _ => ascii "10.0.0.7:80", true, false⟩

/-- the log of a start -/
def exLog (es : List Entry) : State := ⟨[], false, es.map fun e => ⟨aTime, none, e⟩⟩

theorem exLog_initial (es : List Entry) : Initial es (exLog es) := by
  refine ⟨rfl, rfl, ?_, ?_⟩
  · simp [exLog, Function.comp_def]
  · intro l hl
    obtain ⟨e, -, rfl⟩ := List.mem_map.mp hl
    rfl

/-- the hypotheses of `C109_lines_partial` and `C109_safe_partial`: a program that has started, somebody whom the tracker named, and (for the second one) somebody who connected and
whose id has a line feed -/
theorem ex_served : ∃ st fs' es, Starts false exWorld exOptions (List.replicate 20 65) true (ascii "0") exDisk (.ok st) fs' es ∧ OneLine (st.tor.announce.dropWhile (· != 35)) ∧
    (∃ σ c, Reach (Step exEnv) (exLog es) σ ∧ σ.conns = [c] ∧ c.info.id = ascii "-GT0001-abcdefghijkl" ∧ σ.log.length = 5 ∧
      ∀ l ∈ σ.log, ∀ s ∈ reports l.entry, OneLine s) ∧
    ∃ σ c, Reach (Step exEnv) (exLog es) σ ∧ σ.conns = [c] ∧ c.info.id = ascii "-GT\n001-abcdefghijkl" ∧ σ.log.length = 10 ∧
      ∀ l ∈ σ.log, ∀ s ∈ reports l.entry, OneLine s := by
  obtain ⟨st, fs', h, -, -, -, -, -, -, hann⟩ := ex_starts
  obtain ⟨es, h⟩ := (C109_starts_iff _ _ _ _ _ (ascii "0") _ _ _).mp h
  have hl := (started_log h).1
  have hrep : ∀ ls : List Line, (∀ l ∈ ls, reports l.entry = []) → ∀ l ∈ (exLog es).log ++ ls, ∀ s ∈ reports l.entry, OneLine s := by
    intro ls hls l hm s hs
    rcases List.mem_append.mp hm with hm | hm
    · obtain ⟨e, he, rfl⟩ := List.mem_map.mp hm
      rw [hl] at he
      simp only [List.mem_cons, List.not_mem_nil, or_false] at he
      rcases he with rfl | rfl | rfl | rfl <;> simp [reports] at hs
      rw [hs]
      decide
    · rw [hls l hm] at hs
      exact absurd hs (by simp)
  refine ⟨st, fs', es, h, by rw [hann]; decide, ?_, ?_⟩
  · obtain ⟨c, h1, h2⟩ := called exEnv (exLog es) (ascii "-GT0001-abcdefghijkl") [10, 0, 0, 7] 80
    exact ⟨_, c, h2, rfl, by rw [h1]; rfl, by rw [hl]; rfl, hrep _ (by simp [reports])⟩
  · have s0 : Reach (Step exEnv) (exLog es) _ := .tail _ _ .refl (.listen aTime 7000 rfl)
    obtain ⟨c, h1, h2⟩ := connected exEnv (by decide) { exLog es with «open» := true, log := (exLog es).log ++ [⟨aTime, none, .listening 7000⟩] } rfl
      (ascii "-GT\n001-abcdefghijkl") (by decide) [10, 0, 0, 7] 80
    refine ⟨_, c, Reach.trans s0 h2, rfl, by rw [h1]; rfl, by rw [hl]; rfl, ?_⟩
    rw [List.append_assoc]
    exact hrep _ (by simp [reports])

example : Dated aTime.header ∧ aTime.header = ascii "2009/11/10 23:00:00 " := ⟨header_dated _, by decide⟩

/-- the first line of an entry, and the others -/
example : lines (Line.bytes ⟨aTime, some 0, .recvStart (MakePeer (fun _ => []) (ascii "-GT\n001-abcdefghijkl") [10, 0, 0, 7] 80).str⟩) =
    [ascii "2009/11/10 23:00:00 start recvLoop [-GT", ascii "001-abcdefghijkl @ 10.0.0.7:80]", []] := by decide +kernel

example : lines (Line.bytes ⟨aTime, none, .asking (ascii "http://a/\n2009/11/10 23:00:00 all is well")⟩) =
    [ascii "2009/11/10 23:00:00 sending get to tracker [http://a/", ascii "2009/11/10 23:00:00 all is well]", []] := by decide +kernel

/-- the hypotheses of `C109_refuted_tracker` and `C109_refuted_torrent` -/
example : (∀ l ∈ [ascii "2009/11/10 23:00:00 peer 10.0.0.8:80 done", ascii "2009/11/10 23:00:00 all is well"], OneLine l) ∧
    poster [ascii "a", ascii "b"] = ascii "a\nb\n" := by decide

/-- the hypotheses of `C109_refuted_peer` -/
example : exEnv.infohash.length = 20 ∧ OneLine (ascii "panic: out of luck") ∧ (ascii "panic: out of luck").length = 18 := by decide

end Verif.Log
