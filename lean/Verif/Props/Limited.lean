import Verif.Model.Limited
import Verif.Spec.Limited
import Verif.Props.Download
import Verif.Props.RateLive
import Verif.Lemmas.Lts
/-
C102: the limits of the command line, with all connections at once.
-/
set_option autoImplicit false

namespace Verif.Limited
open Verif.P2P Verif.Bf Verif.Files Verif.FileIO Verif.PieceTracker Verif.Peer Verif.Handshake Verif.MsgHandler Verif.Session Verif.Peers
open Verif.Layout Verif.PeersSpec Verif.LimitedSpec Verif.RateSpec Verif.RateLimit Verif.Lts Verif.Wire

/-! ### the steps of the connections, seen from one of them -/

/-- what a step of `Peers.Step` can do to a connection -/
inductive Change (E : Env) (σ : Client) (c c' : Conn) : Prop
  | got (ht : c.todo = []) (hg : c'.got ≠ c.got) (hh : c'.handled = c.handled) (ho : c'.out = c.out) (hb : c'.buf = c.buf)
  | handled (m : P2P.Msg) (ms : List P2P.Msg) (ok : Bool) (st : St) (r : Res Unit) (hr : c.recv = .running) (ht : c.todo = m :: ms)
      (hh : handleOne E.s c.me (fun _ => ok) m (c.st σ.ppt) = (st, r))
      (h : r = .ok () ∧ c' = { c.after st with todo := ms, handled := c.handled ++ [m] } ∨ (∃ e, r = .err e) ∧ c' = { c.after st with recv := .ended } ∨
        r = .timeout ∧ c' = { c.after st with recv := .hangs })
  | other (hg : c'.got = c.got) (ht : c'.todo = c.todo) (hh : c'.handled = c.handled) (hr : c'.recv = c.recv) (hb : c'.buf = c.buf)
      (ho : c'.out.filter isBlock = c.out.filter isBlock)

theorem step_shape {E : Env} {σ σ' : Client} (h : Peers.Step E σ σ') :
    σ'.conns = σ.conns ∨ (∃ p ptr ph out, σ'.conns = σ.conns ++ [newConn p ptr ph out]) ∨
    ∃ (i : Nat) (c c' : Conn), σ.conns[i]? = some c ∧ σ'.conns = σ.conns.set i c' ∧ Change E σ c c' := by
  have ne : ∀ (l : List Bytes) (b : Bytes), l ++ [b] ≠ l := by
    intro l b e
    have := congrArg List.length e
    simp at this
  cases h with
  | incoming c out first p ph ptr ok hc h1 h2 h3 => exact .inr (.inl ⟨_, _, _, _, rfl⟩)
  | outgoing p p' out first ph ptr ok hc h1 h2 h3 => exact .inr (.inl ⟨_, _, _, _, rfl⟩)
  | incomingPanic => exact .inl rfl
  | outgoingPanic => exact .inl rfl
  | receive i c buf fuel dar hc hi hr ht hd => exact .inr (.inr ⟨i, c, _, hi, rfl, .got ht (ne _ _) rfl rfl rfl⟩)
  | receivePanic i c buf fuel hc hi hr ht hd => exact .inr (.inr ⟨i, c, _, hi, rfl, .got ht (ne _ _) rfl rfl rfl⟩)
  | receiveHangs i c buf hc hi hr ht hd => exact .inr (.inr ⟨i, c, _, hi, rfl, .got ht (ne _ _) rfl rfl rfl⟩)
  | handle i c m ms ok st hc hi hr ht hh => exact .inr (.inr ⟨i, c, _, hi, rfl, .handled m ms ok st _ hr ht hh (.inl ⟨rfl, rfl⟩)⟩)
  | handleError i c m ms ok st e hc hi hr ht hh => exact .inr (.inr ⟨i, c, _, hi, rfl, .handled m ms ok st _ hr ht hh (.inr (.inl ⟨⟨e, rfl⟩, rfl⟩))⟩)
  | handlePanic => exact .inl rfl
  | handleHangs i c m ms ok st hc hi hr ht hh => exact .inr (.inr ⟨i, c, _, hi, rfl, .handled m ms ok st _ hr ht hh (.inr (.inr ⟨rfl, rfl⟩))⟩)
  | request i c t n fuel ms ws out hc hi hb hx hq hn hm hw ho =>
    obtain rfl := req_empty fuel _ _ _ hm
    obtain rfl : ws = [] := by cases ws with
      | nil => rfl
      | cons => cases hw
    obtain rfl := List.sublist_nil.mp ho
    exact .inr (.inr ⟨i, c, _, hi, rfl, .other rfl rfl rfl rfl rfl (by simp)⟩)
  | requestHangs i c t n hc hi hb hx hq hn hm => exact .inr (.inr ⟨i, c, _, hi, rfl, .other rfl rfl rfl rfl rfl rfl⟩)
  | requestNone => exact .inl rfl
  | requestPanic => exact .inl rfl
  | ping i c m hc hi hm =>
    have : m = wire .keepAlive := (Res.ok.inj hm).symm
    subst this
    refine .inr (.inr ⟨i, c, _, hi, rfl, .other rfl rfl rfl rfl rfl ?_⟩)
    show (c.out ++ [wire .keepAlive]).filter _ = _
    rw [List.filter_append, show [wire .keepAlive].filter isBlock = [] from by decide, List.append_nil]

/-- a step that changes what connection `i` has received or handled, or where its recvLoop is, leaves the others alone -/
theorem step_at {E : Env} {σ σ' : Client} (h : Peers.Step E σ σ') {i : Nat} {c c' : Conn} (hi : σ.conns[i]? = some c) (hi' : σ'.conns[i]? = some c')
    (hne : c'.got ≠ c.got ∨ c'.handled ≠ c.handled ∨ c'.recv ≠ c.recv) : σ'.conns = σ.conns.set i c' ∧ Change E σ c c' := by
  have no : c' = c → False := by rintro rfl; simp at hne
  rcases step_shape h with e | ⟨p, ptr, ph, out, e⟩ | ⟨j, d, d', hj, e, hch⟩
  · rw [e, hi] at hi'; exact (no (Option.some.inj hi').symm).elim
  · rw [e, List.getElem?_append_left (List.getElem?_eq_some_iff.mp hi).1, hi] at hi'; exact (no (Option.some.inj hi').symm).elim
  · by_cases hji : j = i
    · subst hji
      rw [hi] at hj
      cases hj
      rw [e, List.getElem?_set_self (List.getElem?_eq_some_iff.mp hi).1] at hi'
      cases hi'
      exact ⟨e, hch⟩
    · rw [e, List.getElem?_set_ne hji, hi] at hi'; exact (no (Option.some.inj hi').symm).elim

/-- what handling a message writes is what `toWrite` says -/
theorem handleOne_toWrite (s : MsgHandler.Swarm) (me : PH) (ok : Bool) (m : P2P.Msg) (st : St) :
    (∀ x, toWrite s st.buf m = some x → (ok = true → (handleOne s me (fun _ => ok) m st).2 = .ok () ∧ (handleOne s me (fun _ => ok) m st).1.out = st.out ++ [x] ∧
        (handleOne s me (fun _ => ok) m st).1.ppt = st.ppt ∧ (handleOne s me (fun _ => ok) m st).1.peerBf = st.peerBf) ∧
      (ok = false → (handleOne s me (fun _ => ok) m st).2 = .err .os ∧ (handleOne s me (fun _ => ok) m st).1.out = st.out)) ∧
    (toWrite s st.buf m = none → (handleOne s me (fun _ => ok) m st).1.out = st.out) := by
  cases m with
  | request i b n =>
    simp only [handleOne, handleRequest, toWrite]
    cases h1 : mayServe s i.toNat with
    | ok v =>
      cases v with
      | false => simp
      | true =>
        simp only
        cases h2 : ReadPiece s.fs s.fio i.toNat st.buf with
        | ok v =>
          obtain ⟨k, buf⟩ := v
          simp only
          cases h3 : answer buf i b n <;> cases ok <;> simp
        | _ => simp
    | _ => simp
  | bitfield _ b =>
    simp only [handleOne, toWrite]
    refine ⟨nofun, fun _ => ?_⟩
    unfold handleBitfield
    repeat' split
    all_goals rfl
  | _ => exact ⟨nofun, fun _ => rfl⟩

/-! ### what is true of every state -/

/-- who is in `Write` is answering the next message -/
structure Fits (E : Env) (σ : State) : Prop where
  busy : ∀ i n, todo (σ.lim.pcs i) = some n → ∃ c m ms x, σ.client.conns[i]? = some c ∧ c.recv = .running ∧ c.todo = m :: ms ∧
    toWrite E.s c.buf m = some x ∧ x.length = n
  noSet : ∀ i, σ.lim.pcs i = .idle ∨ (∃ n, todo (σ.lim.pcs i) = some n) ∨ ∃ n, σ.lim.pcs i = .directUsed n ∨ σ.lim.pcs i = .directTotal n

/-- the goroutine of a limiter step, when no call begins -/
theorem inside {s s' : RateLimit.State} {l : Label} (h : RateLimit.Step s l s') (hk : ∀ t, s.pcs t = .idle → s'.pcs t = .idle)
    (hs : ∀ i, s.pcs i = .idle ∨ (∃ n, todo (s.pcs i) = some n) ∨ ∃ n, s.pcs i = .directUsed n ∨ s.pcs i = .directTotal n) :
    (∀ i n, todo (s'.pcs i) = some n → todo (s.pcs i) = some n) ∧ s'.rate = s.rate ∧ (∀ t v, l ≠ .setRate t v) ∧
    (∀ i, s'.pcs i = .idle ∨ (∃ n, todo (s'.pcs i) = some n) ∨ ∃ n, s'.pcs i = .directUsed n ∨ s'.pcs i = .directTotal n) ∧
    ∀ i n, l = .written i n → todo (s.pcs i) = some n ∧ todo (s'.pcs i) = none := by
  have key : ∀ (s1 : RateLimit.State) (t : Nat) (pc : Pc), s1.pcs = s.pcs → (∀ n, todo pc = some n → todo (s.pcs t) = some n) →
      (pc = .idle ∨ (∃ n, todo pc = some n) ∨ ∃ n, pc = .directUsed n ∨ pc = .directTotal n) →
      (∀ i n, todo ((s1.go t pc).pcs i) = some n → todo (s.pcs i) = some n) ∧
      ∀ i, (s1.go t pc).pcs i = .idle ∨ (∃ n, todo ((s1.go t pc).pcs i) = some n) ∨ ∃ n, (s1.go t pc).pcs i = .directUsed n ∨ (s1.go t pc).pcs i = .directTotal n := by
    intro s1 t pc e h1 h2
    refine ⟨fun i n => ?_, fun i => ?_⟩
    · rw [go_pcs]
      split
      · rename_i e'; subst e'; exact h1 n
      · rw [e]; exact id
    · rw [go_pcs]
      split
      · exact h2
      · rw [e]; exact hs i
  cases h with
  | call t n hp => have := hk t hp; rw [go_pcs, if_pos rfl] at this; cases this
  | setCall t v hp => have := hk t hp; rw [go_pcs, if_pos rfl] at this; cases this
  | setLock t v hp hl => rcases hs t with e | ⟨n, e⟩ | ⟨n, e | e⟩ <;> rw [hp] at e <;> cases e
  | setStore t v hp => rcases hs t with e | ⟨n, e⟩ | ⟨n, e | e⟩ <;> rw [hp] at e <;> cases e
  | setUnlock t hp => rcases hs t with e | ⟨n, e⟩ | ⟨n, e | e⟩ <;> rw [hp] at e <;> cases e
  | tick => exact ⟨fun _ _ => id, rfl, nofun, hs, nofun⟩
  | unlimited t n hp hr => exact ⟨(key _ t _ rfl (by rw [hp]; exact fun _ => id) (by simp [todo])).1, rfl, nofun, (key _ t _ rfl (by rw [hp]; exact fun _ => id) (by simp [todo])).2, nofun⟩
  | limited t n hp hr => exact ⟨(key _ t _ rfl (by rw [hp]; exact fun _ => id) (by simp [todo])).1, rfl, nofun, (key _ t _ rfl (by rw [hp]; exact fun _ => id) (by simp [todo])).2, nofun⟩
  | direct t n hp =>
    refine ⟨(key _ t _ rfl (by rw [hp]; nofun) (by simp [todo])).1, rfl, nofun, (key _ t _ rfl (by rw [hp]; nofun) (by simp [todo])).2, ?_⟩
    intro i k e
    cases e
    exact ⟨by rw [hp]; rfl, by rw [go_pcs, if_pos rfl]; rfl⟩
  | directUsed t n hp => exact ⟨(key _ t _ rfl (by rw [hp]; exact fun _ => id) (by simp [todo])).1, rfl, nofun, (key _ t _ rfl (by rw [hp]; exact fun _ => id) (by simp [todo])).2, nofun⟩
  | directTotal t n hp => exact ⟨(key _ t _ rfl (by rw [hp]; exact fun _ => id) (by simp [todo])).1, rfl, nofun, (key _ t _ rfl (by rw [hp]; exact fun _ => id) (by simp [todo])).2, nofun⟩
  | lock t n hp hl => exact ⟨(key _ t _ rfl (by rw [hp]; exact fun _ => id) (by simp [todo])).1, rfl, nofun, (key _ t _ rfl (by rw [hp]; exact fun _ => id) (by simp [todo])).2, nofun⟩
  | check t n hp hu => exact ⟨(key _ t _ rfl (by rw [hp]; exact fun _ => id) (by simp [todo])).1, rfl, nofun, (key _ t _ rfl (by rw [hp]; exact fun _ => id) (by simp [todo])).2, nofun⟩
  | add t n hp => exact ⟨(key _ t _ rfl (by rw [hp]; exact fun _ => id) (by simp [todo])).1, rfl, nofun, (key _ t _ rfl (by rw [hp]; exact fun _ => id) (by simp [todo])).2, nofun⟩
  | unlock t n hp => exact ⟨(key _ t _ rfl (by rw [hp]; exact fun _ => id) (by simp [todo])).1, rfl, nofun, (key _ t _ rfl (by rw [hp]; exact fun _ => id) (by simp [todo])).2, nofun⟩
  | addTotal t n hp => exact ⟨(key _ t _ rfl (by rw [hp]; exact fun _ => id) (by simp [todo])).1, rfl, nofun, (key _ t _ rfl (by rw [hp]; exact fun _ => id) (by simp [todo])).2, nofun⟩
  | out t n hp =>
    refine ⟨(key _ t _ rfl (by rw [hp]; nofun) (by simp [todo])).1, rfl, nofun, (key _ t _ rfl (by rw [hp]; nofun) (by simp [todo])).2, ?_⟩
    intro i k e
    cases e
    exact ⟨by rw [hp]; rfl, by rw [go_pcs, if_pos rfl]; rfl⟩

/-- a step of the limiter in which something is written begins no call -/
theorem written_inside {s s' : RateLimit.State} {i n : Nat} (h : RateLimit.Step s (.written i n) s') : ∀ t, s.pcs t = .idle → s'.pcs t = .idle := by
  intro t e
  cases h with
  | direct _ _ hp =>
    rw [go_pcs]
    split
    · rename_i e'; subst e'; rw [hp] at e; cases e
    · exact e
  | out _ _ hp =>
    rw [go_pcs]
    split
    · rfl
    · exact e

theorem step_fits {E : Env} {σ σ' : State} {l : Option Label} (hf : Fits E σ) (h : Step E σ l σ') : Fits E σ' := by
  -- the connections other than `i` keep what they are doing
  have alone : ∀ (i : Nat) (c c' : Conn) (client' : Client), σ.client.conns[i]? = some c → client'.conns = σ.client.conns.set i c' →
      ∀ (lim' : RateLimit.State), (∀ n, todo (lim'.pcs i) ≠ some n) → (∀ j n, todo (lim'.pcs j) = some n → todo (σ.lim.pcs j) = some n) →
      ∀ j n, todo (lim'.pcs j) = some n → ∃ c m ms x, client'.conns[j]? = some c ∧ c.recv = .running ∧ c.todo = m :: ms ∧ toWrite E.s c.buf m = some x ∧ x.length = n := by
    intro i c c' client' hi e lim' hno hk j n hj
    obtain ⟨d, m, ms, x, h1, h2⟩ := hf.busy j n (hk j n hj)
    have hij : i ≠ j := by rintro rfl; exact hno n hj
    exact ⟨d, m, ms, x, by rw [e, List.getElem?_set_ne hij]; exact h1, h2⟩
  cases h with
  | others client' h hq =>
    refine ⟨fun i n hi => ?_, hf.noSet⟩
    obtain ⟨d, m, ms, x, h1, h2, h3, h4, h5⟩ := hf.busy i n hi
    obtain ⟨d', k1, k2, k3, k4⟩ := hq i d h1
    have same : d'.recv = d.recv ∧ d'.todo = d.todo ∧ d'.buf = d.buf := by
      rcases step_shape h with e | ⟨p, ptr, ph, out, e⟩ | ⟨j, b, b', hj, e, hch⟩
      · rw [e, h1] at k1; cases k1; exact ⟨rfl, rfl, rfl⟩
      · rw [e, List.getElem?_append_left (List.getElem?_eq_some_iff.mp h1).1, h1] at k1; cases k1; exact ⟨rfl, rfl, rfl⟩
      · by_cases hji : j = i
        · subst hji
          rw [h1] at hj
          cases hj
          rw [e, List.getElem?_set_self (List.getElem?_eq_some_iff.mp h1).1] at k1
          cases k1
          cases hch with
          | got _ hg => exact absurd k2 hg
          | handled m ms ok st r hr ht hh hx =>
            rcases hx with ⟨-, e'⟩ | ⟨-, e'⟩ | ⟨-, e'⟩
            · rw [e'] at k3
              have := congrArg List.length k3
              simp at this
            · rw [e', hr] at k4; cases k4
            · rw [e', hr] at k4; cases k4
          | other _ ht _ hr hb _ => exact ⟨hr, ht, hb⟩
        · rw [e, List.getElem?_set_ne hji, h1] at k1; cases k1; exact ⟨rfl, rfl, rfl⟩
    exact ⟨d', m, ms, x, k1, by rw [same.1, h2], by rw [same.2.1, h3], by rw [same.2.2]; exact h4, h5⟩
  | receive i c c' client' hi hl h hi' hg =>
    exact ⟨alone i c c' client' hi (step_at h hi hi' (.inl hg)).1 σ.lim (by rw [hl]; nofun) (fun _ _ => id), hf.noSet⟩
  | quiet i c c' m ms client' hi hl ht hw h hi' hm =>
    exact ⟨alone i c c' client' hi (step_at h hi hi' (.inr hm)).1 σ.lim (by rw [hl]; nofun) (fun _ _ => id), hf.noSet⟩
  | call i c m ms x hc hi hr hl ht hw =>
    refine ⟨fun j n hj => ?_, fun j => ?_⟩
    · simp only [go_pcs] at hj
      split at hj
      · rename_i e; subst e
        exact ⟨c, m, ms, x, hi, hr, ht, hw, Option.some.inj hj⟩
      · exact hf.busy j n hj
    · simp only [go_pcs]
      split
      · exact .inr (.inl ⟨_, rfl⟩)
      · exact hf.noSet j
  | limiter l lim' hc h hn hk =>
    obtain ⟨h1, -, -, h2, -⟩ := inside h hk hf.noSet
    exact ⟨fun j n hj => hf.busy j n (h1 j n hj), h2⟩
  | write i n c c' lim' client' hi hl h hi' hm =>
    obtain ⟨h1, -, -, h2, h3⟩ := inside hl (written_inside hl) hf.noSet
    exact ⟨alone i c c' client' hi (step_at h hi hi' (.inr hm)).1 lim' (by rw [(h3 i n rfl).2]; nofun) h1, h2⟩

theorem run_fits {E : Env} {σ₀ σ : State} {ls : List Label} (h : Run E σ₀ ls σ) (h0 : Fits E σ₀) : Fits E σ := by
  induction h with
  | nil => exact h0
  | other σ' σ'' ls h hs ih => exact step_fits ih hs
  | snoc σ' σ'' ls l h hs ih => exact step_fits ih hs

theorem initial_fits {E : Env} {o : Utils.Opts} {σ : State} (h : Initial E o σ) : Fits E σ := by
  obtain ⟨-, h, -⟩ := h
  exact ⟨by rw [h]; nofun, by rw [h]; exact fun _ => .inl rfl⟩

/-- the connections do what they can do without the limiter -/
theorem run_peers {E : Env} {σ₀ σ : State} {ls : List Label} (h : Run E σ₀ ls σ) : Reach (Peers.Step E) σ₀.client σ.client := by
  have one : ∀ {σ1 σ2 : State} {l : Option Label}, Step E σ1 l σ2 → Reach (Peers.Step E) σ1.client σ2.client := by
    intro σ1 σ2 l hs
    cases hs with
    | others _ h => exact .single h
    | receive _ _ _ _ _ _ h => exact .single h
    | quiet _ _ _ _ _ _ _ _ _ _ h => exact .single h
    | call => exact .refl
    | limiter => exact .refl
    | write _ _ _ _ _ _ _ _ h => exact .single h
  induction h with
  | nil => exact .refl
  | other σ' σ'' ls h hs ih => exact ih.trans (one hs)
  | snoc σ' σ'' ls l h hs ih => exact ih.trans (one hs)

/-- the limiter does what it can do by itself, and its limit stays -/
theorem run_lim {E : Env} {σ₀ σ : State} {ls : List Label} (h : Run E σ₀ ls σ) (h0 : Fits E σ₀) :
    RateLimit.Run σ₀.lim ls σ.lim ∧ σ.lim.rate = σ₀.lim.rate ∧ (∀ t v, Label.setRate t v ∉ ls) ∧ σ.rRate = σ₀.rRate := by
  induction h with
  | nil => exact ⟨.nil _, rfl, nofun, rfl⟩
  | other σ' σ'' ls h hs ih =>
    obtain ⟨h1, h2, h3, h4⟩ := ih
    cases hs <;> exact ⟨h1, h2, h3, h4⟩
  | snoc σ' σ'' ls l h hs ih =>
    obtain ⟨h1, h2, h3, h4⟩ := ih
    have hf := run_fits h h0
    have mem : (∀ t v, l ≠ .setRate t v) → ∀ t v, Label.setRate t v ∉ ls ++ [l] := by
      intro hl t v hm
      rcases List.mem_append.mp hm with hm | hm
      · exact h3 t v hm
      · exact hl t v (List.mem_singleton.mp hm).symm
    cases hs with
    | call i c m ms x hc hi hr hl ht hw => exact ⟨.snoc _ _ _ _ _ h1 (.call _ i _ hl), h2, mem nofun, h4⟩
    | limiter l lim' hc h hn hk =>
      obtain ⟨-, k1, k2, -, -⟩ := inside h hk hf.noSet
      exact ⟨.snoc _ _ _ _ _ h1 h, k1.trans h2, mem k2, h4⟩
    | write i n c c' lim' client' hi hl h hi' hm =>
      obtain ⟨-, k1, k2, -, -⟩ := inside hl (written_inside hl) hf.noSet
      exact ⟨.snoc _ _ _ _ _ h1 hl, k1.trans h2, mem k2, h4⟩

/-! ### what is written -/

/-- what is handed to the limiter is a block of the length that was asked for, from within the piece -/
theorem toWrite_wire {pl : Nat} {hashes : Bytes} {files : List EntryBase} {cs : List Bytes} {s : MsgHandler.Swarm} {st : St}
    (h : Running pl hashes files cs s st.buf) (w : Wire.Msg) (x : Bytes) (hx : toWrite s st.buf (received w) = some x) :
    ∃ i b l blk, w = .request i b l ∧ x = wire (.piece i b blk) ∧ blk.length = l.toNat ∧ b.toNat + l.toNat ≤ pl := by
  have no : st.out = st.out ++ [x] → False := by
    intro e
    have := congrArg List.length e
    simp at this
  have k := (((handleOne_toWrite s ⟨0, []⟩ true (received w) st).1 x hx).1 rfl).2.1
  cases w with
  | request i b l =>
    rw [show handleOne s ⟨0, []⟩ (fun _ => true) (received (.request i b l)) st = handleRequest s i b l true st from rfl, handleRequest_spec h i b l true] at k
    by_cases hi : i.toNat < s.tor.numPieces
    · rw [if_pos hi] at k
      by_cases hg : s.bf.Get i.toNat = .ok true
      · rw [if_pos hg] at k
        by_cases hl : b.toNat + l.toNat ≤ pl
        · rw [if_pos hl, if_pos rfl] at k
          have e := List.append_cancel_left k
          refine ⟨i, b, l, _, rfl, (List.singleton_inj.mp e).symm, ?_, hl⟩
          have := filled_length pl cs i.toNat st.buf h.buf
          simp only [range, List.length_take, List.length_drop]
          omega
        · rw [if_neg hl] at k; exact (no k).elim
      · rw [if_neg hg] at k; exact (no k).elim
    · rw [if_neg hi] at k
      repeat' split at k
      all_goals exact (no k).elim
  | _ => cases hx

theorem toWrite_length {pl : Nat} {hashes : Bytes} {files : List EntryBase} {cs : List Bytes} {s : MsgHandler.Swarm} {st : St}
    (h : Running pl hashes files cs s st.buf) (w : Wire.Msg) (x : Bytes) (hx : toWrite s st.buf (received w) = some x) : x.length ≤ pl + 13 := by
  obtain ⟨i, b, l, blk, -, rfl, h1, h2⟩ := toWrite_wire h w x hx
  have : (wire (.piece i b blk)).length = 13 + blk.length := by
    simp [wire, body, be32]
    omega
  omega

/-- the blocks on a connection are, in order, among those that its goroutine has written -/
theorem accounted {pl : Nat} {hashes : Bytes} {files : List EntryBase} {cs : List Bytes} {E : Env} (h : Ready pl hashes files cs E)
    (hn : E.s.tor.numPieces ≤ 2 ^ 32) {o : Utils.Opts} {σ₀ σ : State} {ls : List Label} (h0 : Initial E o σ₀) (hr : Run E σ₀ ls σ) :
    ∀ (i : Nat) (c : Conn), σ.client.conns[i]? = some c → ((c.out.filter isBlock).map List.length).Sublist ((ofThread i (writes ls)).map Prod.snd) := by
  -- steps in which no block is written
  have quiet : ∀ (σ' σ'' : State) (ls : List Label), Run E σ₀ ls σ' → Run E σ₀ ls σ'' →
      (∀ (i : Nat) (c : Conn), σ'.client.conns[i]? = some c → ((c.out.filter isBlock).map List.length).Sublist ((ofThread i (writes ls)).map Prod.snd)) →
      Peers.Step E σ'.client σ''.client →
      (∀ (j : Nat) (c c' : Conn), σ'.client.conns[j]? = some c → σ''.client.conns[j]? = some c' → Change E σ'.client c c' → c'.out.filter isBlock = c.out.filter isBlock) →
      ∀ (i : Nat) (c : Conn), σ''.client.conns[i]? = some c → ((c.out.filter isBlock).map List.length).Sublist ((ofThread i (writes ls)).map Prod.snd) := by
    intro σ' σ'' ls r1 r2 ih hs hq i c hi
    rcases step_shape hs with e | ⟨p, ptr, ph, out, e⟩ | ⟨j, b, b', hj, e, hch⟩
    · rw [e] at hi; exact ih i c hi
    · rw [e] at hi
      rcases Nat.lt_or_ge i σ'.client.conns.length with hlt | hge
      · rw [List.getElem?_append_left hlt] at hi; exact ih i c hi
      · have hm : c ∈ [newConn p ptr ph out] := by
          rw [List.getElem?_append_right hge] at hi; exact List.mem_of_getElem? hi
        have hmem : c ∈ σ''.client.conns := by rw [e]; exact List.mem_append_right _ hm
        obtain ⟨l, l1, l2, -⟩ := C76_asked h hn _ _ h0.1 (run_peers r2) c hmem
        rw [List.mem_singleton.mp hm] at l1
        have : l = [] := by
          cases l with
          | nil => rfl
          | cons a l => simp [newConn] at l1
        rw [l2, this]
        exact List.nil_sublist _
    · by_cases hji : j = i
      · subst hji
        have e' := hi
        rw [e, List.getElem?_set_self (List.getElem?_eq_some_iff.mp hj).1] at e'
        cases e'
        rw [hq j b _ hj hi hch]
        exact ih j b hj
      · rw [e, List.getElem?_set_ne hji] at hi; exact ih i c hi
  have hf0 := initial_fits h0
  induction hr with
  | nil => rw [h0.1.2.1]; intro i c hi; simp at hi
  | other σ' σ'' ls hr hs ih =>
    have hr2 := Run.other _ _ _ _ hr hs
    cases hs with
    | others client' hs hq =>
      refine quiet _ _ _ hr hr2 ih hs ?_
      intro j c c' hj hj' hch
      obtain ⟨c'', k1, k2, k3, k4⟩ := hq j c hj
      rw [hj'] at k1
      cases k1
      cases hch with
      | got _ hg => exact absurd k2 hg
      | handled m ms ok st r hr ht hh hx =>
        rcases hx with ⟨-, e'⟩ | ⟨-, e'⟩ | ⟨-, e'⟩
        · rw [e'] at k3
          have := congrArg List.length k3
          simp at this
        · rw [e', hr] at k4; cases k4
        · rw [e', hr] at k4; cases k4
      | other _ _ _ _ _ ho => exact ho
    | receive i c c' client' hi hl hs hi' hg =>
      have hat := (step_at hs hi hi' (.inl hg))
      refine quiet _ _ _ hr hr2 ih hs ?_
      intro j d d' hj hj' hch
      by_cases hji : j = i
      · subst hji
        rw [hi] at hj; cases hj
        rw [hi'] at hj'; cases hj'
        cases hch with
        | got _ _ _ ho _ => rw [ho]
        | handled m ms ok st r hr ht hh hx => rcases hx with ⟨-, e'⟩ | ⟨-, e'⟩ | ⟨-, e'⟩ <;> (rw [e'] at hg; exact absurd rfl hg)
        | other hg' => exact absurd hg' hg
      · rw [hat.1, List.getElem?_set_ne (Ne.symm hji), hj] at hj'; cases hj'; rfl
    | quiet i c c' m ms client' hi hl ht hw hs hi' hm =>
      have hat := (step_at hs hi hi' (.inr hm))
      refine quiet _ _ _ hr hr2 ih hs ?_
      intro j d d' hj hj' hch
      by_cases hji : j = i
      · subst hji
        rw [hi] at hj; cases hj
        rw [hi'] at hj'; cases hj'
        cases hch with
        | got _ _ _ ho _ => rw [ho]
        | handled m' ms' ok st r hr ht' hh hx =>
          rw [ht] at ht'
          cases ht'
          have hout : st.out = c.out := by
            have := (handleOne_toWrite E.s c.me ok m (c.st σ'.client.ppt)).2 hw
            rw [hh] at this
            exact this
          rcases hx with ⟨-, e'⟩ | ⟨-, e'⟩ | ⟨-, e'⟩ <;> (rw [e']; show st.out.filter _ = _; rw [hout])
        | other _ _ _ _ _ ho => exact ho
      · rw [hat.1, List.getElem?_set_ne (Ne.symm hji), hj] at hj'; cases hj'; rfl
  | snoc σ' σ'' ls l hr hs ih =>
    have hf := run_fits hr hf0
    have grow : ∀ i, ((ofThread i (writes ls)).map Prod.snd).Sublist ((ofThread i (writes (ls ++ [l]))).map Prod.snd) := by
      intro i
      rw [writes_append, ofThread_append, List.map_append]
      exact List.sublist_append_left _ _
    cases hs with
    | call i c m ms x hc hi hr hl ht hw => exact fun j d hj => (ih j d hj).trans (grow j)
    | limiter l lim' hc h hn hk => exact fun j d hj => (ih j d hj).trans (grow j)
    | write i n c c' lim' client' hi hl hs hi' hm =>
      obtain ⟨hat, hch⟩ := step_at hs hi hi' (.inr hm)
      obtain ⟨-, -, -, -, h3⟩ := inside hl (written_inside hl) hf.noSet
      obtain ⟨d, m, ms, x, k1, k2, k3, k4, k5⟩ := hf.busy i n (h3 i n rfl).1
      rw [hi] at k1
      cases k1
      intro j d hj
      by_cases hji : j = i
      · subst hji
        rw [hi'] at hj
        cases hj
        rw [writes_append, ofThread_append, List.map_append]
        have e1 : (ofThread j (writes [Label.written j n])).map Prod.snd = [n] := by simp [writes, ofThread]
        rw [e1]
        cases hch with
        | got ht => rw [k3] at ht; cases ht
        | handled m' ms' ok st r hr' ht' hh hx =>
          rw [k3] at ht'
          cases ht'
          obtain ⟨w1, w2⟩ := (handleOne_toWrite E.s c.me ok m (c.st σ'.client.ppt)).1 x k4
          have hout : c'.out = st.out := by rcases hx with ⟨-, e'⟩ | ⟨-, e'⟩ | ⟨-, e'⟩ <;> (rw [e']; rfl)
          rw [hout]
          cases ok with
          | true =>
            have := (w1 rfl).2.1
            rw [hh] at this
            rw [show st.out = c.out ++ [x] from this, List.filter_append, List.map_append]
            refine (ih j c hi).append ?_
            by_cases hb : isBlock x = true
            · rw [List.filter_cons_of_pos hb]; simp [k5]
            · rw [List.filter_cons_of_neg hb]; exact List.nil_sublist _
          | false =>
            have := (w2 rfl).2
            rw [hh] at this
            rw [show st.out = c.out from this]
            exact (ih j c hi).trans (List.sublist_append_left _ _)
        | other _ _ hh hr' => rcases hm with hm | hm
                              · exact absurd hh hm
                              · exact absurd hr' hm
      · rw [hat, List.getElem?_set_ne (Ne.symm hji)] at hj
        exact (ih j d hj).trans (grow j)

/-! ### the sum of all blocks -/

/-- the size of the write that a goroutine is busy with -/
def pcSize : Pc → Option Nat
  | .start n | .direct n | .directUsed n | .directTotal n | .wantLock n | .spin n | .admit n | .unlock n | .addTotal n | .out n => some n
  | _ => none

theorem size_step {s s' : RateLimit.State} {l : Label} (h : RateLimit.Step s l s') (hk : ∀ t, s.pcs t = .idle → s'.pcs t = .idle) :
    (∀ t n, pcSize (s'.pcs t) = some n → pcSize (s.pcs t) = some n) ∧ ∀ t n, l = .admit t n → pcSize (s.pcs t) = some n := by
  have key : ∀ (s1 : RateLimit.State) (t : Nat) (pc : Pc), s1.pcs = s.pcs → (∀ n, pcSize pc = some n → pcSize (s.pcs t) = some n) →
      ∀ i n, pcSize ((s1.go t pc).pcs i) = some n → pcSize (s.pcs i) = some n := by
    intro s1 t pc e h1 i n
    rw [go_pcs]
    split
    · rename_i e'; subst e'; exact h1 n
    · rw [e]; exact id
  cases h with
  | call t n hp => have := hk t hp; rw [go_pcs, if_pos rfl] at this; cases this
  | setCall t v hp => have := hk t hp; rw [go_pcs, if_pos rfl] at this; cases this
  | tick => exact ⟨fun _ _ => id, nofun⟩
  | directUsed t n hp => exact ⟨key _ t _ rfl (by rw [hp]; exact fun _ => id), by intro i k e; cases e; rw [hp]; rfl⟩
  | add t n hp => exact ⟨key _ t _ rfl (by rw [hp]; exact fun _ => id), by intro i k e; cases e; rw [hp]; rfl⟩
  | setLock t v hp hl => exact ⟨key _ t _ rfl nofun, nofun⟩
  | setStore t v hp => exact ⟨key _ t _ rfl nofun, nofun⟩
  | setUnlock t hp => exact ⟨key _ t _ rfl nofun, nofun⟩
  | directTotal t n hp => exact ⟨key _ t _ rfl nofun, nofun⟩
  | out t n hp => exact ⟨key _ t _ rfl nofun, nofun⟩
  | unlimited t n hp _ => exact ⟨key _ t _ rfl (by rw [hp]; exact fun _ => id), nofun⟩
  | limited t n hp _ => exact ⟨key _ t _ rfl (by rw [hp]; exact fun _ => id), nofun⟩
  | direct t n hp => exact ⟨key _ t _ rfl (by rw [hp]; exact fun _ => id), nofun⟩
  | lock t n hp _ => exact ⟨key _ t _ rfl (by rw [hp]; exact fun _ => id), nofun⟩
  | check t n hp _ => exact ⟨key _ t _ rfl (by rw [hp]; exact fun _ => id), nofun⟩
  | unlock t n hp => exact ⟨key _ t _ rfl (by rw [hp]; exact fun _ => id), nofun⟩
  | addTotal t n hp => exact ⟨key _ t _ rfl (by rw [hp]; exact fun _ => id), nofun⟩

theorem run_sizes {pl : Nat} {hashes : Bytes} {files : List EntryBase} {cs : List Bytes} {E : Env} (h : Ready pl hashes files cs E)
    (hn : E.s.tor.numPieces ≤ 2 ^ 32) {o : Utils.Opts} {σ₀ σ : State} {ls : List Label} (h0 : Initial E o σ₀) (hr : Run E σ₀ ls σ) :
    (∀ t n, pcSize (σ.lim.pcs t) = some n → n ≤ pl + 13) ∧ ∀ t n, Label.admit t n ∈ ls → n ≤ pl + 13 := by
  induction hr with
  | nil => rw [h0.2.1]; exact ⟨nofun, nofun⟩
  | other σ' σ'' ls hr hs ih => cases hs <;> exact ih
  | snoc σ' σ'' ls l hr hs ih =>
    obtain ⟨i1, i2⟩ := ih
    have lims : ∀ lim', RateLimit.Step σ'.lim l lim' → (∀ t, σ'.lim.pcs t = .idle → lim'.pcs t = .idle) →
        (∀ t n, pcSize (lim'.pcs t) = some n → n ≤ pl + 13) ∧ ∀ t n, Label.admit t n ∈ ls ++ [l] → n ≤ pl + 13 := by
      intro lim' hs hk
      obtain ⟨h1, h2⟩ := size_step hs hk
      refine ⟨fun t n ht => i1 t n (h1 t n ht), fun t n ht => ?_⟩
      rcases List.mem_append.mp ht with ht | ht
      · exact i2 t n ht
      · exact i1 t n (h2 t n (List.mem_singleton.mp ht).symm)
    cases hs with
    | call i c m ms x hc hi hr' hl ht hw =>
      have hok := ((reach_sound h hn h0.1 (run_peers hr)).1 hc).conns c (List.mem_of_getElem? hi)
      obtain ⟨-, hm⟩ := hok.todo m (by rw [ht]; simp)
      rw [hm] at hw
      have hx := toWrite_length (st := c.st σ'.client.ppt) (h.run.withBuf hok.buf) m.view x hw
      refine ⟨fun t n => ?_, fun t n ht => ?_⟩
      · show pcSize ((σ'.lim.go i _).pcs t) = some n → _
        rw [go_pcs]
        split
        · intro e; cases e; exact hx
        · exact i1 t n
      · rcases List.mem_append.mp ht with ht | ht
        · exact i2 t n ht
        · cases List.mem_singleton.mp ht
    | limiter l lim' hc hs hn hk => exact lims lim' hs hk
    | write i n c c' lim' client' hi hl hs hi' hm => exact lims lim' hl (written_inside hl)

/-- what is admitted in all -/
theorem total_admitted (r M : Nat) (s : RateLimit.State) (ls : List Label) (h : RateLimit.Run (init r) ls s) (hset : ∀ t v, Label.setRate t v ∉ ls)
    (hM : ∀ t n, Label.admit t n ∈ ls → n ≤ M) (hb : r + M < 2 ^ 63) :
    (admitted ls).sum ≤ ticks ls * (r + M) + (admitted (sinceTick ls)).sum ∧ (admitted (sinceTick ls)).sum ≤ r + M := by
  have mem : ∀ (ls : List Label) (n : Nat), n ∈ admitted ls → ∃ t, Label.admit t n ∈ ls := by
    intro ls n hn
    induction ls with
    | nil => cases hn
    | cons l ls ih =>
      cases l with
      | admit t k =>
        rcases List.mem_cons.mp hn with rfl | hn
        · exact ⟨t, List.mem_cons_self ..⟩
        · obtain ⟨t, ht⟩ := ih hn; exact ⟨t, List.mem_cons_of_mem _ ht⟩
      | _ => obtain ⟨t, ht⟩ := ih hn; exact ⟨t, List.mem_cons_of_mem _ ht⟩
  have since : ∀ (ls : List Label) (l : Label), l ∈ sinceTick ls → l ∈ ls := by
    intro ls l
    induction ls with
    | nil => exact id
    | cons a ls ih =>
      unfold sinceTick
      split
      · exact fun h => List.mem_cons_of_mem _ (ih h)
      · split
        · exact fun h => List.mem_cons_of_mem _ h
        · exact id
  have window : ∀ (ls : List Label) (s : RateLimit.State), RateLimit.Run (init r) ls s → (∀ t v, Label.setRate t v ∉ ls) → (∀ t n, Label.admit t n ∈ ls → n ≤ M) →
      (admitted (sinceTick ls)).sum ≤ r + M := by
    intro ls s h hset hM
    rcases (C53_window r s ls h hset (fun t n hm => by have := hM t n hm; omega)).2 with e | ⟨n, hn, hlt⟩
    · rw [e]; simp
    · obtain ⟨t, ht⟩ := mem _ _ hn
      have := hM t n (since _ _ ht)
      omega
  refine ⟨?_, window ls s h hset hM⟩
  suffices H : ∀ (s0 : RateLimit.State) (ls : List Label) (s : RateLimit.State), RateLimit.Run s0 ls s → s0 = init r → (∀ t v, Label.setRate t v ∉ ls) →
      (∀ t n, Label.admit t n ∈ ls → n ≤ M) → (admitted ls).sum ≤ ticks ls * (r + M) + (admitted (sinceTick ls)).sum from H _ _ _ h rfl hset hM
  intro s0 ls s h
  induction h with
  | nil => intro _ _ _; simp [admitted]
  | snoc s1 s2 ls l hr hs ih =>
    intro e hset hM
    have h1 := ih e (fun t v hm => hset t v (List.mem_append_left _ hm)) (fun t n hm => hM t n (List.mem_append_left _ hm))
    subst e
    have h2 := window ls _ hr (fun t v hm => hset t v (List.mem_append_left _ hm)) (fun t n hm => hM t n (List.mem_append_left _ hm))
    rw [ticks_snoc, sinceTick_snoc, admitted_append, List.sum_append]
    by_cases ht : l = .tick
    · subst ht
      rw [if_pos rfl, if_pos rfl]
      simp only [admitted, List.sum_nil]
      rw [Nat.add_mul]
      omega
    · rw [if_neg ht, if_neg ht, admitted_append, List.sum_append]
      simp only [Nat.add_zero]
      omega

theorem sum_threads {α : Type} (f : α → Nat) (xs : List (Nat × Nat)) : ∀ (cs : List α) (k : Nat),
    (∀ (j : Nat) (c : α), cs[j]? = some c → f c ≤ ((ofThread (k + j) xs).map Prod.snd).sum) →
    (cs.map f).sum ≤ ((xs.filter fun x => decide (k ≤ x.1)).map Prod.snd).sum := by
  have split : ∀ k, ((xs.filter fun x => decide (k ≤ x.1)).map Prod.snd).sum =
      ((ofThread k xs).map Prod.snd).sum + ((xs.filter fun x => decide (k + 1 ≤ x.1)).map Prod.snd).sum := by
    intro k
    unfold ofThread
    induction xs with
    | nil => rfl
    | cons x xs ih =>
      by_cases h1 : x.1 = k
      · have h3 : ¬ k + 1 ≤ k := by omega
        simp [h1, h3, ih]
        omega
      · by_cases h2 : k ≤ x.1
        · have h3 : k + 1 ≤ x.1 := by omega
          simp [h1, h2, h3, ih]
          omega
        · have h3 : ¬ k + 1 ≤ x.1 := by omega
          simp [h1, h2, h3, ih]
  intro cs
  induction cs with
  | nil => intro k _; simp
  | cons c cs ih =>
    intro k h
    have h1 := h 0 c rfl
    have h2 := ih (k + 1) (fun j d hj => by have := h (j + 1) d (by simpa using hj); rwa [show k + (j + 1) = k + 1 + j from by omega] at this)
    rw [split k, List.map_cons, List.sum_cons]
    simp only [Nat.add_zero] at h1
    omega

theorem sublist_sum {a b : List Nat} (h : a.Sublist b) : a.sum ≤ b.sum := by
  induction h with
  | slnil => simp
  | cons _ _ ih => simp only [List.sum_cons]; omega
  | cons_cons _ _ ih => simp only [List.sum_cons]; omega

/-- with a limit, what was written was admitted before -/
theorem written_admitted {r : Nat} {s : RateLimit.State} {ls : List Label} (h : RateLimit.Run (init r) ls s) (hd : ∀ t, isDirect (s.pcs t) = false) (t : Nat) :
    (ofThread t (writes ls)).Sublist (ofThread t (admits ls)) := by
  have e := written_run h t
  have : early t (s.pcs t) = [] := by
    have := hd t
    cases hp : s.pcs t <;> rw [hp] at this <;> first | rfl | cases this
  rw [this, List.append_nil] at e
  rw [e]
  exact List.sublist_append_left _ _

/-- **C102**, the limit for sending: after any number of seconds, however many peers there are and whatever they do, no more blocks have been sent than the limit allows, up to one block
for each second.  (For limits below 2^63 by more than a block.) -/
theorem C102_blocks_partial {pl : Nat} {hashes : Bytes} {files : List EntryBase} {cs : List Bytes} {E : Env} (h : Ready pl hashes files cs E)
    (hn : E.s.tor.numPieces ≤ 2 ^ 32) (o : Utils.Opts) (r : Nat) (ho : o.uplim = r) (hb : r + (pl + 13) < 2 ^ 63) (σ₀ σ : State) (ls : List Label)
    (h0 : Initial E o σ₀) (hr : Run E σ₀ ls σ) : blockBytes σ.client.conns ≤ (ticks ls + 1) * (r + (pl + 13)) := by
  obtain ⟨hl, -, hset, -⟩ := run_lim hr (initial_fits h0)
  rw [h0.2.1, ho, show clamp (r : Int) = r from by unfold clamp NoLimit; rw [if_neg (by omega)]] at hl
  have hsz := (run_sizes h hn h0 hr).2
  obtain ⟨h1, h2⟩ := total_admitted r (pl + 13) _ _ hl hset hsz hb
  have hlim := limited_run hl hset (fun t n hm => by have := hsz t n hm; omega)
  have h3 : blockBytes σ.client.conns ≤ ((admits ls).map Prod.snd).sum := by
    refine Nat.le_trans (sum_threads _ (admits ls) σ.client.conns 0 ?_) (sublist_sum (List.Sublist.map _ List.filter_sublist))
    intro j c hj
    rw [Nat.zero_add]
    exact Nat.le_trans (sublist_sum (accounted h hn h0 hr j c hj)) (sublist_sum (List.Sublist.map _ (written_admitted hl hlim.nodirect j)))
  rw [admits_sizes] at h3
  rw [Nat.add_mul]
  omega

/-- **C102**, the limit 0: with it no block is ever sent to anybody. -/
theorem C102_zero {pl : Nat} {hashes : Bytes} {files : List EntryBase} {cs : List Bytes} {E : Env} (h : Ready pl hashes files cs E)
    (hn : E.s.tor.numPieces ≤ 2 ^ 32) (o : Utils.Opts) (ho : o.uplim = 0) (hb : pl + 13 < 2 ^ 63) (σ₀ σ : State) (ls : List Label)
    (h0 : Initial E o σ₀) (hr : Run E σ₀ ls σ) (c : Conn) (hm : c ∈ σ.client.conns) (x : Bytes) (hx : x ∈ c.out) : isBlock x = false := by
  obtain ⟨hl, -, hset, -⟩ := run_lim hr (initial_fits h0)
  rw [h0.2.1, ho, show clamp (0 : Int) = ((0 : Nat) : Int) from rfl] at hl
  have hsz := (run_sizes h hn h0 hr).2
  have hlim := limited_run hl hset (fun t n hm => by have := hsz t n hm; omega)
  have none : admitted ls = [] := by
    suffices H : ∀ (s0 : RateLimit.State) (ls : List Label) (s : RateLimit.State), RateLimit.Run s0 ls s → s0 = init ((0 : Nat) : Int) → (∀ t v, Label.setRate t v ∉ ls) →
        (∀ t n, Label.admit t n ∈ ls → n ≤ pl + 13) → admitted ls = [] from H _ _ _ hl rfl hset hsz
    intro s0 ls s h
    induction h with
    | nil => intro _ _ _; rfl
    | snoc s1 s2 ls l hr hs ih =>
      intro e hset hM
      have h1 := ih e (fun t v hm => hset t v (List.mem_append_left _ hm)) (fun t n hm => hM t n (List.mem_append_left _ hm))
      rw [admitted_append, h1, List.nil_append]
      subst e
      cases l with
      | admit t n =>
        have := (C53_window 0 _ _ (.snoc _ _ _ _ _ hr hs) hset (fun t n hm => by have := hM t n hm; omega)).1 (admitted (sinceTick ls)) n
          (by rw [sinceTick_snoc, if_neg (by simp), admitted_append]; rfl)
        omega
      | _ => rfl
  obtain ⟨i, hi⟩ := List.mem_iff_getElem?.mp hm
  have hacc := accounted h hn h0 hr i c hi
  have hw : ofThread i (writes ls) = [] := by
    have h1 := written_admitted hl hlim.nodirect i
    have h2 : admits ls = [] := by
      have := admits_sizes ls
      rw [none] at this
      exact List.map_eq_nil_iff.mp this
    rw [h2] at h1
    exact List.sublist_nil.mp h1
  rw [hw] at hacc
  have h4 := List.map_eq_nil_iff.mp (List.sublist_nil.mp hacc)
  cases hb' : isBlock x with
  | false => rfl
  | true =>
    have : x ∈ c.out.filter isBlock := List.mem_filter.mpr ⟨hx, hb'⟩
    rw [h4] at this
    cases this

/-! ### nobody is held up by a peer that does not read -/

theorem Run.trans {E : Env} {σ σ' σ'' : State} {a b : List Label} (h : Run E σ a σ') (h2 : Run E σ' b σ'') : Run E σ (a ++ b) σ'' := by
  induction h2 with
  | nil => rw [List.append_nil]; exact h
  | other σ1 σ2 ls _ hs ih => exact .other _ _ _ _ ih hs
  | snoc σ1 σ2 ls l _ hs ih => rw [← List.append_assoc]; exact .snoc _ _ _ _ _ ih hs

/-- steps inside of calls, without writing, and ticks -/
inductive Inner : RateLimit.State → List Label → RateLimit.State → Prop
  | nil (s : RateLimit.State) : Inner s [] s
  | step (s s' s'' : RateLimit.State) (l : Label) (ls : List Label) (h : RateLimit.Step s l s') (hn : ∀ t n, l ≠ .written t n)
      (hk : ∀ t, s.pcs t = .idle → s'.pcs t = .idle) (h2 : Inner s' ls s'') : Inner s (l :: ls) s''

theorem Inner.trans {s s' s'' : RateLimit.State} {a b : List Label} (h : Inner s a s') (h2 : Inner s' b s'') : Inner s (a ++ b) s'' := by
  induction h with
  | nil => exact h2
  | step s s1 s2 l ls h hn hk _ ih => exact .step _ _ _ _ _ h hn hk (ih h2)

theorem Inner.lift {E : Env} {s s' : RateLimit.State} {ls : List Label} (h : Inner s ls s') (client : Client) (q : Int) (hc : client.crashed = false) :
    Run E ⟨client, s, q⟩ ls ⟨client, s', q⟩ := by
  induction h with
  | nil => exact .nil _
  | step s s1 s2 l ls h hn hk _ ih => exact Run.trans (a := [l]) (.snoc _ _ _ _ _ (.nil _) (.limiter l _ hc h hn hk)) ih

theorem Inner.noWrite {s s' : RateLimit.State} {ls : List Label} (h : Inner s ls s') : ∀ t n, Label.written t n ∉ ls := by
  induction h with
  | nil => nofun
  | step s s1 s2 l ls h hn hk _ ih =>
    intro t n hm
    rcases List.mem_cons.mp hm with e | hm
    · exact hn t n e.symm
    · exact ih t n hm

theorem go_idle {s : RateLimit.State} {t : Nat} {pc : Pc} (hp : s.pcs t ≠ .idle) (s1 : RateLimit.State) (e : s1.pcs = s.pcs) :
    ∀ u, s.pcs u = .idle → (s1.go t pc).pcs u = .idle := by
  intro u hu
  rw [go_pcs, if_neg (by rintro rfl; exact hp hu), e]
  exact hu

theorem Inner.go {s s1 s' : RateLimit.State} {t : Nat} {pc : Pc} {l : Label} {ls : List Label} (h : RateLimit.Step s l (s1.go t pc)) (e : s1.pcs = s.pcs) (hp : s.pcs t ≠ .idle)
    (hn : ∀ t n, l ≠ .written t n) (h2 : Inner (s1.go t pc) ls s') : Inner s (l :: ls) s' := .step _ _ _ _ _ h hn (go_idle hp s1 e) h2

theorem Inner.tick {s s' : RateLimit.State} {ls : List Label} (h2 : Inner { s with used := 0 } ls s') : Inner s (.tick :: ls) s' :=
  .step _ _ _ _ _ (.tick s) nofun (fun _ => id) h2

theorem Inner.unlock {s : RateLimit.State} {t n : Nat} (hp : s.pcs t = .unlock n) :
    ∃ ls s', Inner s ls s' ∧ s'.lock = none ∧ s'.rate = s.rate ∧ s'.pcs t = .addTotal n ∧ ∀ u, u ≠ t → s'.pcs u = s.pcs u :=
  ⟨_, _, .go (.unlock s t n hp) rfl (by simp [hp]) nofun (.nil _), rfl, rfl, by rw [go_pcs, if_pos rfl], fun u hu => by rw [go_pcs, if_neg hu]⟩

theorem Inner.add {s : RateLimit.State} {t n : Nat} (hp : s.pcs t = .admit n) :
    ∃ ls s', Inner s ls s' ∧ s'.lock = none ∧ s'.rate = s.rate ∧ s'.pcs t = .addTotal n ∧ ∀ u, u ≠ t → s'.pcs u = s.pcs u := by
  obtain ⟨ls, s', h1, h2, h3, h4, h5⟩ := Inner.unlock (s := { s with used := wrap64 (s.used + n) }.go t (.unlock n)) (t := t) (n := n) (by rw [go_pcs, if_pos rfl])
  exact ⟨_, s', .go (.add s t n hp) rfl (by simp [hp]) nofun h1, h2, h3, h4, fun u hu => by rw [h5 u hu, go_pcs, if_neg hu]⟩

theorem Inner.spin {s : RateLimit.State} (hr : 0 < s.rate) {t n : Nat} (hp : s.pcs t = .spin n) :
    ∃ ls s', Inner s ls s' ∧ s'.lock = none ∧ s'.rate = s.rate ∧ s'.pcs t = .addTotal n ∧ ∀ u, u ≠ t → s'.pcs u = s.pcs u := by
  obtain ⟨ls, s', h1, h2, h3, h4, h5⟩ := Inner.add (s := ({ s with used := 0 } : RateLimit.State).go t (.admit n)) (t := t) (n := n) (by rw [go_pcs, if_pos rfl])
  exact ⟨_, s', .tick (.go (.check { s with used := 0 } t n hp hr) rfl (by simp [hp]) nofun h1), h2, h3, h4, fun u hu => by rw [h5 u hu, go_pcs, if_neg hu]⟩

/-- whoever has the lock can give it back -/
theorem freed {s : RateLimit.State} (he : Excl s) (hr : 0 < s.rate)
    (hs : ∀ i, s.pcs i = .idle ∨ (∃ n, todo (s.pcs i) = some n) ∨ ∃ n, s.pcs i = .directUsed n ∨ s.pcs i = .directTotal n) :
    ∃ ls s', Inner s ls s' ∧ s'.lock = none ∧ s'.rate = s.rate ∧ ∀ t, (holds (s.pcs t) = false ∧ s'.pcs t = s.pcs t) ∨ ∃ n, holds (s.pcs t) = true ∧ todo (s.pcs t) = some n ∧ s'.pcs t = .addTotal n := by
  have keep : ∀ (s2 : RateLimit.State) (t n : Nat), s.lock = some t → holds (s.pcs t) = true → todo (s.pcs t) = some n → (∀ u, u ≠ t → s2.pcs u = s.pcs u) → s2.pcs t = .addTotal n →
      ∀ u, (holds (s.pcs u) = false ∧ s2.pcs u = s.pcs u) ∨ ∃ n, holds (s.pcs u) = true ∧ todo (s.pcs u) = some n ∧ s2.pcs u = .addTotal n := by
    intro s2 t n hlt h1 h2 h3 h4 u
    by_cases hu : u = t
    · subst hu; exact .inr ⟨n, h1, h2, h4⟩
    · refine .inl ⟨?_, h3 u hu⟩
      cases hh : holds (s.pcs u) with
      | false => rfl
      | true => exact absurd (Option.some.inj (((he u).mp hh).symm.trans hlt)) hu
  cases hl : s.lock with
  | none =>
    refine ⟨[], s, .nil _, hl, rfl, fun u => .inl ⟨?_, rfl⟩⟩
    cases hh : holds (s.pcs u) with
    | false => rfl
    | true => have := (he u).mp hh; rw [hl] at this; cases this
  | some t =>
    have ht := (he t).mpr hl
    cases hp : s.pcs t with
    | spin n =>
      obtain ⟨ls, s', h1, h2, h3, h4, h5⟩ := Inner.spin hr hp
      exact ⟨ls, s', h1, h2, h3, keep s' t n hl ht (by rw [hp]; rfl) h5 h4⟩
    | admit n =>
      obtain ⟨ls, s', h1, h2, h3, h4, h5⟩ := Inner.add hp
      exact ⟨ls, s', h1, h2, h3, keep s' t n hl ht (by rw [hp]; rfl) h5 h4⟩
    | unlock n =>
      obtain ⟨ls, s', h1, h2, h3, h4, h5⟩ := Inner.unlock hp
      exact ⟨ls, s', h1, h2, h3, keep s' t n hl ht (by rw [hp]; rfl) h5 h4⟩
    | setHold w => rcases hs t with e | ⟨n, e⟩ | ⟨n, e | e⟩ <;> rw [hp] at e <;> cases e
    | setUnlock => rcases hs t with e | ⟨n, e⟩ | ⟨n, e | e⟩ <;> rw [hp] at e <;> cases e
    | _ => rw [hp] at ht; cases ht

/-- whoever wants the lock can have their write admitted when it is free -/
theorem admitOne {s : RateLimit.State} (hr : 0 < s.rate) (i n : Nat) (hl : s.lock = none) (hp : s.pcs i = .wantLock n) :
    ∃ ls s', Inner s ls s' ∧ s'.pcs i = .out n ∧ s'.lock = none ∧ s'.rate = s.rate ∧ ∀ t, t ≠ i → s'.pcs t = s.pcs t := by
  obtain ⟨ls, s', h1, h2, h3, h4, h5⟩ := Inner.spin (s := { s with lock := some i }.go i (.spin n)) hr (t := i) (n := n) (by rw [go_pcs, if_pos rfl])
  refine ⟨_, _, .go (.lock s i n hp hl) rfl (by simp [hp]) nofun (h1.trans (.go (.addTotal s' i n h4) rfl (by simp [h4]) nofun (.nil _))), by rw [go_pcs, if_pos rfl], h2, h3, ?_⟩
  intro t ht
  rw [go_pcs, if_neg ht]
  show s'.pcs t = _
  rw [h5 t ht, go_pcs, if_neg ht]

/-- limited and unlimited writes do not come together -/
theorem modes {E : Env} {o : Utils.Opts} {σ₀ σ : State} {ls : List Label} (h0 : Initial E o σ₀) (hr : Run E σ₀ ls σ) :
    (σ.lim.rate = NoLimit → ∀ t, σ.lim.pcs t = .idle ∨ (∃ n, σ.lim.pcs t = .start n) ∨ isDirect (σ.lim.pcs t) = true) ∧
    (σ.lim.rate ≠ NoLimit → ∀ t, isDirect (σ.lim.pcs t) = false) := by
  have one : ∀ (s s' : RateLimit.State) (l : Label), RateLimit.Step s l s' → s'.rate = s.rate →
      (∀ i, s'.pcs i = .idle ∨ (∃ n, todo (s'.pcs i) = some n) ∨ ∃ n, s'.pcs i = .directUsed n ∨ s'.pcs i = .directTotal n) →
      ((s.rate = NoLimit → ∀ t, s.pcs t = .idle ∨ (∃ n, s.pcs t = .start n) ∨ isDirect (s.pcs t) = true) ∧ (s.rate ≠ NoLimit → ∀ t, isDirect (s.pcs t) = false)) →
      (s'.rate = NoLimit → ∀ t, s'.pcs t = .idle ∨ (∃ n, s'.pcs t = .start n) ∨ isDirect (s'.pcs t) = true) ∧ (s'.rate ≠ NoLimit → ∀ t, isDirect (s'.pcs t) = false) := by
    intro s s' l h hrate hns ih
    rw [hrate]
    have key : ∀ (s1 : RateLimit.State) (t : Nat) (pc : Pc), s1.pcs = s.pcs →
        (s.rate = NoLimit → pc = .idle ∨ (∃ n, pc = .start n) ∨ isDirect pc = true) → (s.rate ≠ NoLimit → isDirect pc = false) →
        (s.rate = NoLimit → ∀ u, (s1.go t pc).pcs u = .idle ∨ (∃ n, (s1.go t pc).pcs u = .start n) ∨ isDirect ((s1.go t pc).pcs u) = true) ∧
        (s.rate ≠ NoLimit → ∀ u, isDirect ((s1.go t pc).pcs u) = false) := by
      intro s1 t pc e h1 h2
      refine ⟨fun k u => ?_, fun k u => ?_⟩
      · rw [go_pcs]
        split
        · exact h1 k
        · rw [e]; exact ih.1 k u
      · rw [go_pcs]
        split
        · exact h2 k
        · rw [e]; exact ih.2 k u
    have bad : ∀ (t : Nat) (pc : Pc), s.pcs t = pc → pc ≠ .idle → (∀ n, pc ≠ .start n) → isDirect pc = false → s.rate = NoLimit → False := by
      intro t pc e h1 h2 h3 k
      rcases ih.1 k t with e' | ⟨n, e'⟩ | e'
      · exact h1 (e ▸ e')
      · exact h2 n (e ▸ e')
      · rw [e, h3] at e'; cases e'
    have badSet : ∀ (t : Nat) (pc : Pc), s'.pcs t = pc → pc ≠ .idle → todo pc = none → isDirect pc = false → False := by
      intro t pc e h1 h2 h3
      rcases hns t with e' | ⟨n, e'⟩ | ⟨n, e' | e'⟩
      · exact h1 (e ▸ e')
      · rw [e, h2] at e'; cases e'
      · rw [e] at e'; rw [e'] at h3; cases h3
      · rw [e] at e'; rw [e'] at h3; cases h3
    cases h with
    | call t n hp => exact key _ t _ rfl (fun _ => .inr (.inl ⟨n, rfl⟩)) (fun _ => rfl)
    | unlimited t n hp hr => exact key _ t _ rfl (fun _ => .inr (.inr rfl)) (fun k => absurd hr k)
    | limited t n hp hr => exact key _ t _ rfl (fun k => absurd k hr) (fun _ => rfl)
    | direct t n hp => exact key _ t _ rfl (fun _ => .inr (.inr rfl)) (fun k => by have := ih.2 k t; rw [hp] at this; cases this)
    | directUsed t n hp => exact key _ t _ rfl (fun _ => .inr (.inr rfl)) (fun k => by have := ih.2 k t; rw [hp] at this; cases this)
    | directTotal t n hp => exact key _ t _ rfl (fun _ => .inl rfl) (fun k => by have := ih.2 k t; rw [hp] at this; cases this)
    | lock t n hp hl => exact key _ t _ rfl (fun k => (bad t _ hp nofun nofun rfl k).elim) (fun _ => rfl)
    | check t n hp hu => exact key _ t _ rfl (fun k => (bad t _ hp nofun nofun rfl k).elim) (fun _ => rfl)
    | add t n hp => exact key _ t _ rfl (fun k => (bad t _ hp nofun nofun rfl k).elim) (fun _ => rfl)
    | unlock t n hp => exact key _ t _ rfl (fun k => (bad t _ hp nofun nofun rfl k).elim) (fun _ => rfl)
    | addTotal t n hp => exact key _ t _ rfl (fun k => (bad t _ hp nofun nofun rfl k).elim) (fun _ => rfl)
    | out t n hp => exact key _ t _ rfl (fun _ => .inl rfl) (fun _ => rfl)
    | setCall t v hp => exact (badSet t (.setWant (clamp v)) (by rw [go_pcs, if_pos rfl]) nofun rfl rfl).elim
    | setLock t v hp hl => exact (badSet t (.setHold v) (by rw [go_pcs, if_pos rfl]) nofun rfl rfl).elim
    | setStore t v hp => exact (badSet t .setUnlock (by rw [go_pcs, if_pos rfl]) nofun rfl rfl).elim
    | setUnlock t hp => exact key _ t _ rfl (fun _ => .inl rfl) (fun _ => rfl)
    | tick => exact ih
  have hf0 := initial_fits h0
  induction hr with
  | nil => rw [h0.2.1]; exact ⟨fun _ _ => .inl rfl, fun _ _ => rfl⟩
  | other σ' σ'' ls hr hs ih => cases hs <;> exact ih
  | snoc σ' σ'' ls l hr hs ih =>
    have hf := run_fits hr hf0
    have hf' := step_fits hf hs
    cases hs with
    | call i c m ms x hc hi hr' hl ht hw => exact one _ _ _ (.call _ i _ hl) rfl hf'.noSet ih
    | limiter l lim' hc h hn hk => exact one _ _ _ h (inside h hk hf.noSet).2.1 hf'.noSet ih
    | write i n c c' lim' client' hi hl h hi' hm => exact one _ _ _ hl (inside hl (written_inside hl) hf.noSet).2.1 hf'.noSet ih

/-- the answer is written -/
theorem writeNow {E : Env} {client : Client} {s s' : RateLimit.State} {q : Int} {i n : Nat} {c : Conn} {m : P2P.Msg} {ms : List P2P.Msg} {x : Bytes} (hc : client.crashed = false)
    (hi : client.conns[i]? = some c) (hr : c.recv = .running) (ht : c.todo = m :: ms) (hw : toWrite E.s c.buf m = some x) (hl : RateLimit.Step s (.written i n) s') :
    ∃ client' c', Run E ⟨client, s, q⟩ [.written i n] ⟨client', s', q⟩ ∧ client'.crashed = false ∧ client'.conns = client.conns.set i c' ∧ c'.out = c.out ++ [x] ∧ c'.todo = ms ∧
      c'.handled = c.handled ++ [m] ∧ c'.recv = .running ∧ c'.got = c.got := by
  have hcall := ((handleOne_toWrite E.s c.me true m (c.st client.ppt)).1 x hw).1 rfl
  obtain ⟨w1, w2, -, -⟩ := hcall
  obtain ⟨st, r, e⟩ : ∃ st r, handleOne E.s c.me (fun _ => true) m (c.st client.ppt) = (st, r) := ⟨_, _, rfl⟩
  rw [e] at w1 w2
  simp only at w1 w2
  subst w1
  have hs := Peers.Step.handle i c m ms true st hc hi hr ht e
  refine ⟨_, _, .snoc _ _ _ _ _ (.nil _) (.write i n c _ s' _ hi hl hs (List.getElem?_set_self (List.getElem?_eq_some_iff.mp hi).1) (.inl ?_)), hc, rfl, w2, rfl, rfl, hr, rfl⟩
  intro e'
  have := congrArg List.length e'
  simp at this

/-- what is written in answer to a request that keeps to the protocol, for a piece that we have -/
theorem toWrite_request {pl : Nat} {hashes : Bytes} {files : List EntryBase} {cs : List Bytes} {s : MsgHandler.Swarm} {st : St}
    (h : Running pl hashes files cs s st.buf) (k b l : UInt32) (hk : k.toNat < s.tor.numPieces) (ho : ours s k.toNat = true)
    (hl : b.toNat + l.toNat ≤ (pieceOf cs.flatten pl k.toNat).length) :
    toWrite s st.buf (received (.request k b l)) = some (wire (.piece k b (range cs.flatten (k.toNat * pl + b.toNat) l.toNat))) := by
  have hg : s.bf.Get k.toNat = .ok true := by rw [get_nat, if_pos (in_range h _ hk)]; exact congrArg Res.ok ho
  have hans := request_answered h k b l hk hg hl
  obtain ⟨w1, w2⟩ := handleOne_toWrite s ⟨0, []⟩ true (received (.request k b l)) st
  rw [show handleOne s ⟨0, []⟩ (fun _ => true) (received (.request k b l)) st = handleRequest s k b l true st from rfl, hans] at w1 w2
  cases hx : toWrite s st.buf (received (.request k b l)) with
  | none =>
    have := congrArg List.length (w2 hx)
    simp at this
  | some x =>
    have := ((w1 x hx).1 rfl).2.1
    simp only at this
    rw [← List.singleton_inj.mp (List.append_cancel_left this)]

/-- **C102**: with any limit but 0, whatever the others do: a peer that keeps to the protocol and asks for something that we have can be answered, without anybody
else reading anything: of the others only the one who has the lock has to go on to where it gives it back, which is before it writes. -/
theorem C102_not_held_up {pl : Nat} {hashes : Bytes} {files : List EntryBase} {cs : List Bytes} {E : Env} (h : Ready pl hashes files cs E)
    (hn : E.s.tor.numPieces ≤ 2 ^ 32) (o : Utils.Opts) (ho : o.uplim ≠ 0) (σ₀ σ : State) (ls : List Label) (h0 : Initial E o σ₀) (hr : Run E σ₀ ls σ)
    (hc : σ.client.crashed = false) (i : Nat) (c : Conn) (hi : σ.client.conns[i]? = some c) (hrun : c.recv = .running) (k b l : UInt32) (ms : List P2P.Msg)
    (ht : c.todo = received (.request k b l) :: ms) (hk : k.toNat < E.s.tor.numPieces) (hours : ours E.s k.toNat = true)
    (hl : b.toNat + l.toNat ≤ (pieceOf cs.flatten pl k.toNat).length) :
    ∃ ls' σ' c', Run E σ ls' σ' ∧ (∀ t n, Label.written t n ∈ ls' → t = i) ∧ σ'.client.crashed = false ∧ σ'.client.conns = σ.client.conns.set i c' ∧
      c'.out = c.out ++ [wire (.piece k b (range cs.flatten (k.toNat * pl + b.toNat) l.toNat))] ∧ c'.todo = ms ∧ c'.recv = .running := by
  have hf := run_fits hr (initial_fits h0)
  obtain ⟨hlim, hrate, -, -⟩ := run_lim hr (initial_fits h0)
  rw [h0.2.1] at hlim hrate
  have hex := excl_run hlim (excl_init _)
  obtain ⟨m1, m2⟩ := modes h0 hr
  have hok := ((reach_sound h hn h0.1 (run_peers hr)).1 hc).conns c (List.mem_of_getElem? hi)
  have hw := toWrite_request (st := c.st σ.client.ppt) (h.run.withBuf hok.buf) k b l hk hours hl
  generalize hxd : wire (.piece k b (range cs.flatten (k.toNat * pl + b.toNat) l.toNat)) = x at hw ⊢
  obtain ⟨client, s, q⟩ := σ
  simp only at *
  -- what remains is a run to the point where the answer is written
  suffices H : ∃ ls1 s1 s2 n, Run E ⟨client, s, q⟩ ls1 ⟨client, s1, q⟩ ∧ (∀ t n, Label.written t n ∉ ls1) ∧ RateLimit.Step s1 (.written i n) s2 by
    obtain ⟨ls1, s1, s2, n, r1, r2, r3⟩ := H
    obtain ⟨client', c', w1, w2, w3, w4, w5, w6, w7, w8⟩ := writeNow (q := q) hc hi hrun ht hw r3
    refine ⟨_, _, c', r1.trans w1, ?_, w2, w3, w4, w5, w7⟩
    intro t n' hm
    rcases List.mem_append.mp hm with hm | hm
    · exact absurd hm (r2 t n')
    · cases List.mem_singleton.mp hm; rfl
  have callNow : ∀ s1 : RateLimit.State, s1.pcs i = .idle → Run E ⟨client, s1, q⟩ [.tau] ⟨client, s1.go i (.start x.length), q⟩ := by
    intro s1 hp
    exact .snoc _ _ _ _ _ (.nil _) (.call i c _ ms x hc hi hrun hp ht hw)
  have pre : ∀ (a : List Label) (s0 : RateLimit.State), Run E ⟨client, s, q⟩ a ⟨client, s0, q⟩ → (∀ t n, Label.written t n ∉ a) →
      (∃ ls1 s1 s2 n, Run E ⟨client, s0, q⟩ ls1 ⟨client, s1, q⟩ ∧ (∀ t n, Label.written t n ∉ ls1) ∧ RateLimit.Step s1 (.written i n) s2) →
      ∃ ls1 s1 s2 n, Run E ⟨client, s, q⟩ ls1 ⟨client, s1, q⟩ ∧ (∀ t n, Label.written t n ∉ ls1) ∧ RateLimit.Step s1 (.written i n) s2 := by
    rintro a s0 ha hb ⟨ls1, s1, s2, n, r1, r2, r3⟩
    refine ⟨_, s1, s2, n, ha.trans r1, fun t n hm => ?_, r3⟩
    rcases List.mem_append.mp hm with hm | hm
    · exact hb t n hm
    · exact r2 t n hm
  have inn : ∀ (a : List Label) (s0 s' : RateLimit.State), Inner s0 a s' → Run E ⟨client, s0, q⟩ a ⟨client, s', q⟩ := fun a s0 s' hin => hin.lift client q hc
  by_cases hno : s.rate = NoLimit
  · -- no limit
    have fromStart : ∀ (s0 : RateLimit.State) (n : Nat), s0.pcs i = .start n → s0.rate = NoLimit →
        ∃ ls1 s1 s2 n, Run E ⟨client, s0, q⟩ ls1 ⟨client, s1, q⟩ ∧ (∀ t n, Label.written t n ∉ ls1) ∧ RateLimit.Step s1 (.written i n) s2 := by
      intro s0 n hp hr0
      exact ⟨_, _, _, n, inn _ _ _ (.go (.unlimited _ i n hp hr0) rfl (by simp [hp]) nofun (.nil _)), by simp, .direct _ i n (by rw [go_pcs, if_pos rfl])⟩
    have fromIdle : ∀ (s0 : RateLimit.State), s0.pcs i = .idle → s0.rate = NoLimit →
        ∃ ls1 s1 s2 n, Run E ⟨client, s0, q⟩ ls1 ⟨client, s1, q⟩ ∧ (∀ t n, Label.written t n ∉ ls1) ∧ RateLimit.Step s1 (.written i n) s2 := by
      intro s0 hp hr0
      obtain ⟨ls1, s1, s2, n, r1, r2, r3⟩ := fromStart (s0.go i (.start x.length)) x.length (by rw [go_pcs, if_pos rfl]) hr0
      refine ⟨_, s1, s2, n, (callNow s0 hp).trans r1, fun t n hm => ?_, r3⟩
      rcases List.mem_append.mp hm with hm | hm
      · cases List.mem_singleton.mp hm
      · exact r2 t n hm
    have fromTotal : ∀ (s0 : RateLimit.State) (n : Nat), s0.pcs i = .directTotal n → s0.rate = NoLimit →
        ∃ ls1 s1 s2 n, Run E ⟨client, s0, q⟩ ls1 ⟨client, s1, q⟩ ∧ (∀ t n, Label.written t n ∉ ls1) ∧ RateLimit.Step s1 (.written i n) s2 := by
      intro s0 n hp hr0
      obtain ⟨ls1, s1, s2, n', r1, r2, r3⟩ := fromIdle ({ s0 with total := wrap64 (s0.total + n) }.go i .idle) (by rw [go_pcs, if_pos rfl]) hr0
      refine ⟨_, s1, s2, n', (inn _ _ _ (.go (.directTotal _ i n hp) rfl (by simp [hp]) nofun (.nil _))).trans r1, fun t n hm => ?_, r3⟩
      rcases List.mem_append.mp hm with hm | hm
      · cases List.mem_singleton.mp hm
      · exact r2 t n hm
    rcases m1 hno i with e | ⟨n, e⟩ | e
    · exact fromIdle s e hno
    · exact fromStart s n e hno
    · cases hp : s.pcs i with
      | direct n => exact ⟨[], s, _, n, .nil _, nofun, .direct _ i n hp⟩
      | directUsed n =>
        exact pre _ _ (inn _ _ _ (.go (.directUsed _ i n hp) rfl (by simp [hp]) nofun (.nil _))) (by simp) (fromTotal _ n (by rw [go_pcs, if_pos rfl]) hno)
      | directTotal n => exact fromTotal s n hp hno
      | _ => rw [hp] at e; cases e
  · -- with a limit
    have hpos : 0 < s.rate := by
      rw [hrate] at hno ⊢
      show 0 < clamp o.uplim
      have : (init (clamp o.uplim)).rate = clamp o.uplim := rfl
      rw [this] at hno
      unfold clamp NoLimit at hno ⊢
      split at hno
      · exact absurd rfl hno
      · rename_i h1; rw [if_neg h1]; omega
    obtain ⟨a, s0, f1, f2, f3, f4⟩ := freed hex hpos hf.noSet
    rw [← f3] at hpos hno
    refine pre a s0 (inn _ _ _ f1) f1.noWrite ?_
    have fromOut : ∀ (s0 : RateLimit.State) (n : Nat), s0.pcs i = .out n →
        ∃ ls1 s1 s2 n, Run E ⟨client, s0, q⟩ ls1 ⟨client, s1, q⟩ ∧ (∀ t n, Label.written t n ∉ ls1) ∧ RateLimit.Step s1 (.written i n) s2 := by
      intro s0 n hp
      exact ⟨[], s0, _, n, .nil _, nofun, .out _ i n hp⟩
    have fromWant : ∀ (s0 : RateLimit.State) (n : Nat), s0.pcs i = .wantLock n → 0 < s0.rate → s0.lock = none →
        ∃ ls1 s1 s2 n, Run E ⟨client, s0, q⟩ ls1 ⟨client, s1, q⟩ ∧ (∀ t n, Label.written t n ∉ ls1) ∧ RateLimit.Step s1 (.written i n) s2 := by
      intro s0 n hp hpos hlock
      obtain ⟨ls1, s1, r1, r2, -⟩ := admitOne hpos i n hlock hp
      exact ⟨ls1, s1, _, n, inn _ _ _ r1, r1.noWrite, .out _ i n r2⟩
    have fromStart : ∀ (s0 : RateLimit.State) (n : Nat), s0.pcs i = .start n → 0 < s0.rate → s0.lock = none →
        ∃ ls1 s1 s2 n, Run E ⟨client, s0, q⟩ ls1 ⟨client, s1, q⟩ ∧ (∀ t n, Label.written t n ∉ ls1) ∧ RateLimit.Step s1 (.written i n) s2 := by
      intro s0 n hp hpos hlock
      obtain ⟨ls1, s1, s2, n', r1, r2, r3⟩ := fromWant (s0.go i (.wantLock n)) n (by rw [go_pcs, if_pos rfl]) hpos hlock
      refine ⟨_, s1, s2, n', (inn _ _ _ (.go (.limited _ i n hp (by unfold NoLimit; omega)) rfl (by simp [hp]) nofun (.nil _))).trans r1, fun t n hm => ?_, r3⟩
      rcases List.mem_append.mp hm with hm | hm
      · cases List.mem_singleton.mp hm
      · exact r2 t n hm
    have addT : ∀ n, s0.pcs i = .addTotal n →
        ∃ ls1 s1 s2 n, Run E ⟨client, s0, q⟩ ls1 ⟨client, s1, q⟩ ∧ (∀ t n, Label.written t n ∉ ls1) ∧ RateLimit.Step s1 (.written i n) s2 := by
      intro n hp
      exact ⟨_, _, _, n, inn _ _ _ (.go (.addTotal _ i n hp) rfl (by simp [hp]) nofun (.nil _)), by simp, .out _ i n (by rw [go_pcs, if_pos rfl])⟩
    rcases f4 i with ⟨hfree, e⟩ | ⟨n, -, -, e⟩
    · have hd := m2 (by rw [← f3]; exact hno) i
      cases hp : s.pcs i with
      | idle =>
        obtain ⟨ls1, s1, s2, n, r1, r2, r3⟩ := fromStart (s0.go i (.start x.length)) x.length (by rw [go_pcs, if_pos rfl]) hpos f2
        refine ⟨_, s1, s2, n, (callNow s0 (by rw [e, hp])).trans r1, fun t n hm => ?_, r3⟩
        rcases List.mem_append.mp hm with hm | hm
        · cases List.mem_singleton.mp hm
        · exact r2 t n hm
      | start n => exact fromStart s0 n (by rw [e, hp]) hpos f2
      | wantLock n => exact fromWant s0 n (by rw [e, hp]) hpos f2
      | addTotal n => exact addT n (by rw [e, hp])
      | out n => exact fromOut s0 n (by rw [e, hp])
      | direct n => rw [hp] at hd; cases hd
      | directUsed n => rw [hp] at hd; cases hd
      | directTotal n => rw [hp] at hd; cases hd
      | spin n => rw [hp] at hfree; cases hfree
      | admit n => rw [hp] at hfree; cases hfree
      | unlock n => rw [hp] at hfree; cases hfree
      | setWant v => rcases hf.noSet i with e' | ⟨n, e'⟩ | ⟨n, e' | e'⟩ <;> rw [hp] at e' <;> cases e'
      | setHold v => rw [hp] at hfree; cases hfree
      | setUnlock => rw [hp] at hfree; cases hfree
    · exact addT n e

/-- **C102**: whatever the limits are, a peer whose messages keep to the protocol gets exactly the answers of C76. -/
theorem C102_served {pl : Nat} {hashes : Bytes} {files : List EntryBase} {cs : List Bytes} {E : Env} (h : Ready pl hashes files cs E)
    (hn : E.s.tor.numPieces ≤ 2 ^ 32) (o : Utils.Opts) (σ₀ σ : State) (ls : List Label) (h0 : Initial E o σ₀) (hr : Run E σ₀ ls σ)
    (hc : σ.client.crashed = false) (c : Conn) (hm : c ∈ σ.client.conns) (ws : List Wire.Msg) (hw : Delivered cs.flatten pl E.s.tor.numPieces c.got ws) :
    ∃ start done rest, Greeting E.infohash E.ownId E.s.bf.data start ∧ ws = done ++ rest ∧ c.handled = done.map received ∧
      c.out.filter (· ≠ wire .keepAlive) = start ++ (SessionSpec.replies cs.flatten pl (ours E.s) done).map wire ∧ (c.todo = [] → rest = []) ∧ c.recv ≠ .hangs :=
  C76_served_partial h hn σ₀.client σ.client h0.1 (run_peers hr) hc c hm ws hw

/-! ### what is not limited -/

theorem step_length {E : Env} {σ σ' : Client} (h : Peers.Step E σ σ') : σ.conns.length ≤ σ'.conns.length := by
  rcases step_shape h with e | ⟨p, ptr, ph, out, e⟩ | ⟨i, c, c', -, e, -⟩ <;> rw [e] <;> simp

/-- who has no connection is in no call -/
theorem outside_idle {E : Env} {o : Utils.Opts} {σ₀ σ : State} {ls : List Label} (h0 : Initial E o σ₀) (hr : Run E σ₀ ls σ) (t : Nat) (ht : σ.client.conns.length ≤ t) :
    σ.lim.pcs t = .idle := by
  induction hr with
  | nil => rw [h0.2.1]; rfl
  | other σ' σ'' ls hr hs ih =>
    cases hs with
    | others client' h => exact ih (Nat.le_trans (step_length h) ht)
    | receive i c c' client' hi hl h => exact ih (Nat.le_trans (step_length h) ht)
    | quiet i c c' m ms client' hi hl ht' hw h => exact ih (Nat.le_trans (step_length h) ht)
  | snoc σ' σ'' ls l hr hs ih =>
    cases hs with
    | call i c m ms x hc hi hr' hl ht' hw =>
      show (σ'.lim.go i _).pcs t = _
      have hlt := (List.getElem?_eq_some_iff.mp hi).1
      rw [go_pcs, if_neg (by rintro rfl; exact absurd hlt (Nat.not_lt.mpr ht))]
      exact ih ht
    | limiter l lim' hc h hn hk => exact hk t (ih ht)
    | write i n c c' lim' client' hi hl h hi' hm => exact written_inside hl t (ih (Nat.le_trans (step_length h) ht))

/-- somebody connects: at least our handshake is sent, and nobody asks the limiter -/
theorem newcomer {pl : Nat} {hashes : Bytes} {files : List EntryBase} {cs : List Bytes} {E : Env} (h : Ready pl hashes files cs E)
    (hn : E.s.tor.numPieces ≤ 2 ^ 32) (σ : State) (hc : σ.client.crashed = false) :
    ∃ c, Step E σ none { σ with client := { σ.client with conns := σ.client.conns ++ [c] } } ∧ c.recv = .running ∧ c.todo = [] ∧ c.got = [] ∧
      68 ≤ (c.out.map List.length).sum := by
  obtain ⟨hwf, hfits⟩ := bf_fits h hn
  have hid : (List.replicate 20 7 : Bytes).length = 20 := by decide
  have hmade := (C40_made E.infohash (List.replicate 20 7) E.infohash h.ih hid).1
  have hlen := isHandshake_length hmade
  have hacc : (FromIncoming E.v6 ⟨some ([1, 2, 3, 4], 9), true, some (MakeHandshake E.infohash (List.replicate 20 7)), true, true⟩ E.infohash E.ownId E.s.bf).2 =
      .ok (MakePeer E.v6 (List.replicate 20 7) [1, 2, 3, 4] 9) := by
    refine (C41_accept_iff_partial _ _ _ _ _ hwf (fun d hd => by cases hd; omega) _).mpr ⟨_, _, _, _, rfl, rfl, rfl, rfl, rfl, ?_, rfl⟩
    rw [hlen, Nat.sub_self, List.replicate_zero, List.append_nil]
    exact hmade
  have hout := C41_answer _ _ _ _ _ hwf hfits _ hacc
  obtain ⟨b0, hph⟩ := newHandler h.run (MakePeer E.v6 (List.replicate 20 7) [1, 2, 3, 4] 9)
  have h1 := Peers.Step.incoming (E := E) (σ := σ.client) _ _ _ _ _ 0 true hc (Prod.ext hout hacc) hph (show firstMessage true = .ok [wire .unchoke] from rfl)
  refine ⟨_, .others _ h1 ?_, rfl, rfl, rfl, ?_⟩
  · intro j c hj
    refine ⟨c, ?_, rfl, rfl, rfl⟩
    rw [List.getElem?_append_left (List.getElem?_eq_some_iff.mp hj).1]
    exact hj
  · have := isHandshake_length (C40_made E.infohash E.ownId E.infohash h.ih h.own).1
    show 68 ≤ (([MakeHandshake E.infohash E.ownId, wire (.bitfield E.s.bf.data)] ++ [wire .unchoke]).map List.length).sum
    simp only [List.cons_append, List.map_cons, List.sum_cons]
    omega

theorem sentBytes_append (a b : List Conn) : sentBytes (a ++ b) = sentBytes a + sentBytes b := by simp [sentBytes]

theorem gotBytes_append (a b : List Conn) : gotBytes (a ++ b) = gotBytes a + gotBytes b := by simp [gotBytes]

/-- **C102** is false of what we send as a greeting: whatever the limit, at any time any number of bytes can be sent within one second, to peers that connect. -/
theorem C102_refuted_greetings {pl : Nat} {hashes : Bytes} {files : List EntryBase} {cs : List Bytes} {E : Env} (h : Ready pl hashes files cs E)
    (hn : E.s.tor.numPieces ≤ 2 ^ 32) (σ : State) (hc : σ.client.crashed = false) (K : Nat) :
    ∃ σ', Run E σ [] σ' ∧ σ'.client.crashed = false ∧ sentBytes σ.client.conns + 68 * K ≤ sentBytes σ'.client.conns := by
  induction K with
  | zero => exact ⟨σ, .nil _, hc, Nat.le_refl _⟩
  | succ K ih =>
    obtain ⟨σ', h1, h2, h3⟩ := ih
    obtain ⟨c, g1, -, -, -, g5⟩ := newcomer h hn σ' h2
    refine ⟨_, .other _ _ _ _ h1 g1, h2, ?_⟩
    show _ ≤ sentBytes (σ'.client.conns ++ [c])
    rw [sentBytes_append]
    have : sentBytes [c] = (c.out.map List.length).sum := by simp [sentBytes]
    omega

/-- a peer sends a keep-alive message, and it is handled -/
theorem keptAlive {E : Env} (σ : State) (hc : σ.client.crashed = false) (i : Nat) (c : Conn) (hi : σ.client.conns[i]? = some c) (hr : c.recv = .running) (ht : c.todo = [])
    (hl : σ.lim.pcs i = .idle) :
    ∃ c', Run E σ [] { σ with client := { σ.client with conns := σ.client.conns.set i c' } } ∧ c'.recv = .running ∧ c'.todo = [] ∧ c'.got = c.got ++ [[0, 0, 0, 0]] := by
  have hlt := (List.getElem?_eq_some_iff.mp hi).1
  have s1 := Peers.Step.receive (E := E) (σ := σ.client) i c [0, 0, 0, 0] 2 ⟨[.keepAlive], 4⟩ hc hi hr ht (by decide +kernel)
  have r1 : Step E σ none { σ with client := σ.client.set i { c with got := c.got ++ [[0, 0, 0, 0]], todo := [.keepAlive] } } :=
    .receive i c _ _ hi hl s1 (List.getElem?_set_self hlt) (by intro e; have := congrArg List.length e; simp at this)
  have hi2 : (σ.client.set i { c with got := c.got ++ [[0, 0, 0, 0]], todo := [.keepAlive] }).conns[i]? = some { c with got := c.got ++ [[0, 0, 0, 0]], todo := [.keepAlive] } :=
    List.getElem?_set_self hlt
  have s2 := Peers.Step.handle (E := E) i _ .keepAlive [] true (Conn.st { c with got := c.got ++ [[0, 0, 0, 0]], todo := [.keepAlive] } σ.client.ppt)
    (show (σ.client.set i { c with got := c.got ++ [[0, 0, 0, 0]], todo := [.keepAlive] }).crashed = false from hc) hi2 hr rfl rfl
  have r2 := Step.quiet (E := E) (σ := { σ with client := σ.client.set i { c with got := c.got ++ [[0, 0, 0, 0]], todo := [.keepAlive] } }) i _ _ .keepAlive [] _ hi2 hl rfl rfl s2
    (List.getElem?_set_self (by simpa [Client.set] using hlt)) (.inl (by intro e; have := congrArg List.length e; simp at this))
  refine ⟨{ c with got := c.got ++ [[0, 0, 0, 0]], todo := [], handled := c.handled ++ [.keepAlive] }, ?_, hr, rfl, rfl⟩
  have := Run.other _ _ _ _ (Run.other _ _ _ _ (.nil _) r1) r2
  simpa [Client.set, Conn.after, Conn.st, List.set_set] using this

/-- **C102** is false of what we receive: whatever the limits, at any time any number of bytes can be received within one second. -/
theorem C102_refuted_download {pl : Nat} {hashes : Bytes} {files : List EntryBase} {cs : List Bytes} {E : Env} (h : Ready pl hashes files cs E)
    (hn : E.s.tor.numPieces ≤ 2 ^ 32) (o : Utils.Opts) (σ₀ σ : State) (ls : List Label) (h0 : Initial E o σ₀) (hr : Run E σ₀ ls σ)
    (hc : σ.client.crashed = false) (K : Nat) :
    ∃ σ', Run E σ [] σ' ∧ σ'.client.crashed = false ∧ gotBytes σ.client.conns + 4 * K = gotBytes σ'.client.conns := by
  obtain ⟨c, g1, g2, g3, g4, -⟩ := newcomer h hn σ hc
  have hidle := outside_idle h0 hr σ.client.conns.length (Nat.le_refl _)
  suffices H : ∃ c', Run E σ [] { σ with client := { σ.client with conns := σ.client.conns ++ [c'] } } ∧ c'.recv = .running ∧ c'.todo = [] ∧ (c'.got.map List.length).sum = 4 * K by
    obtain ⟨c', h1, -, -, h4⟩ := H
    refine ⟨_, h1, hc, ?_⟩
    show _ = gotBytes (σ.client.conns ++ [c'])
    rw [gotBytes_append]
    simp [gotBytes, h4]
  induction K with
  | zero => exact ⟨c, .other _ _ _ _ (.nil _) g1, g2, g3, by rw [g4]; rfl⟩
  | succ K ih =>
    obtain ⟨c1, k1, k2, k3, k4⟩ := ih
    obtain ⟨c', w1, w2, w3, w4⟩ := keptAlive (E := E) { σ with client := { σ.client with conns := σ.client.conns ++ [c1] } } hc σ.client.conns.length c1 (by simp) k2 k3 hidle
    refine ⟨c', ?_, w2, w3, ?_⟩
    · have := k1.trans w1
      simpa using this
    · rw [w4, List.map_append, List.sum_append, k4]
      simp
      omega

/-- **C102**: the download limit does nothing at all: with any other one the client can do exactly the same. -/
theorem C102_download_ignored (E : Env) (σ σ' : State) (ls : List Label) (q : Int) (h : Run E σ ls σ') : Run E { σ with rRate := q } ls { σ' with rRate := q } := by
  induction h with
  | nil => exact .nil _
  | other σ' σ'' ls h hs ih =>
    refine .other _ _ _ _ ih ?_
    cases hs with
    | others client' h hq => exact .others client' h hq
    | receive i c c' client' hi hl h hi' hg => exact .receive i c c' client' hi hl h hi' hg
    | quiet i c c' m ms client' hi hl ht hw h hi' hm => exact .quiet i c c' m ms client' hi hl ht hw h hi' hm
  | snoc σ' σ'' ls l h hs ih =>
    refine .snoc _ _ _ _ _ ih ?_
    cases hs with
    | call i c m ms x hc hi hr hl ht hw => exact .call i c m ms x hc hi hr hl ht hw
    | limiter l lim' hc h hn hk => exact .limiter l lim' hc h hn hk
    | write i n c c' lim' client' hi hl h hi' hm => exact .write i n c c' lim' client' hi hl h hi' hm

/-! ### everything at once -/

/-- the answer to the next message of connection `i` has been admitted -/
def Armed (E : Env) (σ : State) (i : Nat) (x : Bytes) : Prop :=
  ∃ c m ms, σ.client.conns[i]? = some c ∧ c.recv = .running ∧ c.todo = m :: ms ∧ toWrite E.s c.buf m = some x ∧ σ.lim.pcs i = .out x.length

theorem blockBytes_set (x : Bytes) (hx : isBlock x = true) (c c' : Conn) (ho : c'.out = c.out ++ [x]) : ∀ (l : List Conn) (i : Nat), l[i]? = some c →
    blockBytes (l.set i c') = blockBytes l + x.length
  | [], _, h => nomatch h
  | d :: l, 0, h => by
    cases Option.some.inj h
    simp [blockBytes, ho, List.filter_append, hx]
    omega
  | d :: l, i + 1, h => by
    have := blockBytes_set x hx c c' ho l i h
    simp [blockBytes] at this ⊢
    omega

/-- all who have been admitted write -/
theorem allWrite {E : Env} (x : Bytes) (hx : isBlock x = true) (n : Nat) : ∀ (K : Nat) (σ : State), σ.client.crashed = false → (∀ j, j < K → Armed E σ (n + j) x) →
    ∃ ls σ', Run E σ ls σ' ∧ ticks ls = 0 ∧ σ'.client.crashed = false ∧ blockBytes σ'.client.conns = blockBytes σ.client.conns + K * x.length
  | 0, σ, hc, _ => ⟨[], σ, .nil _, rfl, hc, by omega⟩
  | K + 1, σ, hc, ha => by
    obtain ⟨c, m, ms, a1, a2, a3, a4, a5⟩ := ha K (Nat.lt_succ_self _)
    obtain ⟨client, s, q⟩ := σ
    obtain ⟨client', c', w1, w2, w3, w4, -⟩ := writeNow (q := q) hc a1 a2 a3 a4 (.out s (n + K) x.length a5)
    obtain ⟨ls, σ', r1, r2, r3, r4⟩ := allWrite x hx n K ⟨client', s.go (n + K) .idle, q⟩ w2 (by
      intro j hj
      obtain ⟨d, m', ms', b1, b2, b3, b4, b5⟩ := ha j (by omega)
      refine ⟨d, m', ms', ?_, b2, b3, b4, ?_⟩
      · show client'.conns[n + j]? = _
        rw [w3, List.getElem?_set_ne (by omega)]
        exact b1
      · show (s.go (n + K) .idle).pcs (n + j) = _
        rw [go_pcs, if_neg (by omega)]
        exact b5)
    refine ⟨_, σ', w1.trans r1, ?_, r3, ?_⟩
    · exact r2
    · rw [r4]
      have e := blockBytes_set x hx c c' w4 _ _ a1
      rw [← w3] at e
      show blockBytes client'.conns + _ = blockBytes client.conns + _
      simp only at e
      rw [e, Nat.succ_mul]
      omega

/-- one more connects, asks, and is admitted; nothing else changes -/
theorem armOne {pl : Nat} {hashes : Bytes} {files : List EntryBase} {cs : List Bytes} {E : Env} (h : Ready pl hashes files cs E)
    (hn : E.s.tor.numPieces ≤ 2 ^ 32) (o : Utils.Opts) (σ₀ σ : State) (ls : List Label) (h0 : Initial E o σ₀) (hr : Run E σ₀ ls σ)
    (hc : σ.client.crashed = false) (hpos : 0 < σ.lim.rate) (hlock : σ.lim.lock = none) (k : UInt32) (hk : k.toNat < E.s.tor.numPieces) (hours : ours E.s k.toNat = true)
    (hl : 1 ≤ (pieceOf cs.flatten pl k.toNat).length) :
    ∃ ls' σ' c, Run E σ ls' σ' ∧ σ'.client.crashed = false ∧ σ'.lim.rate = σ.lim.rate ∧ σ'.lim.lock = none ∧ σ'.client.conns = σ.client.conns ++ [c] ∧
      (∀ t, t ≠ σ.client.conns.length → σ'.lim.pcs t = σ.lim.pcs t) ∧ Armed E σ' σ.client.conns.length (wire (.piece k 0 (range cs.flatten (k.toNat * pl) 1))) := by
  obtain ⟨c, g1, g2, g3, g4, -⟩ := newcomer h hn σ hc
  have hidle := outside_idle h0 hr σ.client.conns.length (Nat.le_refl _)
  have hdec := decodeAll_stream [.request k 0 1] (by intro w hw; cases List.mem_singleton.mp hw; simp [Decodable]) (by simp [stream, length_wire, body, be32_length])
  obtain ⟨client, s, q⟩ := σ
  simp only at *
  have s1 := Peers.Step.receive (E := E) (σ := { client with conns := client.conns ++ [c] }) client.conns.length c _ _ _ hc (by simp) g2 g3 hdec
  have g2' := Step.receive (E := E) (σ := ⟨{ client with conns := client.conns ++ [c] }, s, q⟩) client.conns.length c _ _ (by simp) hidle s1
    (List.getElem?_set_self (by simp)) (by intro e; have := congrArg List.length e; simp at this)
  have r1 := Run.other _ _ _ _ (Run.other _ _ _ _ (.nil _) g1) g2'
  obtain ⟨c1, hc1⟩ : ∃ c1, c1 = ({ c with got := c.got ++ [stream [.request k 0 1]], todo := [received (.request k 0 1)] } : Conn) := ⟨_, rfl⟩
  have e1 : ({ client with conns := client.conns ++ [c] } : Client).set client.conns.length ({ c with got := c.got ++ [stream [.request k 0 1]], todo := [received (.request k 0 1)] } : Conn) =
      { client with conns := client.conns ++ [c1] } := by
    rw [Client.set, ← hc1]
    simp
  have r1' : Run E ⟨client, s, q⟩ [] ⟨{ client with conns := client.conns ++ [c1] }, s, q⟩ := by
    rw [← e1]; exact r1
  have hok := ((reach_sound h hn h0.1 (run_peers (hr.trans r1'))).1 hc).conns c1 (by simp)
  have hw := toWrite_request (st := c1.st client.ppt) (h.run.withBuf hok.buf) k 0 1 hk hours (by simpa using hl)
  rw [show k.toNat * pl + (0 : UInt32).toNat = k.toNat * pl from rfl, show (1 : UInt32).toNat = 1 from rfl] at hw
  generalize wire (.piece k 0 (range cs.flatten (k.toNat * pl) 1)) = x at hw ⊢
  have t1 : c1.todo = received (.request k 0 1) :: [] := by rw [hc1]
  have t2 : c1.recv = .running := by rw [hc1]; exact g2
  have t3 : ({ client with conns := client.conns ++ [c1] } : Client).conns[client.conns.length]? = some c1 := by simp
  have r2 : Run E ⟨{ client with conns := client.conns ++ [c1] }, s, q⟩ [.tau] ⟨{ client with conns := client.conns ++ [c1] }, s.go client.conns.length (.start x.length), q⟩ :=
    .snoc _ _ _ _ _ (.nil _) (.call _ c1 _ [] x hc t3 t2 hidle t1 hw)
  have i1 : Inner (s.go client.conns.length (.start x.length)) [.tau] ((s.go client.conns.length (.start x.length)).go client.conns.length (.wantLock x.length)) :=
    .go (.limited _ client.conns.length x.length (by rw [go_pcs, if_pos rfl]) (by show s.rate ≠ NoLimit; unfold NoLimit; omega)) rfl (by rw [go_pcs, if_pos rfl]; nofun) nofun (.nil _)
  obtain ⟨l2, s2, i2, o1, o2, o3, o4⟩ := admitOne (s := (s.go client.conns.length (.start x.length)).go client.conns.length (.wantLock x.length)) hpos client.conns.length x.length hlock
    (by rw [go_pcs, if_pos rfl])
  refine ⟨_, _, c1, (r1'.trans r2).trans ((i1.trans i2).lift _ q hc), hc, o3, o2, rfl, ?_, c1, _, [], t3, t2, t1, hw, o1⟩
  intro t ht
  show s2.pcs t = _
  rw [o4 t ht, go_pcs, if_neg ht, go_pcs, if_neg ht]

/-- **C102** is false of single seconds even for blocks: with any limit but 0, blocks that were admitted in as many seconds can all be sent in one. -/
theorem C102_refuted_burst {pl : Nat} {hashes : Bytes} {files : List EntryBase} {cs : List Bytes} {E : Env} (h : Ready pl hashes files cs E)
    (hn : E.s.tor.numPieces ≤ 2 ^ 32) (o : Utils.Opts) (ho : 0 < o.uplim) (σ₀ σ : State) (ls : List Label) (h0 : Initial E o σ₀) (hr : Run E σ₀ ls σ)
    (hc : σ.client.crashed = false) (k : UInt32) (hk : k.toNat < E.s.tor.numPieces) (hours : ours E.s k.toNat = true)
    (hl : 1 ≤ (pieceOf cs.flatten pl k.toNat).length) (K : Nat) :
    ∃ a b σ1 σ2, Run E σ a σ1 ∧ Run E σ1 b σ2 ∧ ticks b = 0 ∧ σ2.client.crashed = false ∧ blockBytes σ2.client.conns = blockBytes σ1.client.conns + 14 * K := by
  have hrate : σ.lim.rate = clamp o.uplim := by rw [(run_lim hr (initial_fits h0)).2.1, h0.2.1]; rfl
  have hpos : 0 < σ.lim.rate := by
    rw [hrate]; unfold clamp NoLimit; rw [if_neg (by omega)]; exact ho
  have hex := excl_run (by have := (run_lim hr (initial_fits h0)).1; rw [h0.2.1] at this; exact this) (excl_init _)
  obtain ⟨a, s0, f1, f2, f3, -⟩ := freed hex hpos (run_fits hr (initial_fits h0)).noSet
  have r0 : Run E σ a { σ with lim := s0 } := f1.lift σ.client σ.rRate hc
  suffices H : ∃ a' σ1, Run E { σ with lim := s0 } a' σ1 ∧ σ1.client.crashed = false ∧ σ1.lim.lock = none ∧ 0 < σ1.lim.rate ∧
      σ1.client.conns.length = σ.client.conns.length + K ∧
      ∀ j, j < K → Armed E σ1 (σ.client.conns.length + j) (wire (.piece k 0 (range cs.flatten (k.toNat * pl) 1))) by
    obtain ⟨a', σ1, q1, q2, -, -, -, q6⟩ := H
    obtain ⟨b, σ2, w1, w2, w3, w4⟩ := allWrite _ ((isBlock_wire _).mpr ⟨_, _, _, rfl⟩) _ K σ1 q2 q6
    refine ⟨_, b, σ1, σ2, r0.trans q1, w1, w2, w3, ?_⟩
    rw [w4, show (wire (.piece k 0 (range cs.flatten (k.toNat * pl) 1))).length = 14 from ?_, Nat.mul_comm]
    have := pieceOf_length cs.flatten pl k.toNat
    have := range_length cs.flatten (k.toNat * pl) 1 (by omega)
    simp [length_wire, body, be32_length, this]
  induction K with
  | zero => exact ⟨[], _, .nil _, hc, f2, by rw [f3]; exact hpos, rfl, nofun⟩
  | succ K ih =>
    obtain ⟨a', σ1, q1, q2, q3, q4, q5, q6⟩ := ih
    obtain ⟨l', σ', c, p1, p2, p3, p4, p5, p6, p7⟩ := armOne h hn o σ₀ σ1 _ h0 ((hr.trans r0).trans q1) q2 q4 q3 k hk hours hl
    refine ⟨_, σ', q1.trans p1, p2, p4, by rw [p3]; exact q4, by rw [p5, List.length_append, q5]; rfl, ?_⟩
    intro j hj
    by_cases hj' : j = K
    · rw [hj', ← q5]; exact p7
    · obtain ⟨d, m, ms, b1, b2, b3, b4, b5⟩ := q6 j (by omega)
      refine ⟨d, m, ms, ?_, b2, b3, b4, ?_⟩
      · rw [p5, List.getElem?_append_left (List.getElem?_eq_some_iff.mp b1).1]; exact b1
      · rw [p6 _ (by omega)]; exact b5

/-! ### an example -/

/-- one byte per second -/
def exOpts : Utils.Opts := ⟨ascii "a.torrent", [], 6881, ascii "swarm", ascii "1B", ascii "1B", 1, 1⟩

/-- a client with that limit, of which somebody has asked for a block of 2 bytes -/
theorem exLimited : ∃ (E : Env) (σ₀ σ : State) (c : Conn), Ready 4 exHashes exFiles [[1, 2, 3, 4, 5], [], [6, 7, 8, 9, 10, 11, 12, 13]] E ∧ E.s.tor.numPieces ≤ 2 ^ 32 ∧
    Initial E exOpts σ₀ ∧ Run E σ₀ [] σ ∧ σ.client.crashed = false ∧ σ.client.conns[0]? = some c ∧ c.recv = .running ∧ c.todo = [received (.request 1 1 2)] ∧
    1 < E.s.tor.numPieces ∧ ours E.s 1 = true := by
  obtain ⟨s, t, hrun, hn, h1, h0m, hr⟩ := exStart
  obtain ⟨-, -, t0, ht0, e⟩ := hr
  cases e
  have hE : Ready 4 exHashes exFiles [[1, 2, 3, 4, 5], [], [6, 7, 8, 9, 10, 11, 12, 13]] (⟨s, List.replicate 20 1, List.replicate 20 2, fun _ => []⟩ : Env) :=
    ⟨hrun, List.length_replicate, List.length_replicate⟩
  have hlt : s.tor.numPieces ≤ 2 ^ 32 := by rw [hn]; decide
  have hin : Initial (⟨s, List.replicate 20 1, List.replicate 20 2, fun _ => []⟩ : Env) exOpts ⟨⟨t, [], false⟩, RateLimit.init 1, 1⟩ := ⟨⟨ht0, rfl, rfl⟩, rfl, rfl⟩
  obtain ⟨c, g1, g2, g3, g4, -⟩ := newcomer hE hlt ⟨⟨t, [], false⟩, RateLimit.init 1, 1⟩ rfl
  have hdec := decodeAll_stream [.request 1 1 2] (by intro w hw; cases List.mem_singleton.mp hw; simp [Decodable]) (by simp [stream, length_wire, body, be32_length])
  have s1 := Peers.Step.receive (E := (⟨s, List.replicate 20 1, List.replicate 20 2, fun _ => []⟩ : Env)) (σ := ⟨t, [c], false⟩) 0 c _ _ _ rfl rfl g2 g3 hdec
  have s2 := Step.receive (E := (⟨s, List.replicate 20 1, List.replicate 20 2, fun _ => []⟩ : Env)) (σ := ⟨⟨t, [c], false⟩, RateLimit.init 1, 1⟩) 0 c _ _ rfl rfl s1 rfl
    (by intro e; have := congrArg List.length e; simp at this)
  exact ⟨_, _, _, _, hE, hlt, hin, .other _ _ _ _ (.other _ _ _ _ (.nil _) g1) s2, rfl, rfl, g2, rfl, by show 1 < s.tor.numPieces; rw [hn]; decide, h1⟩

/-- the block is sent, though it is longer than the limit -/
example : ∃ (E : Env) (σ₀ σ : State) (ls : List Label) (c : Conn), Ready 4 exHashes exFiles [[1, 2, 3, 4, 5], [], [6, 7, 8, 9, 10, 11, 12, 13]] E ∧ Initial E exOpts σ₀ ∧
    Run E σ₀ ls σ ∧ c ∈ σ.client.conns ∧ wire (.piece 1 1 [6, 7]) ∈ c.out ∧ blockBytes σ.client.conns ≤ (ticks ls + 1) * 18 := by
  obtain ⟨E, σ₀, σ, c, h1, h2, h3, h4, h5, h6, h7, h8, h9, h10⟩ := exLimited
  obtain ⟨ls', σ', c', r1, -, r3, r4, r5, -, -⟩ := C102_not_held_up h1 h2 exOpts (by decide) σ₀ σ [] h3 h4 h5 0 c h6 h7 1 1 2 [] h8 h9 h10 (by decide)
  refine ⟨E, σ₀, σ', _, c', h1, h3, h4.trans r1, ?_, ?_, ?_⟩
  · rw [r4]
    exact List.mem_iff_getElem?.mpr ⟨0, List.getElem?_set_self (List.getElem?_eq_some_iff.mp h6).1⟩
  · rw [r5]
    exact List.mem_append_right _ (List.mem_singleton.mpr rfl)
  · exact C102_blocks_partial h1 h2 exOpts 1 rfl (by decide) σ₀ σ' _ h3 (h4.trans r1)

/-- with the limit 1, at a later time, 7 blocks of 14 bytes are sent within one second -/
example : ∃ (E : Env) (σ₀ σ1 σ2 : State) (a b : List Label), Initial E exOpts σ₀ ∧ Run E σ₀ a σ1 ∧ Run E σ1 b σ2 ∧ ticks b = 0 ∧
    blockBytes σ2.client.conns = blockBytes σ1.client.conns + 98 := by
  obtain ⟨E, σ₀, σ, c, h1, h2, h3, h4, h5, h6, h7, h8, h9, h10⟩ := exLimited
  obtain ⟨a, b, σ1, σ2, r1, r2, r3, -, r5⟩ := C102_refuted_burst h1 h2 exOpts (by decide) σ₀ σ [] h3 h4 h5 1 h9 h10 (by decide) 7
  exact ⟨E, σ₀, σ1, σ2, _, b, h3, h4.trans r1, r2, r3, r5⟩

/-- with the limit 1 for both directions, 680 bytes are sent and 40 received within one second -/
example : ∃ (E : Env) (σ₀ σ1 σ2 : State), Initial E exOpts σ₀ ∧ Run E σ₀ [] σ1 ∧ Run E σ₀ [] σ2 ∧ 680 ≤ sentBytes σ1.client.conns ∧ 40 ≤ gotBytes σ2.client.conns := by
  obtain ⟨E, σ₀, σ, c, h1, h2, h3, h4, h5, -⟩ := exLimited
  obtain ⟨σ1, r1, -, r3⟩ := C102_refuted_greetings h1 h2 σ h5 10
  obtain ⟨σ2, q1, -, q3⟩ := C102_refuted_download h1 h2 exOpts σ₀ σ [] h3 h4 h5 10
  exact ⟨E, σ₀, σ1, σ2, h3, h4.trans r1, h4.trans q1, by omega, by omega⟩

/-- for C102_zero: such a client with the limit 0 -/
example : ∃ (E : Env) (σ₀ σ : State) (c : Conn) (x : Bytes), Ready 4 exHashes exFiles [[1, 2, 3, 4, 5], [], [6, 7, 8, 9, 10, 11, 12, 13]] E ∧ E.s.tor.numPieces ≤ 2 ^ 32 ∧
    Initial E { exOpts with uplim := 0 } σ₀ ∧ Run E σ₀ [] σ ∧ c ∈ σ.client.conns ∧ x ∈ c.out := by
  obtain ⟨E, σ₀, -, -, h1, h2, h3, -⟩ := exLimited
  have hc := h3.1.2.2
  obtain ⟨c, g1, -, -, -, g5⟩ := newcomer h1 h2 ⟨σ₀.client, RateLimit.init 0, σ₀.rRate⟩ hc
  cases ho : c.out with
  | nil => rw [ho] at g5; simp at g5
  | cons x out => exact ⟨E, ⟨σ₀.client, RateLimit.init 0, σ₀.rRate⟩, _, c, x, h1, h2, ⟨h3.1, rfl, h3.2.2⟩, .other _ _ _ _ (.nil _) g1, List.mem_append_right _ (List.mem_singleton.mpr rfl), by rw [ho]; exact List.mem_cons_self⟩

end Verif.Limited
