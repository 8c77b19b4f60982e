import Verif.Model.Idle
import Verif.Lemmas.Lts
import Verif.Lemmas.P2P
import Verif.Model.MsgHandler
/-
Property C87: connections on which nothing is said stay open.  (Model/Idle.lean for the time; Model/P2P.lean and Model/MsgHandler.lean for the messages.)
-/
set_option autoImplicit false

namespace Verif.Idle
open Verif.Lts

/-- any step -/
def Any (p : Params) (s s' : State) : Prop := ∃ l, Step p s l s'

/-- a step at which nothing arrives -/
def Quiet (p : Params) (s s' : State) : Prop := Step p s .tau s'

/-- `t` is before every deadline of the reader -/
def Before (s : State) (t : Nat) : Prop := ∀ d, s.rd = .reading d → t < d

/-- something that makes the current read return before its deadline -/
inductive Promise (p : Params) (s : State) : Prop
  | data (u : Nat) (h : s.avail = some u) (hb : Before s (u + p.wake))
  | wire (u : Nat) (h : u ∈ s.wire) (hb : Before s (u + p.net + p.wake))
  | tick (u : Nat) (h : s.tick = some u) (hb : Before s (u + p.act + p.net + p.wake))
  | next (hb : Before s (s.next + p.act + p.net + p.wake))

structure Inv (p : Params) (late : Nat) (s : State) : Prop where
  open_ : s.rd ≠ .timedOut
  next : s.next ≤ s.now + late + p.period
  ahead : s.now ≤ s.next
  tick : ∀ u, s.tick = some u → u ≤ s.now ∧ s.now ≤ u + p.act
  wire : ∀ u, u ∈ s.wire → s.now ≤ u + p.net
  past : ∀ u, s.avail = some u → u ≤ s.now
  avail : ∀ d u, s.rd = .reading d → s.avail = some u → s.now ≤ u + p.wake
  promise : Promise p s

theorem inv_init (p : Params) (late : Nat) (h : late + p.period + p.act + p.net + p.wake < p.timeout) : Inv p late (init p late) := by
  refine ⟨by simp [init], by simp [init], by simp [init], by simp [init], by simp [init], by simp [init], by simp [init], .next ?_⟩
  intro d hd
  simp only [init, Rd.reading.injEq] at hd
  show late + p.period + p.act + p.net + p.wake < d
  omega

/-- before the deadline -/
theorem Inv.before {p : Params} {late : Nat} {s : State} (h : Inv p late s) (d : Nat) (hd : s.rd = .reading d) : s.now < d := by
  cases h.promise with
  | data u hu hb => have := hb d hd; have := h.avail d u hd hu; omega
  | wire u hu hb => have := hb d hd; have := h.wire u hu; omega
  | tick u hu hb => have := hb d hd; have := h.tick u hu; omega
  | next hb => have := hb d hd; have := h.ahead; omega

/-- data that is there -/
theorem promise_arrived {p : Params} {s : State} (hp : ∀ u, s.avail = some u → u ≤ s.now) (hb : Before s (s.now + p.wake)) (w : List Nat) :
    Promise p { s with wire := w, avail := some (s.avail.getD s.now) } := by
  refine .data _ rfl ?_
  intro d hd
  have := hb d hd
  show s.avail.getD s.now + p.wake < d
  cases ha : s.avail with
  | none => simp only [Option.getD_none]; omega
  | some v => simp only [Option.getD_some]; have := hp v ha; omega

theorem inv_step {p : Params} {late : Nat} (h : late + p.period + p.act + p.net + p.wake < p.timeout) {s s' : State} {l : Label} (hs : Step p s l s')
    (hi : Inv p late s) : Inv p late s' := by
  have hbefore := hi.before
  obtain ⟨i1, i2, i3, i4, i5, i6, i7, i8⟩ := hi
  have pastAvail : ∀ v, some (s.avail.getD s.now) = some v → v ≤ s.now := by
    intro v hv
    cases ha : s.avail with
    | none => rw [ha] at hv; cases hv; exact Nat.le_refl _
    | some x => rw [ha] at hv; cases hv; exact i6 x ha
  have nowAvail : ∀ d v, s.rd = .reading d → some (s.avail.getD s.now) = some v → s.now ≤ v + p.wake := by
    intro d v hd hv
    cases ha : s.avail with
    | none => rw [ha] at hv; cases hv; show s.now ≤ s.now + p.wake; omega
    | some x => rw [ha] at hv; cases hv; exact i7 d x hd ha
  cases hs with
  | pass t ht hm =>
    refine ⟨i1, ?_, hm.ticker, fun u hu => ⟨Nat.le_trans (i4 u hu).1 ht, hm.act u hu⟩, hm.net, fun u hu => Nat.le_trans (i6 u hu) ht, hm.data, ?_⟩
    · show s.next ≤ t + late + p.period; omega
    · cases i8 with
      | data u hu hb => exact .data u hu hb
      | wire u hu hb => exact .wire u hu hb
      | tick u hu hb => exact .tick u hu hb
      | next hb => exact .next hb
  | fire hn =>
    refine ⟨i1, ?_, ?_, ?_, i5, i6, i7, ?_⟩
    · show s.next + p.period ≤ s.now + late + p.period; omega
    · show s.now ≤ s.next + p.period; omega
    · intro u hu
      cases ht : s.tick with
      | none => rw [ht] at hu; cases hu; show s.now ≤ s.now ∧ s.now ≤ s.now + p.act; omega
      | some v => rw [ht] at hu; cases hu; exact i4 v ht
    · cases i8 with
      | data u hu hb => exact .data u hu hb
      | wire u hu hb => exact .wire u hu hb
      | tick u hu hb =>
        refine .tick u ?_ hb
        show some (s.tick.getD s.now) = some u
        rw [hu]; rfl
      | next hb =>
        refine .tick _ rfl ?_
        intro d hd
        have := hb d hd
        show s.tick.getD s.now + p.act + p.net + p.wake < d
        cases ht : s.tick with
        | none => simp only [Option.getD_none]; omega
        | some v =>
          simp only [Option.getD_some]
          have := i4 v ht
          omega
  | ping u hu =>
    refine ⟨i1, i2, i3, fun v hv => (by cases hv), ?_, i6, i7, ?_⟩
    · intro v hv
      rcases List.mem_append.mp hv with hv | hv
      · exact i5 v hv
      · rw [List.mem_singleton] at hv
        subst hv
        show s.now ≤ s.now + p.net
        omega
    · cases i8 with
      | data v hv hb => exact .data v hv hb
      | wire v hv hb => exact .wire v (List.mem_append_left _ hv) hb
      | tick v hv hb =>
        refine .wire s.now (by simp) ?_
        intro d hd
        have := hb d hd
        have := i4 v hv
        omega
      | next hb => exact .next hb
  | arrive u w w' hw =>
    refine ⟨i1, i2, i3, i4, ?_, pastAvail, nowAvail, ?_⟩
    · intro v hv
      apply i5 v
      rw [hw]
      rcases List.mem_append.mp hv with hv | hv
      · exact List.mem_append_left _ hv
      · exact List.mem_append_right _ (List.mem_cons_of_mem _ hv)
    · cases i8 with
      | data v hv hb =>
        refine .data v ?_ hb
        show some (s.avail.getD s.now) = some v
        rw [hv]; rfl
      | wire v hv hb =>
        refine promise_arrived i6 ?_ _
        intro d hd
        have := hb d hd
        have := i5 v hv
        omega
      | tick v hv hb => exact .tick v hv hb
      | next hb => exact .next hb
  | data =>
    refine ⟨i1, i2, i3, i4, i5, pastAvail, nowAvail, ?_⟩
    cases i8 with
    | data v hv hb =>
      refine .data v ?_ hb
      show some (s.avail.getD s.now) = some v
      rw [hv]; rfl
    | wire v hv hb => exact .wire v hv hb
    | tick v hv hb => exact .tick v hv hb
    | next hb => exact .next hb
  | ret d u rest hr ha =>
    refine ⟨by simp, i2, i3, i4, i5, ?_, fun _ _ hd => (by cases hd), .next fun d hd => (by cases hd)⟩
    intro v hv
    cases rest with
    | false => cases hv
    | true => cases hv; exact Nat.le_refl _
  | expire d hr hd => have := hbefore d hr; omega
  | again hr =>
    refine ⟨by simp, i2, i3, i4, i5, ?_, ?_, .next ?_⟩
    · intro v hv
      cases ha : s.avail with
      | none => simp only [ha] at hv; cases hv
      | some x => simp only [ha] at hv; cases hv; exact Nat.le_refl _
    · intro d v hd hv
      cases ha : s.avail with
      | none => simp only [ha] at hv; cases hv
      | some x => simp only [ha] at hv; cases hv; show s.now ≤ s.now + p.wake; omega
    · intro d hd
      simp only [Rd.reading.injEq] at hd
      show s.next + p.act + p.net + p.wake < d
      omega

/-- **C87**: if the period of the peer's keep-alive messages and all delays together are shorter than the timeout, no read ever times out,
however long the peer has nothing else to say. -/
theorem C87_kept_partial (p : Params) (late : Nat) (h : late + p.period + p.act + p.net + p.wake < p.timeout) (s : State)
    (hr : Reach (Any p) (init p late) s) : s.rd ≠ .timedOut ∧ ∀ d, s.rd = .reading d → s.now < d := by
  have : Inv p late s := by
    induction hr with
    | refl => exact inv_init p late h
    | tail s t _ hs ih =>
      obtain ⟨l, hl⟩ := hs
      exact inv_step h hl ih
  exact ⟨this.open_, this.before⟩

/-- **C87**, two clients of this kind: the connection stays open if the delays together are below one minute. -/
theorem C87_between_partial (late act net wake : Nat) (h : late + act + net + wake < 60000) (s : State)
    (hr : Reach (Any ⟨SendKeepAlive, GetKeepAlive, act, net, wake⟩) (init ⟨SendKeepAlive, GetKeepAlive, act, net, wake⟩ late) s) :
    s.rd ≠ .timedOut :=
  (C87_kept_partial _ late (by simp only [SendKeepAlive, GetKeepAlive]; omega) s hr).1

/-- delays of half a minute, and something happens: after a minute the ticker, half a minute later the message is sent -/
example : (5 : Nat) + 30000 + 1000 + 5 < 60000 ∧
    ∃ s, Reach (Any ⟨SendKeepAlive, GetKeepAlive, 30000, 1000, 5⟩) (init ⟨SendKeepAlive, GetKeepAlive, 30000, 1000, 5⟩ 5) s ∧ s.wire = [90005] := by
  refine ⟨by decide, ⟨90005, 120005, none, [90005], 90005, none, .reading 120000⟩, ?_, rfl⟩
  refine .tail _ _ (.tail _ _ (.tail _ _ (.tail _ _ .refl ⟨_, .pass _ 60005 ?_ ?_⟩) ⟨_, .fire _ rfl⟩) ⟨_, .pass _ 90005 ?_ ?_⟩) ⟨_, .ping _ 60005 rfl⟩
  · decide
  · refine ⟨by decide, fun u hu => (by cases hu), fun u hu => (by cases hu), fun d u hd hu => (by cases hu), ?_⟩
    intro d hd
    cases hd
    decide
  · decide
  · refine ⟨by decide, fun u hu => (by cases hu; decide), fun u hu => (by cases hu), fun d u hd hu => (by cases hu), ?_⟩
    intro d hd
    cases hd
    decide

theorem expires {p : Params} {late : Nat} {s : State} (hr : Reach (Any p) (init p late) s) (d : Nat) (hd : s.rd = .reading d) (hn : s.now ≤ d)
    (hm : MayPass p s d) : ∃ s, Reach (Any p) (init p late) s ∧ s.rd = .timedOut :=
  ⟨_, .tail _ _ (.tail _ _ hr ⟨_, .pass s d hn hm⟩) ⟨_, .expire _ d hd (Nat.le_refl _)⟩, rfl⟩

/-- **C87**, exactly: with delays that are together no longer than the period, the connection is safe precisely if the period and the delays
together are shorter than the timeout. -/
theorem C87_exact_partial (p : Params) (late : Nat) (hp : p.act + p.net + p.wake ≤ p.period) :
    (∀ s, Reach (Any p) (init p late) s → s.rd ≠ .timedOut) ↔ late + p.period + p.act + p.net + p.wake < p.timeout := by
  refine ⟨fun hall => ?_, fun h s hr => (C87_kept_partial p late h s hr).1⟩
  apply Classical.byContradiction
  intro hle
  suffices ∃ s, Reach (Any p) (init p late) s ∧ s.rd = .timedOut by
    obtain ⟨s, h1, h2⟩ := this
    exact hall s h1 h2
  have r0 : Reach (Any p) (init p late) (init p late) := .refl
  by_cases c1 : p.timeout ≤ late + p.period
  · exact expires r0 p.timeout rfl (Nat.zero_le _) ⟨c1, fun u hu => (by cases hu), fun u hu => (by cases hu), fun d u hd hu => (by cases hu),
      fun d hd => (by cases hd; omega)⟩
  have r1 := Reach.tail _ _ r0 ⟨_, .pass _ (late + p.period) (Nat.zero_le _) ⟨Nat.le_refl _, fun u hu => (by cases hu), fun u hu => (by cases hu),
    fun d u hd hu => (by cases hu), fun d hd => (by cases hd; omega)⟩⟩
  have r2 := Reach.tail _ _ r1 ⟨_, .fire _ rfl⟩
  by_cases c2 : p.timeout ≤ late + p.period + p.act
  · refine expires r2 p.timeout rfl (by simp only; omega) ⟨?_, fun u hu => ?_, fun u hu => (by cases hu), fun d u hd hu => (by cases hu),
      fun d hd => (by cases hd; omega)⟩
    · show p.timeout ≤ late + p.period + p.period; omega
    · cases hu; exact c2
  have r3 := Reach.tail _ _ r2 ⟨_, .pass _ (late + p.period + p.act) (by simp only; omega) ⟨(by simp only [init]; omega),
    fun u hu => (by cases hu; exact Nat.le_refl _), fun u hu => (by cases hu), fun d u hd hu => (by cases hu), fun d hd => (by cases hd; omega)⟩⟩
  have r4 := Reach.tail _ _ r3 ⟨_, .ping _ (late + p.period) rfl⟩
  by_cases c3 : p.timeout ≤ late + p.period + p.act + p.net
  · refine expires r4 p.timeout rfl (by simp only; omega) ⟨?_, fun u hu => (by cases hu), fun u hu => ?_, fun d u hd hu => (by cases hu),
      fun d hd => (by cases hd; omega)⟩
    · show p.timeout ≤ late + p.period + p.period; omega
    · rw [show u = late + p.period + p.act by simpa [init] using hu]; exact c3
  have r5 := Reach.tail _ _ r4 ⟨_, .pass _ (late + p.period + p.act + p.net) (by simp only; omega) ⟨(by simp only [init]; omega),
    fun u hu => (by cases hu), fun u hu => (by rw [show u = late + p.period + p.act by simpa [init] using hu]; exact Nat.le_refl _),
    fun d u hd hu => (by cases hu), fun d hd => (by cases hd; omega)⟩⟩
  have r6 := Reach.tail _ _ r5 ⟨_, .arrive _ (late + p.period + p.act) [] [] rfl⟩
  refine expires r6 p.timeout rfl (by simp only; omega) ⟨?_, fun u hu => (by cases hu), fun u hu => (by cases hu), fun d u hd hu => ?_,
      fun d hd => (by cases hd; omega)⟩
  · show p.timeout ≤ late + p.period + p.period; omega
  · cases hu
    show p.timeout ≤ late + p.period + p.act + p.net + p.wake
    omega

/-- **C87** refuted: a peer that sends a keep-alive message every two minutes, as BEP 3 has it, may lose the connection although there are
no delays at all. -/
theorem C87_refuted_two_minutes :
    ∃ s, Reach (Any ⟨120000, GetKeepAlive, 0, 0, 0⟩) (init ⟨120000, GetKeepAlive, 0, 0, 0⟩ 0) s ∧ s.rd = .timedOut := by
  apply Classical.byContradiction
  intro hno
  have := (C87_exact_partial ⟨120000, GetKeepAlive, 0, 0, 0⟩ 0 (by decide)).mp (fun s hr hs => hno ⟨s, hr, hs⟩)
  revert this
  decide

/-- **C87**: while nothing arrives, a read ends by its deadline: a peer that has fallen silent is noticed. -/
theorem C87_noticed_partial (p : Params) (s s' : State) (d : Nat) (hr : s.rd = .reading d) (ha : s.avail = none) (hn : s.now ≤ d + p.wake)
    (h : Reach (Quiet p) s s') : s'.rd = .timedOut ∨ s'.rd = .reading d ∧ s'.avail = none ∧ s'.now ≤ d + p.wake := by
  induction h with
  | refl => exact .inr ⟨hr, ha, hn⟩
  | tail a b _ hs ih =>
    rcases ih with ih | ⟨h1, h2, h3⟩
    · refine .inl ?_
      unfold Quiet at hs
      cases hs with
      | pass t ht hm => exact ih
      | fire hn => exact ih
      | ping u hu => exact ih
      | ret d u rest hr ha => rw [hr] at ih; cases ih
      | expire d hr hd => rfl
      | again hr => rw [hr] at ih; cases ih
    · unfold Quiet at hs
      cases hs with
      | pass t ht hm => exact .inr ⟨h1, h2, hm.deadline d h1⟩
      | fire hn => exact .inr ⟨h1, h2, h3⟩
      | ping u hu => exact .inr ⟨h1, h2, h3⟩
      | ret d u rest hr ha => rw [h2] at ha; cases ha
      | expire d hr hd => exact .inl rfl
      | again hr => rw [h1] at hr; cases hr

/-- a read without data, and time up to the deadline -/
example : ∃ s', Reach (Quiet ⟨SendKeepAlive, GetKeepAlive, 0, 0, 0⟩) ⟨0, 500000, none, [], 0, none, .reading 120000⟩ s' ∧ s'.rd = .timedOut ∧
    s'.now = 120000 := by
  refine ⟨_, .tail _ _ (.tail _ _ .refl (.pass _ 120000 (by decide) ⟨by decide, fun u hu => (by cases hu), fun u hu => (by cases hu),
    fun d u hd hu => (by cases hu), fun d hd => (by cases hd; decide)⟩)) (.expire _ 120000 rfl (by decide)), rfl, rfl⟩

/-- **C87**, the other side: from when the ticker is made, no time longer than the period (and the delay until a tick is acted upon) goes by
without a keep-alive message. -/
theorem C87_sent_partial (p : Params) (late : Nat) (s : State) (hr : Reach (Any p) (init p late) s) : s.now ≤ s.sent + p.period + p.act := by
  suffices s.now ≤ s.sent + p.period + p.act ∧ s.now ≤ s.next ∧
      ((s.tick = none ∧ s.next ≤ s.sent + p.period) ∨ ∃ u, s.tick = some u ∧ u ≤ s.sent + p.period ∧ u ≤ s.now ∧ s.now ≤ u + p.act ∧ s.next ≤ s.now + p.period) from this.1
  induction hr with
  | refl => exact ⟨by simp [init], by simp [init], .inl ⟨rfl, by simp [init]⟩⟩
  | tail a b _ hs ih =>
    obtain ⟨l, hs⟩ := hs
    obtain ⟨h1, h2, h3⟩ := ih
    cases hs with
    | pass t ht hm =>
      rcases h3 with ⟨g1, g2⟩ | ⟨u, g1, g2, g3, g4, g5⟩
      · have := hm.ticker
        exact ⟨by simp only; omega, this, .inl ⟨g1, g2⟩⟩
      · have := hm.act u g1
        exact ⟨by simp only; omega, hm.ticker, .inr ⟨u, g1, g2, by simp only; omega, this, by simp only; omega⟩⟩
    | fire hn =>
      refine ⟨h1, by simp only; omega, .inr ?_⟩
      rcases h3 with ⟨g1, g2⟩ | ⟨u, g1, g2, g3, g4, g5⟩
      · exact ⟨a.now, by simp only [g1, Option.getD_none], by simp only; omega, Nat.le_refl _, by simp only; omega, by simp only; omega⟩
      · exact ⟨u, by simp only [g1, Option.getD_some], g2, g3, g4, by simp only; omega⟩
    | ping u hu =>
      refine ⟨by simp only; omega, h2, .inl ⟨rfl, ?_⟩⟩
      rcases h3 with ⟨g1, g2⟩ | ⟨u, g1, g2, g3, g4, g5⟩
      · rw [g1] at hu; cases hu
      · exact g5
    | arrive u w w' hw => exact ⟨h1, h2, h3⟩
    | data => exact ⟨h1, h2, h3⟩
    | ret d u rest hr ha => exact ⟨h1, h2, h3⟩
    | expire d hr hd => exact ⟨h1, h2, h3⟩
    | again hr => exact ⟨h1, h2, h3⟩

open Verif.P2P Verif.MsgHandler in
theorem zeros_decoded (n : Nat) : ∀ (fuel : Nat) (msgs : List Msg) (read : Nat), n < fuel → (∀ m ∈ msgs, m = .keepAlive) →
    ∃ dar, decodeAllLoop fuel (List.replicate n 0) msgs read = .ok dar ∧ ∀ m ∈ dar.msgs, m = .keepAlive := by
  induction n using Nat.strongRecOn with
  | ind n ih =>
    intro fuel msgs read hf hm
    obtain ⟨fuel, rfl⟩ : ∃ k, fuel = k + 1 := ⟨fuel - 1, by omega⟩
    unfold decodeAllLoop
    rw [List.length_replicate]
    by_cases h0 : n = 0
    · rw [if_pos h0]
      exact ⟨_, rfl, hm⟩
    rw [if_neg h0]
    by_cases h4 : n < 4
    · have : Decode (List.replicate n 0) = .ok ⟨none, n⟩ := by
        unfold Decode
        rw [if_pos (by rw [List.length_replicate]; exact h4), List.length_replicate]
      rw [this]
      simp only [Res.ok_bind, List.drop_replicate, Nat.sub_self]
      exact ih 0 (by omega) fuel msgs read (by omega) hm
    · have : Decode (List.replicate n 0) = .ok ⟨some .keepAlive, 4⟩ := by
        unfold Decode
        rw [if_neg (by rw [List.length_replicate]; exact h4), List.take_replicate, show min 4 n = 4 by omega]
        have : getU32 (List.replicate 4 0) = .ok 0 := by decide
        rw [this]
        rfl
      rw [this]
      simp only [Res.ok_bind, List.drop_replicate]
      refine ih (n - 4) (by omega) fuel _ _ (by omega) ?_
      intro m hmem
      rcases List.mem_append.mp hmem with h | h
      · exact hm m h
      · exact List.mem_singleton.mp h

open Verif.P2P Verif.MsgHandler in
/-- **C87**: any number of keep-alive messages, in pieces of any length, is received without effect and without error. -/
theorem C87_harmless_partial (s : Swarm) (me : PieceTracker.PH) (wok : Nat → Bool) (ns : List Nat) (fuel : Nat) (hf : ∀ n ∈ ns, n < fuel) (st : St) :
    recvAll fuel s me wok (ns.map fun n => List.replicate n 0) st = (st, .ok ()) := by
  have all : ∀ (ms : List Msg) (st : St), (∀ m ∈ ms, m = .keepAlive) → handleAll s me wok ms st = (st, .ok ()) := by
    intro ms
    induction ms with
    | nil => intro st _; rfl
    | cons m ms ih =>
      intro st hm
      rw [hm m (by simp)] at *
      unfold handleAll
      simp only [handleOne]
      exact ih st (fun m' hm' => hm m' (by simp [hm']))
  induction ns with
  | nil => rfl
  | cons n ns ih =>
    obtain ⟨dar, h1, h2⟩ := zeros_decoded n fuel [] 0 (hf n (by simp)) (by simp)
    have : handleMessage fuel s me wok (List.replicate n 0) st = (st, .ok ()) := by
      unfold handleMessage DecodeAll
      rw [h1]
      exact all _ _ h2
    rw [List.map_cons]
    unfold recvAll
    rw [this]
    exact ih (fun m hm => hf m (by simp [hm]))

/-- what is sent: peerhandler.go:297, keepalive.go -/
example : P2P.Msg.Encode .keepAlive = .ok [0, 0, 0, 0] := by decide

end Verif.Idle
