import Verif.Spec.ReadLoop
import Verif.Lemmas.Lts
/-
C55 and C56: the read loop and its consumer.
-/
set_option autoImplicit false

namespace Verif.ReadLoop
open Verif.ReadLoopSpec Verif.Lts

theorem chunks_append (a b : List Label) : chunks (a ++ b) = chunks a ++ chunks b := by
  induction a with
  | nil => rfl
  | cons l a ih => cases l <;> simp [chunks, ih]

theorem deliveries_append (a b : List Label) : deliveries (a ++ b) = deliveries a + deliveries b := by
  induction a with
  | nil => simp [deliveries]
  | cons l a ih => cases l <;> simp [deliveries, ih]; omega

theorem Run.trans {a b c : State} {la lb : List Label} (h1 : Run a la b) (h2 : Run b lb c) : Run a (la ++ lb) c := by
  induction h2 with
  | nil => rw [List.append_nil]; exact h1
  | snoc s' s'' ls l _ hs ih => rw [← List.append_assoc]; exact .snoc _ _ _ _ ih hs

theorem Run.step {a b c : State} {l : Label} {ls : List Label} (h : Step a l b) (h2 : Run b ls c) : Run a (l :: ls) c :=
  (Run.snoc (s := a) _ _ [] l .nil h).trans h2

/-- the consumer is not using a slice -/
def quiet (c : CPc) : Prop := c = .select ∨ c = .report ∨ c = .finish ∨ c = .ended

/-- everything read has been delivered and its use is over -/
def Fresh (s : State) (ls : List Label) : Prop :=
  s.chBuf = none ∧ quiet s.cons ∧ (chunks ls).length = deliveries ls ∧
  ((s.reader = .deadline ∨ s.reader = .reading ∨ ∃ b, s.reader = .sendErr b) ∧ s.chReady = false ∨ s.reader = .select ∧ s.chReady = true)

/-- a chunk has been read and not yet delivered -/
def Pending (s : State) (ls : List Label) : Prop :=
  ∃ pre c, chunks ls = pre ++ [c] ∧ deliveries ls = pre.length ∧ s.buf.take c.length = c ∧ quiet s.cons ∧ s.chReady = false ∧
  (s.reader = .sendBuf c.length ∧ s.chBuf = none ∨ s.reader = .select ∧ s.chBuf = some c.length)

/-- the last chunk is being used -/
def InUse (s : State) (ls : List Label) : Prop :=
  ∃ pre c, chunks ls = pre ++ [c] ∧ deliveries ls = pre.length + 1 ∧ s.buf.take c.length = c ∧ s.chReady = false ∧ s.reader = .select ∧ s.chBuf = none ∧
  (s.cons = .handle c.length ∨ ∃ f, s.cons = .ready f)

/-- the reader has ended -/
def Over (s : State) (ls : List Label) : Prop :=
  s.reader = .ended ∧ (s.cons = .report ∨ s.cons = .ended ∨ s.cons = .finishDeadline) ∧ deliveries ls ≤ (chunks ls).length ∧ (chunks ls).length ≤ deliveries ls + 1

def Inv (s : State) (ls : List Label) : Prop := Fresh s ls ∨ Pending s ls ∨ InUse s ls ∨ Over s ls

theorem inv_step {s s' : State} {ls : List Label} {l : Label} (h : Inv s ls) (hs : Step s l s') : Inv s' (ls ++ [l]) := by
  unfold Inv Fresh Pending InUse Over quiet at *
  rw [chunks_append, deliveries_append]
  cases hs with
  | startRead b hr hb =>
    simp only [hr, chunks, deliveries, List.append_nil, Nat.add_zero, reduceCtorEq, or_false, false_or, false_and, and_false, exists_false] at h ⊢
    exact h
  | deadlineErr hr =>
    simp only [hr, chunks, deliveries, List.append_nil, Nat.add_zero, reduceCtorEq, or_false, false_or, false_and, and_false, exists_false] at h ⊢
    simpa using h
  | readOk c hr h0 hc =>
    simp only [hr, chunks, deliveries, Nat.add_zero, reduceCtorEq, or_false, false_or, false_and, and_false, exists_false] at h ⊢
    obtain ⟨h1, h2, h3, -, h4⟩ := h
    exact ⟨chunks ls, c, rfl, h3.symm, by simp, h2, h4, rfl, h1⟩
  | readFail c hr hc =>
    simp only [hr, chunks, deliveries, List.append_nil, Nat.add_zero, reduceCtorEq, or_false, false_or, false_and, and_false, exists_false] at h ⊢
    simpa using h
  | readNone hr =>
    simp only [hr, chunks, deliveries, List.append_nil, Nat.add_zero, reduceCtorEq, or_false, false_or, false_and, and_false, exists_false] at h ⊢
    simpa using h
  | sendBuf n hr hc =>
    simp only [hr, hc, chunks, deliveries, List.append_nil, Nat.add_zero, reduceCtorEq, or_false, false_or, false_and, and_false, exists_false] at h ⊢
    obtain ⟨pre, c, h1, h2, h3, h4, h5, h6, -⟩ := h
    cases h6
    exact ⟨pre, c, h1, h2, h3, h4, h5, trivial, rfl⟩
  | recvReady hr hc =>
    simp only [hr, hc, chunks, deliveries, List.append_nil, Nat.add_zero, reduceCtorEq, or_false, false_or, false_and, and_false, exists_false] at h ⊢
    simp_all
  | recvDone hr hc =>
    simp only [hr, hc, chunks, deliveries, List.append_nil, Nat.add_zero, reduceCtorEq, or_false, false_or, false_and, and_false, exists_false] at h ⊢
    refine ⟨trivial, trivial, ?_⟩
    rcases h with ⟨-, -, h, -⟩ | ⟨pre, c, h1, h2, -⟩
    · omega
    · simp [h1, h2]
  | take n hc hb =>
    simp only [hc, hb, chunks, deliveries, List.append_nil, reduceCtorEq, or_false, false_or, false_and, and_false, exists_false] at h ⊢
    obtain ⟨pre, c, h1, h2, h3, -, h5, h6, h7⟩ := h
    cases h7
    exact ⟨pre, c, h1, by omega, h3, h5, h6, trivial, rfl⟩
  | look n hc =>
    simp only [hc, chunks, deliveries, List.append_nil, Nat.add_zero, reduceCtorEq, or_false, false_or, false_and, and_false, exists_false] at h ⊢
    exact h
  | handled n f hc =>
    simp only [hc, chunks, deliveries, List.append_nil, Nat.add_zero, reduceCtorEq, or_false, false_or, false_and, and_false, exists_false] at h ⊢
    obtain ⟨pre, c, h1, h2, h3, h4, h5, h6, h7⟩ := h
    exact ⟨pre, c, h1, h2, h3, h4, h5, h6, f, rfl⟩
  | ready f hc hr =>
    simp only [hc, hr, chunks, deliveries, List.append_nil, Nat.add_zero, reduceCtorEq, or_false, false_or, false_and, and_false, exists_false] at h ⊢
    obtain ⟨pre, c, h1, h2, h3, -, h5, h6, -⟩ := h
    refine .inl ⟨h6, ?_, by simp [h1, h2], h5, trivial⟩
    cases f <;> simp
  | takeErr b hc hr =>
    simp only [hc, hr, chunks, deliveries, List.append_nil, Nat.add_zero, reduceCtorEq, or_false, false_or, false_and, and_false, exists_false] at h ⊢
    obtain ⟨-, -, h3, -⟩ := h
    refine ⟨trivial, ?_, by omega, by omega⟩
    cases b <;> simp
  | kill hc =>
    simp only [hc, chunks, deliveries, List.append_nil, Nat.add_zero, reduceCtorEq, or_false, false_or, false_and, and_false, exists_false] at h ⊢
    exact h
  | finishDeadline hc =>
    simp only [hc, chunks, deliveries, List.append_nil, Nat.add_zero, reduceCtorEq, or_false, false_or, false_and, and_false, exists_false] at h ⊢
    exact .inr (.inr h)
  | report hc =>
    simp only [hc, chunks, deliveries, List.append_nil, Nat.add_zero, reduceCtorEq, or_false, false_or, and_false, exists_false] at h ⊢
    exact h

theorem inv_run {size : Nat} {ls : List Label} {s : State} (h : Run (init size) ls s) : Inv s ls := by
  induction h with
  | nil => exact .inl ⟨rfl, .inl rfl, rfl, .inl ⟨.inl rfl, rfl⟩⟩
  | snoc s' s'' ls l _ hs ih => exact inv_step ih hs

/-- **C55**, the buffer: whatever the schedule, what the consumer sees while it handles a message is exactly the last chunk the connection
returned, and it has then received as many chunks as were read: the one it looks at is its own, whole and not overwritten. -/
theorem C55_intact (size : Nat) (ls : List Label) (s : State) (c : Bytes) (h : Run (init size) (ls ++ [.look c]) s) :
    ∃ pre, chunks ls = pre ++ [c] ∧ deliveries ls = pre.length + 1 := by
  generalize hl : ls ++ [Label.look c] = ls' at h
  cases h with
  | nil => simp at hl
  | snoc s' s'' ls1 l hr hs =>
    obtain ⟨e1, e2⟩ := List.append_inj' hl rfl
    cases e2
    subst e1
    have hi := inv_run hr
    cases hs with
    | look n hc =>
      unfold Inv Fresh Pending InUse Over quiet at hi
      simp only [hc, reduceCtorEq, or_false, false_or, false_and, and_false, exists_false] at hi
      obtain ⟨pre, c, h1, h2, h3, -, -, -, h7⟩ := hi
      cases h7
      rw [h3]
      exact ⟨pre, h1, h2⟩

/-- **C55**, the order: every chunk is delivered at most once and none is skipped; at most one is still on its way. -/
theorem C55_once (size : Nat) (ls : List Label) (s : State) (h : Run (init size) ls s) :
    deliveries ls ≤ (chunks ls).length ∧ (chunks ls).length ≤ deliveries ls + 1 := by
  rcases inv_run h with ⟨-, -, h, -⟩ | ⟨pre, c, h1, h2, -⟩ | ⟨pre, c, h1, h2, -⟩ | ⟨-, -, h⟩
  · omega
  · simp [h1, h2]
  · simp [h1, h2]
  · exact h

/-- **C55**, no read in between: from the moment a slice is handed out until `Ready` has been called, the reader is not in `conn.Read`, and
no next step lets it read. -/
theorem C55_no_read (size : Nat) (ls : List Label) (s : State) (h : Run (init size) ls s)
    (hu : s.chBuf ≠ none ∨ (∃ n, s.cons = .handle n) ∨ ∃ f, s.cons = .ready f) :
    s.reader ≠ .reading ∧ ∀ l s', Step s l s' → s'.reader ≠ .reading ∧ s'.buf = s.buf := by
  have hr : s.reader = .select ∨ s.reader = .ended := by
    rcases inv_run h with ⟨h1, h2, -, -⟩ | ⟨pre, c, -, -, -, h4, -, h6⟩ | ⟨pre, c, -, -, -, -, h5, -⟩ | ⟨h1, -⟩
    · unfold quiet at h2
      rcases hu with hu | ⟨n, hu⟩ | ⟨f, hu⟩
      · exact absurd h1 hu
      · rw [hu] at h2; simp at h2
      · rw [hu] at h2; simp at h2
    · unfold quiet at h4
      rcases h6 with ⟨-, h6⟩ | ⟨h6, -⟩
      · rcases hu with hu | ⟨n, hu⟩ | ⟨f, hu⟩
        · exact absurd h6 hu
        · rw [hu] at h4; simp at h4
        · rw [hu] at h4; simp at h4
      · exact .inl h6
    · exact .inl h5
    · exact .inr h1
  refine ⟨by rcases hr with h | h <;> rw [h] <;> simp, ?_⟩
  intro l s' hs
  cases hs <;> rcases hr with h | h <;> simp_all

/-- **C55** fails for data that comes together with an error (`io.Reader` allows it): such data is never delivered. -/
theorem C55_refuted_with_error (size : Nat) (c : Bytes) (hc : c.length ≤ size) : ∃ ls s, Run (init size) (ls ++ [.readErr c]) s ∧ deliveries ls = 0 ∧
    ∀ ls' s', Run s ls' s' → deliveries ls' = 0 := by
  have hrun := Run.step (.startRead (init size) (List.replicate size 0) rfl rfl) <| .step (.readFail _ c rfl (by simpa using hc)) <| .nil
  refine ⟨[.tau], _, hrun, rfl, ?_⟩
  intro ls' s' h
  have key : (s'.chBuf = none ∧ ((∃ b, s'.reader = .sendErr b) ∨ s'.reader = .ended)) ∧ deliveries ls' = 0 := by
    induction h with
    | nil => exact ⟨⟨rfl, .inl ⟨_, rfl⟩⟩, rfl⟩
    | snoc s1 s2 ls l _ hs ih =>
      obtain ⟨⟨h1, h2⟩, h3⟩ := ih
      rw [deliveries_append, h3]
      cases hs <;> rcases h2 with ⟨b, h2⟩ | h2 <;> simp_all [deliveries]
  exact key.2

/-- a message that the consumer looks at -/
example : ∃ s, Run (init 4) [.tau, .read [1, 2], .tau, .deliver, .look [1, 2]] s :=
  ⟨_, .step (.startRead _ [7, 7, 7, 7] rfl rfl) <| .step (.readOk _ [1, 2] rfl (by decide) (by decide)) <| .step (.sendBuf _ 2 rfl rfl) <| .step (.take _ 2 rfl rfl) <|
    .step (.look _ 2 rfl) <| .nil⟩

/-- **C55**: what the consumer sees is never empty, and never longer than the buffer: a read that returns no data is reported as the end, not delivered. -/
theorem C55_not_empty (size : Nat) (ls : List Label) (s : State) (c : Bytes) (h : Run (init size) (ls ++ [.look c]) s) : 0 < c.length ∧ c.length ≤ size := by
  have key : ∀ ls s, Run (init size) ls s → s.buf.length = size ∧ ∀ c ∈ chunks ls, 0 < c.length ∧ c.length ≤ size := by
    intro ls s h
    induction h with
    | nil => exact ⟨by simp [init], nofun⟩
    | snoc s' s'' ls l _ hs ih =>
      rw [chunks_append]
      obtain ⟨h1, h2⟩ := ih
      cases hs with
      | readOk c hr h0 hc =>
        refine ⟨?_, ?_⟩
        · simp only [List.length_append, List.length_drop]; omega
        · intro c' hc'
          rcases List.mem_append.mp hc' with hc' | hc'
          · exact h2 c' hc'
          · simp only [chunks, List.mem_singleton] at hc'
            subst hc'
            omega
      | startRead b hr hb => exact ⟨hb.trans h1, by simpa [chunks] using h2⟩
      | readFail c hr hc =>
        refine ⟨?_, by simpa [chunks] using h2⟩
        simp only [List.length_append, List.length_drop]; omega
      | _ => exact ⟨h1, by simpa [chunks] using h2⟩
  obtain ⟨pre, e, -⟩ := C55_intact size ls s c h
  refine (key _ _ h).2 c ?_
  rw [chunks_append, e]
  simp

/-- **C55**: `Ready` never blocks: whenever `recvLoop` has handled a message, it can go on at once. -/
theorem C55_ready (size : Nat) (ls : List Label) (s : State) (f : Bool) (h : Run (init size) ls s) (hc : s.cons = .ready f) :
    s.chReady = false ∧ ∃ s', Step s .tau s' ∧ s'.chReady = true ∧ s'.cons = if f then .report else .select := by
  have : s.chReady = false := by
    rcases inv_run h with ⟨-, h2, -, -⟩ | ⟨pre, c, -, -, -, h4, -⟩ | ⟨pre, c, -, -, -, h4, -⟩ | ⟨-, h2, -⟩
    · unfold quiet at h2; simp [hc] at h2
    · unfold quiet at h4; simp [hc] at h4
    · exact h4
    · simp [hc] at h2
  exact ⟨this, _, .ready s f hc this, rfl, rfl⟩

example : ∃ ls s, Run (init 4) ls s ∧ s.cons = .ready false :=
  ⟨_, _, .step (.startRead _ [7, 7, 7, 7] rfl rfl) <| .step (.readOk _ [1, 2] rfl (by decide) (by decide)) <| .step (.sendBuf _ 2 rfl rfl) <| .step (.take _ 2 rfl rfl) <|
    .step (.handled _ 2 false rfl) <| .nil, rfl⟩

/-! ### C56 -/

/-- both goroutines have returned -/
def Finished (s : State) : Prop := s.cons = .ended ∧ s.reader = .ended

theorem finish_meets {s : State} (hc : s.cons = .finish) (hr : s.reader = .select) (hy : s.chReady = false) : Inevitable Next Finished s := by
  refine .next s ⟨_, _, .recvDone s hr hc⟩ ?_
  rintro s' ⟨l, hs⟩
  cases hs <;> simp_all
  refine .next _ ⟨_, _, .finishDeadline _ rfl⟩ ?_
  rintro s' ⟨l, hs⟩
  cases hs <;> simp_all
  exact .now _ ⟨rfl, rfl⟩

/-- **C56** (partial: it says exactly when the claim holds).  When `Finish` is called, it and the read loop are certain to end if and only
if the reader holds a chunk that was not yet followed by `Ready`; if it is reading, or about to read, or has met an error, then some
schedule blocks both for ever. -/
theorem C56_exact_partial (size : Nat) (ls : List Label) (s : State) (h : Run (init size) ls s) (hc : s.cons = .finish) :
    Inevitable Next Finished s ↔ (∃ n, s.reader = .sendBuf n) ∨ s.reader = .select ∧ s.chReady = false := by
  constructor
  · intro hi
    apply Classical.byContradiction
    intro hn
    refine not_inevitable (P := Finished) (fun s => s.cons = .finish ∧ (s.reader = .deadline ∨ s.reader = .reading ∨ (∃ b, s.reader = .sendErr b) ∨
      s.reader = .select ∧ s.chReady = true)) ?_ ⟨hc, ?_⟩ hi
    · rintro s ⟨h1, h2⟩
      refine ⟨fun hf => (by have := hf.1; rw [h1] at this; cases this), ?_⟩
      rcases h2 with h2 | h2 | ⟨b, h2⟩ | ⟨h2, h3⟩
      · exact .inr ⟨_, ⟨_, .startRead s s.buf h2 rfl⟩, h1, .inr (.inl rfl)⟩
      · exact .inr ⟨_, ⟨_, .readFail s [] h2 (Nat.zero_le _)⟩, h1, .inr (.inr (.inl ⟨_, rfl⟩))⟩
      · refine .inl ?_
        rintro s' ⟨l, hs⟩
        cases hs <;> simp_all
      · exact .inr ⟨_, ⟨_, .recvReady s h2 h3⟩, h1, .inl rfl⟩
    · rcases inv_run h with ⟨-, -, -, ⟨h3, -⟩ | ⟨h3, h4⟩⟩ | ⟨pre, c, -, -, -, -, h4, ⟨h6, -⟩ | ⟨h6, -⟩⟩ | ⟨pre, c, -, -, -, -, -, -, h8⟩ | ⟨-, h2, -⟩
      · rcases h3 with h3 | h3 | h3
        · exact .inl h3
        · exact .inr (.inl h3)
        · exact .inr (.inr (.inl h3))
      · exact .inr (.inr (.inr ⟨h3, h4⟩))
      · exact absurd (.inl ⟨_, h6⟩) hn
      · exact absurd (.inr ⟨h6, h4⟩) hn
      · rw [hc] at h8; simp at h8
      · rw [hc] at h2; simp at h2
  · rintro (⟨n, h1⟩ | ⟨h1, h2⟩)
    · have hb : s.chBuf = none ∧ s.chReady = false := by
        rcases inv_run h with ⟨-, -, -, h3⟩ | ⟨pre, c, -, -, -, -, h4, ⟨-, h6⟩ | ⟨h6, -⟩⟩ | ⟨pre, c, -, -, -, -, h5, -⟩ | ⟨h2, -⟩
        · rw [h1] at h3; simp at h3
        · exact ⟨h6, h4⟩
        · rw [h1] at h6; cases h6
        · rw [h1] at h5; cases h5
        · rw [h1] at h2; cases h2
      refine .next s ⟨_, _, .sendBuf s n h1 hb.1⟩ ?_
      rintro s' ⟨l, hs⟩
      have : s'.cons = .finish ∧ s'.reader = .select ∧ s'.chReady = false := by cases hs <;> simp_all
      exact finish_meets this.1 this.2.1 this.2.2
    · exact finish_meets hc h1 h2

/-- a call of `Finish` while a chunk waits to be taken -/
example : ∃ ls s, Run (init 4) ls s ∧ s.cons = .finish ∧ Inevitable Next Finished s := by
  have hrun := Run.step (.startRead (init 4) [7, 7, 7, 7] rfl rfl) <| .step (.readOk _ [1, 2] rfl (by decide) (by decide)) <| .step (.sendBuf _ 2 rfl rfl) <|
    .step (.kill _ rfl) <| .nil
  exact ⟨_, _, hrun, rfl, (C56_exact_partial 4 _ _ hrun rfl).mpr (.inr ⟨rfl, rfl⟩)⟩

/-- C56 refuted: the peer is silent, `Finish` is called during a read, the read ends with an error: the reader waits for somebody to take
the error, `Finish` waits for the reader to take its order, and no step is possible any more. -/
theorem C56_refuted_deadlock (size : Nat) : ∃ ls s, Run (init size) ls s ∧ s.cons = .finish ∧ s.reader = .sendErr false ∧ Stuck Next s := by
  refine ⟨_, _, Run.step (.startRead (init size) _ rfl rfl) <| .step (.kill _ rfl) <| .step (.readFail _ [] rfl (Nat.zero_le _)) <| .nil, rfl, rfl, ?_⟩
  rintro s' ⟨l, hs⟩
  cases hs <;> simp_all [init]

/-- **C56** (partial): a read loop that has met an error ends only when it has told `recvLoop`, which reports it if it is not nil, and returns silently if it is. -/
theorem C56_told_partial {s s' : State} {l : Label} (isNil : Bool) (hr : s.reader = .sendErr isNil) (hs : Step s l s') :
    s'.reader = .sendErr isNil ∨ s'.reader = .ended ∧ s.cons = .select ∧ s'.cons = (if isNil = true then .ended else .report) := by
  cases hs <;> simp_all

/-- an instance: a read that fails -/
example : ∃ ls s, Run (init 3) ls s ∧ s.reader = .sendErr false ∧ s.cons = .select ∧ ∃ s', Next s s' ∧ s'.cons = .report :=
  ⟨_, _, Run.step (.startRead (init 3) _ rfl rfl) <| .step (.readFail _ [] rfl (Nat.zero_le _)) <| .nil, rfl, rfl, _, ⟨_, .takeErr _ false rfl rfl⟩, rfl⟩

/-- **C56** (partial): how the read loop ends by itself.  If the deadline cannot be set, both goroutines can end, and `recvLoop` reports it; if a read returns neither data nor an error,
which `io.Reader` allows, both can end without anything being reported. -/
theorem C56_by_itself_partial (s : State) (hc : s.cons = .select) :
    (s.reader = .deadline → ∃ s1 s2 s3, Next s s1 ∧ Next s1 s2 ∧ Next s2 s3 ∧ s1.reader = .sendErr false ∧ s2.cons = .report ∧ s3.cons = .ended ∧ s3.reader = .ended) ∧
    (s.reader = .reading → ∃ s1 s2, Step s (.readErr []) s1 ∧ Next s1 s2 ∧ s1.cons = .select ∧ s2.cons = .ended ∧ s2.reader = .ended) :=
  ⟨fun hr => ⟨_, _, _, ⟨_, .deadlineErr s hr⟩, ⟨_, .takeErr _ false hc rfl⟩, ⟨_, .report _ rfl⟩, rfl, rfl, rfl, rfl⟩,
    fun hr => ⟨_, _, .readNone s hr, ⟨_, .takeErr _ true hc rfl⟩, hc, rfl, rfl⟩⟩

/-- an instance: the start, and the first read -/
example : (init 3).cons = .select ∧ (init 3).reader = .deadline ∧ ∃ s, Next (init 3) s ∧ s.cons = .select ∧ s.reader = .reading :=
  ⟨rfl, rfl, _, ⟨_, .startRead (init 3) _ rfl rfl⟩, rfl, rfl⟩

/-- Without `Finish` there is no end: once `recvLoop` has returned and the read loop runs, it runs or blocks for ever. -/
theorem C56_refuted_leak {s s' : State} (hc : s.cons = .ended) (hr : s.reader ≠ .ended) (h : Reach Next s s') : s'.reader ≠ .ended := by
  have key : s'.cons = .ended ∧ s'.reader ≠ .ended := by
    refine h.keep (Q := fun s => s.cons = .ended ∧ s.reader ≠ .ended) ?_ ⟨hc, hr⟩
    rintro a b ⟨h1, h2⟩ ⟨l, hs⟩
    cases hs <;> simp_all
  exact key.2

/-- and this happens when a message is refused -/
example : ∃ ls s, Run (init 4) ls s ∧ s.cons = .ended ∧ s.reader ≠ .ended :=
  ⟨_, _, .step (.startRead _ [7, 7, 7, 7] rfl rfl) <| .step (.readOk _ [1, 2] rfl (by decide) (by decide)) <| .step (.sendBuf _ 2 rfl rfl) <| .step (.take _ 2 rfl rfl) <|
    .step (.handled _ 2 true rfl) <| .step (.ready _ true rfl rfl) <| .step (.report _ rfl) <| .nil, rfl, by simp⟩

end Verif.ReadLoop
